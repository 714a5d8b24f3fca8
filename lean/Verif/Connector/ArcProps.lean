import Verif.Connector.Arc

/-!
# C51: the arc connector
-/

set_option linter.unusedSectionVars false

namespace PyX.Connector

open Real PyX.NormPath PyX.Path

noncomputable section

/-! ## Specification -/

/-- The direction in which an arc is passed at an angle in degrees. -/
def travel (clockwise : Bool) (angle : ℝ) : ℝ × ℝ :=
  if clockwise then (sin (radians angle), -cos (radians angle)) else (-sin (radians angle), cos (radians angle))

/-- The direction from `a` to `b`, turned by an angle in radians. -/
def turned (a b : ℝ × ℝ) (ra : ℝ) : ℝ × ℝ :=
  (((b.1 - a.1) * cos ra - (b.2 - a.2) * sin ra) / dist a b, ((b.1 - a.1) * sin ra + (b.2 - a.2) * cos ra) / dist a b)

/-- `conn` is the circular arc from `a` to `b` that deviates from the straight line by `bulge` (to the left, if it is positive), and
starts in the direction of the straight line turned by `ra`. -/
def IsArc (conn : Conn) (a b : ℝ × ℝ) (bulge ra : ℝ) : Prop :=
  ∃ cw c r a1 a2, conn = .arc cw a c r a1 a2 ∧ 0 < r ∧
    circlePoint c.1 c.2 r (radians a1) = a ∧ circlePoint c.1 c.2 r (radians a2) = b ∧
    (∀ p, conn.On p ↔ dist c p = r ∧ 0 ≤ bulge * left a b p) ∧
    (∀ p, conn.On p → |left a b p| ≤ |bulge|) ∧
    (∃ p, conn.On p ∧ left a b p = bulge) ∧
    travel cw a1 = turned a b ra ∧ travel cw a2 = turned a b (-ra)

/-! ## Proofs -/

theorem hypot_dist (a b : ℝ × ℝ) : hypot (b.1 - a.1) (b.2 - a.2) = dist a b := rfl

theorem dist_pos {a b : ℝ × ℝ} (h : a ≠ b) : 0 < dist a b := by
  unfold dist
  apply sqrt_pos.mpr
  by_contra hc
  push Not at hc
  have h1 : (b.1 - a.1) ^ 2 = 0 := by nlinarith [sq_nonneg (b.1 - a.1), sq_nonneg (b.2 - a.2)]
  have h2 : (b.2 - a.2) ^ 2 = 0 := by nlinarith [sq_nonneg (b.1 - a.1), sq_nonneg (b.2 - a.2)]
  apply h
  apply Prod.ext
  · linarith [pow_eq_zero_iff (two_ne_zero) |>.mp h1]
  · linarith [pow_eq_zero_iff (two_ne_zero) |>.mp h2]

/-- The double angle of an arctangent. -/
theorem double_arctan (τ : ℝ) : sin (2 * arctan τ) * (1 + τ ^ 2) = 2 * τ ∧ cos (2 * arctan τ) * (1 + τ ^ 2) = 1 - τ ^ 2 := by
  have hc := cos_sq_arctan τ
  have hp : 0 < cos (arctan τ) := cos_arctan_pos τ
  have ht : sin (arctan τ) = τ * cos (arctan τ) := by
    have := tan_arctan τ
    rw [tan_eq_sin_div_cos, div_eq_iff hp.ne'] at this
    exact this
  have h1 : (1 + τ ^ 2 : ℝ) ≠ 0 := by positivity
  have h2 : cos (arctan τ) ^ 2 * (1 + τ ^ 2) = 1 := by
    rw [hc]
    field_simp
  rw [sin_two_mul, cos_two_mul, ht]
  constructor
  · linear_combination 2 * τ * h2
  · linear_combination 2 * h2

/-- The angle of a point on the circle. -/
theorem angle_of {x y r φ : ℝ} (hr : 0 < r) (hx : x = r * cos φ) (hy : y = r * sin φ) :
    cos (atan2 y x) = cos φ ∧ sin (atan2 y x) = sin φ := by
  have hh : hypot x y = r := by
    unfold hypot
    rw [hx, hy, show (r * cos φ) ^ 2 + (r * sin φ) ^ 2 = r ^ 2 * (sin φ ^ 2 + cos φ ^ 2) by ring, sin_sq_add_cos_sq, mul_one,
      sqrt_sq hr.le]
  obtain ⟨p1, p2⟩ := polar x y
  rw [hh] at p1 p2
  exact ⟨mul_left_cancel₀ hr.ne' (p1.trans hx), mul_left_cancel₀ hr.ne' (p2.trans hy)⟩

theorem arc_geometry (eps : ℝ) (a b : ℝ × ℝ) (hab : a ≠ b) (relangle : ℝ) (absbulge relbulge : Option ℝ) (B : ℝ)
    (hB : arcBulge (dist a b) relangle absbulge relbulge = B) (h0 : B ≠ 0) (he : eps ≤ |B|) :
    ∃ conn, arc eps a b relangle absbulge relbulge = .ok conn ∧ IsArc conn a b B (2 * arctan (2 * B / dist a b)) := by
  have hpi := pi_pos
  have hd := dist_pos hab
  unfold arc
  simp only [hypot_dist, hB]
  rw [if_neg hd.ne', if_neg (not_lt.mpr he), if_neg h0]
  refine ⟨_, rfl, ?_⟩
  have hd2 : dist a b ^ 2 = (b.1 - a.1) ^ 2 + (b.2 - a.2) ^ 2 := hypot_sq _ _
  obtain ⟨q1, q2⟩ := polar (b.1 - a.1) (b.2 - a.2)
  rw [hypot_dist] at q1 q2
  set δ := atan2 (b.2 - a.2) (b.1 - a.1)
  have htx : (b.1 - a.1) / dist a b = cos δ := by rw [div_eq_iff hd.ne', ← q1, mul_comm]
  have hty : (b.2 - a.2) / dist a b = sin δ := by rw [div_eq_iff hd.ne', ← q2, mul_comm]
  have hunit := sin_sq_add_cos_sq δ
  rw [htx, hty]
  -- the signed radius
  set d := dist a b
  set R := 1 / 2 * (B + 1 / 4 * d ^ 2 / B) with hRdef
  have hRB : R * B = 1 / 2 * B ^ 2 + 1 / 8 * d ^ 2 := by
    rw [hRdef]
    field_simp
    ring
  set ra := 2 * arctan (2 * B / d) with hra
  obtain ⟨e1, e2⟩ := double_arctan (2 * B / d)
  rw [← hra] at e1 e2
  have hf : 1 + (2 * B / d) ^ 2 = 8 * R * B / d ^ 2 := by
    rw [mul_assoc, hRB]
    field_simp
    ring
  rw [hf] at e1 e2
  have hsin : R * sin ra = d / 2 := by
    have : sin ra * (8 * R * B / d ^ 2) * d ^ 2 = 2 * (2 * B / d) * d ^ 2 := by rw [e1]
    field_simp at this
    linarith
  have hcos : R * cos ra = R - B := by
    have : cos ra * (8 * R * B / d ^ 2) * d ^ 2 = (1 - (2 * B / d) ^ 2) * d ^ 2 := by rw [e2]
    field_simp at this
    have h2 : B * (R * cos ra) = B * (R - B) := by linarith
    exact mul_left_cancel₀ h0 h2
  have hrange1 := arctan_lt_pi_div_two (2 * B / d)
  have hrange2 := neg_pi_div_two_lt_arctan (2 * B / d)
  have hleft : ∀ p : ℝ × ℝ, left a b p = (p.2 - a.2) * cos δ - (p.1 - a.1) * sin δ := by
    intro p
    unfold left
    rw [← htx, ← hty]
    ring
  have hb1 : b.1 = a.1 + d * cos δ := by linarith
  have hb2 : b.2 = a.2 + d * sin δ := by linarith
  have hturn : ∀ x, turned a b x = (cos (δ + x), sin (δ + x)) := by
    intro x
    unfold turned
    rw [cos_add, sin_add, ← htx, ← hty]
    apply Prod.ext
    · show _ / d = _
      ring
    · show _ / d = _
      ring
  clear_value R ra d δ
  rcases lt_or_gt_of_ne h0 with hneg | hpos
  · -- the arc bends to the right
    have hR : R < 0 := by
      by_contra hc
      push Not at hc
      have h1 := mul_nonneg hc (neg_nonneg.mpr hneg.le)
      have h2 : 0 < 1 / 2 * B ^ 2 + 1 / 8 * d ^ 2 := by positivity
      linarith
    have hr : |R| = -R := abs_of_neg hR
    have hs : msign B * (|R| - |B|) = R - B := by
      unfold msign
      rw [if_neg (not_le.mpr hneg), hr, abs_of_neg hneg]
      ring
    rw [if_neg (not_lt.mpr hneg.le), hs, hr]
    set c : ℝ × ℝ := (1 / 2 * (a.1 + b.1) + sin δ * (R - B), 1 / 2 * (a.2 + b.2) - cos δ * (R - B)) with hc
    have hc1 : c.1 = 1 / 2 * (a.1 + b.1) + sin δ * (R - B) := rfl
    have hc2 : c.2 = 1 / 2 * (a.2 + b.2) - cos δ * (R - B) := rfl
    have hθ : 0 < -ra ∧ -ra < π := by
      refine ⟨?_, by linarith⟩
      have : arctan (2 * B / d) < 0 := by
        rw [← arctan_zero]
        exact arctan_strictMono (div_neg_of_neg_of_pos (by linarith) hd)
      linarith
    have hca : cos (δ - π / 2 - -ra) = cos (δ + ra - π / 2) := by congr 1; ring
    have hsa : sin (δ - π / 2 - -ra) = sin (δ + ra - π / 2) := by congr 1; ring
    have hcb : cos (δ - π / 2 + -ra) = cos (δ - ra - π / 2) := by congr 1; ring
    have hsb : sin (δ - π / 2 + -ra) = sin (δ - ra - π / 2) := by congr 1; ring
    rw [cos_sub_pi_div_two] at hca hcb
    rw [sin_sub_pi_div_two] at hsa hsb
    have ha1 : a.1 - c.1 = -R * cos (δ - π / 2 - -ra) := by
      rw [hca, sin_add, hc1, hb1]
      linear_combination cos δ * hsin + sin δ * hcos
    have ha2 : a.2 - c.2 = -R * sin (δ - π / 2 - -ra) := by
      rw [hsa, cos_add, hc2, hb2]
      linear_combination sin δ * hsin - cos δ * hcos
    have hb1' : b.1 - c.1 = -R * cos (δ - π / 2 + -ra) := by
      rw [hcb, sin_sub, hc1, hb1]
      linear_combination -cos δ * hsin + sin δ * hcos
    have hb2' : b.2 - c.2 = -R * sin (δ - π / 2 + -ra) := by
      rw [hsb, cos_sub, hc2, hb2]
      linear_combination -sin δ * hsin - cos δ * hcos
    have hrp : 0 < -R := by linarith
    have ka := angle_of hrp ha1 ha2
    have kb := angle_of hrp hb1' hb2'
    have hccw := ccw_iff c (-R) (δ - π / 2) (-ra) _ _ hrp hθ.1 hθ.2 (atan2_range (a.1 - c.1) (a.2 - c.2))
      (atan2_range (b.1 - c.1) (b.2 - c.2)) ka kb
    have hon : ∀ p, (Conn.arc (if false = true then true else false) a c (-R) (degrees (atan2 (a.2 - c.2) (a.1 - c.1)))
        (degrees (atan2 (b.2 - c.2) (b.1 - c.1)))).On p ↔ dist c p = -R ∧ 0 ≤ B * left a b p := by
      intro p
      refine (hccw p).trans ?_
      rw [hleft, cos_neg, cos_sub_pi_div_two, sin_sub_pi_div_two]
      have h1 : (p.1 - c.1) * sin δ + (p.2 - c.2) * -cos δ - -R * cos ra = -((p.2 - a.2) * cos δ - (p.1 - a.1) * sin δ) := by
        rw [hc1, hc2, hb1, hb2]
        linear_combination hcos - (R - B) * hunit
      constructor
      · rintro ⟨h2, h3⟩
        exact ⟨h2, mul_nonneg_of_nonpos_of_nonpos hneg.le (by linarith)⟩
      · rintro ⟨h2, h3⟩
        refine ⟨h2, ?_⟩
        have : (p.2 - a.2) * cos δ - (p.1 - a.1) * sin δ ≤ 0 := by
          by_contra hcon
          push Not at hcon
          have := mul_neg_of_neg_of_pos hneg hcon
          linarith
        linarith
    refine ⟨false, c, -R, _, _, rfl, hrp, ?_, ?_, hon, ?_, ?_, ?_, ?_⟩
    · rw [radians_degrees]
      unfold circlePoint
      rw [ka.1, ka.2, ← ha1, ← ha2]
      apply Prod.ext
      · show c.1 + (a.1 - c.1) = a.1
        ring
      · show c.2 + (a.2 - c.2) = a.2
        ring
    · rw [radians_degrees]
      unfold circlePoint
      rw [kb.1, kb.2, ← hb1', ← hb2']
      apply Prod.ext
      · show c.1 + (b.1 - c.1) = b.1
        ring
      · show c.2 + (b.2 - c.2) = b.2
        ring
    · intro p hp
      obtain ⟨h1, h2⟩ := (hon p).mp hp
      have h3 : left a b p ≤ 0 := by
        by_contra hcon
        push Not at hcon
        have := mul_neg_of_neg_of_pos hneg hcon
        linarith
      rw [abs_of_nonpos h3, abs_of_neg hneg]
      have h4 : (p.1 - c.1) ^ 2 + (p.2 - c.2) ^ 2 = R ^ 2 := by
        have : hypot (p.1 - c.1) (p.2 - c.2) = -R := h1
        rw [← hypot_sq, this]
        ring
      have h5 : left a b p = (p.2 - c.2) * cos δ - (p.1 - c.1) * sin δ - (R - B) := by
        rw [hleft, hc1, hc2, hb1, hb2]
        linear_combination -(R - B) * hunit
      have h6 : ((p.2 - c.2) * cos δ - (p.1 - c.1) * sin δ) ^ 2 ≤ (-R) ^ 2 := by
        have : 0 ≤ ((p.2 - c.2) * sin δ + (p.1 - c.1) * cos δ) ^ 2 := sq_nonneg _
        have e : ((p.2 - c.2) * cos δ - (p.1 - c.1) * sin δ) ^ 2 + ((p.2 - c.2) * sin δ + (p.1 - c.1) * cos δ) ^ 2 = R ^ 2 := by
          rw [← h4]
          linear_combination ((p.1 - c.1) ^ 2 + (p.2 - c.2) ^ 2) * hunit
        linarith
      have h7 := (abs_le_of_sq_le_sq' h6 hrp.le).1
      rw [h5]
      linarith
    · refine ⟨(c.1 - R * sin δ, c.2 + R * cos δ), ?_⟩
      have hl : left a b (c.1 - R * sin δ, c.2 + R * cos δ) = B := by
        rw [hleft]
        show (c.2 + R * cos δ - a.2) * cos δ - (c.1 - R * sin δ - a.1) * sin δ = B
        rw [hc1, hc2, hb1, hb2]
        linear_combination B * hunit
      refine ⟨(hon _).mpr ⟨?_, ?_⟩, hl⟩
      · unfold dist
        show sqrt ((c.1 - R * sin δ - c.1) ^ 2 + (c.2 + R * cos δ - c.2) ^ 2) = -R
        rw [show (c.1 - R * sin δ - c.1) ^ 2 + (c.2 + R * cos δ - c.2) ^ 2 = (-R) ^ 2 * (sin δ ^ 2 + cos δ ^ 2) by ring, hunit, mul_one,
          sqrt_sq hrp.le]
      · rw [hl]
        exact mul_self_nonneg B
    · unfold travel
      rw [if_neg (by simp), radians_degrees, hturn, ka.1, ka.2, hca, hsa]
      simp
    · unfold travel
      rw [if_neg (by simp), radians_degrees, hturn, kb.1, kb.2, hcb, hsb]
      simp [sub_eq_add_neg]
  · -- the arc bends to the left
    have hR : 0 < R := by
      by_contra hc
      push Not at hc
      have h1 := mul_nonneg (neg_nonneg.mpr hc) hpos.le
      have h2 : 0 < 1 / 2 * B ^ 2 + 1 / 8 * d ^ 2 := by positivity
      linarith
    have hr : |R| = R := abs_of_pos hR
    have hs : msign B * (|R| - |B|) = R - B := by
      unfold msign
      rw [if_pos hpos.le, hr, abs_of_pos hpos]
      ring
    rw [if_pos hpos, hs, hr]
    set c : ℝ × ℝ := (1 / 2 * (a.1 + b.1) + sin δ * (R - B), 1 / 2 * (a.2 + b.2) - cos δ * (R - B)) with hc
    have hc1 : c.1 = 1 / 2 * (a.1 + b.1) + sin δ * (R - B) := rfl
    have hc2 : c.2 = 1 / 2 * (a.2 + b.2) - cos δ * (R - B) := rfl
    have hθ : 0 < ra ∧ ra < π := by
      refine ⟨?_, by linarith⟩
      have : 0 < arctan (2 * B / d) := by
        rw [← arctan_zero]
        exact arctan_strictMono (div_pos (by linarith) hd)
      linarith
    have hca : cos (δ + π / 2 + ra) = cos (δ + ra + π / 2) := by congr 1; ring
    have hsa : sin (δ + π / 2 + ra) = sin (δ + ra + π / 2) := by congr 1; ring
    have hcb : cos (δ + π / 2 - ra) = cos (δ - ra + π / 2) := by congr 1; ring
    have hsb : sin (δ + π / 2 - ra) = sin (δ - ra + π / 2) := by congr 1; ring
    rw [cos_add_pi_div_two] at hca hcb
    rw [sin_add_pi_div_two] at hsa hsb
    have ha1 : a.1 - c.1 = R * cos (δ + π / 2 + ra) := by
      rw [hca, sin_add, hc1, hb1]
      linear_combination cos δ * hsin + sin δ * hcos
    have ha2 : a.2 - c.2 = R * sin (δ + π / 2 + ra) := by
      rw [hsa, cos_add, hc2, hb2]
      linear_combination sin δ * hsin - cos δ * hcos
    have hb1' : b.1 - c.1 = R * cos (δ + π / 2 - ra) := by
      rw [hcb, sin_sub, hc1, hb1]
      linear_combination -cos δ * hsin + sin δ * hcos
    have hb2' : b.2 - c.2 = R * sin (δ + π / 2 - ra) := by
      rw [hsb, cos_sub, hc2, hb2]
      linear_combination -sin δ * hsin - cos δ * hcos
    have ka := angle_of hR ha1 ha2
    have kb := angle_of hR hb1' hb2'
    have hccw := ccw_iff c R (δ + π / 2) ra _ _ hR hθ.1 hθ.2 (atan2_range (b.1 - c.1) (b.2 - c.2))
      (atan2_range (a.1 - c.1) (a.2 - c.2)) kb ka
    have hon : ∀ p, (Conn.arc (if true = true then true else false) a c R (degrees (atan2 (a.2 - c.2) (a.1 - c.1)))
        (degrees (atan2 (b.2 - c.2) (b.1 - c.1)))).On p ↔ dist c p = R ∧ 0 ≤ B * left a b p := by
      intro p
      refine (hccw p).trans ?_
      rw [hleft, cos_add_pi_div_two, sin_add_pi_div_two]
      have h1 : (p.1 - c.1) * -sin δ + (p.2 - c.2) * cos δ - R * cos ra = ((p.2 - a.2) * cos δ - (p.1 - a.1) * sin δ) := by
        rw [hc1, hc2, hb1, hb2]
        linear_combination -hcos + (R - B) * hunit
      constructor
      · rintro ⟨h2, h3⟩
        exact ⟨h2, mul_nonneg hpos.le (by linarith)⟩
      · rintro ⟨h2, h3⟩
        refine ⟨h2, ?_⟩
        have : 0 ≤ (p.2 - a.2) * cos δ - (p.1 - a.1) * sin δ := by
          by_contra hcon
          push Not at hcon
          have := mul_neg_of_pos_of_neg hpos hcon
          linarith
        linarith
    refine ⟨true, c, R, _, _, rfl, hR, ?_, ?_, hon, ?_, ?_, ?_, ?_⟩
    · rw [radians_degrees]
      unfold circlePoint
      rw [ka.1, ka.2, ← ha1, ← ha2]
      apply Prod.ext
      · show c.1 + (a.1 - c.1) = a.1
        ring
      · show c.2 + (a.2 - c.2) = a.2
        ring
    · rw [radians_degrees]
      unfold circlePoint
      rw [kb.1, kb.2, ← hb1', ← hb2']
      apply Prod.ext
      · show c.1 + (b.1 - c.1) = b.1
        ring
      · show c.2 + (b.2 - c.2) = b.2
        ring
    · intro p hp
      obtain ⟨h1, h2⟩ := (hon p).mp hp
      have h3 : 0 ≤ left a b p := by
        by_contra hcon
        push Not at hcon
        have := mul_neg_of_pos_of_neg hpos hcon
        linarith
      rw [abs_of_nonneg h3, abs_of_pos hpos]
      have h4 : (p.1 - c.1) ^ 2 + (p.2 - c.2) ^ 2 = R ^ 2 := by
        have : hypot (p.1 - c.1) (p.2 - c.2) = R := h1
        rw [← hypot_sq, this]
      have h5 : left a b p = (p.2 - c.2) * cos δ - (p.1 - c.1) * sin δ - (R - B) := by
        rw [hleft, hc1, hc2, hb1, hb2]
        linear_combination -(R - B) * hunit
      have h6 : ((p.2 - c.2) * cos δ - (p.1 - c.1) * sin δ) ^ 2 ≤ R ^ 2 := by
        have : 0 ≤ ((p.2 - c.2) * sin δ + (p.1 - c.1) * cos δ) ^ 2 := sq_nonneg _
        have e : ((p.2 - c.2) * cos δ - (p.1 - c.1) * sin δ) ^ 2 + ((p.2 - c.2) * sin δ + (p.1 - c.1) * cos δ) ^ 2 = R ^ 2 := by
          rw [← h4]
          linear_combination ((p.1 - c.1) ^ 2 + (p.2 - c.2) ^ 2) * hunit
        linarith
      have h7 := (abs_le_of_sq_le_sq' h6 hR.le).2
      rw [h5]
      linarith
    · refine ⟨(c.1 - R * sin δ, c.2 + R * cos δ), ?_⟩
      have hl : left a b (c.1 - R * sin δ, c.2 + R * cos δ) = B := by
        rw [hleft]
        show (c.2 + R * cos δ - a.2) * cos δ - (c.1 - R * sin δ - a.1) * sin δ = B
        rw [hc1, hc2, hb1, hb2]
        linear_combination B * hunit
      refine ⟨(hon _).mpr ⟨?_, ?_⟩, hl⟩
      · unfold dist
        show sqrt ((c.1 - R * sin δ - c.1) ^ 2 + (c.2 + R * cos δ - c.2) ^ 2) = R
        rw [show (c.1 - R * sin δ - c.1) ^ 2 + (c.2 + R * cos δ - c.2) ^ 2 = R ^ 2 * (sin δ ^ 2 + cos δ ^ 2) by ring, hunit, mul_one,
          sqrt_sq hR.le]
      · rw [hl]
        exact mul_self_nonneg B
    · unfold travel
      rw [if_pos (by simp), radians_degrees, hturn, ka.1, ka.2, hca, hsa]
      simp
    · unfold travel
      rw [if_pos (by simp), radians_degrees, hturn, kb.1, kb.2, hcb, hsb]
      simp [sub_eq_add_neg]

/-- **C51.**  With a bulge, the arc connector is the circular arc between the two centers which deviates from the straight line by
`absbulge + relbulge * distance`, at least if this is not smaller than `epsilon`. -/
theorem arc_bulge (eps : ℝ) (heps : 0 < eps) (a b : ℝ × ℝ) (hab : a ≠ b) (relangle : ℝ) (absbulge relbulge : Option ℝ)
    (hgiven : absbulge ≠ none ∨ relbulge ≠ none)
    (hbig : eps ≤ |absbulge.getD 0 + relbulge.getD 0 * dist a b|) :
    ∃ conn, arc eps a b relangle absbulge relbulge = .ok conn ∧
      IsArc conn a b (absbulge.getD 0 + relbulge.getD 0 * dist a b)
        (2 * arctan (2 * (absbulge.getD 0 + relbulge.getD 0 * dist a b) / dist a b)) := by
  apply arc_geometry eps a b hab relangle absbulge relbulge _ _ _ hbig
  · unfold arcBulge
    rw [if_pos]
    rcases absbulge with _ | x <;> rcases relbulge with _ | y <;> simp_all
  · intro h
    rw [h] at hbig
    simp at hbig
    linarith

/-- **C51.**  Without a bulge, the arc connector is the circular arc between the two centers which leaves the first center in the
direction of the straight line turned by `relangle` and reaches the second one in the direction turned by `-relangle`. -/
theorem arc_angle (eps : ℝ) (heps : 0 < eps) (a b : ℝ × ℝ) (hab : a ≠ b) (relangle : ℝ) (hlo : -180 < relangle) (hhi : relangle < 180)
    (hbig : eps ≤ |dist a b / 2 * tan (radians relangle / 2)|) :
    ∃ conn, arc eps a b relangle none none = .ok conn ∧
      IsArc conn a b (dist a b / 2 * tan (radians relangle / 2)) (radians relangle) := by
  have hpi := pi_pos
  have hd := dist_pos hab
  have hne : dist a b / 2 * tan (radians relangle / 2) ≠ 0 := by
    intro h
    rw [h] at hbig
    simp at hbig
    linarith
  have h := arc_geometry eps a b hab relangle none none (dist a b / 2 * tan (radians relangle / 2)) ?_ hne hbig
  · have e : 2 * arctan (2 * (dist a b / 2 * tan (radians relangle / 2)) / dist a b) = radians relangle := by
      rw [show 2 * (dist a b / 2 * tan (radians relangle / 2)) / dist a b = tan (radians relangle / 2) by field_simp]
      rw [arctan_tan]
      · ring
      · unfold radians
        have := mul_lt_mul_of_pos_right hlo hpi
        linarith
      · unfold radians
        have := mul_lt_mul_of_pos_right hhi hpi
        linarith
    rwa [e] at h
  · unfold arcBulge
    simp only [Option.isSome_none, Bool.or_self, Bool.false_eq_true, if_false]
    congr 1
    · ring
    · congr 1
      ring

/-- **C51.**  An arc with a bulge below `epsilon` is the straight line. -/
theorem arc_straight (eps : ℝ) (a b : ℝ × ℝ) (hab : a ≠ b) (relangle : ℝ) (absbulge relbulge : Option ℝ)
    (h : |arcBulge (dist a b) relangle absbulge relbulge| < eps) :
    arc eps a b relangle absbulge relbulge = .ok (.line a b) := by
  unfold arc
  have hd : hypot (b.1 - a.1) (b.2 - a.2) ≠ 0 := (dist_pos hab).ne'
  simp only
  rw [if_neg hd]
  exact if_pos h

/-- The hypotheses of `arc_bulge` and `arc_angle` can be met: the half circle over a line of length 2. -/
example : ∃ conn, arc (1 / 100000) (0, 0) (2, 0) 45 (some 1) none = .ok conn ∧ IsArc conn (0, 0) (2, 0) 1 (π / 2) ∧
    conn.On (1, 1) := by
  have hd : dist (0, 0) (2, 0) = 2 := by
    unfold dist
    rw [show ((2 : ℝ) - 0) ^ 2 + (0 - 0) ^ 2 = 2 ^ 2 by norm_num, sqrt_sq (by norm_num)]
  obtain ⟨conn, h1, h2⟩ := arc_bulge (1 / 100000) (by norm_num) (0, 0) (2, 0) (by simp) 45 (some 1) none (by simp)
    (by simp; norm_num)
  rw [hd] at h2
  have e : 2 * arctan (2 * ((some (1 : ℝ)).getD 0 + (none : Option ℝ).getD 0 * 2) / 2) = π / 2 := by
    simp
    ring
  have e' : (some (1 : ℝ)).getD 0 + (none : Option ℝ).getD 0 * 2 = 1 := by simp
  rw [e, e'] at h2
  refine ⟨conn, h1, h2, ?_⟩
  obtain ⟨cw, c, r, a1, a2, h3, h4, h5, h6, h7, h8, ⟨p, h9, h10⟩, _⟩ := h2
  have hcirc : ∀ q φ, circlePoint c.1 c.2 r φ = q → (q.1 - c.1) ^ 2 + (q.2 - c.2) ^ 2 = r ^ 2 := by
    rintro q φ rfl
    unfold circlePoint
    linear_combination r ^ 2 * sin_sq_add_cos_sq φ
  have k1 := hcirc _ _ h5
  have k2 := hcirc _ _ h6
  simp only at k1 k2
  have k3 : c.1 = 1 := by linarith
  obtain ⟨k4, _⟩ := (h7 p).mp h9
  have k5 : (p.1 - c.1) ^ 2 + (p.2 - c.2) ^ 2 = r ^ 2 := by
    rw [← k4]
    exact (hypot_sq (p.1 - c.1) (p.2 - c.2)).symm
  -- the highest point of the circle is at a height of 1
  have kk : ∀ q : ℝ × ℝ, left (0, 0) (2, 0) q = q.2 := by
    intro q
    unfold left
    rw [hd]
    ring
  have k6 : ∀ q : ℝ × ℝ, dist c q = r → 0 ≤ q.2 → q.2 ≤ 1 := by
    intro q hq hq2
    have := h8 q ((h7 q).mpr ⟨hq, by rw [kk]; linarith⟩)
    rw [kk, abs_of_nonneg hq2] at this
    simpa using this
  rw [kk] at h10
  have k7 : c.2 + r ≤ 1 := by
    by_contra hcon
    push Not at hcon
    have := k6 (c.1, c.2 + r) (by
      unfold dist
      show sqrt ((c.1 - c.1) ^ 2 + (c.2 + r - c.2) ^ 2) = r
      rw [show (c.1 - c.1) ^ 2 + (c.2 + r - c.2) ^ 2 = r ^ 2 by ring, sqrt_sq h4.le]) (by show 0 ≤ c.2 + r; linarith)
    simp only at this
    linarith
  have k8 : (1 - c.2) ^ 2 ≤ r ^ 2 := by
    rw [h10] at k5
    have := sq_nonneg (p.1 - c.1)
    linarith
  have k9 : 1 - c.2 ≤ r := (abs_le_of_sq_le_sq' k8 h4.le).2
  have k10 : r = 1 - c.2 := by linarith
  refine (h7 (1, 1)).mpr ⟨?_, by rw [kk]; norm_num⟩
  unfold dist
  show sqrt ((1 - c.1) ^ 2 + (1 - c.2) ^ 2) = r
  rw [k3, ← k10, show ((1 : ℝ) - 1) ^ 2 + r ^ 2 = r ^ 2 by ring, sqrt_sq h4.le]

end

end PyX.Connector
