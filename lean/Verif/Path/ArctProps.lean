import Verif.Path.SvgProps

/-!
# Tangent arcs (C81) and the context of the SVG output (C48)
-/

set_option linter.unusedSectionVars false

namespace PyX.Path

open Real PyX.NormPath

noncomputable section

theorem hypot_eq_zero {x y : ℝ} : hypot x y = 0 ↔ x = 0 ∧ y = 0 := by
  unfold hypot
  rw [sqrt_eq_zero (by positivity)]
  constructor
  · intro h
    constructor <;> nlinarith [sq_nonneg x, sq_nonneg y]
  · rintro ⟨rfl, rfl⟩; norm_num

/-- `arct` raises `ZeroDivisionError` exactly if the corner is the current point or the second point. -/
theorem arctItems_error (cur p1 p2 : Pt) (r : ℝ) : arctItems cur p1 p2 r = .error .zeroDivision ↔ cur = p1 ∨ p1 = p2 := by
  have e1 : hypot (p1.1 - cur.1) (p1.2 - cur.2) = 0 ↔ cur = p1 := by
    rw [hypot_eq_zero]
    constructor
    · rintro ⟨h1, h2⟩; ext <;> linarith
    · rintro rfl; simp
  have e2 : hypot (p2.1 - p1.1) (p2.2 - p1.2) = 0 ↔ p1 = p2 := by
    rw [hypot_eq_zero]
    constructor
    · rintro ⟨h1, h2⟩; ext <;> linarith
    · rintro rfl; simp
  rw [← e1, ← e2]
  unfold arctItems
  simp only
  split_ifs with h1 h2 <;> simp [h1]

set_option maxHeartbeats 1000000 in
/-- C81: for a corner `p1` of two different, not opposite directions and a positive radius, `arct` is a line to a point `t1` before the corner and an arc of the radius
to a point `t2` behind the corner; the arc touches both legs: the radii to `t1` and `t2` are perpendicular to the legs, and it starts in the direction of the
line; it is counterclockwise for a left turn and clockwise for a right turn and turns by less than 180 degrees. -/
theorem arct_spec (cur p1 p2 : Pt) (r : ℝ) (hr : 0 < r) (hx : (p1.1 - cur.1) * (p2.2 - p1.2) - (p1.2 - cur.2) * (p2.1 - p1.1) ≠ 0) :
    ∃ (M t1 t2 : Pt) (a1 a2 k1 k2 : ℝ),
      arctItems cur p1 p2 r = .ok [.lineto t1, if 0 < (p1.1 - cur.1) * (p2.2 - p1.2) - (p1.2 - cur.2) * (p2.1 - p1.1)
        then .arc M.1 M.2 r a1 a2 else .arcn M.1 M.2 r a1 a2] ∧
      t1 = arcpoint M.1 M.2 r a1 ∧ t2 = arcpoint M.1 M.2 r a2 ∧
      0 < k1 ∧ t1 = (p1.1 - k1 * (p1.1 - cur.1), p1.2 - k1 * (p1.2 - cur.2)) ∧
      0 < k2 ∧ t2 = (p1.1 + k2 * (p2.1 - p1.1), p1.2 + k2 * (p2.2 - p1.2)) ∧
      (t1.1 - M.1) * (p1.1 - cur.1) + (t1.2 - M.2) * (p1.2 - cur.2) = 0 ∧
      (t2.1 - M.1) * (p2.1 - p1.1) + (t2.2 - M.2) * (p2.2 - p1.2) = 0 ∧
      (if 0 < (p1.1 - cur.1) * (p2.2 - p1.2) - (p1.2 - cur.2) * (p2.1 - p1.1) then
        a1 < a2 ∧ a2 < a1 + 180 ∧
        (-sin (radians a1) * hypot (p1.1 - cur.1) (p1.2 - cur.2), cos (radians a1) * hypot (p1.1 - cur.1) (p1.2 - cur.2)) = (p1.1 - cur.1, p1.2 - cur.2)
      else
        a2 < a1 ∧ a1 < a2 + 180 ∧
        (sin (radians a1) * hypot (p1.1 - cur.1) (p1.2 - cur.2), -cos (radians a1) * hypot (p1.1 - cur.1) (p1.2 - cur.2)) = (p1.1 - cur.1, p1.2 - cur.2)) := by
  have hpi := pi_pos
  obtain ⟨cx, cy⟩ := cur
  obtain ⟨x1, y1⟩ := p1
  obtain ⟨x2, y2⟩ := p2
  simp only at hx ⊢
  generalize hX1 : x1 - cx = X1 at *
  generalize hY1 : y1 - cy = Y1 at *
  generalize hX2 : x2 - x1 = X2 at *
  generalize hY2 : y2 - y1 = Y2 at *
  have hl1 : 0 < hypot X1 Y1 := by
    rcases (hypot_nonneg X1 Y1).lt_or_eq with h | h
    · exact h
    · obtain ⟨h1, h2⟩ := hypot_eq_zero.mp h.symm
      rw [h1, h2] at hx
      simp at hx
  have hl2 : 0 < hypot X2 Y2 := by
    rcases (hypot_nonneg X2 Y2).lt_or_eq with h | h
    · exact h
    · obtain ⟨h1, h2⟩ := hypot_eq_zero.mp h.symm
      rw [h1, h2] at hx
      simp at hx
  have s1 := hypot_sq X1 Y1
  have s2 := hypot_sq X2 Y2
  generalize hL1 : hypot X1 Y1 = l1 at *
  generalize hL2 : hypot X2 Y2 = l2 at *
  unfold arctItems
  simp only [hX1, hY1, hX2, hY2, hL1, hL2]
  rw [if_neg (by rintro (h | h) <;> linarith)]
  generalize hdx1 : X1 / l1 = dx1
  generalize hdy1 : Y1 / l1 = dy1
  generalize hdx2 : X2 / l2 = dx2
  generalize hdy2 : Y2 / l2 = dy2
  have ex1 : X1 = dx1 * l1 := by rw [← hdx1]; field_simp
  have ey1 : Y1 = dy1 * l1 := by rw [← hdy1]; field_simp
  have ex2 : X2 = dx2 * l2 := by rw [← hdx2]; field_simp
  have ey2 : Y2 = dy2 * l2 := by rw [← hdy2]; field_simp
  have u1 : dx1 ^ 2 + dy1 ^ 2 = 1 := by rw [← hdx1, ← hdy1]; field_simp; linarith
  have u2 : dx2 ^ 2 + dy2 ^ 2 = 1 := by rw [← hdx2, ← hdy2]; field_simp; linarith
  have ecross : X1 * Y2 - Y1 * X2 = (dx1 * dy2 - dy1 * dx2) * (l1 * l2) := by rw [ex1, ey1, ex2, ey2]; ring
  have hll : 0 < l1 * l2 := by positivity
  have hcr : dx1 * dy2 - dy1 * dx2 ≠ 0 := by
    intro h
    rw [ecross, h] at hx
    simp at hx
  have hiff : 0 < X1 * Y2 - Y1 * X2 ↔ 0 < dx1 * dy2 - dy1 * dx2 := by
    rw [ecross]
    exact mul_pos_iff_of_pos_right hll
  have hlag : (dx1 * dx2 + dy1 * dy2) ^ 2 + (dx1 * dy2 - dy1 * dx2) ^ 2 = 1 := by
    have : (dx1 * dx2 + dy1 * dy2) ^ 2 + (dx1 * dy2 - dy1 * dx2) ^ 2 = (dx1 ^ 2 + dy1 ^ 2) * (dx2 ^ 2 + dy2 ^ 2) := by ring
    rw [this, u1, u2]; norm_num
  generalize hdot : dx1 * dx2 + dy1 * dy2 = dot at *
  generalize hcross : dx1 * dy2 - dy1 * dx2 = cross at *
  have hcs : 0 < cross ^ 2 := by positivity
  have hd1 : -1 < dot := by nlinarith
  have hd2 : dot < 1 := by nlinarith
  have hac0 : 0 < arccos dot := arccos_pos.mpr hd2
  have hac1 : arccos dot < π := by
    rw [← arccos_neg_one]
    exact arccos_lt_arccos le_rfl hd1 hd2.le
  have hsq : sqrt (1 - dot ^ 2) = |cross| := by
    rw [show 1 - dot ^ 2 = cross ^ 2 by linarith, sqrt_sq_eq_abs]
  -- the angle
  have hα : ∃ α, (if cross > 0 then arccos dot else -arccos dot) = α ∧ cos α = dot ∧ sin α = cross ∧ |α| = arccos dot ∧ (0 < α ↔ 0 < cross) := by
    by_cases h : cross > 0
    · refine ⟨arccos dot, if_pos h, cos_arccos hd1.le hd2.le, ?_, abs_of_pos hac0, ⟨fun _ => h, fun _ => hac0⟩⟩
      rw [sin_arccos, hsq, abs_of_pos h]
    · refine ⟨-arccos dot, if_neg h, by rw [cos_neg, cos_arccos hd1.le hd2.le], ?_, by rw [abs_neg, abs_of_pos hac0], ?_⟩
      · rw [sin_neg, sin_arccos, hsq, abs_of_nonpos (not_lt.mp h)]; ring
      · constructor
        · intro h2; linarith
        · intro h2; exact absurd h2 h
  obtain ⟨α, hα, hc, hs, habs, hpos⟩ := hα
  rw [hα]
  have hαlt : |α| < π := by rw [habs]; exact hac1
  obtain ⟨b1, b2⟩ := abs_lt.mp hαlt
  have hα0 : α ≠ 0 := by
    rintro rfl
    rw [abs_zero] at habs
    linarith
  have hC : 0 < cos (α / 2) := cos_pos_of_mem_Ioo ⟨by linarith, by linarith⟩
  have hcc : dot = 1 - 2 * sin (α / 2) ^ 2 := by
    rw [← hc, show α = 2 * (α / 2) by ring, cos_two_mul]
    have := sin_sq_add_cos_sq (α / 2)
    rw [show 2 * (α / 2) / 2 = α / 2 by ring]
    linarith
  have hss : cross = 2 * sin (α / 2) * cos (α / 2) := by
    rw [← hs, ← sin_two_mul]
    congr 1
    ring
  have hS : sin (α / 2) ≠ 0 := by
    intro h
    rw [hss, h] at hcr
    simp at hcr
  have hT : tan (|α| / 2) = |sin (α / 2)| / cos (α / 2) := by
    rcases abs_cases α with ⟨h1, h2⟩ | ⟨h1, h2⟩
    · rw [h1, tan_eq_sin_div_cos, abs_of_nonneg]
      exact sin_nonneg_of_nonneg_of_le_pi (by linarith) (by linarith)
    · rw [h1, tan_eq_sin_div_cos, show -α / 2 = -(α / 2) by ring, sin_neg, cos_neg, abs_of_nonpos]
      apply sin_nonpos_of_nonpos_of_neg_pi_le <;> linarith
  have hSC := sin_sq_add_cos_sq (α / 2)
  generalize hSn : sin (α / 2) = S at *
  generalize hCn : cos (α / 2) = C at *
  rw [hT]
  -- second direction
  have ed2x : dx2 = dot * dx1 - cross * dy1 := by
    rw [← hdot, ← hcross]
    linear_combination (-dx2) * u1
  have ed2y : dy2 = dot * dy1 + cross * dx1 := by
    rw [← hdot, ← hcross]
    linear_combination (-dy2) * u1
  have hSa : 0 < |S| := abs_pos.mpr hS
  have hσ : ∃ σ, σ * |S| = S ∧ σ * S = |S| ∧ σ ^ 2 = 1 := by
    rcases abs_cases S with ⟨h1, h2⟩ | ⟨h1, h2⟩
    · exact ⟨1, by rw [h1]; ring, by rw [h1]; ring, by norm_num⟩
    · exact ⟨-1, by rw [h1]; ring, by rw [h1]; ring, by norm_num⟩
  obtain ⟨σ, hσ1, hσ2, hσ3⟩ := hσ
  have hA2 : |S| ^ 2 = S ^ 2 := sq_abs S
  generalize hAb : |S| = A at *
  have edm_x : 1 / 2 * (x1 - dx1 * r * (A / C) + (x1 + dx2 * r * (A / C))) - x1 = -(r * (A / C) * A) * σ * (S * dx1 + C * dy1) := by
    have e : dx2 - dx1 = -2 * S * (S * dx1 + C * dy1) := by rw [ed2x, hcc, hss]; ring
    have : 1 / 2 * (x1 - dx1 * r * (A / C) + (x1 + dx2 * r * (A / C))) - x1 = r * (A / C) / 2 * (dx2 - dx1) := by ring
    rw [this, e, ← hσ1]; ring
  have edm_y : 1 / 2 * (y1 - dy1 * r * (A / C) + (y1 + dy2 * r * (A / C))) - y1 = -(r * (A / C) * A) * σ * (S * dy1 - C * dx1) := by
    have e : dy2 - dy1 = -2 * S * (S * dy1 - C * dx1) := by rw [ed2y, hcc, hss]; ring
    have : 1 / 2 * (y1 - dy1 * r * (A / C) + (y1 + dy2 * r * (A / C))) - y1 = r * (A / C) / 2 * (dy2 - dy1) := by ring
    rw [this, e, ← hσ1]; ring
  rw [edm_x, edm_y]
  have hunit : (S * dx1 + C * dy1) ^ 2 + (S * dy1 - C * dx1) ^ 2 = 1 := by
    have : (S * dx1 + C * dy1) ^ 2 + (S * dy1 - C * dx1) ^ 2 = (S ^ 2 + C ^ 2) * (dx1 ^ 2 + dy1 ^ 2) := by ring
    rw [this, u1, hSC]; norm_num
  have hk : 0 < r * (A / C) * A := by positivity
  generalize hkn : r * (A / C) * A = k at *
  have hlm : hypot (-k * σ * (S * dx1 + C * dy1)) (-k * σ * (S * dy1 - C * dx1)) = k := by
    unfold hypot
    rw [show (-k * σ * (S * dx1 + C * dy1)) ^ 2 + (-k * σ * (S * dy1 - C * dx1)) ^ 2 = k ^ 2 * σ ^ 2 * ((S * dx1 + C * dy1) ^ 2 + (S * dy1 - C * dx1) ^ 2) by ring,
      hunit, hσ3, mul_one, mul_one, sqrt_sq hk.le]
  rw [hlm, if_neg hk.ne']
  have ek : ∀ z, -k * σ * z / k = -σ * z := by intro z; field_simp
  rw [ek, ek]
  -- the middle angle
  have hφ : cos (atan2 (-(-σ * (S * dy1 - C * dx1))) (-(-σ * (S * dx1 + C * dy1)))) = σ * (S * dx1 + C * dy1) ∧
      sin (atan2 (-(-σ * (S * dy1 - C * dx1))) (-(-σ * (S * dx1 + C * dy1)))) = σ * (S * dy1 - C * dx1) := by
    have hn : ‖(⟨-(-σ * (S * dx1 + C * dy1)), -(-σ * (S * dy1 - C * dx1))⟩ : ℂ)‖ = 1 := by
      rw [← hypot_eq_abs]
      unfold hypot
      rw [show (-(-σ * (S * dx1 + C * dy1))) ^ 2 + (-(-σ * (S * dy1 - C * dx1))) ^ 2 = σ ^ 2 * ((S * dx1 + C * dy1) ^ 2 + (S * dy1 - C * dx1) ^ 2) by ring,
        hunit, hσ3]
      norm_num
    have hz : (⟨-(-σ * (S * dx1 + C * dy1)), -(-σ * (S * dy1 - C * dx1))⟩ : ℂ) ≠ 0 := by
      intro h
      rw [h] at hn
      simp at hn
    unfold atan2
    rw [Complex.cos_arg hz, Complex.sin_arg, hn]
    simp
  generalize atan2 (-(-σ * (S * dy1 - C * dx1))) (-(-σ * (S * dx1 + C * dy1))) = φ at *
  obtain ⟨hφc, hφs⟩ := hφ
  have er1 : radians (degrees φ - degrees α / 2) = φ - α / 2 := by simp only [radians, degrees]; field_simp
  have er2 : radians (degrees φ + degrees α / 2) = φ + α / 2 := by simp only [radians, degrees]; field_simp
  have c1 : cos (φ - α / 2) = σ * dy1 := by
    rw [cos_sub, hφc, hφs, hSn, hCn]
    linear_combination σ * dy1 * hSC
  have c2 : sin (φ - α / 2) = -σ * dx1 := by
    rw [sin_sub, hφc, hφs, hSn, hCn]
    linear_combination -σ * dx1 * hSC
  have c3 : cos (φ + α / 2) = σ * dy2 := by
    rw [cos_add, hφc, hφs, hSn, hCn, ed2y, hcc, hss]
    linear_combination σ * dy1 * hSC
  have c4 : sin (φ + α / 2) = -σ * dx2 := by
    rw [sin_add, hφc, hφs, hSn, hCn, ed2x, hcc, hss]
    linear_combination -σ * dx1 * hSC
  refine ⟨(x1 + -σ * (S * dx1 + C * dy1) * r / C, y1 + -σ * (S * dy1 - C * dx1) * r / C),
    arcpoint (x1 + -σ * (S * dx1 + C * dy1) * r / C) (y1 + -σ * (S * dy1 - C * dx1) * r / C) r (degrees φ - degrees α / 2),
    arcpoint (x1 + -σ * (S * dx1 + C * dy1) * r / C) (y1 + -σ * (S * dy1 - C * dx1) * r / C) r (degrees φ + degrees α / 2),
    degrees φ - degrees α / 2, degrees φ + degrees α / 2, r * (A / C) / l1, r * (A / C) / l2, ?_, rfl, rfl, by positivity, ?_, by positivity, ?_, ?_, ?_, ?_⟩
  · simp only [gt_iff_lt, hpos, hiff]
  · simp only [arcpoint, er1, c1, c2]
    ext
    · simp only
      rw [ex1, ← hσ2]; field_simp; ring
    · simp only
      rw [ey1, ← hσ2]; field_simp; ring
  · simp only [arcpoint, er2, c3, c4]
    ext
    · simp only
      rw [ex2, ed2x, ed2y, hcc, hss, ← hσ2]; field_simp
      linear_combination 2 * σ * S * dx1 * r * hSC
    · simp only
      rw [ey2, ed2x, ed2y, hcc, hss, ← hσ2]; field_simp
      linear_combination 2 * σ * S * dy1 * r * hSC
  · simp only [arcpoint, er1, c1, c2]
    rw [ex1, ey1]; ring
  · simp only [arcpoint, er2, c3, c4]
    rw [ex2, ey2]; ring
  · have hdeg : degrees φ + degrees α / 2 - (degrees φ - degrees α / 2) = α * 180 / π := by simp only [degrees]; ring
    by_cases h : 0 < cross
    · rw [if_pos (hiff.mpr h)]
      have hα := hpos.mpr h
      have hσ4 : σ = 1 := by
        have hS0 : 0 < S := by
          rw [hss] at h
          rcases lt_trichotomy S 0 with h1 | h1 | h1
          · have := mul_pos_of_neg_of_neg h1 (neg_lt_zero.mpr hC)
            linarith only [this, h]
          · exact absurd h1 hS
          · exact h1
        rw [abs_of_pos hS0] at hAb
        have : (σ - 1) * S = 0 := by linear_combination hσ2 - hAb
        rcases mul_eq_zero.mp this with h | h
        · linarith
        · exact absurd h hS
      have d1 : 0 < α * 180 / π := by positivity
      have d2 : α * 180 / π < 180 := by rw [div_lt_iff₀ hpi]; linarith only [b2]
      refine ⟨by linarith only [hdeg, d1, d2], by linarith only [hdeg, d1, d2], ?_⟩
      rw [er1, c1, c2, ex1, ey1, hσ4]
      ext <;> simp only <;> ring
    · rw [if_neg (fun h' => h (hiff.mp h'))]
      have hα : α < 0 := by
        rcases lt_trichotomy α 0 with h1 | h1 | h1
        · exact h1
        · exact absurd h1 hα0
        · exact absurd (hpos.mp h1) h
      have hσ4 : σ = -1 := by
        have hS0 : S < 0 := by
          rcases lt_trichotomy S 0 with h1 | h1 | h1
          · exact h1
          · exact absurd h1 hS
          · exact absurd (by rw [hss]; positivity) h
        rw [abs_of_neg hS0] at hAb
        have : (σ + 1) * S = 0 := by linear_combination hσ2 - hAb
        rcases mul_eq_zero.mp this with h | h
        · linarith
        · exact absurd h hS
      have d1 : α * 180 / π < 0 := div_neg_of_neg_of_pos (by linarith) hpi
      have d2 : -180 < α * 180 / π := by rw [lt_div_iff₀ hpi]; linarith only [b1]
      refine ⟨by linarith only [hdeg, d1, d2], by linarith only [hdeg, d1, d2], ?_⟩
      rw [er1, c1, c2, ex1, ey1, hσ4]
      ext <;> simp only <;> ring

/-- A corner as assumed. -/
example : (((1, 0) : Pt).1 - ((0, 0) : Pt).1) * (((1, 1) : Pt).2 - ((1, 0) : Pt).2) - (((1, 0) : Pt).2 - ((0, 0) : Pt).2) * (((1, 1) : Pt).1 - ((1, 0) : Pt).1) ≠ 0 := by
  norm_num

/-- C81: a corner which is none gives a line to the corner. -/
theorem arct_straight (cur p1 p2 : Pt) (r k : ℝ) (hk : 0 < k) (h : p2.1 - p1.1 = k * (p1.1 - cur.1) ∧ p2.2 - p1.2 = k * (p1.2 - cur.2)) (hne : cur ≠ p1) :
    arctItems cur p1 p2 r = .ok [.lineto p1] := by
  have hl1 : hypot (p1.1 - cur.1) (p1.2 - cur.2) ≠ 0 := by
    rw [Ne, hypot_eq_zero]
    rintro ⟨h1, h2⟩
    exact hne (by ext <;> linarith)
  have hl2 : hypot (p2.1 - p1.1) (p2.2 - p1.2) = k * hypot (p1.1 - cur.1) (p1.2 - cur.2) := by
    rw [h.1, h.2, hypot_smul, abs_of_pos hk]
  have s1 := hypot_sq (p1.1 - cur.1) (p1.2 - cur.2)
  unfold arctItems
  simp only
  rw [if_neg (by rw [hl2]; rintro (h | h); exact hl1 h; exact (mul_ne_zero hk.ne' hl1) h), hl2, h.1, h.2]
  generalize hypot (p1.1 - cur.1) (p1.2 - cur.2) = l at *
  have e1 : ∀ z, k * z / (k * l) = z / l := by intro z; field_simp
  rw [e1, e1]
  have e2 : (p1.1 - cur.1) / l * ((p1.1 - cur.1) / l) + (p1.2 - cur.2) / l * ((p1.2 - cur.2) / l) = 1 := by
    field_simp
    linarith
  rw [e2, arccos_one]
  have e3 : ∀ z : ℝ, (2⁻¹ : ℝ) * (z + z) - z = 0 := by intro z; ring
  simp [hypot_zero, e3]

example : ((3, 3) : Pt).1 - ((1, 1) : Pt).1 = 2 * (((1, 1) : Pt).1 - ((0, 0) : Pt).1) ∧ ((3, 3) : Pt).2 - ((1, 1) : Pt).2 = 2 * (((1, 1) : Pt).2 - ((0, 0) : Pt).2) := by
  norm_num

/-- An interpreter with tangent arcs as assumed for C48. -/
def arctOf (cur p1 p2 : Pt) (r : ℝ) : Pt × List (Curve ℝ) × Pt :=
  match arctItems cur p1 p2 r with
  | .ok [.lineto p, .arc x y r a1 a2] => (p, arctobezierpath x y r a1 a2, arcpoint x y r a2)
  | .ok [.lineto p, .arcn x y r a1 a2] => (p, arcnCurves x y r a1 a2, arcpoint x y r a2)
  | .ok [.lineto p] => (p, [], p)
  | _ => (p1, [], p1)

theorem arctEnds_example : ArctEnds ⟨arctobezierpath, arcnCurves, arctOf⟩ := by
  intro cur p1 p2 r js h
  simp only [arctOf, h]
  obtain ⟨p, rfl⟩ | ⟨p, x, y, r, a1, a2, rfl⟩ | ⟨p, x, y, r, a1, a2, rfl⟩ := arctItems_form _ _ _ _ _ h <;> rfl

/-! ## The SVG context -/

/-- C48 does not hold in SVG output with tangent arcs: a tangent arc after closing (`path.py:314-315` does not set the current point) or after an arc (`path.py:684`
sets the mirrored point) is calculated from a wrong current point; here it raises `ZeroDivisionError`, although the corner is not the current point. -/
theorem svg_arct_wrong :
    returnSVGdata true [.moveto (0, 0), .lineto (1, 0), .lineto (1, 1), .closepath, .arct (1, 1) (2, 0) 1] = .error .zeroDivision ∧
    returnSVGdata true [.arc 0 0 1 0 90, .arct (0, -1) (1, -1) 1] = .error .zeroDivision ∧
    (∃ b, bbox [.moveto (0, 0), .lineto (1, 0), .lineto (1, 1), .closepath, .arct (1, 1) (2, 0) 1] = .ok b) ∧
    (∃ b, bbox [.arc 0 0 1 0 90, .arct (0, -1) (1, -1) 1] = .ok b) := by
  have hp : arcpoint 0 0 1 90 = (0, 1) := by
    simp only [arcpoint, show radians 90 = π / 2 by simp only [radians]; ring, cos_pi_div_two, sin_pi_div_two]
    norm_num
  have he : svgEndAngle 0 90 = 90 := by unfold svgEndAngle; norm_num
  have ok : ∀ cur p1 p2 : Pt, ∀ r : ℝ, cur ≠ p1 → p1 ≠ p2 → ∃ js, arctItems cur p1 p2 r = .ok js := by
    intro cur p1 p2 r h1 h2
    cases h : arctItems cur p1 p2 r with
    | ok js => exact ⟨js, rfl⟩
    | error e =>
      have : e = .zeroDivision := by
        unfold arctItems at h
        simp only at h
        split_ifs at h
        · simpa using h.symm
      rw [this] at h
      rcases (arctItems_error cur p1 p2 r).mp h with h | h
      · exact absurd h h1
      · exact absurd h h2
  refine ⟨?_, ?_, ?_, ?_⟩
  · have e := (arctItems_error (1, 1) (1, 1) (2, 0) 1).mpr (Or.inl rfl)
    simp [returnSVGdata, createcontext, svgLoop, expand, itemsSVG, itemSVG, e]
  · have e := (arctItems_error (0, -1) (0, -1) (1, -1) 1).mpr (Or.inl rfl)
    simp [returnSVGdata, createcontext, svgLoop, expand, itemsSVG, itemSVG, he, hp, flipIf, e]
  · obtain ⟨js, hj⟩ := ok (0, 0) (1, 1) (2, 0) 1 (by simp) (by simp)
    simp [bbox, createbbox, createcontext, bboxLoop, expand, updatebboxes, updatebbox, advance, hj]
  · obtain ⟨js, hj⟩ := ok (0, 1) (0, -1) (1, -1) 1 (by simp; norm_num) (by simp)
    simp [bbox, createbbox, createcontext, bboxLoop, expand, updatebboxes, updatebbox, advance, hp, hj]

end

end PyX.Path
