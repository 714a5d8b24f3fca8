import Verif.Path.Arc
import Verif.Trafo.Props

/-!
# Elliptical arcs of SVG paths (`endpointarc`, `svgfile.py:30-79`): model and C101

The unit circle is exact here; its Bezier curves are the subject of C52 (`Verif.Path.Arc`).
-/

set_option linter.unusedSectionVars false

namespace PyX.Svg

open Real Trafo PyX.NormPath PyX.Path

noncomputable section

/-! ## Model -/

/-- The result: a straight line or an arc of the unit circle from `angle1` to `angle2` (degrees), clockwise (`arcn_pt`) or not, transformed. -/
inductive EArc
  | line (x1 y1 x2 y2 : ℝ)
  | arc (cw : Bool) (angle1 angle2 : ℝ) (t : Trafo ℝ)

/-- The coordinates of half the chord along the axes of the ellipse (F.6.5 step 1, `svgfile.py:43-49`). -/
def primed (x1 y1 x2 y2 phi : ℝ) : ℝ × ℝ :=
  (cos (radians phi) * ((x1 - x2) / 2) + sin (radians phi) * ((y1 - y2) / 2),
   -sin (radians phi) * ((x1 - x2) / 2) + cos (radians phi) * ((y1 - y2) / 2))

open Classical in
/-- F.6.6 step 3 (`svgfile.py:52-56`). -/
def enlarged (p : ℝ × ℝ) (rx ry : ℝ) : ℝ × ℝ :=
  if 1 < (p.1 / rx) ^ 2 + (p.2 / ry) ^ 2 then (rx * √((p.1 / rx) ^ 2 + (p.2 / ry) ^ 2), ry * √((p.1 / rx) ^ 2 + (p.2 / ry) ^ 2)) else (rx, ry)

open Classical in
/-- `c` (`svgfile.py:59-62`). -/
def centerFactor (p : ℝ × ℝ) (rx ry : ℝ) (fA fS : Bool) : ℝ :=
  let csq := ((rx * ry) ^ 2 - (rx * p.2) ^ 2 - (ry * p.1) ^ 2) / ((rx * p.2) ^ 2 + (ry * p.1) ^ 2)
  let c := if 0 < csq then √csq else 0
  if fA = fS then -c else c

/-- `trafo.scale(rx, ry).rotated(phi)` (`svgfile.py:77`). -/
def baseTrafo (rx ry phi : ℝ) : Trafo ℝ := mul ⟨cos (radians phi), -sin (radians phi), sin (radians phi), cos (radians phi), 0, 0⟩ ⟨rx, 0, 0, ry, 0, 0⟩

/-- The rest with the final radii (`svgfile.py:63-79`). -/
def arcWith (x1 y1 : ℝ) (p : ℝ × ℝ) (rx ry phi : ℝ) (fA fS : Bool) : EArc :=
  let c := centerFactor p rx ry fA fS
  let cx := c * rx * p.2 / ry
  let cy := -c * ry * p.1 / rx
  let theta1 := atan2 ((p.2 - cy) / ry) ((p.1 - cx) / rx)
  let theta2 := atan2 ((-p.2 - cy) / ry) ((-p.1 - cx) / rx)
  let t := baseTrafo rx ry phi
  let b := t.apply (cos theta1, sin theta1)
  .arc (!fS) (degrees theta1) (degrees theta2) (mul (translate (x1 - b.1) (y1 - b.2)) t)

open Classical in
/-- `endpointarc` (`svgfile.py:30-79`); `none`: division by zero. -/
def endpointarc (x1 y1 x2 y2 : ℝ) (fA fS : Bool) (rx ry phi : ℝ) : Option EArc :=
  if rx = 0 ∨ ry = 0 then some (.line x1 y1 x2 y2)
  else
    let p := primed x1 y1 x2 y2 phi
    let r := enlarged p |rx| |ry|
    if (r.1 * p.2) ^ 2 + (r.2 * p.1) ^ 2 = 0 then none
    else some (arcWith x1 y1 p r.1 r.2 phi fA fS)

/-! ## Specification -/

/-- An arc is drawn from the angle `a` to the angle `b` (radians; `a < b` for counterclockwise arcs). -/
def Drawn (cw : Bool) (angle1 angle2 a b : ℝ) : Prop :=
  if cw then b = radians angle2 ∧ ArcEnd angle2 angle1 a else a = radians angle1 ∧ ArcEnd angle1 angle2 b

/-- The squared half chord, measured in radii: at most one iff an ellipse with these radii through both points exists. -/
def reach (x1 y1 x2 y2 rx ry phi : ℝ) : ℝ :=
  ((cos (phi * π / 180) * (x1 - x2) + sin (phi * π / 180) * (y1 - y2)) / (2 * rx)) ^ 2 +
    ((cos (phi * π / 180) * (y1 - y2) - sin (phi * π / 180) * (x1 - x2)) / (2 * ry)) ^ 2

/-- The point of the ellipse with the center `z`, radii `rx` and `ry` and rotation `phi` at the angle `s`. -/
def ellipsePoint (z : ℝ × ℝ) (rx ry phi s : ℝ) : ℝ × ℝ :=
  (z.1 + cos (phi * π / 180) * (rx * cos s) - sin (phi * π / 180) * (ry * sin s), z.2 + sin (phi * π / 180) * (rx * cos s) + cos (phi * π / 180) * (ry * sin s))

/-! ## Proof -/

theorem radians_degrees (x : ℝ) : radians (degrees x) = x := by
  unfold radians degrees
  field_simp

theorem degrees_le {x y : ℝ} : degrees x ≤ degrees y ↔ x ≤ y := by
  have h := @radians_lt (degrees y) (degrees x)
  rw [radians_degrees, radians_degrees] at h
  constructor
  · intro h1
    by_contra hc
    push Not at hc
    linarith [h.mp hc]
  · intro h1
    by_contra hc
    push Not at hc
    linarith [h.mpr hc]

theorem atan2_unit {x y : ℝ} (h : x ^ 2 + y ^ 2 = 1) : cos (atan2 y x) = x ∧ sin (atan2 y x) = y ∧ -π < atan2 y x ∧ atan2 y x ≤ π := by
  have h0 : (⟨x, y⟩ : ℂ) ≠ 0 := by
    intro e
    rw [Complex.ext_iff] at e
    have e1 : x = 0 := e.1
    have e2 : y = 0 := e.2
    rw [e1, e2] at h
    norm_num at h
  have hn : ‖(⟨x, y⟩ : ℂ)‖ = 1 := by
    rw [Complex.norm_def, Complex.normSq_mk, show x * x + y * y = 1 by linarith, sqrt_one]
  refine ⟨?_, ?_, Complex.neg_pi_lt_arg _, Complex.arg_le_pi _⟩
  · unfold atan2; rw [Complex.cos_arg h0, hn]; simp
  · unfold atan2; rw [Complex.sin_arg, hn]; simp

/-- Extent of a counterclockwise arc between two angles of the unit circle. -/
theorem extent {th1 th2 : ℝ} (h1 : -π < th1 ∧ th1 ≤ π) (h2 : -π < th2 ∧ th2 ≤ π) :
    ∃ b, ArcEnd (degrees th1) (degrees th2) b ∧ cos b = cos th2 ∧ sin b = sin th2 ∧ th1 ≤ b ∧ b < th1 + 2 * π := by
  have hpi := pi_pos
  by_cases h : th1 ≤ th2
  · refine ⟨th2, Or.inl ⟨degrees_le.mpr h, (radians_degrees _).symm⟩, rfl, rfl, h, by linarith⟩
  · push Not at h
    refine ⟨th2 + 2 * π, Or.inr ⟨?_, ?_, ?_, 1, ?_⟩, cos_add_two_pi _, sin_add_two_pi _, by linarith, by linarith⟩
    · by_contra hc
      push Not at hc
      linarith [degrees_le.mp hc]
    · rw [radians_degrees]; linarith
    · rw [radians_degrees]; linarith
    · rw [radians_degrees]; norm_num

/-- The sine tells which half turn an extent belongs to. -/
theorem half_turn {d : ℝ} (h0 : 0 ≤ d) (h1 : d < 2 * π) : (sin d < 0 → π < d) ∧ (0 < sin d → 0 < d ∧ d < π) ∧ (cos d = -1 → d = π) := by
  have hpi := pi_pos
  refine ⟨fun h => ?_, fun h => ⟨?_, ?_⟩, fun h => ?_⟩
  · by_contra hc
    push Not at hc
    linarith [sin_nonneg_of_nonneg_of_le_pi h0 hc]
  · rcases h0.eq_or_lt with e | e
    · rw [← e, sin_zero] at h; exact absurd h (lt_irrefl _)
    · exact e
  · by_contra hc
    push Not at hc
    have := sin_nonneg_of_nonneg_of_le_pi (x := d - π) (by linarith) (by linarith)
    rw [sin_sub_pi] at this
    linarith
  · have h2 : cos (d - π) = 1 := by rw [cos_sub_pi, h]; ring
    have := (cos_eq_one_iff_of_lt_of_lt (x := d - π) (by linarith) (by linarith)).mp h2
    linarith

/-- The center factor in terms of the half chord measured in radii. -/
theorem centerFactor_eq {a b rx ry : ℝ} (hx : 0 < rx) (hy : 0 < ry) (hL : 0 < a ^ 2 + b ^ 2) (hL1 : a ^ 2 + b ^ 2 ≤ 1) (fA fS : Bool) :
    ∃ c, centerFactor (a * rx, b * ry) rx ry fA fS = c ∧ (a ^ 2 + b ^ 2) * (1 + c ^ 2) = 1 ∧ (fA = fS → c ≤ 0) ∧ (fA ≠ fS → 0 ≤ c) := by
  have hcsq : ((rx * ry) ^ 2 - (rx * (b * ry)) ^ 2 - (ry * (a * rx)) ^ 2) / ((rx * (b * ry)) ^ 2 + (ry * (a * rx)) ^ 2) = (1 - (a ^ 2 + b ^ 2)) / (a ^ 2 + b ^ 2) := by
    rw [show (rx * ry) ^ 2 - (rx * (b * ry)) ^ 2 - (ry * (a * rx)) ^ 2 = (rx * ry) ^ 2 * (1 - (a ^ 2 + b ^ 2)) by ring,
      show (rx * (b * ry)) ^ 2 + (ry * (a * rx)) ^ 2 = (rx * ry) ^ 2 * (a ^ 2 + b ^ 2) by ring]
    exact mul_div_mul_left _ _ (by positivity)
  refine ⟨_, rfl, ?_⟩
  unfold centerFactor
  simp only [hcsq]
  have hnn : 0 ≤ (1 - (a ^ 2 + b ^ 2)) / (a ^ 2 + b ^ 2) := div_nonneg (by linarith) hL.le
  have key : ∀ c0 : ℝ, c0 ^ 2 = (1 - (a ^ 2 + b ^ 2)) / (a ^ 2 + b ^ 2) → (a ^ 2 + b ^ 2) * (1 + c0 ^ 2) = 1 := by
    intro c0 h
    rw [h]
    field_simp
    ring
  by_cases hp : 0 < (1 - (a ^ 2 + b ^ 2)) / (a ^ 2 + b ^ 2)
  · rw [if_pos hp]
    by_cases hf : fA = fS
    · rw [if_pos hf]
      refine ⟨key _ (by rw [neg_sq, sq_sqrt hnn]), fun _ => by linarith [sqrt_nonneg ((1 - (a ^ 2 + b ^ 2)) / (a ^ 2 + b ^ 2))], fun h => absurd hf h⟩
    · rw [if_neg hf]
      exact ⟨key _ (sq_sqrt hnn), fun h => absurd h hf, fun _ => sqrt_nonneg _⟩
  · rw [if_neg hp]
    have h0 : (1 - (a ^ 2 + b ^ 2)) / (a ^ 2 + b ^ 2) = 0 := le_antisymm (not_lt.mp hp) hnn
    by_cases hf : fA = fS
    · rw [if_pos hf]
      exact ⟨key _ (by rw [h0]; ring), fun _ => by simp, fun h => absurd hf h⟩
    · rw [if_neg hf]
      exact ⟨key _ (by rw [h0]; ring), fun h => absurd h hf, fun _ => le_refl _⟩

/-- The arc with final radii, for which the half chord is at most one radius. -/
theorem arcWith_spec (x1 y1 x2 y2 phi : ℝ) (rx ry a b : ℝ) (hx : 0 < rx) (hy : 0 < ry) (hL : 0 < a ^ 2 + b ^ 2) (hL1 : a ^ 2 + b ^ 2 ≤ 1)
    (hp : primed x1 y1 x2 y2 phi = (a * rx, b * ry)) (fA fS : Bool) :
    ∃ angle1 angle2 t s e z, arcWith x1 y1 (a * rx, b * ry) rx ry phi fA fS = .arc (!fS) angle1 angle2 t ∧ Drawn (!fS) angle1 angle2 s e ∧
      (∀ u, t.apply (circlePoint 0 0 1 u) = ellipsePoint z rx ry phi u) ∧
      t.apply (circlePoint 0 0 1 s) = (x1, y1) ∧ t.apply (circlePoint 0 0 1 e) = (x2, y2) ∧
      (fS = true → s < e) ∧ (fS = false → e < s) ∧ |e - s| < 2 * π ∧
      (a ^ 2 + b ^ 2 < 1 → (fA = true → π < |e - s|) ∧ (fA = false → |e - s| < π)) ∧ (a ^ 2 + b ^ 2 = 1 → |e - s| = π) := by
  have hpi := pi_pos
  obtain ⟨c, hc, hc1, hneg, hpos⟩ := centerFactor_eq hx hy hL hL1 fA fS
  have e1 : (a * rx - c * rx * (b * ry) / ry) / rx = a - c * b := by field_simp
  have e2 : (b * ry - -c * ry * (a * rx) / rx) / ry = b + c * a := by field_simp; ring
  have e3 : (-(a * rx) - c * rx * (b * ry) / ry) / rx = -a - c * b := by field_simp
  have e4 : (-(b * ry) - -c * ry * (a * rx) / rx) / ry = -b + c * a := by field_simp; ring
  obtain ⟨c1, s1, l1, u1⟩ := atan2_unit (x := a - c * b) (y := b + c * a) (by linear_combination hc1)
  obtain ⟨c2, s2, l2, u2⟩ := atan2_unit (x := -a - c * b) (y := -b + c * a) (by linear_combination hc1)
  set th1 := atan2 (b + c * a) (a - c * b) with hth1
  set th2 := atan2 (-b + c * a) (-a - c * b) with hth2
  have hw : arcWith x1 y1 (a * rx, b * ry) rx ry phi fA fS = .arc (!fS) (degrees th1) (degrees th2)
      (mul (translate (x1 - ((baseTrafo rx ry phi).apply (cos th1, sin th1)).1) (y1 - ((baseTrafo rx ry phi).apply (cos th1, sin th1)).2)) (baseTrafo rx ry phi)) := by
    simp only [arcWith, hc, e1, e2, e3, e4, ← hth1, ← hth2]
  simp only [primed, Prod.mk.injEq] at hp
  have hr : radians phi = phi * π / 180 := rfl
  have hcs := cos_sq_add_sin_sq (radians phi)
  -- the transformation of the end of the arc
  have hend : ∀ u, cos u = -a - c * b → sin u = -b + c * a →
      (mul (translate (x1 - ((baseTrafo rx ry phi).apply (cos th1, sin th1)).1) (y1 - ((baseTrafo rx ry phi).apply (cos th1, sin th1)).2)) (baseTrafo rx ry phi)).apply (circlePoint 0 0 1 u) = (x2, y2) := by
    intro u hcu hsu
    rw [mul_apply]
    simp only [circlePoint, Trafo.apply, translate, baseTrafo, mul, hcu, hsu, c1, s1, Prod.mk.injEq]
    generalize cos (radians phi) = C at *
    generalize sin (radians phi) = S at *
    constructor
    · linear_combination 2 * C * hp.1 - 2 * S * hp.2 - (x1 - x2) * hcs
    · linear_combination 2 * S * hp.1 + 2 * C * hp.2 - (y1 - y2) * hcs
  have hbeg : ∀ u, cos u = cos th1 → sin u = sin th1 →
      (mul (translate (x1 - ((baseTrafo rx ry phi).apply (cos th1, sin th1)).1) (y1 - ((baseTrafo rx ry phi).apply (cos th1, sin th1)).2)) (baseTrafo rx ry phi)).apply (circlePoint 0 0 1 u) = (x1, y1) := by
    intro u hcu hsu
    rw [mul_apply]
    simp only [circlePoint, Trafo.apply, translate, baseTrafo, mul, hcu, hsu, Prod.mk.injEq]
    constructor <;> ring
  have hell : ∀ (X Y : ℝ) (u : ℝ), (mul (translate X Y) (baseTrafo rx ry phi)).apply
      (circlePoint 0 0 1 u) = ellipsePoint (X, Y) rx ry phi u := by
    intro X Y u
    rw [mul_apply]
    simp only [circlePoint, Trafo.apply, translate, baseTrafo, mul, ellipsePoint, hr, Prod.mk.injEq]
    constructor <;> ring
  -- sine and cosine of the extent
  have hsin : ∀ u v, cos u = cos th1 → sin u = sin th1 → cos v = cos th2 → sin v = sin th2 →
      sin (v - u) = 2 * c * (a ^ 2 + b ^ 2) ∧ cos (v - u) = (c ^ 2 - 1) * (a ^ 2 + b ^ 2) := by
    intro u v h1 h2 h3 h4
    rw [sin_sub, cos_sub, h1, h2, h3, h4, c1, s1, c2, s2]
    constructor <;> ring
  have hc0 : a ^ 2 + b ^ 2 < 1 → c ≠ 0 := by
    intro h e
    rw [e] at hc1
    linarith
  have hc01 : a ^ 2 + b ^ 2 = 1 → c = 0 := by
    intro h
    rw [h] at hc1
    have : c ^ 2 = 0 := by linarith
    exact pow_eq_zero_iff (two_ne_zero) |>.mp this
  cases fS with
  | true =>
    obtain ⟨e, he, hce, hse, hl, hu⟩ := extent ⟨l1, u1⟩ ⟨l2, u2⟩
    obtain ⟨hs, hcos⟩ := hsin th1 e rfl rfl hce hse
    obtain ⟨k1, k2, k3⟩ := half_turn (d := e - th1) (by linarith) (by linarith)
    have hne : th1 < e := by
      rcases hl.eq_or_lt with h | h
      · rw [← h, sub_self, cos_zero] at hcos
        rw [← h, sub_self, sin_zero] at hs
        have h0 : c = 0 := by
          rcases mul_eq_zero.mp hs.symm with h' | h'
          · linarith
          · exact absurd h' hL.ne'
        rw [h0] at hcos
        nlinarith
      · exact h
    have habs : |e - th1| = e - th1 := abs_of_pos (by linarith)
    refine ⟨_, _, _, th1, e, _, hw, ?_, hell _ _, hbeg _ rfl rfl, hend _ (by rw [hce, c2]) (by rw [hse, s2]), fun _ => hne, by simp, by rw [habs]; linarith, fun h => ⟨?_, ?_⟩, ?_⟩
    · simp only [Drawn, Bool.not_true, Bool.false_eq_true, if_false]
      exact ⟨(radians_degrees _).symm, he⟩
    · intro hA
      rw [habs]
      apply k1
      rw [hs]
      have : c < 0 := lt_of_le_of_ne (hneg hA) (hc0 h)
      have := mul_neg_of_neg_of_pos this hL
      linarith
    · intro hA
      rw [habs]
      refine (k2 ?_).2
      rw [hs]
      have : 0 < c := lt_of_le_of_ne (hpos (by rw [hA]; simp)) (hc0 h).symm
      positivity
    · intro h
      rw [habs]
      apply k3
      rw [hcos, hc01 h, h]
      norm_num
  | false =>
    obtain ⟨e, he, hce, hse, hl, hu⟩ := extent ⟨l2, u2⟩ ⟨l1, u1⟩
    obtain ⟨hs, hcos⟩ := hsin e th2 hce hse rfl rfl
    have hs : sin (e - th2) = -(2 * c * (a ^ 2 + b ^ 2)) := by
      rw [← hs, ← sin_neg]; congr 1; ring
    have hcos : cos (e - th2) = (c ^ 2 - 1) * (a ^ 2 + b ^ 2) := by
      rw [← hcos, ← cos_neg]; congr 1; ring
    obtain ⟨k1, k2, k3⟩ := half_turn (d := e - th2) (by linarith) (by linarith)
    have hne : th2 < e := by
      rcases hl.eq_or_lt with h | h
      · rw [← h, sub_self, cos_zero] at hcos
        rw [← h, sub_self, sin_zero] at hs
        have h0 : c = 0 := by
          rcases mul_eq_zero.mp (neg_eq_zero.mp hs.symm) with h' | h'
          · linarith
          · exact absurd h' hL.ne'
        rw [h0] at hcos
        nlinarith
      · exact h
    have habs : |th2 - e| = e - th2 := by rw [abs_sub_comm]; exact abs_of_pos (by linarith)
    refine ⟨_, _, _, e, th2, _, hw, ?_, hell _ _, hbeg _ hce hse, hend _ c2 s2, by simp, fun _ => hne, by rw [habs]; linarith, fun h => ⟨?_, ?_⟩, ?_⟩
    · simp only [Drawn, Bool.not_false, if_true]
      exact ⟨(radians_degrees _).symm, he⟩
    · intro hA
      rw [habs]
      apply k1
      rw [hs]
      have : 0 < c := lt_of_le_of_ne (hpos (by rw [hA]; simp)) (hc0 h).symm
      have := mul_pos this hL
      linarith
    · intro hA
      rw [habs]
      refine (k2 ?_).2
      rw [hs]
      have : c < 0 := lt_of_le_of_ne (hneg hA) (hc0 h)
      have := mul_neg_of_neg_of_pos this hL
      linarith
    · intro h
      rw [habs]
      apply k3
      rw [hcos, hc01 h, h]
      norm_num

theorem reach_eq (x1 y1 x2 y2 rx ry phi : ℝ) : ((primed x1 y1 x2 y2 phi).1 / |rx|) ^ 2 + ((primed x1 y1 x2 y2 phi).2 / |ry|) ^ 2 = reach x1 y1 x2 y2 rx ry phi := by
  simp only [div_pow, sq_abs, primed, reach, radians]
  rw [mul_pow, mul_pow]
  have h : ∀ u v : ℝ, u / (2 ^ 2 * v) = (u / 4) / v := fun u v => by rw [div_div]; norm_num
  rw [h, h]
  congr 2 <;> ring

theorem reach_pos {x1 y1 x2 y2 rx ry phi : ℝ} (hx : rx ≠ 0) (hy : ry ≠ 0) (h : (x1, y1) ≠ (x2, y2)) : 0 < reach x1 y1 x2 y2 rx ry phi := by
  have hcs := cos_sq_add_sin_sq (phi * π / 180)
  unfold reach
  generalize cos (phi * π / 180) = C at *
  generalize sin (phi * π / 180) = S at *
  rcases eq_or_ne (C * (x1 - x2) + S * (y1 - y2)) 0 with h1 | h1
  · rcases eq_or_ne (C * (y1 - y2) - S * (x1 - x2)) 0 with h2 | h2
    · exfalso
      apply h
      have e1 : x1 - x2 = 0 := by linear_combination C * h1 - S * h2 - (x1 - x2) * hcs
      have e2 : y1 - y2 = 0 := by linear_combination S * h1 + C * h2 - (y1 - y2) * hcs
      rw [sub_eq_zero.mp e1, sub_eq_zero.mp e2]
    · have : (C * (y1 - y2) - S * (x1 - x2)) / (2 * ry) ≠ 0 := div_ne_zero h2 (by simpa using hy)
      positivity
  · have : (C * (x1 - x2) + S * (y1 - y2)) / (2 * rx) ≠ 0 := div_ne_zero h1 (by simpa using hx)
    positivity

/-- C101: an elliptical arc between different points begins and ends at the given points, is part of an ellipse with the given radii and rotation - enlarged by the same factor,
just enough to reach both points, if they are too small -, runs in the direction asked for, and is the larger one of the two arcs iff asked for. -/
theorem endpointarc_partial (x1 y1 x2 y2 rx ry phi : ℝ) (fA fS : Bool) (hx : rx ≠ 0) (hy : ry ≠ 0) (hne : (x1, y1) ≠ (x2, y2)) :
    ∃ angle1 angle2 t s e z, endpointarc x1 y1 x2 y2 fA fS rx ry phi = some (.arc (!fS) angle1 angle2 t) ∧ Drawn (!fS) angle1 angle2 s e ∧
      (∀ u, t.apply (circlePoint 0 0 1 u) =
        ellipsePoint z (|rx| * max 1 (√(reach x1 y1 x2 y2 rx ry phi))) (|ry| * max 1 (√(reach x1 y1 x2 y2 rx ry phi))) phi u) ∧
      t.apply (circlePoint 0 0 1 s) = (x1, y1) ∧ t.apply (circlePoint 0 0 1 e) = (x2, y2) ∧
      (fS = true → s < e) ∧ (fS = false → e < s) ∧ |e - s| < 2 * π ∧
      (reach x1 y1 x2 y2 rx ry phi < 1 → (fA = true → π < |e - s|) ∧ (fA = false → |e - s| < π)) ∧ (1 ≤ reach x1 y1 x2 y2 rx ry phi → |e - s| = π) := by
  have hax : 0 < |rx| := abs_pos.mpr hx
  have hay : 0 < |ry| := abs_pos.mpr hy
  have hL := reach_pos (phi := phi) hx hy hne
  have hre := reach_eq x1 y1 x2 y2 rx ry phi
  generalize hp : primed x1 y1 x2 y2 phi = p at *
  generalize reach x1 y1 x2 y2 rx ry phi = L at *
  have hm : 0 < max 1 (√L) := lt_of_lt_of_le one_pos (le_max_left _ _)
  generalize hM : max 1 (√L) = M at *
  have hen : enlarged p |rx| |ry| = (|rx| * M, |ry| * M) := by
    unfold enlarged
    rw [hre]
    by_cases h : 1 < L
    · rw [if_pos h, ← hM, max_eq_right]
      rw [show (1 : ℝ) = √1 from sqrt_one.symm]
      exact sqrt_le_sqrt h.le
    · rw [if_neg h, ← hM, max_eq_left, mul_one, mul_one]
      rw [sqrt_le_one]
      exact not_lt.mp h
  have hXp : 0 < |rx| * M := mul_pos hax hm
  have hYp : 0 < |ry| * M := mul_pos hay hm
  have hp1 : p = (p.1 / (|rx| * M) * (|rx| * M), p.2 / (|ry| * M) * (|ry| * M)) := by
    rw [div_mul_cancel₀ _ hXp.ne', div_mul_cancel₀ _ hYp.ne']
  have hab : (p.1 / (|rx| * M)) ^ 2 + (p.2 / (|ry| * M)) ^ 2 = L / M ^ 2 := by
    rw [← hre, ← div_div, ← div_div, div_pow _ M, div_pow _ M, add_div]
  generalize p.1 / (|rx| * M) = a at *
  generalize p.2 / (|ry| * M) = b at *
  have hab0 : 0 < a ^ 2 + b ^ 2 := by rw [hab]; positivity
  have hM2 : M ^ 2 = max 1 L := by
    rw [← hM]
    rcases le_total 1 L with h | h
    · rw [max_eq_right h, max_eq_right (by rw [show (1 : ℝ) = √1 from sqrt_one.symm]; exact sqrt_le_sqrt h), sq_sqrt hL.le]
    · rw [max_eq_left h, max_eq_left (by rw [sqrt_le_one]; exact h), one_pow]
  have hab1 : a ^ 2 + b ^ 2 ≤ 1 := by
    rw [hab, hM2, div_le_one (lt_of_lt_of_le one_pos (le_max_left _ _))]
    exact le_max_right _ _
  obtain ⟨angle1, angle2, t, s, e, z, h1, h2, h3, h4, h5, h6, h7, h8, h9, h10⟩ :=
    arcWith_spec x1 y1 x2 y2 phi (|rx| * M) (|ry| * M) a b hXp hYp hab0 hab1 (by rw [hp]; exact hp1) fA fS
  refine ⟨angle1, angle2, t, s, e, z, ?_, h2, h3, h4, h5, h6, h7, h8, fun h => h9 ?_, fun h => h10 ?_⟩
  · unfold endpointarc
    rw [if_neg (by push Not; exact ⟨hx, hy⟩)]
    simp only [hp, hen]
    rw [if_neg ?_, ← h1]
    · congr 2
    · rw [hp1]
      simp only
      rw [show (|rx| * M * (b * (|ry| * M))) ^ 2 + (|ry| * M * (a * (|rx| * M))) ^ 2 = ((|rx| * M) * (|ry| * M)) ^ 2 * (a ^ 2 + b ^ 2) by ring]
      positivity
  · rw [hab, hM2, max_eq_left h.le, div_one]; exact h
  · rw [hab, hM2, max_eq_right h, div_self hL.ne']

/-- A radius of zero gives a straight line. -/
theorem endpointarc_line (x1 y1 x2 y2 rx ry phi : ℝ) (fA fS : Bool) (h : rx = 0 ∨ ry = 0) : endpointarc x1 y1 x2 y2 fA fS rx ry phi = some (.line x1 y1 x2 y2) := by
  unfold endpointarc
  rw [if_pos h]

/-- C101 does not hold for an arc between equal points, which the standard says to leave out: the code divides by zero. -/
theorem endpointarc_equal (x y rx ry phi : ℝ) (fA fS : Bool) (hx : rx ≠ 0) (hy : ry ≠ 0) : endpointarc x y x y fA fS rx ry phi = none := by
  unfold endpointarc
  rw [if_neg (by push Not; exact ⟨hx, hy⟩)]
  simp [primed]

/-- The half circle from (0, 0) to (2, 0): the radii reach exactly. -/
example : ∃ angle1 angle2 t s e, endpointarc 0 0 2 0 true true 1 1 0 = some (.arc false angle1 angle2 t) ∧ Drawn false angle1 angle2 s e ∧ |e - s| = π := by
  obtain ⟨a1, a2, t, s, e, z, h1, h2, -, -, -, -, -, -, -, h10⟩ := endpointarc_partial 0 0 2 0 1 1 0 true true one_ne_zero one_ne_zero (by simp)
  exact ⟨a1, a2, t, s, e, h1, h2, h10 (by norm_num [reach])⟩

end

end PyX.Svg
