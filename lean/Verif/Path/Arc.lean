import Verif.NormPath.ItemProps
import Mathlib.Analysis.SpecialFunctions.Trigonometric.Basic
import Mathlib.Algebra.Order.Round
import Mathlib.Analysis.SpecialFunctions.Trigonometric.Bounds
import Mathlib.Analysis.Real.Pi.Bounds
import Mathlib.Tactic.Positivity
import Mathlib.Tactic.FieldSimp
import Mathlib.Tactic.Linarith
import Mathlib.Tactic.Ring
import Mathlib.Tactic.LinearCombination
import Mathlib.Tactic.NormNum

/-!
# Circular arcs: bounding boxes and approximation by Bezier curves (`pyx/path.py:72-171`)

Numbers are reals, angles in degrees as in the code.
-/

set_option linter.unusedSectionVars false

namespace PyX.Path

open Real PyX.NormPath

noncomputable section

/-! ## Model -/

/-- `math.radians`. -/
def radians (x : ℝ) : ℝ := x * π / 180

/-- `_arcpoint` (`path.py:118-120`). -/
def arcpoint (x y r angle : ℝ) : ℝ × ℝ := (x + r * cos (radians angle), y + r * sin (radians angle))

open Classical in
/-- The end angle of `_arcbboxdata` (`path.py:135-137`). -/
def endAngle (phi1 phi2 : ℝ) : ℝ :=
  if phi2 < phi1 then phi2 + (⌊(phi1 - phi2) / (2 * π)⌋ + 1) * 2 * π else phi2

open Classical in
/-- `_arcbboxdata` (`path.py:122-171`). -/
def arcbbox (x y r angle1 angle2 : ℝ) : Quad ℝ :=
  let phi1 := radians angle1
  let phi2 := endAngle phi1 (radians angle2)
  let s := arcpoint x y r angle1
  let e := arcpoint x y r angle2
  ⟨if phi2 < (2 * ⌊(phi1 - π) / (2 * π)⌋ + 3) * π then min s.1 e.1 else x - r,
   if phi2 < (2 * ⌊(phi1 - 3 * π / 2) / (2 * π)⌋ + 7 / 2) * π then min s.2 e.2 else y - r,
   if phi2 < (2 * ⌊phi1 / (2 * π)⌋ + 2) * π then max s.1 e.1 else x + r,
   if phi2 < (2 * ⌊(phi1 - π / 2) / (2 * π)⌋ + 5 / 2) * π then max s.2 e.2 else y + r⟩

open Classical in
/-- The end angle of `_arctobezierpath` (`path.py:100-105`). -/
def bezierEndAngle (phi1 phi2 : ℝ) : ℝ :=
  if phi2 < phi1 then phi2 + (⌊(phi1 - phi2) / (2 * π)⌋ + 1) * 2 * π
  else if phi2 > phi1 + 2 * π then phi2 - (⌊(phi2 - phi1) / (2 * π)⌋ - 1) * 2 * π
  else phi2

/-- `_arctobcurve` (`path.py:72-90`), for different angles. -/
def arctobcurve (x y r phi1 phi2 : ℝ) : Curve ℝ :=
  let dphi := phi2 - phi1
  let x0 := x + r * cos phi1
  let y0 := y + r * sin phi1
  let x3 := x + r * cos phi2
  let y3 := y + r * sin phi2
  let l := r * 4 * (1 - cos (dphi / 2)) / (3 * sin (dphi / 2))
  ⟨x0, y0, x0 - l * sin phi1, y0 + l * cos phi1, x3 + l * sin phi2, y3 - l * cos phi2, x3, y3⟩

open Classical in
/-- `_arctobezierpath` (`path.py:93-116`) with the default `dphimax` of 45 degrees. -/
def arctobezierpath (x y r angle1 angle2 : ℝ) : List (Curve ℝ) :=
  let phi1 := radians angle1
  let phi2 := bezierEndAngle phi1 (radians angle2)
  if r = 0 ∨ phi1 - phi2 = 0 then []
  else
    let subdivisions := (⌊(phi2 - phi1) / radians 45⌋ + 1).toNat
    let dphi := (phi2 - phi1) / subdivisions
    (List.range subdivisions).map fun (i : ℕ) => arctobcurve x y r (phi1 + i * dphi) (phi1 + (i + 1) * dphi)

/-! ## Specification -/

/-- The point of the circle at an angle in radians. -/
def circlePoint (x y r phi : ℝ) : ℝ × ℝ := (x + r * cos phi, y + r * sin phi)

/-- `b` ends the counterclockwise arc from `angle1` to `angle2` (degrees) beginning at the angle `a` (radians): the end angle itself if
it is not smaller than the begin angle, otherwise the first equivalent angle after the begin. -/
def ArcEnd (angle1 angle2 b : ℝ) : Prop :=
  (angle1 ≤ angle2 ∧ b = radians angle2) ∨
  (angle2 < angle1 ∧ radians angle1 < b ∧ b ≤ radians angle1 + 2 * π ∧ ∃ k : ℤ, b = radians angle2 + 2 * π * k)

/-- The point lies in the box. -/
def InBox (q : Quad ℝ) (p : ℝ × ℝ) : Prop := q.llx ≤ p.1 ∧ p.1 ≤ q.urx ∧ q.lly ≤ p.2 ∧ p.2 ≤ q.ury

/-! ## Bounding box -/

theorem radians_lt {a b : ℝ} : radians a < radians b ↔ a < b := by
  unfold radians
  have := pi_pos
  constructor
  · intro h
    by_contra hc
    push Not at hc
    have : b * π / 180 ≤ a * π / 180 := by gcongr
    linarith
  · intro h
    gcongr

theorem endAngle_spec (angle1 angle2 : ℝ) : ArcEnd angle1 angle2 (endAngle (radians angle1) (radians angle2)) := by
  have hpi := pi_pos
  unfold endAngle ArcEnd
  by_cases h : radians angle2 < radians angle1
  · right
    rw [if_pos h]
    refine ⟨radians_lt.mp h, ?_, ?_, ⌊(radians angle1 - radians angle2) / (2 * π)⌋ + 1, by push_cast; ring⟩
    · have := Int.lt_floor_add_one ((radians angle1 - radians angle2) / (2 * π))
      rw [div_lt_iff₀ (by positivity)] at this
      linarith
    · have := Int.floor_le ((radians angle1 - radians angle2) / (2 * π))
      rw [le_div_iff₀ (by positivity)] at this
      linarith
  · left
    rw [if_neg h]
    refine ⟨?_, rfl⟩
    by_contra hc
    push Not at hc
    exact h (radians_lt.mpr hc)

/-- The end of the arc is determined by its angles. -/
theorem arcEnd_unique {angle1 angle2 b c : ℝ} (hb : ArcEnd angle1 angle2 b) (hc : ArcEnd angle1 angle2 c) : b = c := by
  have hpi := pi_pos
  rcases hb with ⟨h1, rfl⟩ | ⟨h1, h2, h3, k, rfl⟩ <;> rcases hc with ⟨h4, rfl⟩ | ⟨h4, h5, h6, m, rfl⟩
  · rfl
  · linarith
  · linarith
  · have h7 : (k : ℝ) - m < 1 := by
      have : 2 * π * ((k : ℝ) - m) < 2 * π * 1 := by linarith
      exact lt_of_mul_lt_mul_left this (by positivity)
    have h8 : (m : ℝ) - k < 1 := by
      have : 2 * π * ((m : ℝ) - k) < 2 * π * 1 := by linarith
      exact lt_of_mul_lt_mul_left this (by positivity)
    have h9 : k - m < 1 := by exact_mod_cast h7
    have h10 : m - k < 1 := by exact_mod_cast h8
    have : k = m := by omega
    rw [this]

theorem endAngle_ge (angle1 angle2 : ℝ) : radians angle1 ≤ endAngle (radians angle1) (radians angle2) := by
  rcases endAngle_spec angle1 angle2 with ⟨h, e⟩ | ⟨_, h, _⟩
  · rw [e]
    by_contra hc
    push Not at hc
    exact absurd (radians_lt.mp hc) (not_lt.mpr h)
  · exact h.le

/-- The end angle is the given one up to full turns. -/
theorem endAngle_trig (angle1 angle2 : ℝ) :
    cos (endAngle (radians angle1) (radians angle2)) = cos (radians angle2) ∧
    sin (endAngle (radians angle1) (radians angle2)) = sin (radians angle2) := by
  rcases endAngle_spec angle1 angle2 with ⟨_, e⟩ | ⟨_, _, _, k, e⟩
  · rw [e]; exact ⟨rfl, rfl⟩
  · rw [e, show radians angle2 + 2 * π * (k : ℝ) = radians angle2 + (k : ℝ) * (2 * π) by ring]
    exact ⟨cos_add_int_mul_two_pi _ _, sin_add_int_mul_two_pi _ _⟩

/-- The cosine between two angles without a multiple of `2π` after the first one is at most the larger one of those at the ends. -/
theorem cos_le_ends {a b t : ℝ} (k : ℤ) (h1 : 2 * π * k ≤ a) (h2 : b < 2 * π * (k + 1)) (hat : a ≤ t) (htb : t ≤ b) :
    cos t ≤ max (cos a) (cos b) := by
  have red : ∀ s : ℝ, cos s = cos (s - 2 * π * k) := fun s => by
    rw [show s - 2 * π * (k : ℝ) = s - (k : ℝ) * (2 * π) by ring, cos_sub_int_mul_two_pi]
  rw [red t, red a, red b]
  generalize ht : t - 2 * π * (k : ℝ) = u
  generalize ha : a - 2 * π * (k : ℝ) = v
  generalize hb : b - 2 * π * (k : ℝ) = w
  have h0v : 0 ≤ v := by rw [← ha]; linarith
  have hvu : v ≤ u := by rw [← ha, ← ht]; linarith
  have huw : u ≤ w := by rw [← hb, ← ht]; linarith
  have hw : w < 2 * π := by rw [← hb]; linarith
  by_cases hu : u ≤ π
  · exact le_max_of_le_left (cos_le_cos_of_nonneg_of_le_pi h0v hu hvu)
  · push Not at hu
    apply le_max_of_le_right
    have e1 : cos u = cos (2 * π - u) := (cos_two_pi_sub u).symm
    have e2 : cos w = cos (2 * π - w) := (cos_two_pi_sub w).symm
    rw [e1, e2]
    exact cos_le_cos_of_nonneg_of_le_pi (by linarith) (by linarith) (by linarith)

/-- Shifted version: `c` is the place of a maximum. -/
theorem cos_shift_le_ends {a b t : ℝ} (c : ℝ) (h2 : b < (2 * ⌊(a - c) / (2 * π)⌋ + 2) * π + c) (hat : a ≤ t) (htb : t ≤ b) :
    cos (t - c) ≤ max (cos (a - c)) (cos (b - c)) := by
  have hpi := pi_pos
  have h := Int.floor_le ((a - c) / (2 * π))
  rw [le_div_iff₀ (by positivity)] at h
  apply cos_le_ends ⌊(a - c) / (2 * π)⌋
  · linarith
  · linarith
  · linarith
  · linarith

/-- Otherwise the maximum is taken. -/
theorem cos_shift_attained {a b : ℝ} (c : ℝ) (h2 : ¬ b < (2 * ⌊(a - c) / (2 * π)⌋ + 2) * π + c) :
    ∃ t, a ≤ t ∧ t ≤ b ∧ cos (t - c) = 1 := by
  have hpi := pi_pos
  push Not at h2
  have h := Int.lt_floor_add_one ((a - c) / (2 * π))
  rw [div_lt_iff₀ (by positivity)] at h
  refine ⟨(2 * ⌊(a - c) / (2 * π)⌋ + 2) * π + c, by linarith, h2, ?_⟩
  rw [show ((2 * (⌊(a - c) / (2 * π)⌋ : ℝ) + 2) * π + c - c) = ((⌊(a - c) / (2 * π)⌋ + 1 : ℤ) : ℝ) * (2 * π) by push_cast; ring]
  exact cos_int_mul_two_pi _

open Classical in
/-- One side of the box in terms of a shifted cosine: the largest value of `r * cos (t - c)` on the arc. -/
theorem side_spec {a b : ℝ} (c r : ℝ) (hab : a ≤ b) (hr : 0 ≤ r) :
    (∀ t, a ≤ t → t ≤ b → r * cos (t - c) ≤
      if b < (2 * ⌊(a - c) / (2 * π)⌋ + 2) * π + c then max (r * cos (a - c)) (r * cos (b - c)) else r) ∧
    (∃ t, a ≤ t ∧ t ≤ b ∧ r * cos (t - c) =
      if b < (2 * ⌊(a - c) / (2 * π)⌋ + 2) * π + c then max (r * cos (a - c)) (r * cos (b - c)) else r) := by
  by_cases h : b < (2 * ⌊(a - c) / (2 * π)⌋ + 2) * π + c
  · simp only [if_pos h]
    constructor
    · intro t h1 h2
      rw [← mul_max_of_nonneg _ _ hr]
      exact mul_le_mul_of_nonneg_left (cos_shift_le_ends c h h1 h2) hr
    · rcases le_total (r * cos (a - c)) (r * cos (b - c)) with h1 | h1
      · exact ⟨b, hab, le_refl b, by rw [max_eq_right h1]⟩
      · exact ⟨a, le_refl a, hab, by rw [max_eq_left h1]⟩
  · simp only [if_neg h]
    constructor
    · intro t _ _
      have := mul_le_mul_of_nonneg_left (cos_le_one (t - c)) hr
      linarith
    · obtain ⟨t, h1, h2, h3⟩ := cos_shift_attained c h
      exact ⟨t, h1, h2, by rw [h3, mul_one]⟩

theorem cos_sub_pi' (t : ℝ) : cos (t - π) = -cos t := cos_sub_pi t

theorem cos_sub_three (t : ℝ) : cos (t - 3 * π / 2) = -sin t := by
  rw [show t - 3 * π / 2 = t + π / 2 - 2 * π by ring, cos_sub_two_pi, cos_add_pi_div_two]

/-- The bounding box of an arc contains all points of the arc, and the arc touches each of its sides: it is the smallest box. -/
theorem arcbbox_tight (x y r angle1 angle2 b : ℝ) (hr : 0 ≤ r) (hb : ArcEnd angle1 angle2 b) :
    (∀ phi, radians angle1 ≤ phi → phi ≤ b → InBox (arcbbox x y r angle1 angle2) (circlePoint x y r phi)) ∧
    (∃ phi, radians angle1 ≤ phi ∧ phi ≤ b ∧ (circlePoint x y r phi).1 = (arcbbox x y r angle1 angle2).llx) ∧
    (∃ phi, radians angle1 ≤ phi ∧ phi ≤ b ∧ (circlePoint x y r phi).2 = (arcbbox x y r angle1 angle2).lly) ∧
    (∃ phi, radians angle1 ≤ phi ∧ phi ≤ b ∧ (circlePoint x y r phi).1 = (arcbbox x y r angle1 angle2).urx) ∧
    (∃ phi, radians angle1 ≤ phi ∧ phi ≤ b ∧ (circlePoint x y r phi).2 = (arcbbox x y r angle1 angle2).ury) := by
  have hpi := pi_pos
  obtain rfl := arcEnd_unique hb (endAngle_spec angle1 angle2)
  have hge := endAngle_ge angle1 angle2
  have htr := endAngle_trig angle1 angle2
  generalize hE : endAngle (radians angle1) (radians angle2) = E at *
  generalize hA : radians angle1 = A at *
  obtain ⟨u1, a1⟩ := side_spec (a := A) (b := E) π r hge hr
  obtain ⟨u2, a2⟩ := side_spec (a := A) (b := E) (3 * π / 2) r hge hr
  obtain ⟨u3, a3⟩ := side_spec (a := A) (b := E) 0 r hge hr
  obtain ⟨u4, a4⟩ := side_spec (a := A) (b := E) (π / 2) r hge hr
  simp only [cos_sub_pi', cos_sub_three, sub_zero, cos_sub_pi_div_two, htr.1, htr.2] at u1 a1 u2 a2 u3 a3 u4 a4
  have e1 : (arcbbox x y r angle1 angle2).llx = x - (if E < (2 * ⌊(A - π) / (2 * π)⌋ + 2) * π + π then
      max (r * -cos A) (r * -cos (radians angle2)) else r) := by
    simp only [arcbbox, arcpoint, hA, hE]
    rw [show (2 * (⌊(A - π) / (2 * π)⌋ : ℝ) + 3) * π = (2 * ⌊(A - π) / (2 * π)⌋ + 2) * π + π by ring]
    split_ifs
    · rw [min_add_add_left, mul_neg, mul_neg, max_neg_neg, sub_neg_eq_add]
    · rfl
  have e2 : (arcbbox x y r angle1 angle2).lly = y - (if E < (2 * ⌊(A - 3 * π / 2) / (2 * π)⌋ + 2) * π + 3 * π / 2 then
      max (r * -sin A) (r * -sin (radians angle2)) else r) := by
    simp only [arcbbox, arcpoint, hA, hE]
    rw [show (2 * (⌊(A - 3 * π / 2) / (2 * π)⌋ : ℝ) + 7 / 2) * π = (2 * ⌊(A - 3 * π / 2) / (2 * π)⌋ + 2) * π + 3 * π / 2 by ring]
    split_ifs
    · rw [min_add_add_left, mul_neg, mul_neg, max_neg_neg, sub_neg_eq_add]
    · rfl
  have e3 : (arcbbox x y r angle1 angle2).urx = x + (if E < (2 * ⌊A / (2 * π)⌋ + 2) * π + 0 then
      max (r * cos A) (r * cos (radians angle2)) else r) := by
    simp only [arcbbox, arcpoint, hA, hE, add_zero]
    split_ifs
    · rw [max_add_add_left]
    · rfl
  have e4 : (arcbbox x y r angle1 angle2).ury = y + (if E < (2 * ⌊(A - π / 2) / (2 * π)⌋ + 2) * π + π / 2 then
      max (r * sin A) (r * sin (radians angle2)) else r) := by
    simp only [arcbbox, arcpoint, hA, hE]
    rw [show (2 * (⌊(A - π / 2) / (2 * π)⌋ : ℝ) + 5 / 2) * π = (2 * ⌊(A - π / 2) / (2 * π)⌋ + 2) * π + π / 2 by ring]
    split_ifs
    · rw [max_add_add_left]
    · rfl
  refine ⟨fun phi h1 h2 => ?_, ?_, ?_, ?_, ?_⟩
  · have v1 := u1 phi h1 h2
    have v2 := u2 phi h1 h2
    have v3 := u3 phi h1 h2
    have v4 := u4 phi h1 h2
    refine ⟨?_, ?_, ?_, ?_⟩ <;> simp only [circlePoint]
    · rw [e1]; linarith
    · rw [e3]; linarith
    · rw [e2]; linarith
    · rw [e4]; linarith
  · obtain ⟨t, h1, h2, h3⟩ := a1
    exact ⟨t, h1, h2, by rw [e1]; simp only [circlePoint]; linarith⟩
  · obtain ⟨t, h1, h2, h3⟩ := a2
    exact ⟨t, h1, h2, by rw [e2]; simp only [circlePoint]; linarith⟩
  · obtain ⟨t, h1, h2, h3⟩ := a3
    exact ⟨t, h1, h2, by rw [e3]; simp only [circlePoint]; linarith⟩
  · obtain ⟨t, h1, h2, h3⟩ := a4
    exact ⟨t, h1, h2, by rw [e4]; simp only [circlePoint]; linarith⟩

/-- The begin and the end of the arc are points of the circle, those which the path continues from. -/
theorem arc_ends (x y r angle1 angle2 b : ℝ) (hb : ArcEnd angle1 angle2 b) :
    arcpoint x y r angle1 = circlePoint x y r (radians angle1) ∧ arcpoint x y r angle2 = circlePoint x y r b ∧
    ((arcpoint x y r angle1).1 - x) ^ 2 + ((arcpoint x y r angle1).2 - y) ^ 2 = r ^ 2 ∧
    ((arcpoint x y r angle2).1 - x) ^ 2 + ((arcpoint x y r angle2).2 - y) ^ 2 = r ^ 2 := by
  obtain rfl := arcEnd_unique hb (endAngle_spec angle1 angle2)
  have htr := endAngle_trig angle1 angle2
  have key : ∀ t : ℝ, (x + r * cos t - x) ^ 2 + (y + r * sin t - y) ^ 2 = r ^ 2 := fun t => by
    linear_combination r ^ 2 * sin_sq_add_cos_sq t
  refine ⟨rfl, ?_, key _, key _⟩
  simp only [arcpoint, circlePoint, htr.1, htr.2]

/-- Example: the arc from 350 to 10 degrees around the origin goes through the angle 0 only; its box reaches to the radius on the right. -/
example : ∃ b, ArcEnd 350 10 b ∧ radians 350 ≤ 2 * π ∧ 2 * π ≤ b := by
  have hpi := pi_pos
  refine ⟨radians 370, Or.inr ⟨by norm_num, radians_lt.mpr (by norm_num), ?_, 1, ?_⟩, ?_, ?_⟩ <;> simp only [radians, Int.cast_one] <;>
    linarith

/-- With a negative radius, which the code does not reject, the box does not contain the arc: the lower left corner of the box of a full circle is
the upper right one. -/
theorem arcbbox_negative_radius : ¬ InBox (arcbbox 0 0 (-1) 0 360) (circlePoint 0 0 (-1) (radians 0)) := by
  have hpi := pi_pos
  rintro ⟨h1, -⟩
  revert h1
  have e : endAngle (radians 0) (radians 360) = 2 * π := by
    rw [endAngle, if_neg (by rw [radians_lt]; norm_num)]
    simp only [radians]; ring
  have f : ⌊(0 - π) / (2 * π)⌋ = -1 := by
    rw [show (0 - π) / (2 * π) = -1 / 2 by field_simp; ring]
    norm_num
  simp only [arcbbox, e]
  rw [show radians 0 = 0 by simp [radians], f, if_neg (by push_cast; linarith)]
  simp only [circlePoint, cos_zero]
  norm_num

/-! ## Bezier curves -/

/-- The angle of `_arctobezierpath` is an equivalent angle after the begin angle, the same as in the box for arcs of at most one turn;
the part drawn covers at most two turns. -/
theorem bezierEndAngle_spec (angle1 angle2 : ℝ) :
    radians angle1 ≤ bezierEndAngle (radians angle1) (radians angle2) ∧
    bezierEndAngle (radians angle1) (radians angle2) < radians angle1 + 4 * π ∧
    (∃ k : ℤ, bezierEndAngle (radians angle1) (radians angle2) = radians angle2 + 2 * π * k) ∧
    ∀ b, ArcEnd angle1 angle2 b → b ≤ radians angle1 + 2 * π → bezierEndAngle (radians angle1) (radians angle2) = b := by
  have hpi := pi_pos
  have hE := endAngle_spec angle1 angle2
  have hge := endAngle_ge angle1 angle2
  unfold bezierEndAngle
  unfold endAngle at hE hge
  by_cases h : radians angle2 < radians angle1
  · rw [if_pos h] at hE hge ⊢
    refine ⟨hge, ?_, ⟨⌊(radians angle1 - radians angle2) / (2 * π)⌋ + 1, by push_cast; ring⟩, fun b hb _ => arcEnd_unique hE hb⟩
    have := Int.floor_le ((radians angle1 - radians angle2) / (2 * π))
    rw [le_div_iff₀ (by positivity)] at this
    linarith
  · rw [if_neg h] at hE hge ⊢
    by_cases h2 : radians angle2 > radians angle1 + 2 * π
    · rw [if_pos h2]
      have f1 := Int.floor_le ((radians angle2 - radians angle1) / (2 * π))
      have f2 := Int.lt_floor_add_one ((radians angle2 - radians angle1) / (2 * π))
      rw [le_div_iff₀ (by positivity)] at f1
      rw [div_lt_iff₀ (by positivity)] at f2
      refine ⟨by linarith, by linarith, ⟨-(⌊(radians angle2 - radians angle1) / (2 * π)⌋ - 1), by push_cast; ring⟩, ?_⟩
      intro b hb hb2
      have := arcEnd_unique hE hb
      linarith
    · rw [if_neg h2]
      push Not at h2
      exact ⟨hge, by linarith, ⟨0, by push_cast; ring⟩, fun b hb _ => arcEnd_unique hE hb⟩

/-- The curve of `_arctobcurve` begins and ends at the points of the circle. -/
theorem arctobcurve_ends (x y r phi1 phi2 : ℝ) :
    (arctobcurve x y r phi1 phi2).begin_ = circlePoint x y r phi1 ∧ (arctobcurve x y r phi1 phi2).end_ = circlePoint x y r phi2 := ⟨rfl, rfl⟩

/-- The length of the tangents is `4/3 r tan(dphi/4)`. -/
theorem tangentLength (r d : ℝ) (h1 : 0 < d) (h2 : d < 2 * π) :
    r * 4 * (1 - cos (d / 2)) / (3 * sin (d / 2)) = 4 / 3 * r * tan (d / 4) ∧ 0 < cos (d / 4) := by
  have hc : 0 < cos (d / 4) := cos_pos_of_mem_Ioo ⟨by linarith, by linarith⟩
  have hs : 0 < sin (d / 4) := sin_pos_of_pos_of_lt_pi (by linarith) (by linarith [pi_pos])
  refine ⟨?_, hc⟩
  rw [show d / 2 = 2 * (d / 4) by ring, cos_two_mul, sin_two_mul, tan_eq_sin_div_cos]
  have h3 := sin_sq_add_cos_sq (d / 4)
  generalize sin (d / 4) = s at *
  generalize cos (d / 4) = c at *
  rw [show (1 : ℝ) - (2 * c ^ 2 - 1) = 2 * s ^ 2 by linear_combination (-2) * h3]
  field_simp

/-- The rational parametrisation of the angle. -/
theorem trig_of_tan (d : ℝ) (hc : cos (d / 4) ≠ 0) :
    cos d = 1 - 8 * tan (d / 4) ^ 2 / (1 + tan (d / 4) ^ 2) ^ 2 ∧
    sin d = 4 * tan (d / 4) * (1 - tan (d / 4) ^ 2) / (1 + tan (d / 4) ^ 2) ^ 2 := by
  have h3 := sin_sq_add_cos_sq (d / 4)
  have e1 : cos d = 2 * (2 * cos (d / 4) ^ 2 - 1) ^ 2 - 1 := by
    rw [← cos_two_mul, show (2 : ℝ) * (d / 4) = d / 2 by ring, ← cos_two_mul, show (2 : ℝ) * (d / 2) = d by ring]
  have e2 : sin d = 2 * (2 * sin (d / 4) * cos (d / 4)) * (2 * cos (d / 4) ^ 2 - 1) := by
    rw [← cos_two_mul, ← sin_two_mul, show (2 : ℝ) * (d / 4) = d / 2 by ring, ← sin_two_mul, show (2 : ℝ) * (d / 2) = d by ring]
  rw [e1, e2, tan_eq_sin_div_cos]
  generalize sin (d / 4) = s at *
  generalize cos (d / 4) = c at *
  have h4 : 1 + (s / c) ^ 2 = 1 / c ^ 2 := by
    field_simp
    linear_combination h3
  rw [h4]
  have h5 : s ^ 2 = 1 - c ^ 2 := by linear_combination h3
  constructor
  · field_simp
    rw [h5]; ring
  · field_simp
    rw [h5]; ring

/-- The curve on the unit circle beginning at the angle 0, in terms of `u = tan (d / 4)`. -/
theorem unit_distance (u t : ℝ) :
    ((1 - t) ^ 3 + 3 * (1 - t) ^ 2 * t + 3 * (1 - t) * t ^ 2 *
        ((1 - 8 * u ^ 2 / (1 + u ^ 2) ^ 2) + 4 / 3 * u * (4 * u * (1 - u ^ 2) / (1 + u ^ 2) ^ 2)) +
        t ^ 3 * (1 - 8 * u ^ 2 / (1 + u ^ 2) ^ 2)) ^ 2 +
      (3 * (1 - t) ^ 2 * t * (4 / 3 * u) + 3 * (1 - t) * t ^ 2 *
        (4 * u * (1 - u ^ 2) / (1 + u ^ 2) ^ 2 - 4 / 3 * u * (1 - 8 * u ^ 2 / (1 + u ^ 2) ^ 2)) +
        t ^ 3 * (4 * u * (1 - u ^ 2) / (1 + u ^ 2) ^ 2)) ^ 2 =
    1 + 16 * u ^ 6 / (1 + u ^ 2) ^ 2 * (t * (1 - t) * (1 - 2 * t)) ^ 2 := by
  have : (1 + u ^ 2) ≠ 0 := by positivity
  field_simp
  ring

/-- How far the curve is from the circle: the squared distance from the centre exceeds the squared radius by a non-negative term,
which vanishes at the ends and in the middle. -/
theorem arctobcurve_distance (x y r phi1 phi2 t : ℝ) (h1 : phi1 < phi2) (h2 : phi2 - phi1 < 2 * π) :
    (((arctobcurve x y r phi1 phi2).at_ t).1 - x) ^ 2 + (((arctobcurve x y r phi1 phi2).at_ t).2 - y) ^ 2 =
      r ^ 2 * (1 + 16 * tan ((phi2 - phi1) / 4) ^ 6 / (1 + tan ((phi2 - phi1) / 4) ^ 2) ^ 2 * (t * (1 - t) * (1 - 2 * t)) ^ 2) := by
  obtain ⟨hl, hc⟩ := tangentLength r (phi2 - phi1) (by linarith) h2
  obtain ⟨ec, es⟩ := trig_of_tan (phi2 - phi1) hc.ne'
  have hC := cos_add phi1 (phi2 - phi1)
  have hS := sin_add phi1 (phi2 - phi1)
  rw [add_sub_cancel] at hC hS
  have h3 := sin_sq_add_cos_sq phi1
  rw [← unit_distance, ← ec, ← es]
  simp only [arctobcurve, Curve.at_]
  rw [hl, hC, hS]
  generalize tan ((phi2 - phi1) / 4) = u
  generalize cos (phi2 - phi1) = cd
  generalize sin (phi2 - phi1) = sd
  generalize sin phi1 = S at *
  generalize cos phi1 = C at *
  have h4 : S ^ 2 = 1 - C ^ 2 := by linear_combination h3
  have key : ∀ X Y : ℝ, (C * X - S * Y) ^ 2 + (S * X + C * Y) ^ 2 = X ^ 2 + Y ^ 2 := fun X Y => by
    linear_combination (X ^ 2 + Y ^ 2) * h3
  rw [mul_add (r ^ 2), ← mul_pow, ← mul_pow, ← key (r * _) (r * _)]
  congr 1 <;> congr 1 <;> ring

/-- The middle of the curve is the point of the circle at the middle angle. -/
theorem arctobcurve_middle (x y r phi1 phi2 : ℝ) (h1 : phi1 < phi2) (h2 : phi2 - phi1 < 2 * π) :
    (arctobcurve x y r phi1 phi2).at_ (1 / 2) = circlePoint x y r ((phi1 + phi2) / 2) := by
  have hs : sin ((phi2 - phi1) / 2) ≠ 0 := (sin_pos_of_pos_of_lt_pi (by linarith) (by linarith)).ne'
  have a1 : phi1 = (phi1 + phi2) / 2 - (phi2 - phi1) / 2 := by ring
  have a2 : phi2 = (phi1 + phi2) / 2 + (phi2 - phi1) / 2 := by ring
  have c1 := cos_sub ((phi1 + phi2) / 2) ((phi2 - phi1) / 2)
  have s1 := sin_sub ((phi1 + phi2) / 2) ((phi2 - phi1) / 2)
  have c2 := cos_add ((phi1 + phi2) / 2) ((phi2 - phi1) / 2)
  have s2 := sin_add ((phi1 + phi2) / 2) ((phi2 - phi1) / 2)
  rw [← a1] at c1 s1
  rw [← a2] at c2 s2
  have hl : r * 4 * (1 - cos ((phi2 - phi1) / 2)) / (3 * sin ((phi2 - phi1) / 2)) * sin ((phi2 - phi1) / 2) =
      r * 4 / 3 * (1 - cos ((phi2 - phi1) / 2)) := by field_simp
  simp only [arctobcurve, Curve.at_, circlePoint]
  rw [c1, s1, c2, s2]
  generalize r * 4 * (1 - cos ((phi2 - phi1) / 2)) / (3 * sin ((phi2 - phi1) / 2)) = l at *
  ext
  · linear_combination 3 / 4 * cos ((phi1 + phi2) / 2) * hl
  · linear_combination 3 / 4 * sin ((phi1 + phi2) / 2) * hl

/-- At both ends the curve runs along the circle, counterclockwise. -/
theorem arctobcurve_tangent (x y r phi1 phi2 : ℝ) (hr : 0 < r) (h1 : phi1 < phi2) (h2 : phi2 - phi1 < 2 * π) :
    ∃ l, 0 < l ∧ (arctobcurve x y r phi1 phi2).tangent 0 = (l * -sin phi1, l * cos phi1) ∧
      (arctobcurve x y r phi1 phi2).tangent 1 = (l * -sin phi2, l * cos phi2) := by
  obtain ⟨hl, hc⟩ := tangentLength r (phi2 - phi1) (by linarith) h2
  have ht : 0 < tan ((phi2 - phi1) / 4) := tan_pos_of_pos_of_lt_pi_div_two (by linarith) (by linarith)
  refine ⟨3 * (4 / 3 * r * tan ((phi2 - phi1) / 4)), by positivity, ?_, ?_⟩ <;> simp only [arctobcurve, Curve.tangent, hl] <;>
    (ext <;> ring)

/-- The quarter of 45 degrees. -/
theorem tan_le (d : ℝ) (h1 : 0 < d) (h2 : d ≤ π / 4) : 0 < tan (d / 4) ∧ tan (d / 4) ≤ 201 / 1000 := by
  have p1 := pi_lt_d4
  have p2 := pi_pos
  refine ⟨tan_pos_of_pos_of_lt_pi_div_two (by linarith) (by linarith), ?_⟩
  have h3 : d / 4 ≤ 0.19636 := by norm_num; linarith
  have h4 := one_sub_sq_div_two_le_cos (x := d / 4)
  have h5 := sin_lt (x := d / 4) (by linarith)
  have h6 : (d / 4) ^ 2 ≤ 0.19636 ^ 2 := by
    apply pow_le_pow_left₀ (by linarith) h3
  have h7 : 0.98 ≤ cos (d / 4) := by norm_num at h6 ⊢; linarith
  rw [tan_eq_sin_div_cos, div_le_iff₀ (by norm_num at h7 ⊢; linarith)]
  norm_num at h3 h7
  nlinarith

/-- The points of a curve for at most 45 degrees are not inside of the circle, and not further from the centre than
`r * (1 + 1/200000)`. -/
theorem arctobcurve_near (x y r phi1 phi2 t : ℝ) (hr : 0 ≤ r) (h1 : phi1 < phi2) (h2 : phi2 - phi1 ≤ π / 4) (ht0 : 0 ≤ t) (ht1 : t ≤ 1) :
    r ≤ hypot (((arctobcurve x y r phi1 phi2).at_ t).1 - x) (((arctobcurve x y r phi1 phi2).at_ t).2 - y) ∧
    hypot (((arctobcurve x y r phi1 phi2).at_ t).1 - x) (((arctobcurve x y r phi1 phi2).at_ t).2 - y) ≤ r * (1 + 1 / 200000) := by
  have hpi := pi_pos
  have hd := arctobcurve_distance x y r phi1 phi2 t h1 (by linarith)
  obtain ⟨hu0, hu⟩ := tan_le (phi2 - phi1) (by linarith) h2
  generalize tan ((phi2 - phi1) / 4) = u at *
  unfold hypot
  rw [hd]
  have hw : (t * (1 - t) * (1 - 2 * t)) ^ 2 ≤ 1 / 108 := by
    have hw0 : 0 ≤ t * (1 - t) := mul_nonneg ht0 (by linarith)
    generalize hwd : t * (1 - t) = w at *
    have : (w * (1 - 2 * t)) ^ 2 = w ^ 2 * (1 - 4 * w) := by rw [← hwd]; ring
    rw [this]
    nlinarith [mul_nonneg (by linarith : (0:ℝ) ≤ 12 * w + 1) (sq_nonneg (6 * w - 1))]
  have hc : 16 * u ^ 6 / (1 + u ^ 2) ^ 2 ≤ 16 * (201 / 1000) ^ 6 := by
    rw [div_le_iff₀ (by positivity)]
    have e1 : u ^ 6 ≤ (201 / 1000) ^ 6 := pow_le_pow_left₀ hu0.le hu 6
    have e2 : (1 : ℝ) ≤ (1 + u ^ 2) ^ 2 := by nlinarith [sq_nonneg u]
    calc 16 * u ^ 6 ≤ 16 * (201 / 1000) ^ 6 := by linarith
      _ = 16 * (201 / 1000) ^ 6 * 1 := by ring
      _ ≤ _ := by gcongr
  have hc0 : 0 ≤ 16 * u ^ 6 / (1 + u ^ 2) ^ 2 := by positivity
  have hp : 16 * u ^ 6 / (1 + u ^ 2) ^ 2 * (t * (1 - t) * (1 - 2 * t)) ^ 2 ≤ 16 * (201 / 1000) ^ 6 * (1 / 108) :=
    mul_le_mul hc hw (sq_nonneg _) (by positivity)
  have hp0 : 0 ≤ 16 * u ^ 6 / (1 + u ^ 2) ^ 2 * (t * (1 - t) * (1 - 2 * t)) ^ 2 := mul_nonneg hc0 (sq_nonneg _)
  generalize 16 * u ^ 6 / (1 + u ^ 2) ^ 2 * (t * (1 - t) * (1 - 2 * t)) ^ 2 = q at *
  constructor
  · apply le_sqrt_of_sq_le
    nlinarith [sq_nonneg r]
  · rw [sqrt_le_left (by positivity), mul_pow]
    apply mul_le_mul_of_nonneg_left _ (sq_nonneg r)
    norm_num at hp ⊢
    linarith

/-- The Bezier curves of an arc: they begin and end at the begin and end of the arc, each one begins where the previous one ends, each one belongs to
an angle of at most 45 degrees, and all of their points are at the distance `r` from the centre up to a relative error of `1/200000`. -/
theorem arctobezierpath_spec (x y r angle1 angle2 : ℝ) (hr : r ≠ 0) (ha : angle1 ≠ angle2) :
    ((arctobezierpath x y r angle1 angle2).head?.map Curve.begin_ = some (arcpoint x y r angle1)) ∧
    ((arctobezierpath x y r angle1 angle2).getLast?.map Curve.end_ = some (arcpoint x y r angle2)) ∧
    ((arctobezierpath x y r angle1 angle2).IsChain fun c d => c.end_ = d.begin_) ∧
    (∀ c ∈ arctobezierpath x y r angle1 angle2, ∃ phi1 phi2, phi1 < phi2 ∧ phi2 - phi1 ≤ π / 4 ∧ radians angle1 ≤ phi1 ∧
      phi2 ≤ bezierEndAngle (radians angle1) (radians angle2) ∧
      c.begin_ = circlePoint x y r phi1 ∧ c.at_ (1 / 2) = circlePoint x y r ((phi1 + phi2) / 2) ∧ c.end_ = circlePoint x y r phi2) ∧
    (0 < r → ∀ c ∈ arctobezierpath x y r angle1 angle2, ∀ t, 0 ≤ t → t ≤ 1 →
      r ≤ hypot ((c.at_ t).1 - x) ((c.at_ t).2 - y) ∧ hypot ((c.at_ t).1 - x) ((c.at_ t).2 - y) ≤ r * (1 + 1 / 200000)) := by
  have hpi := pi_pos
  obtain ⟨h1, h2, ⟨k, hk⟩, h4⟩ := bezierEndAngle_spec angle1 angle2
  have htr : circlePoint x y r (bezierEndAngle (radians angle1) (radians angle2)) = arcpoint x y r angle2 := by
    rw [hk, show radians angle2 + 2 * π * (k : ℝ) = radians angle2 + (k : ℝ) * (2 * π) by ring]
    simp only [circlePoint, arcpoint, cos_add_int_mul_two_pi, sin_add_int_mul_two_pi]
  have hne : radians angle1 ≠ bezierEndAngle (radians angle1) (radians angle2) := by
    intro he
    rcases lt_or_gt_of_ne ha with h | h
    · have := radians_lt.mpr h
      have hb := h4 (radians angle2) (Or.inl ⟨h.le, rfl⟩)
      by_cases h5 : radians angle2 ≤ radians angle1 + 2 * π
      · have := hb h5
        linarith
      · push Not at h5
        rw [bezierEndAngle, if_neg (by linarith), if_pos h5] at he
        have f1 := Int.floor_le ((radians angle2 - radians angle1) / (2 * π))
        rw [le_div_iff₀ (by positivity)] at f1
        linarith
    · have hE := endAngle_spec angle1 angle2
      rcases hE with ⟨h6, _⟩ | ⟨_, h6, h7, _⟩
      · linarith
      · have := h4 _ (endAngle_spec angle1 angle2) h7
        linarith
  have hlt : radians angle1 < bezierEndAngle (radians angle1) (radians angle2) := lt_of_le_of_ne h1 hne
  unfold arctobezierpath
  simp only
  rw [if_neg (by
    rintro (h | h)
    · exact hr h
    · exact hne (by linarith))]
  generalize hA : radians angle1 = A at *
  generalize hE : bezierEndAngle A (radians angle2) = E at *
  have h45 : radians 45 = π / 4 := by simp only [radians]; ring
  rw [h45]
  have hq : 0 < (E - A) / (π / 4) := by
    apply div_pos <;> linarith
  have hf : 0 ≤ ⌊(E - A) / (π / 4)⌋ := Int.floor_nonneg.mpr hq.le
  obtain ⟨n, hn⟩ : ∃ n : ℕ, (⌊(E - A) / (π / 4)⌋ + 1).toNat = n + 1 := ⟨⌊(E - A) / (π / 4)⌋.toNat, by omega⟩
  have hnr : ((n + 1 : ℕ) : ℝ) = (⌊(E - A) / (π / 4)⌋ : ℝ) + 1 := by
    have : ((n + 1 : ℕ) : ℤ) = ⌊(E - A) / (π / 4)⌋ + 1 := by omega
    exact_mod_cast congrArg (fun z : ℤ => (z : ℝ)) this
  have hflo := Int.lt_floor_add_one ((E - A) / (π / 4))
  rw [← hnr, div_lt_iff₀ (by positivity)] at hflo
  rw [hn]
  have hpos : (0 : ℝ) < ((n + 1 : ℕ) : ℝ) := by positivity
  generalize hD : (E - A) / ((n + 1 : ℕ) : ℝ) = D
  have hDn : ((n + 1 : ℕ) : ℝ) * D = E - A := by rw [← hD]; field_simp
  have hD0 : 0 < D := by rw [← hD]; exact div_pos (by linarith) hpos
  have hD1 : D ≤ π / 4 := by rw [← hD, div_le_iff₀ hpos]; linarith
  have hmem : ∀ c ∈ (List.range (n + 1)).map (fun (i : ℕ) => arctobcurve x y r (A + (i : ℝ) * D) (A + ((i : ℝ) + 1) * D)),
      ∃ i : ℕ, i < n + 1 ∧ c = arctobcurve x y r (A + (i : ℝ) * D) (A + ((i : ℝ) + 1) * D) := by
    intro c hc
    obtain ⟨i, hi, rfl⟩ := List.mem_map.mp hc
    exact ⟨i, List.mem_range.mp hi, rfl⟩
  refine ⟨?_, ?_, ?_, ?_, ?_⟩
  · simp only [List.range_succ_eq_map, List.map_cons, List.head?_cons, Option.map_some]
    simp only [Nat.cast_zero, zero_mul, add_zero]
    rw [(arctobcurve_ends x y r A _).1, ← hA]
    rfl
  · rw [List.range_succ, List.map_append]
    simp only [List.map_cons, List.map_nil, List.getLast?_append, List.getLast?_singleton, Option.some_or, Option.map_some]
    rw [(arctobcurve_ends x y r _ _).2, ← htr]
    congr 2
    push_cast at hDn
    linarith
  · rw [List.isChain_iff_getElem]
    intro i hi
    simp only [List.length_map, List.length_range] at hi
    simp only [List.getElem_map, List.getElem_range]
    rw [(arctobcurve_ends x y r _ _).2, (arctobcurve_ends x y r _ _).1]
    push_cast
    rfl
  · intro c hc
    obtain ⟨i, hi, rfl⟩ := hmem c hc
    have hw : A + (i : ℝ) * D < A + ((i : ℝ) + 1) * D := by linarith
    have hd : A + ((i : ℝ) + 1) * D - (A + (i : ℝ) * D) = D := by ring
    refine ⟨A + (i : ℝ) * D, A + ((i : ℝ) + 1) * D, hw, by rw [hd]; exact hD1, ?_, ?_, rfl, arctobcurve_middle _ _ _ _ _ hw (by rw [hd]; linarith), rfl⟩
    · have : 0 ≤ (i : ℝ) * D := by positivity
      linarith
    · have h6 : ((i : ℝ) + 1) ≤ ((n + 1 : ℕ) : ℝ) := by exact_mod_cast hi
      have := mul_le_mul_of_nonneg_right h6 hD0.le
      linarith
  · intro hr c hc t ht0 ht1
    obtain ⟨i, hi, rfl⟩ := hmem c hc
    exact arctobcurve_near x y r _ _ t hr.le (by linarith) (by
      rw [show A + ((i : ℝ) + 1) * D - (A + (i : ℝ) * D) = D by ring]; exact hD1) ht0 ht1

end

end PyX.Path
