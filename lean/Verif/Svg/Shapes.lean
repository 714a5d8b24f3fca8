import Mathlib.Analysis.SpecialFunctions.Trigonometric.Inverse
import Verif.Svg.EllArc

/-!
# Rectangles and polygons of SVG files (`svgfile.py:423-459`): model and C141

Lines and elliptical arcs are exact here (the code has Bezier curves for the arcs).
-/

set_option linter.unusedSectionVars false

namespace PyX.Svg.Shape

open Real

/-! ## Model -/

/-- A part of an outline: a line, or the arc of an ellipse with axes along the coordinate axes from angle `a` to angle `b`. -/
inductive Elem
  | line (p q : ℝ × ℝ)
  | arc (c : ℝ × ℝ) (rx ry a b : ℝ)

/-- A point of an ellipse. -/
noncomputable def ell (c : ℝ × ℝ) (rx ry t : ℝ) : ℝ × ℝ := (c.1 + rx * cos t, c.2 + ry * sin t)

noncomputable def Elem.begin_ : Elem → ℝ × ℝ
  | .line p _ => p
  | .arc c rx ry a _ => ell c rx ry a

noncomputable def Elem.end_ : Elem → ℝ × ℝ
  | .line _ q => q
  | .arc c rx ry _ b => ell c rx ry b

/-- The points on it. -/
def Elem.On : Elem → ℝ × ℝ → Prop
  | .line p q, z => ∃ t, 0 ≤ t ∧ t ≤ 1 ∧ z = (p.1 + t * (q.1 - p.1), p.2 + t * (q.2 - p.2))
  | .arc c rx ry a b, z => ∃ t, a ≤ t ∧ t ≤ b ∧ z = ell c rx ry t

/-- `path.rect_pt` (`path.py:1339-1348`). -/
def plain (x y w h : ℝ) : List Elem :=
  [.line (x, y) (x + w, y), .line (x + w, y) (x + w, y + h), .line (x + w, y + h) (x, y + h), .line (x, y + h) (x, y)]

/-- The quarters of the ellipse from the angles 0, 90, 180 and 270 degrees (`svgfile.py:438-439`). -/
noncomputable def quarters (rx ry : ℝ) : List Elem :=
  [.arc (0, 0) rx ry 0 (π / 2), .arc (0, 0) rx ry (π / 2) π, .arc (0, 0) rx ry π (3 * (π / 2)), .arc (0, 0) rx ry (3 * (π / 2)) (2 * π)]

/-- Splitting a closed path at its begin and at three further points: the last part is joined with the empty first one
and comes first (`normpath.py:1367-1374`). -/
def splitClosed (l : List Elem) : List Elem :=
  match l.getLast? with
  | none => []
  | some e => e :: l.dropLast

/-- `transformed(trafo.translate_pt(x, y))`. -/
def Elem.translated : Elem → ℝ → ℝ → Elem
  | .line p q, x, y => .line (p.1 + x, p.2 + y) (q.1 + x, q.2 + y)
  | .arc c rx ry a b, x, y => .arc (c.1 + x, c.2 + y) rx ry a b

/-- `p.join(c)`: with a connection line (`normpath.py:1217-1234`). -/
noncomputable def join (p : List Elem) (c : Elem) : List Elem :=
  match p.getLast? with
  | none => [c]
  | some e => p ++ [.line e.end_ c.begin_, c]

/-- `p.append(path.closepath())`. -/
noncomputable def close (p : List Elem) : List Elem :=
  match p.head?, p.getLast? with
  | some b, some e => p ++ [.line e.end_ b.begin_]
  | _, _ => p

/-- The rounded rectangle (`svgfile.py:438-444`). -/
noncomputable def rounded (x y w h rx ry : ℝ) : List Elem :=
  match splitClosed (quarters rx ry) with
  | [c1, c2, c3, c4] =>
    close (join (join (join [c1.translated (x + w - rx) (y + ry)] (c2.translated (x + w - rx) (y + h - ry))) (c3.translated (x + rx) (y + h - ry)))
      (c4.translated (x + rx) (y + ry)))
  | _ => []

/-- `rx is None or rx < 1e-10`. -/
def Missing (r : Option ℝ) : Prop := ∀ v, r = some v → v < 1 / 10 ^ 10

/-- The values of `rx` and `ry` (`svgfile.py:434-435`). -/
def radii : Option ℝ → Option ℝ → ℝ × ℝ
  | none, none => (0, 0)
  | none, some b => (b, b)
  | some a, none => (a, a)
  | some a, some b => (a, b)

open Classical in
/-- A radius is at most half of the side (`svgfile.py:436-437`). -/
noncomputable def clamp (r side : ℝ) : ℝ := if 2 * r > side then 1 / 2 * side else r

open Classical in
/-- The path of a `rect` element (`svgfile.py:425-444`); `none` if nothing is drawn. -/
noncomputable def rect (x y w h : ℝ) (rx ry : Option ℝ) : Option (List Elem) :=
  if w = 0 ∨ h = 0 then none
  else if Missing rx ∧ Missing ry then some (plain x y w h)
  else
    let r := radii rx ry
    some (rounded x y w h (clamp r.1 w) (clamp r.2 h))

/-- The loop of a `polyline` or `polygon` element (`svgfile.py:456-459`): lines from the current point. -/
def polyLines (p : ℝ × ℝ) : List ℝ → List Elem × (ℝ × ℝ)
  | x :: y :: l => (.line p (x, y) :: (polyLines (x, y) l).1, (polyLines (x, y) l).2)
  | _ => ([], p)

/-- `polyline` and `polygon` (`svgfile.py:454-461`); `none`: not enough values to unpack. -/
def poly (closed : Bool) : List ℝ → Option (List Elem)
  | x :: y :: l =>
    let r := polyLines (x, y) l
    some (if closed then r.1 ++ [.line r.2 (x, y)] else r.1)
  | _ => none

/-! ## Specification -/

/-- The distance of a number to the range from `a` to `b`. -/
noncomputable def away (a b z : ℝ) : ℝ := max (max (a - z) (z - b)) 0

/-- The outline of a rounded rectangle: the points whose distances to the rectangle of the centres of its corners, in units
of the radii, are on the unit circle. -/
def Outline (x y w h rx ry : ℝ) (p : ℝ × ℝ) : Prop :=
  (away (x + rx) (x + w - rx) p.1 / rx) ^ 2 + (away (y + ry) (y + h - ry) p.2 / ry) ^ 2 = 1

/-- The outline of a rectangle. -/
def Edge (x y w h : ℝ) (p : ℝ × ℝ) : Prop :=
  (x ≤ p.1 ∧ p.1 ≤ x + w) ∧ (y ≤ p.2 ∧ p.2 ≤ y + h) ∧ (p.1 = x ∨ p.1 = x + w ∨ p.2 = y ∨ p.2 = y + h)

/-- The parts follow each other, and the last one ends where the first one begins. -/
def Loop (l : List Elem) : Prop :=
  (l.IsChain fun e f => e.end_ = f.begin_) ∧ ∃ a b, l.head? = some a ∧ l.getLast? = some b ∧ b.end_ = a.begin_

/-! ## Theorems -/

theorem rounded_eq (x y w h rx ry : ℝ) : rounded x y w h rx ry =
    [.arc (x + w - rx, y + ry) rx ry (3 * (π / 2)) (2 * π), .line (x + w, y + ry) (x + w, y + h - ry),
     .arc (x + w - rx, y + h - ry) rx ry 0 (π / 2), .line (x + w - rx, y + h) (x + rx, y + h),
     .arc (x + rx, y + h - ry) rx ry (π / 2) π, .line (x, y + h - ry) (x, y + ry),
     .arc (x + rx, y + ry) rx ry π (3 * (π / 2)), .line (x + rx, y) (x + w - rx, y)] := by
  have hc : cos (3 * (π / 2)) = 0 := by
    rw [show 3 * (π / 2) = π / 2 + π by ring, cos_add_pi, cos_pi_div_two, neg_zero]
  have hs : sin (3 * (π / 2)) = -1 := by
    rw [show 3 * (π / 2) = π / 2 + π by ring, sin_add_pi, sin_pi_div_two]
  simp [rounded, splitClosed, quarters, Elem.translated, join, close, Elem.begin_, Elem.end_, ell, hc, hs]

/-- **C141 (loop).** A rounded rectangle is a closed loop. -/
theorem rounded_loop (x y w h rx ry : ℝ) : Loop (rounded x y w h rx ry) := by
  have hc : cos (3 * (π / 2)) = 0 := by
    rw [show 3 * (π / 2) = π / 2 + π by ring, cos_add_pi, cos_pi_div_two, neg_zero]
  have hs : sin (3 * (π / 2)) = -1 := by
    rw [show 3 * (π / 2) = π / 2 + π by ring, sin_add_pi, sin_pi_div_two]
  rw [rounded_eq]
  refine ⟨?_, _, _, rfl, rfl, ?_⟩
  · simp [Elem.begin_, Elem.end_, ell, hc, hs]
  · simp [Elem.begin_, Elem.end_, ell, hc, hs]

theorem line_on_h {a b y : ℝ} (hab : a ≤ b) (z : ℝ × ℝ) : (Elem.line (a, y) (b, y)).On z ↔ (a ≤ z.1 ∧ z.1 ≤ b) ∧ z.2 = y := by
  constructor
  · rintro ⟨t, h0, h1, rfl⟩
    refine ⟨⟨?_, ?_⟩, by simp⟩
    · simp only; nlinarith
    · simp only; nlinarith
  · rintro ⟨⟨h1, h2⟩, h3⟩
    rcases eq_or_lt_of_le hab with rfl | hlt
    · exact ⟨0, le_rfl, zero_le_one, Prod.ext (by simp only; linarith) (by simp only; linarith)⟩
    · have hd : 0 < b - a := by linarith
      refine ⟨(z.1 - a) / (b - a), div_nonneg (by linarith) hd.le, (div_le_one hd).mpr (by linarith), Prod.ext ?_ ?_⟩
      · simp only; field_simp; ring
      · simp only; rw [h3]; ring

theorem line_on_v {a b x : ℝ} (hab : a ≤ b) (z : ℝ × ℝ) : (Elem.line (x, a) (x, b)).On z ↔ z.1 = x ∧ (a ≤ z.2 ∧ z.2 ≤ b) := by
  constructor
  · rintro ⟨t, h0, h1, rfl⟩
    refine ⟨by simp, ?_, ?_⟩
    · simp only; nlinarith
    · simp only; nlinarith
  · rintro ⟨h3, h1, h2⟩
    rcases eq_or_lt_of_le hab with rfl | hlt
    · exact ⟨0, le_rfl, zero_le_one, Prod.ext (by simp only; linarith) (by simp only; linarith)⟩
    · have hd : 0 < b - a := by linarith
      refine ⟨(z.2 - a) / (b - a), div_nonneg (by linarith) hd.le, (div_le_one hd).mpr (by linarith), Prod.ext ?_ ?_⟩
      · simp only; rw [h3]; ring
      · simp only; field_simp; ring

/-- A line and the reversed line have the same points. -/
theorem line_on_swap (p q z : ℝ × ℝ) : (Elem.line p q).On z ↔ (Elem.line q p).On z := by
  constructor <;>
  · rintro ⟨t, h0, h1, rfl⟩
    exact ⟨1 - t, by linarith, by linarith, Prod.ext (by simp only; ring) (by simp only; ring)⟩

/-- Points on the unit circle in one quadrant are given by an angle of the quadrant. -/
theorem quadrant (u v : ℝ) (hu : 0 ≤ u) (hv : 0 ≤ v) (h : u ^ 2 + v ^ 2 = 1) : ∃ t, 0 ≤ t ∧ t ≤ π / 2 ∧ cos t = u ∧ sin t = v := by
  have hu1 : u ≤ 1 := by nlinarith
  refine ⟨arccos u, arccos_nonneg u, arccos_le_pi_div_two.mpr hu, cos_arccos (by linarith) hu1, ?_⟩
  rw [sin_arccos]
  rw [show 1 - u ^ 2 = v ^ 2 by linarith]
  exact sqrt_sq hv

/-- The points of the four quarters: with the signs of the directions from the centre. -/
theorem quarter_on (c : ℝ × ℝ) (rx ry : ℝ) (hx : 0 < rx) (hy : 0 < ry) (z : ℝ × ℝ) :
    ((Elem.arc c rx ry 0 (π / 2)).On z ↔ 0 ≤ z.1 - c.1 ∧ 0 ≤ z.2 - c.2 ∧ ((z.1 - c.1) / rx) ^ 2 + ((z.2 - c.2) / ry) ^ 2 = 1) ∧
    ((Elem.arc c rx ry (π / 2) π).On z ↔ 0 ≤ c.1 - z.1 ∧ 0 ≤ z.2 - c.2 ∧ ((c.1 - z.1) / rx) ^ 2 + ((z.2 - c.2) / ry) ^ 2 = 1) ∧
    ((Elem.arc c rx ry π (3 * (π / 2))).On z ↔ 0 ≤ c.1 - z.1 ∧ 0 ≤ c.2 - z.2 ∧ ((c.1 - z.1) / rx) ^ 2 + ((c.2 - z.2) / ry) ^ 2 = 1) ∧
    ((Elem.arc c rx ry (3 * (π / 2)) (2 * π)).On z ↔ 0 ≤ z.1 - c.1 ∧ 0 ≤ c.2 - z.2 ∧ ((z.1 - c.1) / rx) ^ 2 + ((c.2 - z.2) / ry) ^ 2 = 1) := by
  have key : ∀ t : ℝ, cos t ^ 2 + sin t ^ 2 = 1 := cos_sq_add_sin_sq
  have fwd : ∀ t, 0 ≤ t → t ≤ π / 2 → 0 ≤ cos t ∧ 0 ≤ sin t := fun t h0 h1 =>
    ⟨cos_nonneg_of_mem_Icc ⟨by linarith [pi_pos], h1⟩, sin_nonneg_of_nonneg_of_le_pi h0 (by linarith [pi_pos])⟩
  have dx : ∀ s : ℝ, rx * s / rx = s := fun s => mul_div_cancel_left₀ s hx.ne'
  have dy : ∀ s : ℝ, ry * s / ry = s := fun s => mul_div_cancel_left₀ s hy.ne'
  have mx : ∀ s : ℝ, rx * (s / rx) = s := fun s => mul_div_cancel₀ s hx.ne'
  have my : ∀ s : ℝ, ry * (s / ry) = s := fun s => mul_div_cancel₀ s hy.ne'
  refine ⟨?_, ?_, ?_, ?_⟩
  · constructor
    · rintro ⟨t, h0, h1, rfl⟩
      obtain ⟨h2, h3⟩ := fwd t h0 h1
      simp only [ell, add_sub_cancel_left, dx, dy]
      exact ⟨mul_nonneg hx.le h2, mul_nonneg hy.le h3, key t⟩
    · rintro ⟨h1, h2, h3⟩
      obtain ⟨t, t0, t1, ht, ht'⟩ := quadrant _ _ (div_nonneg h1 hx.le) (div_nonneg h2 hy.le) h3
      refine ⟨t, t0, t1, Prod.ext ?_ ?_⟩
      · simp only [ell, ht, mx]; ring
      · simp only [ell, ht', my]; ring
  · constructor
    · rintro ⟨t, h0, h1, rfl⟩
      obtain ⟨h2, h3⟩ := fwd (π - t) (by linarith) (by linarith)
      rw [cos_pi_sub] at h2
      rw [sin_pi_sub] at h3
      simp only [ell, add_sub_cancel_left, sub_add_cancel_left, dy]
      rw [← mul_neg, dx]
      exact ⟨mul_nonneg hx.le h2, mul_nonneg hy.le h3, by rw [neg_sq]; exact key t⟩
    · rintro ⟨h1, h2, h3⟩
      obtain ⟨t, t0, t1, ht, ht'⟩ := quadrant _ _ (div_nonneg h1 hx.le) (div_nonneg h2 hy.le) h3
      refine ⟨π - t, by linarith, by linarith, Prod.ext ?_ ?_⟩
      · simp only [ell, cos_pi_sub, ht, mul_neg, mx]; ring
      · simp only [ell, sin_pi_sub, ht', my]; ring
  · constructor
    · rintro ⟨t, h0, h1, rfl⟩
      obtain ⟨h2, h3⟩ := fwd (t - π) (by linarith) (by linarith)
      rw [cos_sub_pi] at h2
      rw [sin_sub_pi] at h3
      simp only [ell, sub_add_cancel_left]
      rw [← mul_neg, ← mul_neg, dx, dy]
      exact ⟨mul_nonneg hx.le h2, mul_nonneg hy.le h3, by rw [neg_sq, neg_sq]; exact key t⟩
    · rintro ⟨h1, h2, h3⟩
      obtain ⟨t, t0, t1, ht, ht'⟩ := quadrant _ _ (div_nonneg h1 hx.le) (div_nonneg h2 hy.le) h3
      refine ⟨t + π, by linarith, by linarith, Prod.ext ?_ ?_⟩
      · simp only [ell, cos_add_pi, ht, mul_neg, mx]; ring
      · simp only [ell, sin_add_pi, ht', mul_neg, my]; ring
  · constructor
    · rintro ⟨t, h0, h1, rfl⟩
      obtain ⟨h2, h3⟩ := fwd (2 * π - t) (by linarith) (by linarith)
      rw [cos_two_pi_sub] at h2
      rw [sin_two_pi_sub] at h3
      simp only [ell, add_sub_cancel_left, sub_add_cancel_left, dx]
      rw [← mul_neg, dy]
      exact ⟨mul_nonneg hx.le h2, mul_nonneg hy.le h3, by rw [neg_sq]; exact key t⟩
    · rintro ⟨h1, h2, h3⟩
      obtain ⟨t, t0, t1, ht, ht'⟩ := quadrant _ _ (div_nonneg h1 hx.le) (div_nonneg h2 hy.le) h3
      refine ⟨2 * π - t, by linarith, by linarith, Prod.ext ?_ ?_⟩
      · simp only [ell, cos_two_pi_sub, ht, mx]; ring
      · simp only [ell, sin_two_pi_sub, ht', mul_neg, my]; ring

theorem away_cases (a b z : ℝ) (h : a ≤ b) : (z ≤ a ∧ away a b z = a - z) ∨ (b ≤ z ∧ away a b z = z - b) ∨ ((a ≤ z ∧ z ≤ b) ∧ away a b z = 0) := by
  unfold away
  rcases le_total z a with h1 | h1
  · left
    refine ⟨h1, ?_⟩
    rw [max_eq_left (by linarith : z - b ≤ a - z), max_eq_left (by linarith)]
  · rcases le_total b z with h2 | h2
    · right; left
      refine ⟨h2, ?_⟩
      rw [max_eq_right (by linarith : a - z ≤ z - b), max_eq_left (by linarith)]
    · right; right
      exact ⟨⟨h1, h2⟩, max_eq_right (max_le (by linarith) (by linarith))⟩

theorem away_low {a b z : ℝ} (h : a ≤ b) (hz : z ≤ a) : away a b z = a - z := by
  unfold away
  rw [max_eq_left (by linarith : z - b ≤ a - z), max_eq_left (by linarith)]

theorem away_high {a b z : ℝ} (h : a ≤ b) (hz : b ≤ z) : away a b z = z - b := by
  unfold away
  rw [max_eq_right (by linarith : a - z ≤ z - b), max_eq_left (by linarith)]

theorem away_in {a b z : ℝ} (h1 : a ≤ z) (h2 : z ≤ b) : away a b z = 0 := max_eq_right (max_le (by linarith) (by linarith))

theorem sq_one {u : ℝ} (hu : 0 ≤ u) (h : u ^ 2 = 1) : u = 1 := by nlinarith

/-- **C141 (rounded rectangles).** What is drawn for a rectangle with radii is the outline of the rounded rectangle. -/
theorem rounded_outline (x y w h rx ry : ℝ) (hx : 0 < rx) (hy : 0 < ry) (hw : 2 * rx ≤ w) (hh : 2 * ry ≤ h) (p : ℝ × ℝ) :
    (∃ e ∈ rounded x y w h rx ry, e.On p) ↔ Outline x y w h rx ry p := by
  rw [rounded_eq]
  simp only [List.mem_cons, List.not_mem_nil, or_false, exists_eq_or_imp, exists_eq_left]
  have q1 := (quarter_on (x + w - rx, y + ry) rx ry hx hy p).2.2.2
  have q2 := (quarter_on (x + w - rx, y + h - ry) rx ry hx hy p).1
  have q3 := (quarter_on (x + rx, y + h - ry) rx ry hx hy p).2.1
  have q4 := (quarter_on (x + rx, y + ry) rx ry hx hy p).2.2.1
  have l1 := line_on_v (x := x + w) (show y + ry ≤ y + h - ry by linarith) p
  have l2 := line_on_h (y := y + h) (show x + rx ≤ x + w - rx by linarith) p
  have l3 := line_on_v (x := x) (show y + ry ≤ y + h - ry by linarith) p
  have l4 := line_on_h (y := y) (show x + rx ≤ x + w - rx by linarith) p
  rw [q1, q2, q3, q4, l1, line_on_swap (x + w - rx, y + h), l2, line_on_swap (x, y + h - ry), l3, l4]
  simp only
  have hX : x + rx ≤ x + w - rx := by linarith
  have hY : y + ry ≤ y + h - ry := by linarith
  unfold Outline
  constructor
  · rintro (⟨h1, h2, h3⟩ | ⟨h1, h2, h3⟩ | ⟨h1, h2, h3⟩ | ⟨⟨h1, h2⟩, h3⟩ | ⟨h1, h2, h3⟩ | ⟨h1, h2, h3⟩ | ⟨h1, h2, h3⟩ | ⟨⟨h1, h2⟩, h3⟩)
    · rw [away_high hX (by linarith), away_low hY (by linarith)]; exact h3
    · rw [away_high hX (by linarith), away_in h2 h3, h1, show x + w - (x + w - rx) = rx by ring, div_self hx.ne']; norm_num
    · rw [away_high hX (by linarith), away_high hY (by linarith)]; exact h3
    · rw [away_in h1 h2, away_high hY (by linarith), h3, show y + h - (y + h - ry) = ry by ring, div_self hy.ne']; norm_num
    · rw [away_low hX (by linarith), away_high hY (by linarith)]; exact h3
    · rw [away_low hX (by linarith), away_in h2 h3, h1, show x + rx - x = rx by ring, div_self hx.ne']; norm_num
    · rw [away_low hX (by linarith), away_low hY (by linarith)]; exact h3
    · rw [away_in h1 h2, away_low hY (by linarith), h3, show y + ry - y = ry by ring, div_self hy.ne']; norm_num
  · intro ho
    rcases away_cases _ _ p.1 hX with ⟨hz, ha⟩ | ⟨hz, ha⟩ | ⟨hz, ha⟩ <;>
      rcases away_cases _ _ p.2 hY with ⟨hz', ha'⟩ | ⟨hz', ha'⟩ | ⟨hz', ha'⟩ <;> rw [ha, ha'] at ho
    · exact .inr (.inr (.inr (.inr (.inr (.inr (.inl ⟨by linarith, by linarith, ho⟩))))))
    · exact .inr (.inr (.inr (.inr (.inl ⟨by linarith, by linarith, ho⟩))))
    · rw [zero_div, zero_pow two_ne_zero, add_zero] at ho
      have := sq_one (div_nonneg (by linarith) hx.le) ho
      rw [div_eq_one_iff_eq hx.ne'] at this
      exact .inr (.inr (.inr (.inr (.inr (.inl ⟨by linarith, hz'⟩)))))
    · exact .inl ⟨by linarith, by linarith, ho⟩
    · exact .inr (.inr (.inl ⟨by linarith, by linarith, ho⟩))
    · rw [zero_div, zero_pow two_ne_zero, add_zero] at ho
      have := sq_one (div_nonneg (by linarith) hx.le) ho
      rw [div_eq_one_iff_eq hx.ne'] at this
      exact .inr (.inl ⟨by linarith, hz'⟩)
    · rw [zero_div, zero_pow two_ne_zero, zero_add] at ho
      have := sq_one (div_nonneg (by linarith) hy.le) ho
      rw [div_eq_one_iff_eq hy.ne'] at this
      exact .inr (.inr (.inr (.inr (.inr (.inr (.inr ⟨hz, by linarith⟩))))))
    · rw [zero_div, zero_pow two_ne_zero, zero_add] at ho
      have := sq_one (div_nonneg (by linarith) hy.le) ho
      rw [div_eq_one_iff_eq hy.ne'] at this
      exact .inr (.inr (.inr (.inl ⟨hz, by linarith⟩)))
    · norm_num at ho

/-- **C141 (rectangles).** -/
theorem plain_edge (x y w h : ℝ) (hw : 0 ≤ w) (hh : 0 ≤ h) (p : ℝ × ℝ) : (∃ e ∈ plain x y w h, e.On p) ↔ Edge x y w h p := by
  unfold plain Edge
  simp only [List.mem_cons, List.not_mem_nil, or_false, exists_eq_or_imp, exists_eq_left]
  rw [line_on_swap (x + w, y + h) (x, y + h), line_on_swap (x, y + h) (x, y), line_on_h (y := y) (show x ≤ x + w by linarith), line_on_h (y := y + h) (show x ≤ x + w by linarith),
    line_on_v (x := x) (show y ≤ y + h by linarith), line_on_v (x := x + w) (show y ≤ y + h by linarith)]
  constructor
  · rintro (⟨⟨h1, h2⟩, h3⟩ | ⟨h1, h2, h3⟩ | ⟨⟨h1, h2⟩, h3⟩ | ⟨h1, h2, h3⟩)
    · exact ⟨⟨h1, h2⟩, ⟨by linarith, by linarith⟩, .inr (.inr (.inl h3))⟩
    · exact ⟨⟨by linarith, by linarith⟩, ⟨h2, h3⟩, .inr (.inl h1)⟩
    · exact ⟨⟨h1, h2⟩, ⟨by linarith, by linarith⟩, .inr (.inr (.inr h3))⟩
    · exact ⟨⟨by linarith, by linarith⟩, ⟨h2, h3⟩, .inl h1⟩
  · rintro ⟨h1, h2, h3 | h3 | h3 | h3⟩
    · exact .inr (.inr (.inr ⟨h3, h2⟩))
    · exact .inr (.inl ⟨h3, h2⟩)
    · exact .inl ⟨h1, h3⟩
    · exact .inr (.inr (.inl ⟨h1, h3⟩))

/-! ## Radii -/

/-- The radius which SVG says: its own value, or the one of the other radius, at most half of the side. -/
noncomputable def used (own other : Option ℝ) (side : ℝ) : ℝ := min ((own.orElse fun _ => other).getD 0) (side / 2)

theorem radii_used (rx ry : Option ℝ) : radii rx ry = ((rx.orElse fun _ => ry).getD 0, (ry.orElse fun _ => rx).getD 0) := by
  cases rx <;> cases ry <;> rfl

/-- **C141 (radii).** With positive radii of which at least one is not tiny, a rounded rectangle with the radii which SVG says is drawn. -/
theorem rect_rounded (x y w h : ℝ) (hw : 0 < w) (hh : 0 < h) (rx ry : Option ℝ) (hx : ∀ v, rx = some v → 0 < v) (hy : ∀ v, ry = some v → 0 < v)
    (hbig : (∃ v, rx = some v ∧ 1 / 10 ^ 10 ≤ v) ∨ ∃ v, ry = some v ∧ 1 / 10 ^ 10 ≤ v) :
    ∃ l, rect x y w h rx ry = some l ∧ ∀ p, (∃ e ∈ l, e.On p) ↔ Outline x y w h (used rx ry w) (used ry rx h) p := by
  have hm : ¬ (Missing rx ∧ Missing ry) := by
    rintro ⟨m1, m2⟩
    rcases hbig with ⟨v, hv, hb⟩ | ⟨v, hv, hb⟩
    · exact absurd (m1 v hv) (not_lt.mpr hb)
    · exact absurd (m2 v hv) (not_lt.mpr hb)
  have h1 : rx ≠ none ∨ ry ≠ none := by
    rcases hbig with ⟨v, hv, _⟩ | ⟨v, hv, _⟩
    · exact .inl (by rw [hv]; simp)
    · exact .inr (by rw [hv]; simp)
  refine ⟨rounded x y w h (clamp (radii rx ry).1 w) (clamp (radii rx ry).2 h), ?_, ?_⟩
  · unfold rect
    rw [if_neg (by rintro (h0 | h0) <;> linarith), if_neg hm]
  · intro p
    have e1 : ∀ (a s : ℝ), clamp a s = min a (s / 2) := by
      intro a s
      unfold clamp
      split
      · rw [min_eq_right (by linarith)]; ring
      · rw [min_eq_left (by linarith)]
    simp only [radii_used, e1]
    have pos : ∀ (o o' : Option ℝ) (s : ℝ), 0 < s → (∀ v, o = some v → 0 < v) → (∀ v, o' = some v → 0 < v) → (o ≠ none ∨ o' ≠ none) →
        0 < min ((o.orElse fun _ => o').getD 0) (s / 2) := by
      intro o o' s hs ho ho' hne
      refine lt_min ?_ (by linarith)
      cases o with
      | some v => exact ho v rfl
      | none =>
        cases o' with
        | some v => exact ho' v rfl
        | none => simp at hne
    have c1 := min_le_right ((rx.orElse fun _ => ry).getD 0) (w / 2)
    have c2 := min_le_right ((ry.orElse fun _ => rx).getD 0) (h / 2)
    exact rounded_outline x y w h _ _ (pos rx ry w hw hx hy h1) (pos ry rx h hh hy hx h1.symm) (by linarith) (by linarith) p

/-- **C141 (no radii).** Without radii, or with radii which are zero, a rectangle is drawn, and nothing without width or height. -/
theorem rect_plain (x y w h : ℝ) (hw : 0 ≤ w) (hh : 0 ≤ h) (rx ry : Option ℝ) (hx : ∀ v, rx = some v → v = 0) (hy : ∀ v, ry = some v → v = 0) :
    ((w = 0 ∨ h = 0) ∧ rect x y w h rx ry = none) ∨
    (0 < w ∧ 0 < h ∧ ∃ l, rect x y w h rx ry = some l ∧ ∀ p, (∃ e ∈ l, e.On p) ↔ Edge x y w h p) := by
  by_cases h0 : w = 0 ∨ h = 0
  · exact .inl ⟨h0, by unfold rect; rw [if_pos h0]⟩
  · right
    push Not at h0
    refine ⟨lt_of_le_of_ne hw h0.1.symm, lt_of_le_of_ne hh h0.2.symm, plain x y w h, ?_, plain_edge x y w h hw hh⟩
    unfold rect
    rw [if_neg (by push Not; exact h0), if_pos ⟨fun v hv => by rw [hx v hv]; norm_num, fun v hv => by rw [hy v hv]; norm_num⟩]

/-- One radius which is zero also gives a rectangle. -/
theorem rect_zero (x y w h r : ℝ) (hw : 0 < w) (hh : 0 < h) (hr : 1 / 10 ^ 10 ≤ r) :
    ∃ l, rect x y w h (some 0) (some r) = some l ∧ ∀ p, (∃ e ∈ l, e.On p) ↔ Edge x y w h p := by
  have hr0 : 0 < r := lt_of_lt_of_le (by norm_num) hr
  have hm : ¬ (Missing (some 0) ∧ Missing (some r)) := fun hm => absurd (hm.2 r rfl) (not_lt.mpr hr)
  refine ⟨rounded x y w h (clamp 0 w) (clamp r h), by unfold rect; rw [if_neg (by rintro (h0 | h0) <;> linarith), if_neg hm]; rfl, ?_⟩
  intro p
  have e0 : clamp 0 w = 0 := by unfold clamp; rw [if_neg (by linarith)]
  rw [e0]
  generalize hs : clamp r h = s
  have s0 : 0 < s := by rw [← hs]; unfold clamp; split <;> linarith
  have s1 : 2 * s ≤ h := by rw [← hs]; unfold clamp; split <;> linarith
  rw [rounded_eq]
  simp only [List.mem_cons, List.not_mem_nil, or_false, exists_eq_or_imp, exists_eq_left, sub_zero, add_zero]
  have vert : ∀ (c d : ℝ) (a b : ℝ), (Elem.arc (c, d) 0 s a b).On p ↔ p.1 = c ∧ ∃ t, a ≤ t ∧ t ≤ b ∧ p.2 = d + s * sin t := by
    intro c d a b
    constructor
    · rintro ⟨t, h1, h2, rfl⟩
      exact ⟨by simp [ell], t, h1, h2, rfl⟩
    · rintro ⟨h0, t, h1, h2, h3⟩
      exact ⟨t, h1, h2, Prod.ext (by simp [ell, h0]) h3⟩
  have up : ∀ v, 0 ≤ v → v ≤ s → ∃ t, 0 ≤ t ∧ t ≤ π / 2 ∧ s * sin t = v := by
    intro v v0 v1
    refine ⟨arcsin (v / s), arcsin_nonneg.mpr (div_nonneg v0 s0.le), arcsin_le_pi_div_two _, ?_⟩
    rw [sin_arcsin (by linarith [div_nonneg v0 s0.le]) ((div_le_one s0).mpr v1)]
    field_simp
  have bound : ∀ t, -s ≤ s * sin t ∧ s * sin t ≤ s := fun t =>
    ⟨by nlinarith [neg_one_le_sin t], by nlinarith [sin_le_one t]⟩
  have sgn : ∀ t, 0 ≤ t → t ≤ π → 0 ≤ s * sin t := fun t t0 t1 => mul_nonneg s0.le (sin_nonneg_of_nonneg_of_le_pi t0 t1)
  rw [vert, vert, vert, vert, line_on_v (x := x + w) (show y + s ≤ y + h - s by linarith), line_on_swap (x + w, y + h), line_on_h (y := y + h) (show x ≤ x + w by linarith),
    line_on_swap (x, y + h - s), line_on_v (x := x) (show y + s ≤ y + h - s by linarith), line_on_h (y := y) (show x ≤ x + w by linarith)]
  unfold Edge
  constructor
  · rintro (⟨h1, t, t0, t1, h2⟩ | ⟨h1, h2, h3⟩ | ⟨h1, t, t0, t1, h2⟩ | ⟨⟨h1, h2⟩, h3⟩ | ⟨h1, t, t0, t1, h2⟩ | ⟨h1, h2, h3⟩ | ⟨h1, t, t0, t1, h2⟩ | ⟨⟨h1, h2⟩, h3⟩)
    · have b := bound t
      have n := sgn (t - π) (by linarith [pi_pos]) (by linarith)
      rw [sin_sub_pi] at n
      exact ⟨⟨by linarith, by linarith⟩, ⟨by linarith, by linarith⟩, .inr (.inl h1)⟩
    · exact ⟨⟨by linarith, by linarith⟩, ⟨by linarith, by linarith⟩, .inr (.inl h1)⟩
    · have b := bound t
      have n := sgn t t0 (by linarith [pi_pos])
      exact ⟨⟨by linarith, by linarith⟩, ⟨by linarith, by linarith⟩, .inr (.inl h1)⟩
    · exact ⟨⟨h1, h2⟩, ⟨by linarith, by linarith⟩, .inr (.inr (.inr h3))⟩
    · have b := bound t
      have n := sgn t (by linarith [pi_pos]) t1
      exact ⟨⟨by linarith, by linarith⟩, ⟨by linarith, by linarith⟩, .inl h1⟩
    · exact ⟨⟨by linarith, by linarith⟩, ⟨by linarith, by linarith⟩, .inl h1⟩
    · have b := bound t
      have n := sgn (t - π) (by linarith) (by linarith [pi_pos])
      rw [sin_sub_pi] at n
      exact ⟨⟨by linarith, by linarith⟩, ⟨by linarith, by linarith⟩, .inl h1⟩
    · exact ⟨⟨h1, h2⟩, ⟨by linarith, by linarith⟩, .inr (.inr (.inl h3))⟩
  · rintro ⟨⟨a1, a2⟩, ⟨b1, b2⟩, h3 | h3 | h3 | h3⟩
    · rcases le_total p.2 (y + s) with c1 | c1
      · obtain ⟨t, t0, t1, ht⟩ := up (y + s - p.2) (by linarith) (by linarith)
        refine .inr (.inr (.inr (.inr (.inr (.inr (.inl ⟨h3, t + π, by linarith, by linarith, ?_⟩))))))
        rw [sin_add_pi]; linarith
      · rcases le_total p.2 (y + h - s) with c2 | c2
        · exact .inr (.inr (.inr (.inr (.inr (.inl ⟨h3, c1, c2⟩)))))
        · obtain ⟨t, t0, t1, ht⟩ := up (p.2 - (y + h - s)) (by linarith) (by linarith)
          refine .inr (.inr (.inr (.inr (.inl ⟨h3, π - t, by linarith, by linarith, ?_⟩))))
          rw [sin_pi_sub]; linarith
    · rcases le_total p.2 (y + s) with c1 | c1
      · obtain ⟨t, t0, t1, ht⟩ := up (y + s - p.2) (by linarith) (by linarith)
        refine .inl ⟨h3, 2 * π - t, by linarith, by linarith, ?_⟩
        rw [sin_two_pi_sub]; linarith
      · rcases le_total p.2 (y + h - s) with c2 | c2
        · exact .inr (.inl ⟨h3, c1, c2⟩)
        · obtain ⟨t, t0, t1, ht⟩ := up (p.2 - (y + h - s)) (by linarith) (by linarith)
          exact .inr (.inr (.inl ⟨h3, t, t0, t1, by linarith⟩))
    · exact .inr (.inr (.inr (.inr (.inr (.inr (.inr ⟨⟨a1, a2⟩, h3⟩))))))
    · exact .inr (.inr (.inr (.inl ⟨⟨a1, a2⟩, h3⟩)))

/-- The same for the other radius. -/
theorem rect_zero_y (x y w h r : ℝ) (hw : 0 < w) (hh : 0 < h) (hr : 1 / 10 ^ 10 ≤ r) :
    ∃ l, rect x y w h (some r) (some 0) = some l ∧ ∀ p, (∃ e ∈ l, e.On p) ↔ Edge x y w h p := by
  have hr0 : 0 < r := lt_of_lt_of_le (by norm_num) hr
  have hm : ¬ (Missing (some r) ∧ Missing (some 0)) := fun hm => absurd (hm.1 r rfl) (not_lt.mpr hr)
  refine ⟨rounded x y w h (clamp r w) (clamp 0 h), by unfold rect; rw [if_neg (by rintro (h0 | h0) <;> linarith), if_neg hm]; rfl, ?_⟩
  intro p
  have e0 : clamp 0 h = 0 := by unfold clamp; rw [if_neg (by linarith)]
  rw [e0]
  generalize hs : clamp r w = s
  have s0 : 0 < s := by rw [← hs]; unfold clamp; split <;> linarith
  have s1 : 2 * s ≤ w := by rw [← hs]; unfold clamp; split <;> linarith
  rw [rounded_eq]
  simp only [List.mem_cons, List.not_mem_nil, or_false, exists_eq_or_imp, exists_eq_left, sub_zero, add_zero]
  have hori : ∀ (c d : ℝ) (a b : ℝ), (Elem.arc (c, d) s 0 a b).On p ↔ p.2 = d ∧ ∃ t, a ≤ t ∧ t ≤ b ∧ p.1 = c + s * cos t := by
    intro c d a b
    constructor
    · rintro ⟨t, h1, h2, rfl⟩
      exact ⟨by simp [ell], t, h1, h2, rfl⟩
    · rintro ⟨h0, t, h1, h2, h3⟩
      exact ⟨t, h1, h2, Prod.ext h3 (by simp [ell, h0])⟩
  have up : ∀ v, 0 ≤ v → v ≤ s → ∃ t, 0 ≤ t ∧ t ≤ π / 2 ∧ s * cos t = v := by
    intro v v0 v1
    refine ⟨arccos (v / s), arccos_nonneg _, arccos_le_pi_div_two.mpr (div_nonneg v0 s0.le), ?_⟩
    rw [cos_arccos (by linarith [div_nonneg v0 s0.le]) ((div_le_one s0).mpr v1)]
    field_simp
  have bound : ∀ t, -s ≤ s * cos t ∧ s * cos t ≤ s := fun t =>
    ⟨by nlinarith [neg_one_le_cos t], by nlinarith [cos_le_one t]⟩
  have sgn : ∀ t, -(π / 2) ≤ t → t ≤ π / 2 → 0 ≤ s * cos t := fun t t0 t1 => mul_nonneg s0.le (cos_nonneg_of_neg_pi_div_two_le_of_le t0 t1)
  rw [hori, hori, hori, hori, line_on_v (x := x + w) (show y ≤ y + h by linarith), line_on_swap (x + w - s, y + h),
    line_on_h (y := y + h) (show x + s ≤ x + w - s by linarith),
    line_on_swap (x, y + h), line_on_v (x := x) (show y ≤ y + h by linarith), line_on_h (y := y) (show x + s ≤ x + w - s by linarith)]
  unfold Edge
  constructor
  · rintro (⟨h1, t, t0, t1, h2⟩ | ⟨h1, h2, h3⟩ | ⟨h1, t, t0, t1, h2⟩ | ⟨⟨h1, h2⟩, h3⟩ | ⟨h1, t, t0, t1, h2⟩ | ⟨h1, h2, h3⟩ | ⟨h1, t, t0, t1, h2⟩ | ⟨⟨h1, h2⟩, h3⟩)
    · have b := bound t
      have n := sgn (t - 2 * π) (by linarith [pi_pos]) (by linarith [pi_pos])
      rw [cos_sub_two_pi] at n
      exact ⟨⟨by linarith, by linarith⟩, ⟨by linarith, by linarith⟩, .inr (.inr (.inl h1))⟩
    · exact ⟨⟨by linarith, by linarith⟩, ⟨by linarith, by linarith⟩, .inr (.inl h1)⟩
    · have b := bound t
      have n := sgn t (by linarith [pi_pos]) (by linarith [pi_pos])
      exact ⟨⟨by linarith, by linarith⟩, ⟨by linarith, by linarith⟩, .inr (.inr (.inr h1))⟩
    · exact ⟨⟨by linarith, by linarith⟩, ⟨by linarith, by linarith⟩, .inr (.inr (.inr h3))⟩
    · have b := bound t
      have n := sgn (t - π) (by linarith [pi_pos]) (by linarith [pi_pos])
      rw [cos_sub_pi] at n
      exact ⟨⟨by linarith, by linarith⟩, ⟨by linarith, by linarith⟩, .inr (.inr (.inr h1))⟩
    · exact ⟨⟨by linarith, by linarith⟩, ⟨by linarith, by linarith⟩, .inl h1⟩
    · have b := bound t
      have n := sgn (t - π) (by linarith [pi_pos]) (by linarith [pi_pos])
      rw [cos_sub_pi] at n
      exact ⟨⟨by linarith, by linarith⟩, ⟨by linarith, by linarith⟩, .inr (.inr (.inl h1))⟩
    · exact ⟨⟨by linarith, by linarith⟩, ⟨by linarith, by linarith⟩, .inr (.inr (.inl h3))⟩
  · rintro ⟨⟨a1, a2⟩, ⟨b1, b2⟩, h3 | h3 | h3 | h3⟩
    · exact .inr (.inr (.inr (.inr (.inr (.inl ⟨h3, b1, b2⟩)))))
    · exact .inr (.inl ⟨h3, b1, b2⟩)
    · rcases le_total p.1 (x + s) with c1 | c1
      · obtain ⟨t, t0, t1, ht⟩ := up (x + s - p.1) (by linarith) (by linarith)
        refine .inr (.inr (.inr (.inr (.inr (.inr (.inl ⟨h3, t + π, by linarith, by linarith, ?_⟩))))))
        rw [cos_add_pi]; linarith
      · rcases le_total p.1 (x + w - s) with c2 | c2
        · exact .inr (.inr (.inr (.inr (.inr (.inr (.inr ⟨⟨c1, c2⟩, h3⟩))))))
        · obtain ⟨t, t0, t1, ht⟩ := up (p.1 - (x + w - s)) (by linarith) (by linarith)
          refine .inl ⟨h3, 2 * π - t, by linarith, by linarith, ?_⟩
          rw [cos_two_pi_sub]; linarith
    · rcases le_total p.1 (x + s) with c1 | c1
      · obtain ⟨t, t0, t1, ht⟩ := up (x + s - p.1) (by linarith) (by linarith)
        refine .inr (.inr (.inr (.inr (.inl ⟨h3, π - t, by linarith, by linarith, ?_⟩))))
        rw [cos_pi_sub]; linarith
      · rcases le_total p.1 (x + w - s) with c2 | c2
        · exact .inr (.inr (.inr (.inl ⟨⟨c1, c2⟩, h3⟩)))
        · obtain ⟨t, t0, t1, ht⟩ := up (p.1 - (x + w - s)) (by linarith) (by linarith)
          exact .inr (.inr (.inl ⟨h3, t, t0, t1, by linarith⟩))

/-- **C141 (a radius zero).** If one of the radii is zero, a rectangle is drawn. -/
theorem rect_zero_radius (x y w h r : ℝ) (hw : 0 < w) (hh : 0 < h) (hr : 0 ≤ r) (rx ry : Option ℝ)
    (hz : (rx = some 0 ∧ ry = some r) ∨ (rx = some r ∧ ry = some 0)) :
    ∃ l, rect x y w h rx ry = some l ∧ ∀ p, (∃ e ∈ l, e.On p) ↔ Edge x y w h p := by
  rcases le_or_gt (1 / 10 ^ 10) r with hb | hb
  · rcases hz with ⟨rfl, rfl⟩ | ⟨rfl, rfl⟩
    · exact rect_zero x y w h r hw hh hb
    · exact rect_zero_y x y w h r hw hh hb
  · refine ⟨plain x y w h, ?_, plain_edge x y w h hw.le hh.le⟩
    have h0 : (0 : ℝ) < 1 / 10 ^ 10 := by norm_num
    unfold rect
    rcases hz with ⟨rfl, rfl⟩ | ⟨rfl, rfl⟩
    · rw [if_neg (by rintro (h0 | h0) <;> linarith), if_pos ⟨fun v hv => by cases hv; exact h0, fun v hv => by cases hv; exact hb⟩]
    · rw [if_neg (by rintro (h0 | h0) <;> linarith), if_pos ⟨fun v hv => by cases hv; exact hb, fun v hv => by cases hv; exact h0⟩]

/-- Specification: within a distance in both coordinates. -/
def Close (d : ℝ) (p q : ℝ × ℝ) : Prop := |p.1 - q.1| ≤ d ∧ |p.2 - q.2| ≤ d

theorem away_place (a b z : ℝ) (hab : a ≤ b) : (z < a ∧ away a b z = a - z) ∨ (b < z ∧ away a b z = z - b) ∨ (a ≤ z ∧ z ≤ b ∧ away a b z = 0) := by
  unfold away
  rcases lt_or_ge z a with h | h
  · exact .inl ⟨h, by rw [max_eq_left (b := z - b) (by linarith), max_eq_left (by linarith)]⟩
  · rcases lt_or_ge b z with h' | h'
    · exact .inr (.inl ⟨h', by rw [max_eq_right (b := z - b) (by linarith), max_eq_left (by linarith)]⟩)
    · exact .inr (.inr ⟨h, h', max_eq_right (max_le (by linarith) (by linarith))⟩)

theorem outline_near (x y w h a b d : ℝ) (ha : 0 < a) (hb : 0 < b) (ha2 : 2 * a ≤ w) (hb2 : 2 * b ≤ h) (had : a ≤ d) (hbd : b ≤ d) :
    (∀ p, Outline x y w h a b p → ∃ q, Edge x y w h q ∧ Close d p q) ∧ ∀ q, Edge x y w h q → ∃ p, Outline x y w h a b p ∧ Close d p q := by
  have hd0 : 0 ≤ d := by linarith
  constructor
  · intro p hp
    unfold Outline at hp
    have hw1 : ∀ {u v : ℝ}, u ^ 2 + v ^ 2 = 1 → u ≤ 1 := fun {u v} h => by nlinarith [sq_nonneg v, sq_nonneg u]
    have u1 : away (x + a) (x + w - a) p.1 ≤ a := by
      have := hw1 hp
      rwa [div_le_one ha] at this
    have u2 : away (y + b) (y + h - b) p.2 ≤ b := by
      have := hw1 ((add_comm _ _).trans hp)
      rwa [div_le_one hb] at this
    rcases away_place (x + a) (x + w - a) p.1 (by linarith) with ⟨c1, e1⟩ | ⟨c1, e1⟩ | ⟨c1, c1', e1⟩ <;>
      rcases away_place (y + b) (y + h - b) p.2 (by linarith) with ⟨c2, e2⟩ | ⟨c2, e2⟩ | ⟨c2, c2', e2⟩
    all_goals first
      | exact ⟨(x, p.2), ⟨⟨by dsimp only; linarith, by dsimp only; linarith⟩, ⟨by dsimp only; linarith, by dsimp only; linarith⟩, .inl rfl⟩,
          abs_le.mpr ⟨by dsimp only; linarith, by dsimp only; linarith⟩, by simpa using hd0⟩
      | exact ⟨(x + w, p.2), ⟨⟨by dsimp only; linarith, by dsimp only; linarith⟩, ⟨by dsimp only; linarith, by dsimp only; linarith⟩, .inr (.inl rfl)⟩,
          abs_le.mpr ⟨by dsimp only; linarith, by dsimp only; linarith⟩, by simpa using hd0⟩
      | exact ⟨(p.1, y), ⟨⟨by dsimp only; linarith, by dsimp only; linarith⟩, ⟨by dsimp only; linarith, by dsimp only; linarith⟩, .inr (.inr (.inl rfl))⟩,
          by simpa using hd0, abs_le.mpr ⟨by dsimp only; linarith, by dsimp only; linarith⟩⟩
      | exact ⟨(p.1, y + h), ⟨⟨by dsimp only; linarith, by dsimp only; linarith⟩, ⟨by dsimp only; linarith, by dsimp only; linarith⟩, .inr (.inr (.inr rfl))⟩,
          by simpa using hd0, abs_le.mpr ⟨by dsimp only; linarith, by dsimp only; linarith⟩⟩
      | (rw [e1, e2] at hp; simp at hp)
  · rintro q ⟨⟨a1, a2⟩, ⟨b1, b2⟩, h3⟩
    have mid : ∀ lo hi r z : ℝ, 0 < r → r ≤ d → lo + r ≤ hi - r → lo ≤ z → z ≤ hi → ∃ z', lo + r ≤ z' ∧ z' ≤ hi - r ∧ |z' - z| ≤ d := by
      intro lo hi r z r0 rd hl z0 z1
      rcases le_total z (lo + r) with c | c
      · exact ⟨lo + r, le_rfl, hl, abs_le.mpr ⟨by linarith, by linarith⟩⟩
      · rcases le_total z (hi - r) with c' | c'
        · exact ⟨z, c, c', by simpa using hd0⟩
        · exact ⟨hi - r, hl, le_rfl, abs_le.mpr ⟨by linarith, by linarith⟩⟩
    have one : ∀ lo hi r : ℝ, 0 < r → lo + r ≤ hi - r → away (lo + r) (hi - r) lo / r = 1 ∧ away (lo + r) (hi - r) hi / r = 1 := by
      intro lo hi r r0 hl
      rcases away_place (lo + r) (hi - r) lo hl with ⟨c, e⟩ | ⟨c, e⟩ | ⟨c, c', e⟩ <;>
        rcases away_place (lo + r) (hi - r) hi hl with ⟨k, e'⟩ | ⟨k, e'⟩ | ⟨k, k', e'⟩
      all_goals first
        | (exfalso; linarith)
        | exact ⟨by rw [e, add_sub_cancel_left, div_self r0.ne'], by rw [e', sub_sub_cancel, div_self r0.ne']⟩
    have nil : ∀ lo hi r z : ℝ, lo + r ≤ z → z ≤ hi - r → away (lo + r) (hi - r) z = 0 := by
      intro lo hi r z z0 z1
      rcases away_place (lo + r) (hi - r) z (by linarith) with ⟨c, _⟩ | ⟨c, _⟩ | ⟨_, _, e⟩
      · linarith
      · linarith
      · exact e
    obtain ⟨o1, o2⟩ := one x (x + w) a ha (by linarith)
    obtain ⟨o3, o4⟩ := one y (y + h) b hb (by linarith)
    obtain ⟨z1, m1, m2, m3⟩ := mid x (x + w) a q.1 ha had (by linarith) a1 a2
    obtain ⟨z2, k1, k2, k3⟩ := mid y (y + h) b q.2 hb hbd (by linarith) b1 b2
    have n1 := nil x (x + w) a z1 m1 m2
    have n2 := nil y (y + h) b z2 k1 k2
    rcases h3 with h3 | h3 | h3 | h3
    · exact ⟨(x, z2), by unfold Outline; rw [n2]; dsimp only; rw [o1]; simp, by rw [h3]; simpa using hd0, k3⟩
    · exact ⟨(x + w, z2), by unfold Outline; rw [n2]; dsimp only; rw [o2]; simp, by rw [h3]; simpa using hd0, k3⟩
    · exact ⟨(z1, y), by unfold Outline; rw [n1]; dsimp only; rw [o3]; simp, m3, by rw [h3]; simpa using hd0⟩
    · exact ⟨(z1, y + h), by unfold Outline; rw [n1]; dsimp only; rw [o4]; simp, m3, by rw [h3]; simpa using hd0⟩

/-- **C141 (tiny radii).** If all radii are positive but below 1e-10, the rectangle drawn and the rounded rectangle which SVG says agree up to 1e-10. -/
theorem rect_tiny (x y w h : ℝ) (hw : 0 < w) (hh : 0 < h) (rx ry : Option ℝ) (hx : ∀ v, rx = some v → 0 < v ∧ v < 1 / 10 ^ 10)
    (hy : ∀ v, ry = some v → 0 < v ∧ v < 1 / 10 ^ 10) (h1 : rx ≠ none ∨ ry ≠ none) :
    ∃ l, rect x y w h rx ry = some l ∧
      (∀ p, Outline x y w h (used rx ry w) (used ry rx h) p → ∃ q, (∃ e ∈ l, e.On q) ∧ Close (1 / 10 ^ 10) p q) ∧
      ∀ q, (∃ e ∈ l, e.On q) → ∃ p, Outline x y w h (used rx ry w) (used ry rx h) p ∧ Close (1 / 10 ^ 10) p q := by
  refine ⟨plain x y w h, ?_, ?_⟩
  · unfold rect
    rw [if_neg (by rintro (h0 | h0) <;> linarith), if_pos ⟨fun v hv => (hx v hv).2, fun v hv => (hy v hv).2⟩]
  · have pos : ∀ (o o' : Option ℝ) (s : ℝ), 0 < s → (∀ v, o = some v → 0 < v ∧ v < 1 / 10 ^ 10) → (∀ v, o' = some v → 0 < v ∧ v < 1 / 10 ^ 10) →
        (o ≠ none ∨ o' ≠ none) → 0 < used o o' s ∧ 2 * used o o' s ≤ s ∧ used o o' s ≤ 1 / 10 ^ 10 := by
      intro o o' s hs ho ho' hne
      have hr := min_le_right ((o.orElse fun _ => o').getD 0) (s / 2)
      have hl := min_le_left ((o.orElse fun _ => o').getD 0) (s / 2)
      unfold used
      refine ⟨lt_min ?_ (by linarith), by linarith, hl.trans ?_⟩
      · cases o with
        | some v => exact (ho v rfl).1
        | none =>
          cases o' with
          | some v => exact (ho' v rfl).1
          | none => simp at hne
      · cases o with
        | some v => exact (ho v rfl).2.le
        | none =>
          cases o' with
          | some v => exact (ho' v rfl).2.le
          | none => simp at hne
    obtain ⟨a1, a2, a3⟩ := pos rx ry w hw hx hy h1
    obtain ⟨b1, b2, b3⟩ := pos ry rx h hh hy hx h1.symm
    obtain ⟨n1, n2⟩ := outline_near x y w h _ _ (1 / 10 ^ 10) a1 b1 a2 b2 a3 b3
    have he := plain_edge x y w h hw.le hh.le
    refine ⟨fun p hp => ?_, fun q hq => n2 q ((he q).mp hq)⟩
    obtain ⟨q, hq, hc⟩ := n1 p hp
    exact ⟨q, (he q).mpr hq, hc⟩

/-- Without the rule that a missing radius is the other one, this would be an ellipse with one radius zero. -/
example : ∃ l, rect 0 0 10 6 (some 2) none = some l ∧ ∀ p, (∃ e ∈ l, e.On p) ↔ Outline 0 0 10 6 2 2 p := by
  obtain ⟨l, hl, h⟩ := rect_rounded 0 0 10 6 (by norm_num) (by norm_num) (some 2) none (by intro v hv; cases hv; norm_num) (by simp)
    (.inl ⟨2, rfl, by norm_num⟩)
  refine ⟨l, hl, ?_⟩
  simpa [used, min_eq_left (show (2 : ℝ) ≤ 10 / 2 by norm_num), min_eq_left (show (2 : ℝ) ≤ 6 / 2 by norm_num)] using h

/-- A point of it in the corner, and one which is not. -/
example : Outline 0 0 10 10 5 5 (2, 1) ∧ ¬ Outline 0 0 10 10 5 5 (0, 0) := by
  constructor
  · unfold Outline
    rw [away_low (by norm_num) (by norm_num), away_low (by norm_num) (by norm_num)]
    norm_num
  · unfold Outline
    rw [away_low (by norm_num) (by norm_num)]
    norm_num

/-! ## Polygons -/

/-- The points of the attribute: pairs of numbers. -/
def pairs : List ℝ → List (ℝ × ℝ)
  | x :: y :: l => (x, y) :: pairs l
  | _ => []

theorem polyLines_spec (p : ℝ × ℝ) (l : List ℝ) :
    (polyLines p l).1 = List.zipWith Elem.line (p :: pairs l) (pairs l) ∧ (polyLines p l).2 = (p :: pairs l).getLast (List.cons_ne_nil _ _) := by
  induction l using pairs.induct generalizing p with
  | case1 x y l ih =>
    obtain ⟨h1, h2⟩ := ih (x, y)
    rw [polyLines, pairs]
    simp only
    rw [h1, h2, List.zipWith_cons_cons, List.getLast_cons_cons]
    exact ⟨rfl, rfl⟩
  | case2 l hl =>
    rw [polyLines.eq_def, pairs.eq_def]
    split
    · exact absurd rfl (hl _ _ _)
    · simp

/-- **C141 (polylines and polygons).** A line for each two points which follow each other, and for a polygon one from
the last point to the first one; a number without partner at the end is ignored, and without a point there is an exception. -/
theorem poly_spec (closed : Bool) (l : List ℝ) :
    (pairs l = [] ∧ poly closed l = none) ∨
    ∃ p ps, pairs l = p :: ps ∧
      poly closed l = some (List.zipWith Elem.line (p :: ps) ps ++ if closed then [Elem.line ((p :: ps).getLast (List.cons_ne_nil _ _)) p] else []) := by
  match l with
  | [] => exact .inl ⟨rfl, rfl⟩
  | [_] => exact .inl ⟨rfl, rfl⟩
  | x :: y :: l =>
    right
    refine ⟨(x, y), pairs l, rfl, ?_⟩
    obtain ⟨h1, h2⟩ := polyLines_spec (x, y) l
    unfold poly
    simp only
    rw [h1, h2]
    cases closed <;> simp

example : poly true [0, 0, 4, 0, 4, 3, 7] = some [.line (0, 0) (4, 0), .line (4, 0) (4, 3), .line (4, 3) (0, 0)] := rfl

/-- A polygon is a closed loop. -/
theorem polygon_loop (l : List ℝ) (es : List Elem) (h : poly true l = some es) : Loop es := by
  rcases poly_spec true l with ⟨_, h'⟩ | ⟨p, ps, _, h'⟩
  · rw [h'] at h; cases h
  · rw [h', if_pos rfl] at h
    simp only [Option.some.injEq] at h
    subst h
    have key : ∀ (ps : List (ℝ × ℝ)) (p : ℝ × ℝ), (List.zipWith Elem.line (p :: ps) ps ++ [Elem.line ((p :: ps).getLast (List.cons_ne_nil _ _)) (p : ℝ × ℝ)]).head?.map Elem.begin_ = some p ∧
        ∀ q, (List.zipWith Elem.line (p :: ps) ps ++ [Elem.line ((p :: ps).getLast (List.cons_ne_nil _ _)) q]).IsChain fun e f => e.end_ = f.begin_ := by
      intro ps
      induction ps with
      | nil => intro p; exact ⟨rfl, fun q => by simp⟩
      | cons a ps ih =>
        intro p
        refine ⟨rfl, fun q => ?_⟩
        rw [List.zipWith_cons_cons, List.getLast_cons_cons, List.cons_append]
        have := (ih a).2 q
        cases ps with
        | nil => simp [Elem.begin_, Elem.end_]
        | cons b ps =>
          rw [List.zipWith_cons_cons, List.cons_append] at this ⊢
          rw [List.isChain_cons_cons]
          exact ⟨rfl, this⟩
    refine ⟨(key ps p).2 p, ?_⟩
    have h1 := (key ps p).1
    obtain ⟨a, ha, hb⟩ := Option.map_eq_some_iff.mp h1
    refine ⟨a, Elem.line ((p :: ps).getLast (List.cons_ne_nil _ _)) p, ha, by simp, ?_⟩
    rw [hb]; rfl

end PyX.Svg.Shape
