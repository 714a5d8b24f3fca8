import Verif.NormPath.Item
import Verif.Trafo.Props
import Mathlib.Analysis.Calculus.Deriv.Pow
import Mathlib.Analysis.Calculus.Deriv.Mul
import Mathlib.Analysis.Calculus.Deriv.Add
import Mathlib.Analysis.Calculus.LocalExtr.Basic
import Mathlib.Topology.Order.Compact
import Mathlib.Tactic.Linarith
import Mathlib.Tactic.FieldSimp
import Mathlib.Tactic.Ring
import Mathlib.Tactic.LinearCombination
import Mathlib.Tactic.NormNum

/-!
# C40, C41, C42: lines and Bézier curves
-/

set_option linter.unusedSectionVars false

namespace PyX.NormPath

section field
variable {K : Type*} [Field K] [CharZero K]

/-! ## Specification -/

/-- A point of a straight line, as weighted mean of its ends. -/
def linePoint (p0 p1 : K × K) (t : K) : K × K := ((1 - t) * p0.1 + t * p1.1, (1 - t) * p0.2 + t * p1.2)

/-- A point of a Bézier curve, by de Casteljau's construction. -/
def bezierPoint (p0 p1 p2 p3 : K × K) (t : K) : K × K :=
  linePoint (linePoint (linePoint p0 p1 t) (linePoint p1 p2 t) t) (linePoint (linePoint p1 p2 t) (linePoint p2 p3 t) t) t

/-- The point of an item at a parameter. -/
def Item.point : Item K → K → K × K
  | .line l => linePoint (l.x0, l.y0) (l.x1, l.y1)
  | .curve c => bezierPoint (c.x0, c.y0) (c.x1, c.y1) (c.x2, c.y2) (c.x3, c.y3)

/-- `at_pt` evaluates the item. -/
theorem at_eq_point (i : Item K) (t : K) : i.at_ t = i.point t := by
  cases i <;> ext <;> simp only [Item.at_, Item.point, Line.at_, Curve.at_, linePoint, bezierPoint] <;> ring

theorem at_begin (i : Item K) : i.at_ 0 = i.begin_ := by
  cases i <;> ext <;> simp [Item.at_, Item.begin_, Line.at_, Line.begin_, Curve.at_, Curve.begin_]

theorem at_end (i : Item K) : i.at_ 1 = i.end_ := by
  cases i <;> ext <;> simp only [Item.at_, Item.end_, Line.at_, Line.end_, Curve.at_, Curve.end_] <;> ring

/-! ## C40: splitting -/

/-- `part` traces `whole` from `t1` to `t2`. -/
def Traces (part whole : Item K) (t1 t2 : K) : Prop := ∀ s, part.point s = whole.point (t1 + s * (t2 - t1))

/-- **C40.**  `_split` gives the parts before and after the parameter. -/
theorem split_traces (c : Curve K) (t : K) :
    Traces (.curve (c.split t).1) (.curve c) 0 t ∧ Traces (.curve (c.split t).2) (.curve c) t 1 ∧
    (c.split t).1.end_ = (c.split t).2.begin_ := by
  refine ⟨?_, ?_, rfl⟩ <;> intro s <;> ext <;>
    simp only [Item.point, Curve.split, linePoint, bezierPoint] <;> ring

theorem segment_traces (c : Curve K) (t1 t2 : K) : Traces (.curve (c.segment t1 t2)) (.curve c) t1 t2 := by
  intro s
  ext <;> simp only [Item.point, Curve.segment, Curve.segCoord, linePoint, bezierPoint] <;> field_simp <;> ring

theorem curve_segmentsFrom (c : Curve K) (t : K) (ts : List K) :
    (c.segmentsFrom t ts).length = ts.length ∧
    ∀ i (h : i < (c.segmentsFrom t ts).length) (h' : i + 1 < (t :: ts).length),
      (c.segmentsFrom t ts)[i] = c.segment ((t :: ts)[i]) ((t :: ts)[i + 1]) := by
  induction ts generalizing t with
  | nil => exact ⟨rfl, fun i h => absurd h (by simp [Curve.segmentsFrom])⟩
  | cons t' ts ih =>
    obtain ⟨h1, h2⟩ := ih t'
    refine ⟨by simp [Curve.segmentsFrom, h1], ?_⟩
    intro i h h'
    cases i with
    | zero => rfl
    | succ i =>
      simp only [Curve.segmentsFrom, List.getElem_cons_succ]
      exact h2 i _ (by simpa using h')

theorem line_segmentsFrom (l : Line K) (t : K) (ts : List K) :
    (l.segmentsFrom (l.at_ t) ts).length = ts.length ∧
    ∀ i (h : i < (l.segmentsFrom (l.at_ t) ts).length) (h' : i + 1 < (t :: ts).length),
      (l.segmentsFrom (l.at_ t) ts)[i] = ⟨(l.at_ (t :: ts)[i]).1, (l.at_ (t :: ts)[i]).2,
        (l.at_ (t :: ts)[i + 1]).1, (l.at_ (t :: ts)[i + 1]).2⟩ := by
  induction ts generalizing t with
  | nil => exact ⟨rfl, fun i h => absurd h (by simp [Line.segmentsFrom])⟩
  | cons t' ts ih =>
    obtain ⟨h1, h2⟩ := ih t'
    refine ⟨by simp [Line.segmentsFrom, h1], ?_⟩
    intro i h h'
    cases i with
    | zero => rfl
    | succ i =>
      simp only [Line.segmentsFrom, List.getElem_cons_succ]
      exact h2 i _ (by simpa using h')

/-- **C40.**  Splitting an item at a list of parameters (in any order): one part less than parameters, and part
`i` traces the item from parameter `i` to parameter `i+1`. -/
theorem segments_traces (item : Item K) (ts : List K) (segs : List (Item K)) (h : item.segments ts = some segs) :
    segs.length + 1 = ts.length ∧
    ∀ i (h1 : i < segs.length) (h2 : i + 1 < ts.length), Traces segs[i] item ts[i] ts[i + 1] := by
  match ts with
  | [] => cases item <;> simp [Item.segments, Line.segments, Curve.segments] at h
  | [_] => cases item <;> simp [Item.segments, Line.segments, Curve.segments] at h
  | t :: t' :: ts =>
    cases item with
    | line l =>
      simp only [Item.segments, Line.segments, Option.map_some, Option.some.injEq] at h
      subst h
      obtain ⟨h1, h2⟩ := line_segmentsFrom l t (t' :: ts)
      refine ⟨by simp [h1], ?_⟩
      intro i hi hi' s
      rw [List.getElem_map, h2 i (by simpa using hi) hi']
      ext <;> simp only [Item.point, Line.at_, linePoint] <;> ring
    | curve c =>
      simp only [Item.segments, Curve.segments, Option.map_some, Option.some.injEq] at h
      subst h
      obtain ⟨h1, h2⟩ := curve_segmentsFrom c t (t' :: ts)
      refine ⟨by simp [h1], ?_⟩
      intro i hi hi'
      rw [List.getElem_map, h2 i (by simpa using hi) hi']
      exact segment_traces c _ _

theorem Traces.begin_ {p w : Item K} {a b : K} (h : Traces p w a b) : p.begin_ = w.at_ a := by
  rw [← at_begin, at_eq_point, at_eq_point, h 0]
  congr 1
  ring

theorem Traces.end_ {p w : Item K} {a b : K} (h : Traces p w a b) : p.end_ = w.at_ b := by
  rw [← at_end, at_eq_point, at_eq_point, h 1]
  congr 1
  ring

/-- **C40.**  Neighbouring parts share their end point, which is the point of the item at the split parameter. -/
theorem segments_connected (item : Item K) (ts : List K) (segs : List (Item K)) (h : item.segments ts = some segs)
    (i : ℕ) (h1 : i + 1 < segs.length) :
    segs[i].end_ = segs[i + 1].begin_ ∧ ∃ h2 : i + 1 < ts.length, segs[i].end_ = item.at_ ts[i + 1] := by
  obtain ⟨hl, ht⟩ := segments_traces item ts segs h
  have a := (ht i (by omega) (by omega)).end_
  have b := (ht (i + 1) h1 (by omega)).begin_
  exact ⟨a.trans b.symm, by omega, a⟩

theorem segments_isSome (item : Item K) (ts : List K) : (item.segments ts).isSome ↔ 2 ≤ ts.length := by
  match ts with
  | [] => cases item <;> simp [Item.segments, Line.segments, Curve.segments]
  | [_] => cases item <;> simp [Item.segments, Line.segments, Curve.segments]
  | _ :: _ :: _ => cases item <;> simp [Item.segments, Line.segments, Curve.segments]

/-! ## C42: transforming and reversing -/

/-- The linear part of a transformation. -/
def linear (t : Trafo K) (v : K × K) : K × K := (t.a * v.1 + t.b * v.2, t.c * v.1 + t.d * v.2)

/-- The tangent of an item. -/
def Item.tangent : Item K → K → K × K
  | .line l, _ => (l.x1 - l.x0, l.y1 - l.y0)
  | .curve c, t => c.tangent t

/-- **C42.**  The point of the transformed item is the transformed point, its tangent the image under the linear part. -/
theorem transformed_at (i : Item K) (t : Trafo K) (s : K) :
    (i.transformed t).at_ s = t.apply (i.at_ s) ∧ (i.transformed t).tangent s = linear t (i.tangent s) := by
  constructor <;> cases i <;> ext <;>
    simp only [Item.at_, Item.transformed, Item.tangent, Line.at_, Line.transformed, Curve.at_, Curve.transformed,
      Curve.tangent, Trafo.apply, linear] <;> ring

theorem transformed_ends (i : Item K) (t : Trafo K) :
    (i.transformed t).begin_ = t.apply i.begin_ ∧ (i.transformed t).end_ = t.apply i.end_ := by
  constructor <;> cases i <;> rfl

/-- **C42.**  Transforming one after the other. -/
theorem transformed_mul (i : Item K) (s t : Trafo K) :
    i.transformed (Trafo.mul s t) = (i.transformed t).transformed s := by
  cases i <;> simp only [Item.transformed, Item.line.injEq, Item.curve.injEq] <;>
    ext <;> simp only [Line.transformed, Curve.transformed, Trafo.mul, Trafo.apply] <;> ring

/-- **C42.**  Reversing maps the parameter `t` to `1-t` and turns the tangent. -/
theorem reversed_at (i : Item K) (t : K) :
    i.reversed.at_ t = i.at_ (1 - t) ∧ i.reversed.tangent t = (-(i.tangent (1 - t)).1, -(i.tangent (1 - t)).2) := by
  constructor <;> cases i <;> ext <;>
    simp only [Item.at_, Item.reversed, Item.tangent, Line.at_, Line.reversed, Curve.at_, Curve.reversed,
      Curve.tangent] <;> ring

/-- **C42.**  Reversing twice restores the item. -/
theorem reversed_reversed (i : Item K) : i.reversed.reversed = i := by cases i <;> rfl

theorem reversed_ends (i : Item K) : i.reversed.begin_ = i.end_ ∧ i.reversed.end_ = i.begin_ := by
  constructor <;> cases i <;> rfl

/-- Reversing and transforming commute. -/
theorem reversed_transformed (i : Item K) (t : Trafo K) : (i.transformed t).reversed = i.reversed.transformed t := by
  cases i <;> rfl

theorem modified_ends (i : Item K) (x y : K) :
    (i.modifiedbegin x y).begin_ = (x, y) ∧ (i.modifiedbegin x y).end_ = i.end_ ∧
    (i.modifiedend x y).end_ = (x, y) ∧ (i.modifiedend x y).begin_ = i.begin_ := by
  cases i <;> exact ⟨rfl, rfl, rfl, rfl⟩

/-- The other ways to compute points and derivatives agree. -/
theorem xy_eq (c : Curve K) (t : K) : c.xy t = c.at_ t ∧ c.xydot t = c.tangent t ∧ c.dot t = c.tangent t ∧
    c.xyddot t = c.ddot t := by
  refine ⟨?_, ?_, ?_, ?_⟩ <;> ext <;>
    simp only [Curve.xy, Curve.at_, Curve.xydot, Curve.tangent, Curve.dot, Curve.xyddot, Curve.ddot] <;> ring

end field

/-! ## Tangents are derivatives -/

theorem cubic_deriv (a b c d t : ℝ) :
    HasDerivAt (fun t => a * t * t * t + b * t * t + c * t + d) (3 * a * t * t + 2 * b * t + c) t := by
  have h3 := ((hasDerivAt_id t).pow 3).const_mul a
  have h2 := ((hasDerivAt_id t).pow 2).const_mul b
  have h1 := (hasDerivAt_id t).const_mul c
  have h := ((h3.add h2).add h1).add_const d
  refine (h.congr_deriv ?_).congr_of_eventuallyEq (Filter.Eventually.of_forall fun x => ?_)
  · simp; ring
  · simp; ring

/-- **C42.**  The tangent is the derivative of the point. -/
theorem tangent_deriv (i : Item ℝ) (t : ℝ) :
    HasDerivAt (fun t => (i.at_ t).1) (i.tangent t).1 t ∧ HasDerivAt (fun t => (i.at_ t).2) (i.tangent t).2 t := by
  cases i with
  | line l =>
    have h1 := ((hasDerivAt_id t).const_mul (l.x1 - l.x0)).const_add l.x0
    have h2 := ((hasDerivAt_id t).const_mul (l.y1 - l.y0)).const_add l.y0
    simp only [mul_one] at h1 h2
    exact ⟨h1, h2⟩
  | curve c => exact ⟨cubic_deriv _ _ _ _ t, cubic_deriv _ _ _ _ t⟩

/-- The second derivative. -/
theorem ddot_deriv (c : Curve ℝ) (t : ℝ) :
    HasDerivAt (fun t => (c.tangent t).1) (c.ddot t).1 t ∧ HasDerivAt (fun t => (c.tangent t).2) (c.ddot t).2 t := by
  have quad : ∀ a b d : ℝ, HasDerivAt (fun t => 3 * a * t * t + 2 * b * t + d) (6 * a * t + 2 * b) t := by
    intro a b d
    have h2 := ((hasDerivAt_id t).pow 2).const_mul (3 * a)
    have h1 := (hasDerivAt_id t).const_mul (2 * b)
    have h := (h2.add h1).add_const d
    refine (h.congr_deriv ?_).congr_of_eventuallyEq (Filter.Eventually.of_forall fun x => ?_)
    · simp; ring
    · simp; ring
  constructor
  · refine (quad _ _ _).congr_deriv ?_
    simp only [Curve.ddot]; ring
  · refine (quad _ _ _).congr_deriv ?_
    simp only [Curve.ddot]; ring

/-! ## Rotation, transformation and curvature along an item -/

theorem phi_degrees (x : ℝ) : Trafo.phi (degrees x) = x := by
  unfold Trafo.phi degrees
  have := Real.pi_ne_zero
  field_simp

theorem hypot_eq_abs (x y : ℝ) : hypot x y = ‖(⟨x, y⟩ : ℂ)‖ := by
  unfold hypot
  rw [Complex.norm_def, Complex.normSq_mk]
  congr 1
  ring

theorem rotate_atan2 (x y : ℝ) (h : (x, y) ≠ (0, 0)) :
    ∃ r, Trafo.rotate (degrees (atan2 y x)) none none = some r ∧
      r = ⟨x / hypot x y, -(y / hypot x y), y / hypot x y, x / hypot x y, 0, 0⟩ := by
  have h0 : (⟨x, y⟩ : ℂ) ≠ 0 := by
    intro e
    apply h
    rw [Complex.ext_iff] at e
    exact Prod.ext e.1 e.2
  refine ⟨_, rfl, ?_⟩
  simp only [phi_degrees, atan2]
  rw [Complex.cos_arg h0, Complex.sin_arg, hypot_eq_abs]

/-- **C42.**  Where the tangent does not vanish, `rotation` turns the x-axis into the direction of the tangent, and
`trafo` moves the origin to the point in addition. -/
theorem rotation_tangent (i : Item ℝ) (t : ℝ) (h : i.tangent t ≠ (0, 0)) :
    ∃ r m, i.rotation t = some r ∧ i.trafo t = some m ∧
      r.apply (hypot (i.tangent t).1 (i.tangent t).2, 0) = i.tangent t ∧ r.apply (0, 0) = (0, 0) ∧ r.det = 1 ∧
      m.apply (0, 0) = i.at_ t ∧ ∀ v, m.apply v = ((r.apply v).1 + (i.at_ t).1, (r.apply v).2 + (i.at_ t).2) := by
  have hr : i.rotation t = Trafo.rotate (degrees (atan2 (i.tangent t).2 (i.tangent t).1)) none none := by
    cases i <;> rfl
  obtain ⟨r, h1, h2⟩ := rotate_atan2 (i.tangent t).1 (i.tangent t).2 h
  have hpos : hypot (i.tangent t).1 (i.tangent t).2 ≠ 0 := by
    rw [hypot_eq_abs]
    intro e
    rw [norm_eq_zero, Complex.ext_iff] at e
    exact h (Prod.ext e.1 e.2)
  have hsq : hypot (i.tangent t).1 (i.tangent t).2 ^ 2 = (i.tangent t).1 ^ 2 + (i.tangent t).2 ^ 2 :=
    Real.sq_sqrt (by positivity)
  refine ⟨r, Trafo.mul (Trafo.translate (i.at_ t).1 (i.at_ t).2) r, hr.trans h1, ?_, ?_, ?_, ?_, ?_, ?_⟩
  · unfold Item.trafo; rw [hr, h1]; rfl
  · subst h2
    ext <;> simp only [Trafo.apply] <;> field_simp <;> ring
  · subst h2
    ext <;> simp [Trafo.apply]
  · subst h2
    simp only [Trafo.det]
    field_simp
    linear_combination -hsq
  · subst h2
    ext <;> simp [Trafo.apply, Trafo.mul, Trafo.translate]
  · intro v
    rw [Trafo.mul_apply]
    ext <;> simp [Trafo.apply, Trafo.translate]

/-- The curvature of the reversed item is the opposite one. -/
theorem curvature_reversed (i : Item ℝ) (t : ℝ) : i.reversed.curvature t = (i.curvature (1 - t)).map Neg.neg := by
  cases i with
  | line l => simp [Item.curvature, Item.reversed]
  | curve c =>
    have hd : c.reversed.dot t = (-(c.dot (1 - t)).1, -(c.dot (1 - t)).2) := by
      ext <;> simp only [Curve.dot, Curve.reversed] <;> ring
    have hdd : c.reversed.ddot t = c.ddot (1 - t) := by
      ext <;> simp only [Curve.ddot, Curve.reversed] <;> ring
    have hh : ∀ x y : ℝ, hypot (-x) (-y) = hypot x y := fun x y => by unfold hypot; simp
    simp only [Item.curvature, Item.reversed, hd, hdd, hh]
    by_cases h0 : hypot (c.dot (1 - t)).1 (c.dot (1 - t)).2 = 0
    · simp [h0]
    · simp only [h0, if_false, Option.map_some, Option.some.injEq]
      ring

/-- A transformation which multiplies all lengths by `f` and keeps the orientation divides the curvature by `f`. -/
theorem curvature_similar (i : Item ℝ) (m : Trafo ℝ) (f : ℝ) (hf : 0 < f) (h1 : m.a = m.d) (h2 : m.b = -m.c)
    (h3 : m.a ^ 2 + m.c ^ 2 = f ^ 2) (t : ℝ) : (i.transformed m).curvature t = (i.curvature t).map (· / f) := by
  cases i with
  | line l => simp [Item.curvature, Item.transformed]
  | curve c =>
    have hd : (c.transformed m).dot t = linear m (c.dot t) := by
      ext <;> simp only [Curve.dot, Curve.transformed, Trafo.apply, linear] <;> ring
    have hdd : (c.transformed m).ddot t = linear m (c.ddot t) := by
      ext <;> simp only [Curve.ddot, Curve.transformed, Trafo.apply, linear] <;> ring
    have hh : hypot (linear m (c.dot t)).1 (linear m (c.dot t)).2 = f * hypot (c.dot t).1 (c.dot t).2 := by
      unfold hypot
      have e : (linear m (c.dot t)).1 ^ 2 + (linear m (c.dot t)).2 ^ 2 = f ^ 2 * ((c.dot t).1 ^ 2 + (c.dot t).2 ^ 2) := by
        simp only [linear]
        rw [← h3, h2, ← h1]
        ring
      rw [e, Real.sqrt_mul (by positivity), Real.sqrt_sq hf.le]
    simp only [Item.curvature, Item.transformed, hd, hdd, hh]
    by_cases h0 : hypot (c.dot t).1 (c.dot t).2 = 0
    · simp [h0]
    · have h0' : f * hypot (c.dot t).1 (c.dot t).2 ≠ 0 := mul_ne_zero hf.ne' h0
      simp only [h0, h0', if_false, Option.map_some, Option.some.injEq]
      have e : (linear m (c.dot t)).1 * (linear m (c.ddot t)).2 - (linear m (c.dot t)).2 * (linear m (c.ddot t)).1 =
          f ^ 2 * ((c.dot t).1 * (c.ddot t).2 - (c.dot t).2 * (c.ddot t).1) := by
        simp only [linear]
        rw [← h3, h2, ← h1]
        ring
      rw [e]
      field_simp

/-! ## C41: bounding boxes -/

theorem bezierValue_eq (x0 x1 x2 x3 t : ℝ) : bezierValue x0 x1 x2 x3 t =
    (-x0 + 3 * x1 - 3 * x2 + x3) * t * t * t + (3 * x0 - 6 * x1 + 3 * x2) * t * t + (-3 * x0 + 3 * x1) * t + x0 := by
  unfold bezierValue; ring

theorem bezierParams_mem (x0 x1 x2 x3 : ℝ) : ∀ t ∈ bezierParams x0 x1 x2 x3, 0 ≤ t ∧ t ≤ 1 := by
  intro t ht
  have frac : ∀ u v : ℝ, (0 < u ∧ u < v) ∨ (v < u ∧ u < 0) → 0 ≤ u / v ∧ u / v ≤ 1 := by
    rintro u v (⟨h1, h2⟩ | ⟨h1, h2⟩)
    · have hv : 0 < v := by linarith
      exact ⟨div_nonneg h1.le hv.le, (div_le_one hv).mpr h2.le⟩
    · have hv : v < 0 := by linarith
      exact ⟨div_nonneg_of_nonpos h2.le hv.le, (div_le_one_of_neg hv).mpr h1.le⟩
  unfold bezierParams at ht
  simp only [List.mem_append, List.mem_cons, List.not_mem_nil, or_false] at ht
  rcases ht with (rfl | rfl) | ht
  · exact ⟨le_rfl, zero_le_one⟩
  · exact ⟨zero_le_one, le_rfl⟩
  · split at ht
    · generalize (if 2 * x0 - 4 * x1 + 2 * x2 ≥ 0 then _ else _ : ℝ) = q at ht
      rw [List.mem_append] at ht
      rcases ht with ht | ht
      · by_cases hc : (0 < q ∧ q < x3 - 3 * x2 + 3 * x1 - x0) ∨ (x3 - 3 * x2 + 3 * x1 - x0 < q ∧ q < 0)
        · rw [if_pos hc, List.mem_singleton] at ht
          rw [ht]; exact frac _ _ hc
        · rw [if_neg hc] at ht; simp at ht
      · by_cases hc : (0 < x1 - x0 ∧ x1 - x0 < q) ∨ (q < x1 - x0 ∧ x1 - x0 < 0)
        · rw [if_pos hc, List.mem_singleton] at ht
          rw [ht]; exact frac _ _ hc
        · rw [if_neg hc] at ht; simp at ht
    · simp at ht

/-- Zeros of the derivative strictly within the range are among the parameters, unless the value is constant. -/
theorem critical_mem (x0 x1 x2 x3 t : ℝ) (h0 : 0 < t) (h1 : t < 1)
    (hz : (x3 - 3 * x2 + 3 * x1 - x0) * t ^ 2 + (2 * x0 - 4 * x1 + 2 * x2) * t + (x1 - x0) = 0) :
    t ∈ bezierParams x0 x1 x2 x3 ∨ ∀ s, bezierValue x0 x1 x2 x3 s = x0 := by
  obtain ⟨a, ha⟩ : ∃ a, a = x3 - 3 * x2 + 3 * x1 - x0 := ⟨_, rfl⟩
  obtain ⟨b, hb⟩ : ∃ b, b = 2 * x0 - 4 * x1 + 2 * x2 := ⟨_, rfl⟩
  obtain ⟨c, hc⟩ : ∃ c, c = x1 - x0 := ⟨_, rfl⟩
  obtain ⟨s, hs⟩ : ∃ s, s = b * b - 4 * a * c := ⟨_, rfl⟩
  rw [← ha, ← hb, ← hc] at hz
  have hs2 : s = (2 * a * t + b) ^ 2 := by rw [hs]; linear_combination (-4 * a) * hz
  have hs0 : 0 ≤ s := by rw [hs2]; positivity
  obtain ⟨r, hr⟩ : ∃ r, r = Real.sqrt s := ⟨_, rfl⟩
  have hr0 : 0 ≤ r := hr ▸ Real.sqrt_nonneg s
  have hrr : r * r = s := hr ▸ Real.mul_self_sqrt hs0
  obtain ⟨q, hq⟩ : ∃ q, q = if b ≥ 0 then -(1 / 2) * (b + r) else -(1 / 2) * (b - r) := ⟨_, rfl⟩
  -- the equation of q
  have hqq : q * q + b * q + a * c = 0 := by
    rw [hq]
    split
    · linear_combination (1 / 4) * hrr + (1 / 4) * hs
    · linear_combination (1 / 4) * hrr + (1 / 4) * hs
  -- factorisation
  have hfac : (a * t - q) * (q * t - c) = 0 := by
    have : (a * t - q) * (q * t - c) = q * (a * t ^ 2 + b * t + c) - t * (q * q + b * q + a * c) := by ring
    rw [this, hz, hqq]; ring
  by_cases hconst : a = 0 ∧ b = 0 ∧ c = 0
  · right
    intro s'
    unfold bezierValue
    rw [← ha, ← hb, ← hc, hconst.1, hconst.2.1, hconst.2.2]
    ring
  · left
    unfold bezierParams
    simp only [List.mem_append]
    right
    rw [← ha, ← hb, ← hc, ← hs, if_pos hs0, ← hr, ← hq, List.mem_append]
    have hq0 : q ≠ 0 := by
      intro hq0
      -- then b = 0 and a c = 0
      have hb0 : b = 0 := by
        rw [hq0] at hq
        split at hq
        · linarith
        · linarith
      have hac : a * c = 0 := by rw [hq0] at hqq; linarith
      rw [hb0] at hz
      rcases mul_eq_zero.mp hac with e | e
      · rw [e] at hz
        exact hconst ⟨e, hb0, by linarith⟩
      · rw [e] at hz
        have : a * t ^ 2 = 0 := by linarith
        rcases mul_eq_zero.mp this with e' | e'
        · exact hconst ⟨e', hb0, e⟩
        · have := pow_eq_zero_iff (two_ne_zero) |>.mp e'
          linarith
    rcases mul_eq_zero.mp hfac with e | e
    · left
      have e : q = a * t := by linarith
      have ha0 : a ≠ 0 := fun h => hq0 (by rw [e, h]; ring)
      have hc' : (0 < q ∧ q < a) ∨ (a < q ∧ q < 0) := by
        rcases lt_or_gt_of_ne ha0 with h | h
        · right; rw [e]; constructor <;> nlinarith
        · left; rw [e]; constructor <;> nlinarith
      rw [if_pos hc', List.mem_singleton, e]
      field_simp
    · by_cases hc0 : c = 0
      · -- then t = 0
        rw [hc0] at e
        have : q * t = 0 := by linarith
        rcases mul_eq_zero.mp this with e' | e'
        · exact absurd e' hq0
        · linarith
      · right
        have e : c = q * t := by linarith
        have hc' : (0 < c ∧ c < q) ∨ (q < c ∧ c < 0) := by
          rcases lt_or_gt_of_ne hq0 with h | h
          · right; rw [e]; constructor <;> nlinarith
          · left; rw [e]; constructor <;> nlinarith
        rw [if_pos hc', List.mem_singleton, e]
        field_simp

theorem foldl_min_spec (l : List ℝ) (x : ℝ) : (∀ y ∈ x :: l, l.foldl min x ≤ y) ∧ l.foldl min x ∈ x :: l := by
  induction l generalizing x with
  | nil => simp
  | cons a l ih =>
    obtain ⟨h1, h2⟩ := ih (min x a)
    rw [List.foldl_cons]
    constructor
    · intro y hy
      simp only [List.mem_cons] at hy
      rcases hy with rfl | rfl | hy
      · exact (h1 _ List.mem_cons_self).trans (min_le_left _ _)
      · exact (h1 _ List.mem_cons_self).trans (min_le_right _ _)
      · exact h1 y (by simp [hy])
    · rcases List.mem_cons.mp h2 with h | h
      · rw [h]
        rcases min_choice x a with e | e <;> rw [e] <;> simp
      · simp [h]

theorem foldl_max_spec (l : List ℝ) (x : ℝ) : (∀ y ∈ x :: l, y ≤ l.foldl max x) ∧ l.foldl max x ∈ x :: l := by
  induction l generalizing x with
  | nil => simp
  | cons a l ih =>
    obtain ⟨h1, h2⟩ := ih (max x a)
    rw [List.foldl_cons]
    constructor
    · intro y hy
      simp only [List.mem_cons] at hy
      rcases hy with rfl | rfl | hy
      · exact (le_max_left _ _).trans (h1 _ List.mem_cons_self)
      · exact (le_max_right _ _).trans (h1 _ List.mem_cons_self)
      · exact h1 y (by simp [hy])
    · rcases List.mem_cons.mp h2 with h | h
      · rw [h]
        rcases max_choice x a with e | e <;> rw [e] <;> simp
      · simp [h]

theorem bezier_deriv (x0 x1 x2 x3 t : ℝ) : HasDerivAt (bezierValue x0 x1 x2 x3)
    (3 * ((x3 - 3 * x2 + 3 * x1 - x0) * t ^ 2 + (2 * x0 - 4 * x1 + 2 * x2) * t + (x1 - x0))) t := by
  have h := cubic_deriv (-x0 + 3 * x1 - 3 * x2 + x3) (3 * x0 - 6 * x1 + 3 * x2) (-3 * x0 + 3 * x1) x0 t
  have e : bezierValue x0 x1 x2 x3 = fun t => (-x0 + 3 * x1 - 3 * x2 + x3) * t * t * t + (3 * x0 - 6 * x1 + 3 * x2) * t * t +
      (-3 * x0 + 3 * x1) * t + x0 := funext fun t => bezierValue_eq x0 x1 x2 x3 t
  rw [e]
  exact h.congr_deriv (by ring)

/-- The range of one coordinate: a lower and an upper bound, each attained. -/
theorem bezierpolyrange_spec (x0 x1 x2 x3 : ℝ) :
    (∀ t, 0 ≤ t → t ≤ 1 → (bezierpolyrange x0 x1 x2 x3).1 ≤ bezierValue x0 x1 x2 x3 t ∧
      bezierValue x0 x1 x2 x3 t ≤ (bezierpolyrange x0 x1 x2 x3).2) ∧
    (∃ t, (0 ≤ t ∧ t ≤ 1) ∧ bezierValue x0 x1 x2 x3 t = (bezierpolyrange x0 x1 x2 x3).1) ∧
    (∃ t, (0 ≤ t ∧ t ≤ 1) ∧ bezierValue x0 x1 x2 x3 t = (bezierpolyrange x0 x1 x2 x3).2) := by
  obtain ⟨f, hf⟩ : ∃ f, f = bezierValue x0 x1 x2 x3 := ⟨_, rfl⟩
  have hcont : Continuous f := by
    rw [hf, continuous_iff_continuousAt]
    exact fun t => (bezier_deriv x0 x1 x2 x3 t).continuousAt
  have hmem0 : (0 : ℝ) ∈ bezierParams x0 x1 x2 x3 := by simp [bezierParams]
  have hmem1 : (1 : ℝ) ∈ bezierParams x0 x1 x2 x3 := by simp [bezierParams]
  obtain ⟨mn1, mn2⟩ := foldl_min_spec ((bezierParams x0 x1 x2 x3).map f) (f 0)
  obtain ⟨mx1, mx2⟩ := foldl_max_spec ((bezierParams x0 x1 x2 x3).map f) (f 0)
  -- the extremum over [0,1] is the value at one of the parameters
  have ext : ∀ t, t ∈ Set.Icc (0 : ℝ) 1 → (IsMinOn f (Set.Icc 0 1) t ∨ IsMaxOn f (Set.Icc 0 1) t) →
      ∃ u ∈ bezierParams x0 x1 x2 x3, f u = f t := by
    intro t ht hext
    rcases eq_or_lt_of_le ht.1 with e | h0
    · exact ⟨0, hmem0, by rw [e]⟩
    rcases eq_or_lt_of_le ht.2 with e | h1
    · exact ⟨1, hmem1, by rw [e]⟩
    have hnhds : Set.Icc (0 : ℝ) 1 ∈ nhds t := Icc_mem_nhds h0 h1
    have hd : 3 * ((x3 - 3 * x2 + 3 * x1 - x0) * t ^ 2 + (2 * x0 - 4 * x1 + 2 * x2) * t + (x1 - x0)) = 0 := by
      have hder := bezier_deriv x0 x1 x2 x3 t
      rw [← hf] at hder
      rcases hext with h | h
      · exact (h.isLocalMin hnhds).hasDerivAt_eq_zero hder
      · exact (h.isLocalMax hnhds).hasDerivAt_eq_zero hder
    rcases critical_mem x0 x1 x2 x3 t h0 h1 (by linarith) with h | h
    · exact ⟨t, h, rfl⟩
    · exact ⟨0, hmem0, by rw [hf, h 0, h t]⟩
  have hne : (Set.Icc (0 : ℝ) 1).Nonempty := ⟨0, le_rfl, zero_le_one⟩
  obtain ⟨tm, htm, hmin⟩ := isCompact_Icc.exists_isMinOn hne hcont.continuousOn
  obtain ⟨tx, htx, hmax⟩ := isCompact_Icc.exists_isMaxOn hne hcont.continuousOn
  obtain ⟨um, hum, em⟩ := ext tm htm (Or.inl hmin)
  obtain ⟨ux, hux, ex⟩ := ext tx htx (Or.inr hmax)
  have hval : ∀ y, y ∈ f 0 :: (bezierParams x0 x1 x2 x3).map f → ∃ t, (0 ≤ t ∧ t ≤ 1) ∧ f t = y := by
    intro y hy
    rcases List.mem_cons.mp hy with h | h
    · exact ⟨0, ⟨le_rfl, zero_le_one⟩, h.symm⟩
    · rw [List.mem_map] at h
      obtain ⟨t, ht, e⟩ := h
      exact ⟨t, bezierParams_mem _ _ _ _ t ht, e⟩
  subst hf
  refine ⟨?_, hval _ mn2, hval _ mx2⟩
  intro t h0 h1
  constructor
  · refine (mn1 _ (List.mem_cons_of_mem _ (List.mem_map_of_mem hum))).trans ?_
    rw [em]
    exact hmin ⟨h0, h1⟩
  · refine le_trans ?_ (mx1 _ (List.mem_cons_of_mem _ (List.mem_map_of_mem hux)))
    rw [ex]
    exact hmax ⟨h0, h1⟩

/-- The box contains all points of the item, and each side is touched. -/
def Tight (i : Item ℝ) (b : Quad ℝ) : Prop :=
  (∀ t, 0 ≤ t → t ≤ 1 → (b.llx ≤ (i.point t).1 ∧ (i.point t).1 ≤ b.urx) ∧ (b.lly ≤ (i.point t).2 ∧ (i.point t).2 ≤ b.ury)) ∧
  (∃ t, (0 ≤ t ∧ t ≤ 1) ∧ (i.point t).1 = b.llx) ∧ (∃ t, (0 ≤ t ∧ t ≤ 1) ∧ (i.point t).1 = b.urx) ∧
  (∃ t, (0 ≤ t ∧ t ≤ 1) ∧ (i.point t).2 = b.lly) ∧ (∃ t, (0 ≤ t ∧ t ≤ 1) ∧ (i.point t).2 = b.ury)

/-- **C41.**  The bounding box of every line and curve contains it and is tight. -/
theorem bbox_tight (i : Item ℝ) : ∃ b, i.bbox = some b ∧ Tight i b := by
  cases i with
  | curve c =>
    refine ⟨_, rfl, ?_⟩
    have hx : ∀ t, ((Item.curve c).point t).1 = bezierValue c.x0 c.x1 c.x2 c.x3 t := fun t => by
      rw [← at_eq_point, bezierValue_eq]; rfl
    have hy : ∀ t, ((Item.curve c).point t).2 = bezierValue c.y0 c.y1 c.y2 c.y3 t := fun t => by
      rw [← at_eq_point, bezierValue_eq]; rfl
    obtain ⟨a1, a2, a3⟩ := bezierpolyrange_spec c.x0 c.x1 c.x2 c.x3
    obtain ⟨b1, b2, b3⟩ := bezierpolyrange_spec c.y0 c.y1 c.y2 c.y3
    unfold Tight
    simp only [hx, hy]
    exact ⟨fun t h0 h1 => ⟨a1 t h0 h1, b1 t h0 h1⟩, a2, a3, b2, b3⟩
  | line l =>
    refine ⟨_, rfl, ?_⟩
    have key : ∀ u v : ℝ, (∀ t : ℝ, 0 ≤ t → t ≤ 1 → min u v ≤ (1 - t) * u + t * v ∧ (1 - t) * u + t * v ≤ max u v) ∧
        (∃ t : ℝ, (0 ≤ t ∧ t ≤ 1) ∧ (1 - t) * u + t * v = min u v) ∧
        (∃ t : ℝ, (0 ≤ t ∧ t ≤ 1) ∧ (1 - t) * u + t * v = max u v) := by
      intro u v
      refine ⟨?_, ?_, ?_⟩
      · intro t h0 h1
        have a1 := mul_le_mul_of_nonneg_left (min_le_left u v) (sub_nonneg.mpr h1)
        have a2 := mul_le_mul_of_nonneg_left (min_le_right u v) h0
        have a3 := mul_le_mul_of_nonneg_left (le_max_left u v) (sub_nonneg.mpr h1)
        have a4 := mul_le_mul_of_nonneg_left (le_max_right u v) h0
        constructor <;> linarith
      · rcases min_choice u v with e | e
        · exact ⟨0, ⟨le_rfl, zero_le_one⟩, by rw [e]; ring⟩
        · exact ⟨1, ⟨zero_le_one, le_rfl⟩, by rw [e]; ring⟩
      · rcases max_choice u v with e | e
        · exact ⟨0, ⟨le_rfl, zero_le_one⟩, by rw [e]; ring⟩
        · exact ⟨1, ⟨zero_le_one, le_rfl⟩, by rw [e]; ring⟩
    obtain ⟨a1, a2, a3⟩ := key l.x0 l.x1
    obtain ⟨b1, b2, b3⟩ := key l.y0 l.y1
    exact ⟨fun t h0 h1 => ⟨a1 t h0 h1, b1 t h0 h1⟩, a2, a3, b2, b3⟩

/-- **C41.**  The control box contains the curve as well. -/
theorem cbox_contains (c : Curve ℝ) : ∃ b, c.cbox = some b ∧
    ∀ t, 0 ≤ t → t ≤ 1 → (b.llx ≤ ((Item.curve c).point t).1 ∧ ((Item.curve c).point t).1 ≤ b.urx) ∧
      (b.lly ≤ ((Item.curve c).point t).2 ∧ ((Item.curve c).point t).2 ≤ b.ury) := by
  refine ⟨_, rfl, ?_⟩
  intro t h0 h1
  have comb : ∀ m M u v : ℝ, m ≤ u ∧ u ≤ M → m ≤ v ∧ v ≤ M → m ≤ (1 - t) * u + t * v ∧ (1 - t) * u + t * v ≤ M := by
    intro m M u v hu hv
    have h1' := sub_nonneg.mpr h1
    have a1 := mul_le_mul_of_nonneg_left hu.1 h1'
    have a2 := mul_le_mul_of_nonneg_left hu.2 h1'
    have a3 := mul_le_mul_of_nonneg_left hv.1 h0
    have a4 := mul_le_mul_of_nonneg_left hv.2 h0
    constructor <;> linarith
  have key : ∀ a b c d : ℝ, min (min (min a b) c) d ≤ (bezierPoint (a, a) (b, b) (c, c) (d, d) t).1 ∧
      (bezierPoint (a, a) (b, b) (c, c) (d, d) t).1 ≤ max (max (max a b) c) d := by
    intro a b c d
    have ha : min (min (min a b) c) d ≤ a ∧ a ≤ max (max (max a b) c) d := by simp
    have hb : min (min (min a b) c) d ≤ b ∧ b ≤ max (max (max a b) c) d := by simp
    have hc : min (min (min a b) c) d ≤ c ∧ c ≤ max (max (max a b) c) d := by simp
    have hd : min (min (min a b) c) d ≤ d ∧ d ≤ max (max (max a b) c) d := by simp
    generalize min (min (min a b) c) d = m at *
    generalize max (max (max a b) c) d = M at *
    exact comb _ _ _ _ (comb _ _ _ _ (comb _ _ _ _ ha hb) (comb _ _ _ _ hb hc))
      (comb _ _ _ _ (comb _ _ _ _ hb hc) (comb _ _ _ _ hc hd))
  exact ⟨key c.x0 c.x1 c.x2 c.x3, key c.y0 c.y1 c.y2 c.y3⟩

/-! ## Examples -/

/-- A loop which leaves the box of its end points. -/
example : bezierParams 0 3 (-2) 1 = [0, 1, 3 / 4, 1 / 4] := by
  have h : Real.sqrt 64 = 8 := by
    rw [show (64 : ℝ) = 8 ^ 2 by norm_num]
    exact Real.sqrt_sq (by norm_num)
  unfold bezierParams
  norm_num [h]

example : (⟨0, 0, 0, 1, 1, 1, 1, 0⟩ : Curve ℚ).segments [0, 1 / 2, 1] =
    some [⟨0, 0, 0, 1 / 2, 1 / 4, 3 / 4, 1 / 2, 3 / 4⟩, ⟨1 / 2, 3 / 4, 3 / 4, 3 / 4, 1, 1 / 2, 1, 0⟩] := by
  decide +kernel

end PyX.NormPath
