import Verif.Trafo.Props
import Mathlib.Analysis.SpecialFunctions.Trigonometric.Deriv

/-!
# The `transform` attribute of SVG (`svgfile.py:243-281`): model and C99

Each item of the list is given by its numbers, lengths already in points.  (The numbers are read by `toFloat`, see `Verif.Svg.Number`; too many or too few of them are
errors, which are not modelled.)
-/

set_option linter.unusedSectionVars false

namespace PyX.Svg

open Real Trafo

noncomputable section

/-- An item of the list with its numbers. -/
inductive Tr
  | matrix (a b c d e f : ℝ)
  | translate (x : ℝ) (y : Option ℝ)
  | scale (sx : ℝ) (sy : Option ℝ)
  | rotate (angle : ℝ) (center : Option (ℝ × ℝ))
  | skewX (angle : ℝ)
  | skewY (angle : ℝ)

/-! ## Model -/

/-- `rotate_pt` with both coordinates of the center (`trafo.py:183-191`, see `rotate_about_pt`). -/
def rotateAt (angle x y : ℝ) : Trafo ℝ :=
  ⟨cos (phi angle), -sin (phi angle), sin (phi angle), cos (phi angle), (1 - cos (phi angle)) * x + sin (phi angle) * y, -sin (phi angle) * x + (1 - cos (phi angle)) * y⟩

theorem rotateAt_eq (angle x y : ℝ) : Trafo.rotate angle (some x) (some y) = some (rotateAt angle x y) := rfl

/-- One turn of the loop (`svgfile.py:245-280`). -/
def trStep (t : Trafo ℝ) : Tr → Trafo ℝ
  | .matrix a b c d e f => mul t ⟨a, b, c, d, e, f⟩
  | .translate x y => mul (Trafo.translate x (y.getD 0)) t
  | .scale sx sy => mul ⟨sx, 0, 0, sy.getD sx, 0, 0⟩ t
  | .rotate angle center => mul (rotateAt angle (center.getD (0, 0)).1 (center.getD (0, 0)).2) t
  | .skewX angle => mul t ⟨1, tan (angle * π / 180), 0, 1, 0, 0⟩
  | .skewY angle => mul t ⟨1, 0, tan (angle * π / 180), 1, 0, 0⟩

/-- `toTrafo` (`svgfile.py:243-281`): the items are taken in reversed order. -/
def toTrafo (l : List Tr) : Trafo ℝ := l.reverse.foldl trStep one

/-! ## Specification (SVG 1.1, 7.6) -/

/-- What an item does with a point. -/
def Tr.map : Tr → ℝ × ℝ → ℝ × ℝ
  | .matrix a b c d e f, p => (a * p.1 + c * p.2 + e, b * p.1 + d * p.2 + f)
  | .translate x y, p => (p.1 + x, p.2 + y.getD 0)
  | .scale sx sy, p => (sx * p.1, sy.getD sx * p.2)
  | .rotate angle none, p => (cos (angle * π / 180) * p.1 - sin (angle * π / 180) * p.2, sin (angle * π / 180) * p.1 + cos (angle * π / 180) * p.2)
  | .rotate angle (some z), p =>
    (z.1 + cos (angle * π / 180) * (p.1 - z.1) - sin (angle * π / 180) * (p.2 - z.2), z.2 + sin (angle * π / 180) * (p.1 - z.1) + cos (angle * π / 180) * (p.2 - z.2))
  | .skewX angle, p => (p.1 + tan (angle * π / 180) * p.2, p.2)
  | .skewY angle, p => (p.1, tan (angle * π / 180) * p.1 + p.2)

/-- The list stands for the composition: the last item is applied first. -/
def listMap : List Tr → ℝ × ℝ → ℝ × ℝ
  | [], p => p
  | i :: l, p => i.map (listMap l p)

/-- Translations, scalings and rotations. -/
def Tr.plain : Tr → Bool
  | .translate _ _ | .scale _ _ | .rotate _ _ => true
  | _ => false

/-- Matrices which are the same when transposed, and skews. -/
def Tr.symmetric : Tr → Prop
  | .matrix _ b c _ _ _ => b = c
  | _ => True

/-! ## Proof -/

theorem plain_step (t : Trafo ℝ) (i : Tr) (h : i.plain = true) (p : ℝ × ℝ) : (trStep t i).apply p = i.map (t.apply p) := by
  have hphi : ∀ a, phi a = a * π / 180 := fun a => by unfold phi; ring
  cases i with
  | translate x y =>
    simp only [trStep, mul_apply, Tr.map]
    simp only [Trafo.translate, Trafo.apply, Prod.mk.injEq]
    constructor <;> ring
  | scale sx sy =>
    simp only [trStep, mul_apply, Tr.map]
    simp only [Trafo.apply, Prod.mk.injEq]
    constructor <;> ring
  | rotate angle center =>
    simp only [trStep, mul_apply]
    cases center with
    | none =>
      simp only [rotateAt, Trafo.apply, Tr.map, Option.getD_none, hphi, Prod.mk.injEq]
      constructor <;> ring
    | some z =>
      simp only [rotateAt, Trafo.apply, Tr.map, Option.getD_some, hphi, Prod.mk.injEq]
      constructor <;> ring
  | _ => cases h

/-- As the first item taken, a symmetric item is right. -/
theorem first_step (i : Tr) (h : i.symmetric) (p : ℝ × ℝ) : (trStep one i).apply p = i.map p := by
  cases i with
  | matrix a b c d e f =>
    have h : b = c := h
    subst h
    simp only [trStep, mul_apply, Tr.map]
    simp only [Trafo.apply, one, Prod.mk.injEq]
    constructor <;> ring
  | skewX a =>
    simp only [trStep, mul_apply, Tr.map]
    simp only [Trafo.apply, one, Prod.mk.injEq]
    constructor <;> ring
  | skewY a =>
    simp only [trStep, mul_apply, Tr.map]
    simp only [Trafo.apply, one, Prod.mk.injEq]
    constructor <;> ring
  | translate x y => rw [plain_step one _ rfl]; simp [Trafo.apply, one]
  | scale x y => rw [plain_step one _ rfl]; simp [Trafo.apply, one]
  | rotate x y => rw [plain_step one _ rfl]; simp [Trafo.apply, one]

/-- C99: a list of translations, scalings and rotations is their composition in the order given by SVG; the last item of the list may also be a skew, or a matrix which is
the same when transposed. -/
theorem toTrafo_partial (l : List Tr) (hl : ∀ i ∈ l, i.plain = true) (last : Option Tr) (h : ∀ i, last = some i → i.symmetric) (p : ℝ × ℝ) :
    (toTrafo (l ++ last.toList)).apply p = listMap (l ++ last.toList) p := by
  unfold toTrafo
  induction l with
  | nil =>
    cases last with
    | none => simp [listMap, Trafo.apply, one]
    | some i => simpa [listMap] using first_step i (h i rfl) p
  | cons i l ih =>
    simp only [List.cons_append, List.reverse_cons, List.foldl_append, List.foldl_cons, List.foldl_nil, listMap]
    rw [plain_step _ i (hl i List.mem_cons_self)]
    have := ih fun j hj => hl j (List.mem_cons_of_mem _ hj)
    simp only [List.reverse_append, List.foldl_append] at this
    rw [List.reverse_append, List.foldl_append, this]

/-- C99 does not hold for a matrix: it is transposed. -/
theorem matrix_transposed (a b c d e f : ℝ) : toTrafo [.matrix a b c d e f] = ⟨a, b, c, d, e, f⟩ ∧
    ((∀ p, (toTrafo [.matrix a b c d e f]).apply p = listMap [.matrix a b c d e f] p) → b = c) := by
  have h1 : toTrafo [.matrix a b c d e f] = ⟨a, b, c, d, e, f⟩ := by
    ext <;> simp [toTrafo, trStep, mul, one]
  refine ⟨h1, fun h => ?_⟩
  rw [h1] at h
  have h2 := h (0, 1)
  simp only [Trafo.apply, listMap, Tr.map, mul_zero, mul_one, zero_add, Prod.mk.injEq] at h2
  linarith [h2.1]

/-- C99 does not hold for a skew (or a matrix) in front of another item: the two are applied in the wrong order. -/
theorem skew_order (angle sx : ℝ) (p : ℝ × ℝ) :
    (toTrafo [.skewX angle, .scale sx (some 1)]).apply p = listMap [.scale sx (some 1), .skewX angle] p := by
  simp only [toTrafo, List.reverse_cons, List.reverse_nil, List.nil_append, List.cons_append, List.foldl_cons, List.foldl_nil, trStep, mul_apply, listMap, Tr.map,
    Option.getD_some]
  simp only [Trafo.apply, one, Prod.mk.injEq]
  constructor <;> ring

theorem skew_order_wrong : ∃ l p, (toTrafo l).apply p ≠ listMap l p ∧ ∀ i ∈ l, i.symmetric := by
  refine ⟨[.skewX 45, .scale 2 (some 1)], (0, 1), ?_, by simp [Tr.symmetric]⟩
  rw [skew_order]
  have : (45 : ℝ) * π / 180 = π / 4 := by ring
  simp only [listMap, Tr.map, Option.getD_some, this, tan_pi_div_four]
  intro h
  have := congrArg Prod.fst h
  norm_num at this

/-- `translate(1) rotate(90)`: rotated first. -/
example : (toTrafo [.translate 1 none, .rotate 90 none]).apply (1, 0) = (1, 1) := by
  have := toTrafo_partial [.translate 1 none, .rotate 90 none] (by simp [Tr.plain]) none (by simp) (1, 0)
  simp only [Option.toList_none, List.append_nil] at this
  rw [this]
  have h : (90 : ℝ) * π / 180 = π / 2 := by ring
  simp [listMap, Tr.map, h]

end

end PyX.Svg
