import Mathlib.Algebra.Order.BigOperators.Group.List
import Mathlib.Data.Rat.Defs
import Mathlib.Algebra.Order.Field.Basic
import Mathlib.Tactic.Linarith
import Mathlib.Tactic.NormNum

/-!
# The box of a piece of text in a TeX font (`pyx/dvi/texfont.py:157-176`)

Numbers are from any ordered field; `w`, `h` and `d` are width, height and depth of a character in points.
-/

set_option linter.unusedSectionVars false
set_option linter.unusedSimpArgs false

namespace PyX.Tfm.Text

variable {K : Type} [Field K] [LinearOrder K] [IsStrictOrderedRing K]

/-- Width, height and depth of a character (`getwidth_pt`, `getheight_pt`, `getdepth_pt`, `texfont.py:117-125`). -/
structure Dims (K : Type) where
  w : K
  h : K
  d : K

/-- Python's `max` of a list; the empty one is a `ValueError`. -/
def maxOf : List K → Option K
  | [] => none
  | x :: l => some (l.foldl max x)

/-- A box: left, bottom, right, top. -/
structure Box (K : Type) where
  llx : K
  lly : K
  urx : K
  ury : K

/-- `TeXtext_pt.__init__` (`texfont.py:167-171`). -/
def box (x y : K) (l : List (Dims K)) : Option (Box K) :=
  (maxOf (l.map Dims.h)).bind fun h => (maxOf (l.map Dims.d)).bind fun d => some ⟨x, y - d, x + (l.map Dims.w).sum, y + h⟩

/-- Specification: the characters one after the other, each with its box. -/
def glyphs : K → K → List (Dims K) → List (Box K)
  | _, _, [] => []
  | x, y, c :: l => ⟨x, y - c.d, x + c.w, y + c.h⟩ :: glyphs (x + c.w) y l

/-- One box is in another one. -/
def Box.Le (a b : Box K) : Prop := b.llx ≤ a.llx ∧ b.lly ≤ a.lly ∧ a.urx ≤ b.urx ∧ a.ury ≤ b.ury

theorem foldl_max_le (l : List K) (x m : K) : l.foldl max x ≤ m ↔ x ≤ m ∧ ∀ y ∈ l, y ≤ m := by
  induction l generalizing x with
  | nil => simp
  | cons y l ih => simp [ih, and_assoc]

theorem maxOf_spec {l : List K} {m : K} (h : maxOf l = some m) (b : K) : m ≤ b ↔ ∀ y ∈ l, y ≤ b := by
  match l, h with
  | x :: l, h =>
    cases h
    rw [foldl_max_le]; simp

theorem glyphs_below (x y : K) (l : List (Dims K)) (hw : ∀ c ∈ l, 0 ≤ c.w) (b : Box K) :
    (∀ g ∈ glyphs x y l, g.Le b) ↔ (l ≠ [] → b.llx ≤ x) ∧ (∀ c ∈ l, b.lly ≤ y - c.d) ∧ (l ≠ [] → x + (l.map Dims.w).sum ≤ b.urx) ∧ ∀ c ∈ l, y + c.h ≤ b.ury := by
  induction l generalizing x with
  | nil => simp [glyphs]
  | cons c l ih =>
    have hc := hw c (by simp)
    have hs : 0 ≤ (l.map Dims.w).sum := List.sum_nonneg (by
      intro z hz
      obtain ⟨c', hc', rfl⟩ := List.mem_map.mp hz
      exact hw c' (by simp [hc']))
    rw [glyphs, List.forall_mem_cons, ih (x + c.w) (fun c hc => hw c (by simp [hc]))]
    simp only [Box.Le, List.forall_mem_cons, List.map_cons, List.sum_cons, ne_eq, reduceCtorEq, not_false_eq_true, forall_const]
    cases l with
    | nil => simp
    | cons c' l =>
      simp only [ne_eq, reduceCtorEq, not_false_eq_true, forall_const]
      constructor
      · rintro ⟨⟨h1, h2, h3, h4⟩, h5, h6, h7, h8⟩
        exact ⟨h1, ⟨h2, h6⟩, by linarith, h4, h8⟩
      · rintro ⟨h1, ⟨h2, h6⟩, h3, h4, h8⟩
        exact ⟨⟨h1, h2, by linarith, h4⟩, by linarith, h6, by linarith, h8⟩

/-- **C155.** The box of a text (with widths which are not negative) is the smallest one which contains the boxes of all its characters, set one after the other. -/
theorem text_box (x y : K) (l : List (Dims K)) (hw : ∀ c ∈ l, 0 ≤ c.w) (b : Box K) (h : box x y l = some b) (b' : Box K) :
    b.Le b' ↔ ∀ g ∈ glyphs x y l, g.Le b' := by
  unfold box at h
  cases hh : maxOf (l.map Dims.h) with
  | none => simp [hh] at h
  | some mh =>
    cases hd : maxOf (l.map Dims.d) with
    | none => simp [hh, hd] at h
    | some md =>
      rw [hh, hd] at h
      simp only [Option.bind_some, Option.some.injEq] at h
      subst h
      have hl : l ≠ [] := by rintro rfl; simp [maxOf] at hh
      have e1 := maxOf_spec hh (b'.ury - y)
      have e2 := maxOf_spec hd (y - b'.lly)
      rw [glyphs_below x y l hw]
      simp only [Box.Le, hl, ne_eq, not_false_eq_true, forall_const]
      simp only [List.forall_mem_map] at e1 e2
      constructor
      · rintro ⟨h1, h2, h3, h4⟩
        exact ⟨h1, fun c hc => by linarith [e2.mp (by linarith) c hc], h3, fun c hc => by linarith [e1.mp (by linarith) c hc]⟩
      · rintro ⟨h1, h2, h3, h4⟩
        exact ⟨h1, by linarith [e2.mpr fun c hc => by linarith [h2 c hc]], h3, by linarith [e1.mpr fun c hc => by linarith [h4 c hc]]⟩

/-- A text has a box unless it has no characters. -/
theorem text_box_exists (x y : K) (l : List (Dims K)) : (∃ b, box x y l = some b) ↔ l ≠ [] := by
  cases l with
  | nil => simp [box, maxOf]
  | cons c l => simp [box, maxOf]

example : ∃ b, box (1 : ℚ) 2 [⟨5, 7, 0⟩, ⟨4, 3, 2⟩] = some b ∧ b = ⟨1, 0, 10, 9⟩ := by
  refine ⟨_, rfl, ?_⟩
  norm_num

end PyX.Tfm.Text
