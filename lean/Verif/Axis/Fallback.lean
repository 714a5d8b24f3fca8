import Verif.Axis.Model
import Mathlib.Tactic.Linarith
import Mathlib.Tactic.FieldSimp
import Mathlib.Tactic.Ring

/-!
# C16, C116: axes for constant data (`fallbackrange`, `pyx/graph/axis/axis.py:123-132`)
-/

set_option linter.unusedSectionVars false

namespace PyX.Axis

variable {K : Type} [Field K] [LinearOrder K] [IsStrictOrderedRing K]

/-- `fallbackrange`: a width, or the two ends (then the first subtraction is a `TypeError`). -/
inductive Fallback (K : Type) where
  | width (f : K)
  | ends (a b : K)

/-- The beginning of `_create` (`pyx/graph/axis/axis.py:123-132`) for all kinds of `fallbackrange`; `none` is an exception. -/
def checkRangeAny (d : Data K) : Option (Fallback K) → Option (K × K)
  | none => checkRange d none
  | some (.width f) => checkRange d (some f)
  | some (.ends a b) =>
    match d.min, d.max with
    | some mn, some mx => if mx = mn then some (a, b) else some (mn, mx)
    | _, _ => none

/-- **C16**: an axis has a range if and only if both ends are known and either they differ or there is a range to fall back on. -/
theorem range_iff (d : Data K) (fb : Option (Fallback K)) :
    (checkRangeAny d fb).isSome ↔ ∃ a b, d.min = some a ∧ d.max = some b ∧ (a ≠ b ∨ fb.isSome) := by
  obtain ⟨mn, mx⟩ := d
  cases mn with
  | none => cases fb with
    | none => simp [checkRangeAny, checkRange]
    | some x => cases x <;> simp [checkRangeAny, checkRange]
  | some a => cases mx with
    | none => cases fb with
      | none => simp [checkRangeAny, checkRange]
      | some x => cases x <;> simp [checkRangeAny, checkRange]
    | some b =>
      by_cases h : b = a
      · subst h
        cases fb with
        | none => simp [checkRangeAny, checkRange]
        | some x => cases x <;> simp [checkRangeAny, checkRange]
      · have h' : a ≠ b := fun e => h e.symm
        cases fb with
        | none => simp [checkRangeAny, checkRange, h, h']
        | some x => cases x <;> simp [checkRangeAny, checkRange, h, h']

/-- **C16**: if the ends differ, nothing is changed. -/
theorem range_kept (a b : K) (h : a ≠ b) (fb : Option (Fallback K)) : checkRangeAny ⟨some a, some b⟩ fb = some (a, b) := by
  have h' : b ≠ a := fun e => h e.symm
  cases fb with
  | none => simp [checkRangeAny, checkRange, h']
  | some x => cases x <;> simp [checkRangeAny, checkRange, h']

/-- **C16**: constant data are in the middle of an axis with the width given, whatever the direction. -/
theorem range_centered (a f : K) (hf : f ≠ 0) (reverse : Bool) :
    ∃ mn mx, checkRangeAny ⟨some a, some a⟩ (some (.width f)) = some (mn, mx) ∧ mx - mn = f ∧ convert reverse mn mx a = 1 / 2 := by
  refine ⟨a - 1 / 2 * f, a + 1 / 2 * f, by simp [checkRangeAny, checkRange], by ring, ?_⟩
  have h2 : a + 1 / 2 * f - (a - 1 / 2 * f) = f := by ring
  unfold convert
  cases reverse
  · simp only [Bool.false_eq_true, if_false, h2]
    field_simp
    ring
  · simp only [if_true, h2]
    field_simp
    ring

/-- **C16**: the ends of a range to fall back on are taken as they are. -/
theorem range_ends (a mn mx : K) : checkRangeAny ⟨some a, some a⟩ (some (.ends mn mx)) = some (mn, mx) := by simp [checkRangeAny]

/-- **C16 (finding)**: then the data may be outside of the axis. -/
theorem range_ends_outside : ∃ a mn mx : ℚ, checkRangeAny ⟨some a, some a⟩ (some (.ends mn mx)) = some (mn, mx) ∧ mn < mx ∧ 1 < convert false mn mx a :=
  ⟨5, 0, 1, by decide +kernel, by decide +kernel, by decide +kernel⟩

/-- **C116 (finding)**: a fixed end of the axis is moved if the data are all at this end: with `min=a` and a width to fall back on the axis starts below `a`. -/
theorem fixed_end_moved (a f : K) (hf : 0 < f) (rest : List K) (hr : ∀ x ∈ rest, x = a) :
    ∃ mn mx, checkRangeAny (history ⟨some a, none, false⟩ [(a :: rest).map some]) (some (.width f)) = some (mn, mx) ∧ mn < a := by
  have hh : history (⟨some a, none, false⟩ : Reg K) [(a :: rest).map some] = ⟨some a, some a⟩ := by
    have : ∀ l : List K, (∀ x ∈ l, x = a) → (l.map some).foldl (adjust1 (⟨some a, none, false⟩ : Reg K)) ⟨some a, some a⟩ = ⟨some a, some a⟩ := by
      intro l
      induction l with
      | nil => intro _; rfl
      | cons x l ih =>
        intro hx
        rw [List.map_cons, List.foldl_cons, hx x List.mem_cons_self]
        have : adjust1 (⟨some a, none, false⟩ : Reg K) ⟨some a, some a⟩ (some a) = ⟨some a, some a⟩ := by simp [adjust1, above]
        rw [this]
        exact ih fun y hy => hx y (List.mem_cons_of_mem _ hy)
    simp only [history, List.foldl_cons, List.foldl_nil, adjustaxis, createdata, Option.isNone_some, Option.isNone_none, Bool.or_true, if_true, List.map_cons]
    have h1 : adjust1 (⟨some a, none, false⟩ : Reg K) ⟨some a, none⟩ (some a) = ⟨some a, some a⟩ := by simp [adjust1, above]
    rw [h1]
    exact this rest hr
  refine ⟨a - 1 / 2 * f, a + 1 / 2 * f, ?_, by linarith⟩
  rw [hh]
  simp [checkRangeAny, checkRange]

/-- Data all zero on an axis which starts at zero. -/
example : checkRangeAny (history (⟨some 0, none, false⟩ : Reg ℚ) [[some 0, some 0]]) (some (.width 1)) = some (-1 / 2, 1 / 2) := by decide +kernel
example : checkRangeAny (⟨some 3, some 3⟩ : Data ℚ) none = none ∧ checkRangeAny (⟨some 3, some 4⟩ : Data ℚ) none = some (3, 4) := by decide +kernel

end PyX.Axis
