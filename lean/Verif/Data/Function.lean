import Verif.Util.Dict
import Mathlib.Analysis.SpecialFunctions.Log.Basic
import Mathlib.Algebra.Order.Field.Basic
import Mathlib.Tactic.FieldSimp
import Mathlib.Tactic.Linarith
import Mathlib.Tactic.Ring

/-!
# Data from functions (`pyx/graph/data.py:30-39, 497-587`)

The evaluation of an expression is a parameter: it gives a value, or `none` for an `ArithmeticError` or a `ValueError`.
-/

set_option linter.unusedSectionVars false

namespace PyX.Data

open PyX.Util PyX.Util.Dict

/-! ## Sections -/

section Sections
variable {K : Type*} [LinearOrder K]

/-- The loop of `splitatvalue` (`data.py:31-33`). -/
def leading (value : K) : List K → ℕ
  | [] => 0
  | s :: ss => if s < value then leading value ss + 1 else 0

/-- `splitatvalue` (`data.py:30-39`). -/
def splitatvalue (value : K) (splitpoints : List K) : Option ℕ × K :=
  let sec := leading value splitpoints
  (if splitpoints.length > 1 then (if sec % 2 = 1 then none else some (sec / 2)) else some sec, value)

/-- The value is between the split points with the numbers `n-1` and `n`: bigger than those before and lower than or equal to the one with the number `n`, if there is one. -/
def Between (value : K) (splitpoints : List K) (n : ℕ) : Prop :=
  n ≤ splitpoints.length ∧ (∀ (j : ℕ) (s : K), j < n → splitpoints[j]? = some s → s < value) ∧ ∀ s, splitpoints[n]? = some s → value ≤ s

theorem leading_between (value : K) (ss : List K) : Between value ss (leading value ss) := by
  induction ss with
  | nil => exact ⟨Nat.le_refl _, by simp [leading], by simp⟩
  | cons s ss ih =>
    unfold leading
    split
    · rename_i h
      obtain ⟨a, b, c⟩ := ih
      refine ⟨by simp; exact a, ?_, ?_⟩
      · intro j t hj ht
        cases j with
        | zero => simp only [List.getElem?_cons_zero, Option.some.injEq] at ht; rw [← ht]; exact h
        | succ j => exact b j t (by omega) (by simpa using ht)
      · intro t ht
        exact c t (by simpa using ht)
    · rename_i h
      refine ⟨Nat.zero_le _, by omega, ?_⟩
      intro t ht
      simp only [List.getElem?_cons_zero, Option.some.injEq] at ht
      rw [← ht]; exact not_lt.mp h

theorem between_unique (value : K) (ss : List K) (n m : ℕ) (hn : Between value ss n) (hm : Between value ss m) : n = m := by
  by_contra hne
  wlog h : n < m generalizing n m
  · exact this m n hm hn (Ne.symm hne) (by omega)
  · have hl : n < ss.length := by have := hm.1; omega
    have h1 := hm.2.1 n _ h (List.getElem?_eq_getElem hl)
    have h2 := hn.2.2 _ (List.getElem?_eq_getElem hl)
    exact absurd h1 (not_lt.mpr h2)

/-- **C75.**  The value is returned unchanged, and the section is as documented: for one split point 0 up to it and 1 beyond; for more, the values up to the first are in section 0,
those after an odd number of split points in no section, and those after `2 m` of them in section `m`. -/
theorem splitatvalue_spec (value : K) (ss : List K) : (splitatvalue value ss).2 = value ∧
    (ss.length ≤ 1 → ∀ n, (splitatvalue value ss).1 = some n ↔ Between value ss n) ∧
    (1 < ss.length → (∀ m, (splitatvalue value ss).1 = some m ↔ Between value ss (2 * m)) ∧ ((splitatvalue value ss).1 = none ↔ ∃ m, Between value ss (2 * m + 1))) := by
  have hb := leading_between value ss
  have hu := fun n hn => between_unique value ss n (leading value ss) hn hb
  refine ⟨rfl, ?_, ?_⟩
  · intro hl n
    unfold splitatvalue
    simp only
    rw [if_neg (by omega)]
    constructor
    · intro h; rw [← Option.some.inj h]; exact hb
    · intro h; rw [hu n h]
  · intro hl
    unfold splitatvalue
    simp only
    rw [if_pos hl]
    constructor
    · intro m
      split
      · rename_i hodd
        simp only [reduceCtorEq, false_iff]
        intro h
        have := hu _ h
        omega
      · rename_i hodd
        constructor
        · intro h
          have := Option.some.inj h
          rw [← this, show 2 * (leading value ss / 2) = leading value ss by omega]
          exact hb
        · intro h
          have := hu _ h
          congr 1
          omega
    · split
      · rename_i hodd
        simp only [true_iff]
        exact ⟨leading value ss / 2, by rw [show 2 * (leading value ss / 2) + 1 = leading value ss by omega]; exact hb⟩
      · rename_i hodd
        simp only [reduceCtorEq, false_iff, not_exists]
        intro m h
        have := hu _ h
        omega

end Sections

/-- Three sections by three split points. -/
example : ([(1 : ℤ), 2, 3, 4, 6].map fun v => (splitatvalue v [1, 2, 5]).1) = [some 0, none, some 1, some 1, none] := by decide +kernel

/-! ## Functions -/

section Sample
variable {K : Type*} [Field K] [LinearOrder K] [IsStrictOrderedRing K]

/-- `min + (max-min)*i / (n-1.0)` (`data.py:544, 580`). -/
def sample (lo hi : K) (n i : ℕ) : K := lo + (hi - lo) * i / ((n : K) - 1)

/-- The list of the arguments; `none` is the `ZeroDivisionError` for one point. -/
def samples (lo hi : K) (n : ℕ) : Option (List K) := if n = 1 then none else some ((List.range n).map (sample lo hi n))

theorem den_pos (n : ℕ) (hn : 2 ≤ n) : (0 : K) < (n : K) - 1 := by
  have : (2 : K) ≤ (n : K) := by exact_mod_cast hn
  linarith

/-- **C78.**  For at least two points there are as many arguments as points, the first is the minimum, the last the maximum, and the steps are equal. -/
theorem samples_spec (lo hi : K) (n : ℕ) (hn : 2 ≤ n) : ∃ xs, samples lo hi n = some xs ∧ xs.length = n ∧ xs[0]? = some lo ∧ xs[n - 1]? = some hi ∧
    ∀ (i : ℕ) (x y : K), xs[i]? = some x → xs[i + 1]? = some y → y - x = (hi - lo) / ((n : K) - 1) := by
  have hd := den_pos (K := K) n hn
  have hget : ∀ i, i < n → ((List.range n).map (sample lo hi n))[i]? = some (sample lo hi n i) := by
    intro i hi'
    rw [List.getElem?_map, List.getElem?_range hi']; rfl
  refine ⟨_, by unfold samples; rw [if_neg (by omega)], by simp, ?_, ?_, ?_⟩
  · rw [hget 0 (by omega)]; simp [sample]
  · rw [hget (n - 1) (by omega)]
    unfold sample
    rw [Nat.cast_sub (by omega), Nat.cast_one, mul_div_assoc, div_self hd.ne']
    congr 1; ring
  · intro i x y hx hy
    have hi1 : i + 1 < n := by
      have := (List.getElem?_eq_some_iff.mp hy).1
      simpa using this
    rw [hget i (by omega)] at hx
    rw [hget (i + 1) hi1] at hy
    obtain rfl := Option.some.inj hx
    obtain rfl := Option.some.inj hy
    unfold sample
    push_cast
    field_simp
    ring

/-- **C78.**  The arguments are increasing and in the range. -/
theorem samples_range (lo hi : K) (h : lo < hi) (n : ℕ) (hn : 2 ≤ n) (xs : List K) (hx : samples lo hi n = some xs) :
    xs.Pairwise (· < ·) ∧ ∀ x ∈ xs, lo ≤ x ∧ x ≤ hi := by
  have hd := den_pos (K := K) n hn
  unfold samples at hx
  rw [if_neg (by omega)] at hx
  obtain rfl := Option.some.inj hx
  have hmono : ∀ i j : ℕ, i < j → sample lo hi n i < sample lo hi n j := by
    intro i j hij
    unfold sample
    have hij' : (i : K) < j := by exact_mod_cast hij
    have : (hi - lo) * i / ((n : K) - 1) < (hi - lo) * j / ((n : K) - 1) := by
      apply div_lt_div_of_pos_right _ hd
      exact mul_lt_mul_of_pos_left hij' (by linarith)
    linarith
  constructor
  · rw [List.pairwise_map]
    exact List.pairwise_lt_range.imp (fun {a b} hab => hmono a b hab)
  · intro x hx
    rw [List.mem_map] at hx
    obtain ⟨i, hi', rfl⟩ := hx
    rw [List.mem_range] at hi'
    have h0 : sample lo hi n 0 = lo := by simp [sample]
    have h1 : sample lo hi n (n - 1) = hi := by
      unfold sample
      rw [Nat.cast_sub (by omega), Nat.cast_one, mul_div_assoc, div_self hd.ne']
      ring
    constructor
    · rcases Nat.eq_zero_or_pos i with rfl | hp
      · rw [h0]
      · exact h0.symm.le.trans (hmono 0 i hp).le
    · rcases Nat.lt_or_ge i (n - 1) with hlt | hge
      · exact (hmono i (n - 1) hlt).le.trans h1.le
      · have : i = n - 1 := by omega
        rw [this, h1]

/-- **C78.**  One point is an error. -/
theorem samples_one (lo hi : K) : samples lo hi 1 = none := by simp [samples]

/-- `dynamiccolumns` of `function` for a linear axis (`data.py:526-554`): the columns of the arguments and of the values. -/
def functionColumns {V : Type*} (f : K → Option V) (lo hi : K) (n : ℕ) : Option (List K × List (Option V)) :=
  (samples lo hi n).map fun xs => (xs, xs.map f)

/-- **C78.**  Each value is the value of the function for the argument in the same row, missing if there is none. -/
theorem function_spec {V : Type*} (f : K → Option V) (lo hi : K) (n : ℕ) (xs : List K) (ys : List (Option V)) (h : functionColumns f lo hi n = some (xs, ys)) :
    ys.length = xs.length ∧ ∀ (i : ℕ) (x : K), xs[i]? = some x → ys[i]? = some (f x) := by
  unfold functionColumns at h
  cases hs : samples lo hi n with
  | none => rw [hs] at h; simp at h
  | some xs' =>
    rw [hs] at h
    simp only [Option.map_some, Option.some.injEq, Prod.mk.injEq] at h
    obtain ⟨rfl, rfl⟩ := h
    refine ⟨by simp, fun i x hx => ?_⟩
    rw [List.getElem?_map, hx]; rfl

end Sample

/-- The arguments for a logarithmic axis (`data.py:540-546`): `none` is an error. -/
noncomputable def logSamples (lo hi : ℝ) (n : ℕ) : Option (List ℝ) :=
  if lo ≤ 0 ∨ hi ≤ 0 then none else (samples (Real.log lo) (Real.log hi) n).map fun xs => xs.map Real.exp

/-- **C78.**  On a logarithmic axis the arguments go from the minimum to the maximum with a constant quotient. -/
theorem logSamples_spec (lo hi : ℝ) (hlo : 0 < lo) (hhi : 0 < hi) (n : ℕ) (hn : 2 ≤ n) : ∃ xs, logSamples lo hi n = some xs ∧ xs.length = n ∧ xs[0]? = some lo ∧
    xs[n - 1]? = some hi ∧ ∀ (i : ℕ) (x y : ℝ), xs[i]? = some x → xs[i + 1]? = some y → 0 < x ∧ y / x = Real.exp (Real.log (hi / lo) / ((n : ℝ) - 1)) := by
  obtain ⟨xs, h1, h2, h3, h4, h5⟩ := samples_spec (Real.log lo) (Real.log hi) n hn
  refine ⟨xs.map Real.exp, ?_, by simp [h2], ?_, ?_, ?_⟩
  · unfold logSamples
    rw [if_neg (by push Not; exact ⟨hlo, hhi⟩), h1]
    rfl
  · rw [List.getElem?_map, h3, Option.map_some, Real.exp_log hlo]
  · rw [List.getElem?_map, h4, Option.map_some, Real.exp_log hhi]
  · intro i x y hx hy
    rw [List.getElem?_map] at hx hy
    obtain ⟨x', hx1, rfl⟩ := Option.map_eq_some_iff.mp hx
    obtain ⟨y', hy1, rfl⟩ := Option.map_eq_some_iff.mp hy
    refine ⟨Real.exp_pos _, ?_⟩
    rw [← Real.exp_sub, h5 i x' y' hx1 hy1, Real.log_div hhi.ne' hlo.ne']

/-! ## Parametric functions -/

section Param
variable {α V K : Type*} [DecidableEq α] [Field K] [LinearOrder K] [IsStrictOrderedRing K]

/-- `self.columns[key].append(value)`. -/
def appendTo (cols : Dict α (List V)) (kv : α × V) : Dict α (List V) := dset cols kv.1 ((dget cols kv.1).getD [] ++ [kv.2])

/-- `for key, value in zip(keys, values)` (`data.py:583-584`). -/
def appendRow (ks : List α) (cols : Dict α (List V)) (vals : List V) : Dict α (List V) := (ks.zip vals).foldl appendTo cols

/-- `paramfunction.__init__` (`data.py:577-587`): the expression gives a list of values; the number of values is compared with the number of names for the last point only.  `none` is
an error (also for no points, where there are no values to compare). -/
def paramColumns (f : K → List V) (ks : List α) (lo hi : K) (n : ℕ) : Option (Dict α (List V)) :=
  match samples lo hi n with
  | none => none
  | some xs =>
    match xs.getLast? with
    | none => none
    | some last => if (f last).length ≠ ks.length then none
      else some (xs.foldl (fun cols x => appendRow ks cols (f x)) (ks.map fun k => (k, [])))

theorem appendRow_get (ks : List α) (hk : ks.Nodup) (cols : Dict α (List V)) (vals : List V) (hl : vals.length = ks.length) (i : ℕ) (k : α) (v : V) (hki : ks[i]? = some k)
    (hvi : vals[i]? = some v) : dget (appendRow ks cols vals) k = some ((dget cols k).getD [] ++ [v]) := by
  have other : ∀ (ks : List α) (vals : List V) (cols : Dict α (List V)), k ∉ ks → dget (appendRow ks cols vals) k = dget cols k := by
    intro ks
    induction ks with
    | nil => intro vals cols _; rfl
    | cons a ks ih =>
      intro vals cols hnot
      cases vals with
      | nil => rfl
      | cons b vals =>
        unfold appendRow
        rw [List.zip_cons_cons, List.foldl_cons]
        have := ih vals (appendTo cols (a, b)) (fun hm => hnot (List.mem_cons_of_mem _ hm))
        unfold appendRow at this
        rw [this]
        unfold appendTo
        rw [dget_dset, if_neg]
        rintro rfl
        exact hnot List.mem_cons_self
  induction ks generalizing i vals cols with
  | nil => simp at hki
  | cons a ks ih =>
    cases vals with
    | nil => simp at hvi
    | cons b vals =>
      rw [List.nodup_cons] at hk
      unfold appendRow
      rw [List.zip_cons_cons, List.foldl_cons]
      cases i with
      | zero =>
        simp only [List.getElem?_cons_zero, Option.some.injEq] at hki hvi
        subst hki; subst hvi
        have := other ks vals (appendTo cols (a, b)) hk.1
        unfold appendRow at this
        rw [this]
        unfold appendTo
        rw [dget_dset, if_pos rfl]
      | succ i =>
        simp only [List.getElem?_cons_succ] at hki hvi
        have := ih hk.2 (appendTo cols (a, b)) vals (by simpa using hl) i hki hvi
        unfold appendRow at this
        rw [this]
        have hne : a ≠ k := by
          rintro rfl
          exact hk.1 (List.mem_of_getElem? hki)
        unfold appendTo
        rw [dget_dset, if_neg hne]

theorem dget_empty (ks : List α) (k : α) (hk : k ∈ ks) : dget (ks.map fun k => (k, ([] : List V))) k = some [] := by
  induction ks with
  | nil => simp at hk
  | cons a ks ih =>
    simp only [List.map_cons, dget]
    by_cases h : a = k
    · simp [h]
    · simp only [h, if_false]
      exact ih ((List.mem_cons.mp hk).resolve_left (fun e => h e.symm))

theorem foldl_rows (f : K → List V) (ks : List α) (hk : ks.Nodup) (xs : List K) (hf : ∀ x ∈ xs, (f x).length = ks.length) (i : ℕ) (k : α) (hki : ks[i]? = some k)
    (cols : Dict α (List V)) (col0 : List V) (hc : dget cols k = some col0) :
    dget (xs.foldl (fun cols x => appendRow ks cols (f x)) cols) k = some (col0 ++ xs.filterMap fun x => (f x)[i]?) := by
  induction xs generalizing cols col0 with
  | nil => simpa using hc
  | cons x xs ih =>
    rw [List.foldl_cons]
    have hl := hf x List.mem_cons_self
    have hil : i < (f x).length := by rw [hl]; exact (List.getElem?_eq_some_iff.mp hki).1
    have hv : (f x)[i]? = some (f x)[i] := List.getElem?_eq_getElem hil
    have h1 := appendRow_get ks hk cols (f x) hl i k _ hki hv
    rw [hc] at h1
    rw [ih (fun x hx => hf x (List.mem_cons_of_mem _ hx)) _ _ h1]
    simp [hv]

/-- **C78.**  The columns of a parametric function with tuples of the right size: for each name the values at its position, for the equally spaced parameters. -/
theorem param_spec (f : K → List V) (ks : List α) (hk : ks.Nodup) (lo hi : K) (n : ℕ) (hn : 2 ≤ n) (hf : ∀ x, (f x).length = ks.length) :
    ∃ xs cols, samples lo hi n = some xs ∧ paramColumns f ks lo hi n = some cols ∧
      ∀ (i : ℕ) (k : α), ks[i]? = some k → ∃ col, dget cols k = some col ∧ col.length = n ∧ ∀ (j : ℕ) (x : K), xs[j]? = some x → col[j]? = (f x)[i]? := by
  obtain ⟨xs, h1, h2, _⟩ := samples_spec lo hi n hn
  have hne : xs ≠ [] := by
    rintro rfl; simp at h2; omega
  refine ⟨xs, xs.foldl (fun cols x => appendRow ks cols (f x)) (ks.map fun k => (k, [])), h1, ?_, ?_⟩
  · unfold paramColumns
    rw [h1]
    simp only
    rw [List.getLast?_eq_some_getLast hne]
    simp only
    rw [if_neg (by rw [hf]; simp)]
  · intro i k hki
    have hil : ∀ x, i < (f x).length := fun x => by rw [hf]; exact (List.getElem?_eq_some_iff.mp hki).1
    have hfm : (xs.filterMap fun x => (f x)[i]?) = xs.map fun x => (f x)[i]'(hil x) := by
      rw [← List.filterMap_eq_map]
      apply List.filterMap_congr
      intro x _
      simp [List.getElem?_eq_getElem (hil x)]
    refine ⟨_, foldl_rows f ks hk xs (fun x _ => hf x) i k hki _ [] (dget_empty ks k (List.mem_of_getElem? hki)), ?_, ?_⟩
    · rw [hfm]; simp [h2]
    · intro j x hx
      rw [hfm, List.nil_append, List.getElem?_map, hx, Option.map_some, List.getElem?_eq_getElem (hil x)]

end Param

/-- The number of values is tested for the last point only: a function that gives a value too few before makes columns of different lengths. -/
theorem param_uneven : paramColumns (K := ℚ) (V := ℕ) (fun x => if x = 1 then [1, 2] else [1]) ['x', 'y'] 0 1 2 = some [('x', [1, 1]), ('y', [2])] := by
  decide +kernel

end PyX.Data
