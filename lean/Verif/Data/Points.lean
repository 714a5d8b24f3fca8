import Verif.Util.Dict
import Mathlib.Algebra.BigOperators.Group.List.Basic
import Mathlib.Tactic.Push
import Mathlib.Data.List.Dedup
import Mathlib.Data.List.Perm.Subperm

/-!
# Data from points and joined data (`pyx/graph/data.py:109-147, 600-630`)
-/

set_option linter.unusedSectionVars false

namespace PyX.Data

open PyX.Util PyX.Util.Dict

variable {α V : Type*} [DecidableEq α]

/-- `l[i]` for a Python list, with negative indices counted from the end; `none` is the `IndexError`. -/
def pyIndex {β : Type*} (l : List β) (i : ℤ) : Option β :=
  if 0 ≤ i then l[i.toNat]? else if -i ≤ l.length then l[l.length - (-i).toNat]? else none

/-- The data of an instance: numbered columns (if any) and named columns. -/
structure Table (α V : Type*) where
  columndata : Option (List (List V))
  columns : Dict α (List V)

/-! ## `values` -/

/-- `values.__init__` (`data.py:113-121`): the lengths are compared with the one before. -/
def values (cols : Dict α (List V)) : Option (Table α V) :=
  match cols with
  | [] => some ⟨none, []⟩
  | c :: cs => if cs.all (fun d => d.2.length == c.2.length) then some ⟨none, c :: cs⟩ else none

/-! ## `points` -/

/-- The loop over the points (`data.py:133-137`). -/
def addPoints (l : ℕ) (cd : List (List V)) : List (List V) → Option (List (List V))
  | [] => some cd
  | p :: ps => if l ≠ p.length then none else addPoints l (List.zipWith (fun col x => col ++ [x]) cd p) ps

/-- The test of the column numbers (`data.py:138-140`). -/
def badNumber (addlinenumbers : Bool) (l : ℕ) (v : ℤ) : Bool := decide (v.natAbs > l) || (!addlinenumbers && decide (v.natAbs = l))

/-- `dict([(key, columndata[i]) for key, i in columns.items()])`. -/
def pick (cd : List (List V)) : Dict α ℤ → Option (Dict α (List V))
  | [] => some []
  | (k, i) :: cs => (pyIndex cd i).bind fun col => (pick cd cs).map fun d => (k, col) :: d

/-- `points.__init__` (`data.py:129-147`); `num n` is the number `n`. -/
def points (num : ℕ → V) (pts : List (List V)) (addlinenumbers : Bool) (cols : Dict α ℤ) : Option (Table α V) :=
  match pts with
  | [] => some ⟨none, cols.map fun c => (c.1, [])⟩
  | p :: ps =>
    match addPoints p.length (p.map fun x => [x]) ps with
    | none => none
    | some cd =>
      if cols.any (fun c => badNumber addlinenumbers p.length c.2) then none
      else
        let cd' := if addlinenumbers then (List.range (ps.length + 1)).map (fun i => num (i + 1)) :: cd else cd
        (pick cd' cols).map fun d => ⟨some cd', d⟩

/-! ## `join` -/

/-- `merge_lists`: each item once (`data.py:603-608`); the order is that of the first occurrences (in the code it is arbitrary). -/
def mergeLists (ls : List (List α)) : List α := ls.flatten.dedup

/-- The number of rows of a dictionary of columns: the length of the first one (`data.py:619-624`). -/
def rowCount (d : Dict α (List V)) : ℕ :=
  match d with
  | [] => 0
  | c :: _ => c.2.length

/-- `empties` (`data.py:614-624`); `none` is the `None` that "won't be needed later on". -/
def empty (missing : V) (keys : List α) (d : Dict α (List V)) : Option (List V) :=
  if d.length = keys.length then none else some (List.replicate (rowCount d) missing)

/-- The column for a key (`data.py:627-629`); extending by `None` raises. -/
def joinColumn (missing : V) (keys : List α) (key : α) : List (Dict α (List V)) → Option (List V)
  | [] => some []
  | d :: ds => ((dget d key).or (empty missing keys d)).bind fun x => (joinColumn missing keys key ds).map fun y => x ++ y

/-- The loop over the keys (`data.py:625-630`). -/
def joinKeys (missing : V) (keys : List α) (ds : List (Dict α (List V))) : List α → Option (Dict α (List V))
  | [] => some []
  | k :: ks => (joinColumn missing keys k ds).bind fun c => (joinKeys missing keys ds ks).map fun r => (k, c) :: r

/-- `merge_dicts` (`data.py:610-630`). -/
def mergeDicts (missing : V) (ds : List (Dict α (List V))) : Option (Dict α (List V)) :=
  let ks := mergeLists (ds.map keys)
  joinKeys missing ks ds ks

/-! ## Specification -/

/-- The columns have all the same length. -/
def Even (d : Dict α (List V)) (n : ℕ) : Prop := ∀ k col, dget d k = some col → col.length = n

/-- The row of a point: with the line number in front if wanted. -/
def fullRow (num : ℕ → V) (addlinenumbers : Bool) (j : ℕ) (row : List V) : List V := if addlinenumbers then num (j + 1) :: row else row

/-! ## Proof: points -/

theorem addPoints_spec (l : ℕ) (rows done : List (List V)) (cd : List (List V)) (hlen : cd.length = l)
    (hcd : ∀ (c : ℕ) (col : List V), cd[c]? = some col → col.length = done.length ∧ ∀ (j : ℕ) (row : List V), done[j]? = some row → col[j]? = row[c]?)
    (hdone : ∀ r ∈ done, r.length = l) :
    (∀ r ∈ rows, r.length = l) → ∃ cd', addPoints l cd rows = some cd' ∧ cd'.length = l ∧
      ∀ (c : ℕ) (col : List V), cd'[c]? = some col → col.length = (done ++ rows).length ∧ ∀ (j : ℕ) (row : List V), (done ++ rows)[j]? = some row → col[j]? = row[c]? := by
  induction rows generalizing done cd with
  | nil => intro _; exact ⟨cd, rfl, hlen, by simpa using hcd⟩
  | cons p ps ih =>
    intro hall
    have hp : p.length = l := hall p List.mem_cons_self
    have h := ih (done ++ [p]) (List.zipWith (fun col x => col ++ [x]) cd p) (by simp [hlen, hp]) ?_ ?_ (fun r hr => hall r (List.mem_cons_of_mem _ hr))
    · obtain ⟨cd', h1, h2, h3⟩ := h
      refine ⟨cd', ?_, h2, ?_⟩
      · unfold addPoints
        rw [if_neg (by simp [hp])]
        exact h1
      · simpa using h3
    · intro c col hc
      rw [List.getElem?_zipWith] at hc
      cases h1 : cd[c]? with
      | none => rw [h1] at hc; simp at hc
      | some col0 =>
        cases h2 : p[c]? with
        | none => rw [h1, h2] at hc; simp at hc
        | some x =>
          rw [h1, h2] at hc
          simp only [Option.some.injEq] at hc
          subst hc
          obtain ⟨a, b⟩ := hcd c col0 h1
          refine ⟨by simp [a], ?_⟩
          intro j row hj
          rw [List.getElem?_append] at hj
          split at hj
          · rename_i hlt
            rw [List.getElem?_append_left (by omega)]
            exact b j row hj
          · rename_i hlt
            obtain ⟨e0, e⟩ : j - done.length = 0 ∧ p = row := by
              cases hh : j - done.length with
              | zero => rw [hh] at hj; simpa using hj
              | succ k => rw [hh] at hj; simp at hj
            subst e
            have : j = col0.length := by omega
            rw [this, List.getElem?_concat_length, h2]
    · intro r hr
      rw [List.mem_append, List.mem_singleton] at hr
      rcases hr with hr | rfl
      · exact hdone r hr
      · exact hp

theorem addPoints_none (l : ℕ) (rows cd : List (List V)) (h : ∃ r ∈ rows, r.length ≠ l) : addPoints l cd rows = none := by
  induction rows generalizing cd with
  | nil => simp at h
  | cons p ps ih =>
    unfold addPoints
    by_cases hp : l ≠ p.length
    · rw [if_pos hp]
    · rw [if_neg hp]
      push Not at hp
      apply ih
      obtain ⟨r, hr, hne⟩ := h
      rcases List.mem_cons.mp hr with rfl | hr
      · exact absurd hp.symm hne
      · exact ⟨r, hr, hne⟩

theorem getElem_isSome {β : Type*} (l : List β) (n : ℕ) : (l[n]?).isSome ↔ n < l.length := by simp

theorem pyIndex_isSome {β : Type*} (l : List β) (i : ℤ) : (pyIndex l i).isSome ↔ -(l.length : ℤ) ≤ i ∧ i < l.length := by
  unfold pyIndex
  split
  · rename_i h
    rw [getElem_isSome]
    omega
  · rename_i h
    split
    · rename_i h2
      rw [getElem_isSome]
      omega
    · simp; omega

/-- Numbers count from the begin, negative ones from the end. -/
theorem pyIndex_counts {β : Type*} (a b : List β) (x : β) : pyIndex (a ++ x :: b) a.length = some x ∧ pyIndex (a ++ x :: b) (-(b.length + 1)) = some x := by
  constructor
  · simp [pyIndex]
  · unfold pyIndex
    rw [if_neg (by omega), if_pos (by simp; omega)]
    have : (a ++ x :: b).length - (- -((b.length : ℤ) + 1)).toNat = a.length := by
      simp only [List.length_append, List.length_cons]; omega
    rw [this]
    simp

theorem pick_spec (cd : List (List V)) (cols : Dict α ℤ) (h : ∀ c ∈ cols, (pyIndex cd c.2).isSome) :
    ∃ d, pick cd cols = some d ∧ keys d = keys cols ∧ ∀ k, dget d k = (dget cols k).bind (pyIndex cd) := by
  induction cols with
  | nil => exact ⟨[], rfl, rfl, fun k => rfl⟩
  | cons c cs ih =>
    obtain ⟨d, h1, h2, h3⟩ := ih (fun c hc => h c (List.mem_cons_of_mem _ hc))
    obtain ⟨col, hcol⟩ := Option.isSome_iff_exists.mp (h c List.mem_cons_self)
    refine ⟨(c.1, col) :: d, ?_, ?_, ?_⟩
    · obtain ⟨k, i⟩ := c
      simp only at hcol
      simp [pick, hcol, h1]
    · simp only [keys, List.map_cons] at h2 ⊢
      rw [h2]
    · intro k
      obtain ⟨k', i⟩ := c
      simp only [dget]
      by_cases hk : k' = k
      · simp only [hk, if_true, Option.bind_some]
        exact hcol.symm
      · simp only [hk, if_false]
        exact h3 k

/-- Python indexing in the columns and in the rows is the same. -/
theorem pyIndex_column (cd rows : List (List V)) (L : ℕ) (hcd : cd.length = L) (hrows : ∀ r ∈ rows, r.length = L)
    (h : ∀ (c : ℕ) (col : List V), cd[c]? = some col → col.length = rows.length ∧ ∀ (j : ℕ) (row : List V), rows[j]? = some row → col[j]? = row[c]?)
    (i : ℤ) (col : List V) (hi : pyIndex cd i = some col) : col.length = rows.length ∧ ∀ (j : ℕ) (row : List V), rows[j]? = some row → col[j]? = pyIndex row i := by
  unfold pyIndex at hi
  split at hi
  · rename_i h0
    obtain ⟨a, b⟩ := h _ col hi
    refine ⟨a, fun j row hj => ?_⟩
    rw [b j row hj]
    unfold pyIndex
    rw [if_pos h0]
  · rename_i h0
    split at hi
    · rename_i h1
      obtain ⟨a, b⟩ := h _ col hi
      refine ⟨a, fun j row hj => ?_⟩
      have hl := hrows row (List.mem_of_getElem? hj)
      rw [b j row hj]
      unfold pyIndex
      rw [if_neg h0, if_pos (by omega), hl, hcd]
    · simp at hi

/-- The condition of the test of the column numbers. -/
theorem badNumber_iff (add : Bool) (l : ℕ) (v : ℤ) : badNumber add l v = false ↔ v.natAbs < l + (if add then 1 else 0) := by
  unfold badNumber
  cases add <;> simp <;> omega

/-- **C76.**  A list of points (at least one) is accepted exactly if the points have the same number of values and the column numbers exist (with negative numbers counted from the
end, up to the first value).  Then the columns have exactly the wanted names, each has one value per point, and the value for a point is that with the column number in the row
of the point, with the line number in front if wanted.  The numbered columns are those of these rows. -/
theorem points_spec (num : ℕ → V) (p : List V) (ps : List (List V)) (add : Bool) (cols : Dict α ℤ) :
    ((∀ r ∈ ps, r.length = p.length) ∧ (∀ c ∈ cols, c.2.natAbs < p.length + (if add then 1 else 0)) →
      ∃ t, points num (p :: ps) add cols = some t ∧ keys t.columns = keys cols ∧
        (∃ cd, t.columndata = some cd ∧ cd.length = p.length + (if add then 1 else 0) ∧ (∀ k i, dget cols k = some i → dget t.columns k = pyIndex cd i) ∧
          ∀ (c : ℕ) (col : List V), cd[c]? = some col → col.length = (p :: ps).length ∧
            ∀ (j : ℕ) (row : List V), (p :: ps)[j]? = some row → col[j]? = (fullRow num add j row)[c]?) ∧
        ∀ k i, dget cols k = some i → ∃ col, dget t.columns k = some col ∧ col.length = (p :: ps).length ∧
          ∀ (j : ℕ) (row : List V), (p :: ps)[j]? = some row → col[j]? = pyIndex (fullRow num add j row) i) ∧
    (¬ ((∀ r ∈ ps, r.length = p.length) ∧ ∀ c ∈ cols, c.2.natAbs < p.length + (if add then 1 else 0)) → points num (p :: ps) add cols = none) := by
  constructor
  · rintro ⟨hr, hc⟩
    obtain ⟨cd, h1, h2, h3⟩ := addPoints_spec p.length ps [p] (p.map fun x => [x]) (by simp) (by
      intro c col hcol
      rw [List.getElem?_map] at hcol
      cases hx : p[c]? with
      | none => rw [hx] at hcol; simp at hcol
      | some x =>
        rw [hx] at hcol
        simp only [Option.map_some, Option.some.injEq] at hcol
        subst hcol
        refine ⟨rfl, fun j row hj => ?_⟩
        cases j with
        | zero => simp only [List.getElem?_cons_zero, Option.some.injEq] at hj; subst hj; rw [hx]; rfl
        | succ j => simp at hj) (by simp) hr
    have hany : cols.any (fun c => badNumber add p.length c.2) = false := by
      rw [List.any_eq_false]
      intro c hcm
      simpa using (badNumber_iff add p.length c.2).mpr (hc c hcm)
    -- the columns with the line numbers
    obtain ⟨cd', hcd', hl', hcol'⟩ : ∃ cd', (if add then (List.range (ps.length + 1)).map (fun i => num (i + 1)) :: cd else cd) = cd' ∧
        cd'.length = p.length + (if add then 1 else 0) ∧
        ∀ (c : ℕ) (col : List V), cd'[c]? = some col → col.length = ((p :: ps).mapIdx (fullRow num add)).length ∧
          ∀ (j : ℕ) (row : List V), ((p :: ps).mapIdx (fullRow num add))[j]? = some row → col[j]? = row[c]? := by
      refine ⟨_, rfl, ?_, ?_⟩
      · cases add <;> simp [h2]
      · intro c col hcol
        have hj0 : ∀ (j : ℕ) (row : List V), ((p :: ps).mapIdx (fullRow num add))[j]? = some row → ∃ r0, (p :: ps)[j]? = some r0 ∧ row = fullRow num add j r0 := by
          intro j row hj
          rw [List.getElem?_mapIdx] at hj
          cases hr0 : (p :: ps)[j]? with
          | none => rw [hr0] at hj; simp at hj
          | some r0 => rw [hr0] at hj; exact ⟨r0, rfl, by simpa using hj.symm⟩
        cases add with
        | false =>
          simp only [Bool.false_eq_true, if_false] at hcol
          obtain ⟨a, b⟩ := h3 c col hcol
          refine ⟨by simpa using a, fun j row hj => ?_⟩
          obtain ⟨r0, e1, e2⟩ := hj0 j row hj
          rw [e2]
          simpa [fullRow] using b j r0 e1
        | true =>
          simp only [if_true] at hcol
          cases c with
          | zero =>
            simp only [List.getElem?_cons_zero, Option.some.injEq] at hcol
            subst hcol
            refine ⟨by simp, fun j row hj => ?_⟩
            obtain ⟨r0, e1, rfl⟩ := hj0 j row hj
            have hjl : j < (p :: ps).length := (List.getElem?_eq_some_iff.mp e1).1
            simp only [List.length_cons] at hjl
            simp [fullRow, List.getElem?_range hjl]
          | succ c =>
            simp only [List.getElem?_cons_succ] at hcol
            obtain ⟨a, b⟩ := h3 c col hcol
            refine ⟨by simpa using a, fun j row hj => ?_⟩
            obtain ⟨r0, e1, rfl⟩ := hj0 j row hj
            simpa [fullRow] using b j r0 e1
    have hrl : ∀ r ∈ (p :: ps).mapIdx (fullRow num add), r.length = p.length + (if add then 1 else 0) := by
      intro r hrm
      rw [List.mem_mapIdx] at hrm
      obtain ⟨j, hj, rfl⟩ := hrm
      have hm : (p :: ps)[j].length = p.length := by
        rcases List.mem_cons.mp (List.getElem_mem hj) with e | e
        · rw [e]
        · exact hr _ e
      cases add <;> simp [fullRow, hm]
    obtain ⟨d, hd1, hd2, hd3⟩ := pick_spec cd' cols (fun c hcm => by
      rw [pyIndex_isSome, hl']
      have := hc c hcm
      omega)
    refine ⟨⟨some cd', d⟩, ?_, hd2, ⟨cd', rfl, hl', fun k i hk => by rw [hd3, hk]; rfl, fun c col hc => ?_⟩, ?_⟩
    · unfold points
      simp only
      rw [h1]
      simp only
      rw [if_neg (by rw [hany]; simp), hcd', hd1]
      rfl
    · obtain ⟨a, b⟩ := hcol' c col hc
      refine ⟨by simpa using a, fun j row hj => b j _ (by rw [List.getElem?_mapIdx, hj]; rfl)⟩
    · intro k i hk
      have hcm : (k, i) ∈ cols := mem_of_dget cols k i hk
      have hs : (pyIndex cd' i).isSome := by
        rw [pyIndex_isSome, hl']
        have := hc (k, i) hcm
        omega
      obtain ⟨col, hcol⟩ := Option.isSome_iff_exists.mp hs
      obtain ⟨a, b⟩ := pyIndex_column cd' _ _ hl' hrl hcol' i col hcol
      refine ⟨col, by rw [hd3, hk]; exact hcol, by simpa using a, fun j row hj => ?_⟩
      exact b j _ (by rw [List.getElem?_mapIdx, hj]; rfl)
  · intro hneg
    unfold points
    simp only
    by_cases hr : ∀ r ∈ ps, r.length = p.length
    · have hcx : ¬ ∀ c ∈ cols, c.2.natAbs < p.length + (if add then 1 else 0) := fun h => hneg ⟨hr, h⟩
      push Not at hcx
      obtain ⟨c, hcm, hge⟩ := hcx
      cases addPoints p.length (p.map fun x => [x]) ps with
      | none => rfl
      | some cd =>
        simp only
        rw [if_pos]
        rw [List.any_eq_true]
        refine ⟨c, hcm, ?_⟩
        by_contra hb
        have := (badNumber_iff add p.length c.2).mp (by simpa using hb)
        omega
    · push Not at hr
      rw [addPoints_none p.length ps _ hr]

/-- **C76.**  No points: the columns are empty. -/
theorem points_nil (num : ℕ → V) (add : Bool) (cols : Dict α ℤ) : ∃ t, points num [] add cols = some t ∧ keys t.columns = keys cols ∧ ∀ k col, dget t.columns k = some col → col = [] := by
  refine ⟨_, rfl, by simp [keys], ?_⟩
  intro k col h
  have := mem_of_dget _ _ _ h
  simp only [List.mem_map, Prod.mk.injEq] at this
  obtain ⟨c, _, _, e⟩ := this
  exact e.symm

/-- **C76.**  User provided columns are accepted exactly if they have the same number of values; they are kept. -/
theorem values_spec (cols : Dict α (List V)) :
    (∀ t, values cols = some t → t.columns = cols) ∧ ((values cols).isSome ↔ ∃ n, ∀ c ∈ cols, c.2.length = n) := by
  unfold values
  cases cols with
  | nil => simp
  | cons c cs =>
    simp only
    constructor
    · intro t ht
      split at ht
      · simp only [Option.some.injEq] at ht; rw [← ht]
      · simp at ht
    · split
      · rename_i h
        simp only [Option.isSome_some, true_iff]
        refine ⟨c.2.length, fun d hd => ?_⟩
        rcases List.mem_cons.mp hd with rfl | hd
        · rfl
        · simpa using List.all_eq_true.mp h d hd
      · rename_i h
        simp only [Option.isSome_none, Bool.false_eq_true, false_iff, not_exists]
        intro n hn
        apply h
        rw [List.all_eq_true]
        intro d hd
        simp [hn c List.mem_cons_self, hn d (List.mem_cons_of_mem _ hd)]

/-- Two points with a column counted from the end. -/
example : (points (fun n => n) [[7, 8], [9, 10]] true [('x', 0), ('y', -1)]).map (·.columns) = some [('x', [1, 2]), ('y', [8, 10])] := by rfl

/-! ## Proof: join -/

theorem mem_mergeLists (ls : List (List α)) (k : α) : k ∈ mergeLists ls ↔ ∃ l ∈ ls, k ∈ l := by
  unfold mergeLists
  rw [List.mem_dedup, List.mem_flatten]

theorem rowCount_even (d : Dict α (List V)) (n : ℕ) (h : Even d n) (hd : d ≠ []) : rowCount d = n := by
  obtain ⟨c, cs, rfl⟩ := List.exists_cons_of_ne_nil hd
  exact h c.1 c.2 (by simp [dget])

/-- The part of a column from one data set. -/
def part (missing : V) (d : Dict α (List V)) (key : α) : List V := (dget d key).getD (List.replicate (rowCount d) missing)

theorem joinColumn_spec (missing : V) (ks : List α) (key : α) (hkey : key ∈ ks) (ds : List (Dict α (List V)))
    (hn : ∀ d ∈ ds, (keys d).Nodup) (hsub : ∀ d ∈ ds, ∀ k ∈ keys d, k ∈ ks) :
    joinColumn missing ks key ds = some ((ds.map fun d => part missing d key).flatten) := by
  induction ds with
  | nil => rfl
  | cons d ds ih =>
    have h := ih (fun d hd => hn d (List.mem_cons_of_mem _ hd)) (fun d hd => hsub d (List.mem_cons_of_mem _ hd))
    have hor : (dget d key).or (empty missing ks d) = some (part missing d key) := by
      unfold part
      cases hg : dget d key with
      | some x => simp
      | none =>
        simp only [Option.none_or, Option.getD_none]
        unfold empty
        rw [if_neg]
        intro hlen
        have hnot : key ∉ keys d := by
          rw [mem_keys, hg]; simp
        have hkl : (keys d).length = ks.length := by simpa [keys] using hlen
        have hsp := (hn d List.mem_cons_self).subperm (hsub d List.mem_cons_self)
        have hperm := hsp.perm_of_length_le (by omega)
        exact hnot (hperm.mem_iff.mpr hkey)
    unfold joinColumn
    rw [hor, h]
    rfl

theorem joinKeys_spec (missing : V) (ks : List α) (ds : List (Dict α (List V))) (todo : List α)
    (h : ∀ k ∈ todo, joinColumn missing ks k ds = some ((ds.map fun d => part missing d k).flatten)) :
    ∃ r, joinKeys missing ks ds todo = some r ∧ keys r = todo ∧ ∀ k ∈ todo, dget r k = some ((ds.map fun d => part missing d k).flatten) := by
  induction todo with
  | nil => exact ⟨[], rfl, rfl, by simp⟩
  | cons k todo ih =>
    obtain ⟨r, h1, h2, h3⟩ := ih (fun k hk => h k (List.mem_cons_of_mem _ hk))
    refine ⟨(k, (ds.map fun d => part missing d k).flatten) :: r, ?_, ?_, ?_⟩
    · unfold joinKeys
      rw [h k List.mem_cons_self, h1]
      rfl
    · simp only [keys, List.map_cons] at h2 ⊢
      rw [h2]
    · intro k' hk'
      simp only [dget]
      by_cases e : k = k'
      · simp [e]
      · simp only [e, if_false]
        rcases List.mem_cons.mp hk' with rfl | hk'
        · exact absurd rfl e
        · exact h3 k' hk'

/-- **C57.**  Joining data sets never fails: the names of the columns are those of all data sets, and each column is made of the columns with its name one after the other, with missing
values for the rows of the data sets without it. -/
theorem join_spec (missing : V) (ds : List (Dict α (List V))) (hn : ∀ d ∈ ds, (keys d).Nodup) :
    ∃ r, mergeDicts missing ds = some r ∧ (keys r).Nodup ∧ (∀ k, k ∈ keys r ↔ ∃ d ∈ ds, k ∈ keys d) ∧
      ∀ k ∈ keys r, dget r k = some ((ds.map fun d => part missing d k).flatten) := by
  have hks : (mergeLists (ds.map keys)).Nodup := List.nodup_dedup _
  have hmem : ∀ k, k ∈ mergeLists (ds.map keys) ↔ ∃ d ∈ ds, k ∈ keys d := by
    intro k
    rw [mem_mergeLists]
    simp
  obtain ⟨r, h1, h2, h3⟩ := joinKeys_spec missing (mergeLists (ds.map keys)) ds (mergeLists (ds.map keys)) (fun k hk =>
    joinColumn_spec missing _ k hk ds hn (fun d hd k hk => (hmem k).mpr ⟨d, hd, hk⟩))
  exact ⟨r, h1, by rw [h2]; exact hks, by rw [h2]; exact hmem, by rw [h2]; exact h3⟩

/-- **C57.**  If the columns of each data set have the same length then the joined columns have the total number of rows, and each row of each data set is a row of the result with
its values, and with missing values for the columns that its data set lacks. -/
theorem join_rows (missing : V) (ds : List (Dict α (List V))) (hn : ∀ d ∈ ds, (keys d).Nodup) (heven : ∀ d ∈ ds, Even d (rowCount d)) (r : Dict α (List V))
    (h : mergeDicts missing ds = some r) :
    (∀ k col, dget r k = some col → col.length = (ds.map rowCount).sum) ∧
    ∀ (before after : List (Dict α (List V))) (d : Dict α (List V)), ds = before ++ d :: after → ∀ j < rowCount d, ∀ k col, dget r k = some col →
      col[(before.map rowCount).sum + j]? = some (((dget d k).bind (·[j]?)).getD missing) := by
  obtain ⟨r', h1, _, _, h4⟩ := join_spec missing ds hn
  rw [h1] at h
  simp only [Option.some.injEq] at h
  subst h
  have hpl : ∀ d ∈ ds, ∀ k, (part missing d k).length = rowCount d := by
    intro d hd k
    unfold part
    cases hg : dget d k with
    | none => simp
    | some col => simpa using heven d hd k col hg
  have hlen : ∀ (l : List (Dict α (List V))) (k : α), (∀ d ∈ l, d ∈ ds) → ((l.map fun d => part missing d k).flatten).length = (l.map rowCount).sum := by
    intro l k hl
    induction l with
    | nil => rfl
    | cons d l ih =>
      simp only [List.map_cons, List.flatten_cons, List.length_append, List.sum_cons]
      rw [ih (fun d hd => hl d (List.mem_cons_of_mem _ hd)), hpl d (hl d List.mem_cons_self)]
  have hcol : ∀ k col, dget r' k = some col → col = (ds.map fun d => part missing d k).flatten := by
    intro k col hk
    have : k ∈ keys r' := by rw [mem_keys, hk]; rfl
    rw [h4 k this] at hk
    exact (Option.some.inj hk).symm
  constructor
  · intro k col hk
    rw [hcol k col hk]
    exact hlen ds k (fun d hd => hd)
  · intro before after d hds j hj k col hk
    rw [hcol k col hk, hds]
    have hb := hlen before k (fun d' hd' => by rw [hds]; exact List.mem_append_left _ hd')
    have hd : d ∈ ds := by rw [hds]; simp
    simp only [List.map_append, List.map_cons, List.flatten_append, List.flatten_cons]
    rw [List.getElem?_append_right (by omega), hb, Nat.add_sub_cancel_left, List.getElem?_append_left (by rw [hpl d hd k]; exact hj)]
    unfold part
    cases hg : dget d k with
    | none => simp [hj]
    | some c =>
      have hc := heven d hd k c hg
      simp only [Option.getD_some, Option.bind_some]
      rw [List.getElem?_eq_getElem (by omega)]
      rfl

/-- A data set without the second column. -/
example : mergeDicts (none : Option ℕ) [[('x', [some 1]), ('y', [some 2])], [('x', [some 3, some 4])]] =
    some [('y', [some 2, none, none]), ('x', [some 1, some 3, some 4])] := by rfl

end PyX.Data
