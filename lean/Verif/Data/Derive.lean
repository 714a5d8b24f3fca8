import Verif.Data.Points

/-!
# Data out of other data (`pyx/graph/data.py:155-226`)

The evaluation of expressions is a parameter: it gets the expression, the names and the column callback, and gives a value, an arithmetic error (`ArithmeticError` or `ValueError`) or
another exception.
-/

set_option linter.unusedSectionVars false

namespace PyX.Data

open PyX.Util PyX.Util.Dict

variable {α V : Type*} [DecidableEq α]

/-- The value of a keyword argument for a column: a string or a column number. -/
inductive Ref (α : Type*) where
  | name (s : α)
  | number (i : ℤ)

inductive Outcome (V : Type*) where
  | value (v : V)
  | arith
  | error

abbrev Eval (α V : Type*) := α → (α → Option V) → (Ref α → Option V) → Outcome V

/-- `columncallback` in the row `i` (`data.py:222-226`). -/
def callback (org : Table α V) (i : ℕ) : Ref α → Option V
  | .name s => (dget org.columns s).bind (·[i]?)
  | .number n => (org.columndata.bind fun cd => pyIndex cd n).bind (·[i]?)

/-- The context in the row `i` (`data.py:194-207`): the columns hide the names of the user; `none` is the `IndexError` of a short column. -/
def context (org : Table α V) (user : α → Option V) (i : ℕ) : Option (α → Option V) :=
  if org.columns.all (fun c => decide (i < c.2.length)) then some fun k => (match dget org.columns k with
    | some c => c[i]?
    | none => user k)
  else none

/-- The number of rows (`data.py:196-202`); `none` is the `AttributeError` without any columns. -/
def count (org : Table α V) : Option ℕ :=
  match org.columns with
  | c :: _ => some c.2.length
  | [] => org.columndata.map fun cd => match cd with
    | [] => 0
    | c :: _ => c.length

/-- One value of a new column (`data.py:205-211`). -/
def evalRow (eval : Eval α V) (missing : V) (org : Table α V) (user : α → Option V) (e : α) (i : ℕ) : Option V :=
  (context org user i).bind fun ctx => match eval e ctx (callback org i) with
    | .value v => some v
    | .arith => some missing
    | .error => none

/-- The loop over the rows. -/
def evalRows (eval : Eval α V) (missing : V) (org : Table α V) (user : α → Option V) (e : α) : List ℕ → Option (List V)
  | [] => some []
  | i :: is => (evalRow eval missing org user e i).bind fun v => (evalRows eval missing org user e is).map fun vs => v :: vs

/-- The column for an argument (`data.py:177-212`). -/
def resolve (eval : Eval α V) (missing : V) (org : Table α V) (user : α → Option V) : Ref α → Option (List V)
  | .number i => org.columndata.bind fun cd => pyIndex cd i
  | .name s => match dget org.columns s with
    | some c => some c
    | none => (count org).bind fun n => evalRows eval missing org user s (List.range n)

/-- The loop over the arguments (`data.py:175-212`). -/
def newColumns (eval : Eval α V) (missing : V) (org : Table α V) (user : α → Option V) : Dict α (Ref α) → Option (Dict α (List V))
  | [] => some []
  | c :: cs => (resolve eval missing org user c.2).bind fun col => (newColumns eval missing org user cs).map fun d => (c.1, col) :: d

/-- The copy of the other columns (`data.py:214-218`). -/
def copyColumns (d : Dict α (List V)) (org : Dict α (List V)) : Dict α (List V) :=
  org.foldl (fun d c => if (dget d c.1).isSome then d else dset d c.1 c.2) d

/-- `data.__init__` (`data.py:158-220`). -/
def derive (eval : Eval α V) (missing : V) (org : Table α V) (user : α → Option V) (copy : Bool) (cols : Dict α (Ref α)) : Option (Dict α (List V)) :=
  (newColumns eval missing org user cols).map fun d => if copy then copyColumns d org.columns else d

/-! ## Properties -/

theorem newColumns_spec (eval : Eval α V) (missing : V) (org : Table α V) (user : α → Option V) (cols : Dict α (Ref α)) (d : Dict α (List V))
    (h : newColumns eval missing org user cols = some d) : ∀ k, dget d k = (dget cols k).bind (resolve eval missing org user) := by
  induction cols generalizing d with
  | nil => simp only [newColumns, Option.some.injEq] at h; subst h; intro k; rfl
  | cons c cs ih =>
    unfold newColumns at h
    obtain ⟨col, h1, h2⟩ := Option.bind_eq_some_iff.mp h
    obtain ⟨d', h3, rfl⟩ := Option.map_eq_some_iff.mp h2
    intro k
    obtain ⟨k', r⟩ := c
    simp only [dget]
    by_cases hk : k' = k
    · simp only [hk, if_true, Option.bind_some]
      exact h1.symm
    · simp only [hk, if_false]
      exact ih d' h3 k

theorem newColumns_isSome (eval : Eval α V) (missing : V) (org : Table α V) (user : α → Option V) (cols : Dict α (Ref α)) :
    (newColumns eval missing org user cols).isSome ↔ ∀ c ∈ cols, (resolve eval missing org user c.2).isSome := by
  induction cols with
  | nil => simp [newColumns]
  | cons c cs ih =>
    unfold newColumns
    simp only [List.mem_cons, forall_eq_or_imp]
    rw [← ih]
    cases resolve eval missing org user c.2 <;> simp

theorem copyColumns_get (d org : Dict α (List V)) (k : α) : dget (copyColumns d org) k = (dget d k).or (dget org k) := by
  unfold copyColumns
  induction org generalizing d with
  | nil => simp [dget]
  | cons c org ih =>
    obtain ⟨k', col⟩ := c
    rw [List.foldl_cons, ih]
    simp only [dget]
    by_cases hk : k' = k
    · subst hk
      cases hg : dget d k' with
      | some x => simp [hg]
      | none => simp [dget_dset]
    · simp only [hk, if_false]
      split
      · rfl
      · rw [dget_dset, if_neg hk]

/-- **C77.**  The columns that are asked for are there, and, with `copy`, the other columns of the source under their names; an equal name hides the column of the source. -/
theorem derive_spec (eval : Eval α V) (missing : V) (org : Table α V) (user : α → Option V) (copy : Bool) (cols : Dict α (Ref α)) (d : Dict α (List V))
    (h : derive eval missing org user copy cols = some d) :
    (∀ k r, dget cols k = some r → (resolve eval missing org user r).isSome ∧ dget d k = resolve eval missing org user r) ∧
    ∀ k, dget cols k = none → dget d k = if copy then dget org.columns k else none := by
  unfold derive at h
  obtain ⟨d0, h0, rfl⟩ := Option.map_eq_some_iff.mp h
  have hg := newColumns_spec eval missing org user cols d0 h0
  have hs := (newColumns_isSome eval missing org user cols).mp (by rw [h0]; rfl)
  constructor
  · intro k r hk
    have hr : (resolve eval missing org user r).isSome := hs (k, r) (mem_of_dget cols k r hk)
    refine ⟨hr, ?_⟩
    have e : dget d0 k = resolve eval missing org user r := by rw [hg, hk]; rfl
    obtain ⟨col, hcol⟩ := Option.isSome_iff_exists.mp hr
    cases copy with
    | false => simpa using e
    | true =>
      simp only [if_true]
      rw [copyColumns_get, e, hcol]; rfl
  · intro k hk
    have e : dget d0 k = none := by rw [hg, hk]; rfl
    cases copy with
    | false => simpa using e
    | true =>
      simp only [if_true]
      rw [copyColumns_get, e]; rfl

/-- **C77.**  It fails exactly if one of the columns can not be made. -/
theorem derive_isSome (eval : Eval α V) (missing : V) (org : Table α V) (user : α → Option V) (copy : Bool) (cols : Dict α (Ref α)) :
    (derive eval missing org user copy cols).isSome ↔ ∀ c ∈ cols, (resolve eval missing org user c.2).isSome := by
  unfold derive
  rw [Option.isSome_map]
  exact newColumns_isSome eval missing org user cols

theorem evalRows_spec (eval : Eval α V) (missing : V) (org : Table α V) (user : α → Option V) (e : α) (is : List ℕ) (vs : List V)
    (h : evalRows eval missing org user e is = some vs) : vs.length = is.length ∧ ∀ (j i : ℕ), is[j]? = some i → ∃ v, evalRow eval missing org user e i = some v ∧ vs[j]? = some v := by
  induction is generalizing vs with
  | nil => simp only [evalRows, Option.some.injEq] at h; subst h; simp
  | cons i is ih =>
    unfold evalRows at h
    obtain ⟨v, h1, h2⟩ := Option.bind_eq_some_iff.mp h
    obtain ⟨vs', h3, rfl⟩ := Option.map_eq_some_iff.mp h2
    obtain ⟨a, b⟩ := ih vs' h3
    refine ⟨by simp [a], ?_⟩
    intro j i' hj
    cases j with
    | zero =>
      simp only [List.getElem?_cons_zero, Option.some.injEq] at hj
      subst hj
      exact ⟨v, h1, rfl⟩
    | succ j => exact b j i' (by simpa using hj)

/-- **C77.**  What a column is: for the name of a column that column, for a number the column with this number, and for other strings the values of the expression, one for each row,
evaluated with the values of the columns in that row hiding the names of the user, and missing for an arithmetic error. -/
theorem resolve_spec (eval : Eval α V) (missing : V) (org : Table α V) (user : α → Option V) :
    (∀ s col, dget org.columns s = some col → resolve eval missing org user (.name s) = some col) ∧
    (∀ cd i, org.columndata = some cd → resolve eval missing org user (.number i) = pyIndex cd i) ∧
    ∀ s col, dget org.columns s = none → resolve eval missing org user (.name s) = some col →
      count org = some col.length ∧ ∀ i < col.length, ∃ ctx, (∀ k c, dget org.columns k = some c → ctx k = c[i]? ∧ (ctx k).isSome) ∧
        (∀ k, dget org.columns k = none → ctx k = user k) ∧
        ((∃ v, eval s ctx (callback org i) = .value v ∧ col[i]? = some v) ∨ (eval s ctx (callback org i) = .arith ∧ col[i]? = some missing)) := by
  refine ⟨?_, ?_, ?_⟩
  · intro s col h
    unfold resolve
    simp only
    rw [h]
  · intro cd i h
    unfold resolve
    rw [h]; rfl
  · intro s col hs h
    unfold resolve at h
    simp only at h
    rw [hs] at h
    obtain ⟨n, hn, hr⟩ := Option.bind_eq_some_iff.mp h
    obtain ⟨hl, hv⟩ := evalRows_spec eval missing org user s _ col hr
    rw [List.length_range] at hl
    refine ⟨by rw [hn, hl], ?_⟩
    intro i hi
    obtain ⟨v, hv1, hv2⟩ := hv i i (List.getElem?_range (by omega))
    unfold evalRow at hv1
    obtain ⟨ctx, hc, he⟩ := Option.bind_eq_some_iff.mp hv1
    unfold context at hc
    split at hc
    · rename_i hall
      have hctx := (Option.some.inj hc).symm
      refine ⟨ctx, ?_, ?_, ?_⟩
      · intro k c hk
        rw [hctx]
        have := List.all_eq_true.mp hall (k, c) (mem_of_dget _ _ _ hk)
        simp only [decide_eq_true_eq] at this
        simp [hk, this]
      · intro k hk
        rw [hctx]
        simp [hk]
      · split at he
        · rename_i v' hv'
          obtain rfl := Option.some.inj he
          exact Or.inl ⟨v', hv', hv2⟩
        · rename_i hv'
          obtain rfl := Option.some.inj he
          exact Or.inr ⟨hv', hv2⟩
        · simp at he
    · simp at hc

/-- **C77.**  New data have as many rows as the source. -/
theorem derive_even (eval : Eval α V) (missing : V) (org : Table α V) (user : α → Option V) (copy : Bool) (cols : Dict α (Ref α)) (d : Dict α (List V)) (n : ℕ)
    (hcount : count org = some n) (he : Even org.columns n) (hcd : ∀ cd, org.columndata = some cd → ∀ c ∈ cd, c.length = n)
    (h : derive eval missing org user copy cols = some d) : Even d n := by
  obtain ⟨h1, h2⟩ := derive_spec eval missing org user copy cols d h
  obtain ⟨_, _, r3⟩ := resolve_spec eval missing org user
  intro k col hk
  cases hc : dget cols k with
  | none =>
    rw [h2 k hc] at hk
    cases copy with
    | false => simp at hk
    | true => exact he k col (by simpa using hk)
  | some r =>
    rw [(h1 k r hc).2] at hk
    cases r with
    | number i =>
      unfold resolve at hk
      obtain ⟨cd, hcd1, hcd2⟩ := Option.bind_eq_some_iff.mp hk
      apply hcd cd hcd1
      unfold pyIndex at hcd2
      split at hcd2
      · exact List.mem_of_getElem? hcd2
      · split at hcd2
        · exact List.mem_of_getElem? hcd2
        · simp at hcd2
    | name s =>
      cases hs : dget org.columns s with
      | some c =>
        unfold resolve at hk
        simp only [hs, Option.some.injEq] at hk
        rw [← hk]; exact he s c hs
      | none =>
        have := (r3 s col hs hk).1
        rw [hcount] at this
        exact (Option.some.inj this).symm

/-- The example of the manual: `a=1, b="B", c="2*B+$3"`, with the expression as its result for each row. -/
example : derive (α := String) (V := ℕ) (fun e ctx cb => if e = "2*B+$3" then (match ctx "B", cb (.number 3) with
      | some b, some c => .value (2 * b + c)
      | _, _ => .error) else .arith) 0
    ⟨some [[1, 2], [1234, 5678], [1, 3], [2, 4]], [("A", [1234, 5678]), ("B", [1, 3]), ("C", [2, 4])]⟩ (fun _ => none) true
    [("a", .number 1), ("b", .name "B"), ("c", .name "2*B+$3")] =
    some [("a", [1234, 5678]), ("b", [1, 3]), ("c", [4, 10]), ("A", [1234, 5678]), ("B", [1, 3]), ("C", [2, 4])] := by rfl

end PyX.Data
