import Verif.Util.Dict

/-!
# C54: splitting keyword arguments (`pyx/utils.py:23-75`)
-/

set_option linter.unusedSectionVars false

namespace PyX.Util

open Dict

variable {V : Type*}

/-- `key.split("_", 1)`: `none` if there is no underscore (the unpacking raises `ValueError`). -/
def cut : List Char → Option (List Char × List Char)
  | [] => none
  | c :: cs => if c = '_' then some ([], cs) else (cut cs).map fun p => (c :: p.1, p.2)

/-- `parts is None or part in parts`. -/
def wanted (parts : Option (List (List Char))) (part : List Char) : Bool :=
  match parts with
  | none => true
  | some ps => decide (part ∈ ps)

/-- The two dictionaries. -/
abbrev Split (V : Type*) := Dict (List Char) (Dict (List Char) V) × Dict (List Char) V

/-- One turn of the loop (`utils.py:61-72`). -/
def kwstep (parts : Option (List (List Char))) (st : Split V) (kv : List Char × V) : Split V :=
  match cut kv.1 with
  | none => (st.1, dset st.2 kv.1 kv.2)
  | some (part, subkey) =>
    if wanted parts part then (dset st.1 part (dset ((dget st.1 part).getD []) subkey kv.2), st.2)
    else (st.1, dset st.2 kv.1 kv.2)

/-- `kwsplit` (`utils.py:23-75`); `none` is the `ValueError`. -/
def kwsplit (kwargs : Dict (List Char) V) (parts : Option (List (List Char))) (allowOnlySplit : Bool) : Option (Split V) :=
  let st := kwargs.foldl (kwstep parts) ([], [])
  if allowOnlySplit && !st.2.isEmpty then none else some st

/-! ## Specification -/

/-- The value of a key in a group. -/
def get2 (split : Dict (List Char) (Dict (List Char) V)) (part subkey : List Char) : Option V :=
  (dget split part).bind fun d => dget d subkey

/-- A key is for a group: it is the name of a wanted group without underscore, an underscore and the rest. -/
def For (parts : Option (List (List Char))) (key part subkey : List Char) : Prop :=
  '_' ∉ part ∧ wanted parts part = true ∧ key = part ++ '_' :: subkey

/-! ## Proof -/

theorem cut_some (key part subkey : List Char) : cut key = some (part, subkey) ↔ '_' ∉ part ∧ key = part ++ '_' :: subkey := by
  induction key generalizing part with
  | nil => simp [cut]
  | cons c cs ih =>
    unfold cut
    by_cases h : c = '_'
    · subst h
      simp only [if_true, Option.some.injEq, Prod.mk.injEq]
      constructor
      · rintro ⟨rfl, rfl⟩; simp
      · rintro ⟨h1, h2⟩
        cases part with
        | nil => simp at h2; exact ⟨rfl, h2⟩
        | cons p ps =>
          simp only [List.cons_append, List.cons.injEq] at h2
          rw [← h2.1] at h1
          simp at h1
    · rw [if_neg h]
      cases part with
      | nil =>
        simp only [Option.map_eq_some_iff, Prod.exists, List.not_mem_nil, not_false_eq_true, List.nil_append, List.cons.injEq, true_and]
        constructor
        · rintro ⟨a, b, _, h2⟩; simp at h2
        · rintro ⟨h1, _⟩; exact absurd h1 h
      | cons p ps =>
        simp only [Option.map_eq_some_iff, Prod.exists, Prod.mk.injEq, List.cons.injEq, List.cons_append, List.mem_cons, not_or]
        constructor
        · rintro ⟨a, b, h1, ⟨rfl, rfl⟩, rfl⟩
          have := (ih a).mp (by simpa using h1)
          exact ⟨⟨fun e => h e.symm, this.1⟩, rfl, this.2⟩
        · rintro ⟨⟨h1, h2⟩, rfl, h3⟩
          exact ⟨ps, subkey, (ih ps).mpr ⟨h2, h3⟩, ⟨rfl, rfl⟩, rfl⟩

theorem for_unique (parts : Option (List (List Char))) (key p p' q q' : List Char) (h : For parts key p q) (h' : For parts key p' q') : p = p' ∧ q = q' := by
  have h1 := (cut_some key p q).mpr ⟨h.1, h.2.2⟩
  have h2 := (cut_some key p' q').mpr ⟨h'.1, h'.2.2⟩
  rw [h1] at h2
  simpa using h2

theorem get2_set (split : Dict (List Char) (Dict (List Char) V)) (part subkey : List Char) (v : V) (p q : List Char) :
    get2 (dset split part (dset ((dget split part).getD []) subkey v)) p q = if part = p ∧ subkey = q then some v else get2 split p q := by
  unfold get2
  rw [dget_dset]
  by_cases hp : part = p
  · subst hp
    simp only [if_true, Option.bind_some, dget_dset, true_and]
    by_cases hq : subkey = q
    · simp [hq]
    · simp only [hq, if_false]
      cases dget split part with
      | none => simp [dget]
      | some d => simp
  · simp [hp]

/-- What the dictionaries contain after the items of `kwargs`. -/
structure KwCond (parts : Option (List (List Char))) (kwargs : Dict (List Char) V) (st : Split V) : Prop where
  split : ∀ p q v, get2 st.1 p q = some v ↔ ∃ key, For parts key p q ∧ dget kwargs key = some v
  rest : ∀ key v, dget st.2 key = some v ↔ dget kwargs key = some v ∧ ¬ ∃ p q, For parts key p q
  groups : ∀ p, (dget st.1 p).isSome → ∃ q v, get2 st.1 p q = some v

theorem kwstep_cond (parts : Option (List (List Char))) (kwargs : Dict (List Char) V) (st : Split V) (h : KwCond parts kwargs st) (k : List Char) (v : V)
    (hk : k ∉ keys kwargs) : KwCond parts (kwargs ++ [(k, v)]) (kwstep parts st (k, v)) := by
  have hnone : dget kwargs k = none := by
    have := mt (mem_keys kwargs k).mpr hk
    simpa using this
  have hget : ∀ key w, dget (kwargs ++ [(k, v)]) key = some w ↔ dget kwargs key = some w ∨ (key = k ∧ w = v) := by
    intro key w
    rw [dget_append]
    by_cases hkey : key = k
    · subst hkey
      rw [hnone]
      simp [dget, eq_comm]
    · have : dget [(k, v)] key = none := by simp [dget, Ne.symm hkey]
      rw [this]
      simp [hkey]
  -- a key that is in no group
  have hrest : (¬ ∃ p q, For parts k p q) → KwCond parts (kwargs ++ [(k, v)]) (st.1, dset st.2 k v) := by
    intro hno
    refine ⟨fun p q w => ?_, fun key w => ?_, h.groups⟩
    · simp only
      rw [h.split]
      constructor
      · rintro ⟨key, h1, h2⟩
        exact ⟨key, h1, (hget key w).mpr (Or.inl h2)⟩
      · rintro ⟨key, h1, h2⟩
        rcases (hget key w).mp h2 with h3 | ⟨rfl, _⟩
        · exact ⟨key, h1, h3⟩
        · exact absurd ⟨p, q, h1⟩ hno
    · simp only
      rw [dget_dset, hget]
      by_cases hkey : k = key
      · subst hkey
        rw [if_pos rfl, hnone]
        simp only [Option.some.injEq, reduceCtorEq, false_or, true_and]
        exact ⟨fun e => ⟨e.symm, hno⟩, fun e => e.1.symm⟩
      · rw [if_neg hkey, h.rest]
        simp [Ne.symm hkey]
  unfold kwstep
  cases hc : cut k with
  | none =>
    simp only
    apply hrest
    rintro ⟨p, q, hf⟩
    rw [(cut_some k p q).mpr ⟨hf.1, hf.2.2⟩] at hc
    simp at hc
  | some pq =>
    obtain ⟨part, subkey⟩ := pq
    obtain ⟨c1, c2⟩ := (cut_some k part subkey).mp hc
    simp only
    by_cases hw : wanted parts part = true
    · rw [if_pos hw]
      have hfor : For parts k part subkey := ⟨c1, hw, c2⟩
      refine ⟨fun p q w => ?_, fun key w => ?_, fun p hp => ?_⟩
      · simp only
        rw [get2_set]
        by_cases hpq : part = p ∧ subkey = q
        · obtain ⟨rfl, rfl⟩ := hpq
          rw [if_pos ⟨rfl, rfl⟩]
          constructor
          · intro e
            exact ⟨k, hfor, (hget k w).mpr (Or.inr ⟨rfl, (Option.some.inj e).symm⟩)⟩
          · rintro ⟨key, h1, h2⟩
            have : key = k := by rw [h1.2.2, ← c2]
            subst this
            rcases (hget key w).mp h2 with h3 | ⟨_, rfl⟩
            · rw [hnone] at h3; simp at h3
            · rfl
        · rw [if_neg hpq, h.split]
          constructor
          · rintro ⟨key, h1, h2⟩
            exact ⟨key, h1, (hget key w).mpr (Or.inl h2)⟩
          · rintro ⟨key, h1, h2⟩
            rcases (hget key w).mp h2 with h3 | ⟨rfl, _⟩
            · exact ⟨key, h1, h3⟩
            · exact absurd (for_unique parts key part p subkey q hfor h1) hpq
      · simp only
        rw [h.rest, hget]
        constructor
        · rintro ⟨h1, h2⟩; exact ⟨Or.inl h1, h2⟩
        · rintro ⟨h1 | ⟨rfl, _⟩, h2⟩
          · exact ⟨h1, h2⟩
          · exact absurd ⟨part, subkey, hfor⟩ h2
      · simp only at hp ⊢
        rw [dget_dset] at hp
        by_cases hpp : part = p
        · subst hpp
          exact ⟨subkey, v, by rw [get2_set, if_pos ⟨rfl, rfl⟩]⟩
        · rw [if_neg hpp] at hp
          obtain ⟨q, w, hqw⟩ := h.groups p hp
          exact ⟨q, w, by rw [get2_set, if_neg (fun e => hpp e.1)]; exact hqw⟩
    · rw [if_neg hw]
      apply hrest
      rintro ⟨p, q, hf⟩
      rw [(cut_some k p q).mpr ⟨hf.1, hf.2.2⟩] at hc
      simp only [Option.some.injEq, Prod.mk.injEq] at hc
      rw [← hc.1] at hw
      exact hw hf.2.1

theorem kwfold_cond (parts : Option (List (List Char))) (kwargs : Dict (List Char) V) (hn : (keys kwargs).Nodup) :
    KwCond parts kwargs (kwargs.foldl (kwstep parts) ([], [])) := by
  have gen : ∀ (todo done : Dict (List Char) V) (st : Split V), (keys (done ++ todo)).Nodup → KwCond parts done st →
      KwCond parts (done ++ todo) (todo.foldl (kwstep parts) st) := by
    intro todo
    induction todo with
    | nil => intro done st _ h; simpa using h
    | cons kv todo ih =>
      intro done st hn h
      have e : done ++ kv :: todo = (done ++ [kv]) ++ todo := by simp
      rw [e] at hn ⊢
      rw [List.foldl_cons]
      apply ih _ _ hn
      apply kwstep_cond _ _ _ h
      unfold keys at hn ⊢
      rw [List.map_append, List.map_append, List.nodup_append] at hn
      have h1 := hn.1
      rw [List.nodup_append] at h1
      intro hmem
      exact h1.2.2 kv.1 hmem kv.1 (by simp) rfl
  have := gen kwargs [] ([], []) (by simpa using hn) ⟨?_, ?_, ?_⟩
  · simpa using this
  · intro p q v; simp [get2, dget]
  · intro key v; simp [dget]
  · intro p hp; simp [dget] at hp

/-- **C54.**  The value of a key in a group is that of the argument with the name of the group, an underscore and the key; the rest are the arguments that are for no wanted
group.  So each argument is in exactly one place, under its stripped name.  There are no empty groups. -/
theorem kwsplit_spec (kwargs : Dict (List Char) V) (hn : (keys kwargs).Nodup) (parts : Option (List (List Char))) (allow : Bool) (split : Dict (List Char) (Dict (List Char) V))
    (rest : Dict (List Char) V) (h : kwsplit kwargs parts allow = some (split, rest)) :
    (∀ p q v, get2 split p q = some v ↔ ∃ key, For parts key p q ∧ dget kwargs key = some v) ∧
    (∀ key v, dget rest key = some v ↔ dget kwargs key = some v ∧ ¬ ∃ p q, For parts key p q) ∧
    ∀ p, (dget split p).isSome → ∃ q v, get2 split p q = some v := by
  have hc := kwfold_cond parts kwargs hn
  unfold kwsplit at h
  simp only at h
  split at h
  · simp at h
  · simp only [Option.some.injEq] at h
    rw [h] at hc
    exact ⟨hc.split, hc.rest, hc.groups⟩

/-- **C54.**  It raises exactly if only groups are allowed and there is an argument for no wanted group. -/
theorem kwsplit_raises (kwargs : Dict (List Char) V) (hn : (keys kwargs).Nodup) (parts : Option (List (List Char))) (allow : Bool) :
    kwsplit kwargs parts allow = none ↔ allow = true ∧ ∃ key v, dget kwargs key = some v ∧ ¬ ∃ p q, For parts key p q := by
  have hc := kwfold_cond parts kwargs hn
  have hempty : (kwargs.foldl (kwstep parts) ([], [])).2.isEmpty = false ↔ ∃ key v, dget kwargs key = some v ∧ ¬ ∃ p q, For parts key p q := by
    constructor
    · intro h
      cases hr : (kwargs.foldl (kwstep parts) ([], [])).2 with
      | nil => rw [hr] at h; simp at h
      | cons kv r =>
        refine ⟨kv.1, kv.2, (hc.rest kv.1 kv.2).mp ?_⟩
        rw [hr]
        simp [dget]
    · rintro ⟨key, v, h⟩
      have := (hc.rest key v).mpr h
      cases hr : (kwargs.foldl (kwstep parts) ([], [])).2 with
      | nil => rw [hr] at this; simp [dget] at this
      | cons kv r => rfl
  unfold kwsplit
  simp only
  rw [← hempty]
  cases allow <;> simp

/-- Two groups and a rest. -/
example : kwsplit (V := ℕ) [("aaa_bbb".toList, 1), ("ddd_e_f".toList, 2), ("ggg".toList, 3), ("aaa_x".toList, 4)] none false =
    some ([("aaa".toList, [("bbb".toList, 1), ("x".toList, 4)]), ("ddd".toList, [("e_f".toList, 2)])], [("ggg".toList, 3)]) := by rfl

end PyX.Util
