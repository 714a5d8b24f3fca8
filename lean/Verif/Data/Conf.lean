import Verif.Data.Points

/-!
# Data from config-like files (`pyx/graph/data.py:335-387`)

The parsed file is a list of sections with their options in order; the sections are sorted by their names already.  The conversion of the values to floats is left out.
-/

set_option linter.unusedSectionVars false

namespace PyX.Data

open PyX.Util PyX.Util.Dict

variable {α V : Type*} [DecidableEq α]

/-- The variables of the loop over the options (`data.py:354-371`). -/
structure ConfState (α V : Type*) where
  columns : Dict α ℕ
  maxcolumns : ℕ
  point : List V

/-- One option (`data.py:358-371`). -/
def optStep (st : ConfState α V) (o : α × V) : ConfState α V :=
  match dget st.columns o.1 with
  | none => ⟨dset st.columns o.1 st.maxcolumns, st.maxcolumns + 1, st.point ++ [o.2]⟩
  | some index => { st with point := st.point.set index o.2 }

/-- One section (`data.py:356-372`). -/
def secRow (missing : V) (columns : Dict α ℕ) (maxcolumns : ℕ) (name : V) (opts : Dict α V) : ConfState α V :=
  opts.foldl optStep ⟨columns, maxcolumns, name :: List.replicate (maxcolumns - 1) missing⟩

/-- The loop over the sections: the columns and the rows. -/
def confRows (missing : V) (columns : Dict α ℕ) (maxcolumns : ℕ) : List (V × Dict α V) → Dict α ℕ × List (List V)
  | [] => (columns, [])
  | s :: ss =>
    let st := secRow missing columns maxcolumns s.1 s.2
    let r := confRows missing st.columns st.maxcolumns ss
    (r.1, st.point :: r.2)

/-- `readfile` of `conffile` (`data.py:347-377`): the column 0 are the names of the sections. -/
def conffile (num : ℕ → V) (missing : V) (sections : List (V × Dict α V)) : Option (Table α V) :=
  let r := confRows missing [] 1 sections
  (points num r.2 false (r.1.map fun c => (c.1, (c.2 : ℤ)))).map fun t => ⟨some [sections.map (·.1)], t.columns⟩

/-! ## Proof -/

/-- The numbers of the columns are distinct and in the row. -/
structure ConfInv (columns : Dict α ℕ) (maxcolumns : ℕ) : Prop where
  nodup : (keys columns).Nodup
  pos : 1 ≤ maxcolumns
  bound : ∀ k i, dget columns k = some i → 1 ≤ i ∧ i < maxcolumns
  inj : ∀ k k' i, dget columns k = some i → dget columns k' = some i → k = k'

/-- The state after some options. -/
structure OptInv (missing : V) (columns : Dict α ℕ) (maxcolumns : ℕ) (name : V) (opts : Dict α V) (st : ConfState α V) : Prop where
  inv : ConfInv st.columns st.maxcolumns
  len : st.point.length = st.maxcolumns
  ext : ∀ k i, dget columns k = some i → dget st.columns k = some i
  keys : ∀ k, (dget st.columns k).isSome ↔ (dget columns k).isSome ∨ (dget opts k).isSome
  name0 : st.point[0]? = some name
  vals : ∀ k i, dget st.columns k = some i → st.point[i]? = some ((dget opts k).getD missing)
  mono : maxcolumns ≤ st.maxcolumns
  same : (∀ k, (dget opts k).isSome → (dget columns k).isSome) → st.columns = columns ∧ st.maxcolumns = maxcolumns
  more : (∃ k, (dget opts k).isSome ∧ dget columns k = none) → maxcolumns < st.maxcolumns

theorem optStep_inv (missing : V) (columns : Dict α ℕ) (maxcolumns : ℕ) (name : V) (opts : Dict α V) (st : ConfState α V) (h : OptInv missing columns maxcolumns name opts st)
    (k0 : α) (v : V) (hk0 : dget opts k0 = none) : OptInv missing columns maxcolumns name (opts ++ [(k0, v)]) (optStep st (k0, v)) := by
  have hget : ∀ k, dget (opts ++ [(k0, v)]) k = if k0 = k then some v else dget opts k := by
    intro k
    rw [dget_append]
    by_cases hk : k0 = k
    · subst hk; rw [hk0, if_pos rfl]; simp [dget]
    · rw [if_neg hk]; simp [dget, hk]
  unfold optStep
  cases hc : dget st.columns k0 with
  | none =>
    simp only
    have hnew : ∀ k i, dget (dset st.columns k0 st.maxcolumns) k = some i → (k = k0 ∧ i = st.maxcolumns) ∨ (k ≠ k0 ∧ dget st.columns k = some i) := by
      intro k i hk
      rw [dget_dset] at hk
      by_cases e : k0 = k
      · rw [if_pos e] at hk
        exact Or.inl ⟨e.symm, (Option.some.inj hk).symm⟩
      · rw [if_neg e] at hk
        exact Or.inr ⟨Ne.symm e, hk⟩
    have hcol0 : dget columns k0 = none := by
      cases hh : dget columns k0 with
      | none => rfl
      | some i => rw [h.ext k0 i hh] at hc; simp at hc
    refine ⟨⟨nodup_dset _ h.inv.nodup _ _, by simp, ?_, ?_⟩, ?_, ?_, ?_, ?_, ?_, ?_, ?_, ?_⟩
    · intro k i hk
      simp only at hk ⊢
      rcases hnew k i hk with ⟨_, rfl⟩ | ⟨_, hk⟩
      · have := h.inv.pos; omega
      · have := h.inv.bound k i hk; omega
    · intro k k' i hk hk'
      simp only at hk hk'
      rcases hnew k i hk with ⟨rfl, rfl⟩ | ⟨hne, hk⟩
      · rcases hnew k' _ hk' with ⟨h', _⟩ | ⟨_, hk'⟩
        · exact h'.symm
        · have := h.inv.bound k' _ hk'; omega
      · rcases hnew k' _ hk' with ⟨_, e⟩ | ⟨_, hk'⟩
        · have := h.inv.bound k _ hk; omega
        · exact h.inv.inj k k' i hk hk'
    · simp [h.len]
    · intro k i hk
      simp only
      rw [dget_dset]
      by_cases e : k0 = k
      · subst e; rw [hcol0] at hk; simp at hk
      · rw [if_neg e]; exact h.ext k i hk
    · intro k
      simp only
      rw [dget_dset, hget]
      by_cases e : k0 = k
      · simp [e]
      · simp only [e, if_false]; exact h.keys k
    · have hl : 0 < st.point.length := by rw [h.len]; have := h.inv.pos; omega
      simp only
      rw [List.getElem?_append_left hl]
      exact h.name0
    · intro k i hk
      simp only at hk ⊢
      rw [hget]
      rcases hnew k i hk with ⟨rfl, rfl⟩ | ⟨hne, hk⟩
      · rw [if_pos rfl, ← h.len, List.getElem?_concat_length]; rfl
      · rw [if_neg (Ne.symm hne), List.getElem?_append_left (by rw [h.len]; exact (h.inv.bound k i hk).2)]
        exact h.vals k i hk
    · have := h.mono; simp only; omega
    · intro hall
      have := hall k0 (by rw [hget, if_pos rfl]; rfl)
      rw [hcol0] at this
      simp at this
    · intro _
      have := h.mono; simp only; omega
  | some index =>
    simp only
    have hb := h.inv.bound k0 index hc
    refine ⟨h.inv, by simp [h.len], h.ext, ?_, ?_, ?_, h.mono, ?_, ?_⟩
    · intro k
      simp only
      rw [hget]
      by_cases e : k0 = k
      · subst e; rw [hc]; simp
      · simp only [e, if_false]; exact h.keys k
    · simp only
      rw [List.getElem?_set_ne (by omega)]
      exact h.name0
    · intro k i hk
      simp only at hk ⊢
      rw [hget]
      by_cases e : k0 = k
      · subst e
        rw [hc] at hk
        obtain rfl := Option.some.inj hk
        rw [if_pos rfl, List.getElem?_set_self (by rw [h.len]; exact hb.2)]
        rfl
      · rw [if_neg e, List.getElem?_set_ne]
        · exact h.vals k i hk
        · rintro rfl
          exact e (h.inv.inj k0 k index hc hk)
    · intro hall
      apply h.same
      intro k hk
      apply hall
      rw [hget]
      split
      · rfl
      · exact hk
    · rintro ⟨k, hk1, hk2⟩
      rw [hget] at hk1
      by_cases e : k0 = k
      · subst e
        -- the option is known since an option of this section defined it
        rcases (h.keys k0).mp (by rw [hc]; rfl) with hh | hh
        · rw [hk2] at hh; simp at hh
        · rw [hk0] at hh; simp at hh
      · rw [if_neg e] at hk1
        exact h.more ⟨k, hk1, hk2⟩

theorem secRow_inv (missing : V) (columns : Dict α ℕ) (maxcolumns : ℕ) (name : V) (opts : Dict α V) (hn : (keys opts).Nodup) (h : ConfInv columns maxcolumns) :
    OptInv missing columns maxcolumns name opts (secRow missing columns maxcolumns name opts) := by
  have gen : ∀ (todo done : Dict α V) (st : ConfState α V), (Dict.keys (done ++ todo)).Nodup → OptInv missing columns maxcolumns name done st →
      OptInv missing columns maxcolumns name (done ++ todo) (todo.foldl optStep st) := by
    intro todo
    induction todo with
    | nil => intro done st _ h; simpa using h
    | cons o todo ih =>
      intro done st hn h
      have e : done ++ o :: todo = (done ++ [o]) ++ todo := by simp
      rw [e] at hn ⊢
      rw [List.foldl_cons]
      apply ih _ _ hn
      apply optStep_inv _ _ _ _ _ _ h
      have hnot : o.1 ∉ Dict.keys done := by
        unfold Dict.keys at hn ⊢
        rw [List.map_append, List.map_append, List.nodup_append] at hn
        have h1 := hn.1
        rw [List.nodup_append] at h1
        intro hmem
        exact h1.2.2 o.1 hmem o.1 (by simp) rfl
      rw [mem_keys] at hnot
      simpa using hnot
  have := gen opts [] ⟨columns, maxcolumns, name :: List.replicate (maxcolumns - 1) missing⟩ (by simpa using hn) ?_
  · simpa [secRow] using this
  · refine ⟨h, ?_, fun k i hk => hk, fun k => by simp [dget], rfl, ?_, Nat.le_refl _, fun _ => ⟨rfl, rfl⟩, ?_⟩
    · have := h.pos; simp; omega
    · intro k i hk
      have := h.bound k i hk
      simp only [dget, Option.getD_none]
      obtain ⟨j, rfl⟩ : ∃ j, i = j + 1 := ⟨i - 1, by omega⟩
      rw [List.getElem?_cons_succ, List.getElem?_replicate, if_pos (by omega)]
    · rintro ⟨k, hk, _⟩
      simp [dget] at hk

/-- The rows if no section has new options. -/
theorem confRows_known (missing : V) (columns : Dict α ℕ) (maxcolumns : ℕ) (h : ConfInv columns maxcolumns) (ss : List (V × Dict α V)) (hn : ∀ s ∈ ss, (keys s.2).Nodup)
    (hk : ∀ s ∈ ss, ∀ k, (dget s.2 k).isSome → (dget columns k).isSome) :
    (confRows missing columns maxcolumns ss).1 = columns ∧ (confRows missing columns maxcolumns ss).2.length = ss.length ∧
    ∀ (j : ℕ) (row : List V), (confRows missing columns maxcolumns ss).2[j]? = some row → row.length = maxcolumns ∧
      ∃ s, ss[j]? = some s ∧ ∀ k i, dget columns k = some i → row[i]? = some ((dget s.2 k).getD missing) := by
  induction ss with
  | nil => simp [confRows]
  | cons s ss ih =>
    have hs := secRow_inv missing columns maxcolumns s.1 s.2 (hn s List.mem_cons_self) h
    obtain ⟨e1, e2⟩ := hs.same (hk s List.mem_cons_self)
    obtain ⟨i1, i2, i3⟩ := ih (fun s hs => hn s (List.mem_cons_of_mem _ hs)) (fun s hs => hk s (List.mem_cons_of_mem _ hs))
    unfold confRows
    simp only
    rw [e1, e2]
    refine ⟨i1, by simp [i2], ?_⟩
    intro j row hj
    cases j with
    | zero =>
      simp only [List.getElem?_cons_zero, Option.some.injEq] at hj
      subst hj
      refine ⟨by rw [hs.len, e2], s, rfl, ?_⟩
      intro k i hki
      exact hs.vals k i (by rw [e1]; exact hki)
    | succ j =>
      simp only [List.getElem?_cons_succ] at hj ⊢
      exact i3 j row hj

/-- A section with new options makes a longer row. -/
theorem confRows_new (missing : V) (columns : Dict α ℕ) (maxcolumns : ℕ) (h : ConfInv columns maxcolumns) (ss : List (V × Dict α V)) (hn : ∀ s ∈ ss, (keys s.2).Nodup)
    (hk : ∃ s ∈ ss, ∃ k, (dget s.2 k).isSome ∧ dget columns k = none) : ∃ row ∈ (confRows missing columns maxcolumns ss).2, row.length ≠ maxcolumns := by
  induction ss with
  | nil => simp at hk
  | cons s ss ih =>
    have hs := secRow_inv missing columns maxcolumns s.1 s.2 (hn s List.mem_cons_self) h
    unfold confRows
    simp only
    by_cases hnew : ∃ k, (dget s.2 k).isSome ∧ dget columns k = none
    · refine ⟨_, List.mem_cons_self, ?_⟩
      rw [hs.len]
      have := hs.more hnew
      omega
    · have hknown : ∀ k, (dget s.2 k).isSome → (dget columns k).isSome := by
        intro k hks
        by_contra hh
        exact hnew ⟨k, hks, by simpa using hh⟩
      obtain ⟨e1, e2⟩ := hs.same hknown
      rw [e1, e2]
      obtain ⟨row, hr, hl⟩ := ih (fun s hs => hn s (List.mem_cons_of_mem _ hs)) (by
        obtain ⟨s', hs', hh⟩ := hk
        rcases List.mem_cons.mp hs' with rfl | hs'
        · exact absurd hh hnew
        · exact ⟨s', hs', hh⟩)
      exact ⟨row, List.mem_cons_of_mem _ hr, hl⟩

theorem confInv_nil : ConfInv ([] : Dict α ℕ) 1 := ⟨by simp [keys], Nat.le_refl _, by simp [dget], by simp [dget]⟩

theorem dget_map (d : Dict α ℕ) (k : α) : dget (d.map fun c => (c.1, (c.2 : ℤ))) k = (dget d k).map fun (n : ℕ) => (n : ℤ) := by
  induction d with
  | nil => rfl
  | cons c d ih =>
    obtain ⟨k', n⟩ := c
    simp only [List.map_cons, dget]
    by_cases h : k' = k
    · simp [h]
    · simp [h, ih]

/-- **C59 (partial).**  If the first section has all options then the file is read: there is a column for each option, with a value for each section, missing where the section lacks
the option. -/
theorem conffile_partial (num : ℕ → V) (missing : V) (s : V × Dict α V) (ss : List (V × Dict α V)) (hn : ∀ x ∈ s :: ss, (keys x.2).Nodup)
    (hk : ∀ x ∈ ss, ∀ k, (dget x.2 k).isSome → (dget s.2 k).isSome) :
    ∃ t, conffile num missing (s :: ss) = some t ∧ t.columndata = some [(s :: ss).map (·.1)] ∧ (∀ k, (dget t.columns k).isSome ↔ (dget s.2 k).isSome) ∧
      ∀ k col, dget t.columns k = some col → col.length = (s :: ss).length ∧ ∀ (j : ℕ) (x : V × Dict α V), (s :: ss)[j]? = some x → col[j]? = some ((dget x.2 k).getD missing) := by
  have h1 := secRow_inv missing [] 1 s.1 s.2 (hn s List.mem_cons_self) confInv_nil
  set st := secRow missing ([] : Dict α ℕ) 1 s.1 s.2 with hst
  have hkeys : ∀ k, (dget st.columns k).isSome ↔ (dget s.2 k).isSome := by
    intro k
    rw [h1.keys]; simp [dget]
  obtain ⟨c1, c2, c3⟩ := confRows_known missing st.columns st.maxcolumns h1.inv ss (fun x hx => hn x (List.mem_cons_of_mem _ hx)) (fun x hx k hkx => (hkeys k).mpr (hk x hx k hkx))
  have hrows : confRows missing [] 1 (s :: ss) = (st.columns, st.point :: (confRows missing st.columns st.maxcolumns ss).2) := by
    conv_lhs => unfold confRows
    simp only
    rw [← hst, c1]
  have hnn : (keys (st.columns.map fun c => (c.1, (c.2 : ℤ)))).Nodup := by
    have : keys (st.columns.map fun c => (c.1, (c.2 : ℤ))) = keys st.columns := by simp [keys]
    rw [this]; exact h1.inv.nodup
  obtain ⟨t, t1, t2, _, t4⟩ := (points_spec num st.point (confRows missing st.columns st.maxcolumns ss).2 false (st.columns.map fun c => (c.1, (c.2 : ℤ)))).1 ⟨by
      intro r hr
      obtain ⟨j, hj⟩ := List.mem_iff_getElem?.mp hr
      rw [(c3 j r hj).1, h1.len], by
      intro c hc
      have hg := dget_of_mem _ hnn c.1 c.2 hc
      rw [dget_map] at hg
      obtain ⟨i, hi1, hi2⟩ := Option.map_eq_some_iff.mp hg
      have := h1.inv.bound _ _ hi1
      rw [← hi2, h1.len]
      simp only [Bool.false_eq_true, if_false]
      omega⟩
  have hcol : ∀ k, (dget t.columns k).isSome ↔ (dget s.2 k).isSome := by
    intro k
    rw [← mem_keys, t2, mem_keys, dget_map, Option.isSome_map]
    exact hkeys k
  refine ⟨⟨some [(s :: ss).map (·.1)], t.columns⟩, ?_, rfl, hcol, ?_⟩
  · unfold conffile
    simp only
    rw [hrows]
    simp only
    rw [t1]
    rfl
  · intro k col hk'
    simp only at hk'
    have hsome : (dget st.columns k).isSome := (hkeys k).mpr ((hcol k).mp (by rw [hk']; rfl))
    obtain ⟨i, hi⟩ := Option.isSome_iff_exists.mp hsome
    obtain ⟨col', e1, e2, e3⟩ := t4 k i (by rw [dget_map, hi]; rfl)
    rw [e1] at hk'
    obtain rfl := Option.some.inj hk'
    refine ⟨by rw [e2]; simp [c2], ?_⟩
    intro j x hj
    have hrow : ∃ row, (st.point :: (confRows missing st.columns st.maxcolumns ss).2)[j]? = some row ∧ row[i]? = some ((dget x.2 k).getD missing) := by
      cases j with
      | zero =>
        simp only [List.getElem?_cons_zero, Option.some.injEq] at hj
        subst hj
        exact ⟨st.point, rfl, h1.vals k i hi⟩
      | succ j =>
        simp only [List.getElem?_cons_succ] at hj ⊢
        have hjl : j < ss.length := (List.getElem?_eq_some_iff.mp hj).1
        obtain ⟨row, hr⟩ : ∃ row, (confRows missing st.columns st.maxcolumns ss).2[j]? = some row := ⟨_, List.getElem?_eq_getElem (by omega)⟩
        obtain ⟨_, x', hx', hv⟩ := c3 j row hr
        rw [hj] at hx'
        obtain rfl := Option.some.inj hx'
        exact ⟨row, hr, hv k i hi⟩
    obtain ⟨row, hr1, hr2⟩ := hrow
    rw [e3 j row hr1]
    simp only [fullRow, Bool.false_eq_true, if_false]
    unfold pyIndex
    rw [if_pos (by omega)]
    simpa using hr2

/-- **C59 (partial).**  If a later section has an option that the first section lacks then reading the file fails. -/
theorem conffile_new_option_partial (num : ℕ → V) (missing : V) (s : V × Dict α V) (ss : List (V × Dict α V)) (hn : ∀ x ∈ s :: ss, (keys x.2).Nodup)
    (hk : ∃ x ∈ ss, ∃ k, (dget x.2 k).isSome ∧ dget s.2 k = none) : conffile num missing (s :: ss) = none := by
  have h1 := secRow_inv missing [] 1 s.1 s.2 (hn s List.mem_cons_self) confInv_nil
  set st := secRow missing ([] : Dict α ℕ) 1 s.1 s.2 with hst
  obtain ⟨row, hr1, hr2⟩ := confRows_new missing st.columns st.maxcolumns h1.inv ss (fun x hx => hn x (List.mem_cons_of_mem _ hx)) (by
    obtain ⟨x, hx, k, hk1, hk2⟩ := hk
    refine ⟨x, hx, k, hk1, ?_⟩
    by_contra hh
    have hsome : (dget st.columns k).isSome := by
      cases hc : dget st.columns k with
      | none => exact absurd hc hh
      | some i => rfl
    rcases (h1.keys k).mp hsome with h2 | h2
    · simp [dget] at h2
    · rw [hk2] at h2; simp at h2)
  unfold conffile
  have hrows : (confRows missing [] 1 (s :: ss)).2 = st.point :: (confRows missing st.columns st.maxcolumns ss).2 := by
    conv_lhs => unfold confRows
  simp only
  rw [hrows, (points_spec num st.point _ false _).2]
  · rfl
  · rintro ⟨hall, _⟩
    exact hr2 (by rw [hall row hr1, h1.len])

/-- **C59 is false**: two sections with different options. -/
theorem conffile_false : conffile (α := Char) (V := Option ℕ) some none [(some 1, [('x', some 5)]), (some 2, [('y', some 6)])] = none := by
  apply conffile_new_option_partial
  · intro x hx
    simp only [List.mem_cons, List.not_mem_nil, or_false] at hx
    rcases hx with rfl | rfl <;> simp [keys]
  · exact ⟨_, List.mem_singleton_self _, 'y', by simp [dget], by simp [dget]⟩

/-- A section without the option of the first one. -/
example : (conffile (α := Char) (V := Option ℕ) some none [(some 1, [('x', some 5), ('y', some 6)]), (some 2, [('y', some 7)])]).map (·.columns) =
    some [('x', [some 5, none]), ('y', [some 6, some 7])] := by rfl

end PyX.Data
