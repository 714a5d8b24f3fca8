import Verif.NormPath.History

/-!
# C45: splitting a path (`normpath._split_pt`, `pyx/normpath.py:1873-1915`)

A path is the list of its sub-paths, a parameter (`normpathparam`, `normpath.py:1456-1465`) is the index of a sub-path and the parameter in it.  All
sub-paths are assumed to have the same epsilon.
-/

set_option linter.unusedSectionVars false

namespace PyX.NormPath

noncomputable section

open PyX.NormPath.Sub

variable (roots : ℝ → ℝ → ℝ → ℝ → List ℝ) (eps : Option ℝ) (n : ℕ)

/-- The local variables of `_split_pt`: `result` is `done ++ [cur]`. -/
structure SplitState where
  done : List (List Sub)
  cur : List Sub
  params : List ℝ
  index : ℕ

/-- Adding the segments of a sub-path to the result (`normpath.py:1891-1893, 1911-1913`). -/
def splitCollect (done : List (List Sub)) (cur : List Sub) (sub : Sub) (params : List ℝ) : Except Err (List (List Sub) × List Sub) :=
  match segments roots eps n sub params with
  | .error e => .error e
  | .ok [] => .error .index
  | .ok (s0 :: ss) =>
    .ok (done ++ ((cur ++ [s0]) :: ss.map fun s => [s]).dropLast,
      ((cur ++ [s0]) :: ss.map fun s => [s]).getLast (List.cons_ne_nil _ _))

/-- Reversing sub-paths. -/
def reverseAll : List Sub → Except Err (List Sub)
  | [] => .ok []
  | s :: ss =>
    match ok (reversed roots eps n s), reverseAll ss with
    | .ok r, .ok rs => .ok (r :: rs)
    | .error e, _ => .error e
    | _, .error e => .error e

/-- The sub-paths in between (`normpath.py:1896-1903`). -/
def splitBetween (subs : List Sub) (i j : ℕ) : Except Err (List Sub) :=
  if j > i then .ok ((subs.take j).drop (i + 1))
  else reverseAll roots eps n (((subs.take i).drop (j + 1)).reverse)

/-- The number of items of a sub-path (`IndexError` for a wrong index is excluded by the caller). -/
def lenOf (subs : List Sub) (i : ℕ) : ℝ :=
  match subs[i]? with
  | some s => s.items.length
  | none => 0

/-- One turn of the loop (`normpath.py:1882-1908`), after the first. -/
def splitStep (subs : List Sub) (st : SplitState) (p : ℕ × ℝ) : Except Err SplitState :=
  if p.1 = st.index then .ok ⟨st.done, st.cur, st.params ++ [p.2], st.index⟩
  else
    match subs[st.index]? with
    | none => .error .index
    | some sub =>
      match splitCollect roots eps n st.done st.cur sub (st.params ++ [if p.1 > st.index then (sub.items.length : ℝ) else 0]) with
      | .error e => .error e
      | .ok r =>
        match splitBetween roots eps n subs st.index p.1 with
        | .error e => .error e
        | .ok b => .ok ⟨r.1, r.2 ++ b, [if p.1 > st.index then 0 else lenOf subs p.1, p.2], p.1⟩

def splitLoop (subs : List Sub) : SplitState → List (ℕ × ℝ) → Except Err SplitState
  | st, [] => .ok st
  | st, p :: ps =>
    match splitStep roots eps n subs st p with
    | .ok st' => splitLoop subs st' ps
    | .error e => .error e

/-- `_split_pt`. -/
def split (subs : List Sub) (params : List (ℕ × ℝ)) : Except Err (List (List Sub)) :=
  match params with
  | [] => .ok [subs]
  | p :: ps =>
    match splitLoop roots eps n subs ⟨[], subs.take p.1, [0, p.2], p.1⟩ ps with
    | .error e => .error e
    | .ok st =>
      match subs[st.index]? with
      | none => .error .index
      | some sub =>
        match splitCollect roots eps n st.done st.cur sub (st.params ++ [(sub.items.length : ℝ)]) with
        | .error e => .error e
        | .ok r => .ok (r.1 ++ [r.2 ++ subs.drop (st.index + 1)])

/-! ## Specification -/

/-- The stretch of a path between two parameters; `none` is the begin and the end of the path, respectively. When the second parameter is before the first one, the stretch is run through backwards. -/
def Stretch (subs : List Sub) (a b : Option (ℕ × ℝ)) (piece : List Sub) : Prop :=
  match a, b with
  | none, none => piece = subs
  | none, some q => ∃ sub c, subs[q.1]? = some sub ∧ Piece roots eps n sub.items 0 q.2 c ∧ piece = subs.take q.1 ++ [c]
  | some p, none => ∃ sub c, subs[p.1]? = some sub ∧ Piece roots eps n sub.items p.2 sub.items.length c ∧
      piece = c :: subs.drop (p.1 + 1)
  | some p, some q =>
    (p.1 = q.1 ∧ ∃ sub c, subs[p.1]? = some sub ∧ Piece roots eps n sub.items p.2 q.2 c ∧ piece = [c]) ∨
    (p.1 < q.1 ∧ ∃ sub sub' c c', subs[p.1]? = some sub ∧ subs[q.1]? = some sub' ∧
      Piece roots eps n sub.items p.2 sub.items.length c ∧ Piece roots eps n sub'.items 0 q.2 c' ∧
      piece = c :: ((subs.take q.1).drop (p.1 + 1) ++ [c'])) ∨
    (q.1 < p.1 ∧ ∃ sub sub' c c' mid, subs[p.1]? = some sub ∧ subs[q.1]? = some sub' ∧
      Piece roots eps n sub.items p.2 0 c ∧ Piece roots eps n sub'.items sub'.items.length q.2 c' ∧
      List.Forall₂ (fun s r => Piece roots eps n s.items s.items.length 0 r) ((subs.take p.1).drop (q.1 + 1)).reverse mid ∧
      piece = c :: (mid ++ [c']))

/-- The parameter before piece `j`. -/
def before (ts : List (ℕ × ℝ)) (j : ℕ) : Option (ℕ × ℝ) := if j = 0 then none else ts[j - 1]?

/-! ## Proof -/

variable {roots eps n}

theorem splitCollect_spec (done : List (List Sub)) (cur : List Sub) (sub : Sub) (params : List ℝ) (r : List (List Sub) × List Sub)
    (ho : sub.closed = false) (hi : sub.items ≠ []) (h : splitCollect roots eps n done cur sub params = .ok r) :
    ∃ s0 ss, ss.length + 2 = params.length ∧ r.1 ++ [r.2] = done ++ (cur ++ [s0]) :: ss.map (fun s => [s]) ∧
      ∀ (i : ℕ) (c : Sub), (s0 :: ss)[i]? = some c → ∃ a b, params[i]? = some a ∧ params[i + 1]? = some b ∧
        Piece roots eps n sub.items a b c := by
  unfold splitCollect at h
  cases hs : segments roots eps n sub params with
  | error e => rw [hs] at h; simp at h
  | ok l =>
    have ho' : segmentsOpen roots eps n sub params = .ok l := by
      unfold segments at hs
      cases hr : segmentsOpen roots eps n sub params with
      | error e => rw [hr] at hs; simp at hs
      | ok l' =>
        rw [hr] at hs
        simp only [Except.ok.injEq] at hs
        rw [if_neg (by simp [ho])] at hs
        rw [hs]
    obtain ⟨h1, h2⟩ := segmentsOpen_pieces roots eps n sub params l hi ho'
    rw [hs] at h
    cases l with
    | nil => simp at h
    | cons s0 ss =>
      simp only [Except.ok.injEq] at h
      refine ⟨s0, ss, by simpa using h1, ?_, h2⟩
      subst h
      simp only [List.append_assoc, List.dropLast_append_getLast]

theorem Stretch.congr {subs : List Sub} {a a' b b' : Option (ℕ × ℝ)} {p : List Sub} (h : Stretch roots eps n subs a b p) (ha : a = a') (hb : b = b') :
    Stretch roots eps n subs a' b' p := by subst ha; subst hb; exact h

/-- The state after the parameters `ts`. -/
structure SplitCond (roots : ℝ → ℝ → ℝ → ℝ → List ℝ) (eps : Option ℝ) (n : ℕ) (subs : List Sub) (st : SplitState) (ts : List (ℕ × ℝ))
    (p0 : ℝ) (ps : List ℝ) : Prop where
  params : st.params = p0 :: ps
  nonempty : ps ≠ []
  count : st.done.length + ps.length = ts.length
  done : ∀ (j : ℕ) (piece : List Sub), st.done[j]? = some piece → ∃ b, ts[j]? = some b ∧ Stretch roots eps n subs (before ts j) (some b) piece
  pending : ∀ (j : ℕ) (p : ℝ), ps[j]? = some p → ts[st.done.length + j]? = some (st.index, p)
  cur : ∀ (c sub : Sub) (p : ℝ), subs[st.index]? = some sub → ps[0]? = some p → Piece roots eps n sub.items p0 p c →
    Stretch roots eps n subs (before ts st.done.length) (some (st.index, p)) (st.cur ++ [c])

/-- The pieces completed by collecting: all but the last one, which begins at the last parameter. -/
theorem split_collected (subs : List Sub) (st : SplitState) (ts : List (ℕ × ℝ)) (p0 : ℝ) (ps : List ℝ)
    (hc : SplitCond roots eps n subs st ts p0 ps) (sub : Sub) (hget : subs[st.index]? = some sub) (ho : sub.closed = false)
    (hi : sub.items ≠ []) (x : ℝ) (r : List (List Sub) × List Sub)
    (h : splitCollect roots eps n st.done st.cur sub (st.params ++ [x]) = .ok r) :
    r.1.length = ts.length ∧
    (∀ (j : ℕ) (piece : List Sub), r.1[j]? = some piece → ∃ b, ts[j]? = some b ∧ Stretch roots eps n subs (before ts j) (some b) piece) ∧
    ∃ c t, r.2 = [c] ∧ ts[ts.length - 1]? = some (st.index, t) ∧ Piece roots eps n sub.items t x c := by
  obtain ⟨s0, ss, hlen, hres, hpc⟩ := splitCollect_spec st.done st.cur sub _ r ho hi h
  rw [hc.params] at hlen hpc
  have hpl : 0 < ps.length := List.length_pos_iff.mpr hc.nonempty
  simp only [List.cons_append, List.length_cons, List.length_append, List.length_nil] at hlen
  have hcount := hc.count
  obtain ⟨e1, e2⟩ := snoc_append _ _ _ _ hres (List.cons_ne_nil _ _)
  have hssl : ss.length = ps.length := by omega
  have hrl : r.1.length = ts.length := by rw [e1]; simp; omega
  -- values of the parameters
  have hP : ∀ (i : ℕ) (q : ℝ), ps[i]? = some q → (p0 :: (ps ++ [x]))[i + 1]? = some q := by
    intro i q hq
    rw [List.getElem?_cons_succ, List.getElem?_append_left (List.getElem?_eq_some_iff.mp hq).1]
    exact hq
  refine ⟨hrl, ?_, ?_⟩
  · intro j piece hj
    rw [e1] at hj
    by_cases hj1 : j < st.done.length
    · rw [List.getElem?_append_left hj1] at hj
      exact hc.done j piece hj
    · rw [List.getElem?_append_right (by omega)] at hj
      have hj2 := (List.getElem?_eq_some_iff.mp hj).1
      simp only [List.length_dropLast, List.length_cons, List.length_map, Nat.add_sub_cancel] at hj2
      rw [List.getElem?_dropLast, if_pos (by simpa using hj2)] at hj
      obtain ⟨q, hq⟩ : ∃ q, ps[j - st.done.length]? = some q := ⟨_, List.getElem?_eq_getElem (by omega)⟩
      have hpend := hc.pending _ _ hq
      have i1 : st.done.length + (j - st.done.length) = j := by omega
      rw [i1] at hpend
      refine ⟨_, hpend, ?_⟩
      cases hd : j - st.done.length with
      | zero =>
        rw [hd] at hj
        simp only [List.getElem?_cons_zero, Option.some.injEq] at hj
        subst hj
        obtain ⟨a, b, ha, hb, hp⟩ := hpc 0 s0 rfl
        simp only [List.cons_append, List.getElem?_cons_zero, Option.some.injEq] at ha
        subst ha
        have hjK : j = st.done.length := by omega
        rw [List.cons_append, hP 0 _ (by rw [← hd]; exact hq)] at hb
        simp only [Option.some.injEq] at hb
        subst hb
        have := hc.cur s0 sub q hget (by rw [← hq, hd]) hp
        rw [← hjK] at this
        exact this
      | succ m =>
        rw [hd] at hj
        simp only [List.getElem?_cons_succ, List.getElem?_map] at hj
        cases hm : ss[m]? with
        | none => rw [hm] at hj; simp at hj
        | some c =>
          rw [hm] at hj
          simp only [Option.map_some, Option.some.injEq] at hj
          subst hj
          obtain ⟨a, b, ha, hb, hp⟩ := hpc (m + 1) c (by simpa using hm)
          have hqm : ps[m]? = some ps[m] := List.getElem?_eq_getElem (by omega)
          rw [List.cons_append, hP m _ hqm] at ha
          rw [List.cons_append, hP (m + 1) _ (by rw [← hd]; exact hq)] at hb
          simp only [Option.some.injEq] at ha hb
          subst ha
          subst hb
          have hpm := hc.pending _ _ hqm
          have i2 : st.done.length + m = j - 1 := by omega
          rw [i2] at hpm
          have hbef : before ts j = some (st.index, ps[m]) := by
            unfold before
            rw [if_neg (by omega), hpm]
          rw [hbef]
          exact Or.inl ⟨rfl, sub, c, hget, hp, rfl⟩
  · obtain ⟨m, hm⟩ : ∃ m, ss.length = m + 1 := ⟨ss.length - 1, by omega⟩
    have hlast : (ss[m]?) = some ss[m] := List.getElem?_eq_getElem (by omega)
    have hqm : ps[m]? = some ps[m] := List.getElem?_eq_getElem (by omega)
    obtain ⟨a, b, ha, hb, hp⟩ := hpc (m + 1) ss[m] (by simp [hlast])
    rw [List.cons_append, hP m _ hqm] at ha
    simp only [Option.some.injEq] at ha
    subst ha
    have hbx : b = x := by
      have : (ps ++ [x])[m + 1]? = some x := by
        have : m + 1 = ps.length := by omega
        rw [this, List.getElem?_concat_length]
      rw [List.cons_append, List.getElem?_cons_succ, this] at hb
      exact (Option.some.inj hb).symm
    subst hbx
    refine ⟨ss[m], ps[m], ?_, ?_, hp⟩
    · rw [List.getLast?_cons, List.getLast?_map, List.getLast?_eq_getElem?, hm] at e2
      simp only [Nat.add_sub_cancel, hlast, Option.map_some, Option.getD_some, Option.some.injEq] at e2
      exact e2.symm
    · have := hc.pending _ _ hqm
      rw [← this]
      congr 1
      omega

theorem before_append (ts : List (ℕ × ℝ)) (t : ℕ × ℝ) (j : ℕ) (hj : j ≤ ts.length) : before (ts ++ [t]) j = before ts j := by
  unfold before
  by_cases h0 : j = 0
  · rw [if_pos h0, if_pos h0]
  · rw [if_neg h0, if_neg h0, List.getElem?_append_left (by omega)]

/-- Sub-paths reversed as a whole. -/
theorem reverseAll_spec (l : List Sub) (hl : ∀ s ∈ l, s.closed = false ∧ s.items ≠ []) (m : List Sub) (h : reverseAll roots eps n l = .ok m) :
    List.Forall₂ (fun s r => Piece roots eps n s.items s.items.length 0 r) l m := by
  induction l generalizing m with
  | nil =>
    simp only [reverseAll, Except.ok.injEq] at h
    subst h
    exact .nil
  | cons s ss ih =>
    simp only [reverseAll] at h
    obtain ⟨ho, hi⟩ := hl s List.mem_cons_self
    unfold reversed at h
    rw [ho, make_open] at h
    cases hr : extend roots eps n fresh (s.items.reverse.map Item.reversed) with
    | mk r e =>
      cases hrs : reverseAll roots eps n ss with
      | error e' => rw [hr, hrs] at h; cases e <;> simp [ok] at h
      | ok rs =>
        cases e with
        | some e => rw [hr, hrs] at h; simp [ok] at h
        | none =>
          simp only [hr, hrs, ok, Except.ok.injEq] at h
          subst h
          refine .cons ⟨_, by simpa using hi, ?_, hr⟩ (ih (fun t ht => hl t (List.mem_cons_of_mem _ ht)) rs hrs)
          have := way_backward s.items 0 s.items.length 0 (Nat.zero_le _) le_rfl (by simp)
          simpa using this

theorem splitStep_cond (subs : List Sub) (hsubs : ∀ s ∈ subs, s.closed = false ∧ s.items ≠ []) (st st' : SplitState) (ts : List (ℕ × ℝ)) (p0 : ℝ)
    (ps : List ℝ) (hc : SplitCond roots eps n subs st ts p0 ps) (p : ℕ × ℝ)
    (h : splitStep roots eps n subs st p = .ok st') :
    st'.index = p.1 ∧ ∃ p0' ps', SplitCond roots eps n subs st' (ts ++ [p]) p0' ps' := by
  have hcount := hc.count
  have hpl : 0 < ps.length := List.length_pos_iff.mpr hc.nonempty
  unfold splitStep at h
  by_cases hidx : p.1 = st.index
  · rw [if_pos hidx] at h
    simp only [Except.ok.injEq] at h
    subst h
    refine ⟨hidx.symm, p0, ps ++ [p.2], ?_⟩
    constructor
    · simp [hc.params]
    · simp
    · simp; omega
    · intro j piece hj
      obtain ⟨b, hb, hs⟩ := hc.done j piece hj
      have hjl := (List.getElem?_eq_some_iff.mp hb).1
      exact ⟨b, by rw [List.getElem?_append_left hjl]; exact hb, by rw [before_append ts p j (by omega)]; exact hs⟩
    · intro j q hq
      rcases Nat.lt_trichotomy j ps.length with hlt | heq | hgt
      · rw [List.getElem?_append_left hlt] at hq
        have := hc.pending j q hq
        rw [List.getElem?_append_left (List.getElem?_eq_some_iff.mp this).1]
        exact this
      · subst heq
        simp only [List.getElem?_concat_length, Option.some.injEq] at hq
        subst hq
        rw [hcount, List.getElem?_concat_length]
        exact congrArg some (Prod.ext hidx rfl)
      · rw [List.getElem?_eq_none (by simp; omega)] at hq
        simp at hq
    · intro c sub q hget hq hpc
      rw [List.getElem?_append_left hpl] at hq
      have := hc.cur c sub q hget hq hpc
      rw [before_append ts p _ (by simp only; omega)]
      exact this
  · rw [if_neg hidx] at h
    cases hget : subs[st.index]? with
    | none => rw [hget] at h; simp at h
    | some sub =>
    rw [hget] at h
    simp only at h
    by_cases hgt : p.1 > st.index
    · rw [if_pos hgt] at h
      obtain ⟨ho, hi⟩ := hsubs sub (List.mem_of_getElem? hget)
      cases hcol : splitCollect roots eps n st.done st.cur sub (st.params ++ [(sub.items.length : ℝ)]) with
      | error e => rw [hcol] at h; simp at h
      | ok r =>
        rw [hcol] at h
        simp only at h
        unfold splitBetween at h
        rw [if_pos hgt] at h
        simp only [Except.ok.injEq] at h
        obtain ⟨hl, hdone, c, t, hr2, hlast, hpiece⟩ := split_collected subs st ts p0 ps hc sub hget ho hi _ r hcol
        subst h
        refine ⟨rfl, 0, [p.2], ?_⟩
        constructor
        · rw [if_pos hgt]
        · simp
        · simp [hl]
        · intro j piece hj
          obtain ⟨b, hb, hs⟩ := hdone j piece hj
          have hjl := (List.getElem?_eq_some_iff.mp hb).1
          exact ⟨b, by rw [List.getElem?_append_left hjl]; exact hb, by rw [before_append ts p j (by omega)]; exact hs⟩
        · intro j q hq
          cases j with
          | zero =>
            simp only [List.getElem?_cons_zero, Option.some.injEq] at hq
            subst hq
            simp only [Nat.add_zero, hl, List.getElem?_concat_length]
          | succ j => simp at hq
        · intro c' sub' q hget' hq hpc
          simp only [List.getElem?_cons_zero, Option.some.injEq] at hq
          subst hq
          simp only at hget' ⊢
          rw [hl]
          have hb : before (ts ++ [p]) ts.length = some (st.index, t) := by
            rw [before_append ts p _ (le_refl _)]
            unfold before
            rw [if_neg (by omega), hlast]
          rw [hb, hr2]
          exact Or.inr (Or.inl ⟨hgt, sub, sub', c, c', hget, hget', hpiece, hpc, by simp⟩)
    · have hlt : p.1 < st.index := by omega
      rw [if_neg hgt] at h
      obtain ⟨ho, hi⟩ := hsubs sub (List.mem_of_getElem? hget)
      cases hcol : splitCollect roots eps n st.done st.cur sub (st.params ++ [0]) with
      | error e => rw [hcol] at h; simp at h
      | ok r =>
        rw [hcol] at h
        simp only at h
        unfold splitBetween at h
        rw [if_neg hgt] at h
        cases hrev : reverseAll roots eps n (((subs.take st.index).drop (p.1 + 1)).reverse) with
        | error e => rw [hrev] at h; simp at h
        | ok mid =>
        rw [hrev] at h
        simp only [Except.ok.injEq] at h
        have hmid := reverseAll_spec _ (fun s hs => hsubs s (List.mem_of_mem_take (List.mem_of_mem_drop (List.mem_reverse.mp hs)))) mid hrev
        obtain ⟨hl, hdone, c, t, hr2, hlast, hpiece⟩ := split_collected subs st ts p0 ps hc sub hget ho hi _ r hcol
        subst h
        refine ⟨rfl, lenOf subs p.1, [p.2], ?_⟩
        constructor
        · rw [if_neg hgt]
        · simp
        · simp [hl]
        · intro j piece hj
          obtain ⟨b, hb, hs⟩ := hdone j piece hj
          have hjl := (List.getElem?_eq_some_iff.mp hb).1
          exact ⟨b, by rw [List.getElem?_append_left hjl]; exact hb, by rw [before_append ts p j (by omega)]; exact hs⟩
        · intro j q hq
          cases j with
          | zero =>
            simp only [List.getElem?_cons_zero, Option.some.injEq] at hq
            subst hq
            simp only [Nat.add_zero, hl, List.getElem?_concat_length]
          | succ j => simp at hq
        · intro c' sub' q hget' hq hpc
          simp only [List.getElem?_cons_zero, Option.some.injEq] at hq
          subst hq
          simp only at hget' ⊢
          rw [hl]
          have hb : before (ts ++ [p]) ts.length = some (st.index, t) := by
            rw [before_append ts p _ (le_refl _)]
            unfold before
            rw [if_neg (by omega), hlast]
          have hlen : lenOf subs p.1 = sub'.items.length := by
            unfold lenOf
            rw [hget']
          rw [hlen] at hpc
          rw [hb, hr2]
          exact Or.inr (Or.inr ⟨hlt, sub, sub', c, c', mid, hget, hget', hpiece, hpc, hmid, by simp⟩)

theorem splitLoop_cond (subs : List Sub) (hsubs : ∀ s ∈ subs, s.closed = false ∧ s.items ≠ []) (us : List (ℕ × ℝ)) (st st' : SplitState)
    (ts : List (ℕ × ℝ)) (p0 : ℝ) (ps : List ℝ) (hc : SplitCond roots eps n subs st ts p0 ps)
    (h : splitLoop roots eps n subs st us = .ok st') : ∃ p0' ps', SplitCond roots eps n subs st' (ts ++ us) p0' ps' := by
  induction us generalizing st ts p0 ps with
  | nil =>
    simp only [splitLoop, Except.ok.injEq] at h
    subst h
    exact ⟨p0, ps, by simpa using hc⟩
  | cons p us ih =>
    unfold splitLoop at h
    cases hs : splitStep roots eps n subs st p with
    | error e => rw [hs] at h; simp at h
    | ok st1 =>
      rw [hs] at h
      simp only at h
      obtain ⟨hidx, p0', ps', hc'⟩ := splitStep_cond subs hsubs st st1 ts p0 ps hc p hs
      have := ih st1 (ts ++ [p]) p0' ps' hc' h
      simpa using this

/-- **C45.**  Splitting a path of open sub-paths at parameters in any order: there is one piece more than there are parameters.  The first piece
is the stretch up to the first parameter, the last one that from the last parameter, and the others those from one parameter to the next. -/
theorem split_stretches (subs : List Sub) (hsubs : ∀ s ∈ subs, s.closed = false ∧ s.items ≠ []) (params : List (ℕ × ℝ))
    (pieces : List (List Sub)) (h : split roots eps n subs params = .ok pieces) :
    pieces.length = params.length + 1 ∧
    ∀ (j : ℕ) (piece : List Sub), pieces[j]? = some piece → Stretch roots eps n subs (before params j) params[j]? piece := by
  cases params with
  | nil =>
    simp only [split, Except.ok.injEq] at h
    subst h
    refine ⟨rfl, fun j piece hj => ?_⟩
    cases j with
    | zero =>
      simp only [List.getElem?_cons_zero, Option.some.injEq] at hj
      exact hj.symm
    | succ j => simp at hj
  | cons p us =>
    unfold split at h
    cases hloop : splitLoop roots eps n subs ⟨[], subs.take p.1, [0, p.2], p.1⟩ us with
    | error e => simp only [hloop] at h; simp at h
    | ok st =>
      simp only [hloop] at h
      have hc0 : SplitCond roots eps n subs ⟨[], subs.take p.1, [0, p.2], p.1⟩ [p] 0 [p.2] := by
        refine ⟨rfl, by simp, rfl, fun j piece hj => by simp at hj, ?_, ?_⟩
        · intro j q hq
          cases j with
          | zero =>
            simp only [List.getElem?_cons_zero, Option.some.injEq] at hq
            subst hq
            rfl
          | succ j => simp at hq
        · intro c sub q hget hq hpc
          simp only [List.getElem?_cons_zero, Option.some.injEq] at hq
          subst hq
          exact ⟨sub, c, hget, hpc, rfl⟩
      obtain ⟨p0, ps, hc⟩ := splitLoop_cond subs hsubs us _ st [p] 0 [p.2] hc0 hloop
      rw [List.singleton_append] at hc
      cases hget : subs[st.index]? with
      | none => rw [hget] at h; simp at h
      | some sub =>
        rw [hget] at h
        simp only at h
        obtain ⟨ho, hi⟩ := hsubs sub (List.mem_of_getElem? hget)
        cases hcol : splitCollect roots eps n st.done st.cur sub (st.params ++ [(sub.items.length : ℝ)]) with
        | error e => rw [hcol] at h; simp at h
        | ok r =>
          rw [hcol] at h
          simp only [Except.ok.injEq] at h
          obtain ⟨hl, hdone, c, t, hr2, hlast, hpiece⟩ := split_collected subs st _ p0 ps hc sub hget ho hi _ r hcol
          subst h
          refine ⟨by simp [hl], ?_⟩
          intro j piece hj
          rcases Nat.lt_trichotomy j r.1.length with hlt | heq | hgt
          · rw [List.getElem?_append_left hlt] at hj
            obtain ⟨b, hb, hs⟩ := hdone j piece hj
            rw [hb]
            exact hs
          · subst heq
            simp only [List.getElem?_concat_length, Option.some.injEq] at hj
            subst hj
            rw [hl, List.getElem?_eq_none (le_refl _)]
            have hb : before (p :: us) (p :: us).length = some (st.index, t) := by
              unfold before
              rw [if_neg (by simp), hlast]
            rw [hb, hr2]
            exact ⟨sub, c, hget, hpiece, by simp⟩
          · rw [List.getElem?_eq_none (by simp; omega)] at hj
            simp at hj

theorem splitCollect_none (done : List (List Sub)) (cur : List Sub) (sub : Sub) (params : List ℝ) (hn : 0 < n)
    (ho : sub.closed = false) (hi : sub.items ≠ []) (h2 : 2 ≤ params.length) :
    ∃ r, splitCollect roots none n done cur sub params = .ok r := by
  obtain ⟨l, hl⟩ := segmentsOpen_none roots n sub params h2 hn
  have hlen := (segmentsOpen_pieces roots none n sub params l hi hl).1
  unfold splitCollect segments
  rw [hl]
  simp only
  rw [if_neg (by simp [ho])]
  cases l with
  | nil => simp at hlen; omega
  | cons a l => exact ⟨_, rfl⟩

/-- Without epsilon, reversing never fails. -/
theorem reverseAll_none (hn : 0 < n) (l : List Sub) (hl : ∀ s ∈ l, s.closed = false) : ∃ m, reverseAll roots none n l = .ok m := by
  induction l with
  | nil => exact ⟨[], rfl⟩
  | cons s ss ih =>
    obtain ⟨m, hm⟩ := ih fun t ht => hl t (List.mem_cons_of_mem _ ht)
    have hr := extend_none roots n (s.items.reverse.map Item.reversed) fresh (Or.inr hn)
    rw [reverseAll, hm, reversed, hl s List.mem_cons_self, make_open, hr]
    exact ⟨_, rfl⟩

/-- Without epsilon, splitting never fails for valid parameters. -/
theorem split_none (subs : List Sub) (hsubs : ∀ s ∈ subs, s.closed = false ∧ s.items ≠ []) (params : List (ℕ × ℝ))
    (hidx : ∀ p ∈ params, p.1 < subs.length) (hn : 0 < n) :
    ∃ pieces, split roots none n subs params = .ok pieces := by
  have loop : ∀ (us : List (ℕ × ℝ)) (st : SplitState), st.index < subs.length → 1 ≤ st.params.length →
      (∀ p ∈ us, p.1 < subs.length) →
      ∃ st', splitLoop roots none n subs st us = .ok st' ∧ st'.index < subs.length ∧ 1 ≤ st'.params.length := by
    intro us
    induction us with
    | nil => intro st h1 h2 _; exact ⟨st, rfl, h1, h2⟩
    | cons p us ih =>
      intro st h1 h2 hb
      have step : ∃ st1, splitStep roots none n subs st p = .ok st1 ∧ st1.index = p.1 ∧ 1 ≤ st1.params.length := by
        unfold splitStep
        by_cases hi : p.1 = st.index
        · rw [if_pos hi]
          exact ⟨_, rfl, hi.symm, by simp⟩
        · rw [if_neg hi, List.getElem?_eq_getElem h1]
          simp only
          obtain ⟨g1, g2⟩ := hsubs subs[st.index] (List.getElem_mem h1)
          obtain ⟨r, hr⟩ := splitCollect_none (roots := roots) (n := n) st.done st.cur subs[st.index]
            (st.params ++ [if p.1 > st.index then (subs[st.index].items.length : ℝ) else 0]) hn g1 g2 (by simp; omega)
          rw [hr]
          unfold splitBetween
          by_cases hgt : p.1 > st.index
          · simp only [if_pos hgt]
            exact ⟨_, rfl, rfl, by simp⟩
          · obtain ⟨m, hm⟩ := reverseAll_none (roots := roots) (n := n) hn ((subs.take st.index).drop (p.1 + 1)).reverse
              (fun s hs => (hsubs s (List.mem_of_mem_take (List.mem_of_mem_drop (List.mem_reverse.mp hs)))).1)
            simp only [if_neg hgt, hm]
            exact ⟨_, rfl, rfl, by simp⟩
      obtain ⟨st1, e1, e2, e3⟩ := step
      unfold splitLoop
      rw [e1]
      exact ih st1 (by rw [e2]; exact hb p List.mem_cons_self) e3 (fun q hq => hb q (List.mem_cons_of_mem _ hq))
  cases params with
  | nil => exact ⟨_, rfl⟩
  | cons p us =>
    obtain ⟨st, e1, e2, e3⟩ := loop us ⟨[], subs.take p.1, [0, p.2], p.1⟩ (hidx p List.mem_cons_self) (by simp)
      (fun q hq => hidx q (List.mem_cons_of_mem _ hq))
    unfold split
    simp only
    rw [e1]
    simp only
    rw [List.getElem?_eq_getElem e2]
    obtain ⟨g1, g2⟩ := hsubs subs[st.index] (List.getElem_mem e2)
    obtain ⟨r, hr⟩ := splitCollect_none (roots := roots) (n := n) st.done st.cur subs[st.index]
      (st.params ++ [(subs[st.index].items.length : ℝ)]) hn g1 g2 (by simp; omega)
    simp only
    rw [hr]
    exact ⟨_, rfl⟩

/-- **C45**, closed sub-paths: splitting a path consisting of one closed sub-path at `m` parameters gives `m` pieces; the first one consists of the stretch from the last parameter to
the end, followed by that from the begin to the first parameter. -/
theorem split_closed (sub : Sub) (hc : sub.closed = true) (hi : sub.items ≠ []) (params : List ℝ) (hne : params ≠ [])
    (pieces : List (List Sub)) (h : split roots eps n [sub] (params.map fun t => (0, t)) = .ok pieces) :
    pieces.length = params.length ∧ ∃ first last : Sub, ∃ t1 tm,
      params.head? = some t1 ∧ params.getLast? = some tm ∧
      Piece roots eps n sub.items 0 t1 first ∧ Piece roots eps n sub.items tm sub.items.length last ∧
      pieces[0]? = some [⟨last.items ++ first.items, last.closed, last.skipped⟩] ∧
      ∀ (j : ℕ) (piece : List Sub), 0 < j → pieces[j]? = some piece → ∃ c a b, params[j - 1]? = some a ∧ params[j]? = some b ∧
        piece = [c] ∧ Piece roots eps n sub.items a b c := by
  cases params with
  | nil => exact absurd rfl hne
  | cons t1 us =>
    have loop : ∀ (us : List ℝ) (st : SplitState), st.index = 0 →
        splitLoop roots eps n [sub] st (us.map fun t => (0, t)) = .ok ⟨st.done, st.cur, st.params ++ us, 0⟩ := by
      intro us
      induction us with
      | nil => intro st h0; cases st; simp only at h0; subst h0; simp [splitLoop]
      | cons u us ih =>
        intro st h0
        simp only [List.map_cons, splitLoop, splitStep]
        rw [if_pos h0.symm]
        simp only
        rw [ih ⟨st.done, st.cur, st.params ++ [u], st.index⟩ h0]
        simp
    unfold split at h
    simp only [List.map_cons] at h
    rw [loop us _ rfl] at h
    simp only [List.getElem?_cons_zero, List.take_zero] at h
    unfold splitCollect segments at h
    generalize hP : ([0, t1] ++ us ++ [(sub.items.length : ℝ)]) = P at h
    cases hraw : segmentsOpen roots eps n sub P with
    | error e => simp only [hraw] at h; simp at h
    | ok raw =>
      simp only [hraw] at h
      have hfe : fromEndToEnd sub.items.length P := by
        left
        rw [← hP]
        exact ⟨rfl, List.getLast?_concat⟩
      rw [if_pos ⟨hi, hc, hfe⟩] at h
      obtain ⟨hlen, hpc⟩ := segmentsOpen_pieces roots eps n sub P raw hi hraw
      have hPl : P.length = us.length + 3 := by rw [← hP]; simp
      match raw, hraw, hlen, hpc, h with
      | [], _, hlen, _, _ => simp at hlen; omega
      | [_], _, hlen, _, _ => simp at hlen; omega
      | first :: second :: rest, _, hlen, hpc, h =>
        simp only [joinEnds, List.nil_append, List.drop_one, List.tail_cons, List.append_nil, Except.ok.injEq,
          Nat.zero_add] at h
        rw [List.dropLast_append_getLast] at h
        subst h
        simp only [List.length_cons] at hlen
        -- the values of the parameters
        have hPs : ∀ (i : ℕ) (v : ℝ), (t1 :: us)[i]? = some v → P[i + 1]? = some v := by
          intro i v hv
          have e : P = 0 :: ((t1 :: us) ++ [(sub.items.length : ℝ)]) := by rw [← hP]; simp
          rw [e, List.getElem?_cons_succ, List.getElem?_append_left (List.getElem?_eq_some_iff.mp hv).1]
          exact hv
        have hPlast : P[us.length + 2]? = some (sub.items.length : ℝ) := by
          have e : P = 0 :: ((t1 :: us) ++ [(sub.items.length : ℝ)]) := by rw [← hP]; simp
          rw [e, List.getElem?_cons_succ]
          have : us.length + 1 = (t1 :: us).length := by simp
          rw [this, List.getElem?_concat_length]
        have hP0 : P[0]? = some 0 := by rw [← hP]; rfl
        have htm : (t1 :: us)[us.length]? = some ((t1 :: us)[us.length]'(by simp)) := List.getElem?_eq_getElem (by simp)
        refine ⟨by simp; omega, first, (second :: rest).getLast (List.cons_ne_nil _ _), t1, (t1 :: us)[us.length]'(by simp), rfl,
          by rw [List.getLast?_eq_getElem?]; simp, ?_, ?_, rfl, ?_⟩
        · obtain ⟨a, b, ha, hb, hp⟩ := hpc 0 first rfl
          rw [hP0] at ha
          rw [hPs 0 t1 rfl] at hb
          cases ha; cases hb
          exact hp
        · have hg : (first :: second :: rest)[us.length + 1]? = some ((second :: rest).getLast (List.cons_ne_nil _ _)) := by
            rw [List.getElem?_cons_succ, ← List.getLast?_eq_getLast_of_ne_nil, List.getLast?_eq_getElem?]
            congr 1
            simp; omega
          obtain ⟨a, b, ha, hb, hp⟩ := hpc _ _ hg
          rw [hPs _ _ htm] at ha
          rw [hPlast] at hb
          cases ha; cases hb
          exact hp
        · intro j piece hj hpj
          obtain ⟨m, rfl⟩ : ∃ m, j = m + 1 := ⟨j - 1, by omega⟩
          simp only [List.getElem?_cons_succ, List.getElem?_map] at hpj
          cases hm : ((second :: rest).dropLast)[m]? with
          | none => rw [hm] at hpj; simp at hpj
          | some c =>
            rw [hm] at hpj
            simp only [Option.map_some, Option.some.injEq] at hpj
            subst hpj
            have hml := (List.getElem?_eq_some_iff.mp hm).1
            simp only [List.length_dropLast, List.length_cons, Nat.add_sub_cancel] at hml
            rw [List.getElem?_dropLast, if_pos (by simpa using hml)] at hm
            obtain ⟨a, b, ha, hb, hp⟩ := hpc (m + 1) c (by rw [List.getElem?_cons_succ]; exact hm)
            have h1 : (t1 :: us)[m]? = some ((t1 :: us)[m]'(by simp; omega)) := List.getElem?_eq_getElem (by simp; omega)
            have h2 : (t1 :: us)[m + 1]? = some ((t1 :: us)[m + 1]'(by simp; omega)) := List.getElem?_eq_getElem (by simp; omega)
            rw [hPs _ _ h1] at ha
            rw [hPs _ _ h2] at hb
            cases ha; cases hb
            exact ⟨c, _, _, by simp [h1], h2, rfl, hp⟩

/-- Three split points on a path of two sub-paths: four pieces. -/
example : ∃ pieces, split roots none 1
    [⟨[.line ⟨0, 0, 1, 0⟩, .line ⟨1, 0, 1, 1⟩], false, none⟩, ⟨[.curve ⟨5, 0, 6, 0, 6, 1, 5, 1⟩], false, none⟩]
    [(0, 1 / 2), (0, 3 / 2), (1, 1 / 3)] = .ok pieces ∧ pieces.length = 4 := by
  have hs : ∀ s ∈ ([⟨[.line ⟨0, 0, 1, 0⟩, .line ⟨1, 0, 1, 1⟩], false, none⟩, ⟨[.curve ⟨5, 0, 6, 0, 6, 1, 5, 1⟩], false, none⟩] : List Sub),
      s.closed = false ∧ s.items ≠ [] := by
    intro s hs
    simp only [List.mem_cons, List.not_mem_nil, or_false] at hs
    rcases hs with rfl | rfl <;> simp
  obtain ⟨pieces, hp⟩ := split_none (roots := roots) (n := 1) _ hs [(0, 1 / 2), (0, 3 / 2), (1, 1 / 3)] (by simp) one_pos
  exact ⟨pieces, hp, (split_stretches _ hs _ pieces hp).1⟩

end

end PyX.NormPath
