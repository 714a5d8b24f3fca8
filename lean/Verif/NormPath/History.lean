import Verif.NormPath.SegProps

/-!
# C44: sub-paths after any history of operations
-/

set_option linter.unusedSectionVars false

namespace PyX.NormPath

noncomputable section

namespace Sub

variable (roots : ℝ → ℝ → ℝ → ℝ → List ℝ) (eps : Option ℝ) (R : ℝ × ℝ → ℝ × ℝ → Prop)

/-- Sub-paths which can be obtained.  Conditions on the input: items to be appended start at the end of the sub-path (this is
also checked by the code if there is an epsilon, which makes this condition unnecessary for `R` being "closer than epsilon", see `Auto`).
Without epsilon the code does not check whether the sub-path is closed, hence this is a condition here
(`normpath.py:876-878`).  An operation may fail: the state left by the failing operation is included. -/
inductive Reach : Sub → Prop
  | fresh : Reach fresh
  | append (n : ℕ) (s : Sub) (i : Item ℝ) : Reach s → (eps = none → s.closed = false) → (Auto eps R ∨ Fits R s i) →
      Reach (append roots eps n s i).1
  | extend (n : ℕ) (s : Sub) (is : List (Item ℝ)) : Reach s → (eps = none → s.closed = false) →
      (Auto eps R ∨ (is.IsChain (fun i j => R i.end_ j.begin_) ∧ ∀ i, is.head? = some i → Fits R s i)) →
      Reach (extend roots eps n s is).1
  | make (n : ℕ) (is : List (Item ℝ)) (closed : Bool) : (Auto eps R ∨ is.IsChain fun i j => R i.end_ j.begin_) →
      Reach (make roots eps n is closed).1
  | flush (n : ℕ) (s : Sub) : Reach s → s.closed = false → Reach (flush roots eps n s).1
  | close (n : ℕ) (s : Sub) : Reach s → Reach (close roots eps n s).1
  | join (n : ℕ) (s o : Sub) : Reach s → Reach o → (eps = none → s.closed = false) → Reach (join roots eps n s o).1
  | reversed (n : ℕ) (s : Sub) : Reach s → Reach (reversed roots eps n s).1
  | transformed (n : ℕ) (s : Sub) (t : Trafo ℝ) : Reach s → (Auto eps R ∨ ∀ p q, R p q → R (t.apply p) (t.apply q)) →
      Reach (transformed roots eps n s t).1
  | segments (n : ℕ) (s : Sub) (params : List ℝ) (l : List Sub) (c : Sub) : Reach s →
      (∀ t ∈ params, 0 ≤ t ∧ t ≤ s.items.length) → segments roots eps n s params = .ok l →
      (s.closed = true → ∀ raw, segmentsOpen roots eps n s params = .ok raw → ∀ p ∈ raw, p.skipped = none) →
      c ∈ l → Reach c

variable {R}

theorem fresh_inv_of_empty (s : Sub) (hs : Inv eps R s) (h : s.items = []) : s.closed = false := by
  cases hc : s.closed with
  | false => rfl
  | true =>
    obtain ⟨_, _, _, h1, _⟩ := hs.closed hc
    rw [h] at h1
    simp at h1

/-- The pieces are connected. -/
theorem segmentsOpen_inv (hrefl : ∀ p, R p p) (hsymm : ∀ p q, R p q → R q p) (n : ℕ) (s : Sub) (params : List ℝ) (l : List Sub)
    (hs : Inv eps R s) (hp : ∀ t ∈ params, 0 ≤ t ∧ t ≤ s.items.length) (h : segmentsOpen roots eps n s params = .ok l) :
    ∀ c ∈ l, Inv eps R c := by
  intro c hc
  by_cases hi : s.items = []
  · unfold segmentsOpen at h
    by_cases h2 : params.length < 2
    · rw [if_pos h2] at h; simp at h
    rw [if_neg h2, if_pos hi] at h
    simp only [Except.ok.injEq] at h
    subst h
    rw [List.eq_of_mem_replicate hc]
    exact hs
  · obtain ⟨i, hi'⟩ := List.mem_iff_getElem?.mp hc
    obtain ⟨a, b, ha, hb, hpiece⟩ := (segmentsOpen_pieces roots eps n s params l hi h).2 i c hi'
    exact hpiece.inv roots eps n R hrefl hsymm s.items a b c hs.chain (hp a (List.mem_of_getElem? ha))
      (hp b (List.mem_of_getElem? hb))

theorem piece_begin (n : ℕ) (items : List (Item ℝ)) (a b : ℝ) (c : Sub) (h : Piece roots eps n items a b c) (hrefl : ∀ p, R p p)
    (hsymm : ∀ p q, R p q → R q p) (hchain : items.IsChain fun i j => R i.end_ j.begin_)
    (ha : 0 ≤ a ∧ a ≤ items.length) (hb : 0 ≤ b ∧ b ≤ items.length) :
    ∃ p q, c.begin_ = some p ∧ c.end_ = some q ∧ c.closed = false ∧
      (∃ (k : ℕ) (item : Item ℝ) (x : ℝ), items[k]? = some item ∧ a = k + x ∧ p = item.at_ x ∧ 0 ≤ x ∧ x ≤ 1) ∧
      ∃ (k : ℕ) (item : Item ℝ) (x : ℝ), items[k]? = some item ∧ b = k + x ∧ q = item.at_ x ∧ 0 ≤ x ∧ x ≤ 1 := by
  obtain ⟨parts, hne, hway, hext⟩ := h
  have hch := hway.chain R hrefl hsymm hchain hb ha
  have g := extend_good roots eps hrefl n parts fresh (inv_fresh eps hrefl) rfl
    (Or.inr ⟨hch, fun _ _ _ last hl => by simp [Sub.fresh] at hl⟩)
  rw [hext] at g
  -- the ends of a way, within the items
  have key : ∀ {t u : ℝ} {l : List (Item ℝ)}, Way items b t u l → 0 ≤ t ∧ t ≤ items.length → l ≠ [] →
      ∃ first last, l.head? = some first ∧ l.getLast? = some last ∧
        (∃ (k : ℕ) (item : Item ℝ) (x : ℝ), items[k]? = some item ∧ t = k + x ∧ first.begin_ = item.at_ x ∧ 0 ≤ x ∧ x ≤ 1) ∧
        ∃ (k : ℕ) (item : Item ℝ) (x : ℝ), items[k]? = some item ∧ u = k + x ∧ last.end_ = item.at_ x ∧ 0 ≤ x ∧ x ≤ 1 := by
    intro t u l hw
    induction hw with
    | nil => intro _ h0; exact absurd rfl h0
    | cons k item part x y t u v rest get tr ht hu up down within tail ih =>
      intro ht' _
      obtain ⟨⟨x0, x1⟩, y0, y1⟩ := within hb.1 hb.2 ht'.1 ht'.2
      have hu' : 0 ≤ u ∧ u ≤ items.length := by
        rcases le_total t b with h | h
        · obtain ⟨h1, h2⟩ := up h; constructor <;> linarith [ht'.1, hb.2]
        · obtain ⟨h1, h2⟩ := down h; constructor <;> linarith [ht'.2, hb.1]
      cases rest with
      | nil =>
        cases tail
        exact ⟨part, part, rfl, rfl, ⟨k, item, x, get, ht, tr.begin_, x0, x1⟩, ⟨k, item, y, get, hu, tr.end_, y0, y1⟩⟩
      | cons r rest =>
        obtain ⟨first, last, _, h2, _, h4⟩ := ih hu' (by simp)
        exact ⟨part, last, rfl, by rw [List.getLast?_cons_cons]; exact h2, ⟨k, item, x, get, ht, tr.begin_, x0, x1⟩, h4⟩
  obtain ⟨first, last, h1, h2, h3, h4⟩ := key hway ha hne
  obtain ⟨g1, g2⟩ := g.2.2 rfl first last h1 h2
  exact ⟨first.begin_, last.end_, g2, g1, g.2.1, h3, h4⟩

/-- Parameter 0 is the begin of the first item only, parameter `len` is the end of the last one only. -/
theorem at_zero (items : List (Item ℝ)) (k : ℕ) (item : Item ℝ) (x : ℝ) (hk : items[k]? = some item) (h : (0 : ℝ) = k + x) (h0 : 0 ≤ x) :
    items.head? = some item ∧ item.at_ x = item.begin_ := by
  have h1 : (0 : ℝ) ≤ k := Nat.cast_nonneg k
  have hx : x = 0 := by linarith
  have hk0 : (k : ℝ) = 0 := by linarith
  have : k = 0 := by exact_mod_cast hk0
  subst this
  rw [hx, at_begin]
  exact ⟨by rw [List.head?_eq_getElem?]; exact hk, rfl⟩

theorem at_len (items : List (Item ℝ)) (k : ℕ) (item : Item ℝ) (x : ℝ) (hk : items[k]? = some item) (h : (items.length : ℝ) = k + x)
    (h1 : x ≤ 1) : items.getLast? = some item ∧ item.at_ x = item.end_ := by
  have hlt : k < items.length := (List.getElem?_eq_some_iff.mp hk).1
  have h2 : (k : ℝ) + 1 ≤ items.length := by exact_mod_cast hlt
  have hx : x = 1 := by linarith
  have h3 : (items.length : ℝ) = k + 1 := by linarith
  have h4 : items.length = k + 1 := by exact_mod_cast h3
  rw [hx, at_end, List.getLast?_eq_getElem?, h4]
  exact ⟨by simpa using hk, rfl⟩

theorem segments_inv (hrefl : ∀ p, R p p) (hsymm : ∀ p q, R p q → R q p) (n : ℕ) (s : Sub) (params : List ℝ) (l : List Sub)
    (hs : Inv eps R s) (hp : ∀ t ∈ params, 0 ≤ t ∧ t ≤ s.items.length) (h : segments roots eps n s params = .ok l)
    (hskip : s.closed = true → ∀ raw, segmentsOpen roots eps n s params = .ok raw → ∀ p ∈ raw, p.skipped = none) :
    ∀ c ∈ l, Inv eps R c := by
  unfold segments at h
  cases hraw : segmentsOpen roots eps n s params with
  | error e => rw [hraw] at h; simp at h
  | ok raw =>
    rw [hraw] at h
    simp only [Except.ok.injEq] at h
    have hinv := segmentsOpen_inv roots eps hrefl hsymm n s params raw hs hp hraw
    by_cases hj : s.items ≠ [] ∧ s.closed ∧ fromEndToEnd s.items.length params
    swap
    · rw [if_neg hj] at h
      subst h
      exact hinv
    rw [if_pos hj] at h
    subst h
    obtain ⟨hi, hcl, hends⟩ := hj
    obtain ⟨hlen, hpieces⟩ := segmentsOpen_pieces roots eps n s params raw hi hraw
    obtain ⟨_, f, la, hf, hla, hfl⟩ := hs.closed hcl
    have hne : raw ≠ [] := by
      intro h0
      subst h0
      unfold segmentsOpen at hraw
      by_cases h2 : params.length < 2
      · rw [if_pos h2] at hraw; simp at hraw
      · simp at hlen; omega
    have hrl : 0 < raw.length := List.length_pos_iff.mpr hne
    -- first and last piece
    obtain ⟨a, b, ha, hb, hp1⟩ := hpieces 0 raw[0] (List.getElem?_eq_getElem hrl)
    obtain ⟨a', b', ha', hb', hp2⟩ := hpieces (raw.length - 1) raw[raw.length - 1] (List.getElem?_eq_getElem (by omega))
    have mem : ∀ {i : ℕ} {t : ℝ}, params[i]? = some t → 0 ≤ t ∧ t ≤ s.items.length := fun h => hp _ (List.mem_of_getElem? h)
    obtain ⟨p, _, q1, _, _, ⟨k, item, x, e1, e2, e3, e4, e5⟩, _⟩ :=
      piece_begin roots eps n s.items a b _ hp1 hrefl hsymm hs.chain (mem ha) (mem hb)
    obtain ⟨_, q, _, q2, q3, _, ⟨k', item', x', e1', e2', e3', e4', e5'⟩⟩ :=
      piece_begin roots eps n s.items a' b' _ hp2 hrefl hsymm hs.chain (mem ha') (mem hb')
    have hpq : q = p := by
      have hhead : params.head? = some a := by rw [List.head?_eq_getElem?]; exact ha
      have hlast : params.getLast? = some b' := by
        rw [List.getLast?_eq_getElem?, ← hb']; congr 1; omega
      rcases hends with ⟨g1, g2⟩ | ⟨g1, g2⟩
      · rw [hhead] at g1
        rw [hlast] at g2
        cases g1; cases g2
        obtain ⟨u1, u2⟩ := at_zero s.items k item x e1 e2 e4
        obtain ⟨v1, v2⟩ := at_len s.items k' item' x' e1' e2' e5'
        rw [hf] at u1; rw [hla] at v1
        cases u1; cases v1
        rw [e3, e3', u2, v2, hfl]
      · rw [hlast] at g1
        rw [hhead] at g2
        cases g1; cases g2
        obtain ⟨u1, u2⟩ := at_zero s.items k' item' x' e1' e2' e4'
        obtain ⟨v1, v2⟩ := at_len s.items k item x e1 e2 e5
        rw [hf] at u1; rw [hla] at v1
        cases u1; cases v1
        rw [e3, e3', u2, v2, hfl]
    have hsk := hskip hcl raw hraw
    -- joining two pieces
    have joined : ∀ first last : Sub, Inv eps R first → Inv eps R last → last.skipped = none → first.skipped = none →
        last.closed = false → first.begin_ = some p → last.end_ = some q →
        Inv eps R ⟨last.items ++ first.items, last.closed, last.skipped⟩ := by
      intro first last i1 i2 k1 k2 k3 b1 b2
      refine ⟨?_, fun l' _ hl' => by simp [k1] at hl', fun hc => by simp [k3] at hc, fun _ => k1⟩
      simp only
      rw [List.isChain_append]
      refine ⟨i2.chain, i1.chain, ?_⟩
      intro u hu v hv
      unfold Sub.end_ at b2
      rw [k1] at b2
      simp only at b2
      rw [hu] at b2
      simp only [Option.map_some, Option.some.injEq] at b2
      have hne : first.items ≠ [] := by intro h0; rw [h0] at hv; simp at hv
      rw [begin_items first hne, hv] at b1
      simp only [Option.map_some, Option.some.injEq] at b1
      rw [b2, b1, hpq]
      exact hrefl _
    cases raw with
    | nil => exact absurd rfl hne
    | cons r0 rest =>
      cases rest with
      | nil =>
        intro c hc
        simp only [joinEnds, List.mem_singleton] at hc
        subst hc
        exact joined r0 r0 (hinv _ (by simp)) (hinv _ (by simp)) (hsk _ (by simp)) (hsk _ (by simp)) q3 q1 q2
      | cons r1 rest =>
        intro c hc
        simp only [joinEnds, List.mem_cons] at hc
        rcases hc with hc | hc
        · have hlast : (r1 :: rest).getLast (List.cons_ne_nil _ _) = (r0 :: r1 :: rest)[(r0 :: r1 :: rest).length - 1] := by
            rw [List.getLast_eq_getElem]
            simp
          rw [hc]
          have hm : (r1 :: rest).getLast (List.cons_ne_nil _ _) ∈ r0 :: r1 :: rest :=
            List.mem_cons_of_mem _ (List.getLast_mem _)
          exact joined r0 _ (hinv _ (by simp)) (hinv _ hm) (hsk _ hm) (hsk _ (by simp)) (by rw [hlast]; exact q3) q1
            (by rw [hlast]; exact q2)
        · exact hinv c (List.mem_cons_of_mem _ (List.dropLast_subset _ hc))

/-- **C44.**  Whatever operations have been performed: each item starts where the previous one ends (up to `R`), the skipped line starts at the end,
and a closed sub-path ends exactly where it starts and has no skipped line. -/
theorem reach_inv (hrefl : ∀ p, R p p) (hsymm : ∀ p q, R p q → R q p) (s : Sub) (h : Reach roots eps R s) : Inv eps R s := by
  induction h with
  | fresh => exact inv_fresh eps hrefl
  | append n s i _ hc hf ih => exact append_inv roots eps hrefl n s i ih hc hf
  | extend n s is _ hc hf ih => exact extend_inv roots eps hrefl n s is ih hc hf
  | make n is closed hch => exact make_good roots eps hrefl n is closed hch
  | flush n s _ hc ih => exact (flush_good roots eps hrefl n s ih hc).1
  | close n s _ ih => exact (close_good roots eps hrefl n s ih).1
  | join n s o _ _ hc ih1 ih2 => exact join_inv roots eps hrefl n s o ih1 ih2 hc
  | reversed n s _ ih => exact reversed_inv roots eps hrefl hsymm n s ih
  | transformed n s t _ ht ih => exact transformed_inv roots eps hrefl n s t ih ht
  | segments n s params l c _ hp hl hk hc ih => exact segments_inv roots eps hrefl hsymm n s params l ih hp hl hk c hc

/-- **C44**, exactly connected input: all sub-paths are exactly connected. -/
theorem connected (s : Sub) (h : Reach roots eps Eq s) : Inv eps Eq s :=
  reach_inv roots eps (fun _ => rfl) (fun _ _ h => h.symm) s h

/-- **C44**, any input: the gaps are smaller than epsilon (which has to be positive). -/
theorem nearly_connected (e : ℝ) (he : 0 < e) (s : Sub) (h : Reach roots (some e) (fun p q => dist2 p q < e) s) :
    Inv (some e) (fun p q => dist2 p q < e) s :=
  reach_inv roots (some e) (fun p => by rw [dist2_self]; exact he) (fun p q h => by rw [dist2_comm]; exact h) s h

/-- Two sides of a triangle, reversed and closed. -/
example : Reach roots none Eq (close roots none 9 (reversed roots none 9
    (make roots none 9 [.line ⟨0, 0, 4, 0⟩, .line ⟨4, 0, 0, 3⟩] false).1).1).1 :=
  .close 9 _ (.reversed 9 _ (.make 9 _ _ (Or.inr (by simp [Item.end_, Item.begin_, Line.end_, Line.begin_]))))

/-- No condition on the input is left in this case. -/
theorem auto_epsilon (e : ℝ) : Auto (some e) (fun p q => dist2 p q < e) := ⟨e, rfl, fun _ _ h => h⟩

/-- **C44.**  Closed sub-paths reject further items. -/
theorem closed_rejects (e : ℝ) (n : ℕ) (s : Sub) (h : s.closed = true) :
    (∀ i, ∃ err, append roots (some e) n s i = (s, some err)) ∧
    (∀ i is, ∃ err, extend roots (some e) n s (i :: is) = (s, some err)) ∧
    (∀ eps, close roots eps n s = (s, some .closeClosed)) ∧
    (∀ o eps, join roots eps n o s = (o, some .joinClosed)) ∧
    (∀ o, s.items ≠ [] → ∃ err, join roots (some e) n s o = (s, some err)) := by
  have ha : ∀ i, ∃ err, append roots (some e) n s i = (s, some err) := fun i =>
    append_closed roots (R := Eq) (fun _ => rfl) n s i e h
  refine ⟨ha, ?_, fun eps => by simp [close, h], fun o eps => by simp [join, h], ?_⟩
  · intro i is
    obtain ⟨err, he⟩ := ha i
    refine ⟨err, ?_⟩
    unfold extend extendWith
    rw [he]
  · intro o hne
    unfold join
    by_cases ho : o.closed = true
    · rw [if_pos ho]; exact ⟨_, rfl⟩
    rw [if_neg ho]
    simp only
    rw [if_neg hne]
    cases hp : s.end_ with
    | none => exact ⟨_, rfl⟩
    | some p =>
      cases hq : o.begin_ with
      | none => exact ⟨_, rfl⟩
      | some q =>
        simp only
        obtain ⟨err, he⟩ := ha (.line ⟨p.1, p.2, q.1, q.2⟩)
        rw [he]
        exact ⟨_, rfl⟩

/-- The claim is wrong without epsilon: items are appended to a closed sub-path, which then is marked closed without ending at its begin
(`normpath.py:876-878`; `path.normpath` is called with `epsilon=None` for PDF output, see `Verif.Path`). -/
theorem closed_accepts_without_epsilon :
    ∃ s : Sub, Inv none Eq s ∧ s.closed = true ∧ ∀ n, ∃ s' : Sub,
      append roots none (n + 1) s (.line ⟨0, 0, 0, 5⟩) = (s', none) ∧ s'.closed = true ∧ ¬ Inv none Eq s' := by
  refine ⟨⟨[.line ⟨0, 0, 1, 0⟩, .line ⟨1, 0, 0, 0⟩], true, none⟩, ⟨?_, ?_, ?_, fun _ => rfl⟩, rfl, fun n => ⟨_, rfl, rfl, ?_⟩⟩
  · simp [Item.end_, Item.begin_, Line.end_, Line.begin_]
  · intro l last hl
    simp at hl
  · intro _
    exact ⟨rfl, _, _, rfl, rfl, rfl⟩
  · intro h
    obtain ⟨_, f, l, hf, hl, he⟩ := h.closed rfl
    simp only [push, List.cons_append, List.head?_cons, Option.some.injEq, List.nil_append, List.getLast?_cons_cons,
      List.getLast?_singleton] at hf hl
    rw [← hf, ← hl] at he
    simp [Item.end_, Item.begin_, Line.end_, Line.begin_] at he

theorem locate_two : locate 2 0 = (0, 0) ∧ locate 2 1 = (1, 0) ∧ locate 2 (15 / 8) = (1, 7 / 8) ∧ locate 2 2 = (1, 1) := by
  have f : ⌊(15 / 8 : ℝ)⌋₊ = 1 := by rw [Nat.floor_eq_iff (by norm_num)]; norm_num
  refine ⟨?_, ?_, ?_, ?_⟩ <;> unfold locate
  · rw [if_neg (by norm_num)]
  · rw [if_pos (by norm_num)]; norm_num
  · rw [if_pos (by norm_num), f]; norm_num
  · rw [if_pos (by norm_num)]; norm_num

theorem append_line (e : ℝ) (n : ℕ) (s : Sub) (l : Line ℝ) (hm : s.matches_ e (.line l)) (hc : s.closed = false) (hk : s.skipped = none) :
    append roots (some e) (n + 1) s (.line l) =
      open Classical in if hypot (l.x1 - l.x0) (l.y1 - l.y0) ≥ e then (s.push (.line l), none) else (s.skip l, none) := by
  have hu : s.unskip = s := by cases s; simp only at hk; subst hk; rfl
  unfold append
  simp only
  rw [if_neg (not_not.mpr hm), if_neg (by rw [hc]; simp), adjusted_begin_none s _ hk, hu]

theorem hypot_axis (x : ℝ) (h : 0 ≤ x) : hypot x 0 = x ∧ hypot (-x) 0 = x := by
  unfold hypot
  constructor <;> simp [Real.sqrt_sq h]

/-- The connection of split pieces is wrong for a closed sub-path if the last segment is shorter than epsilon
(`normpath.py:1371-1374`): the skipped line remains at the end of the joined piece.  Splitting the closed line from (0, 0) to (4, 0) and back at
(4, 0) and at (1/2, 0) with epsilon 1, the first piece is the line from (0, 0) to (4, 0), but said to end in (0, 0). -/
theorem closed_split_wrong_end (n : ℕ) :
    ∃ s : Sub, Inv (some 1) Eq s ∧ s.closed = true ∧ ∃ l, segments roots (some 1) (n + 1) s [0, 1, 15 / 8, 2] = .ok l ∧
      ∃ c, l.head? = some c ∧ c.items = [.line ⟨0, 0, 4, 0⟩] ∧ c.end_ = some (0, 0) ∧
      ¬ Inv (some 1) (fun p q => dist2 p q < 1) c := by
  obtain ⟨L0, L1, L2, L3⟩ := locate_two
  refine ⟨⟨[.line ⟨0, 0, 4, 0⟩, .line ⟨4, 0, 0, 0⟩], true, none⟩, ⟨?_, ?_, ?_, fun _ => rfl⟩, rfl, ?_⟩
  · simp [Item.end_, Item.begin_, Line.end_, Line.begin_]
  · intro l last hl
    simp at hl
  · intro _
    exact ⟨rfl, _, _, rfl, rfl, rfl⟩
  have h4 : hypot 4 0 = 4 := (hypot_axis 4 (by norm_num)).1
  have h35 : hypot (-(7 / 2)) 0 = 7 / 2 := (hypot_axis (7 / 2) (by norm_num)).2
  have h05 : hypot (-(1 / 2)) 0 = 1 / 2 := (hypot_axis (1 / 2) (by norm_num)).2
  have h00 : hypot 0 0 = 0 := (hypot_axis 0 (by norm_num)).1
  have mf : ∀ i, fresh.matches_ 1 i := fun i p hp => by simp [end_, fresh] at hp
  have A0 : append roots (some 1) (n + 1) fresh (.line ⟨0, 0, 4, 0⟩) = (⟨[.line ⟨0, 0, 4, 0⟩], false, none⟩, none) := by
    rw [append_line roots 1 n fresh _ (mf _) rfl rfl, if_pos (by simp [h4])]; rfl
  have A1 : append roots (some 1) (n + 1) ⟨[.line ⟨0, 0, 4, 0⟩], false, none⟩ (.line ⟨4, 0, 4, 0⟩) =
      (⟨[.line ⟨0, 0, 4, 0⟩], false, some ⟨4, 0, 4, 0⟩⟩, none) := by
    rw [append_line roots 1 n _ _ ?_ rfl rfl, if_neg (by simp [h00])]
    · rfl
    · intro p hp
      simp only [end_, List.getLast?_singleton, Option.map_some, Option.some.injEq, Item.end_, Line.end_] at hp
      rw [← hp]
      simp [Item.begin_, Line.begin_, h00]
  have A2 : append roots (some 1) (n + 1) fresh (.line ⟨4, 0, 1 / 2, 0⟩) = (⟨[.line ⟨4, 0, 1 / 2, 0⟩], false, none⟩, none) := by
    rw [append_line roots 1 n fresh _ (mf _) rfl rfl, if_pos]
    · rfl
    · have : (1 / 2 - 4 : ℝ) = -(7 / 2) := by norm_num
      simp only [sub_zero, this, h35]
      norm_num
  have A3 : append roots (some 1) (n + 1) fresh (.line ⟨1 / 2, 0, 0, 0⟩) = (⟨[], false, some ⟨1 / 2, 0, 0, 0⟩⟩, none) := by
    rw [append_line roots 1 n fresh _ (mf _) rfl rfl, if_neg]
    · rfl
    · simp only [sub_zero, zero_sub, h05]
      norm_num
  have S0 : Item.segments [0, 1] (.line (⟨0, 0, 4, 0⟩ : Line ℝ)) = some [.line ⟨0, 0, 4, 0⟩] := by
    simp [Item.segments, Line.segments, Line.segmentsFrom, Line.at_]
  have S1 : Item.segments [0, 0, 7 / 8, 1] (.line (⟨4, 0, 0, 0⟩ : Line ℝ)) =
      some [.line ⟨4, 0, 4, 0⟩, .line ⟨4, 0, 1 / 2, 0⟩, .line ⟨1 / 2, 0, 0, 0⟩] := by
    simp only [Item.segments, Line.segments, Line.segmentsFrom, Line.at_]
    norm_num
  have loop : segLoop roots (some 1) (n + 1) [.line ⟨0, 0, 4, 0⟩, .line ⟨4, 0, 0, 0⟩] ⟨[], fresh, [], none⟩ [0, 1, 15 / 8, 2] =
      .ok ⟨[], ⟨[.line ⟨0, 0, 4, 0⟩], false, none⟩, [0, 0, 7 / 8, 1], some 1⟩ := by
    simp only [segLoop, segStep, List.length_cons, List.length_nil, L0, L1, L2, L3, List.nil_append, Nat.zero_add,
      if_neg (show ¬ (1 : ℕ) = 0 by decide), List.getElem?_cons_zero, if_pos (show (1 : ℕ) > 0 by decide), List.cons_append, collect, S0,
      A0, makeAll, ok, List.dropLast_singleton, List.getLast_singleton, between, List.take, List.drop, extend, extendWith, if_true]
  have raw : segmentsOpen roots (some 1) (n + 1) ⟨[.line ⟨0, 0, 4, 0⟩, .line ⟨4, 0, 0, 0⟩], true, none⟩ [0, 1, 15 / 8, 2] =
      .ok [⟨[.line ⟨0, 0, 4, 0⟩], false, some ⟨4, 0, 4, 0⟩⟩, ⟨[.line ⟨4, 0, 1 / 2, 0⟩], false, none⟩,
        ⟨[], false, some ⟨1 / 2, 0, 0, 0⟩⟩] := by
    unfold segmentsOpen
    rw [if_neg (by simp), if_neg (by simp)]
    simp only
    rw [loop]
    simp only [List.getElem?_cons_succ, List.getElem?_cons_zero, collect, S1, A1, makeAll, ok, make_open, extend_one, A2, A3]
    simp
  refine ⟨[⟨[.line ⟨0, 0, 4, 0⟩], false, some ⟨1 / 2, 0, 0, 0⟩⟩, ⟨[.line ⟨4, 0, 1 / 2, 0⟩], false, none⟩], ?_, _, rfl, rfl, rfl, ?_⟩
  · unfold segments
    rw [raw]
    simp only
    rw [if_pos]
    · rfl
    · refine ⟨by simp, rfl, Or.inl ⟨rfl, by simp⟩⟩
  · intro h
    have := h.skip ⟨1 / 2, 0, 0, 0⟩ (.line ⟨0, 0, 4, 0⟩) rfl rfl
    simp only [Item.end_, Line.end_, Line.begin_, dist2] at this
    have h7 : (4 - 1 / 2 : ℝ) = 7 / 2 := by norm_num
    have h72 : hypot (7 / 2) 0 = 7 / 2 := (hypot_axis (7 / 2) (by norm_num)).1
    rw [h7, sub_zero, h72] at this
    norm_num at this

end Sub

end

end PyX.NormPath
