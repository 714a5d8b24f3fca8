import Verif.NormPath.SubCrossTwice

/-!
# C140: no exceptions for polylines
-/

set_option linter.unusedSectionVars false

namespace PyX.NormPath.SubCross

open PyX.NormPath.Sub

variable (roots : ℝ → ℝ → ℝ → ℝ → List ℝ)

/-- All items are lines. -/
def Lines (l : List (Item ℝ)) : Prop := ∀ i ∈ l, ∃ x, i = .line x

/-- A sub-path which is open, has only lines, and ends at `p` (if it is not empty). -/
structure Tip (s : Sub) (p : ℝ × ℝ) : Prop where
  isOpen : s.closed = false
  lines : Lines s.items
  tip : ∀ q, s.end_ = some q → q = p

theorem append_tip (e : ℝ) (he : 0 < e) (m : ℕ) (s : Sub) (l : Line ℝ) (hs : Tip s l.begin_) :
    ∃ s', append roots (some e) (m + 1) s (.line l) = (s', none) ∧ Tip s' l.end_ := by
  have hm : s.matches_ e (.line l) := by
    intro q hq
    rw [hs.tip q hq]
    show hypot (l.begin_.1 - l.begin_.1) (l.begin_.2 - l.begin_.2) < e
    rw [hypot_self]; exact he
  have hadj : ∃ l', s.adjusted (.line l) = .line l' ∧ l'.end_ = l.end_ := by
    unfold adjusted
    cases s.skipped with
    | none => exact ⟨l, rfl, rfl⟩
    | some k => exact ⟨l.modifiedbegin k.x0 k.y0, rfl, rfl⟩
  obtain ⟨l', h1, h2⟩ := hadj
  unfold append
  simp only
  rw [if_neg (not_not.mpr hm), if_neg (by rw [hs.isOpen]; simp), h1]
  simp only
  split
  · refine ⟨_, rfl, hs.isOpen, ?_, ?_⟩
    · intro i hi
      rcases List.mem_append.mp hi with hi | hi
      · exact hs.lines i hi
      · exact ⟨l', List.mem_singleton.mp hi⟩
    · intro q hq
      rw [end_push _ _ rfl] at hq
      simp only [Option.some.injEq] at hq
      rw [← hq]; exact h2
  · refine ⟨_, rfl, hs.isOpen, hs.lines, ?_⟩
    intro q hq
    rw [end_skip] at hq
    simp only [Option.some.injEq] at hq
    rw [← hq]; exact h2

/-- Connected lines from one point to another. -/
inductive Walk : ℝ × ℝ → ℝ × ℝ → List (Item ℝ) → Prop
  | nil (p) : Walk p p []
  | cons (l : Line ℝ) (q is) (h : Walk l.end_ q is) : Walk l.begin_ q (.line l :: is)

theorem extend_tip (e : ℝ) (he : 0 < e) (m : ℕ) {p q : ℝ × ℝ} {is : List (Item ℝ)} (hw : Walk p q is) (s : Sub) (hs : Tip s p) :
    ∃ s', extend roots (some e) (m + 1) s is = (s', none) ∧ Tip s' q := by
  induction hw generalizing s with
  | nil p => exact ⟨s, rfl, hs⟩
  | cons l q is _ ih =>
    obtain ⟨s1, h1, t1⟩ := append_tip roots e he m s l hs
    obtain ⟨s2, h2, t2⟩ := ih s1 t1
    refine ⟨s2, ?_, t2⟩
    unfold extend extendWith
    rw [h1]
    exact h2

theorem Walk.lines {p q : ℝ × ℝ} {is : List (Item ℝ)} (h : Walk p q is) : Lines is := by
  induction h with
  | nil => intro i hi; simp at hi
  | cons l q is _ ih =>
    intro i hi
    rcases List.mem_cons.mp hi with rfl | hi
    · exact ⟨l, rfl⟩
    · exact ih i hi

theorem Walk.append {p q r : ℝ × ℝ} {is js : List (Item ℝ)} (h : Walk p q is) (h' : Walk q r js) : Walk p r (is ++ js) := by
  induction h with
  | nil => exact h'
  | cons l q is _ ih => exact .cons l _ _ (ih h')

theorem Walk.reversed {p q : ℝ × ℝ} {is : List (Item ℝ)} (h : Walk p q is) : Walk q p (is.reverse.map Item.reversed) := by
  induction h with
  | nil p => exact .nil p
  | cons l q is _ ih =>
    rw [List.reverse_cons, List.map_append]
    exact ih.append (.cons l.reversed _ _ (.nil _))

/-- The items between two of a connected list of lines. -/
theorem walk_between (items : List (Item ℝ)) (hl : Lines items) (hchain : items.IsChain fun i j => i.end_ = j.begin_) (i k : ℕ) (a b : Item ℝ)
    (ha : items[i]? = some a) (hb : items[i + 1 + k]? = some b) : Walk a.end_ b.begin_ ((items.take (i + 1 + k)).drop (i + 1)) := by
  induction k generalizing b with
  | zero =>
    have hz : (items.take (i + 1 + 0)).drop (i + 1) = [] := by simp
    rw [hz]
    have h2 := List.getElem?_eq_some_iff.mp hb
    have h1 := List.getElem?_eq_some_iff.mp ha
    have := List.isChain_iff_getElem.mp hchain i h2.1
    rw [h1.2] at this
    have e2 : items[i + 1]'h2.1 = b := h2.2
    rw [e2] at this
    rw [this]
    exact .nil _
  | succ k ih =>
    have hlt := (List.getElem?_eq_some_iff.mp hb).1
    have hc : items[i + 1 + k]? = some items[i + 1 + k] := List.getElem?_eq_getElem (by omega)
    have hw := ih _ hc
    have e : (items.take (i + 1 + (k + 1))).drop (i + 1) = (items.take (i + 1 + k)).drop (i + 1) ++ [items[i + 1 + k]] := by
      rw [show i + 1 + (k + 1) = i + 1 + k + 1 by omega, List.take_succ_eq_append_getElem (by omega), List.drop_append_of_le_length]
      simp only [List.length_take]
      omega
    rw [e]
    refine hw.append ?_
    have hch := List.isChain_iff_getElem.mp hchain (i + 1 + k) hlt
    have e2 : items[i + 1 + k + 1] = b := (List.getElem?_eq_some_iff.mp hb).2
    rw [e2] at hch
    obtain ⟨l, hl'⟩ := hl _ (List.getElem_mem (show i + 1 + k < items.length by omega))
    rw [hl'] at hch ⊢
    have : b.begin_ = l.end_ := hch.symm
    rw [this]
    exact .cons l _ _ (.nil _)

theorem line_segments (l : Line ℝ) (p0 p1 : ℝ) (ps : List ℝ) :
    ∃ s0 ss, (Item.line l).segments (p0 :: p1 :: ps) = some (.line s0 :: ss) ∧ s0.begin_ = l.at_ p0 ∧ s0.end_ = l.at_ p1 ∧
      Lines ss ∧ (ss = [] → ps = []) ∧
      (∀ x, ss.getLast? = some x → x.end_ = l.at_ ((p1 :: ps).getLast (List.cons_ne_nil _ _))) := by
  have key : ∀ (ps : List ℝ) (q : ℝ × ℝ) (p : ℝ), q = l.at_ p →
      Lines ((l.segmentsFrom q ps).map Item.line) ∧ ((l.segmentsFrom q ps).map Item.line = [] → ps = []) ∧
      ∀ x, ((l.segmentsFrom q ps).map Item.line).getLast? = some x → x.end_ = l.at_ ((p :: ps).getLast (List.cons_ne_nil _ _)) := by
    intro ps
    induction ps with
    | nil => intro q p _; exact ⟨fun i hi => by simp [Line.segmentsFrom] at hi, fun _ => rfl, fun x hx => by simp [Line.segmentsFrom] at hx⟩
    | cons t ts ih =>
      intro q p hq
      obtain ⟨h1, h2, h3⟩ := ih (l.at_ t) t rfl
      refine ⟨?_, fun h => by simp [Line.segmentsFrom] at h, ?_⟩
      · intro i hi
        simp only [Line.segmentsFrom, List.map_cons] at hi
        rcases List.mem_cons.mp hi with rfl | hi
        · exact ⟨_, rfl⟩
        · exact h1 i hi
      · intro x hx
        simp only [Line.segmentsFrom, List.map_cons] at hx
        rw [List.getLast_cons_cons]
        cases hss : (l.segmentsFrom (l.at_ t) ts).map Item.line with
        | nil =>
          have ht := h2 hss
          subst ht
          rw [hss] at hx
          simp only [List.getLast?_singleton, Option.some.injEq] at hx
          subst hx
          rfl
        | cons y ys =>
          rw [hss, List.getLast?_cons_cons, ← hss] at hx
          exact h3 x hx
  obtain ⟨h1, h2, h3⟩ := key ps (l.at_ p1) p1 rfl
  exact ⟨⟨(l.at_ p0).1, (l.at_ p0).2, (l.at_ p1).1, (l.at_ p1).2⟩, _, rfl, rfl, rfl, h1, h2, h3⟩

theorem fresh_tip (p : ℝ × ℝ) : Tip fresh p := ⟨rfl, fun i hi => by simp [fresh] at hi, fun q hq => by simp [fresh, end_] at hq⟩

theorem makeAll_lines (e : ℝ) (he : 0 < e) (m : ℕ) (is : List (Item ℝ)) (hl : Lines is) :
    ∃ new, makeAll roots (some e) (m + 1) is = .ok new ∧ (∀ s ∈ new, s.closed = false ∧ Lines s.items) ∧ new.length = is.length ∧
      ∀ x s, is.getLast? = some x → new.getLast? = some s → Tip s x.end_ := by
  induction is with
  | nil => exact ⟨[], rfl, by simp, rfl, fun x s hx => by simp at hx⟩
  | cons i is ih =>
    obtain ⟨new, h1, h2, h3, h4⟩ := ih (fun j hj => hl j (List.mem_cons_of_mem _ hj))
    obtain ⟨l, rfl⟩ := hl i (by simp)
    obtain ⟨s', ha, ht⟩ := append_tip roots e he m fresh l (fresh_tip _)
    refine ⟨s' :: new, ?_, ?_, by simp [h3], ?_⟩
    · unfold makeAll
      rw [make_open, extend_one, ha, h1]
      rfl
    · intro s hs
      rcases List.mem_cons.mp hs with rfl | hs
      · exact ⟨ht.isOpen, ht.lines⟩
      · exact h2 s hs
    · intro x s hx hs
      cases is with
      | nil =>
        have : new = [] := List.length_eq_zero_iff.mp (by simpa using h3)
        subst this
        simp only [List.getLast?_singleton, Option.some.injEq] at hx hs
        subst hx hs
        exact ht
      | cons j js =>
        cases new with
        | nil => simp at h3
        | cons a as =>
          rw [List.getLast?_cons_cons] at hx hs
          exact h4 x s hx hs

/-- The segments which have been finished are open and have only lines. -/
def Plainly (l : List Sub) : Prop := ∀ s ∈ l, s.closed = false ∧ Lines s.items

theorem collect_lines (e : ℝ) (he : 0 < e) (m : ℕ) (done : List Sub) (cur : Sub) (l : Line ℝ) (p0 p1 : ℝ) (ps : List ℝ)
    (hd : Plainly done) (hc : Tip cur (l.at_ p0)) :
    ∃ done' cur', collect roots (some e) (m + 1) done cur (.line l) (p0 :: p1 :: ps) = .ok (done', cur') ∧ Plainly done' ∧
      Tip cur' (l.at_ ((p1 :: ps).getLast (List.cons_ne_nil _ _))) := by
  obtain ⟨s0, ss, hseg, hb, hen, hls, hnil, hlast⟩ := line_segments l p0 p1 ps
  obtain ⟨c, ha, ht⟩ := append_tip roots e he m cur s0 (by rw [hb]; exact hc)
  obtain ⟨new, h1, h2, h3, h4⟩ := makeAll_lines roots e he m ss hls
  refine ⟨done ++ (c :: new).dropLast, (c :: new).getLast (List.cons_ne_nil _ _), ?_, ?_, ?_⟩
  · unfold collect
    rw [hseg]
    simp only
    rw [ha, h1]
    rfl
  · intro s hs
    rcases List.mem_append.mp hs with hs | hs
    · exact hd s hs
    · rcases List.mem_cons.mp (List.mem_of_mem_dropLast hs) with rfl | hs
      · exact ⟨ht.isOpen, ht.lines⟩
      · exact h2 s hs
  · cases new with
    | nil =>
      have : ss = [] := List.length_eq_zero_iff.mp (by simpa using h3.symm)
      have hps := hnil this
      subst hps
      simp only [List.getLast_singleton]
      rw [← hen]
      exact ht
    | cons a as =>
      have hne : ss ≠ [] := by intro h0; rw [h0] at h3; simp at h3
      have hx := List.getLast?_eq_some_getLast hne
      rw [List.getLast_cons_cons, ← hlast _ hx]
      exact h4 _ _ hx (List.getLast?_eq_some_getLast (List.cons_ne_nil _ _))

/-- The state of the loop of `segments`. -/
def Ready (items : List (Item ℝ)) (st : SegState) (count : ℕ) : Prop :=
  Plainly st.done ∧
  match st.index with
  | none => st.params = [] ∧ count = 0 ∧ st.cur = fresh
  | some k => ∃ l p0 ps, items[k]? = some (.line l) ∧ st.params = p0 :: ps ∧ Tip st.cur (l.at_ p0) ∧ (ps = [] → count ≤ 1)

theorem segStep_lines (e : ℝ) (he : 0 < e) (m : ℕ) (items : List (Item ℝ)) (hitems : items ≠ []) (hl : Lines items)
    (hchain : items.IsChain fun i j => i.end_ = j.begin_) (st : SegState) (count : ℕ) (t : ℝ) (h : Ready items st count) :
    ∃ st', segStep roots (some e) (m + 1) items st t = .ok st' ∧ Ready items st' (count + 1) ∧ st'.index ≠ none := by
  have hlen : 0 < items.length := List.length_pos_iff.mpr hitems
  obtain ⟨_, hlt, _⟩ := locate_spec items.length hlen t
  obtain ⟨hd, h⟩ := h
  unfold segStep
  simp only
  generalize locate items.length t = L at hlt
  have hgetL : items[L.1]? = some items[L.1] := List.getElem?_eq_getElem hlt
  obtain ⟨lL, hlL⟩ := hl _ (List.getElem_mem hlt)
  rw [hlL] at hgetL
  cases hidx : st.index with
  | none =>
    rw [hidx] at h
    simp only at h ⊢
    obtain ⟨h1, rfl, h3⟩ := h
    refine ⟨_, rfl, ⟨hd, lL, L.2, [], hgetL, by rw [h1]; rfl, ?_, fun _ => le_rfl⟩, by simp⟩
    simp only
    rw [h3]
    exact fresh_tip _
  | some k =>
    rw [hidx] at h
    simp only at h ⊢
    obtain ⟨l, p0, ps, hget, hparams, htip, hcount⟩ := h
    by_cases hk : L.1 = k
    · rw [if_pos hk]
      refine ⟨_, rfl, ⟨hd, l, p0, ps ++ [L.2], hget, by rw [hparams]; rfl, htip, fun h0 => by simp at h0⟩, by simp⟩
    · rw [if_neg hk, hget]
      simp only
      rw [hparams]
      obtain ⟨p1, ps', hps'⟩ : ∃ p1 ps', ps ++ [if L.1 > k then (1 : ℝ) else 0] = p1 :: ps' := by
        cases ps with
        | nil => exact ⟨_, _, rfl⟩
        | cons q qs => exact ⟨q, _, rfl⟩
      obtain ⟨done', cur', hc, hd', ht'⟩ := collect_lines roots e he m st.done st.cur l p0 p1 ps' hd htip
      have hlast : (p1 :: ps').getLast (List.cons_ne_nil _ _) = if L.1 > k then (1 : ℝ) else 0 := by
        simp only [← hps', List.getLast_append_singleton]
      rw [hlast] at ht'
      rw [List.cons_append, hps', hc]
      simp only
      have hwalk : Walk (l.at_ (if L.1 > k then (1 : ℝ) else 0)) (lL.at_ (between items k L.1).2) (between items k L.1).1 := by
        unfold between
        by_cases hgt : L.1 > k
        · rw [if_pos hgt, if_pos hgt]
          simp only
          have hw := walk_between items hl hchain k (L.1 - (k + 1)) _ _ hget (by rw [show k + 1 + (L.1 - (k + 1)) = L.1 by omega]; exact hgetL)
          rw [show k + 1 + (L.1 - (k + 1)) = L.1 by omega] at hw
          have e1 : l.at_ 1 = (Item.line l).end_ := at_end (Item.line l)
          have e2 : lL.at_ 0 = (Item.line lL).begin_ := at_begin (Item.line lL)
          rw [e1, e2]
          exact hw
        · rw [if_neg hgt, if_neg hgt]
          simp only
          have hw := walk_between items hl hchain L.1 (k - (L.1 + 1)) _ _ hgetL (by rw [show L.1 + 1 + (k - (L.1 + 1)) = k by omega]; exact hget)
          rw [show L.1 + 1 + (k - (L.1 + 1)) = k by omega] at hw
          have e1 : l.at_ 0 = (Item.line l).begin_ := at_begin (Item.line l)
          have e2 : lL.at_ 1 = (Item.line lL).end_ := at_end (Item.line lL)
          rw [e1, e2]
          exact hw.reversed
      obtain ⟨s', hx, hs'⟩ := extend_tip roots e he m hwalk cur' ht'
      rw [hx]
      simp only [ok]
      exact ⟨_, rfl, ⟨hd', lL, _, [L.2], hgetL, rfl, hs', fun h0 => by simp at h0⟩, by simp⟩

theorem segLoop_lines (e : ℝ) (he : 0 < e) (m : ℕ) (items : List (Item ℝ)) (hitems : items ≠ []) (hl : Lines items)
    (hchain : items.IsChain fun i j => i.end_ = j.begin_) (ts : List ℝ) (st : SegState) (count : ℕ) (h : Ready items st count) :
    ∃ st', segLoop roots (some e) (m + 1) items st ts = .ok st' ∧ Ready items st' (count + ts.length) ∧ (ts ≠ [] → st'.index ≠ none) := by
  induction ts generalizing st count with
  | nil => exact ⟨st, rfl, h, fun h => absurd rfl h⟩
  | cons t ts ih =>
    obtain ⟨st1, h1, r1, n1⟩ := segStep_lines roots e he m items hitems hl hchain st count t h
    obtain ⟨st2, h2, r2, n2⟩ := ih st1 (count + 1) r1
    refine ⟨st2, ?_, ?_, fun _ => ?_⟩
    · unfold segLoop; rw [h1]; exact h2
    · rw [show count + (t :: ts).length = count + 1 + ts.length by simp only [List.length_cons]; omega]; exact r2
    · cases ts with
      | nil =>
        simp only [segLoop, Except.ok.injEq] at h2
        rw [← h2]; exact n1
      | cons t' ts => exact n2 (by simp)

/-- `segments` works for connected lines. -/
theorem segments_lines (e : ℝ) (he : 0 < e) (m : ℕ) (s : Sub) (hs : OpenSub s) (hl : Lines s.items) (ts : List ℝ) (h2 : 2 ≤ ts.length) :
    ∃ l, segments roots (some e) (m + 1) s ts = .ok l ∧ Plainly l := by
  obtain ⟨st, h1, ⟨hd, r1⟩, n1⟩ := segLoop_lines roots e he m s.items hs.nonempty hl hs.chain ts ⟨[], fresh, [], none⟩ 0
    ⟨fun s hs => by simp at hs, rfl, rfl, rfl⟩
  have hne := n1 (by intro h0; rw [h0] at h2; simp at h2)
  cases hidx : st.index with
  | none => exact absurd hidx hne
  | some k =>
    rw [hidx] at r1
    simp only at r1
    obtain ⟨l, p0, ps, hget, hparams, htip, hcount⟩ := r1
    cases ps with
    | nil => have := hcount rfl; omega
    | cons p1 ps =>
      obtain ⟨done', cur', hc, hd', ht'⟩ := collect_lines roots e he m st.done st.cur l p0 p1 ps hd htip
      have hop : segmentsOpen roots (some e) (m + 1) s ts = .ok (done' ++ [cur']) := by
        unfold segmentsOpen
        rw [if_neg (by omega), if_neg hs.nonempty, h1]
        simp only
        rw [hidx]
        simp only
        rw [hget]
        simp only
        rw [hparams, hc]
      refine ⟨done' ++ [cur'], ?_, ?_⟩
      · unfold segments
        rw [hop]
        simp only
        rw [if_neg (by rw [hs.isOpen]; simp)]
      · intro c hc'
        rcases List.mem_append.mp hc' with hc' | hc'
        · exact hd' c hc'
        · rw [List.mem_singleton.mp hc']
          exact ⟨ht'.isOpen, ht'.lines⟩

/-! ## The loops of `closepoints` -/

theorem chain_walk (is : List (Item ℝ)) (hl : Lines is) (hchain : is.IsChain fun i j => i.end_ = j.begin_) (a b : Item ℝ)
    (ha : is.head? = some a) (hb : is.getLast? = some b) : Walk a.begin_ b.end_ is := by
  induction is generalizing a with
  | nil => simp at ha
  | cons i is ih =>
    simp only [List.head?_cons, Option.some.injEq] at ha
    subst ha
    obtain ⟨l, rfl⟩ := hl i (by simp)
    refine .cons l _ _ ?_
    cases is with
    | nil =>
      simp only [List.getLast?_singleton, Option.some.injEq] at hb
      subst hb
      exact .nil _
    | cons j js =>
      rw [List.getLast?_cons_cons] at hb
      rw [List.isChain_cons_cons] at hchain
      have := ih (fun x hx => hl x (List.mem_cons_of_mem _ hx)) hchain.2 j rfl hb
      have e : l.end_ = j.begin_ := hchain.1
      rw [e]; exact this

theorem join_lines (e : ℝ) (he : 0 < e) (m : ℕ) {items : List (Item ℝ)} (hchain : items.IsChain fun i j => i.end_ = j.begin_) {a b d : ℝ}
    {c o : Sub} (hc : Part e items a b c) (ho : Part e items b d o) (h0 : c.items = []) (hl : Lines o.items) :
    ∃ c', ok (Sub.join roots (some e) (m + 1) c o) = .ok c' ∧ Lines c'.items := by
  obtain ⟨q, hq, haq⟩ := hc.to_
  obtain ⟨q', hq', haq'⟩ := ho.from_
  have e1 := At.unique hchain haq haq'
  subst e1
  have ht : Tip c q := ⟨hc.isOpen, by rw [h0]; intro i hi; simp at hi, fun r hr => by rw [hq] at hr; cases hr; rfl⟩
  unfold Sub.join
  rw [if_neg (by rw [ho.isOpen]; simp)]
  simp only [if_pos h0]
  have key : ∃ s' p, extend roots (some e) (m + 1) c o.items = (s', none) ∧ Tip s' p ∧ ∀ l, o.skipped = some l → l.begin_ = p := by
    cases hi : o.items with
    | nil =>
      refine ⟨c, q, rfl, ht, ?_⟩
      intro l hk
      unfold Sub.begin_ at hq'
      rw [hi, hk] at hq'
      simpa using hq'
    | cons i is =>
      have hne : o.items ≠ [] := by rw [hi]; simp
      have hla := List.getLast?_eq_some_getLast hne
      have hw := chain_walk o.items hl ho.inv.chain i _ (by rw [hi]; rfl) hla
      rw [begin_items o hne, hi] at hq'
      simp only [List.head?_cons, Option.map_some, Option.some.injEq] at hq'
      rw [hq'] at hw
      obtain ⟨s', hx, ht'⟩ := extend_tip roots e he m hw c ht
      rw [hi] at hx
      exact ⟨s', _, hx, ht', fun l hk => (ho.inv.skip l _ hk hla).symm⟩
  obtain ⟨s', p, hx, ht', hk⟩ := key
  rw [hx]
  simp only
  cases hsk : o.skipped with
  | none => exact ⟨s', rfl, ht'.lines⟩
  | some l =>
    obtain ⟨s2, h2, t2⟩ := append_tip roots e he m s' l (by rw [hk l hsk]; exact ht')
    simp only
    rw [h2]
    exact ⟨s2, rfl, t2.lines⟩

theorem shortRun_lines (e : ℝ) (he : 0 < e) (m : ℕ) {items : List (Item ℝ)} (hchain : items.IsChain fun i j => i.end_ = j.begin_) {P : ℕ → ℝ}
    (rest : List Sub) (i j : ℕ) (cur : Sub) (hcur : Part e items (P i) (P (j + 1)) cur) (hrest : Parts e items P (j + 1) rest)
    (hl : Plainly rest) : ∃ js, shortRun roots (some e) (m + 1) cur j rest = .ok js := by
  induction rest generalizing j cur with
  | nil => exact ⟨_, rfl⟩
  | cons s rest ih =>
    unfold shortRun
    by_cases h0 : cur.items = []
    · rw [if_pos h0]
      have hs : Part e items (P (j + 1)) (P (j + 1 + 1)) s := hrest 0 s rfl
      obtain ⟨c', hj, _⟩ := join_lines roots e he m hchain hcur hs h0 (hl s (by simp)).2
      obtain ⟨js, hjs⟩ := ih (j + 1) c' (hcur.join roots (m + 1) hs h0 hj) hrest.tail (fun x hx => hl x (List.mem_cons_of_mem _ hx))
      rw [hj]
      simp only [Except.bind]
      rw [hjs]
      exact ⟨_, rfl⟩
    · rw [if_neg h0]; exact ⟨_, rfl⟩

theorem all_total {α : Type} (l : List (Except Err α)) (h : ∀ x ∈ l, ∃ a, x = .ok a) : ∃ as, all l = .ok as := by
  induction l with
  | nil => exact ⟨[], rfl⟩
  | cons x l ih =>
    obtain ⟨a, rfl⟩ := h x (by simp)
    obtain ⟨as, has⟩ := ih (fun y hy => h y (List.mem_cons_of_mem _ hy))
    exact ⟨a :: as, by unfold all; rw [has]; rfl⟩

theorem openPairs_lines (e : ℝ) (he : 0 < e) (m : ℕ) {items : List (Item ℝ)} (hchain : items.IsChain fun i j => i.end_ = j.begin_) {P : ℕ → ℝ}
    (ints : List (ℝ × ℕ)) (l : List Sub) (i : ℕ) (hi : 0 < i) (hlen : i + l.length ≤ ints.length ∨ l = []) (hp : Parts e items P i l) (hl : Plainly l) :
    ∃ ps, openPairs roots (some e) (m + 1) ints i l = .ok ps := by
  induction l generalizing i with
  | nil => exact ⟨[], rfl⟩
  | cons s rest ih =>
    have hlen' : i + (rest.length + 1) ≤ ints.length := by simpa using hlen
    obtain ⟨js, hjs⟩ := shortRun_lines roots e he m hchain rest i i s (hp 0 s rfl) hp.tail (fun x hx => hl x (List.mem_cons_of_mem _ hx))
    obtain ⟨l', hl'⟩ := ih (i + 1) (by omega) (.inl (by omega)) hp.tail (fun x hx => hl x (List.mem_cons_of_mem _ hx))
    obtain ⟨w, rfl, hw⟩ := shortRun_range roots (some e) (m + 1) rest i s js hjs
    obtain ⟨qs, hqs⟩ := all_total ((List.range' i w).map fun j => pairAt ints i j) (by
      intro x hx
      obtain ⟨j, hj, rfl⟩ := List.mem_map.mp hx
      have hj' := List.mem_range'_1.mp hj
      unfold pairAt
      rw [if_neg (by omega), List.getElem?_eq_getElem (show i - 1 < ints.length by omega), List.getElem?_eq_getElem (show j < ints.length by omega)]
      exact ⟨_, rfl⟩)
    refine ⟨qs ++ l', ?_⟩
    unfold openPairs pairsAt
    rw [hjs]
    simp only [Except.bind]
    rw [hqs]
    simp only
    rw [hl']
    rfl

theorem closepoints_lines (e : ℝ) (he : 0 < e) (m w : ℕ) (s : Sub) (hs : OpenSub s) (hl : Lines s.items) (ints : List (ℝ × ℕ))
    (hr : ∀ x ∈ ints, 0 ≤ x.1 ∧ x.1 ≤ s.items.length) : ∃ ps, closepoints roots (some e) (m + 1) w s ints = .ok ps := by
  obtain ⟨l, h1, h2⟩ := segments_lines roots e he m s hs hl (params s ints) (by simp [params])
  obtain ⟨hlen, _, hparts⟩ := segments_parts roots (m + 1) e s hs.nonempty hs.isOpen hs.chain ints hr l h1
  obtain ⟨ps, hps⟩ := openPairs_lines roots e he m hs.chain ints l.dropLast.tail 1 one_pos
    (by
      rcases Nat.eq_zero_or_pos ints.length with h0 | h0
      · right
        exact List.length_eq_zero_iff.mp (by simp; omega)
      · left
        simp only [List.length_tail, List.length_dropLast]
        omega) (parts_inner hparts)
    (fun c hc => h2 c (List.mem_of_mem_dropLast (List.mem_of_mem_tail hc)))
  refine ⟨ps, ?_⟩
  unfold closepoints
  have h1' : segments roots (some e) (m + 1) s (0 :: (ints.map Prod.fst ++ [(s.items.length : ℝ)])) = .ok l := h1
  rw [h1', hs.isOpen]
  exact hps

/-- **C140 (no exceptions).** The intersection of two open polylines does not fail. -/
theorem intersect_total_partial (m w : ℕ) (meet : Item ℝ → Item ℝ → List (ℝ × ℝ)) (e e' : ℝ) (he : 0 < e) (he' : 0 < e') (a b : Sub)
    (ha : OpenSub a) (hb : OpenSub b) (hla : Lines a.items) (hlb : Lines b.items) (hw : Within meet a b) :
    ∃ r, intersect roots (m + 1) w meet (some e) (some e') a b = .ok r := by
  have hperm := ordered_perm (raw meet a.items b.items)
  obtain ⟨A, hA⟩ := closepoints_lines roots e he m w a ha hla (indexedA (ordered (raw meet a.items b.items))) (by
    intro x hx
    obtain ⟨q, hq, hq'⟩ := mem_indexedA.mp hx
    rw [← hq']
    exact (raw_within hw q (hperm.mem_iff.mp (List.mem_of_getElem? hq))).1)
  obtain ⟨B, hB⟩ := closepoints_lines roots e' he' m w b hb hlb (indexedB (ordered (raw meet a.items b.items))) (by
    intro x hx
    obtain ⟨q, hq, hq'⟩ := mem_indexedB.mp hx
    rw [← hq']
    exact (raw_within hw q (hperm.mem_iff.mp (List.mem_of_getElem? hq))).2)
  unfold intersect
  simp only
  rw [hA]
  simp only [Except.bind]
  rw [hB]
  exact ⟨_, rfl⟩

/-- A line with two items. -/
def bent : Sub := ⟨[.line ⟨0, 0, 4, 0⟩, .line ⟨4, 0, 8, 0⟩], false, none⟩

/-- A line which crosses it where the items meet. -/
def across : Sub := ⟨[.line ⟨4, -4, 4, 4⟩], false, none⟩

/-- The intersections of the items: the end of the first one, and the beginning of the second one. -/
noncomputable def meets (i _j : Item ℝ) : List (ℝ × ℝ) := if i.begin_.1 = 0 then [(1, 1 / 2)] else [(0, 1 / 2)]

theorem raw_meets : raw meets bent.items across.items = [(1, 1 / 2), (1, 1 / 2)] := by
  simp [raw, bent, across, meets, Item.begin_, Line.begin_]

/-- The crossing at the point where two items meet is found twice and reported once. -/
theorem vertex_once (m w : ℕ) : intersect roots (m + 1) w meets (some 1) (some 1) bent across = .ok ([1], [1 / 2]) := by
  have ha : OpenSub bent := ⟨by simp [bent], rfl, by simp [bent, Item.begin_, Item.end_, Line.begin_, Line.end_]⟩
  have hb : OpenSub across := ⟨by simp [across], rfl, by simp [across]⟩
  have hw : Within meets bent across := by
    intro i _ j _ r hr
    unfold meets at hr
    split at hr <;> (rw [List.mem_singleton.mp hr]; norm_num)
  have hla : Lines bent.items := by
    intro i hi
    simp only [bent, List.mem_cons, List.not_mem_nil, or_false] at hi
    rcases hi with rfl | rfl <;> exact ⟨_, rfl⟩
  have hlb : Lines across.items := by
    intro i hi
    simp only [across, List.mem_cons, List.not_mem_nil, or_false] at hi
    exact ⟨_, hi⟩
  obtain ⟨r, hr⟩ := intersect_total_partial roots m w meets 1 1 one_pos one_pos bent across ha hb hla hlb hw
  obtain ⟨hlen, hsub, _⟩ := intersect_sound roots (m + 1) w meets (some 1) (some 1) bent across r hr
  have hnd := intersect_nodup_partial one_pos one_pos ha hb hw hr
  obtain ⟨y, hy, _⟩ := intersect_complete_partial ha hb hw hr (1, 1 / 2) (by rw [raw_meets]; simp)
  rw [raw_meets] at hsub
  have hall : ∀ x ∈ r.1.zip r.2, x = (1, 1 / 2) := by
    intro x hx
    have := hsub.subset hx
    simpa using this
  have hz : r.1.zip r.2 = [(1, 1 / 2)] := by
    match hzz : r.1.zip r.2 with
    | [] => rw [hzz] at hy; simp at hy
    | [x] => rw [hall x (by rw [hzz]; simp)]
    | x :: x' :: l =>
      exfalso
      rw [hzz] at hnd hall
      rw [hall x (by simp), hall x' (by simp)] at hnd
      simp at hnd
  have e1 : r.1 = [1] := by rw [← List.map_fst_zip (l₁ := r.1) (l₂ := r.2) hlen.le, hz]; rfl
  have e2 : r.2 = [1 / 2] := by rw [← List.map_snd_zip (l₁ := r.1) (l₂ := r.2) hlen.ge, hz]; rfl
  rw [hr]
  exact congrArg Except.ok (Prod.ext e1 e2)

/-! ## Paths with several sub-paths -/

theorem all_mem_iff {α : Type} {l : List (Except Err α)} {as : List α} (h : all l = .ok as) (a : α) : a ∈ as ↔ .ok a ∈ l := by
  induction l generalizing as with
  | nil => simp only [all, Except.ok.injEq] at h; rw [← h]; simp
  | cons x l ih =>
    unfold all at h
    cases x with
    | error e => simp [Except.bind] at h
    | ok b =>
      cases hl : all l with
      | error e => simp [hl, Except.bind, Except.map] at h
      | ok bs =>
        simp only [hl, Except.bind, Except.map, Except.ok.injEq] at h
        rw [← h, List.mem_cons, List.mem_cons, ih hl]
        simp

/-- **C140 (paths).** What is reported for two paths is what is reported for each pair of sub-paths. -/
theorem mem_pathIntersect (sub : Sub → Sub → Except Err (List ℝ × List ℝ)) (as bs : List Sub) (l : List ((ℕ × ℝ) × (ℕ × ℝ)))
    (h : pathIntersect sub as bs = .ok l) (i j : ℕ) (s t : ℝ) :
    ((i, s), (j, t)) ∈ l ↔ ∃ a b r, as[i]? = some a ∧ bs[j]? = some b ∧ sub a b = .ok r ∧ (s, t) ∈ r.1.zip r.2 := by
  unfold pathIntersect at h
  generalize hX : (as.zipIdx.flatMap fun a => bs.zipIdx.map fun b =>
    (sub a.1 b.1).map fun r => (r.1.zip r.2).map fun x => ((a.2, x.1), (b.2, x.2))) = X at h
  cases hall : all X with
  | error e => rw [hall] at h; simp [Except.map] at h
  | ok ls =>
    rw [hall] at h
    simp only [Except.map, Except.ok.injEq] at h
    rw [← h, List.mem_flatten]
    constructor
    · rintro ⟨k, hk, hm⟩
      rw [all_mem_iff hall, ← hX] at hk
      obtain ⟨⟨a, i'⟩, ha, hk⟩ := List.mem_flatMap.mp hk
      obtain ⟨⟨b, j'⟩, hb, hk⟩ := List.mem_map.mp hk
      cases hs : sub a b with
      | error e => simp [hs, Except.map] at hk
      | ok r =>
        simp only [hs, Except.map, Except.ok.injEq] at hk
        rw [← hk] at hm
        obtain ⟨x, hx, hx'⟩ := List.mem_map.mp hm
        simp only [Prod.mk.injEq] at hx'
        obtain ⟨⟨rfl, rfl⟩, rfl, rfl⟩ := hx'
        exact ⟨a, b, r, List.mem_zipIdx_iff_getElem?.mp ha, List.mem_zipIdx_iff_getElem?.mp hb, hs, hx⟩
    · rintro ⟨a, b, r, ha, hb, hs, hx⟩
      refine ⟨(r.1.zip r.2).map fun x => ((i, x.1), (j, x.2)), ?_, List.mem_map.mpr ⟨_, hx, rfl⟩⟩
      rw [all_mem_iff hall, ← hX]
      refine List.mem_flatMap.mpr ⟨(a, i), List.mem_zipIdx_iff_getElem?.mpr ha, List.mem_map.mpr ⟨(b, j), List.mem_zipIdx_iff_getElem?.mpr hb, ?_⟩⟩
      simp only [hs, Except.map]

example (m w : ℕ) : pathIntersect (intersect roots (m + 1) w meets (some 1) (some 1)) [bent] [across] = .ok [((0, 1), (0, 1 / 2))] := by
  simp [pathIntersect, vertex_once, all, Except.map, Except.bind]

end PyX.NormPath.SubCross
