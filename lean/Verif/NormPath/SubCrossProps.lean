import Verif.NormPath.SubCross

/-!
# C140: which intersections are taken for the same point
-/

set_option linter.unusedSectionVars false

namespace PyX.NormPath.SubCross

open PyX.NormPath.Sub

variable (roots : ℝ → ℝ → ℝ → ℝ → List ℝ) (eps : Option ℝ) (n : ℕ)

/-! ## Specification -/

/-- The point of a list of connected items at a parameter within it. -/
def At (items : List (Item ℝ)) (t : ℝ) (p : ℝ × ℝ) : Prop :=
  ∃ (k : ℕ) (item : Item ℝ) (a : ℝ), items[k]? = some item ∧ t = k + a ∧ 0 ≤ a ∧ a ≤ 1 ∧ p = item.point a

/-- The points of the items at two parameters are closer than epsilon. -/
def Near (e : ℝ) (items : List (Item ℝ)) (t u : ℝ) : Prop := ∃ p q, At items t p ∧ At items u q ∧ dist2 p q < e

/-! ## Points -/

theorem At.unique {items : List (Item ℝ)} (hchain : items.IsChain fun i j => i.end_ = j.begin_) {t : ℝ} {p q : ℝ × ℝ} (hp : At items t p)
    (hq : At items t q) : p = q := by
  obtain ⟨k, i, a, hk, ht, a0, a1, rfl⟩ := hp
  obtain ⟨k', i', a', hk', ht', a0', a1', rfl⟩ := hq
  rw [← at_eq_point, ← at_eq_point]
  exact joint Eq (fun _ => rfl) (fun _ _ h => h.symm) items hchain k k' i i' hk hk' a a' ⟨a0, a1⟩ ⟨a0', a1'⟩ (ht ▸ ht')

theorem Near.symm {e : ℝ} {items : List (Item ℝ)} {t u : ℝ} (h : Near e items t u) : Near e items u t := by
  obtain ⟨p, q, hp, hq, hd⟩ := h
  exact ⟨q, p, hq, hp, by rw [dist2_comm]; exact hd⟩

theorem way_at {items : List (Item ℝ)} {goal t u : ℝ} {l : List (Item ℝ)} (h : Way items goal t u l) (hl : l ≠ [])
    (hg : 0 ≤ goal ∧ goal ≤ items.length) (ht' : 0 ≤ t ∧ t ≤ items.length) :
    ∃ first last, l.head? = some first ∧ l.getLast? = some last ∧ At items t first.begin_ ∧ At items u last.end_ := by
  induction h with
  | nil => exact absurd rfl hl
  | cons k item part a b t u v rest get tr ht hu up down within tail ih =>
    obtain ⟨⟨a0, a1⟩, b0, b1⟩ := within hg.1 hg.2 ht'.1 ht'.2
    have hb : At items t part.begin_ := ⟨k, item, a, get, ht, a0, a1, by rw [tr.begin_, at_eq_point]⟩
    have hu' : 0 ≤ u ∧ u ≤ items.length := by
      rcases le_total t goal with h | h
      · obtain ⟨h1, h2⟩ := up h; constructor <;> linarith [ht'.1, hg.2]
      · obtain ⟨h1, h2⟩ := down h; constructor <;> linarith [ht'.2, hg.1]
    cases rest with
    | nil =>
      cases tail
      exact ⟨part, part, rfl, rfl, hb, ⟨k, item, b, get, hu, b0, b1, by rw [tr.end_, at_eq_point]⟩⟩
    | cons r rest =>
      obtain ⟨first, last, _, h2, _, h4⟩ := ih (by simp) hu'
      exact ⟨part, last, rfl, by rw [List.getLast?_cons_cons]; exact h2, hb, h4⟩

/-! ## Short sub-paths -/

/-- A skipped line is shorter than epsilon. -/
def ShortSkip (e : ℝ) (s : Sub) : Prop := ∀ l, s.skipped = some l → dist2 l.begin_ l.end_ < e

theorem extendWith_short (e : ℝ) (f : Sub → Item ℝ → Out) (hf : ∀ s i, ShortSkip e s → ShortSkip e (f s i).1) (is : List (Item ℝ))
    (s : Sub) (hs : ShortSkip e s) : ShortSkip e (extendWith f s is).1 := by
  induction is generalizing s with
  | nil => exact hs
  | cons i is ih =>
    unfold extendWith
    have h := hf s i hs
    rcases hfi : f s i with ⟨s', _ | err⟩
    · rw [hfi] at h; exact ih s' h
    · rw [hfi] at h; exact h

theorem short_of_hypot (e : ℝ) (x0 y0 x1 y1 : ℝ) (h : ¬ hypot (x1 - x0) (y1 - y0) ≥ e) :
    dist2 (Line.begin_ (⟨x0, y0, x1, y1⟩ : Line ℝ)) (Line.end_ (⟨x0, y0, x1, y1⟩ : Line ℝ)) < e := by
  rw [dist2_comm]
  exact not_le.mp h

theorem append_short (e : ℝ) (n : ℕ) (s : Sub) (i : Item ℝ) (hs : ShortSkip e s) : ShortSkip e (append roots (some e) n s i).1 := by
  induction n generalizing s i with
  | zero => exact hs
  | succ n ih =>
    unfold append
    simp only
    by_cases hm : s.matches_ e i
    swap
    · rw [if_pos hm]; exact hs
    rw [if_neg (not_not.mpr hm)]
    by_cases hc : s.closed = true
    · rw [if_pos hc]; exact hs
    rw [if_neg hc]
    have hpush : ∀ j, ShortSkip e (s.unskip.push j) := fun j l hl => by simp [unskip, push] at hl
    cases s.adjusted i with
    | line l =>
      simp only
      by_cases hlen : hypot (l.x1 - l.x0) (l.y1 - l.y0) ≥ e
      · rw [if_pos hlen]; exact hpush _
      · rw [if_neg hlen]
        intro l' hl'
        simp only [skip, Option.some.injEq] at hl'
        subst hl'
        exact short_of_hypot e l.x0 l.y0 l.x1 l.y1 hlen
    | curve c =>
      simp only
      by_cases hlong : long e c
      · rw [if_pos hlong]
        by_cases hsp : splitpoints roots e (shift e c) = []
        · rw [if_pos hsp]; exact hpush _
        · rw [if_neg hsp]
          exact extendWith_short e _ (fun s i h => ih s i h) _ _ (fun l hl => by simp [unskip] at hl)
      · rw [if_neg hlong]
        intro l' hl'
        simp only [skip, Option.some.injEq] at hl'
        subst hl'
        exact short_of_hypot e c.x0 c.y0 c.x3 c.y3 (fun h => hlong (.inl h))

theorem extend_short (e : ℝ) (is : List (Item ℝ)) (s : Sub) (hs : ShortSkip e s) : ShortSkip e (extend roots (some e) n s is).1 :=
  extendWith_short e _ (fun s i h => append_short roots e n s i h) is s hs

/-- The parts of a sub-path between two of its parameters: where it begins and ends, and what it is like. -/
structure Part (e : ℝ) (items : List (Item ℝ)) (a b : ℝ) (c : Sub) : Prop where
  from_ : ∃ p, c.begin_ = some p ∧ At items a p
  to_ : ∃ q, c.end_ = some q ∧ At items b q
  inv : Inv (some e) Eq c
  isOpen : c.closed = false
  short : ShortSkip e c

theorem part_of_piece (e : ℝ) (items : List (Item ℝ)) (hchain : items.IsChain fun i j => i.end_ = j.begin_) (a b : ℝ) (c : Sub)
    (h : Piece roots (some e) n items a b c) (ha : 0 ≤ a ∧ a ≤ items.length) (hb : 0 ≤ b ∧ b ≤ items.length) : Part e items a b c := by
  obtain ⟨parts, hne, hway, hext⟩ := h
  obtain ⟨first, last, h1, h2, h3, h4⟩ := way_at hway hne hb ha
  have hch := hway.chain Eq (fun _ => rfl) (fun _ _ h => h.symm) hchain hb ha
  have g := extend_good roots (some e) (R := Eq) (fun _ => rfl) n parts fresh (inv_fresh _ (fun _ => rfl)) rfl
    (Or.inr ⟨hch, fun _ _ _ last hl => by simp [fresh] at hl⟩)
  have gs := extend_short roots n e parts fresh (fun l hl => by simp [fresh] at hl)
  rw [hext] at g gs
  obtain ⟨g1, g2⟩ := g.2.2 rfl first last h1 h2
  exact ⟨⟨_, g2, h3⟩, ⟨_, g1, h4⟩, g.1, g.2.1, gs⟩

/-- A part without items has its ends closer than epsilon. -/
theorem Part.near {e : ℝ} {items : List (Item ℝ)} {a b : ℝ} {c : Sub} (h : Part e items a b c) (hc : c.items = []) : Near e items a b := by
  obtain ⟨p, hp, hap⟩ := h.from_
  obtain ⟨q, hq, haq⟩ := h.to_
  refine ⟨p, q, hap, haq, ?_⟩
  unfold Sub.begin_ at hp
  rw [hc] at hp
  cases hk : c.skipped with
  | none => rw [hk] at hp; simp at hp
  | some l =>
    rw [hk] at hp
    unfold Sub.end_ at hq
    rw [hk] at hq
    simp only [Option.some.injEq] at hp hq
    subst hp hq
    exact h.short l hk

/-- Joining a part to a short one before it. -/
theorem Part.join {e : ℝ} {items : List (Item ℝ)} {a b d : ℝ} {c o c' : Sub}
    (hc : Part e items a b c) (ho : Part e items b d o) (h0 : c.items = []) (h : ok (Sub.join roots (some e) n c o) = .ok c') :
    Part e items a d c' := by
  have h' := ok_eq _ _ h
  unfold Sub.join at h'
  rw [if_neg (by rw [ho.isOpen]; simp), if_pos h0] at h'
  simp only at h'
  obtain ⟨p, hp, hap⟩ := hc.from_
  obtain ⟨q, hq, haq⟩ := ho.to_
  have noLast : ∀ i, Fits Eq c i := by
    intro i _ last hl
    rw [h0] at hl
    simp at hl
  have g := extend_good roots (some e) (R := Eq) (fun _ => rfl) n o.items c hc.inv hc.isOpen (Or.inr ⟨ho.inv.chain, fun i _ => noLast i⟩)
  have gs := extend_short roots n e o.items c hc.short
  rcases hx : extend roots (some e) n c o.items with ⟨s, err⟩
  rw [hx] at h' g gs
  cases err with
  | some er => simp at h'
  | none =>
    simp only at h' g gs
    -- the begin and the end after the items
    have hs1 : s.begin_ = some p := by
      cases hi : o.items with
      | nil =>
        rw [hi] at hx
        simp only [extend, extendWith, Prod.mk.injEq, and_true] at hx
        rw [← hx]; exact hp
      | cons i is =>
        obtain ⟨last, hla⟩ : ∃ last, o.items.getLast? = some last := by
          rw [hi]; exact ⟨_, List.getLast?_eq_some_getLast (List.cons_ne_nil _ _)⟩
        rw [(g.2.2 trivial i last (by rw [hi]; rfl) hla).2, hp]; rfl
    cases hk : o.skipped with
    | none =>
      rw [hk] at h'
      simp only [Prod.mk.injEq, and_true] at h'
      subst h'
      have hne : o.items ≠ [] := by
        intro hi
        unfold Sub.end_ at hq
        rw [hk, hi] at hq
        simp at hq
      obtain ⟨first, hf⟩ : ∃ first, o.items.head? = some first := ⟨_, List.head?_eq_some_head hne⟩
      have hla := List.getLast?_eq_some_getLast hne
      refine ⟨⟨p, hs1, hap⟩, ⟨q, ?_, haq⟩, g.1, g.2.1, gs⟩
      rw [(g.2.2 trivial first _ hf hla).1]
      unfold Sub.end_ at hq
      rw [hk, hla] at hq
      exact hq
    | some l =>
      rw [hk] at h'
      simp only at h'
      have hfit : Fits Eq s (.line l) := by
        cases hi : o.items with
        | nil =>
          rw [hi] at hx
          simp only [extend, extendWith, Prod.mk.injEq, and_true] at hx
          rw [← hx]; exact noLast _
        | cons i is =>
          obtain ⟨last, hla⟩ : ∃ last, o.items.getLast? = some last := by
            rw [hi]; exact ⟨_, List.getLast?_eq_some_getLast (List.cons_ne_nil _ _)⟩
          exact fits_of_end (fun _ => rfl) s last.end_ _ (g.2.2 trivial i last (by rw [hi]; rfl) hla).1 (ho.inv.skip l last hk hla)
      have ga := append_good roots (some e) (R := Eq) (fun _ => rfl) n s (.line l) g.1 g.2.1 (Or.inr hfit)
      have gb := append_short roots e n s (.line l) gs
      rw [h'] at ga gb
      refine ⟨⟨p, ?_, hap⟩, ⟨q, ?_, haq⟩, ga.inv, ga.closed, gb⟩
      · rw [ga.begin_ rfl, hs1]; rfl
      · rw [ga.end_ rfl]
        unfold Sub.end_ at hq
        rw [hk] at hq
        exact hq

/-! ## The loops -/

theorem bind_ok {α β : Type} {x : Except Err α} {f : α → Except Err β} {b : β} (h : x.bind f = .ok b) : ∃ a, x = .ok a ∧ f a = .ok b := by
  cases x with
  | error e => simp [Except.bind] at h
  | ok a => exact ⟨a, rfl, h⟩

theorem map_ok {α β : Type} {x : Except Err α} {f : α → β} {b : β} (h : x.map f = .ok b) : ∃ a, x = .ok a ∧ f a = b := by
  cases x with
  | error e => simp [Except.map] at h
  | ok a => simp only [Except.map, Except.ok.injEq] at h; exact ⟨a, rfl, h⟩

/-- The parts following each other: the first starts at parameter `i` of the list. -/
def Parts (e : ℝ) (items : List (Item ℝ)) (P : ℕ → ℝ) (i : ℕ) (l : List Sub) : Prop :=
  ∀ (k : ℕ) (c : Sub), l[k]? = some c → Part e items (P (i + k)) (P (i + k + 1)) c

theorem Parts.tail {e : ℝ} {items : List (Item ℝ)} {P : ℕ → ℝ} {i : ℕ} {s : Sub} {l : List Sub} (h : Parts e items P i (s :: l)) :
    Parts e items P (i + 1) l := by
  intro k c hk
  have := h (k + 1) c (by simpa using hk)
  rw [show i + 1 + k = i + (k + 1) by omega]
  exact this

theorem shortRun_near {e : ℝ} {items : List (Item ℝ)} {P : ℕ → ℝ} (rest : List Sub) (i j : ℕ) (cur : Sub) (js : List ℕ)
    (hcur : Part e items (P i) (P (j + 1)) cur) (hrest : Parts e items P (j + 1) rest)
    (h : shortRun roots (some e) n cur j rest = .ok js) :
    (∀ k ∈ js, j ≤ k ∧ k ≤ j + rest.length ∧ Near e items (P i) (P (k + 1))) ∧ js.Pairwise (· < ·) := by
  induction rest generalizing j cur js with
  | nil =>
    simp only [shortRun, Except.ok.injEq] at h
    subst h
    by_cases h0 : cur.items = []
    · rw [if_pos h0]
      refine ⟨fun k hk => ?_, by simp⟩
      rw [List.mem_singleton.mp hk]
      exact ⟨le_rfl, by simp, hcur.near h0⟩
    · rw [if_neg h0]; exact ⟨fun k hk => by simp at hk, by simp⟩
  | cons s rest ih =>
    unfold shortRun at h
    by_cases h0 : cur.items = []
    · rw [if_pos h0] at h
      obtain ⟨c, hc, h⟩ := bind_ok h
      obtain ⟨l, hl, rfl⟩ := map_ok h
      have hs : Part e items (P (j + 1)) (P (j + 1 + 1)) s := hrest 0 s rfl
      obtain ⟨i1, i2⟩ := ih (j + 1) c l (hcur.join roots n hs h0 hc) hrest.tail hl
      refine ⟨fun k hk => ?_, List.pairwise_cons.mpr ⟨fun k hk => (i1 k hk).1, i2⟩⟩
      rcases List.mem_cons.mp hk with rfl | hk
      · exact ⟨le_rfl, by simp, hcur.near h0⟩
      · obtain ⟨h1, h2, h3⟩ := i1 k hk
        exact ⟨by omega, by simp only [List.length_cons]; omega, h3⟩
    · rw [if_neg h0] at h
      simp only [Except.ok.injEq] at h
      subst h
      exact ⟨fun k hk => by simp at hk, by simp⟩

theorem all_mem {α : Type} (l : List (Except Err α)) (as : List α) (h : all l = .ok as) : l = as.map .ok := by
  induction l generalizing as with
  | nil => simp only [all, Except.ok.injEq] at h; subst h; rfl
  | cons x l ih =>
    unfold all at h
    obtain ⟨a, rfl, h⟩ := bind_ok h
    obtain ⟨as', h', rfl⟩ := map_ok h
    rw [ih as' h']; rfl

/-- A pair of two of the intersections with parameters which are near each other. -/
def NearPair (e : ℝ) (items : List (Item ℝ)) (ints : List (ℝ × ℕ)) (p : ℕ × ℕ) : Prop :=
  ∃ x ∈ ints, ∃ y ∈ ints, Near e items x.1 y.1 ∧ (p = (x.2, y.2) ∨ p = (y.2, x.2))

theorem openPairs_near {e : ℝ} {items : List (Item ℝ)} {P : ℕ → ℝ} (ints : List (ℝ × ℕ)) (hP : ∀ k x, ints[k]? = some x → P (k + 1) = x.1)
    (l : List Sub) (i : ℕ) (hi : 0 < i) (hl : Parts e items P i l) (ps : List (ℕ × ℕ)) (h : openPairs roots (some e) n ints i l = .ok ps) :
    ∀ p ∈ ps, NearPair e items ints p := by
  induction l generalizing i ps with
  | nil => simp only [openPairs, Except.ok.injEq] at h; subst h; simp
  | cons s rest ih =>
    unfold openPairs at h
    obtain ⟨qs, hq, h⟩ := bind_ok h
    obtain ⟨l', hl', rfl⟩ := map_ok h
    intro p hp
    rcases List.mem_append.mp hp with hp | hp
    swap
    · exact ih (i + 1) (by omega) hl.tail l' hl' p hp
    unfold pairsAt at hq
    obtain ⟨js, hjs, hq⟩ := bind_ok hq
    have hm := all_mem _ _ hq
    obtain ⟨h1, _⟩ := shortRun_near roots n rest i i s js (hl 0 s rfl) hl.tail hjs
    have hp' : (Except.ok p : Except Err (ℕ × ℕ)) ∈ js.map fun j => pairAt ints i j := by
      rw [hm]; exact List.mem_map.mpr ⟨p, hp, rfl⟩
    obtain ⟨j, hj, e'⟩ := List.mem_map.mp hp'
    unfold pairAt at e'
    rw [if_neg (by omega)] at e'
    cases hx : ints[i - 1]? with
    | none => rw [hx] at e'; simp at e'
    | some x =>
      cases hy : ints[j]? with
      | none => rw [hx, hy] at e'; simp at e'
      | some y =>
        rw [hx, hy] at e'
        simp only [Except.ok.injEq] at e'
        obtain ⟨_, _, hn⟩ := h1 j hj
        have e1 := hP _ _ hx
        rw [show i - 1 + 1 = i by omega] at e1
        rw [e1, hP _ _ hy] at hn
        refine ⟨x, List.mem_of_getElem? hx, y, List.mem_of_getElem? hy, hn, ?_⟩
        rw [← e']
        unfold sortPair
        split
        · exact .inl rfl
        · exact .inr rfl

/-- The parameters of the segments. -/
def params (s : Sub) (ints : List (ℝ × ℕ)) : List ℝ := 0 :: (ints.map Prod.fst ++ [(s.items.length : ℝ)])

theorem params_at (s : Sub) (ints : List (ℝ × ℕ)) (k : ℕ) (x : ℝ × ℕ) (h : ints[k]? = some x) : (params s ints).getD (k + 1) 0 = x.1 := by
  have hk : k < ints.length := (List.getElem?_eq_some_iff.mp h).1
  unfold params
  rw [List.getD_eq_getElem?_getD, List.getElem?_cons_succ, List.getElem?_append_left (by simpa using hk), List.getElem?_map, h]
  rfl

/-- The segments of an open sub-path are parts between the parameters. -/
theorem segments_parts (e : ℝ) (s : Sub) (hs : s.items ≠ []) (ho : s.closed = false)
    (hchain : s.items.IsChain fun i j => i.end_ = j.begin_) (ints : List (ℝ × ℕ)) (hr : ∀ x ∈ ints, 0 ≤ x.1 ∧ x.1 ≤ s.items.length)
    (l : List Sub) (h : segments roots (some e) n s (params s ints) = .ok l) :
    l.length = ints.length + 1 ∧ (∀ (i : ℕ) (c : Sub), l[i]? = some c →
      Piece roots (some e) n s.items ((params s ints).getD i 0) ((params s ints).getD (i + 1) 0) c) ∧
    Parts e s.items (fun k => (params s ints).getD k 0) 0 l := by
  unfold segments at h
  cases hop : segmentsOpen roots (some e) n s (params s ints) with
  | error er => rw [hop] at h; simp at h
  | ok l' =>
    rw [hop] at h
    simp only [Except.ok.injEq] at h
    rw [if_neg (by rw [ho]; simp)] at h
    subst h
    obtain ⟨h1, h2⟩ := segmentsOpen_pieces roots (some e) n s _ _ hs hop
    have hb : ∀ t ∈ params s ints, 0 ≤ t ∧ t ≤ s.items.length := by
      intro t ht
      unfold params at ht
      rcases List.mem_cons.mp ht with rfl | ht
      · exact ⟨le_rfl, by positivity⟩
      · rcases List.mem_append.mp ht with ht | ht
        · obtain ⟨x, hx, rfl⟩ := List.mem_map.mp ht
          exact hr x hx
        · rw [List.mem_singleton.mp ht]
          exact ⟨by positivity, le_rfl⟩
    have hpc : ∀ (i : ℕ) (c : Sub), l'[i]? = some c → ∃ a b, (params s ints).getD i 0 = a ∧ (params s ints).getD (i + 1) 0 = b ∧
        (0 ≤ a ∧ a ≤ s.items.length) ∧ (0 ≤ b ∧ b ≤ s.items.length) ∧ Piece roots (some e) n s.items a b c := by
      intro i c hi
      obtain ⟨a, b, ha, hb', hp⟩ := h2 i c hi
      exact ⟨a, b, by rw [List.getD_eq_getElem?_getD, ha]; rfl, by rw [List.getD_eq_getElem?_getD, hb']; rfl,
        hb a (List.mem_of_getElem? ha), hb b (List.mem_of_getElem? hb'), hp⟩
    refine ⟨?_, ?_, ?_⟩
    · simp only [params, List.length_cons, List.length_append, List.length_map, List.length_nil] at h1
      omega
    · intro i c hi
      obtain ⟨a, b, ha, hb', _, _, hp⟩ := hpc i c hi
      rw [ha, hb']; exact hp
    · intro k c hk
      obtain ⟨a, b, ha, hb', ra, rb, hp⟩ := hpc k c hk
      simp only [Nat.zero_add]
      rw [ha, hb']
      exact part_of_piece roots n e s.items hchain a b c hp ra rb

theorem inner_get (l : List Sub) (k : ℕ) (c : Sub) (h : l.dropLast.tail[k]? = some c) : l[k + 1]? = some c := by
  rw [List.getElem?_tail] at h
  rw [List.getElem?_dropLast] at h
  split at h
  · exact h
  · simp at h

theorem parts_inner {e : ℝ} {items : List (Item ℝ)} {P : ℕ → ℝ} {l : List Sub} (h : Parts e items P 0 l) : Parts e items P 1 l.dropLast.tail := by
  intro k c hk
  have := h (k + 1) c (inner_get l k c hk)
  rw [show 0 + (k + 1) = 1 + k by omega] at this
  exact this

/-- **C140 (which points are taken for the same).** Two intersections are taken for close points of an open sub-path only if the
points of the sub-path are closer than epsilon. -/
theorem closepoints_near (m : ℕ) (e : ℝ) (s : Sub) (hs : s.items ≠ []) (ho : s.closed = false)
    (hchain : s.items.IsChain fun i j => i.end_ = j.begin_) (ints : List (ℝ × ℕ)) (hr : ∀ x ∈ ints, 0 ≤ x.1 ∧ x.1 ≤ s.items.length)
    (ps : List (ℕ × ℕ)) (h : closepoints roots (some e) n m s ints = .ok ps) : ∀ p ∈ ps, NearPair e s.items ints p := by
  unfold closepoints at h
  obtain ⟨l, hl, h⟩ := bind_ok h
  rw [ho] at h
  obtain ⟨_, _, hp⟩ := segments_parts roots n e s hs ho hchain ints hr l hl
  exact openPairs_near roots n ints (fun k x hk => params_at s ints k x hk) _ 1 one_pos (parts_inner hp) ps h

/-! ## The pairs -/

theorem mem_openPairs (ints : List (ℝ × ℕ)) (l : List Sub) (i : ℕ) (ps : List (ℕ × ℕ)) (h : openPairs roots eps n ints i l = .ok ps) (p : ℕ × ℕ) :
    p ∈ ps ↔ ∃ k c js j, l[k]? = some c ∧ shortRun roots eps n c (i + k) (l.drop (k + 1)) = .ok js ∧ j ∈ js ∧ pairAt ints (i + k) j = .ok p := by
  induction l generalizing i ps with
  | nil =>
    simp only [openPairs, Except.ok.injEq] at h
    subst h
    simp
  | cons s rest ih =>
    unfold openPairs at h
    obtain ⟨qs, hq, h⟩ := bind_ok h
    obtain ⟨l', hl', rfl⟩ := map_ok h
    unfold pairsAt at hq
    obtain ⟨js, hjs, hq⟩ := bind_ok hq
    have hm := all_mem _ _ hq
    have hmem : p ∈ qs ↔ ∃ j ∈ js, pairAt ints i j = .ok p := by
      have : p ∈ qs ↔ (Except.ok p : Except Err (ℕ × ℕ)) ∈ qs.map Except.ok := by simp
      rw [this, ← hm, List.mem_map]
    rw [List.mem_append, hmem, ih (i + 1) l' hl']
    constructor
    · rintro (⟨j, hj, e⟩ | ⟨k, c, js', j, hk, h1, h2, h3⟩)
      · exact ⟨0, s, js, j, rfl, hjs, hj, e⟩
      · refine ⟨k + 1, c, js', j, by simpa using hk, ?_, h2, ?_⟩
        · rw [show i + (k + 1) = i + 1 + k by omega]; simpa using h1
        · rw [show i + (k + 1) = i + 1 + k by omega]; exact h3
    · rintro ⟨k, c, js', j, hk, h1, h2, h3⟩
      cases k with
      | zero =>
        simp only [List.getElem?_cons_zero, Option.some.injEq] at hk
        subst hk
        simp only [Nat.add_zero, Nat.zero_add, List.drop_succ_cons, List.drop_zero] at h1 h3
        rw [hjs] at h1
        cases h1
        exact .inl ⟨j, h2, h3⟩
      | succ k =>
        right
        refine ⟨k, c, js', j, by simpa using hk, ?_, h2, ?_⟩
        · rw [show i + (k + 1) = i + 1 + k by omega] at h1; simpa using h1
        · rw [show i + (k + 1) = i + 1 + k by omega] at h3; exact h3

/-- The values of `j` are consecutive. -/
theorem shortRun_range (rest : List Sub) (j : ℕ) (cur : Sub) (js : List ℕ) (h : shortRun roots eps n cur j rest = .ok js) :
    ∃ m, js = List.range' j m ∧ m ≤ rest.length + 1 := by
  induction rest generalizing j cur js with
  | nil =>
    simp only [shortRun, Except.ok.injEq] at h
    subst h
    split
    · exact ⟨1, rfl, by simp⟩
    · exact ⟨0, rfl, by simp⟩
  | cons s rest ih =>
    unfold shortRun at h
    split at h
    · obtain ⟨c, hc, h⟩ := bind_ok h
      obtain ⟨l, hl, rfl⟩ := map_ok h
      obtain ⟨m, rfl, hm⟩ := ih (j + 1) c l hl
      exact ⟨m + 1, by rw [List.range'_succ], by simp only [List.length_cons]; omega⟩
    · simp only [Except.ok.injEq] at h
      subst h
      exact ⟨0, rfl, by simp⟩

theorem pairAt_ok {ints : List (ℝ × ℕ)} {i j : ℕ} (hi : 0 < i) {p : ℕ × ℕ} (h : pairAt ints i j = .ok p) :
    ∃ x y, ints[i - 1]? = some x ∧ ints[j]? = some y ∧ p = sortPair x.2 y.2 := by
  unfold pairAt at h
  rw [if_neg (by omega)] at h
  split at h
  · rename_i x y hx hy
    simp only [Except.ok.injEq] at h
    exact ⟨x, y, hx, hy, h.symm⟩
  · simp at h

theorem indexedA_get (l : List (ℝ × ℝ)) (k : ℕ) (x : ℝ × ℕ) (h : (indexedA l)[k]? = some x) : x.2 = k := by
  unfold indexedA at h
  rw [List.getElem?_zipIdx] at h
  cases hk : (l.map Prod.fst)[k]? with
  | none => rw [hk] at h; simp at h
  | some v =>
    rw [hk] at h
    simp only [Option.map_some, Option.some.injEq] at h
    rw [← h]; simp

/-- The pairs of the first sub-path come in order, the smaller index first. -/
theorem openPairs_order (l : List (ℝ × ℝ)) (segs : List Sub) (i : ℕ) (hi : 0 < i) (ps : List (ℕ × ℕ))
    (h : openPairs roots eps n (indexedA l) i segs = .ok ps) :
    ps.Pairwise pairLe ∧ ∀ p ∈ ps, i ≤ p.1 + 1 ∧ p.1 < p.2 := by
  induction segs generalizing i ps with
  | nil =>
    simp only [openPairs, Except.ok.injEq] at h
    subst h
    simp
  | cons s rest ih =>
    unfold openPairs at h
    obtain ⟨qs, hq, h⟩ := bind_ok h
    obtain ⟨l', hl', rfl⟩ := map_ok h
    obtain ⟨i1, i2⟩ := ih (i + 1) (by omega) l' hl'
    unfold pairsAt at hq
    obtain ⟨js, hjs, hq⟩ := bind_ok hq
    have hm := all_mem _ _ hq
    obtain ⟨m, rfl, -⟩ := shortRun_range roots eps n rest i s js hjs
    have hqs : qs = (List.range' i m).map fun j => (i - 1, j) := by
      have hinj : Function.Injective (Except.ok : ℕ × ℕ → Except Err (ℕ × ℕ)) := fun a b h => by cases h; rfl
      apply List.map_injective_iff.mpr hinj
      rw [← hm, List.map_map]
      apply List.map_congr_left
      intro j hj
      have hj1 := (List.mem_range'_1.mp hj).1
      have : (Except.error .index : Except Err (ℕ × ℕ)) ∉ qs.map Except.ok := by simp
      have hok : ∃ p, pairAt (indexedA l) i j = .ok p := by
        have hin : pairAt (indexedA l) i j ∈ qs.map Except.ok := by rw [← hm]; exact List.mem_map.mpr ⟨j, hj, rfl⟩
        obtain ⟨p, _, hp⟩ := List.mem_map.mp hin
        exact ⟨p, hp.symm⟩
      obtain ⟨p, hp⟩ := hok
      obtain ⟨x, y, hx, hy, e⟩ := pairAt_ok hi hp
      have e1 := indexedA_get l _ _ hx
      have e2 := indexedA_get l _ _ hy
      rw [hp, e, e1, e2]
      unfold sortPair
      rw [if_pos (by omega)]
      rfl
    subst hqs
    refine ⟨List.pairwise_append.mpr ⟨?_, i1, ?_⟩, ?_⟩
    · rw [List.pairwise_map]
      exact (List.pairwise_lt_range' (s := i) (n := m)).imp fun h => .inr ⟨rfl, h.le⟩
    · intro p hp q hq
      obtain ⟨j, _, rfl⟩ := List.mem_map.mp hp
      have := (i2 q hq).1
      exact .inl (by simp only; omega)
    · intro p hp
      rcases List.mem_append.mp hp with hp | hp
      · obtain ⟨j, hj, rfl⟩ := List.mem_map.mp hp
        have := (List.mem_range'_1.mp hj).1
        simp only
        omega
      · have := i2 p hp
        omega

end PyX.NormPath.SubCross
