import Verif.NormPath.Segments

/-!
# C44, C45: what the segments of a sub-path are
-/

set_option linter.unusedSectionVars false

namespace PyX.NormPath

noncomputable section

namespace Sub

variable (roots : ℝ → ℝ → ℝ → ℝ → List ℝ) (eps : Option ℝ) (n : ℕ)

/-! ## Ways -/

/-- The parts contain only points of the items between the two parameters (in this order), … -/
theorem Way.sound_up {items : List (Item ℝ)} {goal t u : ℝ} {l : List (Item ℝ)} (h : Way items goal t u l) (htg : t ≤ goal) :
    t ≤ u ∧ u ≤ goal ∧ ∀ part ∈ l, ∀ s, 0 ≤ s → s ≤ 1 → ∃ w, t ≤ w ∧ w ≤ u ∧ PointAt items w (part.point s) := by
  induction h with
  | nil => exact ⟨le_refl _, htg, fun _ h => by simp at h⟩
  | cons k item part a b t u v rest get tr ht hu up down within tail ih =>
    obtain ⟨h1, h2⟩ := up htg
    obtain ⟨h3, h4, h5⟩ := ih h2
    refine ⟨h1.trans h3, h4, ?_⟩
    intro p hp s s0 s1
    rcases List.mem_cons.mp hp with rfl | hp
    · refine ⟨t + s * (u - t), by nlinarith, by nlinarith, k, item, a + s * (b - a), get, by rw [ht, hu]; ring, tr s⟩
    · obtain ⟨w, w1, w2, w3⟩ := h5 p hp s s0 s1
      exact ⟨w, h1.trans w1, w2, w3⟩

theorem Way.sound_down {items : List (Item ℝ)} {goal t u : ℝ} {l : List (Item ℝ)} (h : Way items goal t u l) (htg : goal ≤ t) :
    u ≤ t ∧ goal ≤ u ∧ ∀ part ∈ l, ∀ s, 0 ≤ s → s ≤ 1 → ∃ w, w ≤ t ∧ u ≤ w ∧ PointAt items w (part.point s) := by
  induction h with
  | nil => exact ⟨le_refl _, htg, fun _ h => by simp at h⟩
  | cons k item part a b t u v rest get tr ht hu up down within tail ih =>
    obtain ⟨h1, h2⟩ := down htg
    obtain ⟨h3, h4, h5⟩ := ih h2
    refine ⟨h3.trans h1, h4, ?_⟩
    intro p hp s s0 s1
    rcases List.mem_cons.mp hp with rfl | hp
    · refine ⟨t + s * (u - t), by nlinarith, by nlinarith, k, item, a + s * (b - a), get, by rw [ht, hu]; ring, tr s⟩
    · obtain ⟨w, w1, w2, w3⟩ := h5 p hp s s0 s1
      exact ⟨w, w1.trans h1, w2, w3⟩

theorem between_param (t u w : ℝ) (h1 : t ≤ w ∧ w ≤ u ∨ u ≤ w ∧ w ≤ t) : ∃ s, 0 ≤ s ∧ s ≤ 1 ∧ w = t + s * (u - t) := by
  by_cases hut : u = t
  · refine ⟨0, le_refl _, zero_le_one, ?_⟩
    subst hut
    rcases h1 with h | h <;> linarith [h.1, h.2]
  · refine ⟨(w - t) / (u - t), ?_, ?_, ?_⟩
    · rcases h1 with h | h
      · exact div_nonneg (by linarith [h.1]) (by linarith [h.1, h.2])
      · exact div_nonneg_of_nonpos (by linarith [h.2]) (by linarith [h.1, h.2])
    · rcases h1 with h | h
      · rw [div_le_one (lt_of_le_of_ne (by linarith [h.1, h.2]) (fun e => hut (by linarith)))]
        linarith [h.2]
      · rw [div_le_one_of_neg (lt_of_le_of_ne (by linarith [h.1, h.2]) (fun e => hut (by linarith)))]
        linarith [h.1]
    · rw [div_mul_cancel₀ _ (sub_ne_zero.mpr hut)]
      ring

/-- … and all of them. -/
theorem Way.covers {items : List (Item ℝ)} {goal t u : ℝ} {l : List (Item ℝ)} (h : Way items goal t u l) (hl : l ≠ []) (w : ℝ)
    (hw : t ≤ w ∧ w ≤ u ∨ u ≤ w ∧ w ≤ t) :
    ∃ part ∈ l, ∃ s, 0 ≤ s ∧ s ≤ 1 ∧ PointAt items w (part.point s) := by
  induction h with
  | nil => exact absurd rfl hl
  | cons k item part a b t u v rest get tr ht hu up down within tail ih =>
    by_cases hin : t ≤ w ∧ w ≤ u ∨ u ≤ w ∧ w ≤ t
    · obtain ⟨s, s0, s1, hs⟩ := between_param t u w hin
      refine ⟨part, List.mem_cons_self, s, s0, s1, k, item, a + s * (b - a), get, ?_, tr s⟩
      rw [hs, ht, hu]; ring
    · have hv : u ≤ w ∧ w ≤ v ∨ v ≤ w ∧ w ≤ u := by
        rcases hw with ⟨h1, h2⟩ | ⟨h1, h2⟩
        · left
          refine ⟨?_, h2⟩
          by_contra hc
          exact hin (Or.inl ⟨h1, by linarith⟩)
        · right
          refine ⟨h1, ?_⟩
          by_contra hc
          exact hin (Or.inr ⟨by linarith, h2⟩)
      cases rest with
      | nil =>
        cases tail
        have : w = u := by rcases hv with h | h <;> linarith [h.1, h.2]
        subst this
        refine ⟨part, List.mem_cons_self, 1, zero_le_one, le_refl _, k, item, b, get, hu, ?_⟩
        rw [tr 1]; congr 1; ring
      | cons r rest =>
        obtain ⟨p, hp, hh⟩ := ih (by simp) hv
        exact ⟨p, List.mem_cons_of_mem _ hp, hh⟩

/-- At the boundary of two items the end of the one is related to the begin of the other. -/
theorem joint (R : ℝ × ℝ → ℝ × ℝ → Prop) (hrefl : ∀ p, R p p) (hsymm : ∀ p q, R p q → R q p) (items : List (Item ℝ))
    (hchain : items.IsChain fun i j => R i.end_ j.begin_) (k k' : ℕ) (i i' : Item ℝ) (hi : items[k]? = some i)
    (hi' : items[k']? = some i') (a a' : ℝ) (ha : 0 ≤ a ∧ a ≤ 1) (ha' : 0 ≤ a' ∧ a' ≤ 1) (heq : (k : ℝ) + a = k' + a') :
    R (i.at_ a) (i'.at_ a') := by
  have step : ∀ (k : ℕ) (i i' : Item ℝ), items[k]? = some i → items[k + 1]? = some i' → R i.end_ i'.begin_ := by
    intro k i i' hi hi'
    rw [List.getElem?_eq_some_iff] at hi hi'
    obtain ⟨h1, e1⟩ := hi
    obtain ⟨h2, e2⟩ := hi'
    have := List.isChain_iff_getElem.mp hchain k h2
    rw [e1, e2] at this
    exact this
  rcases Nat.lt_trichotomy k k' with h | h | h
  · have : (k : ℝ) + 1 ≤ k' := by exact_mod_cast h
    have e1 : a = 1 := by linarith [ha.2, ha'.1]
    have e2 : a' = 0 := by linarith [ha.2, ha'.1]
    have e3 : (k' : ℝ) = k + 1 := by linarith
    have e4 : k' = k + 1 := by exact_mod_cast e3
    subst e4
    rw [e1, e2, at_end, at_begin]
    exact step k i i' hi hi'
  · subst h
    rw [hi] at hi'
    cases hi'
    have : a = a' := by linarith
    rw [this]
    exact hrefl _
  · have : (k' : ℝ) + 1 ≤ k := by exact_mod_cast h
    have e1 : a = 0 := by linarith [ha.1, ha'.2]
    have e2 : a' = 1 := by linarith [ha.1, ha'.2]
    have e3 : (k : ℝ) = k' + 1 := by linarith
    have e4 : k = k' + 1 := by exact_mod_cast e3
    subst e4
    rw [e1, e2, at_end, at_begin]
    exact hsymm _ _ (step k' i' i hi' hi)

/-- Parts following a connected sub-path are connected. -/
theorem Way.chain (R : ℝ × ℝ → ℝ × ℝ → Prop) (hrefl : ∀ p, R p p) (hsymm : ∀ p q, R p q → R q p) {items : List (Item ℝ)}
    (hchain : items.IsChain fun i j => R i.end_ j.begin_) {goal t u : ℝ} {l : List (Item ℝ)} (h : Way items goal t u l)
    (hg : 0 ≤ goal ∧ goal ≤ items.length) (ht' : 0 ≤ t ∧ t ≤ items.length) :
    l.IsChain fun i j => R i.end_ j.begin_ := by
  induction h with
  | nil => simp
  | cons k item part a b t u v rest get tr ht hu up down within tail ih =>
    have hw := within hg.1 hg.2 ht'.1 ht'.2
    have hu' : 0 ≤ u ∧ u ≤ items.length := by
      rcases le_total t goal with h | h
      · obtain ⟨h1, h2⟩ := up h; constructor <;> linarith [ht'.1, hg.2]
      · obtain ⟨h1, h2⟩ := down h; constructor <;> linarith [ht'.2, hg.1]
    rw [List.isChain_cons]
    refine ⟨?_, ih hu'⟩
    intro y hy
    cases tail with
    | nil => simp at hy
    | cons k' item' part' a' b' _ u' _ rest' get' tr' ht2 hu2 up' down' within' tail' =>
      simp only [List.head?_cons, Option.mem_def, Option.some.injEq] at hy
      subst hy
      rw [tr.end_, tr'.begin_]
      have hw' := within' hg.1 hg.2 hu'.1 hu'.2
      exact joint R hrefl hsymm items hchain k k' item item' get get' b a' hw.2 hw'.1 (by linarith)

/-! ## Pieces -/

/-- A piece starts and ends at the points of the sub-path at the two parameters. -/
theorem Piece.ends (items : List (Item ℝ)) (a b : ℝ) (c : Sub) (h : Piece roots eps n items a b c)
    (hchain : items.IsChain fun i j => i.end_ = j.begin_) (ha : 0 ≤ a ∧ a ≤ items.length) (hb : 0 ≤ b ∧ b ≤ items.length) :
    ∃ p q, c.begin_ = some p ∧ c.end_ = some q ∧ PointAt items a p ∧ PointAt items b q ∧ Inv eps Eq c := by
  obtain ⟨parts, hne, hway, hext⟩ := h
  obtain ⟨first, last, h1, h2, h3, h4⟩ := hway.ends hne
  have hch := hway.chain Eq (fun _ => rfl) (fun _ _ h => h.symm) hchain hb ha
  have g := extend_good roots eps (R := Eq) (fun _ => rfl) n parts fresh (inv_fresh eps (fun _ => rfl)) rfl
    (Or.inr ⟨hch, fun _ _ _ last hl => by simp [fresh] at hl⟩)
  rw [hext] at g
  obtain ⟨g1, g2⟩ := g.2.2 rfl first last h1 h2
  exact ⟨first.begin_, last.end_, g2, g1, h3, h4, g.1⟩

/-- Also with gaps between the items (smaller than epsilon, say) pieces are as well connected as the sub-path. -/
theorem Piece.inv (R : ℝ × ℝ → ℝ × ℝ → Prop) (hrefl : ∀ p, R p p) (hsymm : ∀ p q, R p q → R q p) (items : List (Item ℝ)) (a b : ℝ)
    (c : Sub) (h : Piece roots eps n items a b c) (hchain : items.IsChain fun i j => R i.end_ j.begin_)
    (ha : 0 ≤ a ∧ a ≤ items.length) (hb : 0 ≤ b ∧ b ≤ items.length) : Inv eps R c := by
  obtain ⟨parts, hne, hway, hext⟩ := h
  have g := extend_good roots eps hrefl n parts fresh (inv_fresh eps hrefl) rfl
    (Or.inr ⟨hway.chain R hrefl hsymm hchain hb ha, fun _ _ _ last hl => by simp [fresh] at hl⟩)
  rw [hext] at g
  exact g.1

/-- Without epsilon, items are just appended. -/
theorem extend_none (l : List (Item ℝ)) (s : Sub) (hl : l = [] ∨ 0 < n) :
    extend roots none n s l = (⟨s.items ++ l, s.closed, s.skipped⟩, none) := by
  induction l generalizing s with
  | nil => simp [extend, extendWith]
  | cons i l ih =>
    obtain ⟨m, rfl⟩ : ∃ m, n = m + 1 := ⟨n - 1, by rcases hl with h | h <;> [simp at h; omega]⟩
    have e : append roots none (m + 1) s i = (s.push i, none) := rfl
    unfold extend extendWith
    rw [e]
    simp only
    have := ih (s.push i) (Or.inr (by omega))
    unfold extend at this
    rw [this]
    simp [push]

/-- Items which are long enough are just appended, too. -/
def Plain (eps : Option ℝ) (l : List (Item ℝ)) : Prop :=
  l.IsChain (fun i j => ∀ e, eps = some e → dist2 i.end_ j.begin_ < e) ∧
  ∀ i ∈ l, ∀ e, eps = some e → match i with
    | .line l => e ≤ hypot (l.x1 - l.x0) (l.y1 - l.y0)
    | .curve c => long e c ∧ shift e c = c ∧ splitpoints roots e c = []

theorem extend_plain (l : List (Item ℝ)) (s : Sub) (e : ℝ) (hn : l = [] ∨ 0 < n) (hp : Plain roots (some e) l) (hc : s.closed = false)
    (hk : s.skipped = none) (hs : ∀ i, l.head? = some i → s.matches_ e i) :
    extend roots (some e) n s l = (⟨s.items ++ l, false, none⟩, none) := by
  induction l generalizing s with
  | nil => cases s; simp_all [extend, extendWith]
  | cons i l ih =>
    obtain ⟨m, rfl⟩ : ∃ m, n = m + 1 := ⟨n - 1, by rcases hn with h | h <;> [simp at h; omega]⟩
    have hm := hs i rfl
    have hu : s.unskip = s := by cases s; simp only at hk; subst hk; rfl
    have e1 : append roots (some e) (m + 1) s i = (s.push i, none) := by
      unfold append
      simp only
      rw [if_neg (not_not.mpr hm), if_neg (by rw [hc]; simp), adjusted_begin_none s i hk, hu]
      have hi := hp.2 i List.mem_cons_self e rfl
      cases i with
      | line l' => simp only at hi ⊢; rw [if_pos hi]
      | curve c =>
        simp only at hi ⊢
        rw [if_pos hi.1, hi.2.1, if_pos hi.2.2]
    unfold extend extendWith
    rw [e1]
    simp only
    have hp1 := hp.1
    rw [List.isChain_cons] at hp1
    have := ih (s.push i) (Or.inr (by omega)) ⟨hp1.2, fun j hj => hp.2 j (List.mem_cons_of_mem _ hj)⟩ hc hk (by
      intro j hj p hpe
      rw [end_push s i hk] at hpe
      cases hpe
      exact hp1.1 j hj e rfl)
    unfold extend at this
    rw [this]
    simp [push]

/-- **C45.**  Without epsilon (or if the parts are long enough) the items of a piece go along the original ones: with `sound_up`,
`sound_down` and `covers` the piece has exactly the points of the original between the two parameters. -/
theorem Piece.way (items : List (Item ℝ)) (a b : ℝ) (c : Sub) (h : Piece roots none n items a b c) :
    c.items ≠ [] ∧ Way items b a b c.items ∧ c.skipped = none ∧ c.closed = false := by
  obtain ⟨parts, hne, hway, hext⟩ := h
  have hn : 0 < n := by
    rcases Nat.eq_zero_or_pos n with h0 | h0
    · subst h0
      cases parts with
      | nil => exact absurd rfl hne
      | cons i l => simp [extend, extendWith, append] at hext
    · exact h0
  rw [extend_none roots n parts fresh (Or.inr hn)] at hext
  simp only [Prod.mk.injEq, and_true] at hext
  subst hext
  exact ⟨by simpa [fresh] using hne, by simpa [fresh] using hway, rfl, rfl⟩

/-- With epsilon: if the parts are long enough, they are the items of the piece. -/
theorem Piece.way_plain (items : List (Item ℝ)) (a b e : ℝ) (c : Sub) (h : Piece roots (some e) n items a b c) :
    ∃ parts, parts ≠ [] ∧ Way items b a b parts ∧ (Plain roots (some e) parts → c = ⟨parts, false, none⟩) := by
  obtain ⟨parts, hne, hway, hext⟩ := h
  refine ⟨parts, hne, hway, fun hp => ?_⟩
  have hn : 0 < n := by
    rcases Nat.eq_zero_or_pos n with h0 | h0
    · subst h0
      cases parts with
      | nil => exact absurd rfl hne
      | cons i l => simp [extend, extendWith, append] at hext
    · exact h0
  rw [extend_plain roots n parts fresh e (Or.inr hn) hp rfl rfl (fun i _ p hpe => by simp [end_, fresh] at hpe)] at hext
  simp only [Prod.mk.injEq, and_true] at hext
  rw [← hext]
  rfl

/-- The points of a list of items. -/
def Points (items : List (Item ℝ)) (p : ℝ × ℝ) : Prop := ∃ i ∈ items, ∃ s, 0 ≤ s ∧ s ≤ 1 ∧ p = i.point s

/-- **C45.**  The points of a piece are the points of the sub-path between the two parameters. -/
theorem Piece.points (items : List (Item ℝ)) (hchain : items.IsChain fun i j => i.end_ = j.begin_) (a b : ℝ) (c : Sub)
    (h : Piece roots none n items a b c) (ha : 0 ≤ a) (hab : a ≤ b) (hb : b ≤ items.length) (p : ℝ × ℝ) :
    Points c.items p ↔ ∃ (k : ℕ) (item : Item ℝ) (x : ℝ), items[k]? = some item ∧ 0 ≤ x ∧ x ≤ 1 ∧ a ≤ k + x ∧ k + x ≤ b ∧ p = item.point x := by
  obtain ⟨hne, hway, _, _⟩ := h.way roots n items a b c
  constructor
  · -- the parts are within the items
    have key : ∀ {t u : ℝ} {l : List (Item ℝ)}, Way items b t u l → a ≤ t → t ≤ b → ∀ i ∈ l, ∀ s, 0 ≤ s → s ≤ 1 →
        ∃ (k : ℕ) (item : Item ℝ) (x : ℝ), items[k]? = some item ∧ 0 ≤ x ∧ x ≤ 1 ∧ a ≤ k + x ∧ k + x ≤ b ∧ i.point s = item.point x := by
      intro t u l hw
      induction hw with
      | nil => intro _ _ i hi; simp at hi
      | cons k item part x y t u v rest get tr ht hu up down within tail ih =>
        intro hat htb i hi s s0 s1
        obtain ⟨h1, h2⟩ := up htb
        rcases List.mem_cons.mp hi with rfl | hi
        · obtain ⟨⟨x0, x1⟩, y0, y1⟩ := within (ha.trans (hat.trans htb)) hb (ha.trans hat) (htb.trans hb)
          have hxy : x ≤ y := by linarith
          refine ⟨k, item, x + s * (y - x), get, by nlinarith, by nlinarith, by nlinarith, by nlinarith, tr s⟩
        · exact ih (hat.trans h1) h2 i hi s s0 s1
    rintro ⟨i, hi, s, s0, s1, rfl⟩
    exact key hway (le_refl a) hab i hi s s0 s1
  · rintro ⟨k, item, x, get, x0, x1, h1, h2, rfl⟩
    -- walk to the part containing the parameter
    have key : ∀ {t u : ℝ} {l : List (Item ℝ)}, Way items b t u l → a ≤ t → t ≤ b → l ≠ [] → t ≤ k + x → (k : ℝ) + x ≤ u →
        Points l (item.point x) := by
      intro t u l hw
      induction hw with
      | nil => intro _ _ h0; exact absurd rfl h0
      | cons k' item' part x' y' t u v rest get' tr ht hu up down within tail ih =>
        intro hat htb _ h1 h2
        obtain ⟨h3, h4⟩ := up htb
        obtain ⟨⟨hx0, hx1⟩, hy0, hy1⟩ := within (ha.trans (hat.trans htb)) hb (ha.trans hat) (htb.trans hb)
        have here : (k : ℝ) + x ≤ u → Points (part :: rest) (item.point x) := by
          intro hxu
          obtain ⟨s, s0, s1, hs⟩ := between_param t u (k + x) (Or.inl ⟨h1, hxu⟩)
          refine ⟨part, List.mem_cons_self, s, s0, s1, ?_⟩
          rw [tr s, ← at_eq_point, ← at_eq_point]
          have hxy : x' ≤ y' := by linarith
          exact joint Eq (fun _ => rfl) (fun _ _ h => h.symm) items hchain k k' item item' get get' x _ ⟨x0, x1⟩
            ⟨by nlinarith, by nlinarith⟩ (by rw [hs, ht, hu]; ring)
        by_cases hxu : (k : ℝ) + x ≤ u
        · exact here hxu
        · cases rest with
          | nil => cases tail; exact here h2
          | cons r rest =>
            obtain ⟨i, hi, hh⟩ := ih (hat.trans h3) h4 (by simp) (by linarith) h2
            exact ⟨i, List.mem_cons_of_mem _ hi, hh⟩
    exact key hway (le_refl a) hab hne h1 h2

/-! ## Success -/

theorem makeAll_none (is : List (Item ℝ)) (hn : 0 < n) : ∃ new, makeAll roots none n is = .ok new := by
  induction is with
  | nil => exact ⟨[], rfl⟩
  | cons i is ih =>
    obtain ⟨new, h⟩ := ih
    refine ⟨⟨[i], false, none⟩ :: new, ?_⟩
    unfold makeAll
    rw [make_open, extend_none roots n [i] fresh (Or.inr hn), h]
    rfl

theorem collect_none (done : List Sub) (cur : Sub) (item : Item ℝ) (params : List ℝ) (hn : 0 < n) (h2 : 2 ≤ params.length) :
    ∃ r, collect roots none n done cur item params = .ok r := by
  obtain ⟨segs, hs⟩ := Option.isSome_iff_exists.mp ((segments_isSome item params).mpr h2)
  have hl := (segments_traces item params segs hs).1
  cases segs with
  | nil => simp at hl; omega
  | cons s0 ss =>
    obtain ⟨new, hnew⟩ := makeAll_none roots n ss hn
    unfold collect
    rw [hs]
    simp only
    rw [hnew, ← extend_one, extend_none roots n [s0] cur (Or.inr hn)]
    exact ⟨_, rfl⟩

theorem segStep_none (items : List (Item ℝ)) (st : SegState) (ts : List ℝ) (t : ℝ) (hn : 0 < n)
    (hc : Cond roots none n items st ts) : ∃ st', segStep roots none n items st t = .ok st' := by
  unfold segStep
  cases hidx : st.index with
  | none => exact ⟨_, rfl⟩
  | some k =>
    unfold Cond at hc
    rw [hidx] at hc
    obtain ⟨item, p0, ps, parts, hget, hparams, _⟩ := hc
    simp only
    by_cases hk : (locate items.length t).1 = k
    · rw [if_pos hk]; exact ⟨_, rfl⟩
    · rw [if_neg hk, hget]
      simp only
      obtain ⟨⟨d, c⟩, hr⟩ := collect_none roots n st.done st.cur item (st.params ++ [if (locate items.length t).1 > k then 1 else 0]) hn
        (by rw [hparams]; simp)
      rw [hr]
      simp only
      rw [extend_none roots n _ c (Or.inr hn)]
      exact ⟨_, rfl⟩

theorem segLoop_none (items : List (Item ℝ)) (hitems : items ≠ []) (us : List ℝ) (st : SegState) (ts : List ℝ) (hn : 0 < n)
    (hc : Cond roots none n items st ts) : ∃ st', segLoop roots none n items st us = .ok st' := by
  induction us generalizing st ts with
  | nil => exact ⟨_, rfl⟩
  | cons t us ih =>
    obtain ⟨st1, h1⟩ := segStep_none roots n items st ts t hn hc
    unfold segLoop
    rw [h1]
    exact ih st1 (ts ++ [t]) (segStep_cond roots none n items hitems st st1 ts t hc h1)

/-- Without epsilon `segments` always succeeds for at least two parameters. -/
theorem segmentsOpen_none (s : Sub) (params : List ℝ) (h2 : 2 ≤ params.length) (hn : 0 < n) :
    ∃ l, segmentsOpen roots none n s params = .ok l := by
  unfold segmentsOpen
  rw [if_neg (by omega)]
  by_cases hs : s.items = []
  · rw [if_pos hs]; exact ⟨_, rfl⟩
  rw [if_neg hs]
  obtain ⟨st, hst⟩ := segLoop_none roots n s.items hs params ⟨[], fresh, [], none⟩ [] hn ⟨rfl, rfl⟩
  have hc := segLoop_cond roots none n s.items hs params ⟨[], fresh, [], none⟩ st [] ⟨rfl, rfl⟩ hst
  rw [hst]
  simp only
  cases hidx : st.index with
  | none =>
    unfold Cond at hc
    rw [hidx] at hc
    obtain ⟨_, h0⟩ := hc
    rw [List.nil_append] at h0
    rw [h0] at h2
    simp at h2
  | some k =>
    unfold Cond at hc
    rw [hidx] at hc
    obtain ⟨item, p0, ps, parts, hget, hparams, hcount, _, _, hps0, _⟩ := hc
    simp only
    rw [hget]
    simp only
    obtain ⟨⟨d, c⟩, hr⟩ := collect_none roots n st.done st.cur item st.params hn (by
      rw [hparams]
      cases ps with
      | nil =>
        obtain ⟨_, _, h3⟩ := hps0 rfl
        rw [h3] at hcount
        simp at hcount
        omega
      | cons q qs => simp)
    rw [hr]
    exact ⟨_, rfl⟩

end Sub

end

end PyX.NormPath
