import Verif.NormPath.Sub

/-!
# C44: sub-paths stay connected, over all histories of operations
-/

set_option linter.unusedSectionVars false

namespace PyX.NormPath

noncomputable section

namespace Sub

variable (roots : ℝ → ℝ → ℝ → ℝ → List ℝ) (eps : Option ℝ) (R : ℝ × ℝ → ℝ × ℝ → Prop)

/-! ## Specification -/

/-- The documented invariants (`normpath.py:794-802`): each item starts where the previous one ends (up to `R`, being equality
or "closer than epsilon"), the skipped line starts at the end, and a closed sub-path ends where it starts. -/
structure Inv (s : Sub) : Prop where
  chain : s.items.IsChain fun i j => R i.end_ j.begin_
  skip : ∀ l last, s.skipped = some l → s.items.getLast? = some last → R last.end_ l.begin_
  closed : s.closed = true → s.skipped = none ∧ ∃ first last, s.items.head? = some first ∧ s.items.getLast? = some last ∧
    last.end_ = first.begin_
  noskip : eps = none → s.skipped = none

/-- The item may follow: it starts at the end of the last item (when no line is skipped, otherwise its begin is moved). -/
def Fits (s : Sub) (i : Item ℝ) : Prop :=
  s.skipped = none → ∀ last, s.items.getLast? = some last → R last.end_ i.begin_

/-- The assertion in `append` is sufficient for `R`. -/
def Auto : Prop := ∃ e, eps = some e ∧ ∀ p q, dist2 p q < e → R p q

variable {R}

/-! ## Ends -/

theorem end_push (s : Sub) (i : Item ℝ) (h : s.skipped = none) : (s.push i).end_ = some i.end_ := by
  simp [end_, push, h]

theorem end_skip (s : Sub) (l : Line ℝ) : (s.skip l).end_ = some l.end_ := rfl

theorem begin_items (s : Sub) (h : s.items ≠ []) : s.begin_ = s.items.head?.map Item.begin_ := by
  unfold begin_
  cases hi : s.items with
  | nil => exact absurd hi h
  | cons i is => simp

theorem begin_none (s : Sub) : s.begin_ = none ↔ s.items = [] ∧ s.skipped = none := by
  unfold begin_
  cases s.items <;> cases s.skipped <;> simp

theorem adjusted_end (s : Sub) (i : Item ℝ) : (s.adjusted i).end_ = i.end_ := by
  unfold adjusted
  split
  · cases i <;> rfl
  · rfl

theorem adjusted_begin_some (s : Sub) (i : Item ℝ) (l : Line ℝ) (h : s.skipped = some l) :
    (s.adjusted i).begin_ = l.begin_ := by
  unfold adjusted
  rw [h]
  cases i <;> rfl

theorem adjusted_begin_none (s : Sub) (i : Item ℝ) (h : s.skipped = none) : s.adjusted i = i := by
  unfold adjusted; rw [h]

/-! ## Curves -/

theorem shift_ends (e : ℝ) (c : Curve ℝ) : (shift e c).begin_ = c.begin_ ∧ (shift e c).end_ = c.end_ := ⟨rfl, rfl⟩

theorem lineIfShort_ends (e : ℝ) (c : Curve ℝ) :
    (lineIfShort e c).begin_ = c.begin_ ∧ (lineIfShort e c).end_ = c.end_ := by
  unfold lineIfShort
  split <;> exact ⟨rfl, rfl⟩

theorem split_ends (c : Curve ℝ) (t : ℝ) : (c.split t).1.begin_ = c.begin_ ∧ (c.split t).1.end_ = (c.split t).2.begin_ ∧
    (c.split t).2.end_ = c.end_ := ⟨rfl, rfl, rfl⟩

theorem splitAll_spec (ts : List ℝ) (prev : Option ℝ) (c : Curve ℝ) :
    (splitAll prev c ts).IsChain (fun a b => a.end_ = b.begin_) ∧
    (∃ a, (splitAll prev c ts).head? = some a ∧ a.begin_ = c.begin_) ∧
    (∃ a, (splitAll prev c ts).getLast? = some a ∧ a.end_ = c.end_) := by
  induction ts generalizing prev c with
  | nil => exact ⟨by simp [splitAll], ⟨c, rfl, rfl⟩, ⟨c, rfl, rfl⟩⟩
  | cons t ts ih =>
    unfold splitAll
    generalize relParam prev t = rel
    obtain ⟨h1, ⟨a, h2, h3⟩, ⟨b, h4, h5⟩⟩ := ih (some t) (c.split rel).2
    refine ⟨?_, ⟨_, rfl, rfl⟩, ⟨b, ?_, h5⟩⟩
    · rw [List.isChain_cons]
      refine ⟨?_, h1⟩
      intro y hy
      rw [h2] at hy
      cases hy
      exact h3.symm
    · rw [List.getLast?_cons, h4]
      rfl

theorem pieces_spec (e : ℝ) (ts : List ℝ) (c : Curve ℝ) :
    ((splitAll none c ts).map (lineIfShort e)).IsChain (fun a b => a.end_ = b.begin_) ∧
    (∃ a, ((splitAll none c ts).map (lineIfShort e)).head? = some a ∧ a.begin_ = c.begin_) ∧
    (∃ a, ((splitAll none c ts).map (lineIfShort e)).getLast? = some a ∧ a.end_ = c.end_) := by
  obtain ⟨h1, ⟨a, h2, h3⟩, ⟨b, h4, h5⟩⟩ := splitAll_spec ts none c
  refine ⟨?_, ⟨lineIfShort e a, by rw [List.head?_map, h2]; rfl, (lineIfShort_ends e a).1.trans h3⟩,
    ⟨lineIfShort e b, by rw [List.getLast?_map, h4]; rfl, (lineIfShort_ends e b).2.trans h5⟩⟩
  rw [List.isChain_map]
  exact h1.imp fun a b h => ((lineIfShort_ends e a).2.trans h).trans (lineIfShort_ends e b).1.symm

/-! ## Invariants of the basic steps -/

theorem inv_push (s : Sub) (i : Item ℝ) (hs : Inv eps R s) (hc : s.closed = false) (hk : s.skipped = none) (hf : Fits R s i) :
    Inv eps R (s.push i) := by
  refine ⟨?_, ?_, ?_, fun _ => hk⟩
  · unfold push
    simp only
    rw [List.isChain_append]
    refine ⟨hs.chain, by simp, ?_⟩
    intro x hx y hy
    simp only [List.head?_cons, Option.mem_def, Option.some.injEq] at hy
    subst hy
    exact hf hk x hx
  · intro l last hl _
    simp [push, hk] at hl
  · intro h
    simp [push, hc] at h

theorem inv_unskip (s : Sub) (hs : Inv eps R s) (hc : s.closed = false) : Inv eps R s.unskip :=
  ⟨hs.chain, fun _ _ h => by simp [unskip] at h, fun h => by simp [unskip, hc] at h, fun _ => rfl⟩

theorem inv_skip (s : Sub) (l : Line ℝ) (hs : Inv eps R s) (hc : s.closed = false) (he : eps ≠ none)
    (h : ∀ last, s.items.getLast? = some last → R last.end_ l.begin_) : Inv eps R (s.skip l) := by
  refine ⟨hs.chain, ?_, fun h => by simp [skip, hc] at h, fun h => absurd h he⟩
  intro l' last hl hlast
  simp only [skip, Option.some.injEq] at hl
  subst hl
  exact h last hlast

/-- The outcome of appending: invariants are kept, and without an exception the sub-path ends at the end of the item, and
begins where it began. -/
structure Good (eps : Option ℝ) (R : ℝ × ℝ → ℝ × ℝ → Prop) (s : Sub) (b e : ℝ × ℝ) (o : Out) : Prop where
  inv : Inv eps R o.1
  closed : o.1.closed = false
  end_ : o.2 = none → o.1.end_ = some e
  begin_ : o.2 = none → o.1.begin_ = some (s.begin_.getD b)

theorem begin_push (s : Sub) (i : Item ℝ) (h : s.skipped = none) : (s.push i).begin_ = some (s.begin_.getD i.begin_) := by
  unfold push begin_
  cases hi : s.items with
  | nil => simp [h]
  | cons a l => simp

theorem begin_skip (s : Sub) (l : Line ℝ) : (s.skip l).begin_ = some (s.unskip.begin_.getD l.begin_) := by
  unfold skip unskip begin_
  cases hi : s.items <;> simp

theorem begin_unskip (s : Sub) (i : Item ℝ) : s.unskip.begin_.getD (s.adjusted i).begin_ = s.begin_.getD i.begin_ := by
  cases h : s.skipped with
  | none =>
    rw [adjusted_begin_none s i h]
    have : s.unskip = s := by cases s; simp only at h; subst h; rfl
    rw [this]
  | some l =>
    rw [adjusted_begin_some s i l h]
    unfold unskip begin_
    cases hi : s.items <;> simp [h]

variable (hrefl : ∀ p, R p p)
include hrefl

theorem extendWith_good (f : Sub → Item ℝ → Out) (is : List (Item ℝ))
    (hf : ∀ (s : Sub) (i : Item ℝ), Inv eps R s → s.closed = false → (Auto eps R ∨ Fits R s i) → Good eps R s i.begin_ i.end_ (f s i))
    (s : Sub) (hs : Inv eps R s) (hc : s.closed = false)
    (hchain : Auto eps R ∨ (is.IsChain (fun i j => R i.end_ j.begin_) ∧ ∀ i, is.head? = some i → Fits R s i)) :
    Inv eps R (extendWith f s is).1 ∧ (extendWith f s is).1.closed = false ∧
    ((extendWith f s is).2 = none → ∀ first last, is.head? = some first → is.getLast? = some last →
      (extendWith f s is).1.end_ = some last.end_ ∧ (extendWith f s is).1.begin_ = some (s.begin_.getD first.begin_)) := by
  induction is generalizing s with
  | nil => exact ⟨hs, hc, fun _ first last h => by simp at h⟩
  | cons i is ih =>
    have g := hf s i hs hc (hchain.imp id fun h => h.2 i rfl)
    unfold extendWith
    rcases hfi : f s i with ⟨s', err⟩
    rw [hfi] at g
    cases err with
    | some e =>
      exact ⟨g.inv, g.closed, fun h => by simp at h⟩
    | none =>
      simp only
      have hend : s'.end_ = some i.end_ := g.end_ rfl
      have hbeg : s'.begin_ = some (s.begin_.getD i.begin_) := g.begin_ rfl
      have := ih s' g.inv g.closed (hchain.imp id fun h => by
        obtain ⟨h1, _⟩ := h
        rw [List.isChain_cons] at h1
        refine ⟨h1.2, ?_⟩
        intro j hj hk last hlast
        have e : last.end_ = i.end_ := by
          unfold Sub.end_ at hend
          rw [hk, hlast] at hend
          simpa using hend
        rw [e]
        exact h1.1 j hj)
      refine ⟨this.1, this.2.1, ?_⟩
      intro hn first last hfirst hlast
      simp only [List.head?_cons, Option.some.injEq] at hfirst
      subst hfirst
      cases is with
      | nil =>
        simp only [List.getLast?_singleton, Option.some.injEq] at hlast
        subst hlast
        exact ⟨hend, hbeg⟩
      | cons j js =>
        rw [List.getLast?_cons_cons] at hlast
        obtain ⟨h1, h2⟩ := this.2.2 hn j last rfl hlast
        refine ⟨h1, ?_⟩
        rw [h2, hbeg]
        rfl

/-- The begin of the adjusted item fits. -/
theorem adjusted_fits (s : Sub) (i : Item ℝ) (hs : Inv eps R s) (hf : Fits R s i) (last : Item ℝ)
    (hlast : s.items.getLast? = some last) : R last.end_ (s.adjusted i).begin_ := by
  cases hk : s.skipped with
  | none => rw [adjusted_begin_none s i hk]; exact hf hk last hlast
  | some l => rw [adjusted_begin_some s i l hk]; exact hs.skip l last hk hlast

theorem fits_of_matches (e : ℝ) (s : Sub) (i : Item ℝ) (hR : ∀ p q, dist2 p q < e → R p q) (h : s.matches_ e i) : Fits R s i := by
  intro hk last hlast
  apply hR
  exact h _ (by unfold Sub.end_; rw [hk, hlast]; rfl)

theorem append_good (n : ℕ) (s : Sub) (i : Item ℝ) (hs : Inv eps R s) (hc : s.closed = false) (hfit : Auto eps R ∨ Fits R s i) :
    Good eps R s i.begin_ i.end_ (append roots eps n s i) := by
  induction n generalizing s i with
  | zero => exact ⟨hs, hc, fun h => by simp [append] at h, fun h => by simp [append] at h⟩
  | succ n ih =>
    cases heps : eps with
    | none =>
      have hf : Fits R s i := by
        rcases hfit with ⟨e, he, _⟩ | h
        · rw [heps] at he; cases he
        · exact h
      have hk := hs.noskip heps
      subst heps
      exact ⟨inv_push _ s i hs hc hk hf, hc, fun _ => end_push s i hk, fun _ => begin_push s i hk⟩
    | some e =>
      subst heps
      unfold append
      simp only
      by_cases hm : s.matches_ e i
      swap
      · rw [if_pos hm]
        exact ⟨hs, hc, fun h => by simp at h, fun h => by simp at h⟩
      rw [if_neg (not_not.mpr hm), if_neg (by rw [hc]; simp)]
      have hf : Fits R s i := by
        rcases hfit with ⟨e', he, hR⟩ | h
        · cases he; exact fits_of_matches hrefl e s i hR hm
        · exact h
      have hadj := adjusted_fits _ hrefl s i hs hf
      have hbeg := begin_unskip s i
      have hend := adjusted_end s i
      have hu := inv_unskip (eps := some e) s hs hc
      have pushGood : ∀ j : Item ℝ, j.begin_ = (s.adjusted i).begin_ → j.end_ = (s.adjusted i).end_ →
          Good (some e) R s i.begin_ i.end_ (s.unskip.push j, none) := by
        intro j hj1 hj2
        refine ⟨inv_push _ s.unskip j hu hc rfl (fun _ last hlast => ?_), hc, fun _ => ?_, fun _ => ?_⟩
        · rw [hj1]; exact hadj last hlast
        · rw [end_push _ _ rfl, hj2, hend]
        · rw [begin_push _ _ rfl, hj1, hbeg]
      have skipGood : ∀ l : Line ℝ, l.begin_ = (s.adjusted i).begin_ → l.end_ = (s.adjusted i).end_ →
          Good (some e) R s i.begin_ i.end_ (s.skip l, none) := by
        intro l hl1 hl2
        refine ⟨inv_skip _ s l hs hc (by simp) (fun last hlast => ?_), hc, fun _ => ?_, fun _ => ?_⟩
        · rw [hl1]; exact hadj last hlast
        · rw [end_skip, hl2, hend]
        · rw [begin_skip, hl1, hbeg]
      cases hi : s.adjusted i with
      | line l =>
        simp only
        rw [hi] at pushGood skipGood
        by_cases hlen : hypot (l.x1 - l.x0) (l.y1 - l.y0) ≥ e
        · rw [if_pos hlen]
          exact pushGood _ rfl rfl
        · rw [if_neg hlen]
          exact skipGood _ rfl rfl
      | curve c =>
        simp only
        rw [hi] at pushGood skipGood
        by_cases hlong : long e c
        swap
        · rw [if_neg hlong]
          exact skipGood _ rfl rfl
        rw [if_pos hlong]
        by_cases hsp : splitpoints roots e (shift e c) = []
        · rw [if_pos hsp]
          exact pushGood _ rfl rfl
        rw [if_neg hsp]
        obtain ⟨h1, ⟨a, h2, h3⟩, ⟨b, h4, h5⟩⟩ := pieces_spec e ((splitpoints roots e (shift e c)).insertionSort (· ≤ ·)) (shift e c)
        generalize ((splitAll none (shift e c) ((splitpoints roots e (shift e c)).insertionSort (· ≤ ·))).map (lineIfShort e)) = ps
          at h1 h2 h4 ⊢
        have hab : (s.adjusted i).begin_ = a.begin_ := by rw [hi]; exact h3.symm
        have hae : (s.adjusted i).end_ = b.end_ := by rw [hi]; exact h5.symm
        obtain ⟨g1, g2, g3⟩ := extendWith_good (some e) hrefl (append roots (some e) n) ps
          (fun s i hs hc hf => ih s i hs hc hf) s.unskip hu hc
          (Or.inr ⟨h1.imp fun x y h => by rw [h]; exact hrefl _, fun j hj _ last hlast => by
            rw [h2] at hj
            cases hj
            rw [← hab]; exact hadj last hlast⟩)
        refine ⟨g1, g2, fun h => ?_, fun h => ?_⟩
        · rw [(g3 h a b h2 h4).1, ← hae, hend]
        · rw [(g3 h a b h2 h4).2, ← hab, hbeg]

/-- Appending to a closed sub-path fails and leaves it unchanged. -/
theorem append_closed (n : ℕ) (s : Sub) (i : Item ℝ) (e : ℝ) (hc : s.closed = true) :
    ∃ err, append roots (some e) n s i = (s, some err) := by
  cases n with
  | zero => exact ⟨_, rfl⟩
  | succ n =>
    unfold append
    simp only
    by_cases hm : s.matches_ e i
    · rw [if_neg (not_not.mpr hm), if_pos hc]
      exact ⟨_, rfl⟩
    · rw [if_pos hm]
      exact ⟨_, rfl⟩

theorem flush_good (n : ℕ) (s : Sub) (hs : Inv eps R s) (hc : s.closed = false) :
    Inv eps R (flush roots eps n s).1 ∧ (flush roots eps n s).1.closed = false ∧
    ((flush roots eps n s).2 = none → (flush roots eps n s).1.skipped = none ∧ (flush roots eps n s).1.end_ = s.end_ ∧
      (flush roots eps n s).1.begin_ = s.begin_) := by
  induction n generalizing s with
  | zero => exact ⟨hs, hc, fun h => by simp [flush] at h⟩
  | succ n ih =>
    unfold flush
    cases hk : s.skipped with
    | none => exact ⟨hs, hc, fun _ => ⟨hk, rfl, rfl⟩⟩
    | some l =>
      simp only
      cases hlast : s.items.getLast? with
      | none => exact ⟨hs, hc, fun h => by simp at h⟩
      | some last =>
        simp only
        obtain ⟨init, hinit⟩ : ∃ init, s.items = init ++ [last] := List.getLast?_eq_some_iff.mp hlast
        have hdrop : s.items.dropLast = init := by rw [hinit]; simp
        rw [hdrop]
        have hch := hs.chain
        rw [hinit, List.isChain_append] at hch
        have hs0 : Inv eps R ⟨init, s.closed, none⟩ :=
          ⟨hch.1, fun _ _ h => by simp at h, fun h => by simp [hc] at h, fun _ => rfl⟩
        have hm := (modified_ends last l.x1 l.y1)
        have g := append_good roots eps hrefl n ⟨init, s.closed, none⟩ (last.modifiedend l.x1 l.y1) hs0 hc
          (Or.inr fun _ x hx => by
            rw [hm.2.2.2]
            exact hch.2.2 x hx last rfl)
        rcases ha : append roots eps n ⟨init, s.closed, none⟩ (last.modifiedend l.x1 l.y1) with ⟨s', err⟩
        rw [ha] at g
        cases err with
        | some e => exact ⟨g.inv, g.closed, fun h => by simp at h⟩
        | none =>
          simp only
          obtain ⟨i1, i2, i3⟩ := ih s' g.inv g.closed
          refine ⟨i1, i2, fun h => ?_⟩
          obtain ⟨j1, j2, j3⟩ := i3 h
          refine ⟨j1, ?_, ?_⟩
          · rw [j2, g.end_ rfl, hm.2.2.1]
            unfold Sub.end_; rw [hk]; rfl
          · rw [j3, g.begin_ rfl, hm.2.2.2, begin_items s (by rw [hinit]; simp), hinit]
            cases init with
            | nil => rfl
            | cons a init => rfl

theorem close_good (n : ℕ) (s : Sub) (hs : Inv eps R s) :
    Inv eps R (close roots eps n s).1 ∧ ((close roots eps n s).2 = none → (close roots eps n s).1.closed = true) := by
  unfold close
  cases hc : s.closed with
  | true => exact ⟨hs, fun h => by simp at h⟩
  | false =>
    rw [if_neg (by simp)]
    cases hfirst : s.items.head? with
    | none => exact ⟨by simpa using hs, fun h => by simp at h⟩
    | some first =>
      cases hlast : s.items.getLast? with
      | none => exact ⟨by simpa using hs, fun h => by simp at h⟩
      | some last =>
        simp only
        have g := append_good roots eps hrefl n s (.line ⟨last.end_.1, last.end_.2, first.begin_.1, first.begin_.2⟩) hs hc
          (Or.inr fun _ x hx => by
            rw [hlast] at hx
            cases hx
            exact hrefl _)
        rcases ha : append roots eps n s (.line ⟨last.end_.1, last.end_.2, first.begin_.1, first.begin_.2⟩) with ⟨s', err⟩
        rw [ha] at g
        cases err with
        | some e => exact ⟨g.inv, fun h => by simp at h⟩
        | none =>
          simp only
          obtain ⟨f1, f2, f3⟩ := flush_good roots eps hrefl n s' g.inv g.closed
          rcases hfl : flush roots eps n s' with ⟨s'', err⟩
          rw [hfl] at f1 f2 f3
          cases err with
          | some e => exact ⟨f1, fun h => by simp at h⟩
          | none =>
            simp only
            obtain ⟨k1, k2, k3⟩ := f3 rfl
            simp only at k1 k2 k3 f1 f2
            have hb : s.begin_ = some first.begin_ := by
              rw [begin_items s (by intro h; rw [h] at hfirst; simp at hfirst), hfirst]; rfl
            have e1 : s''.end_ = some first.begin_ := by rw [k2, g.end_ rfl]; rfl
            have e2 : s''.begin_ = some first.begin_ := by rw [k3, g.begin_ rfl, hb]; rfl
            refine ⟨⟨f1.chain, ?_, ?_, f1.noskip⟩, fun _ => trivial⟩
            · intro l _ h
              simp [k1] at h
            · intro _
              refine ⟨k1, ?_⟩
              unfold Sub.end_ at e1
              rw [k1] at e1
              cases hl : s''.items.getLast? with
              | none => rw [hl] at e1; simp at e1
              | some x =>
                rw [hl] at e1
                simp only [Option.map_some, Option.some.injEq] at e1
                have hne : s''.items ≠ [] := by intro h; rw [h] at hl; simp at hl
                rw [begin_items s'' hne] at e2
                cases hh : s''.items.head? with
                | none => rw [hh] at e2; simp at e2
                | some y =>
                  rw [hh] at e2
                  simp only [Option.map_some, Option.some.injEq] at e2
                  exact ⟨y, x, rfl, rfl, by rw [e1, e2]⟩

theorem inv_fresh : Inv eps R fresh := ⟨by simp [fresh], fun _ _ h => by simp [fresh] at h, fun h => by simp [fresh] at h, fun _ => rfl⟩

/-- `extend`. -/
theorem extend_good (n : ℕ) (is : List (Item ℝ)) (s : Sub) (hs : Inv eps R s) (hc : s.closed = false)
    (hchain : Auto eps R ∨ (is.IsChain (fun i j => R i.end_ j.begin_) ∧ ∀ i, is.head? = some i → Fits R s i)) :
    Inv eps R (extend roots eps n s is).1 ∧ (extend roots eps n s is).1.closed = false ∧
    ((extend roots eps n s is).2 = none → ∀ first last, is.head? = some first → is.getLast? = some last →
      (extend roots eps n s is).1.end_ = some last.end_ ∧ (extend roots eps n s is).1.begin_ = some (s.begin_.getD first.begin_)) :=
  extendWith_good eps hrefl (append roots eps n) is (fun s i hs hc hf => append_good roots eps hrefl n s i hs hc hf) s hs hc hchain

theorem make_good (n : ℕ) (is : List (Item ℝ)) (closed : Bool)
    (hchain : Auto eps R ∨ is.IsChain (fun i j => R i.end_ j.begin_)) : Inv eps R (make roots eps n is closed).1 := by
  have h := extend_good roots eps hrefl n is fresh (inv_fresh eps hrefl) rfl
    (hchain.imp id fun h => ⟨h, fun _ _ _ last hl => by simp [fresh] at hl⟩)
  unfold make
  rcases he : extend roots eps n fresh is with ⟨s', err⟩
  rw [he] at h
  cases err with
  | some e => exact h.1
  | none =>
    simp only
    cases closed with
    | true => exact (close_good roots eps hrefl n s' h.1).1
    | false => exact h.1

/-- A sub-path with or without skipped line which may be appended to. -/
theorem append_inv (n : ℕ) (s : Sub) (i : Item ℝ) (hs : Inv eps R s) (hc : eps = none → s.closed = false)
    (hfit : Auto eps R ∨ Fits R s i) : Inv eps R (append roots eps n s i).1 := by
  cases h : s.closed with
  | false => exact (append_good roots eps hrefl n s i hs h hfit).inv
  | true =>
    cases heps : eps with
    | none => rw [hc heps] at h; cases h
    | some e =>
      subst heps
      obtain ⟨err, he⟩ := append_closed roots hrefl n s i e h
      rw [he]
      exact hs

theorem extend_inv (n : ℕ) (s : Sub) (is : List (Item ℝ)) (hs : Inv eps R s) (hc : eps = none → s.closed = false)
    (hchain : Auto eps R ∨ (is.IsChain (fun i j => R i.end_ j.begin_) ∧ ∀ i, is.head? = some i → Fits R s i)) :
    Inv eps R (extend roots eps n s is).1 := by
  cases h : s.closed with
  | false => exact (extend_good roots eps hrefl n is s hs h hchain).1
  | true =>
    cases heps : eps with
    | none => rw [hc heps] at h; cases h
    | some e =>
      subst heps
      cases is with
      | nil => exact hs
      | cons i is =>
        obtain ⟨err, he⟩ := append_closed roots hrefl n s i e h
        unfold extend extendWith
        rw [he]
        exact hs

/-- The end of a sub-path with items. -/
theorem fits_of_end (s : Sub) (p : ℝ × ℝ) (i : Item ℝ) (hp : s.end_ = some p) (h : R p i.begin_) : Fits R s i := by
  intro hk last hlast
  unfold Sub.end_ at hp
  rw [hk, hlast] at hp
  simp only [Option.map_some, Option.some.injEq] at hp
  rw [hp]; exact h

/-- Appending a sub-path to one which ends at its begin. -/
theorem attach_inv (n : ℕ) (s o : Sub) (hs : Inv eps R s) (ho : Inv eps R o) (hc : s.closed = false)
    (hfit : s.items = [] ∨ ∃ q, o.begin_ = some q ∧ s.end_ = some q) (err : Option Err) (s'' : Sub)
    (h : extend roots eps n s o.items = (s'', err)) :
    Inv eps R s'' ∧ (err = none → ∀ l, o.skipped = some l → Inv eps R (append roots eps n s'' (.line l)).1) := by
  have g := extend_good roots eps hrefl n o.items s hs hc (Or.inr ⟨ho.chain, fun i hi => by
    rcases hfit with hfit | ⟨q, hq, hq'⟩
    · intro _ last hl
      rw [hfit] at hl
      simp at hl
    · refine fits_of_end hrefl s q i hq' ?_
      have hne : o.items ≠ [] := by intro h0; rw [h0] at hi; simp at hi
      rw [begin_items o hne, hi] at hq
      simp only [Option.map_some, Option.some.injEq] at hq
      rw [hq]
      exact hrefl _⟩)
  rw [h] at g
  refine ⟨g.1, fun he l hl => ?_⟩
  refine append_inv roots eps hrefl n s'' _ g.1 (fun _ => g.2.1) (Or.inr ?_)
  subst he
  cases hitems : o.items with
  | nil =>
    have : s'' = s := by
      rw [hitems] at h
      simp only [extend, extendWith, Prod.mk.injEq] at h
      exact h.1.symm
    rw [this]
    rcases hfit with hfit | ⟨q, hq, hq'⟩
    · intro _ last hl'
      rw [hfit] at hl'
      simp at hl'
    · refine fits_of_end hrefl s q _ hq' ?_
      unfold Sub.begin_ at hq
      rw [hitems, hl] at hq
      simp only [Option.some.injEq] at hq
      rw [← hq]
      exact hrefl _
  | cons i is =>
    obtain ⟨first, hf⟩ : ∃ first, o.items.head? = some first := by rw [hitems]; exact ⟨_, rfl⟩
    obtain ⟨last, hla⟩ : ∃ last, o.items.getLast? = some last := by
      rw [hitems]
      exact ⟨_, List.getLast?_eq_getLast_of_ne_nil (List.cons_ne_nil _ _)⟩
    refine fits_of_end hrefl s'' last.end_ _ (g.2.2 rfl first last hf hla).1 ?_
    exact ho.skip l last hl hla

theorem join_inv (n : ℕ) (s o : Sub) (hs : Inv eps R s) (ho : Inv eps R o) (hc : eps = none → s.closed = false) :
    Inv eps R (join roots eps n s o).1 := by
  unfold join
  cases hoc : o.closed with
  | true => exact hs
  | false =>
    rw [if_neg (by simp)]
    simp only
    by_cases hitems : s.items = []
    · rw [if_pos hitems]
      simp only
      have hsc : s.closed = false := by
        cases h : s.closed with
        | false => rfl
        | true =>
          obtain ⟨_, _, _, h1, _⟩ := hs.closed h
          rw [hitems] at h1
          simp at h1
      rcases he : extend roots eps n s o.items with ⟨s'', err⟩
      have g := attach_inv roots eps hrefl n s o hs ho hsc (Or.inl hitems) err s'' he
      cases err with
      | some e => exact g.1
      | none =>
        simp only
        cases hk : o.skipped with
        | none => exact g.1
        | some l => exact g.2 rfl l hk
    · rw [if_neg hitems]
      cases hp : s.end_ with
      | none => exact hs
      | some p =>
        cases hq : o.begin_ with
        | none => exact hs
        | some q =>
          simp only
          cases hsc : s.closed with
          | true =>
            cases heps : eps with
            | none => rw [hc heps] at hsc; cases hsc
            | some e =>
              subst heps
              obtain ⟨err, he⟩ := append_closed roots hrefl n s (.line ⟨p.1, p.2, q.1, q.2⟩) e hsc
              rw [he]
              exact hs
          | false =>
            have g := append_good roots eps hrefl n s (.line ⟨p.1, p.2, q.1, q.2⟩) hs hsc
              (Or.inr (fits_of_end hrefl s p _ hp (hrefl _)))
            rcases ha : append roots eps n s (.line ⟨p.1, p.2, q.1, q.2⟩) with ⟨s', err⟩
            rw [ha] at g
            cases err with
            | some e => exact g.inv
            | none =>
              simp only
              rcases he : extend roots eps n s' o.items with ⟨s'', err⟩
              have g' := attach_inv roots eps hrefl n s' o g.inv ho g.closed (Or.inr ⟨q, hq, g.end_ rfl⟩) err s'' he
              cases err with
              | some e => exact g'.1
              | none =>
                simp only
                cases hk : o.skipped with
                | none => exact g'.1
                | some l => exact g'.2 rfl l hk

theorem chain_reversed (hsymm : ∀ p q, R p q → R q p) (is : List (Item ℝ)) (h : is.IsChain fun i j => R i.end_ j.begin_) :
    (is.reverse.map Item.reversed).IsChain fun i j => R i.end_ j.begin_ := by
  rw [List.isChain_map, List.isChain_reverse]
  exact h.imp fun i j hij => by
    rw [(reversed_ends j).2, (reversed_ends i).1]
    exact hsymm _ _ hij

theorem reversed_inv (hsymm : ∀ p q, R p q → R q p) (n : ℕ) (s : Sub) (hs : Inv eps R s) :
    Inv eps R (reversed roots eps n s).1 :=
  make_good roots eps hrefl n _ _ (Or.inr (chain_reversed hrefl hsymm _ hs.chain))

theorem transformed_inv (n : ℕ) (s : Sub) (t : Trafo ℝ) (hs : Inv eps R s)
    (ht : Auto eps R ∨ ∀ p q, R p q → R (t.apply p) (t.apply q)) : Inv eps R (transformed roots eps n s t).1 := by
  have hchain : Auto eps R ∨ (s.items.map (Item.transformed t)).IsChain fun i j => R i.end_ j.begin_ := by
    refine ht.imp id fun ht => ?_
    rw [List.isChain_map]
    exact hs.chain.imp fun i j hij => by
      rw [(transformed_ends i t).2, (transformed_ends j t).1]
      exact ht _ _ hij
  have g := extend_good roots eps hrefl n (s.items.map (Item.transformed t)) fresh (inv_fresh eps hrefl) rfl
    (hchain.imp id fun h => ⟨h, fun _ _ _ last hl => by simp [fresh] at hl⟩)
  unfold transformed
  rcases he : extend roots eps n fresh (s.items.map (Item.transformed t)) with ⟨s', err⟩
  rw [he] at g
  cases err with
  | some e => exact g.1
  | none =>
    simp only
    cases hc : s.closed with
    | true => exact (close_good roots eps hrefl n s' g.1).1
    | false =>
      rw [if_neg (by simp)]
      cases hk : s.skipped with
      | none => exact g.1
      | some l =>
        refine append_inv roots eps hrefl n s' _ g.1 (fun _ => g.2.1) (ht.imp id fun ht => ?_)
        cases hitems : s.items with
        | nil =>
          intro _ last hl
          rw [hitems] at he
          simp only [List.map_nil, extend, extendWith, Prod.mk.injEq] at he
          rw [← he.1] at hl
          simp [fresh] at hl
        | cons i is =>
          obtain ⟨first, hf⟩ : ∃ first, s.items.head? = some first := by rw [hitems]; exact ⟨_, rfl⟩
          obtain ⟨last, hla⟩ : ∃ last, s.items.getLast? = some last := by
            rw [hitems]
            exact ⟨_, List.getLast?_eq_getLast_of_ne_nil (List.cons_ne_nil _ _)⟩
          refine fits_of_end hrefl s' _ _ (g.2.2 rfl (first.transformed t) (last.transformed t)
            (by rw [List.head?_map, hf]; rfl) (by rw [List.getLast?_map, hla]; rfl)).1 ?_
          rw [(transformed_ends last t).2]
          exact ht _ _ (hs.skip l last hk hla)

end Sub

end

end PyX.NormPath
