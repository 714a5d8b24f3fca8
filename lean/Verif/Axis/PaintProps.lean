import Verif.Axis.Paint

/-!
# The painters of axes (C114)
-/

set_option linter.unusedSectionVars false

namespace PyX.Axis.Paint

open PyX.Box

noncomputable section

variable {L A B G : Type} (text : Pt → Pt → L → B → Polygon) (p : Painter A B) (pos : Pos G)

/-- A box the alignment can handle (see C52): convex, not degenerate, and not almost parallel or orthogonal to the direction. -/
def Good (Q : Polygon) (d : Pt) : Prop := Convex Q ∧ Long Q ∧ ClearLine Q (unitOf d)

theorem neg_pt (d : Pt) : -d = (-d.1, -d.2) := rfl

theorem unitOf_neg (d : Pt) : unitOf (-d) = -unitOf d := by
  unfold unitOf
  ext <;> simp [neg_div]

theorem clear_neg {Q : Polygon} {d : Pt} (h : ClearLine Q d) : ClearLine Q (-d) := by
  intro e f hef
  have h := h e f hef
  have e1 : cross (f - e) (-d) = -cross (f - e) d := by simp only [cross, Prod.fst_neg, Prod.snd_neg]; ring
  have e2 : dot (f - e) (-d) = -dot (f - e) d := by simp only [dot, Prod.fst_neg, Prod.snd_neg]; ring
  rw [e1, e2, abs_neg, abs_neg, neg_eq_zero, neg_eq_zero]
  exact h

theorem good_neg {Q : Polygon} {d : Pt} (h : Good Q d) : Good Q (-d) := by
  refine ⟨h.1, h.2.1, ?_⟩
  rw [unitOf_neg]
  exact clear_neg h.2.2

theorem side_moved {Q : Polygon} {v e f : Pt} (h : Side (moved Q v) e f) : Side Q (e - v) (f - v) := by
  obtain ⟨i, hi, he, hf⟩ := h
  simp only [moved, List.length_map, List.getElem?_map, Option.map_eq_some_iff] at hi he hf
  obtain ⟨e', he, rfl⟩ := he
  obtain ⟨f', hf, rfl⟩ := hf
  exact ⟨i, hi, by rw [he]; simp, by rw [hf]; simp⟩

/-- Moved boxes are as good as the boxes. -/
theorem good_moved {Q : Polygon} {d : Pt} (v : Pt) (h : Good Q d) : Good (moved Q v) d := by
  obtain ⟨⟨h1, a, ha, b, hb, c, hc, h2⟩, h3, h4⟩ := h
  refine ⟨⟨?_, a + v, List.mem_map.2 ⟨a, ha, rfl⟩, b + v, List.mem_map.2 ⟨b, hb, rfl⟩, c + v, List.mem_map.2 ⟨c, hc, rfl⟩, ?_⟩, ?_, ?_⟩
  · intro e f hs q hq
    obtain ⟨q, hq', rfl⟩ := List.mem_map.1 hq
    have := h1 _ _ (side_moved hs) q hq'
    have e1 : f - v - (e - v) = f - e := by abel
    have e2 : q - (e - v) = q + v - e := by abel
    rwa [e1, e2] at this
  · have e1 : b + v - (a + v) = b - a := by abel
    have e2 : c + v - (a + v) = c - a := by abel
    rw [e1, e2]; exact h2
  · intro e f hs
    have := h3 _ _ (side_moved hs)
    have e1 : f - v - (e - v) = f - e := by abel
    rwa [e1] at this
  · intro e f hs
    have := h4 _ _ (side_moved hs)
    have e1 : f - v - (e - v) = f - e := by abel
    rwa [e1] at this

/-- What is needed of the ticks: directions are not zero, attributes of labels are not switched off, boxes of labels are good and
positioned at the tick, attributes of the grid can be selected. -/
structure Fine (ts : List (Tick L)) : Prop where
  dir : ∀ t ∈ ts, pos.dir t.v ≠ 0
  label : ∀ t ∈ ts, ∀ (l : Nat) (sel : Nat → Nat → Option B), t.labellevel = some l → p.labelattrs = some sel →
    ∃ b, sel l (maxlabellevel ts) = some b ∧ (text (pos.point t.v) (pos.dir t.v) t.label b).center = pos.point t.v ∧
      Good (text (pos.point t.v) (pos.dir t.v) t.label b) (pos.dir t.v)
  grid : ∀ t ∈ ts, ∀ (sel : Option Nat → Nat → Except PErr (Option A)), p.gridattrs = some sel →
    ∃ o, sel t.ticklevel (maxticklevel ts) = .ok o

/-- The tick `t` has a label with the box `Q` (before the alignment). -/
def Labelled (ts : List (Tick L)) (t : Tick L) (Q : Polygon) : Prop :=
  ∃ (l : Nat) (sel : Nat → Nat → Option B) (b : B), t.labellevel = some l ∧ p.labelattrs = some sel ∧
    sel l (maxlabellevel ts) = some b ∧ Q = text (pos.point t.v) (pos.dir t.v) t.label b

theorem labelBox_iff (ts : List (Tick L)) (t : Tick L) (Q : Polygon) :
    labelBox text p pos (maxlabellevel ts) t = some Q ↔ Labelled text p pos ts t Q := by
  unfold labelBox Labelled
  cases t.labellevel <;> cases p.labelattrs <;> simp [eq_comm]

theorem lift_ok {α : Type} (a : α) : lift (.ok a : Except Err α) = .ok a := rfl

theorem fill_map (f : Polygon → Polygon) (bs : List (Option Polygon)) :
    fill bs ((bs.filterMap id).map f) = bs.map (Option.map f) := by
  induction bs with
  | nil => simp [fill]
  | cons b bs ih =>
    cases b with
    | none => exact congrArg (none :: ·) ih
    | some Q => exact congrArg (some (f Q) :: ·) ih

theorem mapM_ok {α β ε : Type} (f : α → Except ε β) (g : α → β) (l : List α) (h : ∀ x ∈ l, f x = .ok (g x)) :
    l.mapM f = .ok (l.map g) := by
  induction l with
  | nil => rfl
  | cons x l ih =>
    rw [List.mapM_cons, h x List.mem_cons_self, ih (fun y hy => h y (List.mem_cons_of_mem _ hy))]
    rfl

theorem zip_map_self {α β : Type} (l : List α) (f : α → β) : l.zip (l.map f) = l.map fun x => (x, f x) := by
  induction l with
  | nil => rfl
  | cons x l ih => simp [ih]

/-- The shift of a label by `c` outwards. -/
def shift (d : Pt) (c : ℝ) : Pt := (c * (-d).1, c * (-d).2)

/-- The label boxes after the alignment. -/
theorem align_ok (ts : List (Tick L)) (hf : Fine text p pos ts) :
    ∃ c : Tick L → ℝ, align p pos ts (ts.map (labelBox text p pos (maxlabellevel ts))) =
        .ok (ts.map fun t => (labelBox text p pos (maxlabellevel ts) t).map fun Q => moved Q (shift (pos.dir t.v) (c t))) ∧
      (∀ t ∈ ts, ∀ Q, Labelled text p pos ts t Q → ∀ x ∈ Q.corners,
        p.labeldist ≤ dot (x + shift (pos.dir t.v) (c t) - Q.center) (unitOf (-pos.dir t.v))) ∧
      (¬ Equalize p pos ts → ∀ t ∈ ts, ∀ Q, Labelled text p pos ts t Q → ∃ x ∈ Q.corners,
        dot (x + shift (pos.dir t.v) (c t) - Q.center) (unitOf (-pos.dir t.v)) = p.labeldist) ∧
      (Equalize p pos ts → (∃ c0, ∀ t ∈ ts, c t = c0) ∧ (∀ t ∈ ts, ∀ Q, Labelled text p pos ts t Q →
        ∃ t ∈ ts, ∃ Q, Labelled text p pos ts t Q ∧ ∃ x ∈ Q.corners,
          dot (x + shift (pos.dir t.v) (c t) - Q.center) (unitOf (-pos.dir t.v)) = p.labeldist)) := by
  classical
  unfold align
  by_cases h0 : p.labelattrs.isNone
  · rw [if_pos h0]
    have hn : ∀ t Q, ¬ Labelled text p pos ts t Q := by
      rintro t Q ⟨l, sel, b, -, h, -⟩
      rw [h] at h0; simp at h0
    have hb : ∀ t, labelBox text p pos (maxlabellevel ts) t = none := by
      intro t
      cases h : labelBox text p pos (maxlabellevel ts) t with
      | none => rfl
      | some Q => exact absurd ((labelBox_iff text p pos ts t Q).1 h) (hn t Q)
    refine ⟨fun _ => 0, ?_, fun t _ Q h => absurd h (hn t Q), fun _ t _ Q h => absurd h (hn t Q), fun _ => ⟨⟨0, fun _ _ => rfl⟩, fun t _ Q h => absurd h (hn t Q)⟩⟩
    congr 1
    refine List.map_congr_left fun t _ => ?_
    rw [hb t]; rfl
  rw [if_neg h0]
  obtain ⟨sel, hsel⟩ : ∃ sel, p.labelattrs = some sel := by
    cases h : p.labelattrs with
    | none => rw [h] at h0; simp at h0
    | some sel => exact ⟨sel, rfl⟩
  have hmiss : ¬ ((ts.zip (ts.map (labelBox text p pos (maxlabellevel ts)))).any (fun x => missing x.1 x.2) = true) := by
    rw [zip_map_self, List.any_eq_true]
    rintro ⟨x, hx, hm⟩
    obtain ⟨t, ht, rfl⟩ := List.mem_map.1 hx
    unfold missing at hm
    simp only [Bool.and_eq_true, Option.isSome_iff_exists, Option.isNone_iff_eq_none] at hm
    obtain ⟨⟨l, hl⟩, hm⟩ := hm
    obtain ⟨b, hb, -⟩ := hf.label t ht l sel hl hsel
    simp [labelBox, hl, hsel, hb] at hm
  rw [if_neg hmiss]
  have hgood : ∀ t ∈ ts, ∀ Q, Labelled text p pos ts t Q → Good Q (pos.dir t.v) := by
    rintro t ht Q ⟨l, sel, b, hl, hs, hb, rfl⟩
    obtain ⟨b', hb', -, hg⟩ := hf.label t ht l sel hl hs
    rw [hb] at hb'
    cases hb'
    exact hg
  by_cases he : Equalize p pos ts
  · rw [if_pos he]
    obtain ⟨heq, hflag⟩ := he
    cases ts with
    | nil => exact absurd heq (by simp [EqualDirection])
    | cons t0 ts' =>
      set ts := t0 :: ts' with hts
      have hd : ∀ t ∈ ts, pos.dir t.v = pos.dir t0.v := by
        intro t ht
        rcases List.mem_cons.1 ht with rfl | ht
        · rfl
        · exact heq.2 t ht
      have hfirst : firstDir pos ts = pos.dir t0.v := by simp [firstDir, hts]
      have hd0 : -pos.dir t0.v ≠ 0 := neg_ne_zero.2 (hf.dir t0 List.mem_cons_self)
      rw [hfirst]
      by_cases hne : (ts.map (labelBox text p pos (maxlabellevel ts))).filterMap id = []
      · rw [hne]
        have hnone : ∀ t ∈ ts, ∀ Q, ¬ Labelled text p pos ts t Q := by
          intro t ht Q hQ
          have : Q ∈ (ts.map (labelBox text p pos (maxlabellevel ts))).filterMap id :=
            List.mem_filterMap.2 ⟨some Q, List.mem_map.2 ⟨t, ht, (labelBox_iff text p pos ts t Q).2 hQ⟩, rfl⟩
          rw [hne] at this
          cases this
        refine ⟨fun _ => 0, ?_, fun t ht Q h => absurd h (hnone t ht Q), fun _ t ht Q h => absurd h (hnone t ht Q),
          fun _ => ⟨⟨0, fun _ _ => rfl⟩, fun t ht Q h => absurd h (hnone t ht Q)⟩⟩
        have e : linealignequal [] p.labeldist (-pos.dir t0.v) = .ok [] := rfl
        rw [e, lift_ok]
        show Except.ok _ = _
        congr 1
        have := fill_map (fun Q => moved Q 0) (ts.map (labelBox text p pos (maxlabellevel ts)))
        rw [hne] at this
        rw [show ([] : List Polygon) = [].map (fun Q => moved Q 0) from rfl, this, List.map_map]
        refine List.map_congr_left fun t ht => ?_
        cases h : labelBox text p pos (maxlabellevel ts) t with
        | none => simp [h]
        | some Q => exact absurd ((labelBox_iff text p pos ts t Q).1 h) (hnone t ht Q)
      · obtain ⟨c, hc, h1, h2⟩ := linealignequal_partial _ hne p.labeldist (-pos.dir t0.v) hd0 (by
          intro Q hQ
          obtain ⟨b, hb, hbQ⟩ := List.mem_filterMap.1 hQ
          obtain ⟨t, ht, rfl⟩ := List.mem_map.1 hb
          have := hgood t ht Q ((labelBox_iff text p pos ts t Q).1 hbQ)
          rw [hd t ht] at this
          exact good_neg this)
        refine ⟨fun _ => c, ?_, ?_, ?_, fun _ => ⟨⟨c, fun _ _ => rfl⟩, ?_⟩⟩
        · rw [hc, lift_ok]
          show Except.ok _ = _
          congr 1
          rw [fill_map, List.map_map]
          refine List.map_congr_left fun t ht => ?_
          simp only [Function.comp, shift, hd t ht]
        · intro t ht Q hQ x hx
          have hm : Q ∈ (ts.map (labelBox text p pos (maxlabellevel ts))).filterMap id :=
            List.mem_filterMap.2 ⟨some Q, List.mem_map.2 ⟨t, ht, (labelBox_iff text p pos ts t Q).2 hQ⟩, rfl⟩
          rw [hd t ht]
          exact h1 Q hm x hx
        · intro hcon; exact absurd ⟨heq, hflag⟩ hcon
        · intro _ _ _ _
          obtain ⟨Q, hQ, x, hx, hh⟩ := h2
          obtain ⟨b, hb, hbQ⟩ := List.mem_filterMap.1 hQ
          obtain ⟨t, ht, rfl⟩ := List.mem_map.1 hb
          refine ⟨t, ht, Q, (labelBox_iff text p pos ts t Q).1 hbQ, x, hx, ?_⟩
          rw [hd t ht]
          exact hh
  · rw [if_neg he]
    have hex : ∀ t : Tick L, ∃ c : ℝ, t ∈ ts → ∀ Q, Labelled text p pos ts t Q →
        linealign Q p.labeldist (-pos.dir t.v) = .ok (moved Q (shift (pos.dir t.v) c)) ∧
        (∀ x ∈ Q.corners, p.labeldist ≤ dot (x + shift (pos.dir t.v) c - Q.center) (unitOf (-pos.dir t.v))) ∧
        ∃ x ∈ Q.corners, dot (x + shift (pos.dir t.v) c - Q.center) (unitOf (-pos.dir t.v)) = p.labeldist := by
      intro t
      by_cases h : t ∈ ts ∧ ∃ Q, Labelled text p pos ts t Q
      · obtain ⟨ht, Q, hQ⟩ := h
        obtain ⟨g1, g2, g3⟩ := good_neg (hgood t ht Q hQ)
        obtain ⟨c, hc, h1, x, hx, hh⟩ := linealign_partial g1 g2 p.labeldist (-pos.dir t.v) (neg_ne_zero.2 (hf.dir t ht)) g3
        refine ⟨c, fun _ Q' hQ' => ?_⟩
        have : Q' = Q := by
          have e1 := (labelBox_iff text p pos ts t Q).2 hQ
          have e2 := (labelBox_iff text p pos ts t Q').2 hQ'
          rw [e1] at e2
          exact (Option.some.inj e2).symm
        subst this
        refine ⟨hc, ?_, ?_⟩
        · intro x hx
          exact h1 _ (subset_convexHull ℝ _ (List.mem_map.2 ⟨x, hx, rfl⟩))
        · obtain ⟨y, hy, rfl⟩ := List.mem_map.1 hx
          exact ⟨y, hy, hh⟩
      · exact ⟨0, fun ht Q hQ => absurd ⟨ht, Q, hQ⟩ h⟩
    choose c hc using hex
    refine ⟨c, ?_, fun t ht Q hQ => (hc t ht Q hQ).2.1, fun _ t ht Q hQ => (hc t ht Q hQ).2.2, fun h => absurd h he⟩
    rw [zip_map_self, mapM_ok _ (fun x => x.2.map fun Q => moved Q (shift (pos.dir x.1.v) (c x.1)))]
    · rw [List.map_map]; rfl
    · intro x hx
      obtain ⟨t, ht, rfl⟩ := List.mem_map.1 hx
      cases h : labelBox text p pos (maxlabellevel ts) t with
      | none => rfl
      | some Q =>
        simp only [alignOne]
        rw [(hc t ht Q ((labelBox_iff text p pos ts t Q).1 h)).1]
        rfl

/-! ## Drawing -/

theorem larger_left (a b : ℝ) : a ≤ larger a b := by
  unfold larger
  by_cases h : b > a
  · rw [if_pos h]; exact h.le
  · rw [if_neg h]

theorem larger_right (a b : ℝ) : b ≤ larger a b := by
  unfold larger
  by_cases h : b > a
  · rw [if_pos h]
  · rw [if_neg h]; exact not_lt.1 h

theorem larger_or (a b : ℝ) : larger a b = a ∨ larger a b = b := by
  unfold larger
  by_cases h : b > a
  · rw [if_pos h]; exact Or.inr rfl
  · rw [if_neg h]; exact Or.inl rfl

/-- A tick mark with attributes `a` is wanted for `t`, `i` to the inside and `o` to the outside; `m` is the number of levels. -/
def Marked (m : Nat) (t : Tick L) (i o : ℝ) (a : A) : Prop :=
  ∃ (l : Nat) (sel : Nat → Nat → Option A), t.ticklevel = some l ∧ p.tickattrs = some sel ∧ sel l m = some a ∧
    ¬ (p.inner l m = none ∧ p.outer l m = none) ∧ i = (p.inner l m).getD 0 ∧ o = (p.outer l m).getD 0

/-- The items drawn for the tick `t` with the label box `b`. -/
inductive New (m : Nat) (t : Tick L) (b : Option Polygon) : Item A G → Prop
  | tick (i o : ℝ) (a : A) : Marked p m t i o a → New m t b (.tick (pos.point t.v + i • pos.dir t.v) (pos.point t.v - o • pos.dir t.v) a)
  | grid (sel : Option Nat → Nat → Except PErr (Option A)) (a : A) : p.gridattrs = some sel → sel t.ticklevel m = .ok (some a) →
      New m t b (.grid (pos.grid t.v) a)
  | label (Q : Polygon) : b = some Q → New m t b (.label Q)

/-- The distances considered for the extent. -/
inductive Reach (m : Nat) (t : Tick L) (b : Option Polygon) : ℝ → Prop
  | outer (i o : ℝ) (a : A) : Marked p m t i o a → Reach m t b o
  | inner (i o : ℝ) (a : A) : Marked p m t i o a → Reach m t b (-i)
  | label (Q : Polygon) (e : ℝ) : b = some Q → extent Q (pos.dir t.v) = .ok e → Reach m t b (e + p.labeldist)

theorem drawTick_spec (m : Nat) (t : Tick L) (s : State A G) :
    (drawTick p pos m t s = s ∧ ∀ i o a, ¬ Marked p m t i o a) ∨
    ∃ i o a, Marked p m t i o a ∧ (∀ i' o' a', Marked p m t i' o' a' → i' = i ∧ o' = o ∧ a' = a) ∧
      drawTick p pos m t s = { s with items := s.items ++ [.tick (pos.point t.v + i • pos.dir t.v) (pos.point t.v - o • pos.dir t.v) a],
                                      extent := larger (larger s.extent o) (-i) } := by
  unfold drawTick Marked
  cases ht : t.ticklevel with
  | none => left; simp
  | some l =>
    cases hp : p.tickattrs with
    | none => left; simp
    | some sel =>
      cases ha : sel l m with
      | none => left; simp [ha]
      | some a =>
        by_cases hn : p.inner l m = none ∧ p.outer l m = none
        · left; simp [ha, hn]
        · right
          refine ⟨(p.inner l m).getD 0, (p.outer l m).getD 0, a, ⟨l, sel, rfl, rfl, ha, hn, rfl, rfl⟩, ?_, ?_⟩
          · rintro i' o' a' ⟨l', sel', h1, h2, h3, -, rfl, rfl⟩
            cases h1; cases h2
            rw [ha] at h3
            exact ⟨rfl, rfl, (Option.some.inj h3).symm⟩
          · have : ((p.inner l m).isNone && (p.outer l m).isNone) = false := by
              cases h1 : p.inner l m <;> cases h2 : p.outer l m <;> simp_all
            simp only [ha, this]
            have e1 : (pos.point t.v + ((p.inner l m).getD 0) • pos.dir t.v : Pt) =
                ((pos.point t.v).1 + (pos.dir t.v).1 * (p.inner l m).getD 0, (pos.point t.v).2 + (pos.dir t.v).2 * (p.inner l m).getD 0) := by
              ext <;> simp [mul_comm]
            have e2 : (pos.point t.v - ((p.outer l m).getD 0) • pos.dir t.v : Pt) =
                ((pos.point t.v).1 - (pos.dir t.v).1 * (p.outer l m).getD 0, (pos.point t.v).2 - (pos.dir t.v).2 * (p.outer l m).getD 0) := by
              ext <;> simp [mul_comm]
            rw [e1, e2]
            rfl

theorem drawGrid_spec (m : Nat) (t : Tick L) (s : State A G)
    (h : ∀ (sel : Option Nat → Nat → Except PErr (Option A)), p.gridattrs = some sel → ∃ o, sel t.ticklevel m = .ok o) :
    (drawGrid p pos m t s = .ok s ∧ ∀ sel a, p.gridattrs = some sel → sel t.ticklevel m ≠ .ok (some a)) ∨
    ∃ sel a, p.gridattrs = some sel ∧ sel t.ticklevel m = .ok (some a) ∧
      drawGrid p pos m t s = .ok { s with items := s.items ++ [.grid (pos.grid t.v) a] } := by
  unfold drawGrid
  cases hp : p.gridattrs with
  | none => left; simp
  | some sel =>
    obtain ⟨o, ho⟩ := h sel hp
    cases o with
    | none =>
      left
      refine ⟨by simp [ho], ?_⟩
      rintro sel' a h1 h2
      cases h1
      rw [ho] at h2
      cases h2
    | some a => right; exact ⟨sel, a, rfl, ho, by simp [ho]⟩

theorem drawLabel_spec (t : Tick L) (b : Option Polygon) (s : State A G)
    (hb : b = none ↔ ¬ (t.labellevel.isSome = true ∧ p.labelattrs.isSome = true))
    (he : ∀ Q, b = some Q → ∃ e, extent Q (pos.dir t.v) = .ok e) :
    (b = none ∧ drawLabel p pos t b s = .ok s) ∨
    ∃ Q e, b = some Q ∧ extent Q (pos.dir t.v) = .ok e ∧ drawLabel p pos t b s =
      .ok { items := s.items ++ [.label Q], labels := s.labels.map (· ++ [Q]), extent := larger s.extent (e + p.labeldist) } := by
  unfold drawLabel
  cases b with
  | none =>
    left
    have := hb.1 rfl
    refine ⟨rfl, ?_⟩
    cases h1 : t.labellevel <;> cases h2 : p.labelattrs <;> simp_all
  | some Q =>
    right
    have : t.labellevel.isSome = true ∧ p.labelattrs.isSome = true := by
      by_contra hc
      exact absurd (hb.2 hc) (by simp)
    obtain ⟨e, he⟩ := he Q rfl
    refine ⟨Q, e, rfl, he, ?_⟩
    obtain ⟨l, hl⟩ := Option.isSome_iff_exists.1 this.1
    obtain ⟨sel, hs⟩ := Option.isSome_iff_exists.1 this.2
    simp [hl, hs, he]

/-- One turn of the loop. -/
theorem drawOne_spec (m : Nat) (t : Tick L) (b : Option Polygon) (s : State A G)
    (hg : ∀ (sel : Option Nat → Nat → Except PErr (Option A)), p.gridattrs = some sel → ∃ o, sel t.ticklevel m = .ok o)
    (hb : b = none ↔ ¬ (t.labellevel.isSome = true ∧ p.labelattrs.isSome = true))
    (he : ∀ Q, b = some Q → ∃ e, extent Q (pos.dir t.v) = .ok e) :
    ∃ s', drawOne p pos m s (t, b) = .ok s' ∧ (∀ x, x ∈ s'.items ↔ x ∈ s.items ∨ New p pos m t b x) ∧
      s'.labels = s.labels.map (· ++ b.toList) ∧ s.extent ≤ s'.extent ∧ (∀ e, Reach p pos m t b e → e ≤ s'.extent) ∧
      (s'.extent = s.extent ∨ Reach p pos m t b s'.extent) := by
  unfold drawOne
  simp only
  -- the tick
  obtain ⟨s1, hs1, h1, l1, e1, r1, m1⟩ : ∃ s1, drawTick p pos m t s = s1 ∧
      (∀ x, x ∈ s1.items ↔ x ∈ s.items ∨ ∃ i o a, Marked p m t i o a ∧ x = .tick (pos.point t.v + i • pos.dir t.v) (pos.point t.v - o • pos.dir t.v) a) ∧
      s1.labels = s.labels ∧ s.extent ≤ s1.extent ∧ (∀ i o a, Marked p m t i o a → o ≤ s1.extent ∧ -i ≤ s1.extent) ∧
      (s1.extent = s.extent ∨ Reach p pos m t b s1.extent) := by
    rcases drawTick_spec p pos m t s with ⟨h, hn⟩ | ⟨i, o, a, hm, hu, h⟩
    · refine ⟨s, h, ?_, rfl, le_rfl, fun i o a hm => absurd hm (hn i o a), Or.inl rfl⟩
      intro x
      constructor
      · exact Or.inl
      · rintro (h | ⟨i, o, a, hm, -⟩)
        · exact h
        · exact absurd hm (hn i o a)
    · refine ⟨_, h, ?_, rfl, (larger_left _ _).trans (larger_left _ _), ?_, ?_⟩
      · intro x
        simp only [List.mem_append, List.mem_singleton]
        constructor
        · rintro (h | h)
          · exact Or.inl h
          · exact Or.inr ⟨i, o, a, hm, h⟩
        · rintro (h | ⟨i', o', a', hm', hx⟩)
          · exact Or.inl h
          · obtain ⟨rfl, rfl, rfl⟩ := hu i' o' a' hm'
            exact Or.inr hx
      · intro i' o' a' hm'
        obtain ⟨rfl, rfl, rfl⟩ := hu i' o' a' hm'
        exact ⟨(larger_right _ _).trans (larger_left _ _), larger_right _ _⟩
      · rcases larger_or (larger s.extent o) (-i) with h1 | h1
        · rcases larger_or s.extent o with h2 | h2
          · left; show larger (larger s.extent o) (-i) = s.extent; rw [h1, h2]
          · right; show Reach p pos m t b (larger (larger s.extent o) (-i)); rw [h1, h2]; exact .outer i o a hm
        · right; show Reach p pos m t b (larger (larger s.extent o) (-i)); rw [h1]; exact .inner i o a hm
  rw [hs1]
  -- the grid line
  obtain ⟨s2, hs2, h2, l2, e2⟩ : ∃ s2, drawGrid p pos m t s1 = .ok s2 ∧
      (∀ x, x ∈ s2.items ↔ x ∈ s1.items ∨ ∃ (sel : Option Nat → Nat → Except PErr (Option A)) (a : A), p.gridattrs = some sel ∧ sel t.ticklevel m = .ok (some a) ∧ x = .grid (pos.grid t.v) a) ∧
      s2.labels = s1.labels ∧ s2.extent = s1.extent := by
    rcases drawGrid_spec p pos m t s1 hg with ⟨h, hn⟩ | ⟨sel, a, hsel, ha, h⟩
    · refine ⟨s1, h, ?_, rfl, rfl⟩
      intro x
      constructor
      · exact Or.inl
      · rintro (h | ⟨sel, a, hs, ha, -⟩)
        · exact h
        · exact absurd ha (hn sel a hs)
    · refine ⟨_, h, ?_, rfl, rfl⟩
      intro x
      simp only [List.mem_append, List.mem_singleton]
      constructor
      · rintro (h | h)
        · exact Or.inl h
        · exact Or.inr ⟨sel, a, hsel, ha, h⟩
      · rintro (h | ⟨sel', a', hsel', ha', h⟩)
        · exact Or.inl h
        · rw [hsel] at hsel'
          cases hsel'
          rw [ha] at ha'
          cases ha'
          exact Or.inr h
  rw [hs2]
  simp only
  -- the label
  rcases drawLabel_spec p pos t b s2 hb he with ⟨rfl, h⟩ | ⟨Q, e, rfl, hQ, h⟩
  · refine ⟨s2, h, ?_, ?_, ?_, ?_, ?_⟩
    · intro x
      rw [h2, h1]
      constructor
      · rintro ((h | ⟨i, o, a, hm, rfl⟩) | ⟨sel, a, hs, ha, rfl⟩)
        · exact Or.inl h
        · exact Or.inr (.tick i o a hm)
        · exact Or.inr (.grid sel a hs ha)
      · rintro (h | h)
        · exact Or.inl (Or.inl h)
        · cases h with
          | tick i o a hm => exact Or.inl (Or.inr ⟨i, o, a, hm, rfl⟩)
          | grid sel a hs ha => exact Or.inr ⟨sel, a, hs, ha, rfl⟩
          | label Q hQ => cases hQ
    · rw [l2, l1]; cases s.labels <;> simp
    · rw [e2]; exact e1
    · intro e hr
      rw [e2]
      cases hr with
      | outer i o a hm => exact (r1 i _ a hm).1
      | inner i o a hm => exact (r1 i o a hm).2
      | label Q e hQ => cases hQ
    · rw [e2]; exact m1
  · refine ⟨_, h, ?_, ?_, ?_, ?_, ?_⟩
    · intro x
      simp only [List.mem_append, List.mem_singleton]
      rw [h2, h1]
      constructor
      · rintro (((h | ⟨i, o, a, hm, rfl⟩) | ⟨sel, a, hs, ha, rfl⟩) | rfl)
        · exact Or.inl h
        · exact Or.inr (.tick i o a hm)
        · exact Or.inr (.grid sel a hs ha)
        · exact Or.inr (.label Q rfl)
      · rintro (h | h)
        · exact Or.inl (Or.inl (Or.inl h))
        · cases h with
          | tick i o a hm => exact Or.inl (Or.inl (Or.inr ⟨i, o, a, hm, rfl⟩))
          | grid sel a hs ha => exact Or.inl (Or.inr ⟨sel, a, hs, ha, rfl⟩)
          | label Q' hQ' => cases hQ'; exact Or.inr rfl
    · show s2.labels.map (· ++ [Q]) = _
      rw [l2, l1]; rfl
    · show s.extent ≤ larger s2.extent _
      rw [e2]
      exact e1.trans (larger_left _ _)
    · intro e' hr
      show e' ≤ larger s2.extent _
      rw [e2]
      cases hr with
      | outer i o a hm => exact (r1 i _ a hm).1.trans (larger_left _ _)
      | inner i o a hm => exact (r1 i o a hm).2.trans (larger_left _ _)
      | label Q' e' hQ' he' =>
        cases hQ'
        rw [hQ] at he'
        cases he'
        exact larger_right _ _
    · show larger s2.extent _ = _ ∨ Reach p pos m t (some Q) (larger s2.extent _)
      rw [e2]
      rcases larger_or s1.extent (e + p.labeldist) with h | h
      · rw [h]; exact m1
      · rw [h]; exact Or.inr (.label Q e rfl hQ)

/-- The loop over the ticks. -/
theorem draw_ok (m : Nat) (f : Tick L → Option Polygon) (ts : List (Tick L)) (s : State A G)
    (hg : ∀ t ∈ ts, ∀ (sel : Option Nat → Nat → Except PErr (Option A)), p.gridattrs = some sel → ∃ o, sel t.ticklevel m = .ok o)
    (hb : ∀ t ∈ ts, f t = none ↔ ¬ (t.labellevel.isSome = true ∧ p.labelattrs.isSome = true))
    (he : ∀ t ∈ ts, ∀ Q, f t = some Q → ∃ e, extent Q (pos.dir t.v) = .ok e) :
    ∃ s', (ts.map fun t => (t, f t)).foldlM (drawOne p pos m) s = .ok s' ∧
      (∀ x, x ∈ s'.items ↔ x ∈ s.items ∨ ∃ t ∈ ts, New p pos m t (f t) x) ∧
      s'.labels = s.labels.map (· ++ ts.filterMap f) ∧ s.extent ≤ s'.extent ∧ (∀ t ∈ ts, ∀ e, Reach p pos m t (f t) e → e ≤ s'.extent) ∧
      (s'.extent = s.extent ∨ ∃ t ∈ ts, Reach p pos m t (f t) s'.extent) := by
  induction ts generalizing s with
  | nil => exact ⟨s, rfl, by simp, by cases s.labels <;> simp, le_rfl, by simp, Or.inl rfl⟩
  | cons t ts ih =>
    obtain ⟨s1, h1, i1, l1, e1, r1, m1⟩ := drawOne_spec p pos m t (f t) s (hg t List.mem_cons_self) (hb t List.mem_cons_self) (he t List.mem_cons_self)
    obtain ⟨s2, h2, i2, l2, e2, r2, m2⟩ := ih s1 (fun u hu => hg u (List.mem_cons_of_mem _ hu)) (fun u hu => hb u (List.mem_cons_of_mem _ hu))
      (fun u hu => he u (List.mem_cons_of_mem _ hu))
    refine ⟨s2, ?_, ?_, ?_, e1.trans e2, ?_, ?_⟩
    · rw [List.map_cons, List.foldlM_cons, h1]
      exact h2
    · intro x
      rw [i2, i1]
      simp only [List.mem_cons, exists_eq_or_imp, or_assoc]
    · rw [l2, l1]
      cases s.labels with
      | none => rfl
      | some ls => cases h : f t <;> simp [h]
    · intro u hu e hr
      rcases List.mem_cons.1 hu with rfl | hu
      · exact (r1 e hr).trans e2
      · exact r2 u hu e hr
    · rcases m2 with m2 | ⟨u, hu, m2⟩
      · rw [m2]
        rcases m1 with m1 | m1
        · exact Or.inl m1
        · exact Or.inr ⟨t, List.mem_cons_self, m1⟩
      · exact Or.inr ⟨u, List.mem_cons_of_mem _ hu, m2⟩

/-! ## Everything together -/

theorem dot_sub_pt (x y d : Pt) : dot (x - y) d = dot x d - dot y d := by simp only [dot, Prod.fst_sub, Prod.snd_sub]; ring

theorem dot_add_pt (x y d : Pt) : dot (x + y) d = dot x d + dot y d := by simp only [dot, Prod.fst_add, Prod.snd_add]; ring

theorem dot_neg_pt (x d : Pt) : dot x (-d) = -dot x d := by simp only [dot, Prod.fst_neg, Prod.snd_neg]; ring

theorem dot_smul_pt (c : ℝ) (x d : Pt) : dot (c • x) d = c * dot x d := by simp only [dot, Prod.smul_fst, Prod.smul_snd, smul_eq_mul]; ring

theorem shift_eq (d : Pt) (c : ℝ) : shift d c = -(c • d) := by unfold shift; ext <;> simp

theorem unitOf_one {d : Pt} (h : dot d d = 1) : unitOf d = d := by
  unfold unitOf
  have : d.1 ^ 2 + d.2 ^ 2 = 1 := by simp only [dot] at h; linarith
  rw [this]; simp

theorem dot_ne {d : Pt} (h : dot d d = 1) : d ≠ 0 := by rintro rfl; simp [dot] at h

/-- A bound for all corners is a bound for all points of a box. -/
theorem hull_le (Q : Polygon) (o : Pt) (c : ℝ) (h : ∀ x ∈ Q.corners, dot x o ≤ c) :
    ∀ x ∈ convexHull ℝ {q | q ∈ Q.corners}, dot x o ≤ c := by
  intro x hx
  refine convexHull_min (t := {x : Pt | dot x o ≤ c}) h ?_ hx
  intro x hx y hy a b ha hb hab
  simp only [Set.mem_ofPred_eq] at hx hy ⊢
  rw [dot_add_pt, dot_smul_pt, dot_smul_pt]
  have h1 := mul_le_mul_of_nonneg_left hx ha
  have h2 := mul_le_mul_of_nonneg_left hy hb
  have : c = a * c + b * c := by rw [← add_mul, hab, one_mul]
  linarith

theorem le_hull (Q : Polygon) (o : Pt) (c : ℝ) (h : ∀ x ∈ Q.corners, c ≤ dot x o) :
    ∀ x ∈ convexHull ℝ {q | q ∈ Q.corners}, c ≤ dot x o := by
  intro x hx
  have := hull_le Q (-o) (-c) (fun x hx => by rw [dot_neg_pt]; linarith [h x hx]) x hx
  rw [dot_neg_pt] at this
  linarith

/-- The label boxes found by `align_ok` as a function of the tick. -/
def placed (ts : List (Tick L)) (c : Tick L → ℝ) (t : Tick L) : Option Polygon :=
  (labelBox text p pos (maxlabellevel ts) t).map fun Q => moved Q (shift (pos.dir t.v) (c t))

/-- What is needed for the title. -/
def TitleFine (title : Option L) : Prop :=
  ∀ l b, title = some l → p.titleattrs = some b → pos.dir p.titlepos ≠ 0 ∧
    (text (pos.point p.titlepos) (pos.dir p.titlepos) l b).center = pos.point p.titlepos ∧
    Good (text (pos.point p.titlepos) (pos.dir p.titlepos) l b) (pos.dir p.titlepos)

theorem labelled_good (ts : List (Tick L)) (hf : Fine text p pos ts) (t : Tick L) (ht : t ∈ ts) (Q : Polygon)
    (hQ : Labelled text p pos ts t Q) : Q.center = pos.point t.v ∧ Good Q (pos.dir t.v) := by
  obtain ⟨l, sel, b, hl, hs, hb, rfl⟩ := hQ
  obtain ⟨b', hb', hg⟩ := hf.label t ht l sel hl hs
  rw [hb] at hb'
  cases hb'
  exact hg

/-- Everything before base line and title. -/
theorem paint_loop (ts : List (Tick L)) (hf : Fine text p pos ts) (c : Tick L → ℝ) :
    ∃ s : State A G, (ts.map fun t => (t, placed text p pos ts c t)).foldlM (drawOne p pos (maxticklevel ts)) {} = .ok s ∧
      (∀ x, x ∈ s.items ↔ ∃ t ∈ ts, New p pos (maxticklevel ts) t (placed text p pos ts c t) x) ∧
      s.labels = some (ts.filterMap (placed text p pos ts c)) ∧ 0 ≤ s.extent ∧
      (∀ t ∈ ts, ∀ e, Reach p pos (maxticklevel ts) t (placed text p pos ts c t) e → e ≤ s.extent) ∧
      (s.extent = 0 ∨ ∃ t ∈ ts, Reach p pos (maxticklevel ts) t (placed text p pos ts c t) s.extent) := by
  obtain ⟨s, h1, h2, h3, h4, h5, h6⟩ := draw_ok p pos (maxticklevel ts) (placed text p pos ts c) ts {} hf.grid (by
      intro t ht
      unfold placed labelBox
      rw [Option.map_eq_none_iff]
      cases hl : t.labellevel with
      | none => simp
      | some l =>
        cases hs : p.labelattrs with
        | none => simp
        | some sel =>
          obtain ⟨b, hb, -⟩ := hf.label t ht l sel hl hs
          simp [hb]) (by
      intro t ht Q hQ
      unfold placed at hQ
      obtain ⟨Q0, hQ0, rfl⟩ := Option.map_eq_some_iff.1 hQ
      have hg := good_moved (shift (pos.dir t.v) (c t)) (labelled_good text p pos ts hf t ht Q0 ((labelBox_iff text p pos ts t Q0).1 hQ0)).2
      obtain ⟨a, -, b, -, he, -⟩ := extent_partial hg.1 hg.2.1 (pos.dir t.v) (hf.dir t ht) hg.2.2
      exact ⟨_, he⟩)
  refine ⟨s, h1, ?_, ?_, h4, h5, h6⟩
  · intro x
    rw [h2]
    simp
  · rw [h3]
    simp

/-- **C114, what is drawn.** An axis can be painted if boxes are good and attributes of labels are not switched off. Tick marks,
grid lines and labels are drawn for exactly the ticks where they are wanted. Tick marks go from the inside to the outside. Labels are
moved to the outside along the direction of the tick, and have at least the distance `labeldist` from the tick in this direction; if they are not
equalized, exactly this distance, otherwise all are moved alike and at least one has exactly this distance. -/
theorem painted (ts : List (Tick L)) (title : Option L) (hf : Fine text p pos ts) (ht : TitleFine text p pos title) :
    ∃ (s : State A G) (c : Tick L → ℝ), paint text p pos ts title = .ok s ∧
      (∀ q r a, .tick q r a ∈ s.items ↔ ∃ t ∈ ts, ∃ i o, Marked p (maxticklevel ts) t i o a ∧
        q = pos.point t.v + i • pos.dir t.v ∧ r = pos.point t.v - o • pos.dir t.v) ∧
      (∀ g a, .grid g a ∈ s.items ↔ ∃ t ∈ ts, g = pos.grid t.v ∧
        ∃ sel, p.gridattrs = some sel ∧ sel t.ticklevel (maxticklevel ts) = .ok (some a)) ∧
      (∀ Q, .label Q ∈ s.items ↔ ∃ t ∈ ts, ∃ Q0, Labelled text p pos ts t Q0 ∧ Q = moved Q0 (-(c t • pos.dir t.v))) ∧
      (∀ t ∈ ts, ∀ Q0, Labelled text p pos ts t Q0 → ∀ x ∈ convexHull ℝ {q | q ∈ (moved Q0 (-(c t • pos.dir t.v))).corners},
        p.labeldist ≤ dot (x - pos.point t.v) (unitOf (-pos.dir t.v))) ∧
      (¬ Equalize p pos ts → ∀ t ∈ ts, ∀ Q0, Labelled text p pos ts t Q0 →
        ∃ x ∈ (moved Q0 (-(c t • pos.dir t.v))).corners, dot (x - pos.point t.v) (unitOf (-pos.dir t.v)) = p.labeldist) ∧
      (Equalize p pos ts → (∃ c0, ∀ t ∈ ts, c t = c0) ∧ (∀ t ∈ ts, ∀ Q0, Labelled text p pos ts t Q0 →
        ∃ t ∈ ts, ∃ Q0, Labelled text p pos ts t Q0 ∧ ∃ x ∈ (moved Q0 (-(c t • pos.dir t.v))).corners,
          dot (x - pos.point t.v) (unitOf (-pos.dir t.v)) = p.labeldist)) ∧
      (∀ a, .base a ∈ s.items ↔ p.base = some a) ∧
      ((∃ Q, .title Q ∈ s.items) ↔ title.isSome = true ∧ p.titleattrs.isSome = true) ∧
      s.labels = if p.labelattrs.isSome then some (ts.filterMap (placed text p pos ts c)) else none := by
  obtain ⟨c, hal, hc1, hc2, hc3⟩ := align_ok text p pos ts hf
  obtain ⟨s, hs, hi, hl, -, -, -⟩ := paint_loop text p pos ts hf c
  have hbase : (drawBase p s).items = s.items ++ (p.base.map Item.base).toList ∧
      (drawBase p s).labels = if p.labelattrs.isSome then some (ts.filterMap (placed text p pos ts c)) else none := by
    unfold drawBase
    cases h1 : p.labelattrs <;> cases h2 : p.base <;> simp [hl]
  obtain ⟨s', hs', hi', hl'⟩ : ∃ s' : State A G, drawTitle text pos p.titledist p.titlepos p.titleattrs title (drawBase p s) = .ok s' ∧
      (((title.isSome = true ∧ p.titleattrs.isSome = true) ∧ ∃ Q, s'.items = (drawBase p s).items ++ [.title Q]) ∨
        (¬ (title.isSome = true ∧ p.titleattrs.isSome = true) ∧ s'.items = (drawBase p s).items)) ∧ s'.labels = (drawBase p s).labels := by
    unfold drawTitle
    cases h1 : title with
    | none => exact ⟨_, rfl, Or.inr ⟨by simp, rfl⟩, rfl⟩
    | some l =>
      cases h2 : p.titleattrs with
      | none => exact ⟨_, rfl, Or.inr ⟨by simp, rfl⟩, rfl⟩
      | some b =>
        obtain ⟨hd, -, hg⟩ := ht l b h1 h2
        have hg' := good_neg hg
        obtain ⟨k, hk, -⟩ := linealign_partial hg'.1 hg'.2.1 ((drawBase p s).extent + p.titledist) (-pos.dir p.titlepos) (neg_ne_zero.2 hd) hg'.2.2
        have hgm := good_moved (k * (-pos.dir p.titlepos).1, k * (-pos.dir p.titlepos).2) hg
        obtain ⟨x, -, y, -, he, -⟩ := extent_partial hgm.1 hgm.2.1 (pos.dir p.titlepos) hd hgm.2.2
        simp only [hk, he]
        exact ⟨_, rfl, Or.inl ⟨by simp, _, rfl⟩, rfl⟩
  have hmem : ∀ x, x ∈ s'.items ↔ (∃ t ∈ ts, New p pos (maxticklevel ts) t (placed text p pos ts c t) x) ∨
      (∃ a, p.base = some a ∧ x = .base a) ∨ ((title.isSome = true ∧ p.titleattrs.isSome = true) ∧ ∃ Q, s'.items = (drawBase p s).items ++ [.title Q] ∧ x = .title Q) := by
    intro x
    rcases hi' with ⟨hh, Q, hQ⟩ | ⟨hh, hQ⟩
    · rw [hQ, hbase.1]
      simp only [List.mem_append, List.mem_singleton, Option.mem_toList, Option.map_eq_some_iff, hi]
      constructor
      · rintro ((h | ⟨a, h1, h2⟩) | h)
        · exact Or.inl h
        · exact Or.inr (Or.inl ⟨a, h1, h2.symm⟩)
        · exact Or.inr (Or.inr ⟨hh, Q, rfl, h⟩)
      · rintro (h | ⟨a, h1, h2⟩ | ⟨-, Q', h1, h2⟩)
        · exact Or.inl (Or.inl h)
        · exact Or.inl (Or.inr ⟨a, h1, h2.symm⟩)
        · right
          have := List.append_cancel_left h1
          simp only [List.cons.injEq, Item.title.injEq, and_true] at this
          rw [h2, this]
    · rw [hQ, hbase.1]
      simp only [List.mem_append, Option.mem_toList, Option.map_eq_some_iff, hi]
      constructor
      · rintro (h | ⟨a, h1, h2⟩)
        · exact Or.inl h
        · exact Or.inr (Or.inl ⟨a, h1, h2.symm⟩)
      · rintro (h | ⟨a, h1, h2⟩ | ⟨h, -⟩)
        · exact Or.inl h
        · exact Or.inr ⟨a, h1, h2.symm⟩
        · exact absurd h hh
  refine ⟨s', c, ?_, ?_, ?_, ?_, ?_, ?_, ?_, ?_, ?_, ?_⟩
  · unfold paint
    rw [hal]
    simp only
    rw [zip_map_self]
    have e : (fun t => (t, (labelBox text p pos (maxlabellevel ts) t).map fun Q => moved Q (shift (pos.dir t.v) (c t)))) =
      fun t => (t, placed text p pos ts c t) := rfl
    rw [e, hs]
    exact hs'
  · intro q r a
    rw [hmem]
    constructor
    · rintro (⟨t, ht, h⟩ | ⟨a, -, h⟩ | ⟨-, Q, -, h⟩)
      · cases h with
        | tick i o a hm => exact ⟨t, ht, i, o, hm, rfl, rfl⟩
      · cases h
      · cases h
    · rintro ⟨t, ht, i, o, hm, rfl, rfl⟩
      exact Or.inl ⟨t, ht, .tick i o a hm⟩
  · intro g a
    rw [hmem]
    constructor
    · rintro (⟨t, ht, h⟩ | ⟨a, -, h⟩ | ⟨-, Q, -, h⟩)
      · cases h with
        | grid sel a h1 h2 => exact ⟨t, ht, rfl, sel, h1, h2⟩
      · cases h
      · cases h
    · rintro ⟨t, ht, rfl, sel, h1, h2⟩
      exact Or.inl ⟨t, ht, .grid sel a h1 h2⟩
  · intro Q
    rw [hmem]
    constructor
    · rintro (⟨t, ht, h⟩ | ⟨a, -, h⟩ | ⟨-, Q, -, h⟩)
      · cases h with
        | label Q h =>
          unfold placed at h
          obtain ⟨Q0, h0, rfl⟩ := Option.map_eq_some_iff.1 h
          exact ⟨t, ht, Q0, (labelBox_iff text p pos ts t Q0).1 h0, by rw [shift_eq]⟩
      · cases h
      · cases h
    · rintro ⟨t, ht, Q0, h0, rfl⟩
      refine Or.inl ⟨t, ht, .label _ ?_⟩
      unfold placed
      rw [(labelBox_iff text p pos ts t Q0).2 h0, Option.map_some, shift_eq]
  · intro t ht Q0 h0 x hx
    rw [← shift_eq] at hx
    rw [dot_sub_pt]
    have := le_hull (moved Q0 (shift (pos.dir t.v) (c t))) (unitOf (-pos.dir t.v)) (p.labeldist + dot (pos.point t.v) (unitOf (-pos.dir t.v))) (by
      intro y hy
      obtain ⟨y, hy', rfl⟩ := List.mem_map.1 hy
      have := hc1 t ht Q0 h0 y hy'
      rw [dot_sub_pt, (labelled_good text p pos ts hf t ht Q0 h0).1] at this
      linarith) x hx
    linarith
  · intro hne t ht Q0 h0
    obtain ⟨x, hx, he⟩ := hc2 hne t ht Q0 h0
    refine ⟨x + shift (pos.dir t.v) (c t), ?_, ?_⟩
    · rw [← shift_eq]; exact List.mem_map.2 ⟨x, hx, rfl⟩
    · rw [← (labelled_good text p pos ts hf t ht Q0 h0).1]; exact he
  · intro heq
    refine ⟨(hc3 heq).1, ?_⟩
    intro t ht Q0 h0
    obtain ⟨t, ht, Q0, h0, x, hx, he⟩ := (hc3 heq).2 t ht Q0 h0
    refine ⟨t, ht, Q0, h0, x + shift (pos.dir t.v) (c t), ?_, ?_⟩
    · rw [← shift_eq]; exact List.mem_map.2 ⟨x, hx, rfl⟩
    · rw [← (labelled_good text p pos ts hf t ht Q0 h0).1]; exact he
  · intro a
    rw [hmem]
    constructor
    · rintro (⟨t, ht, h⟩ | ⟨a, ha, h⟩ | ⟨-, Q, -, h⟩)
      · cases h
      · cases h; exact ha
      · cases h
    · intro ha
      exact Or.inr (Or.inl ⟨a, ha, rfl⟩)
  · constructor
    · rintro ⟨Q, hQ⟩
      rcases (hmem _).1 hQ with ⟨t, ht, h⟩ | ⟨a, ha, h⟩ | ⟨h, -⟩
      · cases h
      · cases h
      · exact h
    · intro h
      rcases hi' with ⟨-, Q, hQ⟩ | ⟨hh, -⟩
      · exact ⟨Q, by rw [hQ]; simp⟩
      · exact absurd h hh
  · rw [hl', hbase.2]

/-! ## Extents -/

/-- The points of an item; grid lines, which are within the graph, have none here. -/
def region : Item A G → Set Pt
  | .tick q r _ => segment ℝ q r
  | .grid _ _ => ∅
  | .label Q => convexHull ℝ {q | q ∈ Q.corners}
  | .base _ => Set.range pos.point
  | .title Q => convexHull ℝ {q | q ∈ Q.corners}

/-- A straight axis: the direction of the ticks is `d`, of length one and orthogonal to the axis; `h0` is the position of the axis measured to the
outside. -/
structure Straight (d : Pt) (h0 : ℝ) : Prop where
  one : dot d d = 1
  dir : ∀ v, pos.dir v = d
  point : ∀ v, dot (pos.point v) (-d) = h0

/-- One of the labels is, relative to its tick, as near to the axis and as far to the outside as all of them. -/
def Uniform (ts : List (Tick L)) (d : Pt) : Prop :=
  (∀ t ∈ ts, ∀ Q, ¬ Labelled text p pos ts t Q) ∨
  ∃ t0 ∈ ts, ∃ Q0, Labelled text p pos ts t0 Q0 ∧ ∃ a ∈ Q0.corners, ∃ b ∈ Q0.corners, ∀ t ∈ ts, ∀ Q, Labelled text p pos ts t Q →
    ∀ x ∈ Q.corners, dot (a - Q0.center) (-d) ≤ dot (x - Q.center) (-d) ∧ dot (x - Q.center) (-d) ≤ dot (b - Q0.center) (-d)

theorem segment_le (q r o : Pt) (c : ℝ) (h1 : dot q o ≤ c) (h2 : dot r o ≤ c) : ∀ x ∈ segment ℝ q r, dot x o ≤ c := by
  rintro x ⟨a, b, ha, hb, hab, rfl⟩
  rw [dot_add_pt, dot_smul_pt, dot_smul_pt]
  have h3 := mul_le_mul_of_nonneg_left h1 ha
  have h4 := mul_le_mul_of_nonneg_left h2 hb
  have : c = a * c + b * c := by rw [← add_mul, hab, one_mul]
  linarith

/-- The extent of a box outwards. -/
theorem extent_out {Q : Polygon} {d : Pt} (hd : dot d d = 1) (hg : Good Q d) :
    ∃ a ∈ Q.corners, ∃ b ∈ Q.corners, extent Q d = .ok (dot b (-d) - dot a (-d)) ∧
      ∀ x ∈ Q.corners, dot a (-d) ≤ dot x (-d) ∧ dot x (-d) ≤ dot b (-d) := by
  obtain ⟨a, ha, b, hb, he, hm⟩ := extent_partial hg.1 hg.2.1 d (dot_ne hd) hg.2.2
  rw [unitOf_one hd] at he hm
  refine ⟨b, hb, a, ha, ?_, ?_⟩
  · rw [he, dot_neg_pt, dot_neg_pt]; congr 1; ring
  · intro x hx
    rw [dot_neg_pt, dot_neg_pt, dot_neg_pt]
    exact ⟨by linarith [(hm x hx).2], by linarith [(hm x hx).1]⟩

theorem loop_extent (ts : List (Tick L)) (hf : Fine text p pos ts) (d : Pt) (h0 : ℝ) (hs : Straight pos d h0)
    (hu : Equalize p pos ts → Uniform text p pos ts d) (c : Tick L → ℝ)
    (hc1 : ∀ t ∈ ts, ∀ Q, Labelled text p pos ts t Q → ∀ x ∈ Q.corners,
        p.labeldist ≤ dot (x + shift (pos.dir t.v) (c t) - Q.center) (unitOf (-pos.dir t.v)))
    (hc2 : ¬ Equalize p pos ts → ∀ t ∈ ts, ∀ Q, Labelled text p pos ts t Q → ∃ x ∈ Q.corners,
        dot (x + shift (pos.dir t.v) (c t) - Q.center) (unitOf (-pos.dir t.v)) = p.labeldist)
    (hc3 : Equalize p pos ts → (∃ c0, ∀ t ∈ ts, c t = c0) ∧ (∀ t ∈ ts, ∀ Q, Labelled text p pos ts t Q →
        ∃ t ∈ ts, ∃ Q, Labelled text p pos ts t Q ∧ ∃ x ∈ Q.corners,
          dot (x + shift (pos.dir t.v) (c t) - Q.center) (unitOf (-pos.dir t.v)) = p.labeldist))
    (E : ℝ) (hE : ∀ t ∈ ts, ∀ e, Reach p pos (maxticklevel ts) t (placed text p pos ts c t) e → e ≤ E) :
    (∀ t ∈ ts, ∀ x, New p pos (maxticklevel ts) t (placed text p pos ts c t) x → ∀ y ∈ region pos x, dot y (-d) - h0 ≤ E) ∧
    ((∃ t ∈ ts, Reach p pos (maxticklevel ts) t (placed text p pos ts c t) E) →
      ∃ t ∈ ts, ∃ x, New p pos (maxticklevel ts) t (placed text p pos ts c t) x ∧ ∃ y ∈ region pos x, dot y (-d) - h0 = E) := by
  have hd1 : dot (-d) (-d) = 1 := by rw [dot_neg_pt]; have := hs.one; simp only [dot, Prod.fst_neg, Prod.snd_neg] at this ⊢; linarith
  have hun : unitOf (-d) = -d := unitOf_one hd1
  have hdd : dot d (-d) = -1 := by rw [dot_neg_pt, hs.one]
  have hsh : ∀ k : ℝ, dot (shift d k) (-d) = k := by
    intro k
    rw [shift_eq, show -(k • d) = (-k) • d by simp, dot_smul_pt, hdd]; ring
  -- labels: the position of corners, and the extent
  have hlab : ∀ t ∈ ts, ∀ Q, Labelled text p pos ts t Q → ∃ a ∈ Q.corners, ∃ b ∈ Q.corners,
      extent (moved Q (shift d (c t))) d = .ok (dot b (-d) - dot a (-d)) ∧
      (∀ x ∈ Q.corners, dot a (-d) ≤ dot x (-d) ∧ dot x (-d) ≤ dot b (-d)) ∧ dot Q.center (-d) = h0 ∧
      placed text p pos ts c t = some (moved Q (shift d (c t))) := by
    intro t ht Q hQ
    obtain ⟨hcen, hg⟩ := labelled_good text p pos ts hf t ht Q hQ
    rw [hs.dir] at hg
    obtain ⟨a, ha, b, hb, he, hm⟩ := extent_out hs.one (good_moved (shift d (c t)) hg)
    obtain ⟨a, ha', rfl⟩ := List.mem_map.1 ha
    obtain ⟨b, hb', rfl⟩ := List.mem_map.1 hb
    refine ⟨a, ha', b, hb', ?_, ?_, by rw [hcen, hs.point], ?_⟩
    · rw [he, dot_add_pt, dot_add_pt]; congr 1; ring
    · intro x hx
      have := hm _ (List.mem_map.2 ⟨x, hx, rfl⟩)
      rw [dot_add_pt, dot_add_pt, dot_add_pt] at this
      exact ⟨by linarith, by linarith⟩
    · unfold placed
      rw [(labelBox_iff text p pos ts t Q).2 hQ, Option.map_some, hs.dir]
  -- the outer end of a label, and the tallest label touching its line
  have hout : ∀ t ∈ ts, ∀ Q, Labelled text p pos ts t Q → ∀ x ∈ Q.corners, dot x (-d) + c t - h0 ≤ E := by
    intro t ht Q hQ x hx
    obtain ⟨a, ha, b, hb, he, hm, hcen, hpl⟩ := hlab t ht Q hQ
    by_cases heq : Equalize p pos ts
    · rcases hu heq with hno | ⟨t0, ht0, Q0, hQ0, a0, ha0, b0, hb0, hlead⟩
      · exact absurd hQ (hno t ht Q)
      obtain ⟨⟨c0, hc0⟩, htouch⟩ := hc3 heq
      obtain ⟨t1, ht1, Q1, hQ1, y, hy, hye⟩ := htouch t ht Q hQ
      obtain ⟨a', ha', b', hb', he', hm', hcen', hpl'⟩ := hlab t0 ht0 Q0 hQ0
      have hr := hE t0 ht0 _ (.label _ _ hpl' (by rw [hs.dir]; exact he'))
      have h1 := (hlead t ht Q hQ x hx).2
      have h2 := (hlead t1 ht1 Q1 hQ1 y hy).1
      have h3 := (hm' b0 hb0).2
      have h4 := hc1 t0 ht0 Q0 hQ0 a' ha'
      have h5 := (hm' a0 ha0).1
      obtain ⟨-, -, -, -, -, -, hcen1, -⟩ := hlab t1 ht1 Q1 hQ1
      rw [hs.dir, hun, dot_sub_pt, dot_add_pt, hsh, hc0 t1 ht1, hcen1] at hye
      rw [dot_sub_pt, dot_sub_pt, hcen, hcen'] at h1
      rw [dot_sub_pt, dot_sub_pt, hcen1, hcen'] at h2
      rw [hc0 t ht]
      linarith
    · obtain ⟨y, hy, hye⟩ := hc2 heq t ht Q hQ
      have hr := hE t ht _ (.label _ _ hpl (by rw [hs.dir]; exact he))
      rw [hs.dir, hun, dot_sub_pt, dot_add_pt, hsh, hcen] at hye
      have h1 := (hm x hx).2
      have h2 := (hm y hy).1
      linarith
  constructor
  · intro t ht x hx y hy
    cases hx with
    | tick i o a hm =>
      have h1 := hE t ht _ (.outer i o a hm)
      have h2 := hE t ht _ (.inner i o a hm)
      have := segment_le _ _ (-d) (E + h0) (by
        rw [dot_add_pt, dot_smul_pt, hs.point, hs.dir, hdd]; linarith) (by
        rw [dot_sub_pt, dot_smul_pt, hs.point, hs.dir, hdd]; linarith) y hy
      linarith
    | grid sel a h1 h2 => exact absurd hy (by simp [region])
    | label Q hQ =>
      unfold placed at hQ
      obtain ⟨Q0, hQ0, rfl⟩ := Option.map_eq_some_iff.1 hQ
      have := hull_le (moved Q0 (shift (pos.dir t.v) (c t))) (-d) (E + h0) (by
        intro z hz
        obtain ⟨z, hz', rfl⟩ := List.mem_map.1 hz
        have := hout t ht Q0 ((labelBox_iff text p pos ts t Q0).1 hQ0) z hz'
        rw [dot_add_pt, hs.dir, hsh]
        linarith) y hy
      linarith
  · rintro ⟨t, ht, h⟩
    · cases h with
      | outer i o a hm =>
        refine ⟨t, ht, _, .tick i E a hm, _, right_mem_segment ℝ _ _, ?_⟩
        rw [dot_sub_pt, dot_smul_pt, hs.point, hs.dir, hdd]; ring
      | inner i o a hm =>
        refine ⟨t, ht, _, .tick i o a hm, _, left_mem_segment ℝ _ _, ?_⟩
        rw [dot_add_pt, dot_smul_pt, hs.point, hs.dir, hdd]; ring
      | label Q e hQ he =>
        have hQ' := hQ
        unfold placed at hQ'
        obtain ⟨Q0, hQ0, rfl⟩ := Option.map_eq_some_iff.1 hQ'
        have hQl := (labelBox_iff text p pos ts t Q0).1 hQ0
        obtain ⟨a, ha, b, hb, he', hm, hcen, hpl⟩ := hlab t ht Q0 hQl
        rw [hs.dir] at he
        rw [he'] at he
        cases he
        refine ⟨t, ht, _, .label _ hQ, b + shift (pos.dir t.v) (c t), subset_convexHull ℝ _ (List.mem_map.2 ⟨b, hb, rfl⟩), ?_⟩
        have h1 := hout t ht Q0 hQl b hb
        have h2 := hc1 t ht Q0 hQl a ha
        rw [hs.dir, hun, dot_sub_pt, dot_add_pt, hsh, hcen] at h2
        rw [hs.dir, dot_add_pt, hsh]
        linarith

/-- The title of a straight axis. -/
theorem title_spec (titledist titlepos : ℝ) (titleattrs : Option B) (title : Option L)
    (ht : ∀ l b, title = some l → titleattrs = some b → (text (pos.point titlepos) (pos.dir titlepos) l b).center = pos.point titlepos ∧
      Good (text (pos.point titlepos) (pos.dir titlepos) l b) (pos.dir titlepos))
    (d : Pt) (h0 : ℝ) (hs : Straight pos d h0) (s : State A G) :
    ∃ s' : State A G, drawTitle text pos titledist titlepos titleattrs title s = .ok s' ∧
      ((s' = s ∧ ¬ (title.isSome = true ∧ titleattrs.isSome = true)) ∨
       (title.isSome = true ∧ titleattrs.isSome = true) ∧ ∃ Q, s'.items = s.items ++ [.title Q] ∧ s'.labels = s.labels ∧
        (∀ y ∈ convexHull ℝ {q | q ∈ Q.corners}, s.extent + titledist ≤ dot y (-d) - h0 ∧ dot y (-d) - h0 ≤ s'.extent) ∧
        s.extent + titledist ≤ s'.extent ∧ ∃ y ∈ convexHull ℝ {q | q ∈ Q.corners}, dot y (-d) - h0 = s'.extent) := by
  cases h1 : title with
  | none => exact ⟨s, rfl, Or.inl ⟨rfl, by simp⟩⟩
  | some l =>
    cases h2 : titleattrs with
    | none => exact ⟨s, rfl, Or.inl ⟨rfl, by simp⟩⟩
    | some b =>
      obtain ⟨hcen, hg⟩ := ht l b h1 h2
      have hd := dot_ne hs.one
      rw [hs.dir] at hcen hg
      have hg' := good_neg hg
      have hd1 : dot (-d) (-d) = 1 := by rw [dot_neg_pt]; have := hs.one; simp only [dot, Prod.fst_neg, Prod.snd_neg] at this ⊢; linarith
      obtain ⟨k, hk, hk1, y0, hy0, hk2⟩ := linealign_partial hg'.1 hg'.2.1 (s.extent + titledist) (-d) (neg_ne_zero.2 hd) hg'.2.2
      rw [unitOf_one hd1, hcen] at hk1 hk2
      set Q := moved (text (pos.point titlepos) d l b) (k * (-d).1, k * (-d).2) with hQ
      obtain ⟨a, ha, b', hb', he, hm⟩ := extent_out hs.one (good_moved (k * (-d).1, k * (-d).2) hg)
      rw [← hQ] at ha hb' he hm
      have hres : drawTitle text pos titledist titlepos (some b) (some l) s =
          .ok { s with items := s.items ++ [.title Q], extent := s.extent + titledist + (dot b' (-d) - dot a (-d)) } := by
        unfold drawTitle
        simp only [hs.dir]
        rw [hk]
        simp only
        rw [he]
      have hnear : ∀ y ∈ convexHull ℝ {q | q ∈ Q.corners}, s.extent + titledist + h0 ≤ dot y (-d) := by
        intro y hy
        have := hk1 y hy
        rw [dot_sub_pt, hs.point] at this
        linarith
      have ha1 := hnear a (subset_convexHull ℝ _ ha)
      have ha2 := (hm y0 hy0).1
      rw [dot_sub_pt, hs.point] at hk2
      have hfar : dot b' (-d) - h0 = s.extent + titledist + (dot b' (-d) - dot a (-d)) := by linarith
      have hge : dot a (-d) ≤ dot b' (-d) := (hm b' hb').1
      refine ⟨_, hres, Or.inr ⟨⟨rfl, rfl⟩, Q, rfl, rfl, ?_, ?_, b', subset_convexHull ℝ _ hb', hfar⟩⟩
      · intro y hy
        have h3 := hnear y hy
        have h4 := hull_le Q (-d) _ (fun z hz => (hm z hz).2) y hy
        exact ⟨by linarith, by show _ ≤ s.extent + titledist + (dot b' (-d) - dot a (-d)); linarith⟩
      · show _ ≤ s.extent + titledist + (dot b' (-d) - dot a (-d)); linarith

/-- **C114, extents and title of a straight axis.** The extent of the axis is exactly how far the axis with its ticks, labels and title
reaches to the outside, and the title is beyond everything else with the distance `titledist` at least — if labels are not equalized, or one of them has all
the height and depth (`Uniform`). -/
theorem axis_extent_partial (ts : List (Tick L)) (title : Option L) (hf : Fine text p pos ts) (ht : TitleFine text p pos title)
    (d : Pt) (h0 : ℝ) (hs : Straight pos d h0) (hu : Equalize p pos ts → Uniform text p pos ts d) (htd : 0 ≤ p.titledist) :
    ∃ s : State A G, paint text p pos ts title = .ok s ∧
      (∀ x ∈ s.items, ∀ y ∈ region pos x, dot y (-d) - h0 ≤ s.extent) ∧
      (s.extent = 0 ∨ ∃ x ∈ s.items, ∃ y ∈ region pos x, dot y (-d) - h0 = s.extent) ∧
      (∀ Q, .title Q ∈ s.items → ∀ y ∈ region pos (.title Q : Item A G), ∀ x ∈ s.items, (∀ Q', x ≠ .title Q') → ∀ z ∈ region pos x,
        dot z (-d) + p.titledist ≤ dot y (-d)) := by
  obtain ⟨c, hal, hc1, hc2, hc3⟩ := align_ok text p pos ts hf
  obtain ⟨s, hss, hi, -, hpos, hr1, hr2⟩ := paint_loop text p pos ts hf c
  obtain ⟨hin, htight⟩ := loop_extent text p pos ts hf d h0 hs hu c hc1 hc2 hc3 s.extent hr1
  have hbi : (drawBase p s).items = s.items ++ (p.base.map Item.base).toList := by
    unfold drawBase
    cases h1 : p.labelattrs <;> cases h2 : p.base <;> simp
  have hbe : (drawBase p s).extent = s.extent := by
    unfold drawBase
    cases h1 : p.labelattrs <;> cases h2 : p.base <;> simp
  have hall : ∀ x ∈ (drawBase p s).items, (∀ Q', x ≠ .title Q') ∧ ∀ y ∈ region pos x, dot y (-d) - h0 ≤ s.extent := by
    intro x hx
    rw [hbi, List.mem_append] at hx
    rcases hx with hx | hx
    · obtain ⟨t, ht, hx⟩ := (hi x).1 hx
      refine ⟨?_, fun y hy => hin t ht x hx y hy⟩
      rintro Q' rfl
      cases hx
    · rw [Option.mem_toList] at hx
      obtain ⟨a, -, rfl⟩ := Option.map_eq_some_iff.1 hx
      refine ⟨by simp, ?_⟩
      rintro y ⟨v, rfl⟩
      rw [hs.point]; linarith
  have htight' : s.extent = 0 ∨ ∃ x ∈ (drawBase p s).items, ∃ y ∈ region pos x, dot y (-d) - h0 = s.extent := by
    rcases hr2 with h | h
    · exact Or.inl h
    · obtain ⟨t, ht, x, hx, h⟩ := htight h
      exact Or.inr ⟨x, by rw [hbi]; exact List.mem_append_left _ ((hi x).2 ⟨t, ht, hx⟩), h⟩
  have hp : paint text p pos ts title = drawTitle text pos p.titledist p.titlepos p.titleattrs title (drawBase p s) := by
    unfold paint
    rw [hal]
    simp only
    rw [zip_map_self]
    have e : (fun t => (t, (labelBox text p pos (maxlabellevel ts) t).map fun Q => moved Q (shift (pos.dir t.v) (c t)))) =
      fun t => (t, placed text p pos ts c t) := rfl
    rw [e, hss]
  rw [hp]
  obtain ⟨s', hs', hor⟩ := title_spec text pos p.titledist p.titlepos p.titleattrs title (fun l b h1 h2 => (ht l b h1 h2).2) d h0 hs (drawBase p s)
  refine ⟨s', hs', ?_⟩
  rcases hor with ⟨rfl, -⟩ | ⟨-, Q, hQ, -, hb, hge, y, hy, hye⟩
  · refine ⟨?_, ?_, ?_⟩
    · intro x hx y hy; rw [hbe]; exact (hall x hx).2 y hy
    · rw [hbe]; exact htight'
    · intro Q hQ; exact absurd rfl ((hall _ hQ).1 Q)
  · rw [hbe] at hb hge
    refine ⟨?_, Or.inr ⟨.title Q, by rw [hQ]; simp, y, hy, hye⟩, ?_⟩
    · intro x hx z hz
      rw [hQ] at hx
      rcases List.mem_append.1 hx with hx | hx
      · have := (hall x hx).2 z hz
        linarith
      · rw [List.mem_singleton] at hx
        subst hx
        exact (hb z hz).2
    · intro Q' hQ' y' hy' x hx hxt z hz
      rw [hQ] at hQ' hx
      have hQQ : Q' = Q := by
        rcases List.mem_append.1 hQ' with h | h
        · exact absurd rfl ((hall _ h).1 Q')
        · simpa using h
      subst hQQ
      have h3 := (hb y' hy').1
      rcases List.mem_append.1 hx with hx | hx
      · have := (hall x hx).2 z hz
        linarith
      · rw [List.mem_singleton] at hx
        exact absurd hx (hxt Q')

/-! ## Directions, errors, and an extent which is too small -/

/-- **C114, the direction of the title.** The text of the title runs along the axis, such that its rotation is that of the side where the ticks are: the vector given to
the rotation is orthogonal to the axis and not opposite to the ticks. -/
theorem title_direction (d x x2 : Pt) : dot (titleDir d x x2) (x2 - x) = 0 ∧ 0 ≤ dot (titleDir d x x2) d ∧
    dot (titleDir d x x2) (titleDir d x x2) = dot (x2 - x) (x2 - x) := by
  unfold titleDir
  simp only
  by_cases h : d.1 * (x2.2 - x.2) - d.2 * (x2.1 - x.1) < 0
  · rw [if_pos h]
    simp only [dot, Prod.fst_sub, Prod.snd_sub]
    exact ⟨by ring, by nlinarith, by ring⟩
  · rw [if_neg h]
    simp only [dot, Prod.fst_sub, Prod.snd_sub]
    exact ⟨by ring, by nlinarith, by ring⟩

example : titleDir (0, 1) (0, 0) (1, 0) = (0, 1) := by norm_num [titleDir]

/-- **C114, finding.** Attributes of labels which are switched off for a level (the selection is `None`, as it is possible for ticks and grid lines) let
the painter fail with an `AttributeError`. -/
theorem label_off (ts : List (Tick L)) (title : Option L) (t : Tick L) (ht : t ∈ ts) (l : Nat) (hl : t.labellevel = some l)
    (sel : Nat → Nat → Option B) (hs : p.labelattrs = some sel) (hn : sel l (maxlabellevel ts) = none) :
    paint text p pos ts title = .error .attribute := by
  unfold paint align
  rw [if_neg (by simp [hs])]
  have : (ts.zip (ts.map (labelBox text p pos (maxlabellevel ts)))).any (fun x => missing x.1 x.2) = true := by
    rw [zip_map_self, List.any_eq_true]
    refine ⟨_, List.mem_map.2 ⟨t, ht, rfl⟩, ?_⟩
    simp [missing, labelBox, hl, hs, hn]
  rw [if_pos this]

/-- Text whose box reaches from the depth `l.1` to the height `l.2`, for examples. -/
def exText (x _d l : Pt) (_b : Unit) : Polygon := rect (x.1 - 1) (x.2 + l.1) 2 (l.2 - l.1) (0, 0) (1, -l.1)

/-- An axis at the bottom, for examples. -/
def exPos : Pos Unit := ⟨fun v => (100 * v, 0), fun _ => (0, 1), fun _ => ()⟩

/-- The default painter with lengths in points and outer ticks, for examples. -/
def exPainter (vequal : Bool) : Painter Unit Unit :=
  { inner := fun _ _ => some 3, outer := fun _ _ => some 2, tickattrs := some fun _ _ => some (), gridattrs := none, base := some (), labeldist := 8,
    labelattrs := some fun _ _ => some (), hequal := false, vequal := vequal, titledist := 8, titleattrs := some (), titlepos := 1 / 2 }

/-- Two ticks: labels with the depths and heights given. -/
def exTicks (l1 l2 : Pt) : List (Tick Pt) := [⟨1 / 4, some 0, some 0, l1⟩, ⟨3 / 4, some 0, some 0, l2⟩]

theorem exGood (x d l : Pt) (b : Unit) (hl : l.1 + 1 ≤ l.2) : Good (exText x d l b) (0, 1) := by
  have he := eps_small
  have hu := unitOf_axis.2.1
  refine ⟨rect_convex _ _ _ _ _ _ (by norm_num) (by linarith), rect_long _ _ _ _ _ _ (by norm_num; linarith) (by nlinarith), ?_⟩
  rw [hu]
  exact rect_clear _ _ _ _ _ _ _ (by linarith) (by linarith) (by simp)

theorem exCenter (x d l : Pt) (b : Unit) : (exText x d l b).center = x := by
  ext <;> simp [exText, rect]

theorem exFine (v : Bool) (l1 l2 : Pt) (h1 : l1.1 + 1 ≤ l1.2) (h2 : l2.1 + 1 ≤ l2.2) : Fine exText (exPainter v) exPos (exTicks l1 l2) := by
  refine ⟨?_, ?_, ?_⟩
  · intro t _; simp [exPos]
  · intro t ht l sel _ hs
    simp only [exPainter, Option.some.injEq] at hs
    subst hs
    refine ⟨(), rfl, exCenter _ _ _ _, exGood _ _ _ _ ?_⟩
    simp only [exTicks, List.mem_cons, List.not_mem_nil, or_false] at ht
    rcases ht with rfl | rfl
    · exact h1
    · exact h2
  · intro t _ sel hs
    simp [exPainter] at hs

theorem exTitle (v : Bool) (l : Pt) (h : l.1 + 1 ≤ l.2) : TitleFine exText (exPainter v) exPos (some l) := by
  rintro l' b hl -
  cases hl
  exact ⟨by simp [exPos], exCenter _ _ _ _, exGood _ _ _ _ h⟩

theorem exStraight : Straight exPos (0, 1) 0 := ⟨by simp [dot], fun _ => rfl, fun v => by simp [dot, exPos]⟩

/-- The hypotheses of `painted` and `axis_extent_partial` hold for labels which are not equalized, ... -/
example : ∃ s : State Unit Unit, paint exText (exPainter false) exPos (exTicks (0, 8) (-3, 4)) (some (-2, 6)) = .ok s ∧
    ∀ x ∈ s.items, ∀ y ∈ region exPos x, dot y (-((0, 1) : Pt)) - 0 ≤ s.extent := by
  obtain ⟨s, h1, h2, -⟩ := axis_extent_partial exText (exPainter false) exPos (exTicks (0, 8) (-3, 4)) (some (-2, 6)) (exFine _ _ _ (by norm_num) (by norm_num))
    (exTitle _ _ (by norm_num)) (0, 1) 0 exStraight (by
      rintro ⟨-, h⟩
      have := h _ rfl
      simp [exPainter, exPos] at this) (by norm_num [exPainter])
  exact ⟨s, h1, h2⟩

/-- ... and for labels which are equalized and alike. -/
example : Equalize (exPainter true) exPos (exTicks (0, 8) (0, 8)) ∧ Uniform exText (exPainter true) exPos (exTicks (0, 8) (0, 8)) (0, 1) := by
  refine ⟨⟨⟨by simp, ?_⟩, ?_⟩, ?_⟩
  · intro u _; rfl
  · intro t _; left; exact ⟨rfl, rfl⟩
  · right
    refine ⟨⟨1 / 4, some 0, some 0, (0, 8)⟩, by simp [exTicks], exText (25, 0) (0, 1) (0, 8) (), ⟨0, fun _ _ => some (), (), rfl, rfl, rfl, by norm_num [exPos]⟩,
      (24, 8), ?_, (24, 0), ?_, ?_⟩
    · rw [exText, rect_corner]; norm_num
    · rw [exText, rect_corner]; norm_num
    · rintro t ht Q ⟨l, sel, b, -, -, -, rfl⟩ x hx
      have hc := exCenter (exPos.point t.v) (exPos.dir t.v) t.label b
      rw [hc, exCenter]
      rw [exText, rect_corner] at hx
      have hv : t.label = (0, 8) := by
        simp only [exTicks, List.mem_cons, List.not_mem_nil, or_false] at ht
        rcases ht with rfl | rfl <;> rfl
      rw [hv] at hx
      rcases hx with rfl | rfl | rfl | rfl <;> norm_num [dot, exPos]

/-- **C114, finding.** The extent of an axis with equalized labels — as it is by default for horizontal axes — may be too small: a label without depth and height 8, and
one with depth 3 and height 4 are moved to the outside by the height 8 and the distance, and the latter reaches 3 beyond the extent, so the title can overlap with it. -/
theorem extent_wrong : ∃ (s : State Unit Unit) (Q : Polygon), paint exText (exPainter true) exPos (exTicks (0, 8) (-3, 4)) none = .ok s ∧
    .label Q ∈ s.items ∧ ∃ y ∈ region exPos (.label Q : Item Unit Unit), s.extent + 3 ≤ dot y (-((0, 1) : Pt)) - 0 := by
  set ts := exTicks (0, 8) (-3, 4) with hts
  have hf : Fine exText (exPainter true) exPos ts := exFine _ _ _ (by norm_num) (by norm_num)
  have heq : Equalize (exPainter true) exPos ts := by
    refine ⟨⟨by simp, ?_⟩, ?_⟩
    · intro u _; rfl
    · intro t _; left; exact ⟨rfl, rfl⟩
  obtain ⟨c, hal, hc1, -, hc3⟩ := align_ok exText (exPainter true) exPos ts hf
  obtain ⟨s, hss, hi, -, hpos, hr1, hr2⟩ := paint_loop exText (exPainter true) exPos ts hf c
  obtain ⟨⟨c0, hc0⟩, -⟩ := hc3 heq
  have hmem : ∀ t ∈ ts, t = ⟨1 / 4, some 0, some 0, (0, 8)⟩ ∨ t = ⟨3 / 4, some 0, some 0, (-3, 4)⟩ := by
    intro t ht
    simpa [hts, exTicks] using ht
  have hl : ∀ t : Tick Pt, t.labellevel = some 0 → Labelled exText (exPainter true) exPos ts t (exText (exPos.point t.v) (exPos.dir t.v) t.label ()) :=
    fun t h => ⟨0, fun _ _ => some (), (), h, rfl, rfl, rfl⟩
  have hu : unitOf (-((0, 1) : Pt)) = -(0, 1) := by rw [unitOf_neg, unitOf_axis.2.1]
  -- the shift
  have hshift : 16 ≤ c0 := by
    have h1 := hc1 ⟨1 / 4, some 0, some 0, (0, 8)⟩ (by simp [hts, exTicks]) _ (hl _ rfl) (24, 8) (by
      rw [exText, rect_corner]; norm_num [exPos])
    rw [exCenter, hc0 _ (by simp [hts, exTicks])] at h1
    have e : exPos.dir (1 / 4) = (0, 1) := rfl
    simp only [e] at h1
    rw [hu] at h1
    simp only [shift, dot, exPos, exPainter, Prod.fst_add, Prod.snd_add, Prod.fst_sub, Prod.snd_sub, Prod.fst_neg, Prod.snd_neg] at h1
    linarith
  -- the extent
  have hext : s.extent ≤ 16 := by
    rcases hr2 with h | ⟨t, ht, h⟩
    · rw [h]; norm_num
    · generalize s.extent = E at h ⊢
      cases h with
      | outer i o a hm =>
        obtain ⟨l, sel, -, -, -, -, -, ho⟩ := hm
        rw [ho]; norm_num [exPainter]
      | inner i o a hm =>
        obtain ⟨l, sel, -, -, -, -, hi', -⟩ := hm
        rw [hi']; norm_num [exPainter]
      | label Q e hQ he =>
        unfold placed at hQ
        obtain ⟨Q0, hQ0, rfl⟩ := Option.map_eq_some_iff.1 hQ
        obtain ⟨l, sel, b, -, -, -, rfl⟩ := (labelBox_iff exText (exPainter true) exPos ts t Q0).1 hQ0
        have hh : t.label.1 + 1 ≤ t.label.2 ∧ t.label.2 - t.label.1 ≤ 8 := by
          rcases hmem t ht with rfl | rfl <;> norm_num
        have hd : exPos.dir t.v = (0, 1) := rfl
        rw [hd] at he
        obtain ⟨a, ha, b', hb, he', -⟩ := extent_out (d := (0, 1)) (by simp [dot])
          (good_moved (shift (exPos.dir t.v) (c t)) (exGood (exPos.point t.v) (exPos.dir t.v) t.label b hh.1))
        rw [hd] at he'
        rw [he'] at he
        cases he
        obtain ⟨a, ha', rfl⟩ := List.mem_map.1 ha
        obtain ⟨b', hb', rfl⟩ := List.mem_map.1 hb
        rw [exText, rect_corner] at ha' hb'
        have h8 : (exPainter true).labeldist = 8 := rfl
        simp only [h8, dot_add_pt, dot_neg_pt]
        have key : ∀ z : Pt, (z = (((exPos.point t.v).1 - 1, (exPos.point t.v).2 + t.label.1) : Pt) ∨
            z = ((exPos.point t.v).1 - 1 + 2, (exPos.point t.v).2 + t.label.1) ∨
            z = ((exPos.point t.v).1 - 1 + 2, (exPos.point t.v).2 + t.label.1 + (t.label.2 - t.label.1)) ∨
            z = ((exPos.point t.v).1 - 1, (exPos.point t.v).2 + t.label.1 + (t.label.2 - t.label.1))) →
            t.label.1 ≤ dot z (0, 1) ∧ dot z (0, 1) ≤ t.label.2 := by
          rintro z (rfl | rfl | rfl | rfl) <;> simp [dot, exPos] <;> linarith
        have k1 := key a ha'
        have k2 := key b' hb'
        linarith
  refine ⟨drawBase (exPainter true) s, moved (exText (75, 0) (0, 1) (-3, 4) ()) (shift (0, 1) c0), ?_, ?_, (74, -3) + shift (0, 1) c0, ?_, ?_⟩
  · unfold paint
    rw [hal]
    simp only
    rw [zip_map_self]
    have e : (fun t => (t, (labelBox exText (exPainter true) exPos (maxlabellevel ts) t).map fun Q => moved Q (shift (exPos.dir t.v) (c t)))) =
      fun t => (t, placed exText (exPainter true) exPos ts c t) := rfl
    rw [e, hss]
    rfl
  · refine List.mem_append_left _ ((hi _).2 ⟨⟨3 / 4, some 0, some 0, (-3, 4)⟩, by simp [hts, exTicks], .label _ ?_⟩)
    unfold placed
    rw [(labelBox_iff exText (exPainter true) exPos ts _ _).2 (hl _ rfl), Option.map_some, hc0 _ (by simp [hts, exTicks])]
    congr 2
    norm_num [exPos]
  · refine subset_convexHull ℝ _ (List.mem_map.2 ⟨(74, -3), ?_, rfl⟩)
    rw [exText, rect_corner]; norm_num
  · have : (drawBase (exPainter true) s).extent = s.extent := rfl
    rw [this]
    simp only [shift, dot, Prod.fst_add, Prod.snd_add, Prod.fst_neg, Prod.snd_neg]
    linarith

end

end PyX.Axis.Paint
