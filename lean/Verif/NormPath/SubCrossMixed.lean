import Verif.NormPath.SubCrossTotal

set_option linter.unusedSectionVars false

/-!
# Intersections of sub-paths of which one is open: nothing is lost (`normpath.py:1106-1217`)

`intersect_complete_partial` is about two open sub-paths.  Points are merged only if they are close on both sub-paths; so for a sub-path which is open, whatever the other one is, points are merged
only if they are close on this one.
-/

namespace PyX.NormPath.SubCross

open PyX.NormPath.Sub

/-- Two intersections of a list which are near each other on the first sub-path. -/
def NearFirst (e : ℝ) (a : Sub) (l : List (ℝ × ℝ)) (x y : ℝ × ℝ) : Prop := x ∈ l ∧ y ∈ l ∧ Near e a.items x.1 y.1

/-- Two intersections of a list which are near each other on the second sub-path. -/
def NearSecond (e : ℝ) (b : Sub) (l : List (ℝ × ℝ)) (x y : ℝ × ℝ) : Prop := x ∈ l ∧ y ∈ l ∧ Near e b.items x.2 y.2

/-- Links between indices are links between the elements. -/
theorem linked_elements {L : List (ℝ × ℝ)} {P : List (ℕ × ℕ)} {R : ℝ × ℝ → ℝ × ℝ → Prop}
    (hstep : ∀ i j, (i, j) ∈ P → ∃ x y, L[i]? = some x ∧ L[j]? = some y ∧ R x y) (i j : ℕ) (hij : Linked P i j) :
    (∀ x, L[i]? = some x → ∃ y, L[j]? = some y ∧ Relation.EqvGen R x y) ∧ (∀ y, L[j]? = some y → ∃ x, L[i]? = some x ∧ Relation.EqvGen R x y) := by
  induction hij with
  | rel i j hij =>
    obtain ⟨x0, y0, hx0, hy0, this⟩ := hstep i j hij
    constructor
    · intro x hx
      rw [hx0] at hx; cases hx
      exact ⟨y0, hy0, .rel _ _ this⟩
    · intro y hy
      rw [hy0] at hy; cases hy
      exact ⟨x0, hx0, .rel _ _ this⟩
  | refl i => exact ⟨fun x hx => ⟨x, hx, .refl _⟩, fun x hx => ⟨x, hx, .refl _⟩⟩
  | symm i j _ ih =>
    constructor
    · intro x hx
      obtain ⟨y, hy, g⟩ := ih.2 x hx
      exact ⟨y, hy, .symm _ _ g⟩
    · intro x hx
      obtain ⟨y, hy, g⟩ := ih.1 x hx
      exact ⟨y, hy, .symm _ _ g⟩
  | trans i j k _ _ ih1 ih2 =>
    constructor
    · intro x hx
      obtain ⟨y, hy, g⟩ := ih1.1 x hx
      obtain ⟨z, hz, g'⟩ := ih2.1 y hy
      exact ⟨z, hz, .trans _ _ _ g g'⟩
    · intro z hz
      obtain ⟨y, hy, g⟩ := ih2.2 z hz
      obtain ⟨x, hx, g'⟩ := ih1.2 y hy
      exact ⟨x, hx, .trans _ _ _ g' g⟩

/-- An element alone in its relation is linked to itself only. -/
theorem alone {R : ℝ × ℝ → ℝ × ℝ → Prop} {x : ℝ × ℝ} (h1 : ∀ y, R x y → y = x) (h2 : ∀ y, R y x → y = x) {y : ℝ × ℝ} (g : Relation.EqvGen R x y) : y = x := by
  have key : ∀ u v, Relation.EqvGen R u v → (u = x ↔ v = x) := by
    intro u v huv
    induction huv with
    | rel u v huv =>
      constructor
      · rintro rfl; exact h1 v huv
      · rintro rfl; exact h2 u huv
    | refl => exact Iff.rfl
    | symm _ _ _ ih => exact ih.symm
    | trans _ _ _ _ _ ih1 ih2 => exact ih1.trans ih2
  exact (key x y g).mp rfl

section
variable {roots : ℝ → ℝ → ℝ → ℝ → List ℝ} {n m : ℕ} {meet : Item ℝ → Item ℝ → List (ℝ × ℝ)} {e e' : ℝ} {eps : Option ℝ} {a b : Sub} {r : List ℝ × List ℝ}

/-- **C140 (nothing is lost, first sub-path open).**  From each intersection of an open sub-path with any other one one comes to one which is reported by steps between intersections which are closer
than epsilon on the open one. -/
theorem complete_first (ha : OpenSub a) (hw : Within meet a b) (h : intersect roots n m meet (some e) eps a b = .ok r) (x : ℝ × ℝ)
    (hx : x ∈ raw meet a.items b.items) : ∃ y ∈ r.1.zip r.2, Relation.EqvGen (NearFirst e a (raw meet a.items b.items)) x y := by
  obtain ⟨A, B, hA, hB, hl, eq⟩ := intersect_report roots n h
  have hperm := ordered_perm (raw meet a.items b.items)
  generalize hL : ordered (raw meet a.items b.items) = L at *
  have hrA : ∀ x ∈ indexedA L, 0 ≤ x.1 ∧ x.1 ≤ a.items.length := by
    intro x hx
    obtain ⟨q, hq, hq'⟩ := mem_indexedA.mp hx
    rw [← hq']
    exact (raw_within hw q (hperm.mem_iff.mp (List.mem_of_getElem? hq))).1
  have nA := closepoints_near roots n m e a ha.nonempty ha.isOpen ha.chain _ hrA A hA
  have hstep : ∀ i j, (i, j) ∈ both A B → ∃ x y, L[i]? = some x ∧ L[j]? = some y ∧ NearFirst e a (raw meet a.items b.items) x y := by
    intro i j hij
    obtain ⟨u, hu, v, hv, hnear, hp⟩ := nA _ (mem_both.mp hij).1
    obtain ⟨u', hu1, hu2⟩ := mem_indexedA.mp hu
    obtain ⟨v', hv1, hv2⟩ := mem_indexedA.mp hv
    have mu := hperm.mem_iff.mp (List.mem_of_getElem? hu1)
    have mv := hperm.mem_iff.mp (List.mem_of_getElem? hv1)
    rcases hp with hp | hp
    · simp only [Prod.mk.injEq] at hp
      exact ⟨u', v', by rw [hp.1]; exact hu1, by rw [hp.2]; exact hv1, mu, mv, by rw [hu2, hv2]; exact hnear⟩
    · simp only [Prod.mk.injEq] at hp
      exact ⟨v', u', by rw [hp.1]; exact hv1, by rw [hp.2]; exact hu1, mv, mu, by rw [hu2, hv2]; exact hnear.symm⟩
  obtain ⟨i, hi⟩ := List.mem_iff_getElem?.mp (hperm.mem_iff.mpr hx)
  obtain ⟨k, y, hk, hy, hlink⟩ := nothing_lost L A B (closepoints_le roots _ n m a _ A hA) i (List.getElem?_eq_some_iff.mp hi).1
  obtain ⟨y', hy', g⟩ := (linked_elements hstep i k hlink).1 x hi
  rw [hk] at hy'
  cases hy'
  exact ⟨y, by rw [eq]; exact hy, g⟩

/-- **C140 (nothing is lost, second sub-path open).** -/
theorem complete_second (hb : OpenSub b) (hw : Within meet a b) (h : intersect roots n m meet eps (some e') a b = .ok r) (x : ℝ × ℝ)
    (hx : x ∈ raw meet a.items b.items) : ∃ y ∈ r.1.zip r.2, Relation.EqvGen (NearSecond e' b (raw meet a.items b.items)) x y := by
  obtain ⟨A, B, hA, hB, hl, eq⟩ := intersect_report roots n h
  have hperm := ordered_perm (raw meet a.items b.items)
  generalize hL : ordered (raw meet a.items b.items) = L at *
  have hrB : ∀ x ∈ indexedB L, 0 ≤ x.1 ∧ x.1 ≤ b.items.length := by
    intro x hx
    obtain ⟨q, hq, hq'⟩ := mem_indexedB.mp hx
    rw [← hq']
    exact (raw_within hw q (hperm.mem_iff.mp (List.mem_of_getElem? hq))).2
  have nB := closepoints_near roots n m e' b hb.nonempty hb.isOpen hb.chain _ hrB B hB
  have hstep : ∀ i j, (i, j) ∈ both A B → ∃ x y, L[i]? = some x ∧ L[j]? = some y ∧ NearSecond e' b (raw meet a.items b.items) x y := by
    intro i j hij
    obtain ⟨u, hu, v, hv, hnear, hp⟩ := nB _ (mem_both.mp hij).2
    obtain ⟨u', hu1, hu2⟩ := mem_indexedB.mp hu
    obtain ⟨v', hv1, hv2⟩ := mem_indexedB.mp hv
    have mu := hperm.mem_iff.mp (List.mem_of_getElem? hu1)
    have mv := hperm.mem_iff.mp (List.mem_of_getElem? hv1)
    rcases hp with hp | hp
    · simp only [Prod.mk.injEq] at hp
      exact ⟨u', v', by rw [hp.1]; exact hu1, by rw [hp.2]; exact hv1, mu, mv, by rw [hu2, hv2]; exact hnear⟩
    · simp only [Prod.mk.injEq] at hp
      exact ⟨v', u', by rw [hp.1]; exact hv1, by rw [hp.2]; exact hu1, mv, mu, by rw [hu2, hv2]; exact hnear.symm⟩
  obtain ⟨i, hi⟩ := List.mem_iff_getElem?.mp (hperm.mem_iff.mpr hx)
  obtain ⟨k, y, hk, hy, hlink⟩ := nothing_lost L A B (closepoints_le roots _ n m a _ A hA) i (List.getElem?_eq_some_iff.mp hi).1
  obtain ⟨y', hy', g⟩ := (linked_elements hstep i k hlink).1 x hi
  rw [hk] at hy'
  cases hy'
  exact ⟨y, by rw [eq]; exact hy, g⟩

/-- **C140 (separate intersections).**  An intersection with no other one near it on the open one of two sub-paths is reported, also if the other one is closed. -/
theorem lonely_found_first (ha : OpenSub a) (hw : Within meet a b) (h : intersect roots n m meet (some e) eps a b = .ok r) (x : ℝ × ℝ)
    (hx : x ∈ raw meet a.items b.items) (hfar : ∀ y ∈ raw meet a.items b.items, Near e a.items x.1 y.1 → y = x) : x ∈ r.1.zip r.2 := by
  obtain ⟨y, hy, g⟩ := complete_first ha hw h x hx
  rw [← alone (fun y k => hfar y k.2.1 k.2.2) (fun y k => hfar y k.1 k.2.2.symm) g]
  exact hy

theorem lonely_found_second (hb : OpenSub b) (hw : Within meet a b) (h : intersect roots n m meet eps (some e') a b = .ok r) (x : ℝ × ℝ)
    (hx : x ∈ raw meet a.items b.items) (hfar : ∀ y ∈ raw meet a.items b.items, Near e' b.items x.2 y.2 → y = x) : x ∈ r.1.zip r.2 := by
  obtain ⟨y, hy, g⟩ := complete_second hb hw h x hx
  rw [← alone (fun y k => hfar y k.2.1 k.2.2) (fun y k => hfar y k.1 k.2.2.symm) g]
  exact hy

end

/-- A closed sub-path. -/
def loop : Sub := ⟨[.line ⟨0, 0, 8, 0⟩, .line ⟨8, 0, 0, 0⟩], true, none⟩

/-- The line crosses its first item. -/
noncomputable def meetsLoop (_i j : Item ℝ) : List (ℝ × ℝ) := if j.begin_.1 = 0 then [(1 / 2, 1 / 2)] else []

theorem raw_loop : raw meetsLoop across.items loop.items = [(1 / 2, 1 / 2)] := by
  simp [raw, across, loop, meetsLoop, Item.begin_, Line.begin_]

theorem loop_close (roots : ℝ → ℝ → ℝ → ℝ → List ℝ) (m w : ℕ) : closepoints roots none (m + 1) (w + 1) loop [(1 / 2, 0)] = .ok [] := by
  have l0 : locate 2 0 = (0, 0) := by unfold locate; norm_num
  have l1 : locate 2 (2⁻¹) = (0, 2⁻¹) := by
    have : ⌊(2⁻¹ : ℝ)⌋₊ = 0 := Nat.floor_eq_zero.mpr (by norm_num)
    unfold locate; simp [this]
  have l2 : locate 2 2 = (1, 1) := by unfold locate; norm_num
  simp [closepoints, PyX.NormPath.Sub.segments, segmentsOpen, segLoop, segStep, loop, l0, l1, l2, collect, between, extend]
  simp [Item.segments, Line.segments, Line.segmentsFrom, Line.at_, append, makeAll, make, extend, extendWith, push, fresh, ok, fromEndToEnd, joinEnds, Except.bind, closedPairs, pairsAt, shortRound, all, Except.map]

/-- The intersection of an open sub-path with a closed one is reported. -/
example (roots : ℝ → ℝ → ℝ → ℝ → List ℝ) (m w : ℕ) : ∃ r, intersect roots (m + 1) (w + 1) meetsLoop (some 1) none across loop = .ok r ∧ (1 / 2, 1 / 2) ∈ r.1.zip r.2 := by
  have ha : OpenSub across := ⟨by simp [across], rfl, by simp [across]⟩
  have hla : Lines across.items := by
    intro i hi
    simp only [across, List.mem_cons, List.not_mem_nil, or_false] at hi
    exact ⟨_, hi⟩
  have hw : Within meetsLoop across loop := by
    intro i _ j _ r hr
    unfold meetsLoop at hr
    split at hr
    · rw [List.mem_singleton.mp hr]; norm_num
    · simp at hr
  have hord : ordered (raw meetsLoop across.items loop.items) = [(1 / 2, 1 / 2)] := by rw [raw_loop]; simp [ordered]
  obtain ⟨A, hA⟩ := closepoints_lines roots 1 one_pos m (w + 1) across ha hla (indexedA [(1 / 2, 1 / 2)]) (by
    intro x hx
    simp [indexedA] at hx
    subst hx
    simp [across]; norm_num)
  have hB : closepoints roots none (m + 1) (w + 1) loop (indexedB [(1 / 2, 1 / 2)]) = .ok [] := by
    rw [show indexedB [((1 / 2 : ℝ), (1 / 2 : ℝ))] = [(1 / 2, 0)] by simp [indexedB]]
    exact loop_close roots m w
  have h : ∃ r, intersect roots (m + 1) (w + 1) meetsLoop (some 1) none across loop = .ok r := by
    unfold intersect
    simp only [hord, hA, hB, Except.bind, Except.map]
    exact ⟨_, rfl⟩
  obtain ⟨r, hr⟩ := h
  refine ⟨r, hr, lonely_found_first ha hw hr _ (by rw [raw_loop]; simp) ?_⟩
  intro y hy _
  rw [raw_loop] at hy
  simpa using hy

end PyX.NormPath.SubCross
