import Verif.Layer.Model

/-!
# C35: layers keep the order asked for
-/

namespace PyX.Layer

/-- The layers among the items, in order. -/
def layNames (l : List Slot) : List String :=
  l.filterMap fun s => match s with
    | .lay n => some n
    | .other _ => none

/-- No layer is lost or doubled: each layer of the dictionary is exactly once among the items, in the
canvas and in all its layers. -/
inductive Good : Node → Prop
  | mk (items : List Slot) (layers : List (String × Node)) (hn : (layers.map Prod.fst).Nodup)
      (hp : (layNames items).Perm (layers.map Prod.fst)) (hl : ∀ k c, (k, c) ∈ layers → Good c) :
      Good (.mk items layers)

theorem Good.nodup {c : Node} (h : Good c) : (c.layers.map Prod.fst).Nodup := by cases h; assumption
theorem Good.perm {c : Node} (h : Good c) : (layNames c.items).Perm (c.layers.map Prod.fst) := by cases h; assumption
theorem Good.sub {c : Node} (h : Good c) : ∀ k d, (k, d) ∈ c.layers → Good d := by cases h; assumption

theorem good_empty : Good .empty := .mk [] [] (by simp) (by simp [layNames]) (by simp)

/-! ## Dictionaries -/

theorem lookup_isSome (l : List (String × Node)) (k : String) :
    (l.lookup k).isSome ↔ k ∈ l.map Prod.fst := by
  induction l with
  | nil => simp
  | cons x l ih =>
    obtain ⟨a, d⟩ := x
    rw [List.lookup_cons]
    by_cases h : k = a
    · simp [h]
    · have : (k == a) = false := by simpa using h
      rw [this]
      simp only [List.map_cons, List.mem_cons, h, false_or]
      exact ih

theorem has_iff (c : Node) (k : String) : c.has k = true ↔ k ∈ c.layers.map Prod.fst := by
  unfold Node.has
  exact List.contains_iff_mem

theorem get?_isSome (c : Node) (k : String) : (c.get? k).isSome ↔ c.has k = true := by
  rw [has_iff]
  exact lookup_isSome _ _

theorem lookup_mem {l : List (String × Node)} {k : String} {d : Node} (h : l.lookup k = some d) : (k, d) ∈ l := by
  induction l with
  | nil => simp at h
  | cons x l ih =>
    obtain ⟨a, e⟩ := x
    rw [List.lookup_cons] at h
    by_cases hk : k = a
    · subst hk
      simp at h
      rw [h]; simp
    · have : (k == a) = false := by simpa using hk
      rw [this] at h
      exact List.mem_cons_of_mem _ (ih h)

theorem setKey_keys (l : List (String × Node)) (k : String) (c : Node) :
    (setKey l k c).map Prod.fst = l.map Prod.fst := by
  unfold setKey
  rw [List.map_map]
  refine List.map_congr_left fun x _ => ?_
  by_cases h : x.1 = k <;> simp [h]

theorem setKey_lookup (l : List (String × Node)) (k k' : String) (c : Node) :
    (setKey l k c).lookup k' = if k' = k then (l.lookup k).map fun _ => c else l.lookup k' := by
  induction l with
  | nil => simp [setKey]
  | cons x l ih =>
    obtain ⟨a, d⟩ := x
    have ih : (setKey l k c).lookup k' = _ := ih
    by_cases ha : a = k
    · subst ha
      have e : setKey ((a, d) :: l) a c = (a, c) :: setKey l a c := by simp [setKey]
      rw [e, List.lookup_cons, List.lookup_cons, List.lookup_cons, ih]
      by_cases hk : k' = a
      · simp [hk]
      · have : (k' == a) = false := by simpa using hk
        simp [hk, this]
    · have e : setKey ((a, d) :: l) k c = (a, d) :: setKey l k c := by simp [setKey, ha]
      rw [e, List.lookup_cons, List.lookup_cons, List.lookup_cons, ih]
      by_cases hk : k' = a
      · subst hk
        simp [ha]
      · have h1 : (k' == a) = false := by simpa using hk
        have h2 : (k == a) = false := by simpa using fun h => ha h.symm
        simp only [h1, h2]

theorem lookup_append_new (l : List (String × Node)) (k k' : String) (c : Node) (h : k ∉ l.map Prod.fst) :
    (l ++ [(k, c)]).lookup k' = if k' = k then some c else l.lookup k' := by
  induction l with
  | nil =>
    by_cases hk : k' = k
    · simp [List.lookup_cons, hk]
    · have : (k' == k) = false := by simpa using hk
      simp [List.lookup_cons, hk, this]
  | cons x l ih =>
    obtain ⟨a, d⟩ := x
    simp only [List.map_cons, List.mem_cons, not_or] at h
    rw [List.cons_append, List.lookup_cons, List.lookup_cons, ih h.2]
    by_cases hk : k' = a
    · subst hk
      simp only [beq_self_eq_true]
      rw [if_neg fun e => h.1 e.symm]
    · have h1 : (k' == a) = false := by simpa using hk
      simp only [h1]

/-! ## One level -/

theorem layNames_append (a b : List Slot) : layNames (a ++ b) = layNames a ++ layNames b :=
  List.filterMap_append

theorem mem_layNames {l : List Slot} {n : String} : n ∈ layNames l ↔ Slot.lay n ∈ l := by
  unfold layNames
  rw [List.mem_filterMap]
  constructor
  · rintro ⟨s, hs, e⟩
    cases s with
    | other m => simp at e
    | lay m => simp at e; subst e; exact hs
  · intro h
    exact ⟨_, h, rfl⟩

theorem layNames_perm {a b : List Slot} (h : a.Perm b) : (layNames a).Perm (layNames b) := h.filterMap _

/-- `list.insert` next to an element. -/
theorem insertNear_spec {d : ℕ} {items items' : List Slot} {a n : Slot} (h : insertNear d items a n = some items') :
    ∃ pre post, items = pre ++ a :: post ∧ a ∉ pre ∧
      (d = 0 → items' = pre ++ n :: a :: post) ∧ (d = 1 → items' = pre ++ a :: n :: post) := by
  unfold insertNear at h
  split at h
  · rename_i hm
    simp only [Option.some.injEq] at h
    subst h
    induction items with
    | nil => simp at hm
    | cons x l ih =>
      by_cases hx : x = a
      · subst hx
        refine ⟨[], l, rfl, by simp, ?_, ?_⟩ <;> rintro rfl <;> simp
      · have hm' : a ∈ l := by
          rcases List.mem_cons.mp hm with e | e
          · exact absurd e.symm hx
          · exact e
        obtain ⟨pre, post, h1, h2, h3, h4⟩ := ih hm'
        have hidx : (x :: l).idxOf a = l.idxOf a + 1 := by
          rw [List.idxOf_cons_ne _ hx]
        refine ⟨x :: pre, post, by rw [h1]; rfl, ?_, ?_, ?_⟩
        · simp only [List.mem_cons, not_or]
          exact ⟨fun e => hx e.symm, h2⟩
        · intro hd
          rw [hidx, show l.idxOf a + 1 + d = (l.idxOf a + d) + 1 by omega, List.insertIdx_succ_cons, h3 hd]
          rfl
        · intro hd
          rw [hidx, show l.idxOf a + 1 + d = (l.idxOf a + d) + 1 by omega, List.insertIdx_succ_cons, h4 hd]
          rfl
  · simp at h

/-- The items without the layer `n`. -/
def without (n : String) (l : List Slot) : List Slot := l.filter (· ≠ .lay n)

theorem erase_eq_without {l : List Slot} {n : String} (h : (layNames l).Nodup) : l.erase (.lay n) = without n l := by
  unfold without
  induction l with
  | nil => rfl
  | cons x l ih =>
    have hl : (layNames l).Nodup := by
      cases x with
      | other m => exact h
      | lay m => exact (List.nodup_cons.mp (show (m :: layNames l).Nodup from h)).2
    by_cases hx : x = .lay n
    · subst hx
      have hn : n ∉ layNames l := (List.nodup_cons.mp (show (n :: layNames l).Nodup from h)).1
      rw [mem_layNames] at hn
      rw [List.erase_cons_head]
      simp only [ne_eq, decide_not, not_true_eq_false, decide_true, Bool.not_true, Bool.false_eq_true,
        not_false_eq_true, List.filter_cons_of_neg]
      rw [List.filter_eq_self.mpr]
      intro a ha
      simp only [Bool.not_eq_true', decide_eq_false_iff_not]
      rintro rfl
      exact hn ha
    · rw [List.erase_cons_tail (by simpa using hx), List.filter_cons_of_pos (by simpa using hx), ih hl]

theorem without_of_not_mem {l : List Slot} {n : String} (h : Slot.lay n ∉ l) : without n l = l := by
  unfold without
  rw [List.filter_eq_self]
  intro a ha
  simp only [ne_eq, decide_eq_true_eq]
  rintro rfl
  exact h ha

theorem good_has {c : Node} (h : Good c) (n : String) : c.has n = true ↔ Slot.lay n ∈ c.items := by
  rw [has_iff, ← h.perm.mem_iff, mem_layNames]

/-- Before positioning: the layer is in the dictionary and, if it is to be placed, not among the items. -/
theorem prepare_spec {c c1 : Node} (h : Good c) (n : String) (placed : Bool) (hc : prepare c n placed = some c1) :
    (placed = true → c1.items = without n c.items) ∧
    (placed = false → c1.items = if c.has n then c.items else c.items ++ [.lay n]) ∧
    c1.layers = if c.has n then c.layers else c.layers ++ [(n, .empty)] := by
  unfold prepare at hc
  by_cases hh : c.has n = true
  · rw [if_pos hh] at hc
    have hm := (good_has h n).mp hh
    cases placed with
    | true =>
      simp only [if_true, hm, Option.some.injEq] at hc
      subst hc
      exact ⟨fun _ => erase_eq_without ((h.perm.nodup_iff).mpr h.nodup), fun e => by simp at e, (if_pos hh).symm⟩
    | false =>
      simp only [Bool.false_eq_true, if_false, Option.some.injEq] at hc
      subst hc
      rw [if_pos hh, if_pos hh]
      exact ⟨fun e => by simp at e, fun _ => rfl, rfl⟩
  · rw [if_neg hh, Option.some.injEq] at hc
    subst hc
    rw [if_neg hh, if_neg hh]
    have hm : Slot.lay n ∉ c.items := fun e => hh ((good_has h n).mpr e)
    cases placed with
    | true => exact ⟨fun _ => (without_of_not_mem hm).symm, fun e => by simp at e, rfl⟩
    | false => exact ⟨fun e => by simp at e, fun _ => rfl, rfl⟩

/-- What a successful call does to the items of the canvas the layer belongs to. -/
def Placed (items items' : List Slot) (n : String) : Option String → Option String → Prop
  | none, none => items' = if Slot.lay n ∈ items then items else items ++ [.lay n]
  | some a, _ => ∃ pre post, items' = pre ++ .lay a :: .lay n :: post ∧ pre ++ .lay a :: post = without n items
  | none, some b => ∃ pre post, items' = pre ++ .lay n :: .lay b :: post ∧ pre ++ .lay b :: post = without n items

theorem position_spec {d : ℕ} {c c' : Node} {n : String} {a : List String} (h : position d c n a = (c', none)) :
    ∃ a', a = [a'] ∧ c.has a' = true ∧ c'.layers = c.layers ∧ insertNear d c.items (.lay a') (.lay n) = some c'.items := by
  unfold position at h
  match a with
  | [] => simp at h
  | _ :: _ :: _ => simp at h
  | [a'] =>
    simp only at h
    split at h
    · rename_i hh
      split at h
      · rename_i items hi
        simp only [Prod.mk.injEq, and_true] at h
        subst h
        exact ⟨a', rfl, hh, rfl, hi⟩
      · simp at h
    · simp at h

theorem layer1_spec {c c' : Node} (h : Good c) (n : String) (above below : Option (List String))
    (hb : ¬ (above.isSome && below.isSome) = true) (hc : layer1 c n above below = (c', none)) :
    (∃ a b, above = a.map (fun x => [x]) ∧ below = b.map (fun x => [x]) ∧ Placed c.items c'.items n a b) ∧
    c'.layers = if c.has n then c.layers else c.layers ++ [(n, .empty)] := by
  unfold layer1 at hc
  cases hp : prepare c n (above.isSome || below.isSome) with
  | none => rw [hp] at hc; simp at hc
  | some c1 =>
    rw [hp] at hc
    obtain ⟨h1, h2, h3⟩ := prepare_spec h n _ hp
    cases above with
    | some a =>
      cases below with
      | some b => simp at hb
      | none =>
        simp only at hc
        obtain ⟨a', rfl, -, hl, hi⟩ := position_spec hc
        obtain ⟨pre, post, e1, -, -, e3⟩ := insertNear_spec hi
        exact ⟨⟨some a', none, rfl, rfl, pre, post, e3 rfl, by rw [← e1]; exact h1 rfl⟩, by rw [hl, h3]⟩
    | none =>
      cases below with
      | some b =>
        simp only at hc
        obtain ⟨b', rfl, -, hl, hi⟩ := position_spec hc
        obtain ⟨pre, post, e1, -, e3, -⟩ := insertNear_spec hi
        exact ⟨⟨none, some b', rfl, rfl, pre, post, e3 rfl, by rw [← e1]; exact h1 rfl⟩, by rw [hl, h3]⟩
      | none =>
        simp only [Prod.mk.injEq, and_true] at hc
        subst hc
        refine ⟨⟨none, none, rfl, rfl, ?_⟩, h3⟩
        show c1.items = _
        rw [h2 rfl]
        by_cases hm : Slot.lay n ∈ c.items
        · rw [if_pos hm, if_pos ((good_has h n).mpr hm)]
        · rw [if_neg hm, if_neg fun e => hm ((good_has h n).mp e)]

theorem without_perm {c : Node} (h : Good c) (n : String) :
    (layNames (without n c.items)).Perm ((c.layers.map Prod.fst).filter (· ≠ n)) := by
  have : layNames (without n c.items) = (layNames c.items).filter (· ≠ n) := by
    unfold layNames without
    induction c.items with
    | nil => rfl
    | cons x l ih =>
      cases x with
      | other m => simpa using ih
      | lay m =>
        by_cases hm : m = n
        · subst hm; simpa using ih
        · have hne : Slot.lay m ≠ Slot.lay n := by simpa using hm
          rw [List.filter_cons_of_pos (by simpa using hm)]
          have e : ∀ l', layNames (Slot.lay m :: l') = m :: layNames l' := fun _ => rfl
          have ih : layNames (l.filter (· ≠ Slot.lay n)) = (layNames l).filter (· ≠ n) := ih
          show layNames (Slot.lay m :: _) = (layNames (Slot.lay m :: l)).filter _
          rw [e, e, List.filter_cons_of_pos (by simpa using hm), ih]
  rw [this]
  exact h.perm.filter _

theorem placed_good {c c' : Node} (h : Good c) {n : String} {a b : Option String}
    (hp : Placed c.items c'.items n a b)
    (hl : c'.layers = if c.has n then c.layers else c.layers ++ [(n, .empty)]) : Good c' := by
  have hn : (c'.layers.map Prod.fst).Nodup := by
    rw [hl]
    split
    · exact h.nodup
    · rename_i hh
      rw [has_iff] at hh
      rw [List.map_append, List.nodup_append]
      refine ⟨h.nodup, by simp, ?_⟩
      intro x hx y hy e
      simp at hy
      subst e hy
      exact hh hx
  have hs : ∀ k d, (k, d) ∈ c'.layers → Good d := by
    intro k d hd
    rw [hl] at hd
    split at hd
    · exact h.sub k d hd
    · rw [List.mem_append] at hd
      rcases hd with hd | hd
      · exact h.sub k d hd
      · simp at hd
        rw [hd.2]
        exact good_empty
  -- the names, `n` put somewhere
  have hkeys : ∀ l, l = without n c.items → (n :: layNames l).Perm (c'.layers.map Prod.fst) := by
    rintro l rfl
    refine ((without_perm h n).cons n).trans ?_
    rw [hl]
    by_cases hh : c.has n = true
    · rw [if_pos hh]
      rw [has_iff] at hh
      have e := List.perm_cons_erase hh
      refine List.Perm.trans ?_ e.symm
      rw [h.nodup.erase_eq_filter]
      refine List.Perm.of_eq ?_
      congr 1
      refine List.filter_congr fun x _ => ?_
      by_cases hx : x = n <;> simp [hx]
    · rw [if_neg hh]
      rw [has_iff] at hh
      rw [List.map_append, List.filter_eq_self.mpr]
      · exact (List.perm_append_singleton n _).symm
      · intro x hx
        simp only [ne_eq, decide_eq_true_eq]
        rintro rfl
        exact hh hx
  have hperm : (layNames c'.items).Perm (c'.layers.map Prod.fst) := by
    match a, b, hp with
    | none, none, hp =>
      have hp : c'.items = if Slot.lay n ∈ c.items then c.items else c.items ++ [.lay n] := hp
      rw [hp, hl]
      by_cases hm : Slot.lay n ∈ c.items
      · rw [if_pos hm, if_pos ((good_has h n).mpr hm)]
        exact h.perm
      · rw [if_neg hm, if_neg fun e => hm ((good_has h n).mp e), layNames_append, List.map_append]
        exact h.perm.append_right _
    | some a, _, ⟨pre, post, e1, e2⟩ =>
      refine List.Perm.trans ?_ (hkeys _ e2)
      rw [e1]
      have : (pre ++ Slot.lay a :: Slot.lay n :: post).Perm (Slot.lay n :: (pre ++ Slot.lay a :: post)) := by
        rw [show pre ++ Slot.lay a :: Slot.lay n :: post = (pre ++ [Slot.lay a]) ++ Slot.lay n :: post by simp,
          show pre ++ Slot.lay a :: post = (pre ++ [Slot.lay a]) ++ post by simp]
        exact List.perm_middle
      exact layNames_perm this
    | none, some b, ⟨pre, post, e1, e2⟩ =>
      refine List.Perm.trans ?_ (hkeys _ e2)
      rw [e1]
      exact layNames_perm List.perm_middle
  cases c' with
  | mk items layers => exact .mk items layers hn hperm hs

/-! ## Groups -/

theorem withGroup_spec {c : Node} (h : Good c) (g : String) : Good (withGroup c g) ∧
    (withGroup c g).items = (if Slot.lay g ∈ c.items then c.items else c.items ++ [.lay g]) ∧
    (∀ k, (withGroup c g).get? k = if k = g then some ((c.get? g).getD .empty) else c.get? k) := by
  have e : (withGroup c g).items = (if Slot.lay g ∈ c.items then c.items else c.items ++ [.lay g]) := by
    unfold withGroup
    by_cases hm : Slot.lay g ∈ c.items
    · rw [if_pos hm, if_pos ((good_has h g).mpr hm)]
    · rw [if_neg hm, if_neg fun e => hm ((good_has h g).mp e)]
      rfl
  refine ⟨?_, e, ?_⟩
  · refine placed_good (n := g) (a := none) (b := none) h e ?_
    unfold withGroup
    split <;> rfl
  · intro k
    unfold withGroup
    by_cases hh : c.has g = true
    · rw [if_pos hh]
      by_cases hk : k = g
      · subst hk
        obtain ⟨d, hd⟩ := Option.isSome_iff_exists.mp ((get?_isSome c k).mpr hh)
        rw [if_pos rfl, hd]
        rfl
      · rw [if_neg hk]
    · rw [if_neg hh]
      have hn : c.get? g = none := by
        rw [← Option.not_isSome_iff_eq_none, get?_isSome]; exact hh
      rw [hn]
      show (c.layers ++ [(g, Node.empty)]).lookup k = _
      rw [has_iff] at hh
      rw [lookup_append_new _ _ _ _ hh]
      rfl

theorem splitRef_ok {g : String} {r r' : Option (List String)} (h : splitRef g r = .ok r') :
    r = r'.map (fun x => g :: x) ∧ ∀ x, r' = some x → x ≠ [] := by
  match r with
  | none => simp only [splitRef, Except.ok.injEq] at h; subst h; simp
  | some [] => simp [splitRef] at h
  | some [_] => simp [splitRef] at h
  | some (x :: y :: t) =>
    simp only [splitRef] at h
    split at h
    · rename_i e
      simp only [Except.ok.injEq] at h
      subst h e
      simp
    · simp at h

theorem good_get {c d : Node} (h : Good c) {k : String} (hd : c.get? k = some d) : Good d :=
  h.sub k d (lookup_mem hd)

theorem good_set {c d : Node} (h : Good c) (k : String) (hd : Good d) : Good (.mk c.items (setKey c.layers k d)) := by
  refine .mk _ _ (by rw [setKey_keys]; exact h.nodup) (by rw [setKey_keys]; exact h.perm) ?_
  intro k' d' hm
  unfold setKey at hm
  rw [List.mem_map] at hm
  obtain ⟨x, hx, e⟩ := hm
  split at e
  · simp only [Prod.mk.injEq] at e
    rw [← e.2]; exact hd
  · subst e
    exact h.sub _ _ hx

/-- The two cases of a successful call. -/
theorem layer_cases {c c' : Node} {g m : String} {rest : List String} {above below : Option (List String)}
    (hc : layer c (g :: m :: rest) above below = (c', none)) :
    ∃ a b d', splitRef g above = .ok a ∧ splitRef g below = .ok b ∧
      layer (((withGroup c g).get? g).getD .empty) (m :: rest) a b = (d', none) ∧
      c' = .mk (withGroup c g).items (setKey (withGroup c g).layers g d') := by
  rw [layer] at hc
  split at hc
  · simp at hc
  · cases ha : splitRef g above with
    | error e => rw [ha] at hc; cases splitRef g below <;> simp at hc
    | ok a =>
      cases hb : splitRef g below with
      | error e => rw [ha, hb] at hc; simp at hc
      | ok b =>
        rw [ha, hb] at hc
        simp only [Prod.mk.injEq] at hc
        exact ⟨a, b, _, rfl, rfl, Prod.ext rfl hc.2, hc.1.symm⟩

/-- **C35.**  A successful call keeps every layer exactly once (at all levels), and the canvas returned
is the one of that name. -/
theorem layer_good {c c' : Node} (h : Good c) (name : List String) (above below : Option (List String))
    (hc : layer c name above below = (c', none)) : Good c' := by
  induction name generalizing c c' above below with
  | nil => simp [layer] at hc
  | cons g name ih =>
    cases name with
    | nil =>
      rw [layer] at hc
      split at hc
      · simp at hc
      · rename_i hb
        obtain ⟨⟨a, b, -, -, hp⟩, hl⟩ := layer1_spec h g above below hb hc
        exact placed_good h hp hl
    | cons m rest =>
      obtain ⟨a, b, d', -, -, hd, rfl⟩ := layer_cases hc
      obtain ⟨hg, -, hget⟩ := withGroup_spec h g
      refine good_set hg g (ih ?_ a b hd)
      rw [hget, if_pos rfl, Option.getD_some]
      cases hd' : c.get? g with
      | none => exact good_empty
      | some d => exact good_get h hd'

theorem set_get {c : Node} (g k : String) (d : Node) (hg : (c.get? g).isSome) :
    (Node.mk c.items (setKey c.layers g d)).get? k = if k = g then some d else c.get? k := by
  show (setKey c.layers g d).lookup k = _
  rw [setKey_lookup]
  obtain ⟨e, he⟩ := Option.isSome_iff_exists.mp hg
  have he : c.layers.lookup g = some e := he
  by_cases hk : k = g
  · rw [if_pos hk, if_pos hk, he]; rfl
  · rw [if_neg hk, if_neg hk]; rfl

/-- **C35.**  After a successful call `layer(p.n, above=p.a)` the items of the group `p` are those before
with `n` taken out and put immediately above `a`; all others keep their order.  Likewise for `below`.
Without placement an existing layer stays where it is and a new one is put on top. -/
theorem layer_placed {c c' : Node} (h : Good c) (p : List String) (n : String) (above below : Option (List String))
    (hc : layer c (p ++ [n]) above below = (c', none)) :
    ∃ a b d', above = a.map (fun x => p ++ [x]) ∧ below = b.map (fun x => p ++ [x]) ∧ c'.at p = some d' ∧
      Placed ((c.at p).getD .empty).items d'.items n a b := by
  induction p generalizing c c' above below with
  | nil =>
    rw [List.nil_append, layer] at hc
    split at hc
    · simp at hc
    · rename_i hb
      obtain ⟨⟨a, b, h1, h2, hp⟩, hl⟩ := layer1_spec h n above below hb hc
      exact ⟨a, b, c', h1, h2, rfl, hp⟩
  | cons g p ih =>
    obtain ⟨m, rest, e⟩ : ∃ m rest, p ++ [n] = m :: rest := by
      cases p with
      | nil => exact ⟨n, [], rfl⟩
      | cons x p => exact ⟨x, p ++ [n], rfl⟩
    rw [List.cons_append, e] at hc
    obtain ⟨a, b, d', ha, hb, hd, rfl⟩ := layer_cases hc
    obtain ⟨hg, -, hget⟩ := withGroup_spec h g
    have hgg : (withGroup c g).get? g = some ((c.get? g).getD .empty) := by rw [hget, if_pos rfl]
    rw [hgg, Option.getD_some, ← e] at hd
    have hgood : Good ((c.get? g).getD .empty) := by
      cases hd' : c.get? g with
      | none => exact good_empty
      | some d => exact good_get h hd'
    obtain ⟨a', b', d'', h1, h2, h3, h4⟩ := ih hgood a b hd
    refine ⟨a', b', d'', ?_, ?_, ?_, ?_⟩
    · rw [(splitRef_ok ha).1, h1]; cases a' <;> rfl
    · rw [(splitRef_ok hb).1, h2]; cases b' <;> rfl
    · rw [Node.at, set_get _ _ _ (by rw [hgg]; rfl), if_pos rfl]
      exact h3
    · rw [Node.at]
      cases hd' : c.get? g with
      | none =>
        rw [hd'] at h4
        have : (Node.empty.at p).getD Node.empty = Node.empty := by cases p <;> rfl
        rw [Option.getD_none, this] at h4
        exact h4
      | some d => rw [hd'] at h4; exact h4

/-- **C35.**  All other canvases of the hierarchy are untouched: those which are not on the way to the
layer stay the same. -/
theorem layer_frame {c c' : Node} (h : Good c) (name q : List String) (above below : Option (List String))
    (hc : layer c name above below = (c', none)) (hq : ¬ q <+: name) : c'.at q = c.at q := by
  induction name generalizing c c' above below q with
  | nil => simp [layer] at hc
  | cons g name ih =>
    cases q with
    | nil => exact absurd List.nil_prefix hq
    | cons k q =>
      rw [List.cons_prefix_cons] at hq
      cases name with
      | nil =>
        rw [layer] at hc
        split at hc
        · simp at hc
        · rename_i hb
          obtain ⟨-, hl⟩ := layer1_spec h g above below hb hc
          have hkey : c'.get? k = if c.has g then c.get? k else if k = g then some .empty else c.get? k := by
            show c'.layers.lookup k = _
            rw [hl]
            split
            · rfl
            · rename_i hh
              rw [has_iff] at hh
              rw [lookup_append_new _ _ _ _ hh]
              rfl
          rw [Node.at, Node.at, hkey]
          split
          · rfl
          · split
            · rename_i hh e
              subst e
              have hq' : q ≠ [] := fun e => hq ⟨rfl, by rw [e]⟩
              have hn : c.get? k = none := by
                rw [← Option.not_isSome_iff_eq_none, get?_isSome]; exact hh
              rw [hn]
              cases q with
              | nil => exact absurd rfl hq'
              | cons x q => rfl
            · rfl
      | cons m rest =>
        obtain ⟨a, b, d', ha, hb, hd, rfl⟩ := layer_cases hc
        obtain ⟨hg, -, hget⟩ := withGroup_spec h g
        have hgg : (withGroup c g).get? g = some ((c.get? g).getD .empty) := by rw [hget, if_pos rfl]
        rw [hgg, Option.getD_some] at hd
        rw [Node.at, set_get _ _ _ (by rw [hgg]; rfl)]
        by_cases hk : k = g
        · subst hk
          rw [if_pos rfl, Option.bind_some]
          have hgood : Good ((c.get? k).getD .empty) := by
            cases hd' : c.get? k with
            | none => exact good_empty
            | some d => exact good_get h hd'
          have hq' : ¬ q <+: m :: rest := fun e => hq ⟨rfl, e⟩
          rw [ih hgood q a b hd hq', Node.at]
          cases hd' : c.get? k with
          | none =>
            cases q with
            | nil => exact absurd List.nil_prefix hq'
            | cons x q => rfl
          | some d => rfl
        · rw [if_neg hk, hget, if_neg hk]
          rfl

/-- **C35.**  The layer itself keeps its content; a new one is empty. -/
theorem layer_content {c c' : Node} (h : Good c) (name : List String) (above below : Option (List String))
    (hc : layer c name above below = (c', none)) : c'.at name = some ((c.at name).getD .empty) := by
  induction name generalizing c c' above below with
  | nil => simp [layer] at hc
  | cons g name ih =>
    cases name with
    | nil =>
      rw [layer] at hc
      split at hc
      · simp at hc
      · rename_i hb
        obtain ⟨-, hl⟩ := layer1_spec h g above below hb hc
        have hat : ∀ d : Node, d.at [g] = d.get? g := fun d => by
          rw [Node.at]; cases d.get? g <;> rfl
        rw [hat, hat]
        show c'.layers.lookup g = some ((c.get? g).getD .empty)
        rw [hl]
        split
        · rename_i hh
          obtain ⟨d, hd⟩ := Option.isSome_iff_exists.mp ((get?_isSome c g).mpr hh)
          rw [hd]
          exact hd
        · rename_i hh
          have hn : c.get? g = none := by
            rw [← Option.not_isSome_iff_eq_none, get?_isSome]; exact hh
          rw [has_iff] at hh
          rw [lookup_append_new _ _ _ _ hh, if_pos rfl, hn]
          rfl
    | cons m rest =>
      obtain ⟨a, b, d', ha, hb, hd, rfl⟩ := layer_cases hc
      obtain ⟨hg, -, hget⟩ := withGroup_spec h g
      have hgg : (withGroup c g).get? g = some ((c.get? g).getD .empty) := by rw [hget, if_pos rfl]
      rw [hgg, Option.getD_some] at hd
      rw [Node.at, set_get _ _ _ (by rw [hgg]; rfl), if_pos rfl, Option.bind_some]
      have hgood : Good ((c.get? g).getD .empty) := by
        cases hd' : c.get? g with
        | none => exact good_empty
        | some d => exact good_get h hd'
      rw [ih hgood a b hd]
      have e : c.at (g :: m :: rest) = (c.get? g).bind fun d => d.at (m :: rest) := rfl
      rw [e]
      cases hd' : c.get? g with
      | none => rfl
      | some d => rfl

/-- **C35.**  The canvases on the way to the group: their items stay the same, with a missing subgroup put
on top. -/
theorem layer_ancestors {c c' : Node} (h : Good c) (q : List String) (g m : String) (rest : List String)
    (above below : Option (List String)) (hc : layer c (q ++ g :: m :: rest) above below = (c', none)) :
    ∃ d', c'.at q = some d' ∧
      Placed ((c.at q).getD .empty).items d'.items g none none := by
  induction q generalizing c c' above below with
  | nil =>
    obtain ⟨a, b, d', ha, hb, hd, rfl⟩ := layer_cases hc
    obtain ⟨hg, hi, hget⟩ := withGroup_spec h g
    exact ⟨_, rfl, hi⟩
  | cons k q ih =>
    obtain ⟨x, r, e⟩ : ∃ x r, q ++ g :: m :: rest = x :: r := by
      cases q with
      | nil => exact ⟨g, m :: rest, rfl⟩
      | cons x q => exact ⟨x, q ++ g :: m :: rest, rfl⟩
    rw [List.cons_append, e] at hc
    obtain ⟨a, b, d', ha, hb, hd, rfl⟩ := layer_cases hc
    obtain ⟨hg, -, hget⟩ := withGroup_spec h k
    have hgg : (withGroup c k).get? k = some ((c.get? k).getD .empty) := by rw [hget, if_pos rfl]
    rw [hgg, Option.getD_some, ← e] at hd
    have hgood : Good ((c.get? k).getD .empty) := by
      cases hd' : c.get? k with
      | none => exact good_empty
      | some d => exact good_get h hd'
    obtain ⟨d'', h3, h4⟩ := ih hgood a b hd
    refine ⟨d'', ?_, ?_⟩
    · rw [Node.at, set_get _ _ _ (by rw [hgg]; rfl), if_pos rfl]
      exact h3
    · rw [Node.at]
      cases hd' : c.get? k with
      | none =>
        rw [hd'] at h4
        have : (Node.empty.at q).getD Node.empty = Node.empty := by cases q <;> rfl
        rw [Option.getD_none, this] at h4
        exact h4
      | some d => rw [hd'] at h4; exact h4

/-! ## Histories -/

theorem insertAt_good {c : Node} (h : Good c) (p : List String) (n : ℕ) : Good (insertAt c p n) := by
  induction p generalizing c with
  | nil =>
    rw [insertAt]
    refine .mk _ _ h.nodup ?_ h.sub
    rw [layNames_append]
    simpa [layNames] using h.perm
  | cons k p ih =>
    rw [insertAt]
    cases hd : c.get? k with
    | none => exact h
    | some d => exact good_set h k (ih (good_get h hd))

/-- Canvases made by successful calls of `layer` and by inserting items. -/
inductive Made : Node → Prop
  | empty : Made .empty
  | layer {c c' : Node} (name : List String) (above below : Option (List String)) (h : Made c)
      (hc : layer c name above below = (c', none)) : Made c'
  | insert {c : Node} (p : List String) (n : ℕ) (h : Made c) : Made (insertAt c p n)

/-- **C35.**  After any history of successful calls and insertions every layer is exactly once among the
items of its canvas, at all levels. -/
theorem made_good {c : Node} (h : Made c) : Good c := by
  induction h with
  | empty => exact good_empty
  | layer name above below _ hc ih => exact layer_good ih name above below hc
  | insert p n _ ih => exact insertAt_good ih p n

/-- When a call without dots succeeds: the reference is another existing layer. -/
theorem layer_ok_iff {c : Node} (h : Good c) (n a : String) :
    (layer c [n] (some [a]) none).2 = none ↔ c.has a = true ∧ a ≠ n := by
  have key : ∀ c1, prepare c n true = some c1 →
      ((position 1 c1 n [a]).2 = none ↔ c1.has a = true ∧ Slot.lay a ∈ c1.items) := by
    intro c1 _
    unfold position insertNear
    by_cases h1 : c1.has a = true
    · by_cases h2 : Slot.lay a ∈ c1.items <;> simp [h1, h2]
    · simp [h1]
  have hp : ∃ c1, prepare c n true = some c1 := by
    unfold prepare
    by_cases hh : c.has n = true
    · rw [if_pos hh, if_pos rfl, if_pos ((good_has h n).mp hh)]; exact ⟨_, rfl⟩
    · rw [if_neg hh]; exact ⟨_, rfl⟩
  obtain ⟨c1, hc1⟩ := hp
  obtain ⟨e1, -, e3⟩ := prepare_spec h n true hc1
  have : layer c [n] (some [a]) none = position 1 c1 n [a] := by
    rw [layer]
    simp only [Option.isSome_some, Option.isSome_none, Bool.and_false, Bool.false_eq_true, if_false]
    unfold layer1
    simp only [Option.isSome_some, Option.isSome_none, Bool.or_false, hc1]
  rw [this, key c1 hc1, e1 rfl]
  constructor
  · rintro ⟨-, hm⟩
    unfold without at hm
    rw [List.mem_filter] at hm
    refine ⟨(good_has h a).mpr hm.1, ?_⟩
    simpa using hm.2
  · rintro ⟨h1, h2⟩
    have hm := (good_has h a).mp h1
    refine ⟨?_, ?_⟩
    · rw [has_iff, e3]
      rw [has_iff] at h1
      split
      · exact h1
      · rw [List.map_append, List.mem_append]; exact Or.inl h1
    · unfold without
      rw [List.mem_filter]
      exact ⟨hm, by simpa using h2⟩

/-! ## Examples -/

/-- Layers `a`, `b`, then `c` below `b`, then `a` above `c`; in between an item. -/
def ex1 : Node := (layer .empty ["a"] none none).1
def ex2 : Node := (layer (insertAt ex1 [] 7) ["b"] none none).1
def ex3 : Node := (layer ex2 ["c"] none (some ["b"])).1
def ex4 : Node := (layer ex3 ["a"] (some ["c"]) none).1
def ex5 : Node := (layer ex4 ["g", "x"] none none).1
def ex6 : Node := (layer ex5 ["g", "y"] none (some ["g", "x"])).1

example : ex3.items = [.lay "a", .other 7, .lay "c", .lay "b"] ∧
    ex4.items = [.other 7, .lay "c", .lay "a", .lay "b"] ∧
    ex6.items = [.other 7, .lay "c", .lay "a", .lay "b", .lay "g"] ∧
    ((ex6.get? "g").map Node.items) = some [.lay "y", .lay "x"] := by decide +kernel

theorem ex4_good : Good ex4 := by
  refine made_good (.layer (c := ex3) ["a"] (some ["c"]) none (.layer (c := ex2) ["c"] none (some ["b"])
    (.layer (c := insertAt ex1 [] 7) ["b"] none none (.insert [] 7 (.layer (c := .empty) ["a"] none none .empty ?_)) ?_)
    ?_) ?_) <;> rfl

/-! ## Failing calls -/

/-- The full statement: a failing call leaves the items and layers unchanged. -/
def FailingUnchanged : Prop :=
  ∀ (c c' : Node) (name : List String) (above below : Option (List String)) (e : Err), Made c →
    layer c name above below = (c', some e) → c'.items = c.items ∧ c'.layers.map Prod.fst = c.layers.map Prod.fst

/-- An existing layer to be placed above an unknown one is taken out before the error is noticed
(`pyx/canvas.py:306,315`): it is not drawn any more. -/
theorem failing_call_loses_layer : ¬ FailingUnchanged := by
  intro h
  have := h ex4 (layer ex4 ["a"] (some ["unknown"]) none).1 ["a"] (some ["unknown"]) none .key ?_ rfl
  · exact absurd this.1 (by decide +kernel)
  · refine .layer (c := ex3) ["a"] (some ["c"]) none (.layer (c := ex2) ["c"] none (some ["b"])
      (.layer (c := insertAt ex1 [] 7) ["b"] none none (.insert [] 7 (.layer (c := .empty) ["a"] none none .empty ?_)) ?_)
      ?_) ?_ <;> rfl

/-- A layer placed above itself is lost as well. -/
theorem above_itself_loses_layer : (layer ex4 ["a"] (some ["a"]) none).2 = some .value ∧
    Slot.lay "a" ∉ (layer ex4 ["a"] (some ["a"]) none).1.items := by decide +kernel

/-- A new layer with an unknown reference is registered but not drawn, and a later call for it, without a
placement, returns a canvas which is not part of the picture. -/
theorem failing_call_hides_layer :
    (layer ex4 ["z"] (some ["unknown"]) none).2 = some .key ∧
    (layer (layer ex4 ["z"] (some ["unknown"]) none).1 ["z"] none none).2 = none ∧
    (layer (layer ex4 ["z"] (some ["unknown"]) none).1 ["z"] none none).1.has "z" = true ∧
    Slot.lay "z" ∉ (layer (layer ex4 ["z"] (some ["unknown"]) none).1 ["z"] none none).1.items := by
  decide +kernel

/-- What holds: giving both `above` and `below` changes nothing. -/
theorem failing_unchanged_partial (c : Node) (name a b : List String) :
    layer c name (some a) (some b) = (c, some .value) := by
  match name with
  | [] => rfl
  | [_] => rfl
  | _ :: _ :: _ => rfl

end PyX.Layer
