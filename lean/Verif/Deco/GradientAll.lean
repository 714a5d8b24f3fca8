import Verif.Deco.Gradient

/-!
# C158: gradients along paths with several sub-paths (`deco.colorgradient`, `pyx/deco.py:888-912`)

The parameters of the places are pairs of the index of a sub-path and a parameter in it, in lexical order.
-/

set_option linter.unusedSectionVars false
set_option linter.unusedSimpArgs false

noncomputable section

namespace PyX.Deco.Gradient

open PyX.NormPath PyX.NormPath.Sub

variable {roots : ℝ → ℝ → ℝ → ℝ → List ℝ} {eps : Option ℝ} {n : ℕ}
variable {C : Type}

/-! ## Specification -/

/-- The place at which the color `k` starts: that of the step before, `none` is the begin of the path. -/
def start (param : ℝ → ℕ × ℝ) (length : ℝ) (steps k : ℕ) : Option (ℕ × ℝ) := if k = 0 then none else some (param (length * (k - 1 : ℕ) / steps))

/-- The place at which the color `k` stops, `none` is the end of the path. -/
def stop (param : ℝ → ℕ × ℝ) (length : ℝ) (steps k : ℕ) : Option (ℕ × ℝ) := if k + 1 = steps then none else some (param (length * (k + 1 : ℕ) / steps))

/-- The stretch of a path from `a` to `b`, in either direction. -/
def Along (roots : ℝ → ℝ → ℝ → ℝ → List ℝ) (eps : Option ℝ) (n : ℕ) (subs : List Sub) (a b : Option (ℕ × ℝ)) (piece : List Sub) : Prop :=
  Stretch roots eps n subs a b piece ∨ ∃ p q, a = some p ∧ b = some q ∧ Stretch roots eps n subs (some q) (some p) piece

/-- A place is between two others. -/
def Between (a b : Option (ℕ × ℝ)) (w : ℕ × ℝ) : Prop := (∀ p, a = some p → toLex p ≤ toLex w) ∧ ∀ q, b = some q → toLex w ≤ toLex q

/-! ## Proofs -/

/-- **C158**, several open sub-paths, in painting order: one stroke for each color, the last color first. -/
theorem gradient_strokes_subs (subs : List Sub) (hsubs : ∀ s ∈ subs, s.closed = false ∧ s.items ≠ []) (length : ℝ) (param : ℝ → ℕ × ℝ) (select : ℕ → ℕ → C) (steps : ℕ) (S : List (List Sub × C))
    (h : decorate roots eps n subs length param select steps = .ok S) :
    S.length = steps ∧ 2 ≤ steps ∧ ∀ k < steps, ∃ piece, S[steps - 1 - k]? = some (piece, select k steps) ∧ Along roots eps n subs (start param length steps k) (stop param length steps k) piece := by
  unfold decorate at h
  dsimp only at h
  generalize hP : ((List.range steps).map fun i : ℕ => param (length * i / steps)).reverse = P at h
  generalize hC : ((List.range steps).map fun k => select k steps).reverse = Co at h
  have gP : ∀ i p, P[i]? = some p → i < steps ∧ p = param (length * (steps - 1 - i : ℕ) / steps) := fun i p hp => by
    rw [← hP] at hp
    exact reversed_get (fun i : ℕ => param (length * i / steps)) steps i p hp
  have gC : ∀ i c, Co[i]? = some c → i < steps ∧ c = select (steps - 1 - i) steps := fun i c hc => by
    rw [← hC] at hc
    exact reversed_get _ steps i c hc
  cases h1 : item P 1 with
  | error e => rw [h1] at h; simp at h
  | ok p1 =>
  cases h2 : item Co 0 with
  | error e => rw [h1, h2] at h; simp at h
  | ok c0 =>
  cases h3 : item P (steps - 2) with
  | error e => rw [h1, h2, h3] at h; simp at h
  | ok pm =>
  cases h4 : item Co (steps - 1) with
  | error e => rw [h1, h2, h3, h4] at h; simp at h
  | ok cm =>
  rw [h1, h2, h3, h4] at h
  dsimp only at h
  cases h5 : stroke roots eps n subs [p1] 1 c0 with
  | error e => rw [h5] at h; simp at h
  | ok s =>
  rw [h5] at h
  dsimp only at h
  cases h6 : middle roots eps n subs P Co (steps - 2) 1 with
  | error e => rw [h6] at h; simp at h
  | ok l =>
  rw [h6] at h
  dsimp only at h
  cases h7 : stroke roots eps n subs [pm] 0 cm with
  | error e => rw [h7] at h; simp at h
  | ok s' =>
  rw [h7] at h
  simp only [Except.ok.injEq] at h
  subst h
  obtain ⟨m1, m2⟩ := middle_ok _ _ _ h6
  obtain ⟨hs2, rfl⟩ := gP _ _ (item_ok h1)
  obtain ⟨_, rfl⟩ := gC _ _ (item_ok h2)
  obtain ⟨_, rfl⟩ := gP _ _ (item_ok h3)
  obtain ⟨_, rfl⟩ := gC _ _ (item_ok h4)
  refine ⟨by simp [m1]; omega, by omega, fun k hk => ?_⟩
  by_cases hk0 : k + 1 = steps
  · -- the last color is stroked first
    obtain ⟨ps, q1, q2, q3⟩ := stroke_ok h5
    have hs := (split_stretches subs hsubs _ ps q1).2 1 s.1 q2
    refine ⟨s.1, ?_, Or.inl ?_⟩
    · have e : steps - 1 - k = 0 := by omega
      rw [e, List.getElem?_cons_zero]
      have e : steps - 1 - 0 = k := by omega
      rw [e] at q3
      rw [← q3]
    · refine hs.congr ?_ ?_
      · rw [start, if_neg (by omega)]
        simp only [before, one_ne_zero, if_false, Nat.sub_self, List.getElem?_cons_zero]
        congr 5
        omega
      · rw [stop, if_pos hk0]
        rfl
  · by_cases hk1 : k = 0
    · -- the first color is stroked last
      subst hk1
      obtain ⟨ps, q1, q2, q3⟩ := stroke_ok h7
      have hs := (split_stretches subs hsubs _ ps q1).2 0 s'.1 q2
      refine ⟨s'.1, ?_, Or.inl ?_⟩
      · have e : steps - 1 - 0 = (steps - 2) + 1 := by omega
        rw [e, List.getElem?_cons_succ, List.getElem?_append_right (by omega), m1]
        simp only [Nat.sub_self, List.getElem?_cons_zero]
        rw [show steps - 1 - (steps - 1) = 0 by omega] at q3
        rw [← q3]
      · refine hs.congr ?_ ?_
        · rw [start, if_pos rfl]
          rfl
        · rw [stop, if_neg hk0, List.getElem?_cons_zero]
          congr 5
          omega
    · -- the colors between
      have hlt : steps - 2 - k < l.length := by rw [m1]; omega
      obtain ⟨p, q, co, e1, e2, e3, e4⟩ := m2 (steps - 2 - k) l[steps - 2 - k] (List.getElem?_eq_getElem hlt)
      obtain ⟨ps, q1, q2, q3⟩ := stroke_ok e4
      obtain ⟨_, rfl⟩ := gP _ _ e1
      obtain ⟨_, rfl⟩ := gP _ _ e2
      obtain ⟨_, rfl⟩ := gC _ _ e3
      have hs := (split_stretches subs hsubs _ ps q1).2 1 _ q2
      refine ⟨l[steps - 2 - k].1, ?_, Or.inr ⟨_, _, by rw [start, if_neg hk1], by rw [stop, if_neg hk0], ?_⟩⟩
      · have e : steps - 1 - k = (steps - 2 - k) + 1 := by omega
        rw [e, List.getElem?_cons_succ, List.getElem?_append_left hlt, List.getElem?_eq_getElem hlt]
        rw [show steps - 1 - (1 + (steps - 2 - k)) = k by omega] at q3
        rw [← q3]
      · refine hs.congr ?_ ?_
        · simp only [before, one_ne_zero, if_false, Nat.sub_self, List.getElem?_cons_zero]
          rw [show steps - 1 - (1 + (steps - 2 - k) - 1) = k + 1 by omega]
        · simp only [List.getElem?_cons_succ, List.getElem?_cons_zero]
          rw [show steps - 1 - (1 + (steps - 2 - k) + 1) = k - 1 by omega]

/-- **C158**, several open sub-paths. At each place, the color seen is that of the step in which the place is: one stroke of this color is between places around it, and all strokes painted later are
elsewhere. -/
theorem gradient_visible_subs (subs : List Sub) (hsubs : ∀ s ∈ subs, s.closed = false ∧ s.items ≠ []) (length : ℝ) (hlen : 0 < length) (param : ℝ → ℕ × ℝ)
    (hparam : StrictMono fun x => toLex (param x)) (select : ℕ → ℕ → C) (steps : ℕ) (S : List (List Sub × C)) (h : decorate roots eps n subs length param select steps = .ok S)
    (j : ℕ) (hj : j < steps) (x : ℝ) (hx : length * j / steps < x) (hx' : x ≤ length * (j + 1) / steps) :
    (∃ piece a b, S[steps - 1 - j]? = some (piece, select j steps) ∧ Along roots eps n subs a b piece ∧ Between a b (param x)) ∧
    ∀ i, steps - 1 - j < i → i < S.length → ∃ piece a b co, S[i]? = some (piece, co) ∧ Along roots eps n subs a b piece ∧ ¬ Between a b (param x) := by
  obtain ⟨h1, h2, h3⟩ := gradient_strokes_subs subs hsubs length param select steps S h
  have hs : (0 : ℝ) < steps := by exact_mod_cast (by omega : 0 < steps)
  constructor
  · obtain ⟨piece, g1, g2⟩ := h3 j hj
    refine ⟨piece, _, _, g1, g2, fun p hp => ?_, fun q hq => ?_⟩
    · unfold start at hp
      split at hp
      · cases hp
      · cases hp
        refine hparam.monotone (le_trans ?_ hx.le)
        gcongr
        omega
    · unfold stop at hq
      split at hq
      · cases hq
      · cases hq
        refine hparam.monotone ?_
        exact_mod_cast hx'
  · intro i hi1 hi2
    obtain ⟨piece, g1, g2⟩ := h3 (steps - 1 - i) (by omega)
    rw [show steps - 1 - (steps - 1 - i) = i by omega] at g1
    refine ⟨piece, _, _, _, g1, g2, fun hb => ?_⟩
    have := hb.2 _ (by rw [stop, if_neg (by omega)])
    refine absurd (hparam (lt_of_le_of_lt ?_ hx)) (not_lt.mpr this)
    gcongr
    omega

/-- Every place of a sub-path is on it. -/
theorem whole_covers (s : Sub) (hi : s.items ≠ []) (t : ℝ) (h0 : 0 ≤ t) (h1 : t ≤ s.items.length) : ∃ p, PointAt s.items t p ∧ Points s.items p := by
  have hw := way_forward s.items s.items.length 0 s.items.length (Nat.zero_le _) le_rfl le_rfl
  simp only [List.take_length, List.drop_zero, Nat.cast_zero] at hw
  obtain ⟨part, hp, x, hx0, hx1, hpt⟩ := hw.covers hi t (Or.inl ⟨h0, h1⟩)
  exact ⟨_, hpt, part, hp, x, hx0, hx1, rfl⟩

/-- Every place between the ends of a piece is on it, without epsilon. -/
theorem piece_covers (items : List (Item ℝ)) (a b : ℝ) (c : Sub) (h : Piece roots none n items a b c) (t : ℝ) (ht : a ≤ t ∧ t ≤ b ∨ b ≤ t ∧ t ≤ a) : ∃ p, PointAt items t p ∧ Points c.items p := by
  obtain ⟨hne, hway, _, _⟩ := h.way roots n items a b c
  obtain ⟨part, hp, x, hx0, hx1, hpt⟩ := hway.covers hne t ht
  exact ⟨_, hpt, part, hp, x, hx0, hx1, rfl⟩

theorem forall₂_mem {α β : Type} {R : α → β → Prop} {l : List α} {m : List β} (h : List.Forall₂ R l m) {x : α} (hx : x ∈ l) : ∃ y ∈ m, R x y := by
  induction h with
  | nil => simp at hx
  | cons h _ ih =>
    rcases List.mem_cons.mp hx with rfl | hx
    · exact ⟨_, by simp, h⟩
    · obtain ⟨y, hy, hr⟩ := ih hx
      exact ⟨y, by simp [hy], hr⟩

/-- What is painted contains every place between its ends, without epsilon. -/
theorem along_covers (subs : List Sub) (hsubs : ∀ s ∈ subs, s.closed = false ∧ s.items ≠ []) (a b : Option (ℕ × ℝ)) (piece : List Sub) (h : Along roots none n subs a b piece) (w : ℕ × ℝ)
    (hb : Between a b w) (sub : Sub) (hget : subs[w.1]? = some sub) (h0 : 0 ≤ w.2) (h1 : w.2 ≤ sub.items.length) :
    ∃ c ∈ piece, ∃ p, PointAt sub.items w.2 p ∧ Points c.items p := by
  have hsub := (hsubs sub (List.mem_of_getElem? hget)).2
  have low : ∀ p, a = some p → p.1 < w.1 ∨ p.1 = w.1 ∧ p.2 ≤ w.2 := fun p hp => (Prod.Lex.le_iff.mp (hb.1 p hp))
  have high : ∀ q, b = some q → w.1 < q.1 ∨ w.1 = q.1 ∧ w.2 ≤ q.2 := fun q hq => (Prod.Lex.le_iff.mp (hb.2 q hq))
  have same : ∀ {i s}, subs[i]? = some s → i = w.1 → s = sub := fun {i s} hs hi => by
    rw [hi, hget] at hs
    exact (Option.some.inj hs).symm
  have inner : ∀ i j, i < w.1 → w.1 < j → sub ∈ (subs.take j).drop (i + 1) := fun i j hi hj => by
    rw [List.mem_drop_iff_getElem]
    have hw := (List.getElem?_eq_some_iff.mp hget)
    obtain ⟨hw1, hw2⟩ := hw
    refine ⟨w.1 - (i + 1), by simp; omega, ?_⟩
    simp only [List.getElem_take]
    rw [← hw2]
    congr 1
    omega
  rcases h with h | ⟨p, q, rfl, rfl, h⟩
  · cases a with
    | none =>
      cases b with
      | none =>
        have h : piece = subs := h
        subst h
        exact ⟨sub, List.mem_of_getElem? hget, whole_covers sub hsub w.2 h0 h1⟩
      | some q =>
        obtain ⟨s, c, g1, g2, rfl⟩ := h
        rcases high q rfl with hq | ⟨hq, hq'⟩
        · refine ⟨sub, List.mem_append_left _ ?_, whole_covers sub hsub w.2 h0 h1⟩
          refine List.mem_of_getElem? (i := w.1) ?_
          rw [List.getElem?_take_of_lt hq, hget]
        · obtain rfl := same g1 hq.symm
          exact ⟨c, by simp, piece_covers _ _ _ c g2 w.2 (Or.inl ⟨h0, hq'⟩)⟩
    | some p =>
      cases b with
      | none =>
        obtain ⟨s, c, g1, g2, rfl⟩ := h
        rcases low p rfl with hp | ⟨hp, hp'⟩
        · refine ⟨sub, List.mem_cons_of_mem _ ?_, whole_covers sub hsub w.2 h0 h1⟩
          refine List.mem_of_getElem? (i := w.1 - (p.1 + 1)) ?_
          rw [List.getElem?_drop, ← hget]
          congr 1
          omega
        · obtain rfl := same g1 hp
          exact ⟨c, by simp, piece_covers _ _ _ c g2 w.2 (Or.inl ⟨hp', h1⟩)⟩
      | some q =>
        rcases h with ⟨e, s, c, g1, g2, rfl⟩ | ⟨e, s, s', c, c', g1, g2, g3, g4, rfl⟩ | ⟨e, -⟩
        · rcases low p rfl with hp | ⟨hp, hp'⟩
          · rcases high q rfl with hq | ⟨hq, -⟩ <;> omega
          · rcases high q rfl with hq | ⟨hq, hq'⟩
            · omega
            · obtain rfl := same g1 hp
              exact ⟨c, by simp, piece_covers _ _ _ c g2 w.2 (Or.inl ⟨hp', hq'⟩)⟩
        · rcases low p rfl with hp | ⟨hp, hp'⟩
          · rcases high q rfl with hq | ⟨hq, hq'⟩
            · exact ⟨sub, List.mem_cons_of_mem _ (List.mem_append_left _ (inner _ _ hp hq)), whole_covers sub hsub w.2 h0 h1⟩
            · obtain rfl := same g2 hq.symm
              exact ⟨c', by simp, piece_covers _ _ _ c' g4 w.2 (Or.inl ⟨h0, hq'⟩)⟩
          · obtain rfl := same g1 hp
            exact ⟨c, by simp, piece_covers _ _ _ c g3 w.2 (Or.inl ⟨hp', h1⟩)⟩
        · rcases low p rfl with hp | ⟨hp, -⟩ <;> rcases high q rfl with hq | ⟨hq, -⟩ <;> omega
  · rcases h with ⟨e, s, c, g1, g2, rfl⟩ | ⟨e, -⟩ | ⟨e, s, s', c, c', mid, g1, g2, g3, g4, g5, rfl⟩
    · rcases low p rfl with hp | ⟨hp, hp'⟩
      · rcases high q rfl with hq | ⟨hq, -⟩ <;> omega
      · rcases high q rfl with hq | ⟨hq, hq'⟩
        · omega
        · obtain rfl := same g1 hq.symm
          exact ⟨c, by simp, piece_covers _ _ _ c g2 w.2 (Or.inr ⟨hp', hq'⟩)⟩
    · rcases low p rfl with hp | ⟨hp, -⟩ <;> rcases high q rfl with hq | ⟨hq, -⟩ <;> omega
    · rcases high q rfl with hq | ⟨hq, hq'⟩
      · rcases low p rfl with hp | ⟨hp, hp'⟩
        · obtain ⟨c, hc, hp⟩ := forall₂_mem g5 (List.mem_reverse.mpr (inner _ _ hp hq))
          exact ⟨c, by simp [hc], piece_covers _ _ _ c hp w.2 (Or.inr ⟨h0, h1⟩)⟩
        · obtain rfl := same g2 hp
          exact ⟨c', by simp, piece_covers _ _ _ c' g4 w.2 (Or.inr ⟨hp', h1⟩)⟩
      · obtain rfl := same g1 hq.symm
        exact ⟨c, by simp, piece_covers _ _ _ c g3 w.2 (Or.inr ⟨h0, hq'⟩)⟩

theorem stroke_works_subs (subs : List Sub) (hsubs : ∀ s ∈ subs, s.closed = false ∧ s.items ≠ []) (hn : 0 < n) (params : List (ℕ × ℝ)) (hp : ∀ p ∈ params, p.1 < subs.length) (i : ℕ)
    (h : i < params.length + 1) (color : C) : ∃ s, stroke roots none n subs params i color = .ok s := by
  obtain ⟨ps, hps⟩ := split_none (roots := roots) (n := n) subs hsubs params hp hn
  have hlen := (split_stretches subs hsubs params ps hps).1
  unfold stroke item
  rw [hps]
  dsimp only
  rw [List.getElem?_eq_getElem (by omega)]
  exact ⟨_, rfl⟩

theorem middle_works_subs (subs : List Sub) (hsubs : ∀ s ∈ subs, s.closed = false ∧ s.items ≠ []) (hn : 0 < n) (f : ℕ → ℕ × ℝ) (hf : ∀ i, (f i).1 < subs.length) (g : ℕ → C) (steps : ℕ) :
    ∀ (k m : ℕ) (_ : 1 ≤ m) (_ : m + k < steps), ∃ l, middle roots none n subs ((List.range steps).map f).reverse ((List.range steps).map g).reverse k m = .ok l
  | 0, m, _, _ => ⟨[], rfl⟩
  | k + 1, m, h1, h2 => by
    rw [middle, item_works _ _ _ (by omega), item_works _ _ _ (by omega), item_works _ _ _ (by omega)]
    dsimp only
    obtain ⟨s, hs⟩ := stroke_works_subs (roots := roots) subs hsubs hn [f (steps - 1 - (m - 1)), f (steps - 1 - (m + 1))] (by simp [hf]) 1 (by simp) (g (steps - 1 - m))
    obtain ⟨l, hl⟩ := middle_works_subs subs hsubs hn f hf g steps k (m + 1) (by omega) (by omega)
    rw [hs, hl]
    exact ⟨_, rfl⟩

/-- **C158**, it works: without epsilon, every path of open sub-paths can be drawn in two or more colors. -/
theorem gradient_works_subs (subs : List Sub) (hsubs : ∀ s ∈ subs, s.closed = false ∧ s.items ≠ []) (hn : 0 < n) (length : ℝ) (param : ℝ → ℕ × ℝ) (hparam : ∀ x, (param x).1 < subs.length)
    (select : ℕ → ℕ → C) (steps : ℕ) (h2 : 2 ≤ steps) : ∃ S, decorate roots none n subs length param select steps = .ok S := by
  unfold decorate
  dsimp only
  rw [item_works _ _ _ (by omega), item_works _ _ _ (by omega), item_works _ _ _ (by omega), item_works _ _ _ (by omega)]
  dsimp only
  obtain ⟨s, hs⟩ := stroke_works_subs (roots := roots) subs hsubs hn [param (length * (steps - 1 - 1 : ℕ) / steps)] (by simp [hparam]) 1 (by simp) (select (steps - 1 - 0) steps)
  obtain ⟨s', hs'⟩ := stroke_works_subs (roots := roots) subs hsubs hn [param (length * (steps - 1 - (steps - 2) : ℕ) / steps)] (by simp [hparam]) 0 (by simp) (select (steps - 1 - (steps - 1)) steps)
  obtain ⟨l, hl⟩ := middle_works_subs (roots := roots) subs hsubs hn (fun i => param (length * i / steps)) (fun _ => hparam _) (fun k => select k steps) steps (steps - 2) 1 (by omega) (by omega)
  rw [hs]
  dsimp only
  rw [hl]
  dsimp only
  rw [hs']
  exact ⟨_, rfl⟩

/-- Two lines of length 2 in three colors: the middle color goes over the gap, and what is seen at length 5/2, on the second line, is the color 1. -/
theorem ex_gradient_subs : ∃ S, decorate roots none 1 [⟨[.line ⟨0, 0, 2, 0⟩], false, none⟩, ⟨[.line ⟨5, 0, 7, 0⟩], false, none⟩] 4
      (fun x => if x < 2 then (0, x / 2) else (1, (x - 2) / 2)) (fun k _ => k) 3 = .ok S ∧
    ∃ piece, S[1]? = some (piece, 1) ∧ ∃ c ∈ piece, ∃ p, PointAt [.line ⟨5, 0, 7, 0⟩] (1 / 4) p ∧ Points c.items p := by
  have hsubs : ∀ s ∈ [(⟨[.line ⟨0, 0, 2, 0⟩], false, none⟩ : Sub), ⟨[.line ⟨5, 0, 7, 0⟩], false, none⟩], s.closed = false ∧ s.items ≠ [] := by
    intro s hs
    simp only [List.mem_cons, List.not_mem_nil, or_false] at hs
    rcases hs with rfl | rfl <;> simp
  have hm : StrictMono fun x : ℝ => toLex (if x < 2 then ((0 : ℕ), x / 2) else (1, (x - 2) / 2)) := fun x y hxy => by
    dsimp only
    rw [Prod.Lex.lt_iff]
    by_cases hx : x < 2 <;> by_cases hy : y < 2
    · right; simp [hx, hy]; linarith
    · left; simp [hx, hy]
    · linarith
    · right; simp [hx, hy]; linarith
  obtain ⟨S, hS⟩ := gradient_works_subs (roots := roots) (n := 1) _ hsubs (by decide) 4 (fun x => if x < 2 then (0, x / 2) else (1, (x - 2) / 2))
    (fun x => by by_cases hx : x < 2 <;> simp [hx]) (fun k _ => k) 3 (by decide)
  refine ⟨S, hS, ?_⟩
  obtain ⟨piece, a, b, h1, h2, h3⟩ := (gradient_visible_subs _ hsubs 4 (by norm_num) _ hm _ _ S hS 1 (by decide) (5 / 2) (by norm_num) (by norm_num)).1
  rw [if_neg (by norm_num)] at h3
  obtain ⟨c, hc, p, g1, g2⟩ := along_covers _ hsubs a b piece h2 _ h3 ⟨[.line ⟨5, 0, 7, 0⟩], false, none⟩ rfl (by norm_num) (by norm_num)
  exact ⟨piece, by simpa using h1, c, hc, p, by norm_num at g1 ⊢; exact g1, g2⟩

end PyX.Deco.Gradient
