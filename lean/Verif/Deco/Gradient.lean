import Verif.NormPath.Split

/-!
# C158: paths in the colors of a gradient (`deco.colorgradient`, `pyx/deco.py:888-912`)
-/

set_option linter.unusedSectionVars false
set_option linter.unusedSimpArgs false

noncomputable section

namespace PyX.Deco.Gradient

open PyX.NormPath PyX.NormPath.Sub

variable (roots : ℝ → ℝ → ℝ → ℝ → List ℝ) (eps : Option ℝ) (n : ℕ)
variable {C : Type}

/-- An element of a list, `IndexError` if there is none. -/
def item {α : Type} (l : List α) (i : ℕ) : Except Err α :=
  match l[i]? with
  | some a => .ok a
  | none => .error .index

/-- One piece of the path (`dp.path.split(...)[i]`), with its color. -/
def stroke (subs : List Sub) (params : List (ℕ × ℝ)) (i : ℕ) (color : C) : Except Err (List Sub × C) :=
  match split roots eps n subs params with
  | .error e => .error e
  | .ok l =>
    match item l i with
    | .error e => .error e
    | .ok p => .ok (p, color)

/-- The loop over the pieces in the middle (`deco.py:908-909`): `m` is `n`, and `k` the number of turns left. -/
def middle (subs : List Sub) (params : List (ℕ × ℝ)) (colors : List C) : ℕ → ℕ → Except Err (List (List Sub × C))
  | 0, _ => .ok []
  | k + 1, m =>
    match item params (m - 1), item params (m + 1), item colors m with
    | .ok p, .ok q, .ok c =>
      match stroke roots eps n subs [p, q] 1 c, middle subs params colors k (m + 1) with
      | .ok s, .ok l => .ok (s :: l)
      | .error e, _ => .error e
      | _, .error e => .error e
    | _, _, _ => .error .index

/-- `colorgradient.decorate` (`deco.py:897-912`): what is stroked, in the order of painting. `length` is the length of the path, `param` is `arclentoparam`. -/
def decorate (subs : List Sub) (length : ℝ) (param : ℝ → ℕ × ℝ) (select : ℕ → ℕ → C) (steps : ℕ) : Except Err (List (List Sub × C)) :=
  let colors := ((List.range steps).map fun k => select k steps).reverse
  let params := ((List.range steps).map fun i : ℕ => param (length * i / steps)).reverse
  match item params 1, item colors 0, item params (steps - 2), item colors (steps - 1) with
  | .ok p1, .ok c0, .ok pm, .ok cm =>
    match stroke roots eps n subs [p1] 1 c0 with
    | .error e => .error e
    | .ok s =>
      match middle roots eps n subs params colors (steps - 2) 1 with
      | .error e => .error e
      | .ok l =>
        match stroke roots eps n subs [pm] 0 cm with
        | .error e => .error e
        | .ok s' => .ok (s :: (l ++ [s']))
  | _, _, _, _ => .error .index

/-! ## Proofs -/

variable {roots eps n}

/-- Splitting one open sub-path at any parameters, in any order. -/
theorem split_open (sub : Sub) (ho : sub.closed = false) (hi : sub.items ≠ []) (t1 : ℝ) (us : List ℝ)
    (pieces : List (List Sub)) (h : split roots eps n [sub] ((t1 :: us).map fun t => (0, t)) = .ok pieces) : pieces.length = us.length + 2 ∧
    ∀ (j : ℕ) (piece : List Sub), pieces[j]? = some piece → ∃ c a b, ((0 : ℝ) :: t1 :: us ++ [(sub.items.length : ℝ)])[j]? = some a ∧ ((0 : ℝ) :: t1 :: us ++ [(sub.items.length : ℝ)])[j + 1]? = some b ∧
      piece = [c] ∧ Piece roots eps n sub.items a b c := by
  have loop : ∀ (us : List ℝ) (st : SplitState), st.index = 0 →
      splitLoop roots eps n [sub] st (us.map fun t => (0, t)) = .ok ⟨st.done, st.cur, st.params ++ us, 0⟩ := by
    intro us
    induction us with
    | nil => intro st h0; cases st; simp only at h0; subst h0; simp [splitLoop]
    | cons u us ih =>
      intro st h0
      simp only [List.map_cons, splitLoop, splitStep]
      rw [if_pos h0.symm]
      simp only
      rw [ih ⟨st.done, st.cur, st.params ++ [u], st.index⟩ h0]
      simp
  unfold split at h
  simp only [List.map_cons] at h
  rw [loop us _ rfl] at h
  simp only [List.getElem?_cons_zero, List.take_zero] at h
  cases hr : splitCollect roots eps n [] [] sub ([0, t1] ++ us ++ [(sub.items.length : ℝ)]) with
  | error e => rw [hr] at h; simp at h
  | ok r =>
    rw [hr] at h
    simp only [Except.ok.injEq] at h
    obtain ⟨s0, ss, h1, h2, h3⟩ := splitCollect_spec [] [] sub _ r ho hi hr
    have hp : pieces = (s0 :: ss).map fun s => [s] := by
      rw [← h]
      simpa using h2
    refine ⟨by rw [hp]; simp at h1 ⊢; omega, fun j piece hj => ?_⟩
    rw [hp, List.getElem?_map] at hj
    cases hc : (s0 :: ss)[j]? with
    | none => rw [hc] at hj; simp at hj
    | some c =>
      rw [hc] at hj
      obtain ⟨a, b, ha, hb, hpc⟩ := h3 j c hc
      exact ⟨c, a, b, by simpa using ha, by simpa using hb, by simpa using hj.symm, hpc⟩

theorem item_ok {α : Type} {l : List α} {i : ℕ} {a : α} (h : item l i = .ok a) : l[i]? = some a := by
  unfold item at h
  cases hl : l[i]? with
  | none => rw [hl] at h; simp at h
  | some b => rw [hl] at h; simpa using h

theorem stroke_ok {subs : List Sub} {params : List (ℕ × ℝ)} {i : ℕ} {color : C} {r : List Sub × C} (h : stroke roots eps n subs params i color = .ok r) :
    ∃ l, split roots eps n subs params = .ok l ∧ l[i]? = some r.1 ∧ r.2 = color := by
  unfold stroke at h
  cases hs : split roots eps n subs params with
  | error e => rw [hs] at h; simp at h
  | ok l =>
    rw [hs] at h
    dsimp only at h
    cases hi : item l i with
    | error e => rw [hi] at h; simp at h
    | ok p =>
      rw [hi] at h
      simp only [Except.ok.injEq] at h
      subst h
      exact ⟨l, rfl, item_ok hi, rfl⟩

theorem middle_ok {subs : List Sub} {params : List (ℕ × ℝ)} {colors : List C} : ∀ (k m : ℕ) (l : List (List Sub × C)) (_ : middle roots eps n subs params colors k m = .ok l),
    l.length = k ∧ ∀ i s, l[i]? = some s → ∃ p q c, params[m + i - 1]? = some p ∧ params[m + i + 1]? = some q ∧ colors[m + i]? = some c ∧ stroke roots eps n subs [p, q] 1 c = .ok s
  | 0, m, l, h => by
    rw [middle] at h
    simp only [Except.ok.injEq] at h
    subst h
    simp
  | k + 1, m, l, h => by
    rw [middle] at h
    cases h1 : item params (m - 1) with
    | error e => rw [h1] at h; simp at h
    | ok p =>
      cases h2 : item params (m + 1) with
      | error e => rw [h1, h2] at h; simp at h
      | ok q =>
        cases h3 : item colors m with
        | error e => rw [h1, h2, h3] at h; simp at h
        | ok c =>
          rw [h1, h2, h3] at h
          dsimp only at h
          cases h4 : stroke roots eps n subs [p, q] 1 c with
          | error e => rw [h4] at h; simp at h
          | ok s =>
            cases h5 : middle roots eps n subs params colors k (m + 1) with
            | error e => rw [h4, h5] at h; simp at h
            | ok l' =>
              rw [h4, h5] at h
              simp only [Except.ok.injEq] at h
              subst h
              obtain ⟨g1, g2⟩ := middle_ok k (m + 1) l' h5
              refine ⟨by simp [g1], fun i s' hs => ?_⟩
              cases i with
              | zero =>
                simp only [List.getElem?_cons_zero, Option.some.injEq] at hs
                subst hs
                exact ⟨p, q, c, item_ok h1, item_ok h2, item_ok h3, h4⟩
              | succ i =>
                obtain ⟨p', q', c', e1, e2, e3, e4⟩ := g2 i s' (by simpa using hs)
                have e : m + 1 + i = m + (i + 1) := by omega
                rw [e] at e1 e2 e3
                exact ⟨p', q', c', e1, e2, e3, e4⟩

/-- Looking up the reversed lists. -/
theorem reversed_get {α : Type} (f : ℕ → α) (steps i : ℕ) (a : α) (h : ((List.range steps).map f).reverse[i]? = some a) : i < steps ∧ a = f (steps - 1 - i) := by
  have hi : i < steps := by
    by_contra hge
    rw [List.getElem?_eq_none (by simp; omega)] at h
    cases h
  refine ⟨hi, ?_⟩
  rw [List.getElem?_reverse (by simpa using hi)] at h
  simp only [List.length_map, List.length_range, List.getElem?_map, List.getElem?_range (show steps - 1 - i < steps by omega), Option.map_some, Option.some.injEq] at h
  exact h.symm

/-- The lengths from which and to which the color `k` is painted: all of the step before and of its own one. -/
def from_ (length : ℝ) (steps k : ℕ) : ℝ := if k = 0 then 0 else length * (k - 1 : ℕ) / steps

def to_ (length : ℝ) (steps k : ℕ) : ℝ := if k + 1 = steps then length else length * (k + 1 : ℕ) / steps

/-- **C158**, in painting order: one stroke for each color, the last color first; color `k` is painted on the piece of the path between the lengths `from_` and `to_`. -/
theorem gradient_strokes (sub : Sub) (ho : sub.closed = false) (hi : sub.items ≠ []) (length : ℝ) (τ : ℝ → ℝ) (h0 : τ 0 = 0) (hl : τ length = sub.items.length)
    (select : ℕ → ℕ → C) (steps : ℕ) (S : List (List Sub × C)) (h : decorate roots eps n [sub] length (fun x => (0, τ x)) select steps = .ok S) :
    S.length = steps ∧ 2 ≤ steps ∧ ∀ k < steps, ∃ c a b, S[steps - 1 - k]? = some ([c], select k steps) ∧ Piece roots eps n sub.items a b c ∧
      ((a = τ (from_ length steps k) ∧ b = τ (to_ length steps k)) ∨ (a = τ (to_ length steps k) ∧ b = τ (from_ length steps k))) := by
  unfold decorate at h
  dsimp only at h
  generalize hP : ((List.range steps).map fun i : ℕ => ((0 : ℕ), τ (length * i / steps))).reverse = P at h
  generalize hC : ((List.range steps).map fun k => select k steps).reverse = Co at h
  have gP : ∀ i p, P[i]? = some p → i < steps ∧ p = (0, τ (length * (steps - 1 - i : ℕ) / steps)) := fun i p hp => by
    rw [← hP] at hp
    exact reversed_get (fun i : ℕ => ((0 : ℕ), τ (length * i / steps))) steps i p hp
  have gC : ∀ i c, Co[i]? = some c → i < steps ∧ c = select (steps - 1 - i) steps := fun i c hc => by
    rw [← hC] at hc
    exact reversed_get _ steps i c hc
  cases h1 : item P 1 with
  | error e => rw [h1] at h; simp at h
  | ok p1 =>
  cases h2 : item Co 0 with
  | error e => rw [h1, h2] at h; simp at h
  | ok c0 =>
  cases h3 : item P (steps - 2) with
  | error e => rw [h1, h2, h3] at h; simp at h
  | ok pm =>
  cases h4 : item Co (steps - 1) with
  | error e => rw [h1, h2, h3, h4] at h; simp at h
  | ok cm =>
  rw [h1, h2, h3, h4] at h
  dsimp only at h
  cases h5 : stroke roots eps n [sub] [p1] 1 c0 with
  | error e => rw [h5] at h; simp at h
  | ok s =>
  rw [h5] at h
  dsimp only at h
  cases h6 : middle roots eps n [sub] P Co (steps - 2) 1 with
  | error e => rw [h6] at h; simp at h
  | ok l =>
  rw [h6] at h
  dsimp only at h
  cases h7 : stroke roots eps n [sub] [pm] 0 cm with
  | error e => rw [h7] at h; simp at h
  | ok s' =>
  rw [h7] at h
  simp only [Except.ok.injEq] at h
  subst h
  obtain ⟨m1, m2⟩ := middle_ok _ _ _ h6
  obtain ⟨hs2, rfl⟩ := gP _ _ (item_ok h1)
  obtain ⟨_, rfl⟩ := gC _ _ (item_ok h2)
  obtain ⟨_, rfl⟩ := gP _ _ (item_ok h3)
  obtain ⟨_, rfl⟩ := gC _ _ (item_ok h4)
  refine ⟨by simp [m1]; omega, by omega, fun k hk => ?_⟩
  by_cases hk0 : k + 1 = steps
  · -- the last color is stroked first
    obtain ⟨ps, q1, q2, q3⟩ := stroke_ok h5
    obtain ⟨c, a, b, ha, hb, hc, hp⟩ := (split_open sub ho hi _ [] ps q1).2 1 s.1 q2
    simp only [List.cons_append, List.nil_append, List.getElem?_cons_succ, List.getElem?_cons_zero, Option.some.injEq] at ha hb
    refine ⟨c, a, b, ?_, hp, Or.inl ⟨?_, ?_⟩⟩
    · have e : steps - 1 - k = 0 := by omega
      rw [e, List.getElem?_cons_zero]
      have e : steps - 1 - 0 = k := by omega
      rw [e] at q3
      rw [← hc, ← q3]
    · rw [← ha, from_, if_neg (by omega)]
      congr 5
      omega
    · rw [← hb, to_, if_pos hk0, hl]
  · by_cases hk1 : k = 0
    · -- the first color is stroked last
      subst hk1
      obtain ⟨ps, q1, q2, q3⟩ := stroke_ok h7
      obtain ⟨c, a, b, ha, hb, hc, hp⟩ := (split_open sub ho hi _ [] ps q1).2 0 s'.1 q2
      simp only [List.cons_append, List.nil_append, List.getElem?_cons_succ, List.getElem?_cons_zero, Option.some.injEq] at ha hb
      refine ⟨c, a, b, ?_, hp, Or.inl ⟨?_, ?_⟩⟩
      · have e : steps - 1 - 0 = (steps - 2) + 1 := by omega
        rw [e, List.getElem?_cons_succ, List.getElem?_append_right (by omega), m1]
        simp only [Nat.sub_self, List.getElem?_cons_zero]
        rw [show steps - 1 - (steps - 1) = 0 by omega] at q3
        rw [← hc, ← q3]
      · rw [← ha, from_, if_pos rfl, h0]
      · rw [← hb, to_, if_neg hk0]
        congr 5
        omega
    · -- the colors between
      have hlt : steps - 2 - k < l.length := by rw [m1]; omega
      obtain ⟨p, q, co, e1, e2, e3, e4⟩ := m2 (steps - 2 - k) l[steps - 2 - k] (List.getElem?_eq_getElem hlt)
      obtain ⟨ps, q1, q2, q3⟩ := stroke_ok e4
      obtain ⟨_, rfl⟩ := gP _ _ e1
      obtain ⟨_, rfl⟩ := gP _ _ e2
      obtain ⟨_, rfl⟩ := gC _ _ e3
      obtain ⟨c, a, b, ha, hb, hc, hp⟩ := (split_open sub ho hi _ [_] ps q1).2 1 _ q2
      simp only [List.cons_append, List.nil_append, List.getElem?_cons_succ, List.getElem?_cons_zero, Option.some.injEq] at ha hb
      refine ⟨c, a, b, ?_, hp, Or.inr ⟨?_, ?_⟩⟩
      · have e : steps - 1 - k = (steps - 2 - k) + 1 := by omega
        rw [e, List.getElem?_cons_succ, List.getElem?_append_left hlt, List.getElem?_eq_getElem hlt]
        rw [show steps - 1 - (1 + (steps - 2 - k)) = k by omega] at q3
        rw [← hc, ← q3]
      · rw [← ha, to_, if_neg hk0, show steps - 1 - (1 + (steps - 2 - k) - 1) = k + 1 by omega]
      · rw [← hb, from_, if_neg hk1, show steps - 1 - (1 + (steps - 2 - k) + 1) = k - 1 by omega]

/-- A parameter is on the stretch from `a` to `b`. -/
def On (a b w : ℝ) : Prop := min a b ≤ w ∧ w ≤ max a b

/-- **C158.** At each place of an open path, the color seen is that of the step in which the place is: the last stroke painted over it has this color. So the path starts in the first color of the gradient
and ends in the last one. -/
theorem gradient_visible (sub : Sub) (ho : sub.closed = false) (hi : sub.items ≠ []) (length : ℝ) (hlen : 0 < length) (τ : ℝ → ℝ) (hτ : StrictMono τ) (h0 : τ 0 = 0)
    (hl : τ length = sub.items.length) (select : ℕ → ℕ → C) (steps : ℕ) (S : List (List Sub × C))
    (h : decorate roots eps n [sub] length (fun x => (0, τ x)) select steps = .ok S) (j : ℕ) (hj : j < steps) (x : ℝ) (hx : length * j / steps < x) (hx' : x ≤ length * (j + 1) / steps) :
    (∃ c a b, S[steps - 1 - j]? = some ([c], select j steps) ∧ Piece roots eps n sub.items a b c ∧ On a b (τ x)) ∧
    ∀ i, steps - 1 - j < i → i < S.length → ∃ c a b co, S[i]? = some ([c], co) ∧ Piece roots eps n sub.items a b c ∧ ¬ On a b (τ x) := by
  obtain ⟨h1, h2, h3⟩ := gradient_strokes sub ho hi length τ h0 hl select steps S h
  have hs : (0 : ℝ) < steps := by exact_mod_cast (by omega : 0 < steps)
  have hfrom : ∀ k, k ≤ j → from_ length steps k ≤ x := by
    intro k hk
    unfold from_
    split
    · have : 0 ≤ length * j / steps := by positivity
      linarith
    · refine le_trans ?_ hx.le
      gcongr
      exact_mod_cast (by omega : k - 1 ≤ j)
  have hft : ∀ k, k < steps → from_ length steps k ≤ to_ length steps k := by
    intro k hk
    have ht : (length * (k + 1 : ℕ) / steps : ℝ) ≤ length := by
      rw [div_le_iff₀ hs]
      gcongr
      exact_mod_cast hk
    have ht' : (0 : ℝ) ≤ length * (k + 1 : ℕ) / steps := by positivity
    unfold from_ to_
    split <;> split
    · exact hlen.le
    · exact ht'
    · refine le_trans ?_ ht
      gcongr
      omega
    · gcongr
      omega
  constructor
  · obtain ⟨c, a, b, g1, g2, g3⟩ := h3 j hj
    refine ⟨c, a, b, g1, g2, ?_⟩
    have e1 : τ (from_ length steps j) ≤ τ x := hτ.monotone (hfrom j le_rfl)
    have e2 : τ x ≤ τ (to_ length steps j) := by
      apply hτ.monotone
      unfold to_
      split
      · rename_i he
        refine le_trans hx' ?_
        rw [div_le_iff₀ hs]
        have : ((j : ℝ) + 1) = steps := by exact_mod_cast he
        rw [this]
      · exact_mod_cast hx'
    rcases g3 with ⟨rfl, rfl⟩ | ⟨rfl, rfl⟩
    · exact ⟨min_le_of_left_le e1, le_max_of_le_right e2⟩
    · exact ⟨min_le_of_right_le e1, le_max_of_le_left e2⟩
  · intro i hi1 hi2
    have hk : steps - 1 - i < j := by omega
    obtain ⟨c, a, b, g1, g2, g3⟩ := h3 (steps - 1 - i) (by omega)
    rw [show steps - 1 - (steps - 1 - i) = i by omega] at g1
    refine ⟨c, a, b, _, g1, g2, ?_⟩
    have e0 : τ (from_ length steps (steps - 1 - i)) ≤ τ (to_ length steps (steps - 1 - i)) := hτ.monotone (hft _ (by omega))
    have e2 : τ (to_ length steps (steps - 1 - i)) < τ x := by
      apply hτ
      refine lt_of_le_of_lt ?_ hx
      unfold to_
      rw [if_neg (by omega)]
      gcongr
      omega
    rintro ⟨_, w2⟩
    rcases g3 with ⟨rfl, rfl⟩ | ⟨rfl, rfl⟩
    · rw [max_eq_right e0] at w2; linarith
    · rw [max_eq_left e0] at w2; linarith

theorem stroke_works (sub : Sub) (ho : sub.closed = false) (hi : sub.items ≠ []) (hn : 0 < n) (t1 : ℝ) (us : List ℝ) (i : ℕ) (h : i < us.length + 2) (color : C) :
    ∃ s, stroke roots none n [sub] ((t1 :: us).map fun t => (0, t)) i color = .ok s := by
  obtain ⟨ps, hps⟩ := split_none (roots := roots) (n := n) [sub] (by simpa using ⟨ho, hi⟩) ((t1 :: us).map fun t => (0, t)) (by simp) hn
  have hlen := (split_open sub ho hi t1 us ps hps).1
  unfold stroke item
  rw [hps]
  dsimp only
  rw [List.getElem?_eq_getElem (by omega)]
  exact ⟨_, rfl⟩

theorem item_works {α : Type} (f : ℕ → α) (steps i : ℕ) (h : i < steps) : item ((List.range steps).map f).reverse i = .ok (f (steps - 1 - i)) := by
  unfold item
  rw [List.getElem?_reverse (by simpa using h)]
  simp only [List.length_map, List.length_range, List.getElem?_map, List.getElem?_range (show steps - 1 - i < steps by omega), Option.map_some]

theorem middle_works (sub : Sub) (ho : sub.closed = false) (hi : sub.items ≠ []) (hn : 0 < n) (f : ℕ → ℝ) (g : ℕ → C) (steps : ℕ) : ∀ (k m : ℕ) (_ : 1 ≤ m) (_ : m + k < steps),
    ∃ l, middle roots none n [sub] ((List.range steps).map fun i => ((0 : ℕ), f i)).reverse ((List.range steps).map g).reverse k m = .ok l
  | 0, m, _, _ => ⟨[], rfl⟩
  | k + 1, m, h1, h2 => by
    rw [middle, item_works _ _ _ (by omega), item_works _ _ _ (by omega), item_works _ _ _ (by omega)]
    dsimp only
    obtain ⟨s, hs⟩ := stroke_works (roots := roots) sub ho hi hn (f (steps - 1 - (m - 1))) [f (steps - 1 - (m + 1))] 1 (by simp) (g (steps - 1 - m))
    obtain ⟨l, hl⟩ := middle_works sub ho hi hn f g steps k (m + 1) (by omega) (by omega)
    simp only [List.map_cons, List.map_nil] at hs
    rw [hs, hl]
    exact ⟨_, rfl⟩

/-- **C158**, it works: without epsilon, every open path can be drawn in two or more colors. -/
theorem gradient_works (sub : Sub) (ho : sub.closed = false) (hi : sub.items ≠ []) (hn : 0 < n) (length : ℝ) (τ : ℝ → ℝ) (select : ℕ → ℕ → C) (steps : ℕ) (h2 : 2 ≤ steps) :
    ∃ S, decorate roots none n [sub] length (fun x => (0, τ x)) select steps = .ok S := by
  unfold decorate
  dsimp only
  rw [item_works _ _ _ (by omega), item_works _ _ _ (by omega), item_works _ _ _ (by omega), item_works _ _ _ (by omega)]
  dsimp only
  obtain ⟨s, hs⟩ := stroke_works (roots := roots) sub ho hi hn (τ (length * (steps - 1 - 1 : ℕ) / steps)) [] 1 (by simp) (select (steps - 1 - 0) steps)
  obtain ⟨s', hs'⟩ := stroke_works (roots := roots) sub ho hi hn (τ (length * (steps - 1 - (steps - 2) : ℕ) / steps)) [] 0 (by simp) (select (steps - 1 - (steps - 1)) steps)
  obtain ⟨l, hl⟩ := middle_works (roots := roots) sub ho hi hn (fun i => τ (length * i / steps)) (fun k => select k steps) steps (steps - 2) 1 (by omega) (by omega)
  simp only [List.map_cons, List.map_nil] at hs hs'
  rw [hs]
  dsimp only
  rw [hl]
  dsimp only
  rw [hs']
  exact ⟨_, rfl⟩

/-- **C158, violated.** Closed paths and a single color raise an `IndexError`. -/
theorem gradient_closed (sub : Sub) (hc : sub.closed = true) (hi : sub.items ≠ []) (length : ℝ) (τ : ℝ → ℝ) (select : ℕ → ℕ → C) (steps : ℕ) :
    ¬ ∃ S, decorate roots eps n [sub] length (fun x => (0, τ x)) select steps = .ok S := by
  rintro ⟨S, h⟩
  unfold decorate at h
  dsimp only at h
  split at h
  · rename_i p1 c0 pm cm h1 h2 h3 h4
    cases h5 : stroke roots eps n [sub] [p1] 1 c0 with
    | error e => rw [h5] at h; simp at h
    | ok s =>
      obtain ⟨ps, q1, q2, _⟩ := stroke_ok h5
      obtain ⟨_, rfl⟩ := reversed_get (fun i : ℕ => ((0 : ℕ), τ (length * i / steps))) steps _ _ (item_ok h1)
      have := (split_closed sub hc hi [_] (by simp) ps q1).1
      rw [List.getElem?_eq_none (by simp [this])] at q2
      cases q2
  · simp at h

theorem gradient_single (subs : List Sub) (length : ℝ) (param : ℝ → ℕ × ℝ) (select : ℕ → ℕ → C) : decorate roots eps n subs length param select 1 = .error .index := by
  unfold decorate
  rfl

/-- A line of length 6 in three colors: what is seen at length 3 is the color 1. -/
theorem ex_gradient : ∃ S, decorate roots none 1 [⟨[.line ⟨0, 0, 6, 0⟩], false, none⟩] 6 (fun x => (0, x / 6)) (fun k _ => k) 3 = .ok S ∧ S.length = 3 ∧
    ∃ c a b, S[1]? = some ([c], 1) ∧ Piece roots none 1 [.line ⟨0, 0, 6, 0⟩] a b c ∧ On a b (1 / 2) := by
  obtain ⟨S, hS⟩ := gradient_works (roots := roots) (n := 1) ⟨[.line ⟨0, 0, 6, 0⟩], false, none⟩ rfl (by simp) (by decide) 6 (fun x => x / 6) (fun k _ => k) 3 (by decide)
  have hm : StrictMono fun x : ℝ => x / 6 := fun a b hab => by dsimp only; linarith
  refine ⟨S, hS, (gradient_strokes _ rfl (by simp) 6 _ (by norm_num) (by norm_num) _ _ S hS).1, ?_⟩
  have := (gradient_visible _ rfl (by simp) 6 (by norm_num) _ hm (by norm_num) (by norm_num) _ _ S hS 1 (by decide) 3 (by norm_num) (by norm_num)).1
  norm_num at this
  obtain ⟨c, h1, a, b, h2, h3⟩ := this
  exact ⟨c, a, b, h1, h2, h3⟩

end PyX.Deco.Gradient
