import Verif.Graph.PlotItem

/-!
# C109: styles get what they need, points in order, and their own selection
-/

set_option linter.unusedSectionVars false

namespace PyX.Graph.Item

variable {κ : Type} [DecidableEq κ] {α : Type}

/-! ## Specification -/

/-- Every need of a style is provided by a style before it. -/
def Satisfied (styles : List (Style κ)) : Prop :=
  ∀ pre s post, styles = pre ++ s :: post → ∀ n ∈ s.needs, ∃ t ∈ pre, n ∈ t.provides

/-- Default providers provide what they are registered for. -/
def Valid (reg : Registry κ) : Prop := ∀ k p, reg k = some p → k ∈ p.provides

/-- Needs of default providers have themselves default providers, without cycles. -/
def Ranked (reg : Registry κ) (rank : κ → Nat) : Prop := ∀ k p, reg k = some p → ∀ n ∈ p.needs, (∃ q, reg n = some q) ∧ rank n < rank k

/-- The number of points in columns of data. -/
def count (cols : List (κ × List α)) : Nat := ((cols.map fun c => c.2.length).min?).getD 0

/-- Point number `i` of columns of data: unknown columns in use are `None`. -/
def pointAt (used : List κ) (cols : List (κ × List α)) (i : Nat) : Point κ α := fun c =>
  match cols.lookup c with
  | some vs => some vs[i]?
  | none => if c ∈ used then some none else none

/-! ## Registration -/

theorem register_spec (reg reg' : Registry κ) (s : Style κ) (ks : List κ) (h : register reg s ks = some reg') :
    (∀ k ∈ ks, k ∈ s.provides) ∧ ∀ k, reg' k = if k ∈ ks then some s else reg k := by
  induction ks generalizing reg with
  | nil =>
    simp only [register, Option.some.injEq] at h
    subst h
    simp
  | cons a ks ih =>
    simp only [register] at h
    by_cases ha : a ∈ s.provides
    · rw [if_pos ha] at h
      obtain ⟨h1, h2⟩ := ih _ h
      refine ⟨fun k hk => ?_, fun k => ?_⟩
      · rcases List.mem_cons.mp hk with rfl | hk
        · exact ha
        · exact h1 k hk
      · rw [h2 k]
        by_cases hk : k ∈ ks
        · simp [hk]
        · by_cases hka : k = a <;> simp [hk, hka]
    · rw [if_neg ha] at h; cases h

/-- C109: a registered style provides what it is the default for; a key not provided is refused. -/
theorem register_valid (reg reg' : Registry κ) (s : Style κ) (ks : List κ) (hv : Valid reg) (h : register reg s ks = some reg') : Valid reg' := by
  obtain ⟨h1, h2⟩ := register_spec reg reg' s ks h
  intro k p hp
  rw [h2 k] at hp
  by_cases hk : k ∈ ks
  · rw [if_pos hk] at hp
    obtain rfl := Option.some.inj hp
    exact h1 k hk
  · rw [if_neg hk] at hp
    exact hv k p hp

/-! ## Default providers -/

theorem scanNeeds_some (reg : Registry κ) (hv : Valid reg) (ns : List κ) (st st' : List κ × List (Style κ)) (h : scanNeeds reg ns st = some st') :
    ∃ new, st'.2 = st.2 ++ new ∧ (∀ x, x ∈ st'.1 ↔ x ∈ st.1 ∨ ∃ a ∈ new, x ∈ a.provides) ∧ (∀ a ∈ new, ∃ k ∈ ns, reg k = some a) ∧ ∀ n ∈ ns, n ∈ st'.1 := by
  induction ns generalizing st with
  | nil =>
    simp only [scanNeeds, Option.some.injEq] at h
    subst h
    exact ⟨[], by simp, by simp, by simp, by simp⟩
  | cons n ns ih =>
    simp only [scanNeeds] at h
    by_cases hn : n ∈ st.1
    · rw [if_pos hn] at h
      obtain ⟨new, h1, h2, h3, h4⟩ := ih st h
      refine ⟨new, h1, h2, fun a ha => ?_, fun m hm => ?_⟩
      · obtain ⟨k, hk, e⟩ := h3 a ha
        exact ⟨k, List.mem_cons_of_mem _ hk, e⟩
      · rcases List.mem_cons.mp hm with rfl | hm
        · exact (h2 m).2 (Or.inl hn)
        · exact h4 m hm
    · rw [if_neg hn] at h
      cases hr : reg n with
      | none => rw [hr] at h; cases h
      | some p =>
        rw [hr] at h
        obtain ⟨new, h1, h2, h3, h4⟩ := ih _ h
        refine ⟨p :: new, by rw [h1]; simp, fun x => ?_, fun a ha => ?_, fun m hm => ?_⟩
        · rw [h2 x]; simp [or_assoc]
        · rcases List.mem_cons.mp ha with rfl | ha
          · exact ⟨n, by simp, hr⟩
          · obtain ⟨k, hk, e⟩ := h3 a ha
            exact ⟨k, List.mem_cons_of_mem _ hk, e⟩
        · rcases List.mem_cons.mp hm with rfl | hm
          · exact (h2 m).2 (Or.inl (by simp [hv m p hr]))
          · exact h4 m hm

theorem scanNeeds_exists (reg : Registry κ) (ns : List κ) (st : List κ × List (Style κ)) (h : ∀ n ∈ ns, n ∈ st.1 ∨ ∃ p, reg n = some p) : ∃ st', scanNeeds reg ns st = some st' := by
  induction ns generalizing st with
  | nil => exact ⟨st, rfl⟩
  | cons n ns ih =>
    simp only [scanNeeds]
    by_cases hn : n ∈ st.1
    · rw [if_pos hn]
      exact ih st fun m hm => h m (List.mem_cons_of_mem _ hm)
    · rw [if_neg hn]
      rcases h n (by simp) with h' | ⟨p, hp⟩
      · exact absurd h' hn
      · rw [hp]
        refine ih _ fun m hm => ?_
        rcases h m (List.mem_cons_of_mem _ hm) with h' | h'
        · exact Or.inl (by simp [h'])
        · exact Or.inr h'

/-- The names needed by styles that are not in `P` and not provided by styles before. -/
theorem scanNeeds_new (reg : Registry κ) (ns : List κ) (st st' : List κ × List (Style κ)) (h : scanNeeds reg ns st = some st') (a : Style κ) (new : List (Style κ)) (hn : st'.2 = st.2 ++ new) (ha : a ∈ new) :
    ∃ k ∈ ns, k ∉ st.1 ∧ reg k = some a := by
  induction ns generalizing st new with
  | nil =>
    simp only [scanNeeds, Option.some.injEq] at h
    subst h
    have : new = [] := by simpa using hn
    subst this; cases ha
  | cons n ns ih =>
    simp only [scanNeeds] at h
    by_cases hm : n ∈ st.1
    · rw [if_pos hm] at h
      obtain ⟨k, hk, h1, h2⟩ := ih st h new hn ha
      exact ⟨k, List.mem_cons_of_mem _ hk, h1, h2⟩
    · rw [if_neg hm] at h
      cases hr : reg n with
      | none => rw [hr] at h; cases h
      | some p =>
        rw [hr] at h
        simp only at h
        have hx : ∃ new', st'.2 = st.2 ++ [p] ++ new' := by
          clear ih hn
          have gen : ∀ (ns : List κ) (u u' : List κ × List (Style κ)), scanNeeds reg ns u = some u' → ∃ w, u'.2 = u.2 ++ w := by
            intro ns
            induction ns with
            | nil => intro u u' h; simp only [scanNeeds, Option.some.injEq] at h; subst h; exact ⟨[], by simp⟩
            | cons b ns ih =>
              intro u u' h
              simp only [scanNeeds] at h
              by_cases hb : b ∈ u.1
              · rw [if_pos hb] at h; exact ih u u' h
              · rw [if_neg hb] at h
                cases hr : reg b with
                | none => rw [hr] at h; cases h
                | some q =>
                  rw [hr] at h
                  obtain ⟨w, hw⟩ := ih _ _ h
                  exact ⟨q :: w, by rw [hw]; simp⟩
          exact gen ns _ _ h
        obtain ⟨new', hnew⟩ := hx
        have e : new = p :: new' := by
          rw [hn, List.append_assoc] at hnew
          simpa using List.append_cancel_left hnew
        subst e
        rcases List.mem_cons.mp ha with rfl | ha
        · exact ⟨n, by simp, hm, hr⟩
        · obtain ⟨k, hk, h1, h2⟩ := ih _ h new' (by rw [hnew]) ha
          exact ⟨k, List.mem_cons_of_mem _ hk, by simp at h1; exact h1.1, h2⟩

/-- One pass. -/
theorem scan_some (reg : Registry κ) (hv : Valid reg) (styles : List (Style κ)) (st st' : List κ × List (Style κ)) (h : scan reg styles st = some st') :
    ∃ new, st'.2 = st.2 ++ new ∧
      (∀ pre s post, styles = pre ++ s :: post → ∀ n ∈ s.needs, n ∈ st.1 ∨ (∃ a ∈ new, n ∈ a.provides) ∨ ∃ t ∈ pre, n ∈ t.provides) ∧
      (∀ a ∈ new, ∃ pre s post, styles = pre ++ s :: post ∧ ∃ k ∈ s.needs, reg k = some a ∧ k ∉ st.1 ∧ ∀ t ∈ pre, k ∉ t.provides) := by
  induction styles generalizing st with
  | nil =>
    simp only [scan, Option.some.injEq] at h
    subst h
    exact ⟨[], by simp, by simp, by simp⟩
  | cons s ss ih =>
    simp only [scan] at h
    cases hs : scanNeeds reg s.needs st with
    | none => rw [hs] at h; cases h
    | some u =>
      rw [hs] at h
      obtain ⟨n1, a1, a2, a3, a4⟩ := scanNeeds_some reg hv s.needs st u hs
      obtain ⟨n2, b1, b2, b3⟩ := ih _ h
      refine ⟨n1 ++ n2, by rw [b1]; simp only; rw [a1]; simp, ?_, ?_⟩
      · intro pre t post e n hn
        cases pre with
        | nil =>
          simp only [List.nil_append, List.cons.injEq] at e
          obtain ⟨rfl, rfl⟩ := e
          rcases (a2 n).1 (a4 n hn) with h | ⟨a, ha, h⟩
          · exact Or.inl h
          · exact Or.inr (Or.inl ⟨a, by simp [ha], h⟩)
        | cons q pre =>
          simp only [List.cons_append, List.cons.injEq] at e
          obtain ⟨rfl, rfl⟩ := e
          rcases b2 pre t post rfl n hn with h | ⟨a, ha, h⟩ | ⟨w, hw, h⟩
          · simp only [List.mem_append] at h
            rcases h with h | h
            · rcases (a2 n).1 h with h | ⟨a, ha, h⟩
              · exact Or.inl h
              · exact Or.inr (Or.inl ⟨a, by simp [ha], h⟩)
            · exact Or.inr (Or.inr ⟨s, by simp, h⟩)
          · exact Or.inr (Or.inl ⟨a, by simp [ha], h⟩)
          · exact Or.inr (Or.inr ⟨w, by simp [hw], h⟩)
      · intro a ha
        rcases List.mem_append.mp ha with ha | ha
        · obtain ⟨k, hk, h1, h2⟩ := scanNeeds_new reg s.needs st u hs a n1 a1 ha
          exact ⟨[], s, ss, rfl, k, hk, h2, h1, by simp⟩
        · obtain ⟨pre, t, post, e, k, hk, h1, h2, h3⟩ := b3 a ha
          simp only [List.mem_append, not_or] at h2
          refine ⟨s :: pre, t, post, by rw [e]; rfl, k, hk, h1, fun hc => h2.1 ((a2 k).2 (Or.inl hc)), fun w hw => ?_⟩
          rcases List.mem_cons.mp hw with rfl | hw
          · exact h2.2
          · exact h3 w hw

theorem scan_exists (reg : Registry κ) (hv : Valid reg) (styles : List (Style κ)) (st : List κ × List (Style κ))
    (h : ∀ pre s post, styles = pre ++ s :: post → ∀ n ∈ s.needs, n ∈ st.1 ∨ (∃ t ∈ pre, n ∈ t.provides) ∨ ∃ p, reg n = some p) : ∃ st', scan reg styles st = some st' := by
  induction styles generalizing st with
  | nil => exact ⟨st, rfl⟩
  | cons s ss ih =>
    obtain ⟨u, hu⟩ := scanNeeds_exists reg s.needs st (fun n hn => by
      rcases h [] s ss rfl n hn with h | ⟨t, ht, -⟩ | h
      · exact Or.inl h
      · cases ht
      · exact Or.inr h)
    simp only [scan, hu]
    obtain ⟨n1, -, a2, -, -⟩ := scanNeeds_some reg hv s.needs st u hu
    refine ih _ fun pre t post e n hn => ?_
    rcases h (s :: pre) t post (by rw [e]; rfl) n hn with h | ⟨w, hw, h⟩ | h
    · exact Or.inl (by simp [(a2 n).2 (Or.inl h)])
    · rcases List.mem_cons.mp hw with rfl | hw
      · exact Or.inl (List.mem_append.mpr (Or.inr (by assumption)))
      · exact Or.inr (Or.inl ⟨w, hw, by assumption⟩)
    · exact Or.inr (Or.inr h)

/-- C109: the styles of a plot item are the given ones, in order, after default providers, and every need of a style is provided by one before it. -/
theorem needs_met (reg : Registry κ) (hv : Valid reg) (fuel : Nat) (styles r : List (Style κ)) (h : addDefaults reg fuel styles = some (some r)) :
    Satisfied r ∧ ∃ added, r = added ++ styles ∧ ∀ a ∈ added, ∃ k, reg k = some a := by
  induction fuel generalizing styles with
  | zero => simp [addDefaults] at h
  | succ fuel ih =>
    simp only [addDefaults] at h
    cases hs : scan reg styles ([], []) with
    | none => rw [hs] at h; cases h
    | some st =>
      rw [hs] at h
      obtain ⟨new, h1, h2, h3⟩ := scan_some reg hv styles _ st hs
      obtain ⟨p, as⟩ := st
      simp only [List.nil_append] at h1
      subst h1
      cases as with
      | nil =>
        simp only [Option.some.injEq] at h
        subst h
        refine ⟨fun pre s post e n hn => ?_, [], rfl, by simp⟩
        rcases h2 pre s post e n hn with h | ⟨a, ha, -⟩ | h
        · cases h
        · cases ha
        · exact h
      | cons a as =>
        simp only at h
        obtain ⟨k1, added, k2, k3⟩ := ih _ h
        refine ⟨k1, added ++ a :: as, by rw [k2]; simp, fun b hb => ?_⟩
        rcases List.mem_append.mp hb with hb | hb
        · exact k3 b hb
        · obtain ⟨_, _, _, _, k, _, hk, _⟩ := h3 b hb
          exact ⟨k, hk⟩

/-- C109: nothing is added to styles which have all they need. -/
theorem nothing_added (reg : Registry κ) (hv : Valid reg) (fuel : Nat) (styles : List (Style κ)) (h : Satisfied styles) : addDefaults reg (fuel + 1) styles = some (some styles) := by
  obtain ⟨st, hs⟩ := scan_exists reg hv styles ([], []) (fun pre s post e n hn => Or.inr (Or.inl (h pre s post e n hn)))
  obtain ⟨new, h1, -, h3⟩ := scan_some reg hv styles _ st hs
  obtain ⟨p, as⟩ := st
  simp only [List.nil_append] at h1
  subst h1
  cases as with
  | nil => simp only [addDefaults, hs]
  | cons a as =>
    exfalso
    obtain ⟨pre, s, post, e, k, hk, -, -, h6⟩ := h3 a (by simp)
    obtain ⟨t, ht, h7⟩ := h pre s post e k hk
    exact h6 t ht h7

theorem append_split {β : Type} (new styles pre post : List β) (s : β) (e : new ++ styles = pre ++ s :: post) :
    (s ∈ new) ∨ ∃ pre', pre = new ++ pre' ∧ styles = pre' ++ s :: post := by
  rcases List.append_eq_append_iff.mp e with ⟨a', h1, h2⟩ | ⟨c', h1, h2⟩
  · exact Or.inr ⟨a', h1, h2⟩
  · cases c' with
    | nil => exact Or.inr ⟨[], by simpa using h1.symm, by simpa using h2.symm⟩
    | cons x c' =>
      simp only [List.cons_append, List.cons.injEq] at h2
      left
      rw [h1, h2.1]; simp

theorem append_split' {β : Type} (new styles pre post : List β) (s : β) (e : new ++ styles = pre ++ s :: post) :
    (∃ post', new = pre ++ s :: post') ∨ ∃ pre', pre = new ++ pre' ∧ styles = pre' ++ s :: post := by
  rcases List.append_eq_append_iff.mp e with ⟨a', h1, h2⟩ | ⟨c', h1, h2⟩
  · exact Or.inr ⟨a', h1, h2⟩
  · cases c' with
    | nil => exact Or.inr ⟨[], by simpa using h1.symm, by simpa using h2.symm⟩
    | cons x c' =>
      simp only [List.cons_append, List.cons.injEq] at h2
      exact Or.inl ⟨c', by rw [h1, h2.1]⟩

/-- C109: the search for default providers ends, and finds all of them, when needs of default providers form no cycle. -/
theorem defaults_found (reg : Registry κ) (hv : Valid reg) (rank : κ → Nat) (hr : Ranked reg rank) (R : Nat) (styles : List (Style κ))
    (h : ∀ pre s post, styles = pre ++ s :: post → ∀ n ∈ s.needs, (∃ t ∈ pre, n ∈ t.provides) ∨ ((∃ p, reg n = some p) ∧ rank n < R)) :
    ∃ r, addDefaults reg (R + 1) styles = some (some r) := by
  induction R generalizing styles with
  | zero =>
    refine ⟨styles, nothing_added reg hv 0 styles fun pre s post e n hn => ?_⟩
    rcases h pre s post e n hn with h | ⟨-, h⟩
    · exact h
    · omega
  | succ R ih =>
    obtain ⟨st, hs⟩ := scan_exists reg hv styles ([], []) (fun pre s post e n hn => by
      rcases h pre s post e n hn with h | ⟨h, -⟩
      · exact Or.inr (Or.inl h)
      · exact Or.inr (Or.inr h))
    obtain ⟨new, h1, h2, h3⟩ := scan_some reg hv styles _ st hs
    obtain ⟨p, as⟩ := st
    simp only [List.nil_append] at h1
    subst h1
    rw [addDefaults]
    simp only [hs]
    cases as with
    | nil => exact ⟨styles, rfl⟩
    | cons a as =>
      simp only
      refine ih _ fun pre s post e n hn => ?_
      rcases append_split _ _ _ _ _ e with hm | ⟨pre', rfl, e'⟩
      · right
        obtain ⟨pre1, s1, post1, e1, k, hk, hk1, hk2, hk3⟩ := h3 s hm
        obtain ⟨q, hq⟩ := hr k s hk1 n hn
        refine ⟨q, ?_⟩
        rcases h pre1 s1 post1 e1 k hk with ⟨t, ht, hc⟩ | ⟨-, hlt⟩
        · exact absurd hc (hk3 t ht)
        · omega
      · left
        rcases h2 pre' s post e' n hn with h | ⟨b, hb, h⟩ | ⟨t, ht, h⟩
        · cases h
        · exact ⟨b, by simp only [List.mem_append]; exact Or.inl hb, h⟩
        · exact ⟨t, by simp only [List.mem_append]; exact Or.inr ht, h⟩

/-- The names with a default provider. -/
def knownKeys : List String := posStyle.provides ++ rangeStyle.provides ++ ["vbarrange", "barposcolumnnames", "barvalueindex", "lastbarvalue", "stackedbar", "stackedbardraw"] ++ gridposStyle.provides

theorem registry_spec : ∃ reg, registry = some reg ∧ Valid reg ∧
    ∀ k, reg k = if k ∈ gridposStyle.provides then some gridposStyle
      else if k ∈ ["vbarrange", "barposcolumnnames", "barvalueindex", "lastbarvalue", "stackedbar", "stackedbardraw"] then some barposStyle
      else if k ∈ rangeStyle.provides then some rangeStyle
      else if k ∈ posStyle.provides then some posStyle else none := by
  have h0 : Valid (fun _ => none : Registry String) := by intro k p h; cases h
  cases h1 : register (fun _ => none) posStyle posStyle.provides with
  | none => exact absurd h1 (by decide)
  | some r1 =>
  cases h2 : register r1 rangeStyle rangeStyle.provides with
  | none => exact absurd h2 (by simp [register, rangeStyle])
  | some r2 =>
  cases h3 : register r2 barposStyle ["vbarrange", "barposcolumnnames", "barvalueindex", "lastbarvalue", "stackedbar", "stackedbardraw"] with
  | none => exact absurd h3 (by simp [register, barposStyle])
  | some r3 =>
  cases h4 : register r3 gridposStyle gridposStyle.provides with
  | none => exact absurd h4 (by simp [register, gridposStyle])
  | some r4 =>
  have v1 := register_valid _ _ _ _ h0 h1
  have v2 := register_valid _ _ _ _ v1 h2
  have v3 := register_valid _ _ _ _ v2 h3
  have v4 := register_valid _ _ _ _ v3 h4
  refine ⟨r4, by simp [registry, h1, h2, h3, h4], v4, fun k => ?_⟩
  rw [(register_spec _ _ _ _ h4).2 k, (register_spec _ _ _ _ h3).2 k, (register_spec _ _ _ _ h2).2 k, (register_spec _ _ _ _ h1).2 k]

/-- C109: with the styles registered by PyX, all styles whose needs are among the known names get all they need, after at most three passes. -/
theorem defaults_registered (styles : List (Style String)) (h : ∀ s ∈ styles, ∀ n ∈ s.needs, n ∈ knownKeys) :
    ∃ reg, registry = some reg ∧ ∃ r, addDefaults reg 3 styles = some (some r) ∧ Satisfied r := by
  obtain ⟨reg, e, hv, hk⟩ := registry_spec
  have known : ∀ n ∈ knownKeys, ∃ p, reg n = some p := by
    intro n hn
    rw [hk n]
    simp only [knownKeys, List.mem_append] at hn
    split_ifs with h1 h2 h3 h4
    · exact ⟨_, rfl⟩
    · exact ⟨_, rfl⟩
    · exact ⟨_, rfl⟩
    · exact ⟨_, rfl⟩
    · tauto
  have hr : Ranked reg (fun k => if k ∈ gridposStyle.provides then 1 else 0) := by
    intro k p hp n hn
    rw [hk k] at hp
    split_ifs at hp with h1 h2 h3 h4
    · obtain rfl := Option.some.inj hp
      have hpos : n ∈ posStyle.provides := by
        simp only [gridposStyle, posStyle, List.mem_cons, List.not_mem_nil, or_false] at hn ⊢; tauto
      refine ⟨known n (by simp only [knownKeys, List.mem_append]; tauto), ?_⟩
      have : n ∉ gridposStyle.provides := by
        simp only [gridposStyle, posStyle, List.mem_cons, List.not_mem_nil, or_false] at hn ⊢
        rcases hn with (rfl | rfl | rfl | rfl) <;> decide
      simp only [if_neg this, if_pos h1]; omega
    all_goals (obtain rfl := Option.some.inj hp; simp [barposStyle, rangeStyle, posStyle] at hn)
  obtain ⟨r, hr'⟩ := defaults_found reg hv _ hr 2 styles (fun pre s post e n hn => Or.inr ⟨known n (h s (by rw [e]; simp) n hn), by split_ifs <;> omega⟩)
  exact ⟨reg, e, r, hr', (needs_met reg hv 3 styles r hr').1⟩

/-- A default provider which needs what it provides is added again and again. -/
theorem defaults_cycle (fuel : Nat) : ∃ reg : Registry Nat, Valid reg ∧ addDefaults reg fuel [⟨0, [7], [7]⟩] = some none := by
  refine ⟨fun k => if k = 7 then some ⟨0, [7], [7]⟩ else none, ?_, ?_⟩
  · intro k p h
    simp only at h
    split_ifs at h with hk
    obtain rfl := Option.some.inj h
    simp [hk]
  · have gen : ∀ (rest : List (Style Nat)), (∀ s ∈ rest, s = ⟨0, [7], [7]⟩) → addDefaults (fun k => if k = 7 then some ⟨0, [7], [7]⟩ else none) fuel (⟨0, [7], [7]⟩ :: rest) = some none := by
      induction fuel with
      | zero => intros; rfl
      | succ fuel ih =>
        intro rest hr
        have hscan : ∀ (l : List (Style Nat)) (P : List Nat) (A : List (Style Nat)), (∀ s ∈ l, s = ⟨0, [7], [7]⟩) → 7 ∈ P →
            ∃ P', scan (fun k => if k = 7 then some ⟨0, [7], [7]⟩ else none) l (P, A) = some (P', A) := by
          intro l
          induction l with
          | nil => intro P A _ _; exact ⟨P, rfl⟩
          | cons a l ihl =>
            intro P A hl hP
            obtain rfl := hl a (by simp)
            simp only [scan, scanNeeds, hP, if_true]
            exact ihl _ A (fun s hs => hl s (List.mem_cons_of_mem _ hs)) (by simp)
        obtain ⟨P', hP'⟩ := hscan rest [7, 7] [⟨0, [7], [7]⟩] hr (by simp)
        simp only [addDefaults, scan, scanNeeds, List.not_mem_nil, if_false, if_true, List.nil_append, List.cons_append, hP']
        exact ih _ (fun s hs => by
          rcases List.mem_cons.mp hs with rfl | hs
          · rfl
          · exact hr s hs)
    exact gen [] (by simp)

/-- The style `pos` is added twice for `[surface(), symbol()]`. -/
theorem pos_twice : registry.bind (fun reg => addDefaults reg 3 [⟨10, ["values1", "values2", "data12", "data21"], []⟩, ⟨11, ["vpos", "vposmissing", "vposvalid"], []⟩]) =
    some (some [posStyle, gridposStyle, posStyle, ⟨10, ["values1", "values2", "data12", "data21"], []⟩, ⟨11, ["vpos", "vposmissing", "vposvalid"], []⟩]) := by
  decide +kernel

/-! ## Drawing -/

theorem rows_getElem (cols : List (κ × List α)) (hc : cols ≠ []) (i : Nat) :
    (rows cols)[i]? = if ∀ c ∈ cols, i < c.2.length then some (cols.filterMap fun c => c.2[i]?.map fun v => (c.1, v)) else none := by
  induction cols with
  | nil => exact absurd rfl hc
  | cons c cols ih =>
    obtain ⟨c, vs⟩ := c
    cases cols with
    | nil =>
      simp only [rows, List.getElem?_map]
      by_cases hi : i < vs.length
      · simp [hi]
      · simp [hi, List.getElem?_eq_none (by omega : vs.length ≤ i)]
    | cons d cols =>
      have ih := ih (by simp)
      have e : rows ((c, vs) :: d :: cols) = (vs.zip (rows (d :: cols))).map fun p => (c, p.1) :: p.2 := by rw [rows]; simp
      rw [e, List.getElem?_map, List.zip, List.getElem?_zipWith, ih]
      by_cases hi : i < vs.length
      · by_cases hd : ∀ c ∈ d :: cols, i < c.2.length
        · have : ∀ x ∈ (c, vs) :: d :: cols, i < x.2.length := by
            intro x hx
            rcases List.mem_cons.mp hx with rfl | hx
            · exact hi
            · exact hd x hx
          rw [if_pos hd, if_pos this]
          simp [List.getElem?_eq_getElem hi]
        · have : ¬ ∀ x ∈ (c, vs) :: d :: cols, i < x.2.length := fun h => hd fun x hx => h x (List.mem_cons_of_mem _ hx)
          rw [if_neg hd, if_neg this]
          simp [List.getElem?_eq_getElem hi]
      · have : ¬ ∀ x ∈ (c, vs) :: d :: cols, i < x.2.length := fun h => hi (h _ (List.mem_cons_self ..))
        rw [if_neg this]
        simp [List.getElem?_eq_none (by omega : vs.length ≤ i)]

theorem lt_count (cols : List (κ × List α)) (i : Nat) : i < count cols ↔ cols ≠ [] ∧ ∀ c ∈ cols, i < c.2.length := by
  cases h : (cols.map fun c => c.2.length).min? with
  | none =>
    rw [List.min?_eq_none_iff, List.map_eq_nil_iff] at h
    subst h
    simp [count]
  | some m =>
    have hne : cols ≠ [] := by rintro rfl; simp at h
    simp only [count, h, Option.getD_some]
    have h1 := List.min?_mem h
    have h2 := (List.le_min?_iff h (x := i + 1))
    constructor
    · intro hlt
      refine ⟨hne, fun c hc => ?_⟩
      exact h2.1 hlt _ (List.mem_map.mpr ⟨c, hc, rfl⟩)
    · rintro ⟨-, hall⟩
      refine h2.2 fun b hb => ?_
      obtain ⟨c, hc, rfl⟩ := List.mem_map.mp hb
      exact hall c hc

theorem rows_length (cols : List (κ × List α)) : (rows cols).length = count cols := by
  cases cols with
  | nil => simp [rows, count]
  | cons c cols =>
    have key : ∀ i, i < (rows (c :: cols)).length ↔ i < count (c :: cols) := by
      intro i
      rw [lt_count]
      have e := rows_getElem (c :: cols) (by simp) i
      by_cases h : ∀ x ∈ c :: cols, i < x.2.length
      · rw [if_pos h] at e
        obtain ⟨hlt, -⟩ := List.getElem?_eq_some_iff.mp e
        exact ⟨fun _ => ⟨by simp, h⟩, fun _ => hlt⟩
      · rw [if_neg h, List.getElem?_eq_none_iff] at e
        exact ⟨fun hc => by omega, fun hc => absurd hc.2 h⟩
    by_contra hne
    rcases Nat.lt_or_gt_of_ne hne with h | h
    · exact absurd ((key _).2 h) (by omega)
    · exact absurd ((key _).1 h) (by omega)

theorem fill_spec (point : Point κ α) (r : List (κ × α)) (hn : (r.map Prod.fst).Nodup) (c : κ) :
    fill point r c = match r.lookup c with | some v => some (some v) | none => point c := by
  induction r generalizing point with
  | nil => rfl
  | cons x r ih =>
    obtain ⟨d, v⟩ := x
    simp only [List.map_cons, List.nodup_cons] at hn
    simp only [fill]
    rw [ih _ hn.2]
    by_cases hc : c = d
    · subst hc
      have : r.lookup c = none := by
        rw [List.lookup_eq_none_iff]
        intro p hp
        simp only [beq_eq_false_iff_ne, ne_eq, bne_iff_ne]
        intro e
        exact hn.1 (List.mem_map.mpr ⟨p, hp, e.symm⟩)
      simp [this]
    · have : (c == d) = false := by simpa using hc
      simp [List.lookup, this, hc]

theorem lookup_row (cols : List (κ × List α)) (i : Nat) (h : ∀ c ∈ cols, i < c.2.length) (c : κ) :
    (cols.filterMap fun c => c.2[i]?.map fun v => (c.1, v)).lookup c = (cols.lookup c).bind fun vs => vs[i]? := by
  induction cols with
  | nil => rfl
  | cons d cols ih =>
    obtain ⟨d, vs⟩ := d
    have hi : i < vs.length := h _ (List.mem_cons_self ..)
    have ih := ih fun x hx => h x (List.mem_cons_of_mem _ hx)
    simp only [List.filterMap_cons, List.getElem?_eq_getElem hi, Option.map_some]
    by_cases hc : (c == d) = true
    · simp [List.lookup, hc, List.getElem?_eq_getElem hi]
    · simp only [Bool.not_eq_true] at hc
      simp only [List.lookup, hc, ih]

theorem map_row (cols : List (κ × List α)) (i : Nat) (h : ∀ c ∈ cols, i < c.2.length) :
    (cols.filterMap fun c => c.2[i]?.map fun v => (c.1, v)).map Prod.fst = cols.map Prod.fst := by
  induction cols with
  | nil => rfl
  | cons d cols ih =>
    obtain ⟨d, vs⟩ := d
    have hi : i < vs.length := h _ (List.mem_cons_self ..)
    simp only [List.filterMap_cons, List.getElem?_eq_getElem hi, Option.map_some, List.map_cons]
    rw [ih fun x hx => h x (List.mem_cons_of_mem _ hx)]

theorem lookup_none (cols : List (κ × List α)) (c : κ) : cols.lookup c = none ↔ c ∉ cols.map Prod.fst := by
  rw [List.lookup_eq_none_iff]
  simp only [List.mem_map, not_exists, not_and]
  constructor
  · intro h p hp e
    have := h p hp
    simp [e] at this
  · intro h p hp
    simp only [beq_eq_false_iff_ne, ne_eq, bne_iff_ne]
    exact fun e => h p hp e.symm

/-- A point that has already been filled with these columns. -/
def Over (used : List κ) (names : List κ) (p : Point κ α) : Prop := ∀ c, c ∉ names → p c = emptyPoint used c

theorem drawRows_spec (used names : List κ) (hn : names.Nodup) (p : Point κ α) (hp : Over used names p) (rs : List (List (κ × α))) (hr : ∀ r ∈ rs, r.map Prod.fst = names) :
    drawRows p rs = rs.map fun r c => match r.lookup c with | some v => some (some v) | none => emptyPoint used c := by
  induction rs generalizing p with
  | nil => rfl
  | cons r rs ih =>
    have hr0 := hr r (by simp)
    have e : fill p r = fun c => match r.lookup c with | some v => some (some v) | none => emptyPoint used c := by
      funext c
      rw [fill_spec p r (by rw [hr0]; exact hn)]
      cases hl : r.lookup c with
      | some v => rfl
      | none =>
        simp only
        refine hp c ?_
        rw [← hr0]
        intro hm
        obtain ⟨q, hq, rfl⟩ := List.mem_map.mp hm
        rw [List.lookup_eq_none_iff] at hl
        have := hl q hq
        simp at this
    simp only [drawRows, List.map_cons]
    rw [ih (fill p r) (fun c hc => ?_) (fun r hr' => hr r (List.mem_cons_of_mem _ hr')), e]
    rw [e]
    have : r.lookup c = none := by
      rw [List.lookup_eq_none_iff]
      intro q hq
      simp only [beq_eq_false_iff_ne, ne_eq, bne_iff_ne]
      rintro rfl
      exact hc (hr0 ▸ List.mem_map.mpr ⟨q, hq, rfl⟩)
    simp [this]

theorem drawColumns (used : List κ) (cols : List (κ × List α)) (hn : (cols.map Prod.fst).Nodup) :
    drawRows (emptyPoint used) (rows cols) = (List.range (count cols)).map (pointAt used cols) := by
  cases hc : cols with
  | nil => simp [rows, drawRows, count]
  | cons c0 cols0 =>
  rw [← hc]
  have hne : cols ≠ [] := by rw [hc]; simp
  have hrow : ∀ i r, (rows cols)[i]? = some r → (∀ c ∈ cols, i < c.2.length) ∧ r = cols.filterMap fun c => c.2[i]?.map fun v => (c.1, v) := by
    intro i r h
    rw [rows_getElem cols hne] at h
    split_ifs at h with hi
    exact ⟨hi, (Option.some.inj h).symm⟩
  rw [drawRows_spec used (cols.map Prod.fst) hn (emptyPoint used) (fun _ _ => rfl) (rows cols) (fun r hr => by
    obtain ⟨i, hi⟩ := List.getElem?_of_mem hr
    obtain ⟨h1, rfl⟩ := hrow i r hi
    exact map_row cols i h1)]
  apply List.ext_getElem?
  intro i
  rw [List.getElem?_map, List.getElem?_map]
  by_cases hi : i < count cols
  · obtain ⟨-, hall⟩ := (lt_count cols i).1 hi
    rw [rows_getElem cols hne, if_pos hall, List.getElem?_range hi]
    simp only [Option.map_some]
    congr 1
    funext c
    rw [lookup_row cols i hall]
    cases hl : cols.lookup c with
    | none => simp [pointAt, hl, emptyPoint]
    | some vs =>
      have hlt : i < vs.length := by
        obtain ⟨p, hp, h1, h2⟩ : ∃ p ∈ cols, p.1 = c ∧ p.2 = vs := by
          rw [List.lookup_eq_some_iff] at hl
          obtain ⟨l1, l2, e, -⟩ := hl
          exact ⟨(c, vs), by rw [e]; simp, rfl, rfl⟩
        rw [← h2]; exact hall p hp
      simp [pointAt, hl, List.getElem?_eq_getElem hlt]
  · have h1 : (rows cols)[i]? = none := List.getElem?_eq_none (by rw [rows_length]; omega)
    have h2 : (List.range (count cols))[i]? = none := List.getElem?_eq_none (by rw [List.length_range]; omega)
    rw [h1, h2]; rfl

/-- C109: the styles get the points of the data in order, with `None` for columns in use without data, then, if there are both, an empty point, and the points of the dynamic data (which know nothing of the values before). -/
theorem draw_spec (used : List κ) (static dynamic : List (κ × List α)) (hs : (static.map Prod.fst).Nodup) (hd : (dynamic.map Prod.fst).Nodup) :
    draw used static dynamic =
      (List.range (count static)).map (pointAt used static) ++
      (if static = [] ∨ dynamic = [] then [] else [fun c => if c ∈ used then some none else none]) ++
      (List.range (count dynamic)).map (pointAt used dynamic) := by
  simp only [draw]
  rw [drawColumns used static hs, drawColumns used dynamic hd]
  congr 2
  by_cases h1 : static = [] <;> by_cases h2 : dynamic = [] <;> simp [h1, h2]
  rfl

/-- C109: when a style draws a point, all data it needs have been provided for this very point. -/
theorem provided_first {π : Type} (styles : List (Style κ)) (hs : Satisfied styles) (points : List π) (a b : List (Style κ × π)) (s : Style κ) (p : π) (h : drawCalls styles points = a ++ (s, p) :: b) :
    ∀ n ∈ s.needs, ∃ t, (t, p) ∈ a ∧ n ∈ t.provides := by
  induction points generalizing a with
  | nil => simp [drawCalls] at h
  | cons q points ih =>
    simp only [drawCalls, List.flatMap_cons] at h
    rcases append_split' _ _ _ _ _ h with ⟨post, h1⟩ | ⟨a', rfl, h2⟩
    · obtain ⟨l1, l2, e1, e2, e3⟩ := List.map_eq_append_iff.mp h1
      obtain ⟨t, l3, e4, e5, e6⟩ := List.map_eq_cons_iff.mp e3
      simp only [Prod.mk.injEq] at e5
      obtain ⟨rfl, rfl⟩ := e5
      intro n hn
      obtain ⟨w, hw, hwn⟩ := hs l1 t l3 (by rw [e1, e4]) n hn
      exact ⟨w, by rw [← e2]; exact List.mem_map.mpr ⟨w, hw, rfl⟩, hwn⟩
    · intro n hn
      obtain ⟨t, ht, hp⟩ := ih a' h2 n hn
      exact ⟨t, by simp [ht], hp⟩

/-! ## Selection -/

theorem stylesid_inj (a b : List Nat) (h : stylesid a = stylesid b) : a = b := by
  have digits : ∀ n : Nat, ':' ∉ Nat.toDigits 10 n := by
    intro n hc
    have := Nat.isDigit_of_mem_toDigits (by decide) (by decide) hc
    revert this; decide
  have ne : ∀ n : Nat, Nat.toDigits 10 n ≠ [] := fun n => Nat.toDigits_ne_nil
  have inj : ∀ m n : Nat, Nat.toDigits 10 m = Nat.toDigits 10 n → m = n := by
    intro m n h
    have := congrArg (fun l => Nat.ofDigitChars 10 l 0) h
    simpa [Nat.ofDigitChars_ten_toDigits] using this
  have nil : ∀ x : Nat, ∀ l : List Nat, stylesid (x :: l) ≠ [] := by
    intro x l hc
    cases l with
    | nil => simp [stylesid, List.intercalate] at hc
    | cons y l => simp [stylesid, List.intercalate, List.intersperse] at hc
  have split : ∀ l : List Nat, l ≠ [] → List.splitOn ':' (stylesid l) = l.map (Nat.toDigits 10) := by
    intro l hl
    refine List.splitOn_intercalate ':' (fun x hx => ?_) (by simpa using hl)
    obtain ⟨n, -, rfl⟩ := List.mem_map.mp hx
    exact digits n
  have mapinj : ∀ l m : List Nat, l.map (Nat.toDigits 10) = m.map (Nat.toDigits 10) → l = m := fun l m h => List.map_injective_iff.mpr (fun x y => inj x y) h
  cases a with
  | nil =>
    cases b with
    | nil => rfl
    | cons x b => exact absurd h.symm (nil x b)
  | cons x a =>
    cases b with
    | nil => exact absurd h (nil x a)
    | cons y b =>
      refine mapinj _ _ ?_
      rw [← split (x :: a) (by simp), ← split (y :: b) (by simp), h]

theorem countStyles_spec {ι : Type} [DecidableEq ι] (l : List ι) (d : ι → Option Nat) (i : ι) :
    countStyles l d i = if i ∈ l then some ((d i).getD 0 + l.count i) else d i := by
  induction l generalizing d with
  | nil => simp [countStyles]
  | cons a l ih =>
    simp only [countStyles]
    rw [ih]
    by_cases ha : i = a
    · subst ha
      cases hd : d i <;> by_cases hl : i ∈ l <;> simp [hl] <;> first | exact List.count_eq_zero.mpr hl | omega
    · have ha' : a ≠ i := fun h => ha h.symm
      cases hd : d a <;> simp [ha, ha']

theorem selects_spec {ι : Type} [DecidableEq ι] (total : ι → Option Nat) (l : List ι) (d : ι → Option Nat) (k : Nat) (i : ι) (hk : l[k]? = some i) :
    (selects total l d)[k]? = some (some ((l.take k).count i + (match d i with | some n => n + 1 | none => 0)), total i) := by
  induction l generalizing d k with
  | nil => simp at hk
  | cons a l ih =>
    cases k with
    | zero =>
      simp only [List.getElem?_cons_zero, Option.some.injEq] at hk
      subst hk
      cases hd : d a <;> simp [selects, hd]
    | succ k =>
      simp only [List.getElem?_cons_succ] at hk
      simp only [selects, List.getElem?_cons_succ, List.take_succ_cons]
      rw [ih _ k hk]
      by_cases ha : i = a
      · subst ha
        cases hd : d i with
        | none => simp
        | some v => simp; exact (Nat.add_right_comm _ 1 (v + 1)).symm
      · have ha' : a ≠ i := fun h => ha h.symm
        cases hd : d a <;> simp [ha, ha']

theorem count_map {β γ : Type} [BEq β] [LawfulBEq β] [BEq γ] [LawfulBEq γ] (f : β → γ) (hf : ∀ x y, f x = f y → x = y) (l : List β) (x : β) : (l.map f).count (f x) = l.count x := by
  induction l with
  | nil => rfl
  | cons a l ih =>
    simp only [List.map_cons, List.count_cons, ih]
    by_cases h : a = x
    · subst h; simp
    · have : f a ≠ f x := fun e => h (hf _ _ e)
      simp [h, this]

/-- C109: the selection of a plot item is its number among the plot items with the same styles, and the number of those. -/
theorem select_spec (items : List (List Nat)) (k : Nat) (styles : List Nat) (hk : items[k]? = some styles) :
    (dostyles items)[k]? = some (some ((items.take k).count styles), some (items.count styles)) := by
  have h1 : (items.map stylesid)[k]? = some (stylesid styles) := by rw [List.getElem?_map, hk]; rfl
  have hm : stylesid styles ∈ items.map stylesid := List.mem_map.mpr ⟨styles, List.mem_of_getElem? hk, rfl⟩
  simp only [dostyles]
  rw [selects_spec _ _ _ k _ h1, countStyles_spec, if_pos hm, ← List.map_take, @count_map _ _ _ _ instBEqOfDecidableEq _ stylesid stylesid_inj, @count_map _ _ _ _ instBEqOfDecidableEq _ stylesid stylesid_inj]
  simp

/-- C109: so that plot items with the same styles are numbered consecutively. -/
theorem select_distinct (items : List (List Nat)) (j k : Nat) (styles : List Nat) (hjk : j < k) (hj : items[j]? = some styles) (hk : items[k]? = some styles) :
    ∃ a b n, (dostyles items)[j]? = some (some a, some n) ∧ (dostyles items)[k]? = some (some b, some n) ∧ a < b ∧ b < n := by
  refine ⟨_, _, _, select_spec items j styles hj, select_spec items k styles hk, ?_, ?_⟩
  · have e : items.take k = items.take j ++ (items.take k).drop j := by
      conv_lhs => rw [← List.take_append_drop j (items.take k)]
      rw [List.take_take, Nat.min_eq_left (by omega)]
    rw [e, List.count_append]
    have : styles ∈ (items.take k).drop j := by
      refine List.mem_of_getElem? (i := 0) ?_
      rw [List.getElem?_drop, List.getElem?_take]
      simp [hjk, hj]
    have := List.count_pos_iff.mpr this
    omega
  · have e := List.take_append_drop k items
    conv_rhs => rw [← e, List.count_append]
    have : styles ∈ items.drop k := List.mem_of_getElem? (i := 0) (by rw [List.getElem?_drop]; simpa using hk)
    have := List.count_pos_iff.mpr this
    omega

/-! ## Examples -/

/-- Two of three plot items use the same styles. -/
example : dostyles [[12, 3], [1, 23], [12, 3]] = [(some 0, some 2), (some 0, some 1), (some 1, some 2)] := by decide +kernel

/-- The line style gets `pos`, and nothing is added a second time. -/
example : registry.bind (fun reg => addDefaults reg 3 [⟨10, ["vpos", "vposmissing", "vposavailable", "vposvalid"], []⟩]) =
    some (some [posStyle, ⟨10, ["vpos", "vposmissing", "vposavailable", "vposvalid"], []⟩]) := by decide +kernel

/-- The points of two columns of different lengths; the column 5 is in use without data. -/
example : (draw [1, 2, 5] [(1, [10, 11]), (2, [20, 21, 22])] [(1, [30])]).map (fun p => [1, 2, 5].map p) =
    [[some (some 10), some (some 20), some none], [some (some 11), some (some 21), some none], [some none, some none, some none], [some (some 30), some none, some none]] := by decide +kernel

end PyX.Graph.Item
