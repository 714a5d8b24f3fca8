import Verif.Text.Message

/-!
# C129: parsing the output of TeX: removing strings, patterns and nested brackets
-/

set_option linter.unusedSectionVars false

namespace PyX.TexMsg

/-! ## `remove_string` -/

/-- **C129.**  `remove_string` removes the first occurrence and nothing else, and tells whether there was one. -/
theorem removeString_spec (p s : Str) (hp : p ≠ []) :
    (∃ a b, s = a ++ p ++ b ∧ (∀ a' b', s = a' ++ p ++ b' → a.length ≤ a'.length) ∧ removeString p s = (a ++ b, true)) ∨
    ((∀ a b, s ≠ a ++ p ++ b) ∧ removeString p s = (s, false)) := by
  have key : (∃ a b, s = a ++ p ++ b ∧ (∀ a' b', s = a' ++ p ++ b' → a.length ≤ a'.length) ∧ replaceFirst p s = a ++ b) ∨
      ((∀ a b, s ≠ a ++ p ++ b) ∧ replaceFirst p s = s) := by
    induction s with
    | nil =>
      right
      refine ⟨fun a b h => ?_, rfl⟩
      have := congrArg List.length h
      simp only [List.length_nil, List.length_append] at this
      exact hp (List.length_eq_zero_iff.mp (by omega))
    | cons c s ih =>
      by_cases hc : p.isPrefixOf (c :: s)
      · left
        obtain ⟨b, hb⟩ := List.isPrefixOf_iff_prefix.mp hc
        refine ⟨[], b, by simpa using hb.symm, by simp, ?_⟩
        rw [replaceFirst, if_pos hc, ← hb]
        simp
      · have hno : ∀ b, c :: s ≠ p ++ b := fun b h => hc (List.isPrefixOf_iff_prefix.mpr ⟨b, h.symm⟩)
        rcases ih with ⟨a, b, h1, h2, h3⟩ | ⟨h1, h2⟩
        · left
          refine ⟨c :: a, b, by simp [h1], ?_, by rw [replaceFirst, if_neg hc, h3]; rfl⟩
          intro a' b' h
          cases a' with
          | nil => exact absurd (by simpa using h) (hno b')
          | cons x a' =>
            simp only [List.cons_append, List.cons.injEq] at h
            have := h2 a' b' h.2
            simp only [List.length_cons]
            omega
        · right
          refine ⟨fun a b h => ?_, by rw [replaceFirst, if_neg hc, h2]⟩
          cases a with
          | nil => exact hno b (by simpa using h)
          | cons x a =>
            simp only [List.cons_append, List.cons.injEq] at h
            exact h1 a b h.2
  have hlen : 0 < p.length := List.length_pos_of_ne_nil hp
  rcases key with ⟨a, b, h1, h2, h3⟩ | ⟨h1, h2⟩
  · left
    refine ⟨a, b, h1, h2, ?_⟩
    have : a ++ b ≠ s := by
      intro h
      have := congrArg List.length (h.trans h1)
      simp only [List.length_append] at this
      omega
    simp [removeString, h3, this]
  · right
    exact ⟨h1, by simp [removeString, h2]⟩

/-! ## `remove_pattern` -/

/-- The number of characters until the end of the `n`-th one which is not a newline. -/
def posEnd : ℕ → Str → ℕ
  | 0, _ => 0
  | _ + 1, [] => 0
  | n + 1, c :: s => if c = '\n' then 1 + posEnd (n + 1) s else 1 + posEnd n s

/-- The number of characters before the one after the `n`-th which is not a newline. -/
def posStart : ℕ → Str → ℕ
  | _, [] => 0
  | 0, c :: s => if c = '\n' then 1 + posStart 0 s else 0
  | n + 1, c :: s => if c = '\n' then 1 + posStart (n + 1) s else 1 + posStart n s

theorem posEnd_zero (s : Str) : posEnd 0 s = 0 := by cases s <;> rfl

theorem mapEnds_past (rs re : ℕ) (s : Str) : ∀ (j : ℕ) (e : ℕ × ℕ), re ≤ j → mapEnds rs re s j e = e := by
  induction s with
  | nil => intros; rfl
  | cons c s ih =>
    intro j e h
    rw [mapEnds]
    split_ifs with h1 h2
    · omega
    · omega
    · exact ih j e h
    · exact ih (j + 1) e (by omega)

theorem mapEnds_end (rs : ℕ) (s : Str) : ∀ (j n x y : ℕ), n ≤ (dropNl s).length → (mapEnds rs (j + n) s j (x, y + n)).2 = y + posEnd n s := by
  induction s with
  | nil =>
    intro j n x y h
    have : n = 0 := by simpa [dropNl] using h
    subst this
    rfl
  | cons c s ih =>
    intro j n x y h
    cases n with
    | zero => rw [mapEnds_past _ _ _ _ _ (by omega), posEnd_zero]
    | succ n =>
      rw [mapEnds]
      by_cases hc : c = '\n'
      · rw [if_pos hc, if_pos (by omega), show y + (n + 1) + 1 = (y + 1) + (n + 1) by omega]
        simp only
        rw [ih j (n + 1) _ (y + 1) (by simpa [dropNl, hc] using h)]
        rw [posEnd, if_pos hc]
        omega
      · rw [if_neg hc, show j + (n + 1) = (j + 1) + n by omega, show y + (n + 1) = (y + 1) + n by omega,
          ih (j + 1) n x (y + 1) (by simpa [dropNl, hc] using h), posEnd, if_neg hc]
        omega

theorem mapEnds_start_past (rs re : ℕ) (s : Str) : ∀ (j : ℕ) (e : ℕ × ℕ), rs < j → (mapEnds rs re s j e).1 = e.1 := by
  induction s with
  | nil => intros; rfl
  | cons c s ih =>
    intro j e h
    rw [mapEnds]
    split_ifs with h1 h2 h3
    · omega
    · rw [ih j _ h]
    · exact ih j e h
    · exact ih (j + 1) e (by omega)

theorem mapEnds_start (re : ℕ) (s : Str) : ∀ (j n x y : ℕ), j + n < re → n < (dropNl s).length → (mapEnds (j + n) re s j (x + n, y)).1 = x + posStart n s := by
  induction s with
  | nil => intro j n x y _ h; simp [dropNl] at h
  | cons c s ih =>
    intro j n x y hre h
    rw [mapEnds]
    by_cases hc : c = '\n'
    · rw [if_pos hc, if_pos (by omega), if_pos (by omega), show x + n + 1 = (x + 1) + n by omega]
      simp only
      rw [ih j n (x + 1) _ hre (by simpa [dropNl, hc] using h)]
      cases n with
      | zero => rw [posStart, if_pos hc]; omega
      | succ n => rw [posStart, if_pos hc]; omega
    · rw [if_neg hc]
      cases n with
      | zero =>
        rw [mapEnds_start_past _ _ _ _ _ (by omega), posStart, if_neg hc]
      | succ n =>
        rw [show j + (n + 1) = (j + 1) + n by omega, show x + (n + 1) = (x + 1) + n by omega, ih (j + 1) n (x + 1) y (by omega) (by simpa [dropNl, hc] using h), posStart, if_neg hc]
        omega

theorem dropNl_take_posEnd (s : Str) : ∀ n, n ≤ (dropNl s).length → dropNl (s.take (posEnd n s)) = (dropNl s).take n ∧ dropNl (s.drop (posEnd n s)) = (dropNl s).drop n ∧
    (0 < n → ∃ a c, c ≠ '\n' ∧ s.take (posEnd n s) = a ++ [c]) := by
  induction s with
  | nil =>
    intro n h
    have : n = 0 := by simpa [dropNl] using h
    subst this
    exact ⟨rfl, rfl, by omega⟩
  | cons c s ih =>
    intro n h
    cases n with
    | zero => exact ⟨by simp [posEnd, dropNl], by simp [posEnd], by omega⟩
    | succ n =>
      by_cases hc : c = '\n'
      · obtain ⟨h1, h2, h3⟩ := ih (n + 1) (by simpa [dropNl, hc] using h)
        rw [posEnd, if_pos hc, add_comm 1]
        refine ⟨?_, ?_, fun _ => ?_⟩
        · simpa [dropNl, hc] using h1
        · simpa [dropNl, hc] using h2
        · obtain ⟨a, x, hx, e⟩ := h3 (by omega)
          exact ⟨c :: a, x, hx, by simp [e]⟩
      · obtain ⟨h1, h2, h3⟩ := ih n (by simpa [dropNl, hc] using h)
        rw [posEnd, if_neg hc, add_comm 1]
        refine ⟨?_, ?_, fun _ => ?_⟩
        · simpa [dropNl, hc] using h1
        · simpa [dropNl, hc] using h2
        · rcases Nat.eq_zero_or_pos n with rfl | hn
          · exact ⟨[], c, hc, by simp [posEnd_zero]⟩
          · obtain ⟨a, x, hx, e⟩ := h3 hn
            exact ⟨c :: a, x, hx, by simp [e]⟩

theorem dropNl_take_posStart (s : Str) : ∀ n, n < (dropNl s).length → dropNl (s.take (posStart n s)) = (dropNl s).take n ∧
    (∃ c b, c ≠ '\n' ∧ s.drop (posStart n s) = c :: b) ∧ ∀ k, n < k → k ≤ (dropNl s).length → posStart n s < posEnd k s := by
  induction s with
  | nil => intro n h; simp [dropNl] at h
  | cons c s ih =>
    intro n h
    by_cases hc : c = '\n'
    · obtain ⟨h1, h2, h3⟩ := ih n (by simpa [dropNl, hc] using h)
      have e : posStart n (c :: s) = posStart n s + 1 := by cases n <;> rw [posStart, if_pos hc, add_comm]
      rw [e]
      refine ⟨by simpa [dropNl, hc] using h1, by simpa using h2, ?_⟩
      intro k hk hkl
      obtain ⟨k, rfl⟩ : ∃ k', k = k' + 1 := ⟨k - 1, by omega⟩
      rw [posEnd, if_pos hc]
      have := h3 (k + 1) hk (by simpa [dropNl, hc] using hkl)
      omega
    · cases n with
      | zero =>
        rw [posStart, if_neg hc]
        refine ⟨by simp [dropNl], ⟨c, s, hc, rfl⟩, ?_⟩
        intro k hk hkl
        obtain ⟨k, rfl⟩ : ∃ k', k = k' + 1 := ⟨k - 1, by omega⟩
        rw [posEnd, if_neg hc]
        omega
      | succ n =>
        obtain ⟨h1, h2, h3⟩ := ih n (by simpa [dropNl, hc] using h)
        rw [posStart, if_neg hc, add_comm 1]
        refine ⟨by simpa [dropNl, hc] using h1, by simpa using h2, ?_⟩
        intro k hk hkl
        obtain ⟨k, rfl⟩ : ∃ k', k = k' + 1 := ⟨k - 1, by omega⟩
        rw [posEnd, if_neg hc]
        have := h3 k (by omega) (by simpa [dropNl, hc] using hkl)
        omega

theorem take_drop_split (s : Str) (i j : ℕ) (h : i ≤ j) : s = s.take i ++ (s.take j).drop i ++ s.drop j := by
  conv_lhs => rw [← List.take_append_drop j s, ← List.take_append_drop i (s.take j), List.take_take, min_eq_left h]

/-- A span within a string. -/
def Match.Within (m : Match) (r : Str) : Prop := m.start ≤ m.stop ∧ m.stop ≤ r.length

/-- **C129.**  `remove_pattern` removes one connected part, which is the match up to newlines inside of it; what is left keeps all its newlines (also those directly before and after
the match). -/
theorem removePattern_nl (p : Regex) (s : Str) (m : Match) (hm : p (dropNl s) = some m) (hw : m.Within (dropNl s)) :
    ∃ a b c, s = a ++ b ++ c ∧ removePattern p s true = (a ++ c, some m) ∧ dropNl a = (dropNl s).take m.start ∧ dropNl b = ((dropNl s).take m.stop).drop m.start ∧
      dropNl c = (dropNl s).drop m.stop ∧ (∀ x b', b = x :: b' → x ≠ '\n') ∧ ∀ x b', b = b' ++ [x] → x ≠ '\n' := by
  obtain ⟨hw1, hw2⟩ := hw
  rw [removePattern]
  simp only [if_true, hm]
  by_cases hs : dropNl s = s
  · rw [spanOf, if_neg (by simp [hs])]
    refine ⟨s.take m.start, (s.take m.stop).drop m.start, s.drop m.stop, take_drop_split _ _ _ hw1, rfl, ?_, ?_, ?_, ?_, ?_⟩
    · rw [hs]
      exact List.filter_eq_self.mpr fun x hx => by
        have : x ∈ dropNl s := by rw [hs]; exact List.mem_of_mem_take hx
        exact (List.mem_filter.mp this).2
    · rw [hs]
      exact List.filter_eq_self.mpr fun x hx => by
        have : x ∈ dropNl s := by rw [hs]; exact List.mem_of_mem_take (List.mem_of_mem_drop hx)
        exact (List.mem_filter.mp this).2
    · rw [hs]
      exact List.filter_eq_self.mpr fun x hx => by
        have : x ∈ dropNl s := by rw [hs]; exact List.mem_of_mem_drop hx
        exact (List.mem_filter.mp this).2
    · intro x b' e
      have hx : x ∈ (s.take m.stop).drop m.start := by rw [e]; simp
      have : x ∈ dropNl s := by rw [hs]; exact List.mem_of_mem_take (List.mem_of_mem_drop hx)
      simpa using (List.mem_filter.mp this).2
    · intro x b' e
      have hx : x ∈ (s.take m.stop).drop m.start := by rw [e]; simp
      have : x ∈ dropNl s := by rw [hs]; exact List.mem_of_mem_take (List.mem_of_mem_drop hx)
      simpa using (List.mem_filter.mp this).2
  · rw [spanOf, if_pos hs]
    have he : (mapEnds m.start m.stop s 0 (m.start, m.stop)).2 = posEnd m.stop s := by
      have := mapEnds_end m.start s 0 m.stop m.start 0 hw2
      simpa using this
    obtain ⟨k1, k2, k3⟩ := dropNl_take_posEnd s m.stop hw2
    rcases Nat.lt_or_ge m.start m.stop with hlt | hge
    · have hst : (mapEnds m.start m.stop s 0 (m.start, m.stop)).1 = posStart m.start s := by
        have := mapEnds_start m.stop s 0 m.start 0 m.stop (by omega) (by omega)
        simpa using this
      obtain ⟨l1, ⟨x, y, l2, l3⟩, l4⟩ := dropNl_take_posStart s m.start (by omega)
      have hle := l4 m.stop hlt hw2
      rw [he, hst]
      have hsplit := take_drop_split s (posStart m.start s) (posEnd m.stop s) (by omega)
      refine ⟨_, _, _, hsplit, rfl, l1, ?_, k2, ?_, ?_⟩
      · have e : dropNl (s.take (posEnd m.stop s)) = dropNl (s.take (posStart m.start s)) ++ dropNl ((s.take (posEnd m.stop s)).drop (posStart m.start s)) := by
          conv_lhs => rw [← List.take_append_drop (posStart m.start s) (s.take (posEnd m.stop s)), List.take_take, min_eq_left (by omega)]
          exact List.filter_append _ _
        rw [k1, l1] at e
        rw [e]
        exact (List.drop_left' (by rw [List.length_take]; omega)).symm
      · intro x' b' e
        have e2 : s.drop (posStart m.start s) = (s.take (posEnd m.stop s)).drop (posStart m.start s) ++ s.drop (posEnd m.stop s) := by
          have h3 : s.take (posStart m.start s) ++ s.drop (posStart m.start s) = s.take (posStart m.start s) ++ ((s.take (posEnd m.stop s)).drop (posStart m.start s) ++ s.drop (posEnd m.stop s)) := by
            rw [List.take_append_drop, ← List.append_assoc]
            exact hsplit
          exact List.append_cancel_left h3
        rw [e, l3] at e2
        simp only [List.cons_append, List.cons.injEq] at e2
        rw [← e2.1]
        exact l2
      · intro x' b' e
        obtain ⟨a, c, hc, e3⟩ := k3 (by omega)
        have e4 : a ++ [c] = s.take (posStart m.start s) ++ (b' ++ [x']) := by
          rw [← e, ← e3]
          conv_lhs => rw [← List.take_append_drop (posStart m.start s) (s.take (posEnd m.stop s)), List.take_take, min_eq_left (by omega)]
        rw [← List.append_assoc] at e4
        have := List.append_inj_right' e4 rfl
        simp only [List.cons.injEq, and_true] at this
        rw [← this]
        exact hc
    · have e : m.start = m.stop := by omega
      have hst : (mapEnds m.start m.stop s 0 (m.start, m.stop)).1 = posEnd m.stop s := by
        rw [e]
        have : ∀ (s : Str) (j : ℕ) (x : ℕ), (mapEnds m.stop m.stop s j (x, x)).1 = (mapEnds m.stop m.stop s j (x, x)).2 := by
          intro s
          induction s with
          | nil => intros; rfl
          | cons c s ih =>
            intro j x
            rw [mapEnds]
            split_ifs with h1 h2 h3
            · exact ih j (x + 1)
            · omega
            · exact ih j x
            · exact ih (j + 1) x
        rw [this]
        rw [← he, e]
      rw [he, hst]
      refine ⟨s.take (posEnd m.stop s), [], s.drop (posEnd m.stop s), by simp, rfl, by rw [e]; exact k1, ?_, k2, by simp, by simp⟩
      rw [e, List.drop_eq_nil_of_le (by rw [List.length_take]; omega)]
      rfl

/-- **C129.**  Without `ignore_nl` exactly the match is removed; if there is no match, nothing is. -/
theorem removePattern_plain (p : Regex) (s : Str) :
    (∀ m, p s = some m → removePattern p s false = (s.take m.start ++ s.drop m.stop, some m)) ∧ (p s = none → removePattern p s false = (s, none)) ∧
    (p (dropNl s) = none → removePattern p s true = (s, none)) := by
  refine ⟨fun m h => ?_, fun h => ?_, fun h => ?_⟩
  · simp [removePattern, h, spanOf]
  · simp [removePattern, h]
  · simp [removePattern, h]

/-! ## `remove_nested_brackets` -/

inductive Kind
  | opening
  | closing
  | text
  deriving DecidableEq

/-- The characters which count as brackets, read from left to right: brackets in a quoted string directly after an opening bracket do not count. -/
def marks : Bool → Bool → Str → List (Char × Kind)
  | _, _, [] => []
  | true, _, c :: s => (c, .text) :: marks (c ≠ '"') false s
  | false, po, c :: s =>
    if c = '"' then (c, .text) :: marks (po && decide ('"' ∈ s)) false s
    else if c = '(' then (c, .opening) :: marks false true s
    else if c = ')' then (c, .closing) :: marks false false s
    else (c, .text) :: marks false false s

/-- The brackets are balanced, when `d` are open at the begin. -/
def Balanced : ℕ → List (Char × Kind) → Prop
  | d, [] => d = 0
  | d, (_, .text) :: l => Balanced d l
  | d, (_, .opening) :: l => Balanced (d + 1) l
  | 0, (_, .closing) :: _ => False
  | d + 1, (_, .closing) :: l => Balanced d l

/-- The characters of the first level of brackets, when `d` are open at the begin. -/
def keep : ℕ → List (Char × Kind) → Str
  | _, [] => []
  | d, (c, .text) :: l => if d ≤ 1 then c :: keep d l else keep d l
  | d, (c, .opening) :: l => if d = 0 then c :: keep 1 l else keep (d + 1) l
  | d, (c, .closing) :: l => if d ≤ 1 then c :: keep (d - 1) l else keep (d - 1) l

def positionsOf (k : Kind) : ℕ → List (Char × Kind) → List ℕ
  | _, [] => []
  | n, (_, k') :: l => if k' = k then n :: positionsOf k (n + 1) l else positionsOf k (n + 1) l

theorem indexAll_ge (c : Char) (s : Str) : ∀ n, ∀ i ∈ indexAll c n s, n ≤ i := by
  induction s with
  | nil => intro n i h; simp [indexAll] at h
  | cons x s ih =>
    intro n i h
    rw [indexAll] at h
    split_ifs at h
    · rcases List.mem_cons.mp h with rfl | h
      · exact le_refl _
      · exact le_trans (by omega) (ih _ _ h)
    · exact le_trans (by omega) (ih _ _ h)

theorem indexAll_nil_iff (c : Char) (s : Str) : ∀ n, indexAll c n s = [] ↔ c ∉ s := by
  induction s with
  | nil => simp [indexAll]
  | cons x s ih =>
    intro n
    rw [indexAll]
    by_cases h : x = c
    · simp [h]
    · rw [if_neg h, ih, List.mem_cons]
      simp [Ne.symm h]

theorem pairwise_single (n : ℕ) : pairwise [n] = [] := rfl
theorem pairwise_two (n m : ℕ) (l : List ℕ) : pairwise (n :: m :: l) = (n, m) :: pairwise (m :: l) := rfl

/-- The loop over the quotes finds the marks. -/
theorem quotes_joint (s : Str) :
    (∀ (n : ℕ) (A B : List ℕ) (po : Bool), (∀ a ∈ A, a < n) → (∀ b ∈ B, b < n) → (po = true ↔ 1 ≤ n ∧ n - 1 ∈ A) →
      quoteLoop (pairwise (indexAll '"' n s)) (A ++ indexAll '(' n s, B ++ indexAll ')' n s) =
        (A ++ positionsOf .opening n (marks false po s), B ++ positionsOf .closing n (marks false po s))) ∧
    (∀ (o n q : ℕ) (Q A B : List ℕ) (po : Bool), o < n → (∀ a ∈ A, a < o) → (∀ b ∈ B, b < o) → indexAll '"' n s = q :: Q →
      quoteLoop (pairwise (indexAll '"' n s)) (A ++ (indexAll '(' n s).filter (fun pos => ¬ (o < pos ∧ pos < q)), B ++ (indexAll ')' n s).filter (fun pos => ¬ (o < pos ∧ pos < q))) =
        (A ++ positionsOf .opening n (marks true po s), B ++ positionsOf .closing n (marks true po s))) := by
  induction s with
  | nil =>
    constructor
    · intro n A B po _ _ _
      simp [indexAll, marks, positionsOf, pairwise, quoteLoop]
    · intro o n q Q A B po _ _ _ h
      simp [indexAll] at h
  | cons c s ih =>
    obtain ⟨ih1, ih2⟩ := ih
    constructor
    · intro n A B po hA hB hpo
      have hA' : ∀ a ∈ A, a < n + 1 := fun a h => by have := hA a h; omega
      have hB' : ∀ a ∈ B, a < n + 1 := fun a h => by have := hB a h; omega
      have hnA : n ∉ A := fun h => by have := hA n h; omega
      by_cases hq : c = '"'
      · subst hq
        have e1 : indexAll '"' n ('"' :: s) = n :: indexAll '"' (n + 1) s := by rw [indexAll, if_pos rfl]
        have e2 : indexAll '(' n ('"' :: s) = indexAll '(' (n + 1) s := by rw [indexAll, if_neg (by decide)]
        have e3 : indexAll ')' n ('"' :: s) = indexAll ')' (n + 1) s := by rw [indexAll, if_neg (by decide)]
        have e4 : marks false po ('"' :: s) = ('"', .text) :: marks (po && decide ('"' ∈ s)) false s := by rw [marks, if_pos rfl]
        have e5 : ∀ k, k ≠ Kind.text → ∀ l, positionsOf k n (('"', .text) :: l) = positionsOf k (n + 1) l := fun k hk l => by rw [positionsOf, if_neg (Ne.symm hk)]
        rw [e1, e2, e3, e4, e5 _ (by decide), e5 _ (by decide)]
        rcases hQ : indexAll '"' (n + 1) s with - | ⟨q, Q⟩
        · have hmem : '"' ∉ s := (indexAll_nil_iff _ _ _).mp hQ
          have hi := ih1 (n + 1) A B false hA' hB' (by simp [hnA])
          rw [hQ] at hi
          rw [pairwise_single]
          simp only [hmem, decide_false, Bool.and_false]
          exact hi
        · have hmem : '"' ∈ s := by
            by_contra h
            rw [(indexAll_nil_iff '"' s (n + 1)).mpr h] at hQ
            simp at hQ
          rw [pairwise_two, quoteLoop]
          cases po with
          | true =>
            have hp := hpo.mp rfl
            rw [if_pos ⟨hp.1, List.mem_append_left _ hp.2⟩]
            have fA : A.filter (fun pos => ¬ (n < pos ∧ pos < q)) = A := List.filter_eq_self.mpr fun a ha => by have := hA a ha; simp; omega
            have fB : B.filter (fun pos => ¬ (n < pos ∧ pos < q)) = B := List.filter_eq_self.mpr fun a ha => by have := hB a ha; simp; omega
            rw [List.filter_append, List.filter_append, fA, fB]
            have := ih2 n (n + 1) q Q A B false (by omega) hA hB hQ
            rw [hQ] at this
            simp only [hmem, decide_true, Bool.and_true]
            exact this
          | false =>
            rw [if_neg]
            · have := ih1 (n + 1) A B false hA' hB' (by simp [hnA])
              rw [hQ] at this
              simpa using this
            · rintro ⟨h1, h2⟩
              rcases List.mem_append.mp h2 with h2 | h2
              · simp [h1, h2] at hpo
              · have := indexAll_ge _ _ _ _ h2
                omega
      · have e1 : indexAll '"' n (c :: s) = indexAll '"' (n + 1) s := by rw [indexAll, if_neg hq]
        rw [e1]
        by_cases ho : c = '('
        · subst ho
          rw [indexAll, if_pos rfl, indexAll, if_neg (by decide), marks, if_neg hq, if_pos rfl, positionsOf, if_pos rfl, positionsOf, if_neg (by decide)]
          have := ih1 (n + 1) (A ++ [n]) B true (by
            intro a ha
            rcases List.mem_append.mp ha with ha | ha
            · exact hA' a ha
            · simp at ha; omega) hB' (by simp)
          simpa using this
        · by_cases hcl : c = ')'
          · subst hcl
            rw [indexAll, if_neg (by decide), indexAll, if_pos rfl, marks, if_neg hq, if_neg ho, if_pos rfl, positionsOf, if_neg (by decide), positionsOf, if_pos rfl]
            have := ih1 (n + 1) A (B ++ [n]) false hA' (by
              intro a ha
              rcases List.mem_append.mp ha with ha | ha
              · exact hB' a ha
              · simp at ha; omega) (by simp [hnA])
            simpa using this
          · rw [indexAll, if_neg ho, indexAll, if_neg hcl, marks, if_neg hq, if_neg ho, if_neg hcl, positionsOf, if_neg (by decide), positionsOf, if_neg (by decide)]
            exact ih1 (n + 1) A B false hA' hB' (by simp [hnA])
    · intro o n q Q A B po hon hA hB hQ
      by_cases hq : c = '"'
      · subst hq
        rw [indexAll, if_pos rfl] at hQ
        simp only [List.cons.injEq] at hQ
        obtain ⟨rfl, hQ⟩ := hQ
        have e1 : indexAll '"' n ('"' :: s) = n :: indexAll '"' (n + 1) s := by rw [indexAll, if_pos rfl]
        have e2 : indexAll '(' n ('"' :: s) = indexAll '(' (n + 1) s := by rw [indexAll, if_neg (by decide)]
        have e3 : indexAll ')' n ('"' :: s) = indexAll ')' (n + 1) s := by rw [indexAll, if_neg (by decide)]
        have e4 : marks true po ('"' :: s) = ('"', .text) :: marks false false s := by rw [marks]; simp
        have e5 : ∀ k, k ≠ Kind.text → ∀ l, positionsOf k n (('"', .text) :: l) = positionsOf k (n + 1) l := fun k hk l => by rw [positionsOf, if_neg (Ne.symm hk)]
        have f : ∀ x, (indexAll x (n + 1) s).filter (fun pos => ¬ (o < pos ∧ pos < n)) = indexAll x (n + 1) s := fun x => List.filter_eq_self.mpr fun a ha => by
          have := indexAll_ge _ _ _ _ ha
          simp
          omega
        rw [e1, e2, e3, e4, e5 _ (by decide), e5 _ (by decide), f, f]
        have hi := ih1 (n + 1) A B false (fun a h => by have := hA a h; omega) (fun a h => by have := hB a h; omega) (by
          have : n ∉ A := fun h => by have := hA n h; omega
          simp [this])
        rcases hQ' : indexAll '"' (n + 1) s with - | ⟨q, Q'⟩
        · rw [hQ'] at hi
          rw [pairwise_single]
          exact hi
        · rw [hQ'] at hi
          rw [pairwise_two, quoteLoop, if_neg]
          · exact hi
          · rintro ⟨h1, h2⟩
            rcases List.mem_append.mp h2 with h2 | h2
            · have := hA _ h2
              omega
            · have := indexAll_ge _ _ _ _ h2
              omega
      · have e1 : indexAll '"' n (c :: s) = indexAll '"' (n + 1) s := by rw [indexAll, if_neg hq]
        rw [e1] at hQ
        have hqn : n < q := by
          have : q ∈ indexAll '"' (n + 1) s := by rw [hQ]; simp
          have := indexAll_ge _ _ _ _ this
          omega
        have e4 : marks true po (c :: s) = (c, .text) :: marks true false s := by rw [marks]; simp [hq]
        have e5 : ∀ k, k ≠ Kind.text → ∀ l, positionsOf k n ((c, .text) :: l) = positionsOf k (n + 1) l := fun k hk l => by rw [positionsOf, if_neg (Ne.symm hk)]
        have f : ∀ x, (indexAll x n (c :: s)).filter (fun pos => ¬ (o < pos ∧ pos < q)) = (indexAll x (n + 1) s).filter (fun pos => ¬ (o < pos ∧ pos < q)) := by
          intro x
          rw [indexAll]
          split_ifs
          · rw [List.filter_cons_of_neg (by simp; omega)]
          · rfl
        rw [e1, e4, e5 _ (by decide), e5 _ (by decide), f, f]
        exact ih2 o (n + 1) q Q A B false (by omega) hA hB hQ

/-- The marks of a whole message. -/
def marked (s : Str) : List (Char × Kind) := marks false false s

theorem quotes_spec (s : Str) : quoteLoop (pairwise (indexAll '"' 0 s)) (indexAll '(' 0 s, indexAll ')' 0 s) = (positionsOf .opening 0 (marked s), positionsOf .closing 0 (marked s)) := by
  have := (quotes_joint s).1 0 [] [] false (by simp) (by simp) (by simp)
  simp only [List.nil_append] at this
  exact this

theorem marks_chars (s : Str) : ∀ q po, (marks q po s).map Prod.fst = s := by
  induction s with
  | nil => intro q po; cases q <;> rfl
  | cons c s ih =>
    intro q po
    cases q
    · rw [marks]
      split_ifs <;> simp [ih]
    · rw [marks]
      simp [ih]

/-- The changes of the level, in the order of the string. -/
def evs : ℕ → List (Char × Kind) → List (ℕ × Int)
  | _, [] => []
  | n, (_, .text) :: l => evs (n + 1) l
  | n, (_, .opening) :: l => (n, -1) :: evs (n + 1) l
  | n, (_, .closing) :: l => (n, 1) :: evs (n + 1) l

theorem evs_perm (l : List (Char × Kind)) : ∀ n, (((positionsOf .opening n l).map fun p => (p, (-1 : Int))) ++ ((positionsOf .closing n l).map fun p => (p, (1 : Int)))).Perm (evs n l) := by
  induction l with
  | nil => intro n; exact List.Perm.refl _
  | cons x l ih =>
    intro n
    obtain ⟨c, k⟩ := x
    cases k
    · simp only [positionsOf, evs, if_true, List.map_cons, List.cons_append]
      rw [if_neg (by decide)]
      exact (ih (n + 1)).cons _
    · simp only [positionsOf, evs, if_true, List.map_cons]
      rw [if_neg (by decide)]
      exact List.perm_middle.trans ((ih (n + 1)).cons _)
    · simp only [positionsOf, evs]
      rw [if_neg (by decide), if_neg (by decide)]
      exact ih (n + 1)

theorem evs_ge (l : List (Char × Kind)) : ∀ n, ∀ e ∈ evs n l, n ≤ e.1 := by
  induction l with
  | nil => intro n e h; simp [evs] at h
  | cons x l ih =>
    intro n e h
    obtain ⟨c, k⟩ := x
    cases k
    · rcases List.mem_cons.mp h with rfl | h
      · exact le_refl _
      · exact le_trans (by omega) (ih _ _ h)
    · rcases List.mem_cons.mp h with rfl | h
      · exact le_refl _
      · exact le_trans (by omega) (ih _ _ h)
    · exact le_trans (by omega) (ih (n + 1) _ h)

theorem evs_sorted (l : List (Char × Kind)) : ∀ n, (evs n l).Pairwise (fun a b => a.1 < b.1) := by
  induction l with
  | nil => intro n; exact List.Pairwise.nil
  | cons x l ih =>
    intro n
    obtain ⟨c, k⟩ := x
    cases k
    · exact List.pairwise_cons.mpr ⟨fun e h => by have := evs_ge _ _ _ h; omega, ih _⟩
    · exact List.pairwise_cons.mpr ⟨fun e h => by have := evs_ge _ _ _ h; omega, ih _⟩
    · exact ih _

theorem events_eq (l : List (Char × Kind)) : events (positionsOf .opening 0 l) (positionsOf .closing 0 l) = (evs 0 l).reverse := by
  apply List.Perm.eq_of_pairwise (le := later)
  · intro a b _ _ h1 h2
    simp only [later] at h1 h2
    ext
    · omega
    · omega
  · have : Std.Total later := ⟨fun a b => by simp only [later]; omega⟩
    have : IsTrans _ later := ⟨fun a b c h1 h2 => by simp only [later] at h1 h2 ⊢; omega⟩
    exact List.pairwise_insertionSort _ _
  · rw [List.pairwise_reverse]
    exact (evs_sorted l 0).imp fun h => by
      exact Or.inl h
  · exact (List.perm_insertionSort _ _).trans ((evs_perm l 0).trans (List.reverse_perm _).symm)

/-- The loop from the right: the level, what is kept, and what is after the last bracket which closed the second level. -/
def scanR : List (Char × Kind) → Option (ℕ × Str × Str)
  | [] => some (0, [], [])
  | (c, .text) :: l => (scanR l).map fun x => (x.1, c :: x.2.1, x.2.2)
  | (c, .closing) :: l => (scanR l).map fun x => (x.1 + 1, c :: x.2.1, if x.1 = 1 then x.2.1 else x.2.2)
  | (c, .opening) :: l => (scanR l).bind fun x => if x.1 = 0 then none else some (x.1 - 1, if x.1 = 2 then x.2.2 else c :: x.2.1, x.2.2)

theorem loop_scan (s : Str) (l : List (Char × Kind)) : ∀ (p : Str) (e0 : ℕ) (rest : List (ℕ × Int)),
    match scanR l with
    | none => bracketLoop s ((evs p.length l).reverse ++ rest) 0 e0 (p ++ l.map Prod.fst) = s
    | some x => ∃ e, bracketLoop s ((evs p.length l).reverse ++ rest) 0 e0 (p ++ l.map Prod.fst) = bracketLoop s rest x.1 e (p ++ x.2.1) ∧
        (2 ≤ x.1 → (p ++ x.2.1).drop e = x.2.2) := by
  induction l with
  | nil =>
    intro p e0 rest
    exact ⟨e0, by simp [evs], by simp⟩
  | cons y l ih =>
    intro p e0 rest
    obtain ⟨c, k⟩ := y
    cases k
    · have hi := ih (p ++ [c]) e0 ((p.length, -1) :: rest)
      simp only [List.length_append, List.length_cons, List.length_nil, List.append_assoc, List.cons_append, List.nil_append] at hi
      simp only [scanR, evs, List.reverse_cons, List.append_assoc, List.cons_append, List.nil_append, List.map_cons]
      rcases h : scanR l with - | ⟨lv, out, sv⟩
      · rw [h] at hi
        exact hi
      · rw [h] at hi
        obtain ⟨e, h1, h2⟩ := hi
        simp only at h1 h2
        simp only [Option.bind_some]
        by_cases h0 : lv = 0
        · rw [if_pos h0]
          simp only
          rw [h1, bracketLoop, if_pos (by omega)]
        · rw [if_neg h0]
          simp only
          refine ⟨e, ?_, ?_⟩
          · rw [h1, bracketLoop, if_neg (by omega), if_neg (by simp)]
            have : ((lv : Int) + -1) = ((lv - 1 : ℕ) : Int) := by omega
            rw [this]
            by_cases h2' : lv = 2
            · rw [if_pos h2', if_pos ⟨rfl, by omega⟩, h2 (by omega)]
              simp
            · rw [if_neg h2', if_neg (by omega)]
          · intro hge
            rw [if_neg (by omega)]
            exact h2 (by omega)
    · have hi := ih (p ++ [c]) e0 ((p.length, 1) :: rest)
      simp only [List.length_append, List.length_cons, List.length_nil, List.append_assoc, List.cons_append, List.nil_append] at hi
      simp only [scanR, evs, List.reverse_cons, List.append_assoc, List.cons_append, List.nil_append, List.map_cons]
      rcases h : scanR l with - | ⟨lv, out, sv⟩
      · rw [h] at hi
        exact hi
      · rw [h] at hi
        obtain ⟨e, h1, h2⟩ := hi
        simp only at h1 h2
        simp only [Option.map_some]
        refine ⟨if lv = 1 then p.length + 1 else e, ?_, ?_⟩
        · rw [h1, bracketLoop, if_neg (by omega)]
          have : ((lv : Int) + 1) = ((lv + 1 : ℕ) : Int) := by push_cast; rfl
          rw [this]
          by_cases h1' : lv = 1
          · rw [if_pos h1', if_pos ⟨rfl, by omega⟩, if_neg (by simp)]
          · rw [if_neg h1', if_neg (by omega), if_neg (by simp)]
        · intro hge
          by_cases h1' : lv = 1
          · rw [if_pos h1', if_pos h1']
            rw [show p ++ c :: out = (p ++ [c]) ++ out by simp]
            rw [List.drop_append_of_le_length (by simp), List.drop_eq_nil_of_le (by simp)]
            rfl
          · rw [if_neg h1', if_neg h1']
            exact h2 (by omega)
    · have hi := ih (p ++ [c]) e0 rest
      simp only [List.length_append, List.length_cons, List.length_nil, List.append_assoc, List.cons_append, List.nil_append] at hi
      simp only [scanR, evs, List.map_cons]
      rcases h : scanR l with - | ⟨lv, out, sv⟩
      · rw [h] at hi
        exact hi
      · rw [h] at hi
        exact hi

theorem scan_balanced (l : List (Char × Kind)) : ∀ d, Balanced d l → ∃ out sv, scanR l = some (d, out, sv) ∧ (d ≤ 1 → out = keep d l) ∧ (2 ≤ d → sv = keep d l) := by
  induction l with
  | nil => intro d h; subst h; exact ⟨[], [], rfl, fun _ => rfl, by omega⟩
  | cons y l ih =>
    intro d h
    obtain ⟨c, k⟩ := y
    cases k
    · obtain ⟨out, sv, h1, h2, h3⟩ := ih (d + 1) h
      refine ⟨if d = 1 then sv else c :: out, sv, ?_, ?_, ?_⟩
      · rw [scanR, h1]
        simp only [Option.bind_some]
        rw [if_neg (by omega)]
        simp
      · intro hd
        rw [keep]
        by_cases h1 : d = 1
        · rw [if_pos h1, if_neg (by omega), h3 (by omega)]
        · have : d = 0 := by omega
          subst this
          rw [if_neg h1, if_pos rfl, h2 (by omega)]
      · intro hd
        rw [keep, if_neg (by omega)]
        exact h3 (by omega)
    · cases d with
      | zero => exact absurd h (by simp [Balanced])
      | succ d =>
        obtain ⟨out, sv, h1, h2, h3⟩ := ih d h
        refine ⟨c :: out, if d = 1 then out else sv, by rw [scanR, h1]; rfl, ?_, ?_⟩
        · intro hd
          rw [keep, if_pos hd, h2 (by omega)]
          rfl
        · intro hd
          rw [keep, if_neg (show ¬ (d + 1 ≤ 1) by omega), Nat.add_sub_cancel]
          by_cases h1 : d = 1
          · rw [if_pos h1, h2 (by omega)]
          · rw [if_neg h1, h3 (by omega)]
    · obtain ⟨out, sv, h1, h2, h3⟩ := ih d h
      refine ⟨c :: out, sv, by rw [scanR, h1]; rfl, ?_, ?_⟩
      · intro hd
        rw [keep, if_pos hd, h2 hd]
      · intro hd
        rw [keep, if_neg (by omega), h3 hd]

theorem balanced_scan (l : List (Char × Kind)) : ∀ x, scanR l = some x → Balanced x.1 l := by
  induction l with
  | nil => intro x h; simp only [scanR, Option.some.injEq] at h; subst h; rfl
  | cons y l ih =>
    intro x h
    obtain ⟨c, k⟩ := y
    cases k
    · rw [scanR] at h
      rcases hs : scanR l with - | z
      · rw [hs] at h; simp at h
      · rw [hs] at h
        simp only [Option.bind_some] at h
        by_cases h0 : z.1 = 0
        · rw [if_pos h0] at h
          simp at h
        · rw [if_neg h0] at h
          simp only [Option.some.injEq] at h
          subst h
          have := ih z hs
          rw [Balanced]
          simp only
          rwa [Nat.sub_add_cancel (by omega)]
    · rw [scanR] at h
      rcases hs : scanR l with - | z
      · rw [hs] at h; simp at h
      · rw [hs] at h
        simp only [Option.map_some, Option.some.injEq] at h
        subst h
        exact ih z hs
    · rw [scanR] at h
      rcases hs : scanR l with - | z
      · rw [hs] at h; simp at h
      · rw [hs] at h
        simp only [Option.map_some, Option.some.injEq] at h
        subst h
        exact ih z hs

theorem balanced_count (l : List (Char × Kind)) : ∀ d n, Balanced d l → d + (positionsOf .opening n l).length = (positionsOf .closing n l).length := by
  induction l with
  | nil => intro d n h; simp only [Balanced] at h; subst h; rfl
  | cons y l ih =>
    intro d n h
    obtain ⟨c, k⟩ := y
    cases k
    · have := ih _ (n + 1) h
      simp [positionsOf]
      omega
    · cases d with
      | zero => exact absurd h (by simp [Balanced])
      | succ d =>
        have := ih _ (n + 1) h
        simp [positionsOf]
        omega
    · have := ih _ (n + 1) h
      simpa [positionsOf] using this

/-- **C129.**  `remove_nested_brackets` keeps the text outside of brackets and in the first level of brackets, if the brackets are balanced; otherwise nothing is changed. -/
theorem removeNested_spec (s : Str) :
    (Balanced 0 (marked s) → removeNested s = keep 0 (marked s)) ∧ (¬ Balanced 0 (marked s) → removeNested s = s) := by
  rw [removeNested, quotes_spec]
  simp only
  rw [events_eq]
  have hl := loop_scan s (marked s) [] 0 []
  simp only [List.length_nil, List.nil_append, List.append_nil] at hl
  rw [show (marked s).map Prod.fst = s from marks_chars s _ _] at hl
  constructor
  · intro hb
    obtain ⟨out, sv, h1, h2, -⟩ := scan_balanced _ _ hb
    rw [h1] at hl
    obtain ⟨e, h3, -⟩ := hl
    have := balanced_count _ _ 0 hb
    rw [if_neg (by omega), h3, bracketLoop]
    exact h2 (by omega)
  · intro hb
    by_cases hc : (positionsOf .opening 0 (marked s)).length = (positionsOf .closing 0 (marked s)).length
    · rw [if_neg (by omega)]
      rcases h : scanR (marked s) with - | x
      · rw [h] at hl
        exact hl
      · have h1 := balanced_scan _ _ h
        have := balanced_count _ _ 0 h1
        have h0 : x.1 = 0 := by omega
        rw [h0] at h1
        exact absurd h1 hb
    · rw [if_pos hc]

end PyX.TexMsg
