import Verif.Text.MessageProps

/-!
# C129: parsing the output of TeX: the parsers of `texmessage`
-/

set_option linter.unusedSectionVars false

namespace PyX.TexMsg

/-! ## Searching -/

/-- A function which gives matches at the begin of a string, none of which is empty. -/
def Proper (m : Str → Option (Str × ℕ)) : Prop := ∀ s r, m s = some r → 0 < r.2 ∧ r.2 ≤ s.length

theorem searchFrom_spec (m : Str → Option (Str × ℕ)) (s : Str) : ∀ n,
    (∀ x, searchFrom m n s = some x → ∃ a b k, s = a ++ b ∧ m b = some (x.name, k) ∧ x.start = n + a.length ∧ x.stop = x.start + k ∧ ∀ a' b', s = a' ++ b' → m b' ≠ none → b' ≠ [] → a.length ≤ a'.length) ∧
    (searchFrom m n s = none → ∀ a b, s = a ++ b → b ≠ [] → m b = none) := by
  induction s with
  | nil =>
    intro n
    refine ⟨fun x h => by simp [searchFrom] at h, fun _ a b h hb => ?_⟩
    have := congrArg List.length h
    simp only [List.length_nil, List.length_append] at this
    exact absurd (List.length_eq_zero_iff.mp (by omega)) hb
  | cons c s ih =>
    intro n
    obtain ⟨i1, i2⟩ := ih (n + 1)
    rcases hm : m (c :: s) with - | ⟨name, k⟩
    · refine ⟨fun x h => ?_, fun h a b e hb => ?_⟩
      · rw [searchFrom, hm] at h
        obtain ⟨a, b, k, h1, h2, h3, h4, h5⟩ := i1 x h
        refine ⟨c :: a, b, k, by rw [h1]; rfl, h2, by rw [h3]; simp; omega, h4, ?_⟩
        intro a' b' e hn hb
        cases a' with
        | nil =>
          simp only [List.nil_append] at e
          rw [← e] at hn
          exact absurd hm hn
        | cons y a' =>
          simp only [List.cons_append, List.cons.injEq] at e
          have := h5 a' b' e.2 hn hb
          simp only [List.length_cons]
          omega
      · rw [searchFrom, hm] at h
        cases a with
        | nil =>
          simp only [List.nil_append] at e
          rw [← e]
          exact hm
        | cons y a =>
          simp only [List.cons_append, List.cons.injEq] at e
          exact i2 h a b e.2 hb
    · refine ⟨fun x h => ?_, fun h => ?_⟩
      · rw [searchFrom, hm] at h
        simp only [Option.some.injEq] at h
        subst h
        exact ⟨[], c :: s, k, rfl, hm, rfl, rfl, by simp⟩
      · rw [searchFrom, hm] at h
        simp at h

theorem search_within {m : Str → Option (Str × ℕ)} (hm : Proper m) {s : Str} {x : Match} (h : searchFrom m 0 s = some x) :
    x.Within s ∧ x.start < x.stop ∧ m (s.drop x.start) = some (x.name, x.stop - x.start) := by
  obtain ⟨a, b, k, h1, h2, h3, h4, -⟩ := (searchFrom_spec m s 0).1 x h
  obtain ⟨p1, p2⟩ := hm _ _ h2
  simp only at p1 p2
  have hl : s.length = a.length + b.length := by rw [h1, List.length_append]
  refine ⟨⟨by omega, by omega⟩, by omega, ?_⟩
  rw [h1, h3, zero_add, List.drop_left, h2, h4, h3]
  simp

/-- The string becomes shorter. -/
theorem removePattern_shorter {m : Str → Option (Str × ℕ)} (hm : Proper m) (s r : Str) (nl : Bool) (x : Match) (h : removePattern (searchFrom m 0) s nl = (r, some x)) : r.length < s.length := by
  cases nl with
  | false =>
    rcases hp : searchFrom m 0 s with - | y
    · rw [(removePattern_plain _ s).2.1 hp] at h
      simp at h
    · rw [(removePattern_plain _ s).1 y hp] at h
      simp only [Prod.mk.injEq, Option.some.injEq] at h
      obtain ⟨rfl, rfl⟩ := h
      obtain ⟨⟨w1, w2⟩, w3, -⟩ := search_within hm hp
      simp only [List.length_append, List.length_take, List.length_drop]
      omega
  | true =>
    rcases hp : searchFrom m 0 (dropNl s) with - | y
    · rw [(removePattern_plain _ s).2.2 hp] at h
      simp at h
    · obtain ⟨⟨w1, w2⟩, w3, -⟩ := search_within hm hp
      obtain ⟨a, b, c, e, h2, h3, h4, -⟩ := removePattern_nl _ s y hp ⟨w1, w2⟩
      rw [h2] at h
      simp only [Prod.mk.injEq, Option.some.injEq] at h
      obtain ⟨rfl, rfl⟩ := h
      have hb : 0 < b.length := by
        have := congrArg List.length h4
        simp only [List.length_drop, List.length_take] at this
        have h5 : (dropNl b).length ≤ b.length := List.length_filter_le _ _
        omega
      have := congrArg List.length e
      simp only [List.length_append] at this ⊢
      omega

/-- The loops end. -/
theorem stripAll_ends {m : Str → Option (Str × ℕ)} (hm : Proper m) (nl : Bool) (ok : Str → Bool) : ∀ (n : ℕ) (s : Str), s.length < n →
    stripAll (searchFrom m 0) nl ok n s ≠ .endless ∧ ∀ r, stripAll (searchFrom m 0) nl ok n s = .done r → r.length ≤ s.length := by
  intro n
  induction n with
  | zero => intro s h; omega
  | succ n ih =>
    intro s h
    rw [stripAll]
    rcases hr : removePattern (searchFrom m 0) s nl with ⟨r, - | x⟩
    · simp only
      refine ⟨by simp, fun r' e => ?_⟩
      injection e with e
      subst e
      have : r = s := by
        rw [removePattern] at hr
        split at hr
        · simp only [Prod.mk.injEq] at hr
          exact hr.1.symm
        · simp at hr
      rw [this]
    · have := removePattern_shorter hm s r nl x hr
      obtain ⟨i1, i2⟩ := ih r (by omega)
      simp only
      split_ifs
      · exact ⟨i1, fun r' e => by have := i2 r' e; omega⟩
      · exact ⟨by simp, by simp⟩

theorem untilClose_le : ∀ (s : Str) (k : ℕ), untilClose s = some k → 0 < k ∧ k ≤ s.length := by
  intro s
  induction s with
  | nil => intro k h; simp [untilClose] at h
  | cons c s ih =>
    intro k h
    rw [untilClose] at h
    split_ifs at h
    · simp only [Option.some.injEq] at h
      subst h
      simp
    · obtain ⟨k', h1, h2⟩ := Option.map_eq_some_iff.mp h
      have := ih k' h1
      simp only [List.length_cons]
      omega

theorem quotedFile_proper : Proper quotedFileAt := by
  intro s r h
  rw [quotedFileAt.eq_def] at h
  split at h
  · rename_i s
    split_ifs at h
    split at h
    · simp at h
    · rename_i q t ht
      obtain ⟨k, h1, h2⟩ := Option.map_eq_some_iff.mp h
      subst h2
      have := untilClose_le _ _ h1
      have hl := congrArg List.length (List.takeWhile_append_dropWhile (p := (· ≠ '"')) (l := s))
      rw [ht] at hl
      simp only [List.length_append, List.length_cons] at hl ⊢
      omega
  · simp at h

theorem file_proper : Proper fileAt := by
  intro s r h
  rw [fileAt.eq_def] at h
  split at h
  · rename_i c s
    split_ifs at h
    obtain ⟨k, h1, h2⟩ := Option.map_eq_some_iff.mp h
    subst h2
    have := untilClose_le _ _ h1
    have hl := congrArg List.length (List.takeWhile_append_dropWhile (p := nameChar) (l := s))
    simp only [List.length_append, List.length_cons] at hl ⊢
    omega
  · simp at h

/-- The form of a match in quotes. -/
theorem quotedAt_form (o cl : Char) (es : List Str) (s : Str) (r : Str × ℕ) (h : quotedAt o cl es s = some r) :
    ∃ t, s = o :: '"' :: r.1 ++ '"' :: cl :: t ∧ r.2 = r.1.length + 4 ∧ '"' ∉ r.1 ∧ endsWith es r.1 = true := by
  rw [quotedAt.eq_def] at h
  split at h
  · rename_i a s
    split_ifs at h with ha
    split at h
    · rename_i d t ht
      split_ifs at h with hd
      simp only [Option.some.injEq] at h
      subst h
      refine ⟨t, ?_, ?_, ?_, hd.2⟩
      · have hl := List.takeWhile_append_dropWhile (p := (· ≠ '"')) (l := s)
        rw [ht] at hl
        simp only [List.cons_append, List.cons.injEq, ha, true_and]
        rw [← hd.1]
        exact hl.symm
      · simp only
        omega
      · intro hq
        have := List.mem_takeWhile_imp hq
        simp at this
    · simp at h
  · simp at h

/-- The form of a match without quotes. -/
theorem plainAt_form (o cl : Char) (stop : Char → Bool) (es : List Str) (s : Str) (r : Str × ℕ) (h : plainAt o cl stop es s = some r) :
    ∃ t c n, s = o :: r.1 ++ cl :: t ∧ r.2 = r.1.length + 2 ∧ r.1 = c :: n ∧ c ≠ '"' ∧ (∀ x ∈ n, stop x = false) ∧ ∃ e ∈ es, e.isSuffixOf n = true := by
  rw [plainAt.eq_def] at h
  split at h
  · rename_i a c s
    split_ifs at h with ha
    split at h
    · rename_i d t ht
      split_ifs at h with hd
      simp only [Option.some.injEq] at h
      subst h
      refine ⟨t, c, _, ?_, ?_, rfl, ha.2, ?_, ?_⟩
      · have hl := List.takeWhile_append_dropWhile (p := fun x => !stop x) (l := s)
        rw [ht, hd.1] at hl
        simp only [List.cons_append, List.cons.injEq, ha.1, true_and]
        exact hl.symm
      · simp only [List.length_cons]
        omega
      · intro x hx
        have := List.mem_takeWhile_imp hx
        simpa using this
      · obtain ⟨e, he, h2⟩ := List.any_eq_true.mp hd.2
        exact ⟨e, he, h2⟩
    · simp at h
  · simp at h

theorem quotedAt_proper (o cl : Char) (es : List Str) : Proper (quotedAt o cl es) := by
  intro s r h
  obtain ⟨t, h1, h2, -⟩ := quotedAt_form _ _ _ _ _ h
  rw [h1, h2]
  simp only [List.length_append, List.length_cons]
  omega

theorem plainAt_proper (o cl : Char) (stop : Char → Bool) (es : List Str) : Proper (plainAt o cl stop es) := by
  intro s r h
  obtain ⟨t, c, n, h1, h2, -⟩ := plainAt_form _ _ _ _ _ _ h
  rw [h1, h2]
  simp only [List.length_append, List.length_cons]
  omega

/-! ## All parsers return -/

theorem keep_length (l : List (Char × Kind)) : ∀ d, (keep d l).length ≤ l.length := by
  induction l with
  | nil => intro d; simp [keep]
  | cons y l ih =>
    intro d
    obtain ⟨c, k⟩ := y
    have h1 := ih d
    have h2 := ih 1
    have h3 := ih (d + 1)
    have h4 := ih (d - 1)
    cases k <;> rw [keep] <;> split_ifs <;> simp only [List.length_cons] <;> omega

theorem removeNested_length (s : Str) : (removeNested s).length ≤ s.length := by
  obtain ⟨h1, h2⟩ := removeNested_spec s
  by_cases hb : Balanced 0 (marked s)
  · rw [h1 hb]
    have := keep_length (marked s) 0
    have e : (marked s).length = s.length := by rw [← List.length_map (f := Prod.fst), marked, marks_chars]
    omega
  · rw [h2 hb]

theorem result_ne {x : Strip} (msg : Str) (h : x ≠ .endless) : ∃ r, x.result msg = some r := by
  cases x with
  | done r => exact ⟨r, rfl⟩
  | giveUp => exact ⟨msg, rfl⟩
  | endless => exact absurd rfl h

theorem next_ne {x : Strip} {f : Str → Strip} (h : x ≠ .endless) (hf : ∀ r, x = .done r → f r ≠ .endless) : x.next f ≠ .endless := by
  cases x with
  | done r => exact hf r rfl
  | giveUp => simp [Strip.next]
  | endless => exact absurd rfl h

/-- **C129.**  The parsers for loaded files return for every message and every set of existing files. -/
theorem parsers_return (isfile : Str → Bool) (msg : Str) :
    (∃ r, load isfile msg = some r) ∧ (∃ r, loadDef isfile msg = some r) ∧ ∃ r, loadGraphics isfile msg = some r := by
  refine ⟨result_ne msg (next_ne ?_ ?_), result_ne msg (next_ne ?_ ?_), result_ne msg (next_ne ?_ ?_)⟩
  · exact (stripAll_ends quotedFile_proper _ _ _ _ (by have := removeNested_length msg; omega)).1
  · intro r hr
    have := (stripAll_ends quotedFile_proper _ _ _ _ (by have := removeNested_length msg; omega)).2 r hr
    have h2 := removeNested_length msg
    exact (stripAll_ends file_proper _ _ _ _ (by omega)).1
  · exact (stripAll_ends (quotedAt_proper _ _ _) _ _ _ _ (by omega)).1
  · intro r hr
    have := (stripAll_ends (quotedAt_proper _ _ _) _ _ _ _ (by omega)).2 r hr
    exact (stripAll_ends (plainAt_proper _ _ _ _) _ _ _ _ (by omega)).1
  all_goals
    have key : ∀ (m : Str → Option (Str × ℕ)), Proper m → ∀ s : Str, s.length ≤ msg.length →
        graphicsRound isfile (searchFrom m 0) (msg.length + 1) s ≠ .endless ∧ ∀ r, graphicsRound isfile (searchFrom m 0) (msg.length + 1) s = .done r → r.length ≤ s.length := by
      intro m hm s hs
      rw [graphicsRound]
      rcases hr : removePattern (searchFrom m 0) s true with ⟨r, - | x⟩
      · simp only
        refine ⟨by simp, fun r' e => ?_⟩
        injection e with e
        subst e
        have : r = s := by
          rw [removePattern] at hr
          simp only at hr
          split at hr
          · simp only [Prod.mk.injEq] at hr
            exact hr.1.symm
          · simp at hr
        rw [this]
      · have h1 := removePattern_shorter hm s r true x hr
        simp only
        split_ifs
        · obtain ⟨i1, i2⟩ := stripAll_ends quotedFile_proper true isfile (msg.length + 1) r (by omega)
          exact ⟨i1, fun r' e => by have := i2 r' e; omega⟩
        · exact ⟨by simp, by simp⟩
  · exact (key _ (quotedAt_proper _ _ _) msg (le_refl _)).1
  · intro r hr
    exact (key _ (plainAt_proper _ _ _ _) r ((key _ (quotedAt_proper _ _ _) msg (le_refl _)).2 r hr)).1

/-! ## `load` -/

/-- The text outside of all brackets, when `d` are open at the begin. -/
def outside : ℕ → List (Char × Kind) → Str
  | _, [] => []
  | d, (c, .text) :: l => if d = 0 then c :: outside d l else outside d l
  | d, (_, .opening) :: l => outside (d + 1) l
  | d, (_, .closing) :: l => outside (d - 1) l

/-- A string from texts and contents of brackets. -/
def flat : List (Str × Str) → Str → Str
  | [], t => t
  | (u, b) :: ps, t => u ++ '(' :: b ++ ')' :: flat ps t

/-- No brackets. -/
def Free (s : Str) : Prop := '(' ∉ s ∧ ')' ∉ s

/-- The marks are at the brackets. -/
def Honest (l : List (Char × Kind)) : Prop := ∀ y ∈ l, (y.2 = .opening → y.1 = '(') ∧ (y.2 = .closing → y.1 = ')') ∧ (y.2 = .text → y.1 ≠ '(' ∧ y.1 ≠ ')')

theorem marks_honest (s : Str) (hq : '"' ∉ s) : ∀ po, Honest (marks false po s) := by
  induction s with
  | nil => intro po y hy; simp [marks] at hy
  | cons c s ih =>
    intro po y hy
    have hc : c ≠ '"' := fun h => hq (by simp [h])
    have hs : '"' ∉ s := fun h => hq (by simp [h])
    rw [marks, if_neg hc] at hy
    split_ifs at hy with h1 h2
    · rcases List.mem_cons.mp hy with rfl | hy
      · simp [h1]
      · exact ih hs _ y hy
    · rcases List.mem_cons.mp hy with rfl | hy
      · simp [h2]
      · exact ih hs _ y hy
    · rcases List.mem_cons.mp hy with rfl | hy
      · simp [h1, h2]
      · exact ih hs _ y hy

theorem keep_flat (l : List (Char × Kind)) (hh : Honest l) : ∀ d, Balanced d l →
    (d = 0 → ∃ ps t, keep 0 l = flat ps t ∧ (∀ x ∈ ps, Free x.1 ∧ Free x.2) ∧ Free t ∧ outside 0 l = (ps.map Prod.fst).flatten ++ t) ∧
    (1 ≤ d → ∃ b ps t, keep d l = b ++ ')' :: flat ps t ∧ Free b ∧ (∀ x ∈ ps, Free x.1 ∧ Free x.2) ∧ Free t ∧ outside d l = (ps.map Prod.fst).flatten ++ t) := by
  induction l with
  | nil =>
    intro d h
    simp only [Balanced] at h
    subst h
    exact ⟨fun _ => ⟨[], [], rfl, by simp, by simp [Free], rfl⟩, by omega⟩
  | cons y l ih =>
    intro d h
    have hh' : Honest l := fun z hz => hh z (by simp [hz])
    have hy := hh y (by simp)
    obtain ⟨c, k⟩ := y
    cases k
    · obtain ⟨-, i2⟩ := ih hh' (d + 1) h
      obtain ⟨b, ps, t, h1, h2, h3, h4, h5⟩ := i2 (by omega)
      have hc : c = '(' := hy.1 rfl
      constructor
      · intro hd
        subst hd
        refine ⟨([], b) :: ps, t, ?_, ?_, h4, ?_⟩
        · rw [keep, if_pos rfl, h1, hc]
          simp [flat]
        · intro x hx
          rcases List.mem_cons.mp hx with rfl | hx
          · exact ⟨by simp [Free], h2⟩
          · exact h3 x hx
        · rw [outside, h5]
          simp
      · intro hd
        refine ⟨b, ps, t, ?_, h2, h3, h4, ?_⟩
        · rw [keep, if_neg (by omega), h1]
        · rw [outside, h5]
    · cases d with
      | zero => exact absurd h (by simp [Balanced])
      | succ d =>
        obtain ⟨i1, i2⟩ := ih hh' d h
        have hc : c = ')' := hy.2.1 rfl
        refine ⟨by omega, fun _ => ?_⟩
        rcases Nat.eq_zero_or_pos d with rfl | hd
        · obtain ⟨ps, t, h1, h2, h3, h4⟩ := i1 rfl
          refine ⟨[], ps, t, ?_, by simp [Free], h2, h3, ?_⟩
          · rw [keep, if_pos (by omega), hc]
            simp [h1]
          · rw [outside]
            exact h4
        · obtain ⟨b, ps, t, h1, h2, h3, h4, h5⟩ := i2 hd
          refine ⟨b, ps, t, ?_, h2, h3, h4, ?_⟩
          · rw [keep, if_neg (by omega), Nat.add_sub_cancel, h1]
          · rw [outside, Nat.add_sub_cancel, h5]
    · obtain ⟨i1, i2⟩ := ih hh' d h
      have hc := hy.2.2 rfl
      constructor
      · intro hd
        subst hd
        obtain ⟨ps, t, h1, h2, h3, h4⟩ := i1 rfl
        rw [keep, if_pos (by omega), outside, if_pos rfl, h1, h4]
        cases ps with
        | nil =>
          refine ⟨[], c :: t, rfl, by simp, ?_, rfl⟩
          exact ⟨by simp [h3.1, Ne.symm hc.1], by simp [h3.2, Ne.symm hc.2]⟩
        | cons x ps =>
          obtain ⟨u, b⟩ := x
          have hu := h2 (u, b) (by simp)
          refine ⟨(c :: u, b) :: ps, t, rfl, ?_, h3, by simp⟩
          intro x hx
          rcases List.mem_cons.mp hx with rfl | hx
          · exact ⟨⟨by simp [hu.1.1, Ne.symm hc.1], by simp [hu.1.2, Ne.symm hc.2]⟩, hu.2⟩
          · exact h2 x (by simp [hx])
      · intro hd
        obtain ⟨b, ps, t, h1, h2, h3, h4, h5⟩ := i2 hd
        rw [outside, if_neg (by omega), h5, keep]
        by_cases h1' : d ≤ 1
        · rw [if_pos h1', h1]
          exact ⟨c :: b, ps, t, rfl, ⟨by simp [h2.1, Ne.symm hc.1], by simp [h2.2, Ne.symm hc.2]⟩, h3, h4, rfl⟩
        · rw [if_neg h1', h1]
          exact ⟨b, ps, t, rfl, h2, h3, h4, rfl⟩

/-- The name of the file in a bracket: the characters before the first space. -/
def fileName : Str → Str
  | [] => []
  | c :: b => c :: b.takeWhile (· ≠ ' ')

theorem search_skip (m : Str → Option (Str × ℕ)) (u s : Str) (hu : ∀ a b, u = a ++ b → b ≠ [] → m (b ++ s) = none) : ∀ n, searchFrom m n (u ++ s) = searchFrom m (n + u.length) s := by
  induction u with
  | nil => intro n; rfl
  | cons c u ih =>
    intro n
    rw [List.cons_append, searchFrom]
    have := hu [] (c :: u) rfl (by simp)
    rw [List.cons_append] at this
    rw [this]
    simp only
    rw [ih (fun a b e hb => hu (c :: a) b (by rw [e]; rfl) hb)]
    simp only [List.length_cons]
    congr 1
    omega

theorem fileAt_none (s : Str) (h : ∀ t, s ≠ '(' :: t) : fileAt s = none := by
  rw [fileAt.eq_def]
  split
  · rename_i c s
    exact absurd rfl (h _)
  · rfl

theorem takeWhile_bracket (b r : Str) (hb : ')' ∉ b) : (b ++ ')' :: r).takeWhile nameChar = b.takeWhile (· ≠ ' ') ∧
    untilClose ((b ++ ')' :: r).dropWhile nameChar) = some (b.length - (b.takeWhile (· ≠ ' ')).length + 1) := by
  have huc : ∀ b : Str, ')' ∉ b → untilClose (b ++ ')' :: r) = some (b.length + 1) := by
    intro b
    induction b with
    | nil => intro _; simp [untilClose]
    | cons c b ih =>
      intro h
      have hc : c ≠ ')' := fun e => h (by simp [e])
      rw [List.cons_append, untilClose, if_neg hc, ih (fun e => h (by simp [e]))]
      simp
  induction b with
  | nil => exact ⟨by simp [nameChar], by simp [nameChar, untilClose]⟩
  | cons c b ih =>
    have hc : c ≠ ')' := fun e => hb (by simp [e])
    have hb' : ')' ∉ b := fun e => hb (by simp [e])
    obtain ⟨i1, i2⟩ := ih hb'
    by_cases hsp : c = ' '
    · subst hsp
      refine ⟨by simp [nameChar], ?_⟩
      rw [List.cons_append, List.dropWhile_cons_of_neg (by simp [nameChar])]
      have := huc (' ' :: b) hb
      rw [List.cons_append] at this
      rw [this]
      simp
    · have hn : nameChar c = true := by simp [nameChar, hc, hsp]
      rw [List.cons_append, List.takeWhile_cons_of_pos hn, List.dropWhile_cons_of_pos hn, List.takeWhile_cons_of_pos (by simp [hsp]), i1, i2]
      exact ⟨rfl, by simp⟩

theorem fileAt_bracket (b r : Str) (hb : Free b) (hne : b ≠ []) (hq : '"' ∉ b) : fileAt ('(' :: b ++ ')' :: r) = some (fileName b, b.length + 2) := by
  cases b with
  | nil => exact absurd rfl hne
  | cons c b =>
    have hc : c ≠ '"' := fun e => hq (by simp [e])
    have hb' : ')' ∉ b := fun e => hb.2 (by simp [e])
    obtain ⟨h1, h2⟩ := takeWhile_bracket b r hb'
    rw [List.cons_append, List.cons_append, fileAt, if_neg hc, h1, h2]
    simp only [Option.map_some, fileName, List.length_cons, Option.some.injEq, Prod.mk.injEq, true_and]
    have : (b.takeWhile (· ≠ ' ')).length ≤ b.length := (List.takeWhile_sublist _).length_le
    omega

theorem strip_flat (ok : Str → Bool) (t : Str) (ht : Free t) : ∀ (ps : List (Str × Str)) (u : Str) (n : ℕ), ps.length < n → '(' ∉ u → (∀ x ∈ ps, Free x.1 ∧ Free x.2 ∧ x.2 ≠ [] ∧ '"' ∉ x.2) →
    stripAll file false ok n (u ++ flat ps t) = if ps.all (fun x => ok (fileName x.2)) then .done (u ++ ((ps.map Prod.fst).flatten ++ t)) else .giveUp := by
  intro ps
  induction ps with
  | nil =>
    intro u n hn hu _
    obtain ⟨n, rfl⟩ : ∃ n', n = n' + 1 := ⟨n - 1, by simp at hn; omega⟩
    have hno : file (u ++ flat [] t) = none := by
      rw [file, flat]
      have : searchFrom fileAt 0 ((u ++ t) ++ []) = searchFrom fileAt (0 + (u ++ t).length) [] := search_skip _ _ _ (fun a b e hb => by
        apply fileAt_none
        intro r hr
        have : '(' ∈ u ++ t := by
          rw [e]
          have : '(' ∈ b ++ [] := by rw [hr]; simp
          simp at this
          simp [this]
        rcases List.mem_append.mp this with h | h
        · exact hu h
        · exact ht.1 h) 0
      rw [List.append_nil] at this
      rw [this]
      rfl
    rw [stripAll, (removePattern_plain _ _).2.1 hno]
    simp [flat]
  | cons x ps ih =>
    intro u n hn hu hps
    obtain ⟨n, rfl⟩ : ∃ n', n = n' + 1 := ⟨n - 1, by simp at hn; omega⟩
    obtain ⟨v, b⟩ := x
    obtain ⟨hv, hb, hne, hq⟩ := hps (v, b) (by simp)
    have hs : file (u ++ flat ((v, b) :: ps) t) = some ⟨(u ++ v).length, (u ++ v).length + (b.length + 2), fileName b⟩ := by
      rw [file, flat]
      rw [show u ++ (v ++ '(' :: b ++ ')' :: flat ps t) = (u ++ v) ++ ('(' :: b ++ ')' :: flat ps t) by simp, search_skip _ _ _ (fun a c e hc => by
        apply fileAt_none
        intro r hr
        have : '(' ∈ u ++ v := by
          rw [e]
          cases c with
          | nil => exact absurd rfl hc
          | cons y c =>
            simp only [List.cons_append, List.cons.injEq] at hr
            simp [hr.1]
        rcases List.mem_append.mp this with h | h
        · exact hu h
        · exact hv.1 h)]
      have h2 := fileAt_bracket b (flat ps t) hb hne hq
      rw [List.cons_append] at h2 ⊢
      rw [searchFrom, h2]
      simp
    rw [stripAll, (removePattern_plain _ _).1 _ hs]
    simp only
    have e : (u ++ flat ((v, b) :: ps) t).take (u ++ v).length ++ (u ++ flat ((v, b) :: ps) t).drop ((u ++ v).length + (b.length + 2)) = (u ++ v) ++ flat ps t := by
      rw [flat, show u ++ (v ++ '(' :: b ++ ')' :: flat ps t) = (u ++ v) ++ (('(' :: b ++ [')']) ++ flat ps t) by simp, List.take_left]
      rw [List.drop_length_add_append, List.drop_left' (by simp)]
    rw [e]
    by_cases hok : ok (fileName b) = true
    · rw [if_pos hok, ih (u ++ v) n (by simp at hn; omega) (by
        intro h
        rcases List.mem_append.mp h with h | h
        · exact hu h
        · exact hv.1 h) (fun x hx => hps x (by simp [hx]))]
      simp only [List.all_cons, hok, Bool.true_and, List.map_cons, List.flatten_cons, List.append_assoc]
    · rw [if_neg hok]
      simp [hok]

/-- **C129.**  The names which are tried for a file name broken into lines: the beginnings before each newline (and the whole name), without the newlines. -/
theorem accumulated_spec (s : Str) : ∀ (acc x : Str), x ∈ accumulated acc s ↔ ∃ a b, s = a ++ b ∧ (b = [] ∨ ∃ b', b = '\n' :: b') ∧ x = acc ++ dropNl a := by
  induction s with
  | nil =>
    intro acc x
    simp only [accumulated, List.mem_singleton]
    constructor
    · rintro rfl
      exact ⟨[], [], rfl, Or.inl rfl, by simp [dropNl]⟩
    · rintro ⟨a, b, h, -, rfl⟩
      have : a = [] := by
        cases a with
        | nil => rfl
        | cons => simp at h
      simp [this, dropNl]
  | cons c s ih =>
    intro acc x
    rw [accumulated]
    by_cases hc : c = '\n'
    · rw [if_pos hc, List.mem_cons, ih]
      constructor
      · rintro (rfl | ⟨a, b, h1, h2, h3⟩)
        · exact ⟨[], c :: s, rfl, Or.inr ⟨s, by rw [hc]⟩, by simp [dropNl]⟩
        · exact ⟨c :: a, b, by rw [h1]; rfl, h2, by rw [h3]; simp [dropNl, hc]⟩
      · rintro ⟨a, b, h1, h2, h3⟩
        cases a with
        | nil => exact Or.inl (by simpa [dropNl] using h3)
        | cons y a =>
          simp only [List.cons_append, List.cons.injEq] at h1
          obtain ⟨rfl, h1⟩ := h1
          exact Or.inr ⟨a, b, h1, h2, by rw [h3]; simp [dropNl, hc]⟩
    · rw [if_neg hc, ih]
      constructor
      · rintro ⟨a, b, h1, h2, h3⟩
        exact ⟨c :: a, b, by rw [h1]; rfl, h2, by rw [h3]; simp [dropNl, hc]⟩
      · rintro ⟨a, b, h1, h2, h3⟩
        cases a with
        | nil =>
          rcases h2 with rfl | ⟨b', rfl⟩
          · simp at h1
          · simp only [List.nil_append, List.cons.injEq] at h1
            exact absurd h1.1 hc
        | cons y a =>
          simp only [List.cons_append, List.cons.injEq] at h1
          obtain ⟨rfl, h1⟩ := h1
          exact ⟨a, b, h1, h2, by rw [h3]; simp [dropNl, hc]⟩

theorem mem_keep (l : List (Char × Kind)) : ∀ d, ∀ c ∈ keep d l, c ∈ l.map Prod.fst := by
  induction l with
  | nil => intro d c h; simp [keep] at h
  | cons y l ih =>
    intro d c h
    obtain ⟨x, k⟩ := y
    rw [List.map_cons, List.mem_cons]
    cases k <;> rw [keep] at h <;> split_ifs at h
    all_goals first
      | (rcases List.mem_cons.mp h with h | h
         · exact Or.inl h
         · exact Or.inr (ih _ c h))
      | exact Or.inr (ih _ c h)

theorem quotedFile_none (s : Str) (hq : '"' ∉ s) (ok : Str → Bool) (n : ℕ) : stripAll quotedFile true ok (n + 1) s = .done s := by
  have hno : quotedFile (dropNl s) = none := by
    have hq' : '"' ∉ dropNl s := fun h => hq (List.mem_filter.mp h).1
    generalize dropNl s = r at hq'
    have : ∀ n, searchFrom quotedFileAt n r = none := by
      induction r with
      | nil => intro n; rfl
      | cons c r ih =>
        intro n
        rw [searchFrom]
        have : quotedFileAt (c :: r) = none := by
          rw [quotedFileAt.eq_def]
          split
          · rename_i s' e
            exact absurd (by rw [e]; simp) hq'
          · rfl
        rw [this]
        exact ih (fun h => hq' (by simp [h])) _
    exact this 0
  rw [stripAll, (removePattern_plain _ _).2.2 hno]

/-- The text consists of the parts of the list, outside and within the brackets of the first level. -/
def Parts (msg : Str) (ps : List (Str × Str)) (t : Str) : Prop :=
  keep 0 (marked msg) = flat ps t ∧ (∀ x ∈ ps, Free x.1 ∧ Free x.2) ∧ Free t

theorem parts_exist (msg : Str) (hq : '"' ∉ msg) (hb : Balanced 0 (marked msg)) :
    ∃ ps t, Parts msg ps t ∧ outside 0 (marked msg) = (ps.map Prod.fst).flatten ++ t := by
  obtain ⟨ps, t, h1, h2, h3, h4⟩ := (keep_flat (marked msg) (marks_honest msg hq _) 0 hb).1 rfl
  exact ⟨ps, t, ⟨h1, h2, h3⟩, h4⟩

theorem flat_unique {ps ps' : List (Str × Str)} {t t' : Str} (h : flat ps t = flat ps' t') (h1 : ∀ x ∈ ps, Free x.1 ∧ Free x.2) (h1' : ∀ x ∈ ps', Free x.1 ∧ Free x.2)
    (h2 : Free t) (h2' : Free t') : ps = ps' ∧ t = t' := by
  have split : ∀ (c : Char) (u v r r' : Str), c ∉ u → c ∉ v → u ++ c :: r = v ++ c :: r' → u = v ∧ r = r' := by
    intro c u
    induction u with
    | nil =>
      intro v r r' _ hv e
      cases v with
      | nil => simpa using e
      | cons y v =>
        simp only [List.nil_append, List.cons_append, List.cons.injEq] at e
        exact absurd (by simp [e.1]) hv
    | cons x u ih =>
      intro v r r' hu hv e
      cases v with
      | nil =>
        simp only [List.nil_append, List.cons_append, List.cons.injEq] at e
        exact absurd (by simp [e.1]) hu
      | cons y v =>
        simp only [List.cons_append, List.cons.injEq] at e
        obtain ⟨i1, i2⟩ := ih v r r' (fun h => hu (by simp [h])) (fun h => hv (by simp [h])) e.2
        exact ⟨by rw [e.1, i1], i2⟩
  induction ps generalizing ps' with
  | nil =>
    cases ps' with
    | nil => exact ⟨rfl, h⟩
    | cons x ps' =>
      exfalso
      rw [flat] at h
      exact h2.1 (by rw [h, flat]; simp)
  | cons x ps ih =>
    obtain ⟨u, b⟩ := x
    cases ps' with
    | nil =>
      exfalso
      rw [flat, flat] at h
      exact h2'.1 (by rw [← h]; simp)
    | cons x' ps' =>
      obtain ⟨u', b'⟩ := x'
      have f1 := h1 (u, b) (by simp)
      have f2 := h1' (u', b') (by simp)
      rw [flat, flat, List.append_assoc, List.append_assoc, List.cons_append, List.cons_append] at h
      obtain ⟨e1, e2⟩ := split '(' u u' _ _ f1.1.1 f2.1.1 h
      obtain ⟨e3, e4⟩ := split ')' b b' _ _ f1.2.2 f2.2.2 e2
      obtain ⟨e5, e6⟩ := ih e4 (fun x hx => h1 x (by simp [hx])) (fun x hx => h1' x (by simp [hx]))
      exact ⟨by rw [e1, e3, e5], e6⟩

/-- **C129 (partial).**  `load` of a message without quotes and with balanced brackets: if each bracket of the first level begins with the name of an existing file (as it is, or
broken into lines), exactly the text outside of the brackets is left; otherwise the message is unchanged.  Missing: quotes, empty brackets, and brackets which are not balanced, for
which text outside gets lost (`load_loses_text`). -/
theorem load_partial (isfile : Str → Bool) (msg : Str) (hq : '"' ∉ msg) (hb : Balanced 0 (marked msg)) (ps : List (Str × Str)) (t : Str) (hp : Parts msg ps t) (hne : ∀ x ∈ ps, x.2 ≠ []) :
    ((∀ x ∈ ps, ∃ n ∈ accumulated [] (fileName x.2), isfile n = true) → load isfile msg = some (outside 0 (marked msg))) ∧
    ((¬ ∀ x ∈ ps, ∃ n ∈ accumulated [] (fileName x.2), isfile n = true) → load isfile msg = some msg) := by
  obtain ⟨ps', t', hp', ho⟩ := parts_exist msg hq hb
  obtain ⟨rfl, rfl⟩ := flat_unique (hp'.1.symm.trans hp.1) hp'.2.1 hp.2.1 hp'.2.2 hp.2.2
  obtain ⟨h1, h2, h3⟩ := hp
  have hk : '"' ∉ keep 0 (marked msg) := by
    intro h
    have := mem_keep _ _ _ h
    rw [marked, marks_chars] at this
    exact hq this
  have hlen : ps'.length < msg.length + 1 := by
    have l1 := keep_length (marked msg) 0
    have l2 : (marked msg).length = msg.length := by rw [← List.length_map (f := Prod.fst), marked, marks_chars]
    have l3 : ∀ (ps : List (Str × Str)) (t : Str), ps.length ≤ (flat ps t).length := by
      intro ps
      induction ps with
      | nil => intro t; simp
      | cons x ps ih =>
        intro t
        obtain ⟨u, b⟩ := x
        have := ih t
        simp only [flat, List.length_append, List.length_cons]
        omega
    have := l3 ps' t'
    rw [← h1] at this
    omega
  have hqb : ∀ x ∈ ps', '"' ∉ x.2 := by
    have hm : ∀ (ps : List (Str × Str)) (t : Str), ∀ x ∈ ps, ∀ c ∈ x.2, c ∈ flat ps t := by
      intro ps
      induction ps with
      | nil => intro t x hx; simp at hx
      | cons y ps ih =>
        intro t x hx c hc
        obtain ⟨u, b⟩ := y
        rcases List.mem_cons.mp hx with rfl | hx
        · simp [flat, hc]
        · have := ih t x hx c hc
          simp [flat, this]
    intro x hx h
    rw [h1] at hk
    exact hk (hm ps' t' x hx _ h)
  have hs := strip_flat (fun n => (accumulated [] n).any isfile) t' h3 ps' [] (msg.length + 1) hlen (by simp) (fun x hx => ⟨(h2 x hx).1, (h2 x hx).2, hne x hx, hqb x hx⟩)
  rw [List.nil_append, List.nil_append] at hs
  have hl : load isfile msg = (if ps'.all (fun x => (accumulated [] (fileName x.2)).any isfile) then Strip.done ((ps'.map Prod.fst).flatten ++ t') else .giveUp).result msg := by
    rw [load, (removeNested_spec msg).1 hb, quotedFile_none _ hk, Strip.next, h1, hs]
  have hiff : (ps'.all (fun x => (accumulated [] (fileName x.2)).any isfile) = true) ↔ ∀ x ∈ ps', ∃ n ∈ accumulated [] (fileName x.2), isfile n = true := by
    simp [List.all_eq_true, List.any_eq_true]
  constructor
  · intro h
    rw [hl, if_pos (hiff.mpr h), Strip.result, ho]
  · intro h
    rw [hl, if_neg (fun e => h (hiff.mp e)), Strip.result]

/-- **C129.**  A message without brackets is not changed by `load`. -/
theorem load_unbracketed (isfile : Str → Bool) (msg : Str) (hq : '"' ∉ msg) (ho : '(' ∉ msg) (hc : ')' ∉ msg) : load isfile msg = some msg := by
  have h : ∀ (s : Str) (po : Bool), '"' ∉ s → '(' ∉ s → ')' ∉ s → marks false po s = s.map fun c => (c, .text) := by
    intro s
    induction s with
    | nil => intros; rfl
    | cons c s ih =>
      intro po h1 h2 h3
      rw [marks, if_neg (fun e => h1 (by simp [e])), if_neg (fun e => h2 (by simp [e])), if_neg (fun e => h3 (by simp [e])), ih _ (fun e => h1 (by simp [e])) (fun e => h2 (by simp [e])) (fun e => h3 (by simp [e]))]
      rfl
  have hb : ∀ s : Str, Balanced 0 (s.map fun c => (c, Kind.text)) ∧ keep 0 (s.map fun c => (c, Kind.text)) = s := by
    intro s
    induction s with
    | nil => exact ⟨rfl, rfl⟩
    | cons c s ih => exact ⟨ih.1, by rw [List.map_cons, keep, if_pos (by omega), ih.2]⟩
  have hm : marked msg = msg.map fun c => (c, .text) := h msg _ hq ho hc
  have := (load_partial isfile msg hq (by rw [hm]; exact (hb msg).1) [] msg ⟨by rw [hm, (hb msg).2]; rfl, by simp, ho, hc⟩ (by simp)).1 (by simp)
  rw [this]
  congr 1
  rw [hm]
  clear this hm hq ho hc
  induction msg with
  | nil => rfl
  | cons c s ih => rw [List.map_cons, outside, if_pos rfl, ih]

/-- **C129.**  Brackets which are not balanced: an error message after the name of an existing file is removed together with the name of the next one. -/
theorem load_loses_text (isfile : Str → Bool) (h : isfile "a.tex".toList = true) :
    load isfile "(a.tex\n! Undefined control sequence.\n(b.tex)\n".toList = some "\n".toList := by
  have hq : removeNested "(a.tex\n! Undefined control sequence.\n(b.tex)\n".toList = "(a.tex\n! Undefined control sequence.\n(b.tex)\n".toList := by decide +kernel
  have h1 : file "(a.tex\n! Undefined control sequence.\n(b.tex)\n".toList = some ⟨0, 44, "a.tex\n!".toList⟩ := by rfl
  have h2 : file "\n".toList = none := rfl
  have h3 : (accumulated [] "a.tex\n!".toList).any isfile = true := by
    rw [show accumulated [] "a.tex\n!".toList = ["a.tex".toList, "a.tex!".toList] by decide +kernel]
    rw [List.any_cons, h]
    rfl
  rw [load, hq]
  rw [quotedFile_none _ (by decide +kernel)]
  simp only [Strip.next]
  rw [stripAll, (removePattern_plain _ _).1 _ h1]
  simp only [h3, if_true]
  rw [show List.take 0 "(a.tex\n! Undefined control sequence.\n(b.tex)\n".toList ++ List.drop 44 "(a.tex\n! Undefined control sequence.\n(b.tex)\n".toList = "\n".toList by decide +kernel]
  rw [show "(a.tex\n! Undefined control sequence.\n(b.tex)\n".toList.length = 44 + 1 by decide +kernel, stripAll, (removePattern_plain _ _).2.1 h2]
  rfl

/-- **C129.**  A line which is broken between the bracket and the quote: the brackets in the file name are removed as nested ones, so the file is not found and the message is left. -/
theorem broken_before_quote :
    load (fun n => decide (n = "C (x86)/a.tex".toList)) "(\"C (x86)/a.tex\")".toList = some [] ∧
    load (fun n => decide (n = "C (x86)/a.tex".toList)) "(\n\"C (x86)/a.tex\")".toList = some "(\n\"C (x86)/a.tex\")".toList := by
  decide +kernel

/-! ## `load_def` and `load_graphics` -/

/-- Parts of a string are removed: each is, up to newlines, of the given shape for an existing file. -/
inductive Pieces (isfile : Str → Bool) (shape : Str → Str → Prop) : Str → Str → Prop
  | none (s : Str) : Pieces isfile shape s s
  | some (a b c name r : Str) : shape name (dropNl b) → isfile name = true → Pieces isfile shape (a ++ c) r → Pieces isfile shape (a ++ b ++ c) r

theorem stripAll_pieces {m : Str → Option (Str × ℕ)} (hm : Proper m) (isfile : Str → Bool) (shape : Str → Str → Prop) (hs : ∀ s r, m s = some r → shape r.1 (s.take r.2)) :
    ∀ (n : ℕ) (s r : Str), stripAll (searchFrom m 0) true isfile n s = .done r → Pieces isfile shape s r ∧ searchFrom m 0 (dropNl r) = none := by
  intro n
  induction n with
  | zero => intro s r h; simp [stripAll] at h
  | succ n ih =>
    intro s r h
    rw [stripAll] at h
    rcases hp : searchFrom m 0 (dropNl s) with - | x
    · rw [(removePattern_plain _ _).2.2 hp] at h
      simp only at h
      injection h with h
      subst h
      exact ⟨.none s, hp⟩
    · obtain ⟨hw, -, h3⟩ := search_within hm hp
      obtain ⟨a, b, c, e, h2, ha, hb, hc, -⟩ := removePattern_nl _ s x hp hw
      rw [h2] at h
      simp only at h
      split_ifs at h with hf
      obtain ⟨i1, i2⟩ := ih _ _ h
      refine ⟨?_, i2⟩
      rw [e]
      refine .some a b c x.name r ?_ hf i1
      have := hs _ _ h3
      simp only at this
      rw [hb, List.drop_take]
      exact this

theorem next_done {x : Strip} {f : Str → Strip} {r : Str} (h : x.next f = .done r) : ∃ y, x = .done y ∧ f y = .done r := by
  cases x with
  | done y => exact ⟨y, rfl, h⟩
  | giveUp => simp [Strip.next] at h
  | endless => simp [Strip.next] at h

theorem result_cases {x : Strip} {msg r : Str} (h : x.result msg = some r) : x = .done r ∨ r = msg := by
  cases x with
  | done y => simp only [Strip.result, Option.some.injEq] at h; exact Or.inl (by rw [h])
  | giveUp => simp only [Strip.result, Option.some.injEq] at h; exact Or.inr h.symm
  | endless => simp [Strip.result] at h

/-- A file name with one of the endings, in brackets and quotes, or in brackets. -/
def DefShape (name s : Str) : Prop :=
  (s = '(' :: '"' :: name ++ "\")".toList ∨ s = '(' :: name ++ ")".toList) ∧ ∃ e ∈ defEnds, ∃ x, x ≠ [] ∧ name = x ++ e

theorem endsWith_form {es : List Str} {s : Str} (h : endsWith es s = true) : ∃ e ∈ es, ∃ x, x ≠ [] ∧ s = x ++ e := by
  obtain ⟨e, he, h2⟩ := List.any_eq_true.mp h
  simp only [Bool.and_eq_true, decide_eq_true_eq] at h2
  obtain ⟨x, hx⟩ := List.isSuffixOf_iff_suffix.mp h2.2
  refine ⟨e, he, x, ?_, hx.symm⟩
  rintro rfl
  rw [← hx] at h2
  simp at h2

/-- **C129.**  `load_def` removes only names of existing files which end with `.fd` or `.def`, in brackets (with or without quotes, possibly broken into lines), or it leaves the
message unchanged. -/
theorem loadDef_sound (isfile : Str → Bool) (msg r : Str) (h : loadDef isfile msg = some r) :
    r = msg ∨ (∃ y, Pieces isfile DefShape msg y ∧ Pieces isfile DefShape y r) ∧ plainDef (dropNl r) = none := by
  rcases result_cases h with h | h
  · obtain ⟨y, h1, h2⟩ := next_done h
    right
    obtain ⟨p1, -⟩ := stripAll_pieces (quotedAt_proper _ _ _) isfile DefShape (fun s x hx => by
      obtain ⟨t, e1, e2, -, e4⟩ := quotedAt_form _ _ _ _ _ hx
      refine ⟨Or.inl ?_, endsWith_form e4⟩
      rw [e1, e2]
      rw [show '(' :: '"' :: x.1 ++ '"' :: ')' :: t = ('(' :: '"' :: x.1 ++ "\")".toList) ++ t by simp]
      exact List.take_left' (by simp)) _ _ _ h1
    obtain ⟨p2, p3⟩ := stripAll_pieces (plainAt_proper _ _ _ _) isfile DefShape (fun s x hx => by
      obtain ⟨t, c, n, e1, e2, e3, -, -, e, he, he2⟩ := plainAt_form _ _ _ _ _ _ hx
      refine ⟨Or.inr ?_, e, he, ?_⟩
      · rw [e1, e2]
        rw [show '(' :: x.1 ++ ')' :: t = ('(' :: x.1 ++ ")".toList) ++ t by simp]
        exact List.take_left' (by simp)
      · obtain ⟨z, hz⟩ := List.isSuffixOf_iff_suffix.mp he2
        exact ⟨c :: z, by simp, by rw [e3, ← hz]; rfl⟩) _ _ _ h2
    exact ⟨⟨y, p1, p2⟩, p3⟩
  · exact Or.inl h

/-- **C129.**  If all files exist, no name of such a file without quotes is left by `load_def`. -/
theorem loadDef_complete (isfile : Str → Bool) (hall : ∀ n, isfile n = true) (msg : Str) : ∃ r, loadDef isfile msg = some r ∧ plainDef (dropNl r) = none := by
  have hng : ∀ (p : Regex) (n : ℕ) (s : Str), stripAll p true isfile n s ≠ .giveUp := by
    intro p n
    induction n with
    | zero => intro s; simp [stripAll]
    | succ n ih =>
      intro s
      rw [stripAll]
      rcases removePattern p s true with ⟨r, - | x⟩
      · simp
      · simp only [hall, if_true]
        exact ih r
  have h1 := stripAll_ends (quotedAt_proper '(' ')' defEnds) true isfile (msg.length + 1) msg (by omega)
  rcases hq : stripAll quotedDef true isfile (msg.length + 1) msg with y | - | -
  · have hy := h1.2 y hq
    have h2 := stripAll_ends (plainAt_proper '(' ')' (fun x => x = ' ' || x = ')') defEnds) true isfile (msg.length + 1) y (by omega)
    rcases hp : stripAll plainDef true isfile (msg.length + 1) y with r | - | -
    · refine ⟨r, by rw [loadDef, hq, Strip.next, hp]; rfl, ?_⟩
      exact (stripAll_pieces (plainAt_proper _ _ _ _) isfile (fun _ _ => True) (fun _ _ _ => trivial) _ _ _ hp).2
    · exact absurd hp (hng _ _ _)
    · exact absurd hp h2.1
  · exact absurd hq (hng _ _ _)
  · exact absurd hq h1.1

/-- **C129.**  `load_graphics` handles only the first of two graphics files: the loop goes on with the wrong pattern. -/
theorem graphics_second_left (isfile : Str → Bool) (h : isfile "a.eps".toList = true) :
    loadGraphics isfile "<a.eps><b.eps>".toList = some "<b.eps>".toList := by
  have h0 : quotedGraphics (dropNl "<a.eps><b.eps>".toList) = none := rfl
  have h1 : plainGraphics (dropNl "<a.eps><b.eps>".toList) = some ⟨0, 7, "a.eps".toList⟩ := rfl
  have h2 : removePattern plainGraphics "<a.eps><b.eps>".toList true = ("<b.eps>".toList, some ⟨0, 7, "a.eps".toList⟩) := by
    rw [removePattern]
    simp only [if_true, h1]
    rfl
  rw [loadGraphics, graphicsRound, (removePattern_plain _ _).2.2 h0]
  simp only [Strip.next]
  rw [graphicsRound, h2]
  simp only [h, if_true]
  rw [quotedFile_none _ (by decide +kernel)]
  rfl

/-- **C129.**  … and it removes text which has nothing to do with graphics: here an error while another file is read. -/
theorem graphics_loses_text (isfile : Str → Bool) (h : isfile "a.eps".toList = true) (h' : isfile "b.tex".toList = true) :
    loadGraphics isfile "<a.eps>(\"b.tex\" ! Undefined control sequence.)".toList = some [] := by
  have h0 : quotedGraphics (dropNl "<a.eps>(\"b.tex\" ! Undefined control sequence.)".toList) = none := rfl
  have h1 : plainGraphics (dropNl "<a.eps>(\"b.tex\" ! Undefined control sequence.)".toList) = some ⟨0, 7, "a.eps".toList⟩ := rfl
  have h2 : removePattern plainGraphics "<a.eps>(\"b.tex\" ! Undefined control sequence.)".toList true = ("(\"b.tex\" ! Undefined control sequence.)".toList, some ⟨0, 7, "a.eps".toList⟩) := by
    rw [removePattern]
    simp only [if_true, h1]
    rfl
  have h3 : quotedFile (dropNl "(\"b.tex\" ! Undefined control sequence.)".toList) = some ⟨0, 39, "b.tex".toList⟩ := rfl
  have h4 : removePattern quotedFile "(\"b.tex\" ! Undefined control sequence.)".toList true = ([], some ⟨0, 39, "b.tex".toList⟩) := by
    rw [removePattern]
    simp only [if_true, h3]
    rfl
  rw [loadGraphics, graphicsRound, (removePattern_plain _ _).2.2 h0]
  simp only [Strip.next]
  rw [graphicsRound, h2]
  simp only [h, if_true]
  rw [stripAll, h4]
  simp only [h', if_true]
  rw [show "<a.eps>(\"b.tex\" ! Undefined control sequence.)".toList.length = 45 + 1 by decide +kernel, quotedFile_none _ (by simp)]
  rfl

/-! ## `pattern` and `start` -/

/-- The parts which are logged are those which are removed, one after the other. -/
inductive Logged : List Str → Str → Str → Prop
  | none (s : Str) : Logged [] s s
  | some (a b c r : Str) (l : List Str) : Logged l (a ++ c) r → Logged (b :: l) (a ++ b ++ c) r

/-- **C129.**  `pattern` logs what it removes, removes nothing else, and nothing which matches is left; it returns if the pattern has no empty match. -/
theorem warnAll_spec (p : Regex) (hp : ∀ s x, p s = some x → x.Within s ∧ x.start < x.stop) : ∀ (n : ℕ) (s : Str), s.length < n →
    ∃ l r, warnAll p n s = some (l, r) ∧ Logged l s r ∧ p r = none := by
  intro n
  induction n with
  | zero => intro s h; omega
  | succ n ih =>
    intro s h
    rw [warnAll]
    rcases hx : p s with - | x
    · rw [(removePattern_plain _ _).2.1 hx]
      exact ⟨[], s, rfl, .none s, hx⟩
    · obtain ⟨⟨w1, w2⟩, w3⟩ := hp s x hx
      rw [(removePattern_plain _ _).1 x hx]
      simp only
      obtain ⟨l, r, h1, h2, h3⟩ := ih (s.take x.start ++ s.drop x.stop) (by simp only [List.length_append, List.length_take, List.length_drop]; omega)
      refine ⟨(s.take x.stop).drop x.start :: l, r, by rw [h1]; rfl, ?_, h3⟩
      have := Logged.some (s.take x.start) ((s.take x.stop).drop x.start) (s.drop x.stop) r l h2
      rw [← take_drop_split s _ _ w1] at this
      exact this

/-- **C129.**  `pattern` does not return for a pattern which matches the empty string at the begin. -/
theorem pattern_endless (s : Str) : ∀ n, warnAll (fun _ => some ⟨0, 0, []⟩) n s = none := by
  intro n
  induction n with
  | zero => rfl
  | succ n ih =>
    rw [warnAll, (removePattern_plain _ _).1 ⟨0, 0, []⟩ rfl]
    simp only [List.take_zero, List.drop_zero, List.nil_append, ih, Option.map_none]

theorem afterFirst_spec (p : Str) (hp : p ≠ []) (s : Str) : ∀ r, afterFirst p s = some r ↔ ∃ a, s = a ++ p ++ r ∧ ∀ a' b', s = a' ++ p ++ b' → a.length ≤ a'.length := by
  induction s with
  | nil =>
    intro r
    simp only [afterFirst, reduceCtorEq, false_iff]
    rintro ⟨a, h, -⟩
    have := congrArg List.length h
    simp only [List.length_nil, List.length_append] at this
    exact hp (List.length_eq_zero_iff.mp (by omega))
  | cons c s ih =>
    intro r
    rw [afterFirst]
    by_cases hc : p.isPrefixOf (c :: s) = true
    · obtain ⟨b, hb⟩ := List.isPrefixOf_iff_prefix.mp hc
      rw [if_pos hc, ← hb, List.drop_left]
      constructor
      · intro h
        injection h with h
        subst h
        exact ⟨[], rfl, by simp⟩
      · rintro ⟨a, h1, h2⟩
        have := h2 [] b rfl
        have ha : a = [] := List.length_eq_zero_iff.mp (by simpa using this)
        subst ha
        rw [List.nil_append] at h1
        rw [List.append_cancel_left h1]
    · rw [if_neg hc, ih]
      have hno : ∀ b, c :: s ≠ p ++ b := fun b h => hc (List.isPrefixOf_iff_prefix.mpr ⟨b, h.symm⟩)
      constructor
      · rintro ⟨a, h1, h2⟩
        refine ⟨c :: a, by rw [h1]; rfl, ?_⟩
        intro a' b' e
        cases a' with
        | nil => exact absurd (by simpa using e) (hno b')
        | cons y a' =>
          simp only [List.cons_append, List.cons.injEq] at e
          have := h2 a' b' e.2
          simp only [List.length_cons]
          omega
      · rintro ⟨a, h1, h2⟩
        cases a with
        | nil => exact absurd (by simpa using h1) (hno r)
        | cons y a =>
          simp only [List.cons_append, List.cons.injEq] at h1
          refine ⟨a, h1.2, ?_⟩
          intro a' b' e
          have := h2 (c :: a') b' (by rw [e]; rfl)
          simpa using this

/-- **C129.**  `start` accepts a message with the greeting and the test of the scrollmode; what is left is the text after the (first) test. -/
theorem start_spec (found : Str → Bool) (msg r : Str) :
    start found msg = .ok r ↔ found msg = true ∧ ∃ a, msg = a ++ raised ++ r ∧ ∀ a' b', msg = a' ++ raised ++ b' → a.length ≤ a'.length := by
  rw [← afterFirst_spec raised (by decide) msg r, start]
  by_cases hf : found msg = true
  · simp only [hf, not_true_eq_false, if_false, true_and]
    cases afterFirst raised msg <;> simp
  · simp [hf]

/-! ## Examples -/

example : removeString "XXX".toList "abcXXXdefXXXghi".toList = ("abcdefXXXghi".toList, true) := by decide +kernel

example : removeNested "aaa(\"bb()bb\" cc(dd(ee))ff)gggaaa(\"bb()bb\" cc(dd(ee))ff)ggg".toList = "aaa(\"bb()bb\" ccff)gggaaa(\"bb()bb\" ccff)ggg".toList := by decide +kernel

example : load (fun n => decide (n = "text.py".toList)) "other (t\next\n.py\nfur\nther (ignored) text) things".toList = some "other  things".toList := by decide +kernel

example : load (fun n => decide (n = "text.py".toList)) "other (\"tex\nt.py\" further (ignored)\ntext) things".toList = some "other  things".toList := by decide +kernel

example : loadDef (fun _ => true) "(a\n.fd) x (\"b.def\")".toList = some " x ".toList := by decide +kernel

example : load (fun n => decide (n = "a.tex".toList)) "(a.tex) (b.tex)".toList = some "(a.tex) (b.tex)".toList := by decide +kernel

end PyX.TexMsg
