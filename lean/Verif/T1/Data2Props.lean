import Verif.T1.Data2
import Mathlib.Data.Nat.Digits.Lemmas
import Mathlib.Data.List.Infix
import Mathlib.Tactic.Common
import Mathlib.Tactic.SplitIfs

/-!
# C90: a written private part of a Type 1 font is read back

Tokens, the two arrays and the search for their keys.
-/

set_option linter.unusedSectionVars false

namespace PyX.T1

/-! ## Tokens -/

/-- A token: not empty, no separators, and only its first character may start a token. -/
def IsTok (t : List Nat) : Prop :=
  ∃ x xs, t = x :: xs ∧ isSep x = false ∧ ∀ c ∈ xs, isSep c = false ∧ isStart c = false

theorem tokRest_write (xs : List Nat) (h : ∀ c ∈ xs, isSep c = false ∧ isStart c = false) (e : Nat)
    (he : isSep e = true) (rest : List Nat) : tokRest (xs ++ e :: rest) = some (xs, rest) := by
  induction xs with
  | nil => simp [tokRest, he]
  | cons x xs ih =>
    obtain ⟨h1, h2⟩ := h x (List.mem_cons_self ..)
    simp [tokRest, h1, h2, ih fun c hc => h c (List.mem_cons_of_mem _ hc)]

/-- A token followed by a separator is read, and the separator consumed. -/
theorem gettoken_write (t : List Nat) (h : IsTok t) (e : Nat) (he : isSep e = true) (rest : List Nat) :
    gettoken (t ++ e :: rest) = some (t, rest) := by
  obtain ⟨x, xs, rfl, hx, hxs⟩ := h
  simp [gettoken, skipSeps, hx, tokRest_write xs hxs e he rest]

/-- Leading separators are skipped. -/
theorem gettoken_sep (e : Nat) (he : isSep e = true) (s : List Nat) : gettoken (e :: s) = gettoken s := by
  simp [gettoken, skipSeps, he]

theorem skipSeps_sound (s : List Nat) : ∃ p, s = p ++ skipSeps s ∧ ∀ x xs, skipSeps s = x :: xs → isSep x = false := by
  induction s with
  | nil => exact ⟨[], rfl, by simp [skipSeps]⟩
  | cons y s ih =>
    by_cases hy : isSep y = true
    · obtain ⟨p, h1, h2⟩ := ih
      refine ⟨y :: p, ?_, ?_⟩
      · simp only [skipSeps, if_pos hy]; rw [List.cons_append, ← h1]
      · simp only [skipSeps, if_pos hy]; exact h2
    · refine ⟨[], ?_, ?_⟩
      · simp only [skipSeps, if_neg hy]; rfl
      · simp only [skipSeps, if_neg hy]
        intro x xs e
        simp only [List.cons.injEq] at e
        rw [← e.1]; simpa using hy

theorem tokRest_sound (s t r : List Nat) (h : tokRest s = some (t, r)) :
    (∃ q, s = t ++ q ++ r) ∧ ∀ c ∈ t, isSep c = false ∧ isStart c = false := by
  induction s generalizing t with
  | nil => simp [tokRest] at h
  | cons x s ih =>
    simp only [tokRest] at h
    by_cases h1 : isSep x = true
    · rw [if_pos h1] at h
      simp only [Option.some.injEq, Prod.mk.injEq] at h
      obtain ⟨rfl, rfl⟩ := h
      exact ⟨⟨[x], rfl⟩, by simp⟩
    rw [if_neg h1] at h
    by_cases h2 : isStart x = true
    · rw [if_pos h2] at h
      simp only [Option.some.injEq, Prod.mk.injEq] at h
      obtain ⟨rfl, rfl⟩ := h
      exact ⟨⟨[], rfl⟩, by simp⟩
    rw [if_neg h2, Option.map_eq_some_iff] at h
    obtain ⟨⟨t', r'⟩, h3, h4⟩ := h
    simp only [Prod.mk.injEq] at h4
    obtain ⟨rfl, rfl⟩ := h4
    obtain ⟨⟨q, hq⟩, h6⟩ := ih t' h3
    refine ⟨⟨q, by rw [hq]; simp⟩, ?_⟩
    intro c hc
    rcases List.mem_cons.1 hc with rfl | hc
    · exact ⟨by simpa using h1, by simpa using h2⟩
    · exact h6 c hc

/-- What `gettoken` returns is a token lying in the consumed data. -/
theorem gettoken_sound (s t r : List Nat) (h : gettoken s = some (t, r)) :
    IsTok t ∧ ∃ p q, s = p ++ t ++ q ++ r ∧ p ++ skipSeps s = s := by
  unfold gettoken at h
  obtain ⟨p, hp, hx⟩ := skipSeps_sound s
  split at h
  · simp at h
  · rename_i x xs e
    rw [Option.map_eq_some_iff] at h
    obtain ⟨⟨t', r'⟩, h3, h4⟩ := h
    simp only [Prod.mk.injEq] at h4
    obtain ⟨rfl, rfl⟩ := h4
    obtain ⟨⟨q, hq⟩, h6⟩ := tokRest_sound _ _ _ h3
    refine ⟨⟨x, t', rfl, hx x xs e, h6⟩, p, q, ?_, hp.symm⟩
    rw [e, hq] at hp
    rw [hp]; simp

/-- `gettoken s = some (t, r)`: `t` lies in the consumed part. -/
theorem gettoken_infix (s t r : List Nat) (h : gettoken s = some (t, r)) :
    IsTok t ∧ ∃ p, s = p ++ r ∧ t <:+: p := by
  obtain ⟨h1, p, q, h2, _⟩ := gettoken_sound s t r h
  exact ⟨h1, p ++ t ++ q, h2, ⟨p, q, rfl⟩⟩

/-! ## Numbers -/

theorem dec_digits (n : Nat) : dec n ≠ [] ∧ ∀ c ∈ dec n, 48 ≤ c ∧ c < 58 := by
  unfold dec
  split_ifs with h
  · simp
  · refine ⟨by simp [Nat.digits_ne_nil_iff_ne_zero, h], ?_⟩
    intro c hc
    simp only [List.mem_map, List.mem_reverse] at hc
    obtain ⟨d, hd, rfl⟩ := hc
    have := Nat.digits_lt_base (by norm_num : 1 < 10) hd
    omega

theorem digit_plain (c : Nat) (h : 48 ≤ c ∧ c < 58) : isSep c = false ∧ isStart c = false := by
  constructor <;> simp [isSep, isStart] <;> omega

theorem dec_tok (n : Nat) : IsTok (dec n) := by
  obtain ⟨h1, h2⟩ := dec_digits n
  match hd : dec n, h1 with
  | x :: xs, _ =>
    refine ⟨x, xs, rfl, (digit_plain x (h2 x (by simp [hd]))).1, fun c hc => digit_plain c (h2 c (by simp [hd, hc]))⟩

theorem parse_dec (n : Nat) : parseInt (dec n) = some n := by
  obtain ⟨h1, h2⟩ := dec_digits n
  unfold parseInt
  rw [if_pos ⟨h1, List.all_eq_true.2 fun c hc => by simpa using h2 c hc⟩]
  unfold dec
  split_ifs with h
  · simp [h]
  · congr 1
    rw [← List.map_reverse, List.reverse_reverse, List.map_map]
    have : ((fun x => x - 48) ∘ fun x => x + 48) = (id : Nat → Nat) := by funext x; simp
    rw [this, List.map_id, Nat.ofDigits_digits]

theorem getint_write (n : Nat) (e : Nat) (he : isSep e = true) (rest : List Nat) :
    getint (dec n ++ e :: rest) = some (n, rest) := by
  simp [getint, gettoken_write _ (dec_tok n) e he rest, parse_dec]

theorem expect_write (t : List Nat) (h : IsTok t) (e : Nat) (he : isSep e = true) (rest : List Nat) :
    expect t (t ++ e :: rest) = some rest := by
  simp [expect, gettoken_write _ h e he rest]

theorem isTok_of (t : List Nat) (h : t ≠ [] ∧ ∀ c ∈ t, isSep c = false ∧ isStart c = false) : IsTok t := by
  match t, h with
  | x :: xs, h => exact ⟨x, xs, rfl, (h.2 x (by simp)).1, fun c hc => h.2 c (by simp [hc])⟩

theorem tok_dup : IsTok (asc "dup") := isTok_of _ (by decide)
theorem tok_array : IsTok (asc "array") := isTok_of _ (by decide)
theorem tok_dict : IsTok (asc "dict") := isTok_of _ (by decide)
theorem tok_begin : IsTok (asc "begin") := isTok_of _ (by decide)
theorem tok_end : IsTok (asc "end") := isTok_of _ (by decide)
theorem tok_noaccess : IsTok (asc "noaccess") := isTok_of _ (by decide)

theorem sep32 : isSep 32 = true := by decide
theorem sep10 : isSep 10 = true := by decide

/-! ## The arrays -/

/-- The token after a subroutine: a token or `noaccess` and a token. -/
def IsNp (t : List Nat) : Prop :=
  (IsTok t ∧ t ≠ asc "noaccess") ∨ ∃ u, IsTok u ∧ t = asc "noaccess" ++ 32 :: u

theorem npToken_write (t : List Nat) (h : IsNp t) (rest : List Nat) :
    npToken (32 :: (t ++ 10 :: rest)) = some (t, rest) := by
  unfold npToken
  rw [gettoken_sep 32 sep32]
  rcases h with ⟨h, hn⟩ | ⟨u, hu, rfl⟩
  · rw [gettoken_write _ h 10 sep10]
    simp only [Option.bind_some, if_neg hn]
  · rw [List.append_assoc, List.cons_append, gettoken_write _ tok_noaccess 32 sep32]
    simp only [Option.bind_some, if_pos, gettoken_write _ hu 10 sep10, Option.map_some]

theorem same_write (k : Option (List Nat)) (t : List Nat) (h : k = none ∨ k = some t) : same k t = some (some t) := by
  rcases h with rfl | rfl
  · rfl
  · simp [same]

theorem take_code (code rest : List Nat) : (code ++ rest).take code.length = code ∧
    (code ++ rest).drop code.length = rest := by simp

theorem readSubr_write (rd np : List Nat) (hrd : IsTok rd) (hnp : IsNp np) (i : Nat) (code rest : List Nat)
    (k k' : Option (List Nat)) (hk : k = none ∨ k = some rd) (hk' : k' = none ∨ k' = some np) :
    readSubr i ⟨k, k', subrText rd np i code ++ rest⟩ = some (code, ⟨some rd, some np, rest⟩) := by
  have e : subrText rd np i code ++ rest = asc "dup" ++ 32 :: (dec i ++ 32 :: (dec code.length ++ 32 ::
      (rd ++ 32 :: (code ++ 32 :: (np ++ 10 :: rest))))) := by
    have : asc "dup " = asc "dup" ++ [32] := by decide
    unfold subrText
    rw [this]
    simp
  unfold readSubr
  simp only [e]
  rw [expect_write _ tok_dup 32 sep32]
  simp only [Option.bind_some]
  rw [getint_write i 32 sep32]
  simp only [Option.bind_some, if_pos]
  rw [getint_write _ 32 sep32]
  simp only [Option.bind_some]
  rw [gettoken_write _ hrd 32 sep32]
  simp only [Option.bind_some, same_write k rd hk]
  rw [(take_code code _).1, (take_code code _).2, npToken_write np hnp]
  simp only [Option.bind_some, same_write k' np hk', Option.map_some]

theorem readSubrs_write (rd np : List Nat) (hrd : IsTok rd) (hnp : IsNp np) (codes : List (List Nat)) (i : Nat)
    (rest : List Nat) (k k' : Option (List Nat)) (hk : k = none ∨ k = some rd) (hk' : k' = none ∨ k' = some np) :
    readSubrs codes.length i ⟨k, k', subrTexts rd np i codes ++ rest⟩ =
      some (codes, ⟨if codes = [] then k else some rd, if codes = [] then k' else some np, rest⟩) := by
  induction codes generalizing i k k' with
  | nil => simp [readSubrs, subrTexts]
  | cons code codes ih =>
    simp only [List.length_cons, readSubrs, subrTexts, List.append_assoc]
    rw [readSubr_write rd np hrd hnp i code _ k k' hk hk']
    simp only [Option.bind_some]
    rw [ih (i + 1) (some rd) (some np) (.inr rfl) (.inr rfl)]
    simp

/-- The text written by `addsubrs` is read back. -/
theorem readSubrArray_write (D : Data2) (codes : List (List Nat)) (rest : List Nat)
    (h : codes ≠ [] → (∃ rd, D.subrrd = some rd ∧ IsTok rd) ∧ ∃ np, D.subrnp = some np ∧ IsNp np) :
    readSubrArray (addsubrs D codes ++ rest) =
      some (codes, ⟨if codes = [] then none else D.subrrd, if codes = [] then none else D.subrnp, rest⟩) := by
  have e : ∀ x, addsubrs D codes ++ x = dec codes.length ++ 32 :: (asc "array" ++ 10 ::
      (subrTexts (D.subrrd.getD []) (D.subrnp.getD []) 0 codes ++ x)) := by
    intro x
    have : asc " array\n" = 32 :: (asc "array" ++ [10]) := by decide
    unfold addsubrs
    rw [this]
    simp
  unfold readSubrArray
  rw [e, getint_write _ 32 sep32]
  simp only [Option.bind_some]
  rw [expect_write _ tok_array 10 sep10]
  simp only [Option.bind_some]
  by_cases hc : codes = []
  · subst hc; simp [readSubrs, subrTexts]
  · obtain ⟨⟨rd, hrd, h1⟩, np, hnp, h2⟩ := h hc
    simp only [hrd, hnp, Option.getD_some]
    rw [readSubrs_write rd np h1 h2 codes 0 rest none none (.inl rfl) (.inl rfl)]

theorem readChars_write (rd nd : List Nat) (hrd : IsTok rd) (hnd : IsTok nd) (chars : List (List Nat × List Nat))
    (hn : ∀ g ∈ chars, IsTok (47 :: g.1) ∧ ∀ c ∈ g.1, c < 128) (fuel : Nat) (hf : chars.length < fuel)
    (rest : List Nat) (k k' : Option (List Nat)) (hk : k = none ∨ k = some rd) (hk' : k' = none ∨ k' = some nd) :
    readChars fuel ⟨k, k', (chars.map (charText rd nd)).flatten ++ (asc "end" ++ 10 :: rest)⟩ =
      some (chars, ⟨if chars = [] then k else some rd, if chars = [] then k' else some nd, rest⟩) := by
  induction chars generalizing fuel k k' with
  | nil =>
    obtain ⟨fuel, rfl⟩ : ∃ f, fuel = f + 1 := ⟨fuel - 1, by simp at hf; omega⟩
    simp only [List.map_nil, List.flatten_nil, List.nil_append, readChars]
    rw [gettoken_write _ tok_end 10 sep10]
    simp only [Option.bind_some]
    rw [if_pos (by decide)]
    simp
  | cons g chars ih =>
    obtain ⟨fuel, rfl⟩ : ∃ f, fuel = f + 1 := ⟨fuel - 1, by simp at hf; omega⟩
    obtain ⟨ht, ha⟩ := hn g (List.mem_cons_self ..)
    have e : ∀ x, (((g :: chars).map (charText rd nd)).flatten ++ x) = (47 :: g.1) ++ 32 :: (dec g.2.length ++ 32 ::
        (rd ++ 32 :: (g.2 ++ 32 :: (nd ++ 10 :: ((chars.map (charText rd nd)).flatten ++ x))))) := by
      intro x
      simp [charText]
    have hne : ¬ (47 :: g.1 = asc "end") := by
      intro h
      have : (asc "end").head? = some 47 := by rw [← h]; rfl
      exact absurd this (by decide)
    have hall : (47 :: g.1).all (· < 128) = true := by
      simp only [List.all_cons, Bool.and_eq_true, List.all_eq_true, decide_eq_true_eq]
      exact ⟨by norm_num, ha⟩
    simp only [e, readChars]
    rw [gettoken_write _ ht 32 sep32]
    simp only [Option.bind_some]
    rw [if_pos hall, if_neg hne]
    simp only [readChar]
    rw [getint_write _ 32 sep32]
    simp only [Option.bind_some]
    rw [gettoken_write _ hrd 32 sep32]
    simp only [Option.bind_some, same_write k rd hk]
    rw [(take_code g.2 _).1, (take_code g.2 _).2, gettoken_sep 32 sep32, gettoken_write _ hnd 10 sep10]
    simp only [Option.bind_some, same_write k' nd hk', Option.map_some]
    rw [ih (fun x hx => hn x (List.mem_cons_of_mem _ hx)) fuel (by simp at hf; omega) (some rd) (some nd)
      (.inr rfl) (.inr rfl)]
    simp

theorem charText_length (rd nd : List Nat) (chars : List (List Nat × List Nat)) :
    chars.length ≤ ((chars.map (charText rd nd)).flatten).length := by
  induction chars with
  | nil => simp
  | cons g chars ih =>
    simp only [List.map_cons, List.flatten_cons, List.length_append, List.length_cons]
    have : 0 < (charText rd nd g).length := by simp [charText]
    omega

/-- The text written by `addcharstrings` is read back. -/
theorem readCharDict_write (D : Data2) (count : Nat) (chars : List (List Nat × List Nat)) (rest : List Nat)
    (h : chars ≠ [] → (∃ rd, D.glyphrd = some rd ∧ IsTok rd) ∧ ∃ nd, D.glyphnd = some nd ∧ IsTok nd)
    (hn : ∀ g ∈ chars, IsTok (47 :: g.1) ∧ ∀ c ∈ g.1, c < 128) :
    readCharDict (addcharstrings D count chars ++ rest) =
      some (chars, ⟨if chars = [] then none else D.glyphrd, if chars = [] then none else D.glyphnd, rest⟩) := by
  have e : addcharstrings D count chars ++ rest = dec count ++ 32 :: (asc "dict" ++ 32 :: (asc "dup" ++ 32 ::
      (asc "begin" ++ 10 :: ((chars.map (charText (D.glyphrd.getD []) (D.glyphnd.getD []))).flatten ++
        (asc "end" ++ 10 :: rest))))) := by
    have h1 : asc " dict dup begin\n" = 32 :: (asc "dict" ++ 32 :: (asc "dup" ++ 32 :: (asc "begin" ++ [10]))) := by
      decide
    have h2 : asc "end\n" = asc "end" ++ [10] := by decide
    unfold addcharstrings
    rw [h1, h2]
    simp
  unfold readCharDict
  rw [e, getint_write _ 32 sep32]
  simp only [Option.bind_some]
  rw [expect_write _ tok_dict 32 sep32]
  simp only [Option.bind_some]
  rw [expect_write _ tok_dup 32 sep32]
  simp only [Option.bind_some]
  rw [expect_write _ tok_begin 10 sep10]
  simp only [Option.bind_some]
  by_cases hc : chars = []
  · subst hc
    simp only [List.map_nil, List.flatten_nil, List.nil_append, readChars]
    rw [gettoken_write _ tok_end 10 sep10]
    simp only [Option.bind_some]
    rw [if_pos (by decide)]
    simp
  · obtain ⟨⟨rd, hrd, h1⟩, nd, hnd, h2⟩ := h hc
    simp only [hrd, hnd, Option.getD_some]
    refine readChars_write rd nd h1 h2 chars hn _ ?_ rest none none (.inl rfl) (.inl rfl)
    have := charText_length rd nd chars
    simp only [List.length_append]
    omega

/-! ## Searching the keys -/

/-- `w` occurs in `a` at the very end and nowhere else. -/
def First (w a : List Nat) : Prop := w <:+ a ∧ ∀ u v, a = u ++ w ++ v → v = []

/-- `w` does not occur. -/
def Clean (w x : List Nat) : Prop := ¬ w <:+: x

theorem First.tail {w : List Nat} {x : Nat} {a : List Nat} (h : First w (x :: a)) (hne : w ≠ x :: a) : First w a := by
  refine ⟨?_, fun u v e => h.2 (x :: u) v (by rw [e]; rfl)⟩
  rcases List.suffix_cons_iff.1 h.1 with e | e
  · exact absurd e hne
  · exact e

theorem find_first (w : List Nat) (hw : w ≠ []) (a b : List Nat) (h : First w a) :
    findAfter w (a ++ b) = some (a, b) := by
  induction a with
  | nil => exact absurd (List.suffix_nil.1 h.1) hw
  | cons x a ih =>
    simp only [List.cons_append, findAfter]
    by_cases e : w = x :: a
    · subst e
      rw [if_pos ⟨b, rfl⟩]
      simp
    · rw [if_neg, ih (h.tail e)]
      · simp
      · rintro ⟨v, hv⟩
        have hlen : w.length ≤ (x :: a).length := h.1.length_le
        have hp : w <+: x :: a := by
          refine List.prefix_of_prefix_length_le ⟨v, hv⟩ (l₃ := x :: (a ++ b)) ⟨b, by simp⟩ hlen
        obtain ⟨v', hv'⟩ := hp
        have := h.2 [] v' (by simpa using hv'.symm)
        subst this
        exact e (by simpa using hv')

theorem find_sound (w : List Nat) (hw : w ≠ []) (d a b : List Nat) (h : findAfter w d = some (a, b)) :
    d = a ++ b ∧ First w a := by
  induction d generalizing a with
  | nil => simp [findAfter, hw] at h
  | cons x d ih =>
    simp only [findAfter] at h
    by_cases hp : w <+: x :: d
    · rw [if_pos hp] at h
      simp only [Option.some.injEq, Prod.mk.injEq] at h
      obtain ⟨rfl, rfl⟩ := h
      obtain ⟨v, hv⟩ := hp
      refine ⟨by rw [← hv]; simp, List.suffix_refl _, ?_⟩
      intro u v e
      have := congrArg List.length e
      simp at this
      have : v.length = 0 := by omega
      exact List.eq_nil_of_length_eq_zero this
    · rw [if_neg hp, Option.map_eq_some_iff] at h
      obtain ⟨⟨a', b'⟩, h1, h2⟩ := h
      simp only [Prod.mk.injEq] at h2
      obtain ⟨rfl, rfl⟩ := h2
      obtain ⟨rfl, h4⟩ := ih a' h1
      refine ⟨rfl, h4.1.trans (List.suffix_cons ..), ?_⟩
      intro u v e
      cases u with
      | nil => exact absurd ⟨v ++ b', by rw [List.nil_append] at e; rw [← List.append_assoc, ← e]; rfl⟩ hp
      | cons y u =>
        simp only [List.cons_append, List.cons.injEq] at e
        exact h4.2 u v e.2

/-- An occurrence of a word without separators does not cross a separator. -/
theorem split_at_sep (w : List Nat) (hw : ∀ c ∈ w, isSep c = false) (x y u v : List Nat) (e : Nat) (he : isSep e = true)
    (h : x ++ e :: y = u ++ w ++ v) :
    (∃ v', x = u ++ w ++ v' ∧ v = v' ++ e :: y) ∨ (∃ u', y = u' ++ w ++ v ∧ u = x ++ e :: u') := by
  rcases List.append_eq_append_iff.1 (h.trans (List.append_assoc ..)) with ⟨a, h1, h2⟩ | ⟨c, h1, h2⟩
  · -- u = x ++ a, e :: y = a ++ (w ++ v)
    cases a with
    | nil =>
      simp only [List.nil_append] at h2
      cases w with
      | nil => exact .inl ⟨[], by simpa using h1.symm, by simpa using h2.symm⟩
      | cons z w =>
        simp only [List.cons_append, List.cons.injEq] at h2
        have := hw z (List.mem_cons_self ..)
        rw [← h2.1, he] at this
        exact absurd this (by simp)
    | cons z a =>
      simp only [List.cons_append, List.cons.injEq] at h2
      obtain ⟨rfl, h2⟩ := h2
      exact .inr ⟨a, by simpa using h2, h1⟩
  · -- x = u ++ c, w ++ v = c ++ e :: y
    rcases List.append_eq_append_iff.1 h2 with ⟨a, h3, h4⟩ | ⟨a, h3, h4⟩
    · -- c = w ++ a, v = a ++ e :: y
      exact .inl ⟨a, by rw [h1, h3]; simp, h4⟩
    · -- w = c ++ a, e :: y = a ++ v
      cases a with
      | nil =>
        simp only [List.append_nil] at h3
        simp only [List.nil_append] at h4
        exact .inl ⟨[], by rw [h1, h3]; simp, by simpa using h4.symm⟩
      | cons z a =>
        simp only [List.cons_append, List.cons.injEq] at h4
        have := hw z (by rw [h3]; simp)
        rw [← h4.1, he] at this
        exact absurd this (by simp)

theorem Clean.join {w x y : List Nat} (hw : ∀ c ∈ w, isSep c = false) (hx : Clean w x) (hy : Clean w y) (e : Nat)
    (he : isSep e = true) : Clean w (x ++ e :: y) := by
  rintro ⟨u, v, h⟩
  rcases split_at_sep w hw x y u v e he h.symm with ⟨v', h1, _⟩ | ⟨u', h1, _⟩
  · exact hx ⟨u, v', h1.symm⟩
  · exact hy ⟨u', v, h1.symm⟩

theorem First.join {w x y : List Nat} (hw : ∀ c ∈ w, isSep c = false) (hx : Clean w x) (hy : First w y) (e : Nat)
    (he : isSep e = true) : First w (x ++ e :: y) := by
  refine ⟨hy.1.trans ((List.suffix_cons ..).trans (List.suffix_append ..)), fun u v h => ?_⟩
  rcases split_at_sep w hw x y u v e he h with ⟨v', h1, _⟩ | ⟨u', h1, _⟩
  · exact absurd ⟨u, v', h1.symm⟩ hx
  · exact hy.2 u' v h1

/-- What lies before the occurrence is clean. -/
theorem First.clean {w a x y : List Nat} (h : First w a) (e : a = x ++ y) (hy : y ≠ []) : Clean w x := by
  rintro ⟨u, v, rfl⟩
  have := h.2 u (v ++ y) (by rw [e]; simp)
  exact hy (List.append_eq_nil_iff.1 this).2

theorem Clean.infix {w x y : List Nat} (h : Clean w x) (hy : y <:+: x) : Clean w y := fun hw => h (hw.trans hy)

/-- A word starting with a slash does not occur where there is no slash. -/
theorem clean_of_slash {w x : List Nat} (hw : 47 ∈ w) (h : 47 ∉ x) : Clean w x := by
  intro hi
  exact h (hi.subset hw)

theorem clean_of_length {w x : List Nat} (h : x.length < w.length) : Clean w x := fun hi =>
  absurd hi.length_le (by omega)

theorem First.suffix {w a x y : List Nat} (h : First w a) (e : a = x ++ y) (hy : w <:+: y) : First w y := by
  obtain ⟨u, v, huv⟩ := hy
  have := h.2 (x ++ u) v (by rw [e, ← huv]; simp)
  subst this
  refine ⟨⟨u, by simpa using huv⟩, fun u' v' e' => h.2 (x ++ u') v' (by rw [e, e']; simp)⟩

/-! ## What has been read lies in the data -/

theorem getint_sound (s r : List Nat) (n : Nat) (h : getint s = some (n, r)) : ∃ p, s = p ++ r := by
  unfold getint at h
  simp only [Option.bind_eq_some_iff, Option.map_eq_some_iff] at h
  obtain ⟨⟨t, r'⟩, h1, m, _, h3⟩ := h
  simp only [Prod.mk.injEq] at h3
  obtain ⟨rfl, rfl⟩ := h3
  obtain ⟨_, p, hp, _⟩ := gettoken_infix _ _ _ h1
  exact ⟨p, hp⟩

theorem expect_sound (t s r : List Nat) (h : expect t s = some r) : ∃ p, s = p ++ r := by
  unfold expect at h
  simp only [Option.bind_eq_some_iff] at h
  obtain ⟨⟨t', r'⟩, h1, h2⟩ := h
  split_ifs at h2
  simp only [Option.some.injEq] at h2
  subst h2
  obtain ⟨_, p, hp, _⟩ := gettoken_infix _ _ _ h1
  exact ⟨p, hp⟩

/-- The words of a token as it is written back. -/
def Words (t p : List Nat) : Prop :=
  (IsTok t ∧ t ≠ asc "noaccess" ∧ t <:+: p) ∨ ∃ u, IsTok u ∧ t = asc "noaccess" ++ 32 :: u ∧ u <:+: p

theorem Words.isNp {t p : List Nat} (h : Words t p) : IsNp t := by
  rcases h with ⟨h1, h2, _⟩ | ⟨u, h1, h2, _⟩
  · exact .inl ⟨h1, h2⟩
  · exact .inr ⟨u, h1, h2⟩

theorem Words.mono {t p p' : List Nat} (h : Words t p) (hp : p <:+: p') : Words t p' := by
  rcases h with ⟨h1, h2, h3⟩ | ⟨u, h1, h2, h3⟩
  · exact .inl ⟨h1, h2, h3.trans hp⟩
  · exact .inr ⟨u, h1, h2, h3.trans hp⟩

theorem npToken_sound (s t r : List Nat) (h : npToken s = some (t, r)) : ∃ p, s = p ++ r ∧ Words t p := by
  unfold npToken at h
  simp only [Option.bind_eq_some_iff] at h
  obtain ⟨⟨t', r'⟩, h1, h2⟩ := h
  obtain ⟨ht, p, hp, hi⟩ := gettoken_infix _ _ _ h1
  simp only at h2
  by_cases hn : t' = asc "noaccess"
  · rw [if_pos hn, Option.map_eq_some_iff] at h2
    obtain ⟨⟨u, r''⟩, h3, h4⟩ := h2
    simp only [Prod.mk.injEq] at h4
    obtain ⟨rfl, rfl⟩ := h4
    obtain ⟨hu, q, hq, hqi⟩ := gettoken_infix _ _ _ h3
    refine ⟨p ++ q, by rw [hp, hq]; simp, .inr ⟨u, hu, by rw [hn], hqi.trans ?_⟩⟩
    exact (List.suffix_append ..).isInfix
  · rw [if_neg hn] at h2
    simp only [Option.some.injEq, Prod.mk.injEq] at h2
    obtain ⟨rfl, rfl⟩ := h2
    exact ⟨p, hp, .inl ⟨ht, hn, hi⟩⟩

theorem same_sound (k : Option (List Nat)) (t : List Nat) (k' : Option (List Nat)) (h : same k t = some k') :
    k' = some t ∧ (k = none ∨ k = some t) := by
  unfold same at h
  split at h
  · simp only [Option.some.injEq] at h
    exact ⟨h.symm, .inl rfl⟩
  · split_ifs at h with e
    simp only [Option.some.injEq] at h
    subst e
    exact ⟨h.symm, .inr rfl⟩

theorem infix_mid (a b c : List Nat) : b <:+: a ++ b ++ c := ⟨a, c, rfl⟩

theorem readSubr_sound (i : Nat) (c c' : Cur) (code : List Nat) (h : readSubr i c = some (code, c')) :
    ∃ p, c.rest = p ++ c'.rest ∧ code <:+: p ∧ (∃ t, c'.rd = some t ∧ IsTok t ∧ t <:+: p) ∧
      ∃ t, c'.np = some t ∧ Words t p := by
  unfold readSubr at h
  rw [Option.bind_eq_some_iff] at h
  obtain ⟨s1, h1, h⟩ := h
  rw [Option.bind_eq_some_iff] at h
  obtain ⟨⟨j, s2⟩, h2, h⟩ := h
  split_ifs at h with hj
  rw [Option.bind_eq_some_iff] at h
  obtain ⟨⟨size, s3⟩, h3, h⟩ := h
  simp only [Option.bind_eq_some_iff, Option.map_eq_some_iff, Prod.mk.injEq] at h
  obtain ⟨⟨t, s4⟩, h4, rd, h5, ⟨q, s5⟩, h6, np, h7, rfl, rfl⟩ := h
  obtain ⟨p1, e1⟩ := expect_sound _ _ _ h1
  obtain ⟨p2, e2⟩ := getint_sound _ _ _ h2
  obtain ⟨p3, e3⟩ := getint_sound _ _ _ h3
  obtain ⟨ht, p4, e4, i4⟩ := gettoken_infix _ _ _ h4
  obtain ⟨p6, e6, w6⟩ := npToken_sound _ _ _ h6
  simp only at e1 e2 e3 e4 e6 ⊢
  have e5 : s4 = s4.take size ++ (p6 ++ s5) := by
    rw [← e6]; exact (List.take_append_drop _ _).symm
  refine ⟨p1 ++ p2 ++ p3 ++ p4 ++ s4.take size ++ p6, ?_, ?_, ?_, ?_⟩
  · rw [e1, e2, e3, e4]
    conv_lhs => rw [e5]
    simp
  · exact infix_mid _ _ _
  · refine ⟨t, (same_sound _ _ _ h5).1, ht, i4.trans ⟨p1 ++ p2 ++ p3, s4.take size ++ p6, by simp⟩⟩
  · exact ⟨q, (same_sound _ _ _ h7).1, w6.mono (List.suffix_append ..).isInfix⟩

theorem readSubrs_sound (k i : Nat) (c c' : Cur) (codes : List (List Nat)) (h : readSubrs k i c = some (codes, c')) :
    ∃ p, c.rest = p ++ c'.rest ∧ (∀ code ∈ codes, code <:+: p) ∧ codes.length = k ∧
      (codes ≠ [] → (∃ t, c'.rd = some t ∧ IsTok t ∧ t <:+: p) ∧ ∃ t, c'.np = some t ∧ Words t p) ∧
      (codes = [] → c' = c) := by
  induction k generalizing i c codes with
  | zero =>
    simp only [readSubrs, Option.some.injEq, Prod.mk.injEq] at h
    obtain ⟨rfl, rfl⟩ := h
    exact ⟨[], rfl, by simp, rfl, by simp, fun _ => rfl⟩
  | succ k ih =>
    simp only [readSubrs, Option.bind_eq_some_iff, Option.map_eq_some_iff, Prod.mk.injEq] at h
    obtain ⟨⟨code, c1⟩, h1, ⟨codes', c2⟩, h2, rfl, rfl⟩ := h
    obtain ⟨p1, e1, i1, ⟨t1, a1, a2, a3⟩, t2, b1, b2⟩ := readSubr_sound i c c1 code h1
    obtain ⟨p2, e2, i2, l2, n2, z2⟩ := ih (i + 1) c1 codes' h2
    have inf1 : p1 <:+: p1 ++ p2 := (List.prefix_append ..).isInfix
    have inf2 : p2 <:+: p1 ++ p2 := (List.suffix_append ..).isInfix
    refine ⟨p1 ++ p2, by rw [e1, e2]; simp, ?_, by simp [l2], ?_, by simp⟩
    · intro x hx
      rcases List.mem_cons.1 hx with rfl | hx
      · exact i1.trans inf1
      · exact (i2 x hx).trans inf2
    · intro _
      by_cases hc : codes' = []
      · have := z2 hc
        simp only at this ⊢
        rw [this]
        exact ⟨⟨t1, a1, a2, a3.trans inf1⟩, t2, b1, b2.mono inf1⟩
      · obtain ⟨⟨t, x1, x2, x3⟩, t', y1, y2⟩ := n2 hc
        exact ⟨⟨t, x1, x2, x3.trans inf2⟩, t', y1, y2.mono inf2⟩

theorem readSubrArray_sound (s : List Nat) (codes : List (List Nat)) (c : Cur) (h : readSubrArray s = some (codes, c)) :
    ∃ p, s = p ++ c.rest ∧ (∀ code ∈ codes, code <:+: p) ∧
      (codes ≠ [] → (∃ t, c.rd = some t ∧ IsTok t ∧ t <:+: p) ∧ ∃ t, c.np = some t ∧ Words t p) ∧
      (codes = [] → c.rd = none ∧ c.np = none) := by
  unfold readSubrArray at h
  rw [Option.bind_eq_some_iff] at h
  obtain ⟨⟨n, s1⟩, h1, h⟩ := h
  rw [Option.bind_eq_some_iff] at h
  obtain ⟨s2, h2, h3⟩ := h
  obtain ⟨p1, e1⟩ := getint_sound _ _ _ h1
  obtain ⟨p2, e2⟩ := expect_sound _ _ _ h2
  obtain ⟨p3, e3, i3, _, n3, z3⟩ := readSubrs_sound _ _ _ _ _ h3
  simp only at e1 e2 e3
  have inf : p3 <:+: p1 ++ p2 ++ p3 := (List.suffix_append ..).isInfix
  refine ⟨p1 ++ p2 ++ p3, by rw [e1, e2, e3]; simp, fun x hx => (i3 x hx).trans inf, ?_, ?_⟩
  · intro hc
    obtain ⟨⟨t, x1, x2, x3⟩, t', y1, y2⟩ := n3 hc
    exact ⟨⟨t, x1, x2, x3.trans inf⟩, t', y1, y2.mono inf⟩
  · intro hc
    rw [z3 hc]
    exact ⟨rfl, rfl⟩

theorem readChar_sound (tok : List Nat) (c c' : Cur) (g : List Nat × List Nat) (h : readChar tok c = some (g, c')) :
    tok = 47 :: g.1 ∧ ∃ p, c.rest = p ++ c'.rest ∧ g.2 <:+: p ∧ (∃ t, c'.rd = some t ∧ IsTok t ∧ t <:+: p) ∧
      ∃ t, c'.np = some t ∧ IsTok t ∧ t <:+: p := by
  unfold readChar at h
  split at h
  · rename_i name
    rw [Option.bind_eq_some_iff] at h
    obtain ⟨⟨size, s3⟩, h3, h⟩ := h
    simp only [Option.bind_eq_some_iff, Option.map_eq_some_iff, Prod.mk.injEq] at h
    obtain ⟨⟨t, s4⟩, h4, rd, h5, ⟨q, s5⟩, h6, np, h7, rfl, rfl⟩ := h
    obtain ⟨p3, e3⟩ := getint_sound _ _ _ h3
    obtain ⟨ht, p4, e4, i4⟩ := gettoken_infix _ _ _ h4
    obtain ⟨hq, p6, e6, i6⟩ := gettoken_infix _ _ _ h6
    simp only at e3 e4 e6 ⊢
    have e5 : s4 = s4.take size ++ (p6 ++ s5) := by
      rw [← e6]; exact (List.take_append_drop _ _).symm
    refine ⟨trivial, p3 ++ p4 ++ s4.take size ++ p6, ?_, ?_, ?_, ?_⟩
    · rw [e3, e4]
      conv_lhs => rw [e5]
      simp
    · exact infix_mid _ _ _
    · exact ⟨t, (same_sound _ _ _ h5).1, ht, i4.trans ⟨p3, s4.take size ++ p6, by simp⟩⟩
    · exact ⟨q, (same_sound _ _ _ h7).1, hq, i6.trans (List.suffix_append ..).isInfix⟩
  · simp at h

theorem readChars_sound (fuel : Nat) (c c' : Cur) (chars : List (List Nat × List Nat))
    (h : readChars fuel c = some (chars, c')) :
    ∃ p, c.rest = p ++ c'.rest ∧
      (∀ g ∈ chars, IsTok (47 :: g.1) ∧ (∀ x ∈ g.1, x < 128) ∧ (47 :: g.1) <:+: p ∧ g.2 <:+: p) ∧
      (chars ≠ [] → (∃ t, c'.rd = some t ∧ IsTok t ∧ t <:+: p) ∧ ∃ t, c'.np = some t ∧ IsTok t ∧ t <:+: p) ∧
      (chars = [] → c'.rd = c.rd ∧ c'.np = c.np) := by
  induction fuel generalizing c chars with
  | zero => simp [readChars] at h
  | succ fuel ih =>
    simp only [readChars] at h
    rw [Option.bind_eq_some_iff] at h
    obtain ⟨⟨t, r⟩, h1, h⟩ := h
    obtain ⟨ht, p1, e1, i1⟩ := gettoken_infix _ _ _ h1
    simp only at h
    split_ifs at h with ha he
    · simp only [Option.some.injEq, Prod.mk.injEq] at h
      obtain ⟨rfl, rfl⟩ := h
      exact ⟨p1, e1, by simp, by simp, fun _ => ⟨rfl, rfl⟩⟩
    · simp only [Option.bind_eq_some_iff, Option.map_eq_some_iff, Prod.mk.injEq] at h
      obtain ⟨⟨g, c1⟩, h2, ⟨gs, c2⟩, h3, rfl, rfl⟩ := h
      obtain ⟨e0, p2, e2, i2, ⟨t1, a1, a2, a3⟩, t2, b1, b2, b3⟩ := readChar_sound _ _ _ _ h2
      obtain ⟨p3, e3, i3, n3, z3⟩ := ih c1 gs h3
      simp only at e1 e2 e3
      have inf1 : p1 <:+: p1 ++ p2 ++ p3 := ⟨[], p2 ++ p3, by simp⟩
      have inf2 : p2 <:+: p1 ++ p2 ++ p3 := infix_mid _ _ _
      have inf3 : p3 <:+: p1 ++ p2 ++ p3 := (List.suffix_append ..).isInfix
      refine ⟨p1 ++ p2 ++ p3, by rw [e1, e2, e3]; simp, ?_, ?_, by simp⟩
      · intro x hx
        rcases List.mem_cons.1 hx with rfl | hx
        · refine ⟨e0 ▸ ht, ?_, ?_, i2.trans inf2⟩
          · intro y hy
            have := List.all_eq_true.1 ha y (by rw [e0]; exact List.mem_cons_of_mem _ hy)
            simpa using this
          · rw [← e0]; exact i1.trans inf1
        · obtain ⟨x1, x2, x3, x4⟩ := i3 x hx
          exact ⟨x1, x2, x3.trans inf3, x4.trans inf3⟩
      · intro _
        by_cases hc : gs = []
        · have := z3 hc
          simp only at this ⊢
          rw [this.1, this.2]
          exact ⟨⟨t1, a1, a2, a3.trans inf2⟩, t2, b1, b2, b3.trans inf2⟩
        · obtain ⟨⟨t, x1, x2, x3⟩, t', y1, y2, y3⟩ := n3 hc
          exact ⟨⟨t, x1, x2, x3.trans inf3⟩, t', y1, y2, y3.trans inf3⟩

theorem readCharDict_sound (s : List Nat) (chars : List (List Nat × List Nat)) (c : Cur)
    (h : readCharDict s = some (chars, c)) :
    ∃ p, s = p ++ c.rest ∧
      (∀ g ∈ chars, IsTok (47 :: g.1) ∧ (∀ x ∈ g.1, x < 128) ∧ (47 :: g.1) <:+: p ∧ g.2 <:+: p) ∧
      (chars ≠ [] → (∃ t, c.rd = some t ∧ IsTok t ∧ t <:+: p) ∧ ∃ t, c.np = some t ∧ IsTok t ∧ t <:+: p) := by
  unfold readCharDict at h
  rw [Option.bind_eq_some_iff] at h
  obtain ⟨⟨n, s1⟩, h1, h⟩ := h
  rw [Option.bind_eq_some_iff] at h
  obtain ⟨s2, h2, h⟩ := h
  rw [Option.bind_eq_some_iff] at h
  obtain ⟨s3, h3, h⟩ := h
  rw [Option.bind_eq_some_iff] at h
  obtain ⟨s4, h4, h5⟩ := h
  obtain ⟨p1, e1⟩ := getint_sound _ _ _ h1
  obtain ⟨p2, e2⟩ := expect_sound _ _ _ h2
  obtain ⟨p3, e3⟩ := expect_sound _ _ _ h3
  obtain ⟨p4, e4⟩ := expect_sound _ _ _ h4
  obtain ⟨p5, e5, i5, n5, _⟩ := readChars_sound _ _ _ _ h5
  simp only at e1 e2 e3 e4 e5
  have inf : p5 <:+: p1 ++ p2 ++ p3 ++ p4 ++ p5 := (List.suffix_append ..).isInfix
  refine ⟨p1 ++ p2 ++ p3 ++ p4 ++ p5, by rw [e1, e2, e3, e4, e5]; simp, ?_, ?_⟩
  · intro g hg
    obtain ⟨x1, x2, x3, x4⟩ := i5 g hg
    exact ⟨x1, x2, x3.trans inf, x4.trans inf⟩
  · intro hc
    obtain ⟨⟨t, x1, x2, x3⟩, t', y1, y2, y3⟩ := n5 hc
    exact ⟨⟨t, x1, x2, x3.trans inf⟩, t', y1, y2, y3.trans inf⟩

/-! ## The whole private part -/

theorem start_not_digit (x : Nat) (h : isStart x = true) : ¬ (48 ≤ x ∧ x < 58) := by
  intro hd
  have := (digit_plain x hd).2
  rw [h] at this
  exact absurd this (by simp)

theorem start_not_sep (x : Nat) (h : isStart x = true) : isSep x = false := by
  simp only [isStart, Bool.or_eq_true, decide_eq_true_eq] at h
  rcases h with ((((((((h | h) | h) | h) | h) | h) | h) | h) | h) | h <;> subst h <;> decide

theorem getint_start (x : Nat) (xs : List Nat) (h : isStart x = true) : getint (x :: xs) = none := by
  cases ht : gettoken (x :: xs) with
  | none => simp [getint, ht]
  | some r =>
    obtain ⟨t, r⟩ := r
    simp only [gettoken, skipSeps, start_not_sep x h, Bool.false_eq_true, if_false, Option.map_eq_some_iff,
      Prod.mk.injEq] at ht
    obtain ⟨⟨t', r'⟩, h1, rfl, rfl⟩ := ht
    have : parseInt (x :: t') = none := by
      unfold parseInt
      rw [if_neg]
      rintro ⟨_, h2⟩
      have := List.all_eq_true.1 h2 x (List.mem_cons_self ..)
      exact start_not_digit x h (by simpa using this)
    simp [getint, gettoken, skipSeps, start_not_sep x h, h1, this]

theorem tokenizer_sound (w : List Nat) (hw : w ≠ []) (data A r : List Nat) (h : tokenizer w data = some (A, r))
    (hi : (getint r).isSome) : ∃ a x, A = a ++ [x] ∧ data = A ++ r ∧ First w a ∧ isSep x = true ∧ isStart x = false := by
  unfold tokenizer at h
  simp only [Option.bind_eq_some_iff, Option.map_eq_some_iff, Prod.mk.injEq] at h
  obtain ⟨⟨a, b⟩, h1, ⟨e, r'⟩, h2, rfl, rfl⟩ := h
  obtain ⟨rfl, hf⟩ := find_sound w hw _ _ _ h1
  simp only at h2 ⊢
  unfold eatSep at h2
  split at h2
  · simp at h2
  · rename_i x xs
    split_ifs at h2 with hs hx
    · simp only [Option.some.injEq, Prod.mk.injEq] at h2
      obtain ⟨rfl, rfl⟩ := h2
      rw [getint_start x xs hs] at hi
      simp at hi
    · simp only [Option.some.injEq, Prod.mk.injEq] at h2
      obtain ⟨rfl, rfl⟩ := h2
      exact ⟨a, x, rfl, by simp, hf, hx, by simpa using hs⟩

theorem tokenizer_write (w : List Nat) (hw : w ≠ []) (a r : List Nat) (x : Nat) (hf : First w a) (hx : isSep x = true)
    (hs : isStart x = false) : tokenizer w (a ++ x :: r) = some (a ++ [x], r) := by
  simp [tokenizer, find_first w hw a _ hf, eatSep, hx, hs]

theorem clean_plain {w x : List Nat} (hw : 47 ∈ w) (h : ∀ c ∈ x, isStart c = false) : Clean w x :=
  clean_of_slash hw fun hm => absurd (h 47 hm) (by decide)

theorem clean_dec {w : List Nat} (hw : 47 ∈ w) (n : Nat) : Clean w (dec n) :=
  clean_plain hw fun c hc => (digit_plain c ((dec_digits n).2 c hc)).2

theorem clean_np {w t p : List Nat} (hw : 47 ∈ w) (hs : ∀ c ∈ w, isSep c = false) (h : Words t p) (hp : Clean w p) :
    Clean w t := by
  rcases h with ⟨_, _, h3⟩ | ⟨u, _, rfl, h3⟩
  · exact hp.infix h3
  · exact Clean.join hs (clean_plain hw (by decide)) (hp.infix h3) 32 sep32

theorem subrTexts_first {w : List Nat} (hw : 47 ∈ w) (hs : ∀ c ∈ w, isSep c = false) (rd np : List Nat)
    (hrd : Clean w rd) (hnp : Clean w np) (codes : List (List Nat)) (hc : ∀ code ∈ codes, Clean w code)
    (i : Nat) (M : List Nat) (hM : First w M) : First w (subrTexts rd np i codes ++ M) := by
  induction codes generalizing i with
  | nil => exact hM
  | cons code codes ih =>
    have e : subrTexts rd np i (code :: codes) ++ M = asc "dup" ++ 32 :: (dec i ++ 32 :: (dec code.length ++ 32 ::
        (rd ++ 32 :: (code ++ 32 :: (np ++ 10 :: (subrTexts rd np (i + 1) codes ++ M)))))) := by
      have : asc "dup " = asc "dup" ++ [32] := by decide
      simp only [subrTexts, subrText]
      rw [this]
      simp
    rw [e]
    refine First.join hs (clean_plain hw (by decide)) ?_ 32 sep32
    refine First.join hs (clean_dec hw _) ?_ 32 sep32
    refine First.join hs (clean_dec hw _) ?_ 32 sep32
    refine First.join hs hrd ?_ 32 sep32
    refine First.join hs (hc code (List.mem_cons_self ..)) ?_ 32 sep32
    refine First.join hs hnp ?_ 10 sep10
    exact ih (fun x hx => hc x (List.mem_cons_of_mem _ hx)) (i + 1)

theorem addsubrs_first {w : List Nat} (hw : 47 ∈ w) (hs : ∀ c ∈ w, isSep c = false) (D : Data2)
    (codes : List (List Nat)) (hc : ∀ code ∈ codes, Clean w code)
    (hrd : codes ≠ [] → Clean w (D.subrrd.getD []) ∧ Clean w (D.subrnp.getD []))
    (M : List Nat) (hM : First w M) : First w (addsubrs D codes ++ M) := by
  have e : addsubrs D codes ++ M = dec codes.length ++ 32 :: (asc "array" ++ 10 ::
      (subrTexts (D.subrrd.getD []) (D.subrnp.getD []) 0 codes ++ M)) := by
    have : asc " array\n" = 32 :: (asc "array" ++ [10]) := by decide
    unfold addsubrs
    rw [this]
    simp
  rw [e]
  refine First.join hs (clean_dec hw _) ?_ 32 sep32
  refine First.join hs (clean_plain hw (by decide)) ?_ 10 sep10
  by_cases h0 : codes = []
  · subst h0; exact hM
  · exact subrTexts_first hw hs _ _ (hrd h0).1 (hrd h0).2 codes hc 0 M hM

theorem charTexts_first {w : List Nat} (hs : ∀ c ∈ w, isSep c = false) (rd nd : List Nat) (hw : 47 ∈ w)
    (hrd : Clean w rd) (hnd : Clean w nd) (chars : List (List Nat × List Nat))
    (hc : ∀ g ∈ chars, Clean w (47 :: g.1) ∧ Clean w g.2) (M : List Nat) (hM : First w M) :
    First w ((chars.map (charText rd nd)).flatten ++ M) := by
  induction chars with
  | nil => exact hM
  | cons g chars ih =>
    have e : ((g :: chars).map (charText rd nd)).flatten ++ M = (47 :: g.1) ++ 32 :: (dec g.2.length ++ 32 ::
        (rd ++ 32 :: (g.2 ++ 32 :: (nd ++ 10 :: ((chars.map (charText rd nd)).flatten ++ M))))) := by
      simp [charText]
    rw [e]
    have hg := hc g (List.mem_cons_self ..)
    refine First.join hs hg.1 ?_ 32 sep32
    refine First.join hs (clean_dec hw _) ?_ 32 sep32
    refine First.join hs hrd ?_ 32 sep32
    refine First.join hs hg.2 ?_ 32 sep32
    refine First.join hs hnd ?_ 10 sep10
    exact ih fun x hx => hc x (List.mem_cons_of_mem _ hx)

theorem addcharstrings_first {w : List Nat} (hw : 47 ∈ w) (hs : ∀ c ∈ w, isSep c = false) (D : Data2) (count : Nat)
    (chars : List (List Nat × List Nat)) (hc : ∀ g ∈ chars, Clean w (47 :: g.1) ∧ Clean w g.2)
    (hrd : Clean w (D.glyphrd.getD [])) (hnd : Clean w (D.glyphnd.getD [])) (M : List Nat) (hM : First w M) :
    First w (addcharstrings D count chars ++ M) := by
  have e : addcharstrings D count chars ++ M = dec count ++ 32 :: (asc "dict" ++ 32 :: (asc "dup" ++ 32 ::
      (asc "begin" ++ 10 :: ((chars.map (charText (D.glyphrd.getD []) (D.glyphnd.getD []))).flatten ++
        (asc "end" ++ 10 :: M))))) := by
    have h1 : asc " dict dup begin\n" = 32 :: (asc "dict" ++ 32 :: (asc "dup" ++ 32 :: (asc "begin" ++ [10]))) := by
      decide
    have h2 : asc "end\n" = asc "end" ++ [10] := by decide
    unfold addcharstrings
    rw [h1, h2]
    simp
  rw [e]
  refine First.join hs (clean_dec hw _) ?_ 32 sep32
  refine First.join hs (clean_plain hw (by decide)) ?_ 32 sep32
  refine First.join hs (clean_plain hw (by decide)) ?_ 32 sep32
  refine First.join hs (clean_plain hw (by decide)) ?_ 10 sep10
  refine charTexts_first hs _ _ hw hrd hnd chars hc _ ?_
  exact First.join hs (clean_plain hw (by decide)) hM 10 sep10

/-- Two prefixes of the same data. -/
theorem cut {data A S P post r : List Nat} (h1 : data = A ++ (S ++ post)) (h2 : data = P ++ r)
    (hM : (data.take P.length).drop (data.length - post.length) ≠ []) :
    P = A ++ S ++ (data.take P.length).drop (data.length - post.length) := by
  have e1 : data.take P.length = P := by rw [h2]; simp
  have e2 : data.length - post.length = (A ++ S).length := by rw [h1]; simp; omega
  rw [e1, e2] at hM ⊢
  have hle : (A ++ S).length ≤ P.length := by
    by_contra h
    exact hM (List.drop_eq_nil_of_le (by omega))
  have hp : A ++ S <+: P := by
    refine List.prefix_of_prefix_length_le (l₃ := data) ⟨post, by rw [h1]; simp⟩ ⟨r, h2.symm⟩ hle
  obtain ⟨m, rfl⟩ := hp
  simp

theorem key_subrs : asc "/Subrs" ≠ [] ∧ 47 ∈ asc "/Subrs" ∧ ∀ c ∈ asc "/Subrs", isSep c = false := by decide
theorem key_chars : asc "/CharStrings" ≠ [] ∧ 47 ∈ asc "/CharStrings" ∧ ∀ c ∈ asc "/CharStrings", isSep c = false := by
  decide

theorem getint_of_array {s : List Nat} {r} (h : readSubrArray s = some r) : (getint s).isSome := by
  unfold readSubrArray at h
  rw [Option.bind_eq_some_iff] at h
  obtain ⟨x, hx, _⟩ := h
  rw [hx]; rfl

theorem getint_of_dict {s : List Nat} {r} (h : readCharDict s = some r) : (getint s).isSome := by
  unfold readCharDict at h
  rw [Option.bind_eq_some_iff] at h
  obtain ⟨x, hx, _⟩ := h
  rw [hx]; rfl

/-- The middle part ends with the key and the separator eaten. -/
theorem middle {w P A M a : List Nat} {x : Nat} (hw : w ≠ []) (hs : ∀ c ∈ w, isSep c = false) (hP : P = A ++ M)
    (ha : P = a ++ [x]) (hx : isSep x = true) (hf : First w a) (hM : w <:+: M) :
    ∃ m, M = m ++ [x] ∧ a = A ++ m ∧ First w m := by
  rcases List.eq_nil_or_concat M with rfl | ⟨m, y, rfl⟩
  · exact absurd (List.infix_nil.1 hM) hw
  · rw [List.concat_eq_append] at hP hM ⊢
    have e : A ++ m = a ∧ y = x := by
      have := hP.symm.trans ha
      rw [← List.append_assoc] at this
      have h2 := List.append_inj' this rfl
      exact ⟨h2.1, by simpa using h2.2⟩
    obtain ⟨e1, rfl⟩ := e
    refine ⟨m, rfl, e1.symm, hf.suffix e1.symm ?_⟩
    obtain ⟨u, v, h⟩ := hM
    rcases split_at_sep w hs m [] u v y hx (by rw [h]) with ⟨v', h1, _⟩ | ⟨u', h1, _⟩
    · exact ⟨u, v', h1.symm⟩
    · have : w = [] := by
        have := h1.symm
        simp only [List.append_eq_nil_iff] at this
        exact this.1.2
      subst this
      exact List.nil_infix

/-- What a decoded private part consists of. -/
theorem data2decode_sound (data : List Nat) (D : Data2) (h : data2decode data = some D) :
    ∃ a x b y S C, D.subrsPre = a ++ [x] ∧ isSep x = true ∧ isStart x = false ∧ First (asc "/Subrs") a ∧
      data = D.subrsPre ++ (S ++ D.subrsPost) ∧
      D.charsPre = b ++ [y] ∧ isSep y = true ∧ isStart y = false ∧ First (asc "/CharStrings") b ∧
      data = D.charsPre ++ (C ++ D.charsPost) ∧
      (∀ code ∈ D.subrs, code <:+: S) ∧
      (D.subrs ≠ [] → (∃ t, D.subrrd = some t ∧ IsTok t ∧ t <:+: S) ∧ ∃ t, D.subrnp = some t ∧ Words t S) ∧
      (∀ g ∈ D.chars, IsTok (47 :: g.1) ∧ (∀ x ∈ g.1, x < 128) ∧ (47 :: g.1) <:+: C ∧ g.2 <:+: C) ∧
      (D.chars ≠ [] → (∃ t, D.glyphrd = some t ∧ IsTok t ∧ t <:+: C) ∧ ∃ t, D.glyphnd = some t ∧ IsTok t ∧ t <:+: C) ∧
      (D.subrs = [] ∨ D.subrrd = D.glyphrd) := by
  unfold data2decode at h
  rw [Option.bind_eq_some_iff] at h
  obtain ⟨⟨A, r⟩, h1, h⟩ := h
  rw [Option.bind_eq_some_iff] at h
  obtain ⟨⟨codes, c1⟩, h2, h⟩ := h
  rw [Option.bind_eq_some_iff] at h
  obtain ⟨⟨B, q⟩, h3, h⟩ := h
  rw [Option.bind_eq_some_iff] at h
  obtain ⟨⟨chars, c2⟩, h4, h⟩ := h
  split_ifs at h with h5
  simp only [Option.some.injEq] at h
  subst h
  simp only at h2 h4 h5 ⊢
  obtain ⟨a, x, ha, hd, hf, hx, hxs⟩ := tokenizer_sound _ key_subrs.1 _ _ _ h1 (getint_of_array h2)
  obtain ⟨b, y, hb, hd', hf', hy, hys⟩ := tokenizer_sound _ key_chars.1 _ _ _ h3 (getint_of_dict h4)
  obtain ⟨S, hS, s1, s2, _⟩ := readSubrArray_sound _ _ _ h2
  obtain ⟨C, hC, t1, t2⟩ := readCharDict_sound _ _ _ h4
  exact ⟨a, x, b, y, S, C, ha, hx, hxs, hf, by rw [← hS]; exact hd, hb, hy, hys, hf', by rw [← hC]; exact hd',
    s1, s2, t1, t2, h5⟩

/-- The bytes between the two arrays (`self._data2[self.subrsend:self.charstringsstart]`, or the other way
round). -/
def between (data : List Nat) (D : Data2) : List Nat :=
  if D.subrsPre.length < D.charsPre.length then
    (data.take D.charsPre.length).drop (data.length - D.subrsPost.length)
  else (data.take D.subrsPre.length).drop (data.length - D.charsPost.length)

/-- The key of the second array lies between the two arrays, i.e. they do not overlap. -/
def Separate (data : List Nat) (D : Data2) : Prop :=
  if D.subrsPre.length < D.charsPre.length then asc "/CharStrings" <:+: between data D
  else asc "/Subrs" <:+: between data D

/-- **C90.** Writing selected subroutines and glyphs of a font that has been read, and reading the result,
gives exactly these subroutines and glyphs and the same tokens, in whichever order the two arrays come. The
subroutines may be replaced by ones shorter than six bytes (`emptysubr`). -/
theorem data2_roundtrip (data : List Nat) (D : Data2) (hD : data2decode data = some D) (hsep : Separate data D)
    (codes : List (List Nat)) (count : Nat) (chars : List (List Nat × List Nat))
    (hcodes : ∀ code ∈ codes, code ∈ D.subrs ∨ code.length < 6) (hne : codes ≠ [] → D.subrs ≠ [])
    (hchars : ∀ g ∈ chars, g ∈ D.chars) (hcne : chars ≠ []) :
    ∃ D', data2decode (getdata2 data D codes count chars) = some D' ∧ D'.subrs = codes ∧ D'.chars = chars ∧
      (codes ≠ [] → D'.subrrd = D.subrrd ∧ D'.subrnp = D.subrnp) ∧ D'.glyphrd = D.glyphrd ∧
      D'.glyphnd = D.glyphnd := by
  obtain ⟨a, x, b, y, S, C, ha, hx, hxs, hf, hd, hb, hy, hys, hf', hd', s1, s2, t1, t2, hrd⟩ :=
    data2decode_sound data D hD
  have hDne : D.chars ≠ [] := by
    obtain ⟨g, hg⟩ := List.exists_mem_of_ne_nil _ hcne
    exact List.ne_nil_of_mem (hchars g hg)
  have t2 := t2 hDne
  have hA : ∀ rest, readSubrArray (addsubrs D codes ++ rest) =
      some (codes, ⟨if codes = [] then none else D.subrrd, if codes = [] then none else D.subrnp, rest⟩) := by
    intro rest
    refine readSubrArray_write D codes rest fun h => ?_
    obtain ⟨⟨t, u1, u2, _⟩, t', v1, v2⟩ := s2 (hne h)
    exact ⟨⟨t, u1, u2⟩, t', v1, v2.isNp⟩
  have hB : ∀ rest, readCharDict (addcharstrings D count chars ++ rest) =
      some (chars, ⟨D.glyphrd, D.glyphnd, rest⟩) := by
    intro rest
    have := readCharDict_write D count chars rest (fun _ => by
      obtain ⟨⟨t, u1, u2, _⟩, t', v1, v2, _⟩ := t2
      exact ⟨⟨t, u1, u2⟩, t', v1, v2⟩) (fun g hg => ⟨(t1 g (hchars g hg)).1, (t1 g (hchars g hg)).2.1⟩)
    rw [this, if_neg hcne, if_neg hcne]
  have hassert : codes = [] ∨ (if codes = [] then none else D.subrrd) = D.glyphrd := by
    by_cases h : codes = []
    · exact .inl h
    · rw [if_neg h]
      rcases hrd with h' | h'
      · exact absurd h' (hne h)
      · exact .inr h'
  by_cases hlt : D.subrsPre.length < D.charsPre.length
  · -- the subroutines come first
    simp only [Separate, between, if_pos hlt] at hsep
    set M := (data.take D.charsPre.length).drop (data.length - D.subrsPost.length) with hM
    have hMne : M ≠ [] := by
      intro e
      rw [e] at hsep
      exact key_chars.1 (List.infix_nil.1 hsep)
    have hP := cut hd hd' hMne
    rw [← hM] at hP
    obtain ⟨m, hm, hbm, hfm⟩ := middle key_chars.1 key_chars.2.2 hP hb hy hf' hsep
    have hclean : Clean (asc "/CharStrings") (D.subrsPre ++ S) :=
      hf'.clean hbm (by
        intro e
        rw [e] at hfm
        exact key_chars.1 (List.suffix_nil.1 hfm.1))
    have hcS : Clean (asc "/CharStrings") S := hclean.infix (List.suffix_append ..).isInfix
    have hca : Clean (asc "/CharStrings") a := hclean.infix (by
      rw [ha]; exact ⟨[], [x] ++ S, by simp⟩)
    have hfirst : First (asc "/CharStrings") (a ++ x :: (addsubrs D codes ++ m)) := by
      refine First.join key_chars.2.2 hca ?_ x hx
      refine addsubrs_first key_chars.2.1 key_chars.2.2 D codes ?_ ?_ m hfm
      · intro code hc
        rcases hcodes code hc with h | h
        · exact hcS.infix (s1 code h)
        · exact clean_of_length (lt_trans h (by decide))
      · intro h
        obtain ⟨⟨t, u1, _, u3⟩, t', v1, v2⟩ := s2 (hne h)
        rw [u1, v1]
        exact ⟨hcS.infix u3, clean_np key_chars.2.1 key_chars.2.2 v2 hcS⟩
    have hnew : getdata2 data D codes count chars =
        a ++ x :: (addsubrs D codes ++ (M ++ (addcharstrings D count chars ++ D.charsPost))) := by
      unfold getdata2
      rw [if_pos hlt, ← hM, ha]
      simp
    have hnew' : getdata2 data D codes count chars =
        (a ++ x :: (addsubrs D codes ++ m)) ++ y :: (addcharstrings D count chars ++ D.charsPost) := by
      rw [hnew, hm]
      simp
    have k1 := tokenizer_write _ key_subrs.1 a (addsubrs D codes ++ (M ++ (addcharstrings D count chars ++ D.charsPost)))
      x hf hx hxs
    have k2 := tokenizer_write _ key_chars.1 _ (addcharstrings D count chars ++ D.charsPost) y hfirst hy hys
    rw [← hnew] at k1
    rw [← hnew'] at k2
    unfold data2decode
    rw [k1]
    simp only [Option.bind_some, hA, k2, hB]
    rw [if_pos hassert]
    exact ⟨_, rfl, rfl, rfl, fun h => by simp [h], rfl, rfl⟩
  · -- the glyphs come first
    simp only [Separate, between, if_neg hlt] at hsep
    set M := (data.take D.subrsPre.length).drop (data.length - D.charsPost.length) with hM
    have hMne : M ≠ [] := by
      intro e
      rw [e] at hsep
      exact key_subrs.1 (List.infix_nil.1 hsep)
    have hP := cut hd' hd hMne
    rw [← hM] at hP
    obtain ⟨m, hm, ham, hfm⟩ := middle key_subrs.1 key_subrs.2.2 hP ha hx hf hsep
    have hclean : Clean (asc "/Subrs") (D.charsPre ++ C) :=
      hf.clean ham (by
        intro e
        rw [e] at hfm
        exact key_subrs.1 (List.suffix_nil.1 hfm.1))
    have hcC : Clean (asc "/Subrs") C := hclean.infix (List.suffix_append ..).isInfix
    have hcb : Clean (asc "/Subrs") b := hclean.infix (by
      rw [hb]; exact ⟨[], [y] ++ C, by simp⟩)
    have hfirst : First (asc "/Subrs") (b ++ y :: (addcharstrings D count chars ++ m)) := by
      refine First.join key_subrs.2.2 hcb ?_ y hy
      obtain ⟨⟨t, u1, _, u3⟩, t', v1, _, v3⟩ := t2
      refine addcharstrings_first key_subrs.2.1 key_subrs.2.2 D count chars ?_ ?_ ?_ m hfm
      · intro g hg
        obtain ⟨_, _, g3, g4⟩ := t1 g (hchars g hg)
        exact ⟨hcC.infix g3, hcC.infix g4⟩
      · rw [u1]; exact hcC.infix u3
      · rw [v1]; exact hcC.infix v3
    have hnew : getdata2 data D codes count chars =
        b ++ y :: (addcharstrings D count chars ++ (M ++ (addsubrs D codes ++ D.subrsPost))) := by
      unfold getdata2
      rw [if_neg hlt, ← hM, hb]
      simp
    have hnew' : getdata2 data D codes count chars =
        (b ++ y :: (addcharstrings D count chars ++ m)) ++ x :: (addsubrs D codes ++ D.subrsPost) := by
      rw [hnew, hm]
      simp
    have k1 := tokenizer_write _ key_chars.1 b (addcharstrings D count chars ++ (M ++ (addsubrs D codes ++ D.subrsPost)))
      y hf' hy hys
    have k2 := tokenizer_write _ key_subrs.1 _ (addsubrs D codes ++ D.subrsPost) x hfirst hx hxs
    rw [← hnew] at k1
    rw [← hnew'] at k2
    unfold data2decode
    rw [k2]
    simp only [Option.bind_some, hA, k1, hB]
    rw [if_pos hassert]
    exact ⟨_, rfl, rfl, rfl, fun h => by simp [h], rfl, rfl⟩

/-! ## Concrete data -/

def sample : List Nat := asc "dup /Private 9 dict dup begin /lenIV 1 def\n/Subrs 3  array\ndup 0 3 RD " ++ [1, 47, 10] ++
  asc " noaccess\tput\ndup 1 2 RD " ++ [32, 32] ++ asc " noaccess put dup 2 0 RD  noaccess put\nND\n2 index /CharStrings 2 dict dup begin\n/.notdef 2 RD " ++
  [7, 8] ++ asc " ND\n/A 4 RD " ++ [37, 47, 32, 255] ++ asc " ND\nend\nmark currentfile closefile\n"

/-- Reading, keeping one glyph and two subroutines (the first one emptied), reading again. -/
example : ∃ D, data2decode sample = some D ∧ Separate sample D ∧
    D.subrs = [[1, 47, 10], [32, 32], []] ∧ D.subrnp = some (asc "noaccess put") ∧
    D.chars = [(asc ".notdef", [7, 8]), (asc "A", [37, 47, 32, 255])] ∧
    (data2decode (getdata2 sample D [[9], [32, 32]] 2 [(asc "A", [37, 47, 32, 255])])).map
      (fun D' => (D'.subrs, D'.chars)) = some ([[9], [32, 32]], [(asc "A", [37, 47, 32, 255])]) := by
  refine ⟨(data2decode sample).get (by decide +kernel), ?_⟩
  rw [Option.some_get]
  refine ⟨rfl, ?_⟩
  unfold Separate between
  decide +kernel

/-- The other order. -/
def sample' : List Nat := asc "/CharStrings 1 dict dup begin\n/A 1 -| " ++ [47] ++ asc " |-\nend\n/Subrs 1 array\ndup 0 1 -| " ++
  [11] ++ asc " |\nend\n"

example : ∃ D, data2decode sample' = some D ∧ Separate sample' D ∧
    (data2decode (getdata2 sample' D [[11]] 1 D.chars)).map (fun D' => (D'.subrs, D'.chars)) =
      some ([[11]], [(asc "A", [47])]) := by
  refine ⟨(data2decode sample').get (by decide +kernel), ?_⟩
  rw [Option.some_get]
  refine ⟨rfl, ?_⟩
  unfold Separate between
  decide +kernel

/-- "Leading token separators and comments are silently consumed" (`pyx/reader.py:133-134`). -/
def CommentsSkipped : Prop :=
  ∀ comment t rest, (∀ c ∈ comment, c ≠ 10 ∧ c ≠ 13) → IsTok t → t.head? ≠ some 37 →
    gettoken (37 :: comment ++ 10 :: (t ++ 32 :: rest)) = some (t, rest)

/-- In the bytes version comments are read as tokens (the comparison in `pyx/reader.py:138` is between an
integer and a bytes object). -/
theorem comments_not_skipped : ¬ CommentsSkipped := by
  intro h
  have := h (asc "x") (asc "y") [] (by decide) (isTok_of _ (by decide)) (by decide)
  exact absurd this (by decide)

end PyX.T1
