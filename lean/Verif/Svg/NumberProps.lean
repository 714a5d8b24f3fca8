import Verif.Svg.Number
import Verif.Svg.PathProps
import Mathlib.Tactic.IntervalCases

/-!
# C98: numbers and commands of SVG path data are read as they are written
-/

set_option linter.unusedSectionVars false

namespace PyX.Svg

open PyX.Path

/-! ## Specification: numbers (SVG 1.1, 8.3.9) -/

inductive Sign
  | none | plus | minus
deriving DecidableEq

def Sign.text : Sign → List Char
  | .none => []
  | .plus => ['+']
  | .minus => ['-']

def Sign.value : Sign → ℤ
  | .minus => -1
  | _ => 1

/-- An exponent: whether the `E` is upper case, the sign and the digits. -/
structure Exp where
  upper : Bool
  sign : Sign
  digits : List Char

/-- A number: sign, digits before the point, digits after the point (if there is a point), exponent. -/
structure Num where
  sign : Sign
  whole : List Char
  frac : Option (List Char)
  exp : Option Exp

def fracText : Option (List Char) → List Char
  | none => []
  | some f => '.' :: f

def expText : Option Exp → List Char
  | none => []
  | some e => (if e.upper then 'E' else 'e') :: (e.sign.text ++ e.digits)

def Num.text (n : Num) : List Char := n.sign.text ++ (n.whole ++ (fracText n.frac ++ expText n.exp))

/-- The value of a digit at its place. -/
def place : List Char → ℚ
  | [] => 0
  | c :: cs => (c.toNat - 48 : ℕ) * 10 ^ cs.length + place cs

def fracValue : Option (List Char) → ℚ
  | none => 0
  | some f => place f / 10 ^ f.length

def expValue : Option Exp → ℤ
  | none => 0
  | some e => e.sign.value * ⌊place e.digits⌋

def Num.value (n : Num) : ℚ := n.sign.value * (place n.whole + fracValue n.frac) * 10 ^ expValue n.exp

def fracDigits : Option (List Char) → List Char
  | none => []
  | some f => f

/-- The grammar: digits where digits have to be, at least one in the mantissa and at least one in the exponent. -/
structure Num.Valid (n : Num) : Prop where
  whole : ∀ c ∈ n.whole, digit c = true
  frac : ∀ c ∈ fracDigits n.frac, digit c = true
  some_digit : n.whole ≠ [] ∨ fracDigits n.frac ≠ []
  exp : ∀ e, n.exp = some e → e.digits ≠ [] ∧ ∀ c ∈ e.digits, digit c = true

/-- White space with at most one comma. -/
def IsSep (s : List Char) : Prop :=
  ∃ w1 w2 : List Char, (∀ c ∈ w1, ws c = true) ∧ (∀ c ∈ w2, ws c = true) ∧ (s = w1 ∧ w2 = [] ∨ s = w1 ++ ',' :: w2)

/-- A number may follow another one without any separator if it begins with a sign, or with a point and there is a point or an exponent before. -/
def Joins (n m : Num) : Prop := m.sign ≠ .none ∨ (m.whole = [] ∧ (n.frac ≠ none ∨ n.exp ≠ none))

/-- A list of numbers with the separators following each. -/
def textOf : List (Num × List Char) → List Char
  | [] => []
  | a :: l => a.1.text ++ (a.2 ++ textOf l)

/-- The numbers are valid, do not end with a point, and are separated. -/
def Listed : List (Num × List Char) → Prop
  | [] => True
  | [a] => a.1.Valid ∧ a.1.frac ≠ some [] ∧ IsSep a.2
  | a :: b :: l => a.1.Valid ∧ a.1.frac ≠ some [] ∧ IsSep a.2 ∧ (a.2 = [] → Joins a.1 b.1) ∧ Listed (b :: l)

/-! ## Proofs -/

theorem span_spec (p : Char → Bool) (l r : List Char) (hl : ∀ c ∈ l, p c = true) (hr : ∀ c, r.head? = some c → p c = false) :
    (l ++ r).takeWhile p = l ∧ (l ++ r).dropWhile p = r := by
  induction l with
  | nil =>
    cases r with
    | nil => exact ⟨rfl, rfl⟩
    | cons c r => simp [hr c rfl]
  | cons c l ih =>
    have := ih fun d hd => hl d (List.mem_cons_of_mem _ hd)
    simp [hl c List.mem_cons_self, this.1, this.2]

theorem natOf_append (a b : List Char) : natOf (a ++ b) = natOf a * 10 ^ b.length + natOf b := by
  have key : ∀ (b : List Char) (m : ℕ), b.foldl (fun n c => 10 * n + (c.toNat - 48)) m = m * 10 ^ b.length + b.foldl (fun n c => 10 * n + (c.toNat - 48)) 0 := by
    intro b
    induction b with
    | nil => intro m; simp
    | cons c b ih =>
      intro m
      rw [List.foldl_cons, List.foldl_cons, ih (10 * m + _), ih (10 * 0 + _), List.length_cons, pow_succ]
      ring
  unfold natOf
  rw [List.foldl_append, key]

theorem natOf_place (l : List Char) : (natOf l : ℚ) = place l := by
  induction l with
  | nil => rfl
  | cons c l ih =>
    have : natOf (c :: l) = (c.toNat - 48) * 10 ^ l.length + natOf l := by
      have := natOf_append [c] l
      simpa [natOf] using this
    rw [this, place]
    push_cast
    rw [ih]

theorem digit_not {c : Char} (h : digit c = true) : c ≠ '.' ∧ c ≠ '+' ∧ c ≠ '-' ∧ c ≠ 'e' ∧ c ≠ 'E' ∧ c ≠ ',' ∧ ws c = false ∧ c ≠ 'p' ∧ c ≠ 'm' ∧ c ≠ 'c' ∧ c ≠ 'i' ∧
    c ≠ '%' := by
  refine ⟨?_, ?_, ?_, ?_, ?_, ?_, ?_, ?_, ?_, ?_, ?_, ?_⟩
  all_goals first | (rintro rfl; revert h; decide) | skip
  by_contra hw
  have hw : ws c = true := by simpa using hw
  simp only [ws, Bool.or_eq_true, beq_iff_eq] at hw
  rcases hw with ((((rfl | rfl) | rfl) | rfl) | rfl) | rfl <;> (revert h; decide)

/-- The characters a number can begin with. -/
def start (c : Char) : Bool := digit c || c == '.' || c == '+' || c == '-'

theorem start_not {c : Char} (h : start c = true) : ws c = false ∧ c ≠ ',' ∧ c ≠ 'e' ∧ c ≠ 'E' ∧ c ≠ 'p' ∧ c ≠ 'm' ∧ c ≠ 'c' ∧ c ≠ 'i' ∧ c ≠ '%' := by
  simp only [start, Bool.or_eq_true, beq_iff_eq] at h
  rcases h with ((h | rfl) | rfl) | rfl
  · obtain ⟨_, _, _, h4, h5, h6, h7, h8, h9, h10, h11, h12⟩ := digit_not h
    exact ⟨h7, h6, h4, h5, h8, h9, h10, h11, h12⟩
  all_goals decide

theorem readSign_text (sg : Sign) (r : List Char) (hr : ∀ c, r.head? = some c → c ≠ '+' ∧ c ≠ '-') :
    readSign (sg.text ++ r) = (decide (sg = .minus), r) := by
  cases sg with
  | plus => rfl
  | minus => rfl
  | none =>
    simp only [Sign.text, List.nil_append]
    cases r with
    | nil => rfl
    | cons c r =>
      obtain ⟨h1, h2⟩ := hr c rfl
      rw [readSign.eq_def]
      split
      · rename_i heq; exact absurd (List.cons.inj heq).1 h2
      · rename_i heq; exact absurd (List.cons.inj heq).1 h1
      · rfl

/-- What follows a number does not continue it. -/
def Stops (n : Num) (r : List Char) : Prop :=
  ∀ c, r.head? = some c → digit c = false ∧ (c = '.' → n.frac ≠ none ∨ n.exp ≠ none) ∧ c ≠ 'e' ∧ c ≠ 'E'

theorem readExp_text (e : Option Exp) (r : List Char) (he : ∀ x, e = some x → x.digits ≠ [] ∧ ∀ c ∈ x.digits, digit c = true)
    (hr : ∀ c, r.head? = some c → digit c = false ∧ (e = none → c ≠ 'e' ∧ c ≠ 'E')) : readExp (expText e ++ r) = (expValue e, r) := by
  cases e with
  | none =>
    simp only [expText, List.nil_append, expValue]
    cases r with
    | nil => rfl
    | cons c r =>
      obtain ⟨h1, h2⟩ := (hr c rfl).2 rfl
      simp [readExp, h1, h2]
  | some x =>
    obtain ⟨h1, h2⟩ := he x rfl
    have hs := span_spec digit x.digits r h2 fun c hc => (hr c hc).1
    have hsg : readSign (x.sign.text ++ (x.digits ++ r)) = (decide (x.sign = .minus), x.digits ++ r) := by
      apply readSign_text
      intro c hc
      cases hd : x.digits with
      | nil => exact absurd hd h1
      | cons d ds =>
        rw [hd] at hc
        simp only [List.cons_append, List.head?_cons, Option.some.injEq] at hc
        subst hc
        have := digit_not (h2 d (by rw [hd]; exact List.mem_cons_self))
        exact ⟨this.2.1, this.2.2.1⟩
    have hc : ((if x.upper then 'E' else 'e') == 'e' || (if x.upper then 'E' else 'e') == 'E') = true := by cases x.upper <;> decide
    have hem : x.digits.isEmpty = false := by simpa using h1
    simp only [expText, List.cons_append, List.append_assoc, readExp, hc, if_true, hsg, hs.1, hs.2, hem, Bool.false_eq_true, if_false, expValue]
    rw [← natOf_place]
    rw [Int.floor_natCast]
    cases x.sign <;> rfl

theorem readMantissa_text (n : Num) (r : List Char) (hv : n.Valid) (hf : n.frac ≠ some []) (hr : ∀ c, r.head? = some c → digit c = false ∧ (n.frac = none → c ≠ '.')) :
    readMantissa (n.whole ++ (fracText n.frac ++ r)) = some (n.whole, fracDigits n.frac, r) := by
  unfold readMantissa
  cases hfr : n.frac with
  | none =>
    have hw : n.whole ≠ [] := by
      rcases hv.some_digit with h | h
      · exact h
      · rw [hfr] at h; exact absurd rfl h
    have hs := span_spec digit n.whole r hv.whole fun c hc => (hr c hc).1
    have hem : n.whole.isEmpty = false := by simpa using hw
    simp only [fracText, List.nil_append, hs.1, hs.2, hem, Bool.false_eq_true, if_false]
    split
    · exact absurd rfl ((hr _ rfl).2 hfr)
    · rfl
  | some f =>
    have hfne : f ≠ [] := by rintro rfl; exact hf hfr
    have hs := span_spec digit n.whole ('.' :: (f ++ r)) hv.whole fun c hc => by
      simp only [List.head?_cons, Option.some.injEq] at hc
      subst hc; decide
    have hs2 := span_spec digit f r (fun c hc => hv.frac c (by rw [hfr]; exact hc)) fun c hc => (hr c hc).1
    have hem : f.isEmpty = false := by simpa using hfne
    simp only [fracText, List.cons_append, hs.1, hs.2, hs2.1, hs2.2, hem, Bool.false_eq_true, if_false, fracDigits]

theorem whole_head (n : Num) (hv : n.Valid) (r : List Char) :
    ∃ c, (n.whole ++ (fracText n.frac ++ r)).head? = some c ∧ (digit c = true ∨ (c = '.' ∧ n.whole = [])) := by
  cases hw : n.whole with
  | cons c w => exact ⟨c, rfl, Or.inl (hv.whole c (by rw [hw]; exact List.mem_cons_self))⟩
  | nil =>
    cases hfr : n.frac with
    | none =>
      rcases hv.some_digit with h | h
      · exact absurd hw h
      · rw [hfr] at h; exact absurd rfl h
    | some f => exact ⟨'.', rfl, Or.inr ⟨rfl, rfl⟩⟩

/-- A number is read as it is written, up to where it ends. -/
theorem readValue_text (n : Num) (r : List Char) (hv : n.Valid) (hf : n.frac ≠ some []) (hr : Stops n r) : readValue (n.text ++ r) = some (n.value, r) := by
  unfold readValue Num.text
  have h1 : readSign (n.sign.text ++ (n.whole ++ (fracText n.frac ++ expText n.exp)) ++ r) =
      (decide (n.sign = .minus), n.whole ++ (fracText n.frac ++ (expText n.exp ++ r))) := by
    simp only [List.append_assoc]
    apply readSign_text
    obtain ⟨c, hc, hd⟩ := whole_head n hv (expText n.exp ++ r)
    intro d hd'
    rw [hc] at hd'
    cases hd'
    rcases hd with hd | ⟨rfl, _⟩
    · exact ⟨(digit_not hd).2.1, (digit_not hd).2.2.1⟩
    · decide
  have h2 : readMantissa (n.whole ++ (fracText n.frac ++ (expText n.exp ++ r))) = some (n.whole, fracDigits n.frac, expText n.exp ++ r) := by
    apply readMantissa_text n _ hv hf
    intro c hc
    cases he : n.exp with
    | none =>
      rw [he] at hc
      obtain ⟨g1, g2, _⟩ := hr c hc
      refine ⟨g1, fun hn h => ?_⟩
      rcases g2 h with h | h
      · exact h hn
      · exact h he
    | some e =>
      rw [he] at hc
      simp only [expText, List.cons_append, List.head?_cons, Option.some.injEq] at hc
      subst hc
      cases e.upper <;> refine ⟨by decide, fun _ => by decide⟩
  have h3 : readExp (expText n.exp ++ r) = (expValue n.exp, r) := readExp_text n.exp r hv.exp fun c hc => ⟨(hr c hc).1, fun _ => (hr c hc).2.2⟩
  simp only [h1, h2, h3, Option.map_some, Option.some.injEq, Prod.mk.injEq, and_true, Num.value]
  congr 1
  rw [natOf_append]
  push_cast
  rw [natOf_place, natOf_place]
  congr 1
  · cases n.sign <;> simp [Sign.value]
  · cases n.frac with
    | none => simp [fracDigits, fracValue, place]
    | some f =>
      simp only [fracDigits, fracValue]
      rw [add_div, mul_div_assoc, div_self (by positivity), mul_one]

theorem text_head (n : Num) (hv : n.Valid) (r : List Char) :
    ∃ c, (n.text ++ r).head? = some c ∧ start c = true ∧ (digit c = true → n.sign = .none ∧ n.whole ≠ []) ∧ (c = '.' → n.sign = .none ∧ n.whole = []) := by
  unfold Num.text
  cases hs : n.sign with
  | plus => exact ⟨'+', rfl, by decide, fun h => absurd h (by decide), fun h => absurd h (by decide)⟩
  | minus => exact ⟨'-', rfl, by decide, fun h => absurd h (by decide), fun h => absurd h (by decide)⟩
  | none =>
    obtain ⟨c, hc, hd⟩ := whole_head n hv (expText n.exp ++ r)
    refine ⟨c, by simpa [Sign.text] using hc, ?_, ?_, ?_⟩
    · rcases hd with hd | ⟨rfl, _⟩
      · simp [start, hd]
      · decide
    · intro h
      refine ⟨rfl, fun hw => ?_⟩
      rw [hw] at hc
      cases hfr : n.frac with
      | none =>
        rcases hv.some_digit with h' | h'
        · exact h' hw
        · rw [hfr] at h'; exact h' rfl
      | some f =>
        rw [hfr] at hc
        simp only [fracText, List.nil_append, List.cons_append, List.head?_cons, Option.some.injEq] at hc
        subst hc
        exact absurd h (by decide)
    · intro h
      refine ⟨rfl, ?_⟩
      rcases hd with hd | ⟨_, h'⟩
      · rw [h] at hd; exact absurd hd (by decide)
      · exact h'

theorem readUnit_none (s : List Char) (h : ∀ c, s.head? = some c → c ≠ 'p' ∧ c ≠ 'm' ∧ c ≠ 'c' ∧ c ≠ 'i' ∧ c ≠ '%') : readUnit s = (.none, s) := by
  rw [readUnit.eq_def]
  split
  case h_8 => rfl
  all_goals
    obtain ⟨h1, h2, h3, h4, h5⟩ := h _ rfl
    first | exact absurd rfl h1 | exact absurd rfl h2 | exact absurd rfl h3 | exact absurd rfl h4 | exact absurd rfl h5

theorem skipSep_spec (s r : List Char) (hs : IsSep s) (hr : ∀ c, r.head? = some c → ws c = false ∧ c ≠ ',') : skipSep (s ++ r) = r := by
  obtain ⟨w1, w2, h1, h2, h⟩ := hs
  unfold skipSep
  rcases h with ⟨rfl, _⟩ | rfl
  · rw [(span_spec ws s r h1 fun c hc => (hr c hc).1).2]
    split
    · exact absurd rfl (hr _ rfl).2
    · rfl
  · rw [List.append_assoc, (span_spec ws w1 _ h1 fun c hc => by
      simp only [List.cons_append, List.head?_cons, Option.some.injEq] at hc
      subst hc; decide).2]
    simp only [List.cons_append]
    exact (span_spec ws w2 r h2 fun c hc => (hr c hc).1).2

theorem sep_head (s r : List Char) (hs : IsSep s) (hne : s ≠ []) : ∃ c, (s ++ r).head? = some c ∧ (ws c = true ∨ c = ',') := by
  obtain ⟨w1, w2, h1, h2, h⟩ := hs
  cases s with
  | nil => exact absurd rfl hne
  | cons c s =>
    refine ⟨c, rfl, ?_⟩
    rcases h with ⟨rfl, _⟩ | h
    · exact Or.inl (h1 c List.mem_cons_self)
    · cases w1 with
      | nil => simp only [List.nil_append, List.cons.injEq] at h; exact Or.inr h.1
      | cons d w1 =>
        simp only [List.cons_append, List.cons.injEq] at h
        rw [h.1]
        exact Or.inl (h1 d List.mem_cons_self)

theorem ws_not {c : Char} (h : ws c = true ∨ c = ',') : digit c = false ∧ c ≠ '.' ∧ c ≠ 'e' ∧ c ≠ 'E' ∧ c ≠ 'p' ∧ c ≠ 'm' ∧ c ≠ 'c' ∧ c ≠ 'i' ∧ c ≠ '%' := by
  rcases h with h | rfl
  · simp only [ws, Bool.or_eq_true, beq_iff_eq] at h
    rcases h with ((((rfl | rfl) | rfl) | rfl) | rfl) | rfl <;> decide
  · decide

/-- One number with its separator, in front of the beginning of another one or the end. -/
theorem toFloat_text (res : ℚ) (n : Num) (s r : List Char) (hv : n.Valid) (hf : n.frac ≠ some []) (hs : IsSep s)
    (hr : ∀ c, r.head? = some c → ws c = false ∧ c ≠ ',' ∧ c ≠ 'e' ∧ c ≠ 'E' ∧ c ≠ 'p' ∧ c ≠ 'm' ∧ c ≠ 'c' ∧ c ≠ 'i' ∧ c ≠ '%')
    (hj : s = [] → ∀ c, r.head? = some c → digit c = false ∧ (c = '.' → n.frac ≠ none ∨ n.exp ≠ none)) :
    toFloat res true none (n.text ++ (s ++ r)) = some (n.value * (72 / res), r) := by
  have hst : Stops n (s ++ r) ∧ ∀ c, (s ++ r).head? = some c → c ≠ 'p' ∧ c ≠ 'm' ∧ c ≠ 'c' ∧ c ≠ 'i' ∧ c ≠ '%' := by
    by_cases hne : s = []
    · subst hne
      refine ⟨fun c hc => ?_, fun c hc => ?_⟩
      · obtain ⟨g1, g2⟩ := hj rfl c hc
        obtain ⟨_, _, g5, g6, _⟩ := hr c hc
        exact ⟨g1, g2, g5, g6⟩
      · exact (hr c hc).2.2.2.2
    · obtain ⟨d, hd, hw⟩ := sep_head s r hs hne
      obtain ⟨g1, g2, g3, g4, g5⟩ := ws_not hw
      refine ⟨fun c hc => ?_, fun c hc => ?_⟩
      · rw [hd] at hc; cases hc
        exact ⟨g1, fun h => absurd h g2, g3, g4⟩
      · rw [hd] at hc; cases hc
        exact g5
  unfold toFloat
  rw [readValue_text n _ hv hf hst.1]
  simp only [Option.bind_some, readUnit_none _ hst.2]
  simp only [ne_eq, not_true_eq_false, false_and, if_false, reduceCtorEq, if_true, factor, Option.map_some,
    skipSep_spec s r hs fun c hc => ⟨(hr c hc).1, (hr c hc).2.1⟩]

theorem text_ne (n : Num) (hv : n.Valid) (r : List Char) : n.text ++ r ≠ [] := by
  obtain ⟨c, hc, _⟩ := text_head n hv r
  intro h
  rw [h] at hc
  cases hc

/-- C98: a list of numbers is read as it is written, each number in user units (`72/resolution` points), whatever separators are used and wherever none
is needed. -/
theorem toFloats_text (res : ℚ) (l : List (Num × List Char)) (h : Listed l) :
    toFloats res true (textOf l) = (l.map fun a => a.1.value * (72 / res), false) := by
  have key : ∀ (l : List (Num × List Char)) (k : ℕ), Listed l → l.length ≤ k → toFloatsN res true k (textOf l) = (l.map fun a => a.1.value * (72 / res), false) := by
    intro l
    induction l with
    | nil => intro k _ _; cases k <;> rfl
    | cons a l ih =>
      intro k hl hk
      cases k with
      | zero => simp at hk
      | succ k =>
        have hva : a.1.Valid ∧ a.1.frac ≠ some [] ∧ IsSep a.2 ∧ Listed l := by
          cases l with
          | nil => exact ⟨hl.1, hl.2.1, hl.2.2, trivial⟩
          | cons b l => exact ⟨hl.1, hl.2.1, hl.2.2.1, hl.2.2.2.2⟩
        obtain ⟨v1, v2, v3, v4⟩ := hva
        have hhead : ∀ c, (textOf l).head? = some c → ∃ b l', l = b :: l' ∧ start c = true ∧ (digit c = true → b.1.sign = .none ∧ b.1.whole ≠ []) ∧
            (c = '.' → b.1.sign = .none ∧ b.1.whole = []) := by
          intro c hc
          cases l with
          | nil => cases hc
          | cons b l =>
            have hvb : b.1.Valid ∧ b.1.frac ≠ some [] := by
              cases l with
              | nil => exact ⟨v4.1, v4.2.1⟩
              | cons b' l => exact ⟨v4.1, v4.2.1⟩
            obtain ⟨d, hd, g1, g2, g3⟩ := text_head b.1 hvb.1 (b.2 ++ textOf l)
            simp only [textOf] at hc
            rw [hd] at hc
            cases hc
            exact ⟨b, l, rfl, g1, g2, g3⟩
        have ht := toFloat_text res a.1 a.2 (textOf l) v1 v2 v3 (fun c hc => by
            obtain ⟨b, l', _, g1, _⟩ := hhead c hc
            exact start_not g1) (fun he c hc => by
            obtain ⟨b, l', hbl, g1, g2, g3⟩ := hhead c hc
            subst hbl
            have hj : Joins a.1 b.1 := hl.2.2.2.1 he
            refine ⟨?_, fun hdot => ?_⟩
            · by_contra hd
              have hd : digit c = true := by simpa using hd
              rcases hj with h | ⟨h, _⟩
              · exact h (g2 hd).1
              · exact (g2 hd).2 h
            · rcases hj with h | ⟨_, h⟩
              · exact absurd (g3 hdot).1 h
              · exact h)
        have hne := text_ne a.1 v1 (a.2 ++ textOf l)
        simp only [textOf]
        cases hx : a.1.text ++ (a.2 ++ textOf l) with
        | nil => exact absurd hx hne
        | cons c cs =>
          rw [hx] at ht
          simp only [toFloatsN, ht, ih k v4 (by simpa using hk), List.map_cons]
  unfold toFloats
  apply key l _ h
  clear key
  induction l with
  | nil => simp
  | cons a l ih =>
    have hva : a.1.Valid ∧ a.1.frac ≠ some [] ∧ Listed l := by
      cases l with
      | nil => exact ⟨h.1, h.2.1, trivial⟩
      | cons b l => exact ⟨h.1, h.2.1, h.2.2.2.2⟩
    have := ih hva.2.2
    have h1 : 0 < a.1.text.length := by
      have := text_ne a.1 hva.1 []
      rw [List.append_nil] at this
      exact List.length_pos_iff.mpr this
    simp only [textOf, List.length_cons, List.length_append]
    omega

/-! ## Commands -/

/-- The letter as a character. -/
def charOf (l : Letter) (upper : Bool) : Char :=
  match l with
  | .M => if upper then 'M' else 'm'
  | .L => if upper then 'L' else 'l'
  | .H => if upper then 'H' else 'h'
  | .V => if upper then 'V' else 'v'
  | .C => if upper then 'C' else 'c'
  | .S => if upper then 'S' else 's'
  | .Q => if upper then 'Q' else 'q'
  | .T => if upper then 'T' else 't'
  | .Z => if upper then 'Z' else 'z'

/-- A command as it is written: the letter, white space and the numbers. -/
structure CmdText where
  letter : Letter
  upper : Bool
  space : List Char
  args : List (Num × List Char)

def CmdText.text (c : CmdText) : List Char := charOf c.letter c.upper :: (c.space ++ textOf c.args)

/-- Commands other than `Z` have numbers. -/
structure CmdText.Valid (c : CmdText) : Prop where
  space : ∀ d ∈ c.space, ws d = true
  args : Listed c.args
  some_arg : c.letter ≠ .Z → c.args ≠ []

def pathText : List CmdText → List Char
  | [] => []
  | c :: cs => c.text ++ pathText cs

theorem digit_cases {c : Char} (h : digit c = true) :
    c = '0' ∨ c = '1' ∨ c = '2' ∨ c = '3' ∨ c = '4' ∨ c = '5' ∨ c = '6' ∨ c = '7' ∨ c = '8' ∨ c = '9' := by
  simp only [digit, Char.isDigit, Bool.and_eq_true, decide_eq_true_eq] at h
  have h1 : 48 ≤ c.toNat := h.1
  have h2 : c.toNat ≤ 57 := h.2
  have h3 : c = Char.ofNat c.toNat := (Char.ofNat_toNat c).symm
  generalize c.toNat = k at h1 h2 h3
  subst h3
  interval_cases k <;> decide

/-- The characters of numbers and separators are no commands. -/
def plain (c : Char) : Bool := digit c || ws c || c == '.' || c == '+' || c == '-' || c == 'e' || c == 'E' || c == ','

theorem plain_not {c : Char} (h : plain c = true) : isCmd c = false := by
  simp only [plain, Bool.or_eq_true, beq_iff_eq] at h
  rcases h with ((((((h | h) | rfl) | rfl) | rfl) | rfl) | rfl) | rfl
  · rcases digit_cases h with rfl | rfl | rfl | rfl | rfl | rfl | rfl | rfl | rfl | rfl <;> decide
  · simp only [ws, Bool.or_eq_true, beq_iff_eq] at h
    rcases h with ((((rfl | rfl) | rfl) | rfl) | rfl) | rfl <;> decide
  all_goals decide

theorem plain_not_m {c : Char} (h : plain c = true) : (c.toLower == 'm') = false := by
  have := plain_not h
  by_contra hm
  have hm : c.toLower = 'm' := by simpa using hm
  simp [isCmd, hm] at this

theorem sign_plain (sg : Sign) : ∀ c ∈ sg.text, plain c = true := by
  cases sg <;> simp [Sign.text, plain]

theorem num_plain (n : Num) (hv : n.Valid) : ∀ c ∈ n.text, plain c = true := by
  intro c hc
  simp only [Num.text, List.mem_append] at hc
  rcases hc with hc | hc | hc | hc
  · exact sign_plain _ c hc
  · simp [plain, hv.whole c hc]
  · cases hf : n.frac with
    | none => rw [hf] at hc; cases hc
    | some f =>
      rw [hf] at hc
      rcases List.mem_cons.mp hc with rfl | hc
      · decide
      · simp [plain, hv.frac c (by rw [hf]; exact hc)]
  · cases he : n.exp with
    | none => rw [he] at hc; cases hc
    | some e =>
      rw [he] at hc
      rcases List.mem_cons.mp hc with rfl | hc
      · cases e.upper <;> decide
      · rcases List.mem_append.mp hc with hc | hc
        · exact sign_plain _ c hc
        · simp [plain, (hv.exp e he).2 c hc]

theorem sep_plain (s : List Char) (hs : IsSep s) : ∀ c ∈ s, plain c = true := by
  obtain ⟨w1, w2, h1, h2, h⟩ := hs
  intro c hc
  have : ws c = true ∨ c = ',' := by
    rcases h with ⟨rfl, _⟩ | rfl
    · exact Or.inl (h1 c hc)
    · rcases List.mem_append.mp hc with hc | hc
      · exact Or.inl (h1 c hc)
      · rcases List.mem_cons.mp hc with hc | hc
        · exact Or.inr hc
        · exact Or.inl (h2 c hc)
  rcases this with h | rfl
  · simp [plain, h]
  · decide

theorem listed_cons (a : Num × List Char) (l : List (Num × List Char)) (h : Listed (a :: l)) : a.1.Valid ∧ a.1.frac ≠ some [] ∧ IsSep a.2 ∧ Listed l := by
  cases l with
  | nil => exact ⟨h.1, h.2.1, h.2.2, trivial⟩
  | cons b l => exact ⟨h.1, h.2.1, h.2.2.1, h.2.2.2.2⟩

theorem textOf_plain (l : List (Num × List Char)) (h : Listed l) : ∀ c ∈ textOf l, plain c = true := by
  induction l with
  | nil => intro c hc; cases hc
  | cons a l ih =>
    obtain ⟨h1, _, h3, h4⟩ := listed_cons a l h
    intro c hc
    simp only [textOf, List.mem_append] at hc
    rcases hc with hc | hc | hc
    · exact num_plain a.1 h1 c hc
    · exact sep_plain a.2 h3 c hc
    · exact ih h4 c hc

theorem textOf_head (l : List (Num × List Char)) (h : Listed l) (c : Char) (hc : (textOf l).head? = some c) : start c = true := by
  cases l with
  | nil => cases hc
  | cons a l =>
    obtain ⟨d, hd, g, _⟩ := text_head a.1 (listed_cons a l h).1 (a.2 ++ textOf l)
    simp only [textOf] at hc
    rw [hd] at hc
    cases hc
    exact g

/-- The rest is a command which does not look like a unit. -/
def Begins (r : List Char) : Prop := r = [] ∨ ∃ c t, r = c :: t ∧ isCmd c = true ∧ ((c.toLower == 'm' || c.toLower == 'c') = true → ∃ d t', t = d :: t' ∧ plain d = true)

theorem takeArgs_stop (r : List Char) (h : Begins r) : takeArgs r = ([], r) := by
  rcases h with rfl | ⟨c, t, rfl, h1, h2⟩
  · rfl
  · cases t with
    | nil => simp [takeArgs, h1]
    | cons d t =>
      by_cases hm : (c.toLower == 'm' || c.toLower == 'c') = true
      · obtain ⟨d', t', ht, hd⟩ := h2 hm
        cases ht
        simp [takeArgs, h1, plain_not_m hd]
      · simp [takeArgs, h1, hm]

theorem takeArgs_spec (x r : List Char) (hx : ∀ c ∈ x, plain c = true) (hr : Begins r) : takeArgs (x ++ r) = (x, r) := by
  induction x with
  | nil => exact takeArgs_stop r hr
  | cons c x ih =>
    have h1 := plain_not (hx c List.mem_cons_self)
    have h2 := ih fun d hd => hx d (List.mem_cons_of_mem _ hd)
    rw [List.cons_append]
    cases hy : x ++ r with
    | nil =>
      rw [List.append_eq_nil_iff] at hy
      simp [takeArgs, h1, hy.1, hy.2]
    | cons d y =>
      rw [hy] at h2
      simp [takeArgs, h1, h2]

theorem charOf_isCmd (l : Letter) (u : Bool) : isCmd (charOf l u) = true := by cases l <;> cases u <;> decide

theorem textOf_nonempty (l : List (Num × List Char)) (h : Listed l) (hne : l ≠ []) : textOf l ≠ [] := by
  cases l with
  | nil => exact absurd rfl hne
  | cons a l => exact text_ne a.1 (listed_cons a l h).1 _

theorem pathText_begins (cs : List CmdText) (h : ∀ c ∈ cs, c.Valid) : Begins (pathText cs) := by
  cases cs with
  | nil => exact Or.inl rfl
  | cons c cs =>
    have hv := h c List.mem_cons_self
    refine Or.inr ⟨charOf c.letter c.upper, c.space ++ textOf c.args ++ pathText cs, by simp [pathText, CmdText.text], charOf_isCmd _ _, fun hm => ?_⟩
    have hz : c.letter ≠ .Z := by
      intro hz
      rw [hz] at hm
      revert hm
      cases c.upper <;> decide
    cases hs : c.space with
    | cons d sp => exact ⟨d, sp ++ textOf c.args ++ pathText cs, rfl, by simp [plain, hv.space d (by rw [hs]; exact List.mem_cons_self)]⟩
    | nil =>
      cases ht : textOf c.args with
      | nil => exact absurd ht (textOf_nonempty _ hv.args (hv.some_arg hz))
      | cons d t => exact ⟨d, t ++ pathText cs, rfl, textOf_plain _ hv.args d (by rw [ht]; exact List.mem_cons_self)⟩

/-- The commands are found. -/
theorem findCmds_spec (cs : List CmdText) (h : ∀ c ∈ cs, c.Valid) (pre : List Char) (hp : ∀ c ∈ pre, ws c = true) (k : ℕ) (hk : cs.length < k) :
    findCmds k (pre ++ pathText cs) = cs.map fun c => (charOf c.letter c.upper, textOf c.args) := by
  induction cs generalizing k pre with
  | nil =>
    cases k with
    | zero => simp at hk
    | succ k =>
      have hd : (pre ++ pathText []).dropWhile (fun c => !isCmd c) = [] := by
        refine (span_spec (fun c => !isCmd c) pre [] (fun c hc => ?_) fun c hc => by cases hc).2
        simp [plain_not (show plain c = true by simp [plain, hp c hc])]
      simp only [findCmds, hd, List.map_nil]
  | cons c cs ih =>
    cases k with
    | zero => simp at hk
    | succ k =>
      have hv := h c List.mem_cons_self
      have hd : (pre ++ pathText (c :: cs)).dropWhile (fun c => !isCmd c) = pathText (c :: cs) := by
        refine (span_spec (fun c => !isCmd c) pre _ (fun d hd => ?_) fun d hd => ?_).2
        · simp [plain_not (show plain d = true by simp [plain, hp d hd])]
        · simp only [pathText, CmdText.text, List.cons_append, List.head?_cons, Option.some.injEq] at hd
          subst hd
          simp [charOf_isCmd]
      have hsp : (c.space ++ (textOf c.args ++ pathText cs)).dropWhile ws = textOf c.args ++ pathText cs := by
        refine (span_spec ws c.space _ hv.space fun d hd => ?_).2
        cases ht : textOf c.args with
        | cons x t =>
          rw [ht] at hd
          simp only [List.cons_append, List.head?_cons, Option.some.injEq] at hd
          subst hd
          exact (start_not (textOf_head c.args hv.args x (by rw [ht]; rfl))).1
        | nil =>
          rw [ht] at hd
          rcases pathText_begins cs (fun x hx => h x (List.mem_cons_of_mem _ hx)) with hb | ⟨y, t, hb, hy, _⟩
          · rw [hb] at hd; cases hd
          · rw [hb] at hd
            simp only [List.nil_append, List.head?_cons, Option.some.injEq] at hd
            subst hd
            by_contra hw
            have hw : ws y = true := by simpa using hw
            rw [plain_not (show plain y = true by simp [plain, hw])] at hy
            cases hy
      have hta := takeArgs_spec (textOf c.args) (pathText cs) (textOf_plain _ hv.args) (pathText_begins cs fun x hx => h x (List.mem_cons_of_mem _ hx))
      rw [findCmds, hd]
      simp only [pathText, CmdText.text, List.cons_append, List.append_assoc, hsp, hta, List.map_cons]
      rw [show findCmds k (pathText cs) = _ from ih (fun x hx => h x (List.mem_cons_of_mem _ hx)) [] (fun d hd => by cases hd) k (by simpa using hk)]

noncomputable section

/-- The command as the reader is to see it: numbers in points. -/
def CmdText.cmd (res : ℚ) (c : CmdText) : Cmd := ⟨c.letter, c.upper, c.args.map (fun a => ((a.1.value * (72 / res) : ℚ) : ℝ)), false⟩

theorem cmdOf_spec (res : ℚ) (c : CmdText) (h : c.Valid) : cmdOf res (charOf c.letter c.upper, textOf c.args) = some (c.cmd res) := by
  have h1 : letterOf (charOf c.letter c.upper) = some c.letter := by cases c.letter <;> cases c.upper <;> decide
  have h2 : (charOf c.letter c.upper).isUpper = c.upper := by cases c.letter <;> cases c.upper <;> decide
  simp only [cmdOf, h1, h2, Option.map_some, toFloats_text res c.args h.args, CmdText.cmd, List.map_map]
  rfl

/-- C98: path data (without arcs) are read as they are written: each command with its letter and all of its numbers, for all texts of the grammar of SVG whose numbers do not
end with a point. -/
theorem path_data_read_partial (res : ℚ) (cs : List CmdText) (h : ∀ c ∈ cs, c.Valid) (pre : List Char) (hp : ∀ c ∈ pre, ws c = true) :
    (commands (pre ++ pathText cs)).map (cmdOf res) = cs.map fun c => some (c.cmd res) := by
  have hk : cs.length < (pre ++ pathText cs).length + 1 := by
    have : cs.length ≤ (pathText cs).length := by
      clear h
      induction cs with
      | nil => simp
      | cons c cs ih => simp only [pathText, CmdText.text, List.length_cons, List.length_append]; omega
    rw [List.length_append]
    omega
  unfold commands
  rw [findCmds_spec cs h pre hp _ hk, List.map_map]
  apply List.map_congr_left
  intro c hc
  exact cmdOf_spec res c (h c hc)

end

/-! ## What is missing -/

/-- A number ending with a point, as allowed by SVG 1.1, is not read: the command is left out, together with all of its other numbers. -/
theorem trailing_point : toFloats 96 true "10. 20".toList = ([10 * (72 / 96)], true) := by decide +kernel

/-- Units `pt` (and `pc`), which the expression means to allow, tear the arguments apart: their last letter becomes a command. -/
theorem pt_in_path : commands "M0 0L10pt 20pt".toList = [('M', "0 0".toList), ('L', "10p".toList), ('t', "20p".toList), ('t', [])] := by decide +kernel

/-- The rotation of an ellipse is an angle, but it is converted like a length: at the default resolution 60 degrees become 45. -/
theorem arc_rotation_scaled : (readArc 96 "4 8 60 0 1 12 16".toList).map (fun a => a.1.phi) = some 45 := by decide +kernel

/-! ## Examples -/

/-- `-1.5.5e1,2` -/
example : Listed [(⟨.minus, ['1'], some ['5'], none⟩, []), (⟨.none, [], some ['5'], some ⟨false, .none, ['1']⟩⟩, [',']), (⟨.none, ['2'], none, none⟩, [])] := by
  have hs0 : IsSep [] := ⟨[], [], by simp, by simp, Or.inl ⟨rfl, rfl⟩⟩
  have hs1 : IsSep [','] := ⟨[], [], by simp, by simp, Or.inr rfl⟩
  refine ⟨⟨by decide, by decide, Or.inl (by decide), by simp⟩, by simp, hs0, fun _ => Or.inr ⟨rfl, Or.inl (by simp)⟩,
    ⟨by decide, by decide, Or.inr (by decide), by simp [digit]⟩, by simp, hs1, by simp, ⟨by decide, by decide, Or.inl (by decide), by simp⟩, by simp, hs0⟩

example : toFloats 72 true "-1.5.5e1,2".toList = ([-3 / 2, 5, 2], false) := by decide +kernel

example : commands " M0,0l1-2z m3 4".toList = [('M', "0,0".toList), ('l', "1-2".toList), ('z', []), ('m', "3 4".toList)] := by decide +kernel

end PyX.Svg
