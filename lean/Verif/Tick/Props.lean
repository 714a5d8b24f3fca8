import Verif.Tick.Model
import Mathlib.Data.Rat.Lemmas
import Mathlib.Algebra.Order.Field.Rat
import Mathlib.Algebra.Order.Field.Basic
import Mathlib.Tactic.Ring
import Mathlib.Tactic.FieldSimp
import Mathlib.Tactic.NormNum
import Mathlib.Tactic.Positivity
import Mathlib.Tactic.Linarith
import Mathlib.Data.List.Basic
import Mathlib.Data.List.Induction
import Mathlib.Tactic.Tauto

/-!
# Properties C11 and C12: tick fractions and merging of tick lists
-/

namespace PyX.Tick

/-! ## C11: strings -/

/-- The number denoted by a `rational`. -/
def Frac.val (r : Frac) : ℚ := (r.num : ℚ) / r.denom

/-- Specification: signs in strings. -/
inductive Sign
  | none | plus | minus
deriving DecidableEq

def Sign.chars : Sign → List Char
  | .none => []
  | .plus => ['+']
  | .minus => ['-']

def Sign.factor : Sign → ℚ
  | .minus => -1
  | _ => 1

def digitChar (d : Fin 10) : Char := Char.ofNat (48 + d.val)

/-- Value of a string of decimal digits. -/
def digitsVal : List (Fin 10) → Nat
  | [] => 0
  | d :: ds => d.val * 10 ^ ds.length + digitsVal ds

/-- Specification: decimal numbers as written: sign, digits, optional point and digits, optional exponent. -/
structure Dec where
  sign : Sign
  ip : List (Fin 10)
  fp : Option (List (Fin 10))
  exp : Option (Bool × Sign × List (Fin 10))

def Dec.mantissaChars (d : Dec) : List Char :=
  d.sign.chars ++ d.ip.map digitChar ++ match d.fp with
    | none => []
    | some f => '.' :: f.map digitChar

/-- The string. -/
def Dec.chars (d : Dec) : List Char :=
  d.mantissaChars ++ match d.exp with
    | none => []
    | some (upper, s, e) => (if upper then 'E' else 'e') :: (s.chars ++ e.map digitChar)

/-- The exponent, if present, has digits. -/
def Dec.Legal (d : Dec) : Prop := ∀ x, d.exp = some x → x.2.2 ≠ []

/-- The number written. -/
def Dec.val (d : Dec) : ℚ :=
  d.sign.factor * (digitsVal d.ip + match d.fp with
    | none => 0
    | some f => (digitsVal f : ℚ) / 10 ^ f.length) *
  match d.exp with
    | none => 1
    | some (_, .minus, e) => 1 / 10 ^ digitsVal e
    | some (_, _, e) => 10 ^ digitsVal e

/-! ### Lemmas about strings -/

theorem split_notin (c : Char) (s : List Char) (h : c ∉ s) : split c s = [s] := by
  induction s with
  | nil => rfl
  | cons x s ih =>
    simp only [List.mem_cons, not_or] at h
    simp [split, Ne.symm h.1, ih h.2]

theorem split_cons (c : Char) (a b : List Char) (h : c ∉ a) : split c (a ++ c :: b) = a :: split c b := by
  induction a with
  | nil => simp [split]
  | cons x a ih =>
    simp only [List.mem_cons, not_or] at h
    simp [split, Ne.symm h.1, ih h.2]

theorem dropWhile_pad (p s : List Char) (hp : ∀ c ∈ p, isSpace c = true) (hs : ∀ c ∈ s, isSpace c = false) :
    (p ++ s).dropWhile isSpace = s := by
  induction p with
  | nil => cases s with
    | nil => rfl
    | cons a s => simp [hs a (by simp)]
  | cons a p ih => simp [hp a (by simp), ih fun c hc => hp c (by simp [hc])]

theorem strip_pad (p s q : List Char) (hp : ∀ c ∈ p, isSpace c = true) (hs : ∀ c ∈ s, isSpace c = false)
    (hq : ∀ c ∈ q, isSpace c = true) : strip (p ++ s ++ q) = s := by
  unfold strip
  have h1 : (p ++ s ++ q).dropWhile isSpace = if s = [] then [] else s ++ q := by
    cases s with
    | nil =>
      simp only [List.append_nil, if_true]
      have := dropWhile_pad (p ++ q) [] (by intro c hc; rcases List.mem_append.1 hc with h | h; exact hp c h; exact hq c h)
        (by simp)
      simpa using this
    | cons a s =>
      simp only [List.append_assoc, reduceCtorEq, if_false]
      have : ∀ p : List Char, (∀ c ∈ p, isSpace c = true) →
          (p ++ (a :: s ++ q)).dropWhile isSpace = a :: s ++ q := by
        intro p hp
        induction p with
        | nil => simp [hs a (by simp)]
        | cons b p ih => simpa [hp b (by simp)] using ih fun c hc => hp c (by simp [hc])
      exact this p hp
  rw [h1]
  split
  · rename_i h; subst h; rfl
  · rw [List.reverse_append, dropWhile_pad _ _ (by simpa using hq) (by simpa using hs), List.reverse_reverse]

theorem digitChar_toNat (d : Fin 10) : (digitChar d).toNat - 48 = d.val := by revert d; decide
theorem digitChar_isDigit (d : Fin 10) : isDigit (digitChar d) = true := by revert d; decide
theorem digitChar_ne (d : Fin 10) : digitChar d ≠ 'e' ∧ digitChar d ≠ 'E' ∧ digitChar d ≠ '.' ∧ digitChar d ≠ '-' ∧
    digitChar d ≠ '+' ∧ digitChar d ≠ '/' ∧ isSpace (digitChar d) = false := by revert d; decide

theorem toInt_digits (ds : List (Fin 10)) : toInt (ds.map digitChar) = digitsVal ds := by
  have : ∀ n, (ds.map digitChar).foldl (fun a c => 10 * a + (c.toNat - 48)) n = n * 10 ^ ds.length + digitsVal ds := by
    induction ds with
    | nil => intro n; simp [digitsVal]
    | cons d ds ih =>
      intro n
      simp only [List.map_cons, List.foldl_cons, ih, digitChar_toNat, digitsVal, List.length_cons]
      ring
  simpa [toInt] using this 0

theorem isdigit_digits (ds : List (Fin 10)) (h : ds ≠ []) : isdigit (ds.map digitChar) = true := by
  cases ds with
  | nil => exact absurd rfl h
  | cons d ds => simp [isdigit, digitChar_isDigit]

theorem digits0_digits (ds : List (Fin 10)) : digits0 (ds.map digitChar) = some (digitsVal ds) := by
  cases ds with
  | nil => rfl
  | cons d ds => simp only [digits0, isdigit_digits (d :: ds) (by simp), toInt_digits]; simp

theorem takeSign_chars (s : Sign) (ds : List (Fin 10)) :
    takeSign (s.chars ++ ds.map digitChar) = (decide (s = .minus), ds.map digitChar) := by
  cases s with
  | none => cases ds with
    | nil => rfl
    | cons d ds =>
      have := digitChar_ne d
      simp only [Sign.chars, List.nil_append, List.map_cons, takeSign]
      split
      · rename_i h; simp at h; exact absurd h.1 this.2.2.2.1
      · rename_i h; simp at h; exact absurd h.1 this.2.2.2.2.1
      · simp
  | plus => rfl
  | minus => rfl

theorem sign_ne (s : Sign) : ∀ c ∈ s.chars, c ≠ 'e' ∧ c ≠ 'E' ∧ c ≠ '.' ∧ c ≠ '/' ∧ isSpace c = false := by
  cases s <;> decide

theorem digits_ne (ds : List (Fin 10)) :
    ∀ c ∈ ds.map digitChar, c ≠ 'e' ∧ c ≠ 'E' ∧ c ≠ '.' ∧ c ≠ '/' ∧ isSpace c = false := by
  intro c hc
  obtain ⟨d, -, rfl⟩ := List.mem_map.1 hc
  have := digitChar_ne d
  exact ⟨this.1, this.2.1, this.2.2.1, this.2.2.2.2.2.1, this.2.2.2.2.2.2⟩

theorem mantissa_ne (d : Dec) : ∀ c ∈ d.mantissaChars, c ≠ 'e' ∧ c ≠ 'E' ∧ c ≠ '/' ∧ isSpace c = false := by
  intro c hc
  unfold Dec.mantissaChars at hc
  simp only [List.mem_append] at hc
  rcases hc with (hc | hc) | hc
  · have := sign_ne _ c hc; exact ⟨this.1, this.2.1, this.2.2.2⟩
  · have := digits_ne _ c hc; exact ⟨this.1, this.2.1, this.2.2.2⟩
  · split at hc
    · cases hc
    · rcases List.mem_cons.1 hc with rfl | hc
      · decide
      · have := digits_ne _ c hc; exact ⟨this.1, this.2.1, this.2.2.2⟩

theorem chars_ne (d : Dec) : ∀ c ∈ d.chars, c ≠ '/' ∧ isSpace c = false := by
  intro c hc
  unfold Dec.chars at hc
  rcases List.mem_append.1 hc with hc | hc
  · exact (mantissa_ne d c hc).2.2
  · split at hc
    · cases hc
    · rename_i upper s e _
      rcases List.mem_cons.1 hc with rfl | hc
      · cases upper <;> decide
      · rcases List.mem_append.1 hc with hc | hc
        · exact (sign_ne _ c hc).2.2.2
        · exact (digits_ne _ c hc).2.2.2

/-- The number denoted by the mantissa. -/
def Dec.mval (d : Dec) : ℚ :=
  d.sign.factor * (digitsVal d.ip + match d.fp with
    | none => 0
    | some f => (digitsVal f : ℚ) / 10 ^ f.length)

theorem mant_val (s : Sign) (ip f : List (Fin 10)) :
    ∃ r, initMantissa.mant (s.chars ++ ip.map digitChar) (f.map digitChar) = some r ∧ 0 < r.denom ∧
      r.val = s.factor * (digitsVal ip + (digitsVal f : ℚ) / 10 ^ f.length) := by
  have hp : (0 : ℚ) < 10 ^ f.length := by positivity
  simp only [initMantissa.mant, takeSign_chars, digits0_digits, List.length_map]
  refine ⟨_, rfl, by positivity, ?_⟩
  cases s <;> simp only [Frac.val, Sign.factor] <;> simp <;> field_simp

theorem mantissa_val (d : Dec) : ∃ r, initMantissa d.mantissaChars = some r ∧ 0 < r.denom ∧ r.val = d.mval := by
  unfold initMantissa Dec.mantissaChars Dec.mval
  have hn : ∀ s : Sign, '.' ∉ s.chars ++ d.ip.map digitChar := by
    intro s hc
    rcases List.mem_append.1 hc with hc | hc
    · exact (sign_ne _ _ hc).2.2.1 rfl
    · exact (digits_ne _ _ hc).2.2.1 rfl
  cases d.fp with
  | none =>
    simp only [List.append_nil]
    rw [split_notin _ _ (hn _)]
    simpa [digitsVal] using mant_val d.sign d.ip []
  | some f =>
    simp only
    rw [split_cons _ _ _ (hn _), split_notin _ _ fun hc => (digits_ne _ _ hc).2.2.1 rfl]
    exact mant_val d.sign d.ip f

theorem map_E_id (s : List Char) (h : ∀ c ∈ s, c ≠ 'E') : s.map (fun c => if c = 'E' then 'e' else c) = s := by
  conv => rhs; rw [← List.map_id s]
  apply List.map_congr_left
  intro c hc; simp [h c hc]

/-- C11: a decimal number, with optional white space around, is read exactly. -/
theorem initfromstring_val (d : Dec) (hd : d.Legal) (p q : List Char) (hp : ∀ c ∈ p, isSpace c = true)
    (hq : ∀ c ∈ q, isSpace c = true) :
    ∃ r, initfromstring (p ++ d.chars ++ q) = some r ∧ 0 < r.denom ∧ r.val = d.val := by
  obtain ⟨r, hr, hpos, hv⟩ := mantissa_val d
  unfold initfromstring
  rw [strip_pad p _ q hp (fun c hc => (chars_ne d c hc).2) hq]
  have hm := map_E_id d.mantissaChars fun c hc => (mantissa_ne d c hc).2.1
  have he : 'e' ∉ d.mantissaChars := fun hc => (mantissa_ne d _ hc).1 rfl
  have hval : d.val = d.mval * match d.exp with
    | none => 1
    | some (_, .minus, e) => 1 / 10 ^ digitsVal e
    | some (_, _, e) => 10 ^ digitsVal e := rfl
  rw [hval]
  unfold Dec.chars
  cases hexp : d.exp with
  | none =>
    simp only [List.append_nil, hm]
    rw [split_notin _ _ he]
    exact ⟨r, hr, hpos, by simp [hv]⟩
  | some x =>
    obtain ⟨upper, s, e⟩ := x
    have hne : e ≠ [] := hd _ hexp
    have hs := map_E_id (s.chars ++ e.map digitChar) (by
      intro c hc
      rcases List.mem_append.1 hc with hc | hc
      · exact (sign_ne _ _ hc).2.1
      · exact (digits_ne _ _ hc).2.1)
    have hs' : 'e' ∉ s.chars ++ e.map digitChar := by
      intro hc
      rcases List.mem_append.1 hc with hc | hc
      · exact (sign_ne _ _ hc).1 rfl
      · exact (digits_ne _ _ hc).1 rfl
    have hE : (if (if upper = true then 'E' else 'e') = 'E' then 'e' else if upper = true then 'E' else 'e') = 'e' := by
      cases upper <;> decide
    simp only [List.map_append, List.map_cons] at hs ⊢
    rw [hm, hE]
    have hs2 : List.map (fun c => if c = 'E' then 'e' else c) s.chars ++
        List.map (fun c => if c = 'E' then 'e' else c) (List.map digitChar e) = s.chars ++ e.map digitChar := by
      simpa using hs
    rw [hs2, split_cons _ _ _ he, split_notin _ _ hs']
    simp only [hr, Option.bind_eq_bind, Option.bind_some]
    have hemp : (s.chars ++ e.map digitChar).isEmpty = false := by
      cases e with
      | nil => exact absurd rfl hne
      | cons a e => cases s <;> rfl
    simp only [applyExp, hemp, Bool.false_eq_true, if_false, takeSign_chars, isdigit_digits e hne, Bool.not_true, toInt_digits]
    have hq : (0 : ℚ) < 10 ^ digitsVal e := by positivity
    have hd' : (r.denom : ℚ) ≠ 0 := by exact_mod_cast hpos.ne'
    cases s with
    | minus =>
      refine ⟨_, rfl, by positivity, ?_⟩
      rw [← hv]; simp only [Frac.val]; push_cast; field_simp
    | none =>
      refine ⟨_, rfl, hpos, ?_⟩
      rw [← hv]; simp only [Frac.val]; push_cast; field_simp
    | plus =>
      refine ⟨_, rfl, hpos, ?_⟩
      rw [← hv]; simp only [Frac.val]; push_cast; field_simp

theorem initfromstring_val' (d : Dec) (hd : d.Legal) : ∃ r, initfromstring d.chars = some r ∧ 0 < r.denom ∧ r.val = d.val := by
  simpa using initfromstring_val d hd [] [] (by simp) (by simp)

/-- C11: a rational built from a decimal string is exactly the number written. -/
theorem ofString_dec (d : Dec) (hd : d.Legal) : ∃ r, ofString d.chars = some r ∧ 0 < r.denom ∧ r.val = d.val := by
  obtain ⟨r, h1, h2, h3⟩ := initfromstring_val' d hd
  refine ⟨r, ?_, h2, h3⟩
  unfold ofString
  rw [split_notin _ _ fun hc => (chars_ne d _ hc).1 rfl]
  simp [h1, check, h2.ne']

/-- C11: a rational built from a fraction is exactly the quotient of the two numbers written. -/
theorem ofString_frac (a b : Dec) (ha : a.Legal) (hb : b.Legal) (h0 : b.val ≠ 0) :
    ∃ r, ofString (a.chars ++ '/' :: b.chars) = some r ∧ r.denom ≠ 0 ∧ r.val = a.val / b.val ∧ (0 < b.val → 0 < r.denom) := by
  obtain ⟨r, r1, r2, r3⟩ := initfromstring_val' a ha
  obtain ⟨q, q1, q2, q3⟩ := initfromstring_val' b hb
  have rd : (r.denom : ℚ) ≠ 0 := by exact_mod_cast r2.ne'
  have qd : (q.denom : ℚ) ≠ 0 := by exact_mod_cast q2.ne'
  have qn : q.num ≠ 0 := by
    intro h; apply h0; rw [← q3]; simp [Frac.val, h]
  have qn' : (q.num : ℚ) ≠ 0 := by exact_mod_cast qn
  refine ⟨⟨r.num * q.denom, r.denom * q.num⟩, ?_, mul_ne_zero r2.ne' qn, ?_, ?_⟩
  · unfold ofString
    rw [split_cons _ _ _ fun hc => (chars_ne a _ hc).1 rfl, split_notin _ _ fun hc => (chars_ne b _ hc).1 rfl]
    simp [r1, q1, check, q2.ne', r2.ne', qn]
  · rw [← r3, ← q3]; simp only [Frac.val]; push_cast; field_simp
  · intro hpos
    have : 0 < q.num := by
      rw [← q3, Frac.val] at hpos
      have qd' : (0 : ℚ) < q.denom := by exact_mod_cast q2
      have := (div_pos_iff_of_pos_right qd').1 hpos
      exact_mod_cast this
    exact mul_pos r2 this

/-- C11: a zero denominator is an error. -/
theorem ofString_zero (a b : Dec) (ha : a.Legal) (hb : b.Legal) (h0 : b.val = 0) :
    ofString (a.chars ++ '/' :: b.chars) = none := by
  obtain ⟨r, r1, r2, r3⟩ := initfromstring_val' a ha
  obtain ⟨q, q1, q2, q3⟩ := initfromstring_val' b hb
  have qd : (q.denom : ℚ) ≠ 0 := by exact_mod_cast q2.ne'
  have qn : q.num = 0 := by
    rw [← q3, Frac.val] at h0
    rcases div_eq_zero_iff.1 h0 with h | h
    · exact_mod_cast h
    · exact absurd h qd
  unfold ofString
  rw [split_cons _ _ _ fun hc => (chars_ne a _ hc).1 rfl, split_notin _ _ fun hc => (chars_ne b _ hc).1 rfl]
  simp [r1, q1, check, q2.ne', qn]

/-- `-1.5e2/0.3` -/
def exNum : Dec := ⟨.minus, [1], some [5], some (false, .none, [2])⟩
def exDen : Dec := ⟨.none, [0], some [3], none⟩
example : exNum.chars ++ '/' :: exDen.chars = "-1.5e2/0.3".toList := by decide +kernel
example : ofString "-1.5e2/0.3".toList = some ⟨-15000, 30⟩ := by decide +kernel
example : exNum.Legal := by intro x h; simp [exNum] at h; subst h; simp
example : ofString " 1e".toList = none := by decide +kernel

/-! ## C11: arithmetic and order -/

theorem val_eq_iff {a b : Frac} (ha : a.denom ≠ 0) (hb : b.denom ≠ 0) : eq a b = true ↔ a.val = b.val := by
  have ha' : (a.denom : ℚ) ≠ 0 := by exact_mod_cast ha
  have hb' : (b.denom : ℚ) ≠ 0 := by exact_mod_cast hb
  simp only [eq, beq_iff_eq, Frac.val]
  rw [div_eq_div_iff ha' hb']
  exact ⟨fun h => by exact_mod_cast h, fun h => by exact_mod_cast h⟩

theorem val_lt_iff {a b : Frac} (ha : 0 < a.denom) (hb : 0 < b.denom) : lt a b = true ↔ a.val < b.val := by
  have ha' : (0 : ℚ) < a.denom := by exact_mod_cast ha
  have hb' : (0 : ℚ) < b.denom := by exact_mod_cast hb
  simp only [lt, decide_eq_true_eq, Frac.val]
  rw [div_lt_div_iff₀ ha' hb']
  exact ⟨fun h => by exact_mod_cast h, fun h => by exact_mod_cast h⟩

/-- C11: comparison is the order of the numbers denoted (positive denominators). -/
theorem compare_val (a b : Frac) (ha : 0 < a.denom) (hb : 0 < b.denom) :
    (lt a b = true ↔ a.val < b.val) ∧ (eq a b = true ↔ a.val = b.val) ∧ (le a b = true ↔ a.val ≤ b.val) ∧
    (gt a b = true ↔ b.val < a.val) ∧ (ge a b = true ↔ b.val ≤ a.val) := by
  have h1 := val_lt_iff ha hb
  have h2 := val_eq_iff ha.ne' hb.ne'
  refine ⟨h1, h2, ?_, ?_, ?_⟩
  · simp only [le, Bool.or_eq_true, h1, h2, le_iff_lt_or_eq]
  · simp only [gt, Bool.and_eq_true, Bool.not_eq_true', ← Bool.not_eq_true, h1, h2, not_lt]
    exact ⟨fun h => lt_of_le_of_ne h.1 (Ne.symm h.2), fun h => ⟨h.le, h.ne'⟩⟩
  · simp only [ge, Bool.not_eq_true', ← Bool.not_eq_true, h1, not_lt]

/-- C11: products and quotients are exact. -/
theorem mul_val (a b : Frac) (ha : a.denom ≠ 0) (hb : b.denom ≠ 0) :
    ∃ r, mul a b = some r ∧ r.val = a.val * b.val ∧ (0 < a.denom → 0 < b.denom → 0 < r.denom) := by
  refine ⟨_, by simp [mul, check, ha, hb]; rfl, ?_, fun h1 h2 => mul_pos h1 h2⟩
  simp only [Frac.val]; push_cast; rw [div_mul_div_comm]

theorem div_val (a b : Frac) (ha : a.denom ≠ 0) (hb : b.denom ≠ 0) (h0 : b.val ≠ 0) :
    ∃ r, div a b = some r ∧ r.val = a.val / b.val ∧ (0 < a.denom → 0 < b.denom → 0 < b.val → 0 < r.denom) := by
  have hb' : (b.denom : ℚ) ≠ 0 := by exact_mod_cast hb
  have hn : b.num ≠ 0 := by intro h; apply h0; simp [Frac.val, h]
  refine ⟨⟨a.num * b.denom, a.denom * b.num⟩, by simp [div, check, ha, hn], ?_, ?_⟩
  · simp only [Frac.val]; push_cast; rw [div_div_div_eq]
  · intro h1 h2 h3
    have h2' : (0 : ℚ) < b.denom := by exact_mod_cast h2
    have : 0 < b.num := by exact_mod_cast (div_pos_iff_of_pos_right h2').1 h3
    exact mul_pos h1 this

/-- C11: powers are exact (for negative powers the number must not be 0). -/
theorem power_val (a : Frac) (p : Int) (ha : a.denom ≠ 0) (h : 0 ≤ p ∨ a.num ≠ 0) :
    (power a p).val = a.val ^ p ∧ (power a p).denom ≠ 0 := by
  unfold power
  split
  · rename_i h0; subst h0; simp [Frac.val]
  split
  · rename_i h0; subst h0
    have : a.num ≠ 0 := by rcases h with h | h; omega; exact h
    simp [Frac.val, this]
  split
  · rename_i h0
    have hn : a.num ≠ 0 := by rcases h with h | h; omega; exact h
    obtain ⟨n, rfl⟩ : ∃ n : ℕ, p = -n := ⟨(-p).toNat, by omega⟩
    simp only [Frac.val, neg_neg, Int.toNat_natCast, zpow_neg, zpow_natCast]
    refine ⟨?_, pow_ne_zero _ hn⟩
    push_cast; rw [← div_pow, ← inv_pow, inv_div]
  split
  · obtain ⟨n, rfl⟩ : ∃ n : ℕ, p = n := ⟨p.toNat, by omega⟩
    simp only [Frac.val, Int.toNat_natCast, zpow_natCast]
    refine ⟨?_, pow_ne_zero _ ha⟩
    push_cast; rw [← div_pow]
  · have : p = 1 := by omega
    subst this; simp [ha]

/-- Full claim without the restriction to positive denominators. -/
def CompareCorrect : Prop := ∀ a b : Frac, a.denom ≠ 0 → b.denom ≠ 0 → (lt a b = true ↔ a.val < b.val)

/-- Finding: a fraction with negative divisor is accepted and then compares wrongly: one over minus two is not
less than 0. -/
theorem compare_neg_wrong : ofString "1/-2".toList = some ⟨1, -2⟩ ∧ ¬ CompareCorrect := by
  refine ⟨by decide +kernel, ?_⟩
  intro h
  have := (h ⟨1, -2⟩ ⟨0, 1⟩ (by decide) (by decide)).2 (by simp [Frac.val])
  revert this; decide

/-- Finding: a negative power of zero gives a zero denominator instead of an error. -/
theorem power_zero_wrong : power ⟨0, 1⟩ (-1) = ⟨1, 0⟩ ∧ power ⟨0, 1⟩ (-2) = ⟨1, 0⟩ := by decide

/-! ## C12: merging -/

/-- All denominators are positive (as for all ticks built by the partitioners). -/
def Good (l : List T) : Prop := ∀ t ∈ l, 0 < t.pos.denom

/-- Specification of a level: the more significant of two (absent is least significant). -/
def better (a b : Option Int) : Option Int :=
  match a, b with
  | none, x => x
  | x, none => x
  | some x, some y => some (min x y)

theorem mergeLevel_better (a b : Option Int) : mergeLevel a b = better a b := by
  cases a <;> cases b <;> simp [mergeLevel, better]
  rename_i a b
  by_cases h : b < a
  · simp [h, min_eq_right h.le]
  · simp [h, min_eq_left (not_lt.1 h)]

/-- Specification: level of a list at a position: the best of all ticks there. -/
def levelAt (f : T → Option Int) (l : List T) (p : ℚ) : Option Int :=
  (l.filter fun t => t.pos.val = p).foldl (fun a t => better a (f t)) none

theorem better_none (a : Option Int) : better a none = a := by cases a <;> rfl
theorem better_none_left (a : Option Int) : better none a = a := by cases a <;> rfl
theorem better_comm (a b : Option Int) : better a b = better b a := by
  cases a <;> cases b <;> simp [better, min_comm]
theorem better_assoc (a b c : Option Int) : better (better a b) c = better a (better b c) := by
  cases a <;> cases b <;> cases c <;> simp [better, min_assoc]

theorem foldl_better (f : T → Option Int) (l : List T) (a : Option Int) :
    l.foldl (fun a t => better a (f t)) a = better a (l.foldl (fun a t => better a (f t)) none) := by
  induction l generalizing a with
  | nil => simp [better_none]
  | cons t l ih => simp only [List.foldl_cons]; rw [ih, ih (better none (f t)), better_none_left, better_assoc]

theorem levelAt_append (f : T → Option Int) (l m : List T) (p : ℚ) :
    levelAt f (l ++ m) p = better (levelAt f l p) (levelAt f m p) := by
  simp only [levelAt, List.filter_append, List.foldl_append]; rw [foldl_better]

theorem levelAt_cons (f : T → Option Int) (t : T) (l : List T) (p : ℚ) :
    levelAt f (t :: l) p = better (if t.pos.val = p then f t else none) (levelAt f l p) := by
  rw [← List.singleton_append, levelAt_append]
  congr 1
  by_cases h : t.pos.val = p <;> simp [levelAt, h, better_none_left]

theorem levelAt_nil (f : T → Option Int) (p : ℚ) : levelAt f [] p = none := rfl

/-- The relation between the result and the two lists. -/
structure IsMerge (l1 l2 r : List T) : Prop where
  mem : ∀ p, (∃ t ∈ r, t.pos.val = p) ↔ (∃ t ∈ l1, t.pos.val = p) ∨ (∃ t ∈ l2, t.pos.val = p)
  tick : ∀ p, levelAt T.ticklevel r p = better (levelAt T.ticklevel l1 p) (levelAt T.ticklevel l2 p)
  labelLv : ∀ p, levelAt T.labellevel r p = better (levelAt T.labellevel l1 p) (levelAt T.labellevel l2 p)
  good : Good l1 → Good l2 → Good r

/-- The loop without accumulator. -/
def mergeR (meq : Bool) : List T → List T → List T
  | l1, [] => l1
  | [], l2 => l2
  | a :: l1, b :: l2 =>
    if lt b.pos a.pos then b :: mergeR meq (a :: l1) l2
    else if eq b.pos a.pos then (if meq then a.merge b else a) :: mergeR meq l1 l2
    else a :: mergeR meq l1 (b :: l2)
termination_by l1 l2 => l1.length + l2.length

theorem mergeLoop_eq (meq : Bool) (acc l1 l2 : List T) : mergeLoop meq acc l1 l2 = acc ++ mergeR meq l1 l2 := by
  induction l1, l2 using mergeR.induct generalizing acc with
  | case1 l1 => simp [mergeLoop, mergeR]
  | case2 l2 h => cases l2 with
    | nil => simp [mergeLoop, mergeR]
    | cons b l2 => simp [mergeLoop, mergeR]
  | case3 a l1 b l2 h ih => rw [mergeLoop, mergeR, if_pos h, if_pos h, ih]; simp
  | case4 a l1 b l2 h h' ih => rw [mergeLoop, mergeR, if_neg h, if_neg h, if_pos h', if_pos h', ih]; simp
  | case5 a l1 b l2 h h' ih => rw [mergeLoop, mergeR, if_neg h, if_neg h, if_neg h', if_neg h', ih]; simp

theorem merge_levels (a b : T) : (a.merge b).pos = a.pos ∧ (a.merge b).ticklevel = better a.ticklevel b.ticklevel ∧
    (a.merge b).labellevel = better a.labellevel b.labellevel := by
  simp [T.merge, mergeLevel_better]

theorem better_left_comm (a b c : Option Int) : better a (better b c) = better b (better a c) := by
  rw [← better_assoc, better_comm a, better_assoc]

theorem or_shuffle1 (A B C D : Prop) : (B ∨ (A ∨ C) ∨ D) ↔ ((A ∨ C) ∨ B ∨ D) := by tauto
theorem or_shuffle2 (A B C : Prop) : (A ∨ B ∨ C) ↔ ((A ∨ B) ∨ A ∨ C) := by tauto

theorem mergeR_isMerge (l1 l2 : List T) (h1 : Good l1) (h2 : Good l2) : IsMerge l1 l2 (mergeR true l1 l2) := by
  induction l1, l2 using mergeR.induct with
  | case1 l1 =>
    simp only [mergeR]
    exact ⟨by simp, by simp [levelAt_nil, better_none], by simp [levelAt_nil, better_none], fun h _ => h⟩
  | case2 l2 h =>
    have e : mergeR true [] l2 = l2 := by cases l2 <;> simp [mergeR]
    rw [e]
    exact ⟨by simp, by simp [levelAt_nil, better_none_left], by simp [levelAt_nil, better_none_left], fun _ h => h⟩
  | case3 a l1 b l2 h ih =>
    rw [mergeR, if_pos h]
    obtain ⟨m, t, l, g⟩ := ih h1 fun t ht => h2 t (by simp [ht])
    refine ⟨?_, ?_, ?_, ?_⟩
    · intro p
      simp only [List.exists_mem_cons_iff] at m ⊢
      rw [m p]; exact or_shuffle1 _ _ _ _
    · intro p; rw [levelAt_cons, t p, levelAt_cons _ b, better_left_comm]
    · intro p; rw [levelAt_cons, l p, levelAt_cons _ b, better_left_comm]
    · intro g1 g2 x hx
      rcases List.mem_cons.1 hx with rfl | hx
      · exact g2 x (by simp)
      · exact g g1 (fun t ht => g2 t (by simp [ht])) x hx
  | case4 a l1 b l2 h h' ih =>
    rw [mergeR, if_neg h, if_pos h', if_pos rfl]
    obtain ⟨m, t, l, g⟩ := ih (fun t ht => h1 t (by simp [ht])) fun t ht => h2 t (by simp [ht])
    have hab : b.pos.val = a.pos.val := (val_eq_iff (h2 b (by simp)).ne' (h1 a (by simp)).ne').1 h'
    obtain ⟨e1, e2, e3⟩ := merge_levels a b
    refine ⟨?_, ?_, ?_, ?_⟩
    · intro p
      simp only [List.exists_mem_cons_iff, e1] at m ⊢
      rw [m p, hab]; exact or_shuffle2 _ _ _
    · intro p
      rw [levelAt_cons, t p, levelAt_cons _ a, levelAt_cons _ b, e1, e2, hab]
      by_cases hp : a.pos.val = p
      · simp only [hp, if_true, better_assoc]; congr 1; rw [better_left_comm]
      · simp only [hp, if_false, better_none_left]
    · intro p
      rw [levelAt_cons, l p, levelAt_cons _ a, levelAt_cons _ b, e1, e3, hab]
      by_cases hp : a.pos.val = p
      · simp only [hp, if_true, better_assoc]; congr 1; rw [better_left_comm]
      · simp only [hp, if_false, better_none_left]
    · intro g1 g2 x hx
      rcases List.mem_cons.1 hx with rfl | hx
      · rw [e1]; exact g1 a (by simp)
      · exact g (fun t ht => g1 t (by simp [ht])) (fun t ht => g2 t (by simp [ht])) x hx
  | case5 a l1 b l2 h h' ih =>
    rw [mergeR, if_neg h, if_neg h']
    obtain ⟨m, t, l, g⟩ := ih (fun t ht => h1 t (by simp [ht])) h2
    refine ⟨?_, ?_, ?_, ?_⟩
    · intro p
      simp only [List.exists_mem_cons_iff] at m ⊢
      rw [m p]; exact or_assoc.symm
    · intro p; rw [levelAt_cons, t p, levelAt_cons _ a, better_assoc]
    · intro p; rw [levelAt_cons, l p, levelAt_cons _ a, better_assoc]
    · intro g1 g2 x hx
      rcases List.mem_cons.1 hx with rfl | hx
      · exact g1 x (by simp)
      · exact g (fun t ht => g1 t (by simp [ht])) g2 x hx

/-- Ordered tick lists: strictly increasing positions. -/
def Sorted (l : List T) : Prop := l.Pairwise fun a b => a.pos.val < b.pos.val

theorem mergeR_sorted (l1 l2 : List T) (g1 : Good l1) (g2 : Good l2) (h1 : Sorted l1) (h2 : Sorted l2) :
    Sorted (mergeR true l1 l2) := by
  induction l1, l2 using mergeR.induct with
  | case1 l1 => simpa [mergeR] using h1
  | case2 l2 h =>
    have e : mergeR true [] l2 = l2 := by cases l2 <;> simp [mergeR]
    rw [e]; exact h2
  | case3 a l1 b l2 h ih =>
    rw [mergeR, if_pos h]
    have g2' : Good l2 := fun t ht => g2 t (by simp [ht])
    have hba := (val_lt_iff (g2 b (by simp)) (g1 a (by simp))).1 h
    obtain ⟨b1, b2⟩ := List.pairwise_cons.1 h2
    obtain ⟨a1, a2⟩ := List.pairwise_cons.1 h1
    refine List.pairwise_cons.2 ⟨?_, ih g1 g2' h1 b2⟩
    intro x hx
    rcases ((mergeR_isMerge _ _ g1 g2').mem x.pos.val).1 ⟨x, hx, rfl⟩ with ⟨t, ht, e⟩ | ⟨t, ht, e⟩
    · rw [← e]
      rcases List.mem_cons.1 ht with rfl | ht
      · exact hba
      · exact hba.trans (a1 t ht)
    · rw [← e]; exact b1 t ht
  | case4 a l1 b l2 h h' ih =>
    rw [mergeR, if_neg h, if_pos h', if_pos rfl]
    have g1' : Good l1 := fun t ht => g1 t (by simp [ht])
    have g2' : Good l2 := fun t ht => g2 t (by simp [ht])
    have hba := (val_eq_iff (g2 b (by simp)).ne' (g1 a (by simp)).ne').1 h'
    obtain ⟨b1, b2⟩ := List.pairwise_cons.1 h2
    obtain ⟨a1, a2⟩ := List.pairwise_cons.1 h1
    refine List.pairwise_cons.2 ⟨?_, ih g1' g2' a2 b2⟩
    intro x hx
    rw [(merge_levels a b).1]
    rcases ((mergeR_isMerge _ _ g1' g2').mem x.pos.val).1 ⟨x, hx, rfl⟩ with ⟨t, ht, e⟩ | ⟨t, ht, e⟩
    · rw [← e]; exact a1 t ht
    · rw [← e, ← hba]; exact b1 t ht
  | case5 a l1 b l2 h h' ih =>
    rw [mergeR, if_neg h, if_neg h']
    have g1' : Good l1 := fun t ht => g1 t (by simp [ht])
    have hab : a.pos.val < b.pos.val := by
      rcases lt_trichotomy a.pos.val b.pos.val with h3 | h3 | h3
      · exact h3
      · exact absurd ((val_eq_iff (g2 b (by simp)).ne' (g1 a (by simp)).ne').2 h3.symm) h'
      · exact absurd ((val_lt_iff (g2 b (by simp)) (g1 a (by simp))).2 h3) h
    obtain ⟨b1, b2⟩ := List.pairwise_cons.1 h2
    obtain ⟨a1, a2⟩ := List.pairwise_cons.1 h1
    refine List.pairwise_cons.2 ⟨?_, ih g1' g2 a2 h2⟩
    intro x hx
    rcases ((mergeR_isMerge _ _ g1' g2).mem x.pos.val).1 ⟨x, hx, rfl⟩ with ⟨t, ht, e⟩ | ⟨t, ht, e⟩
    · rw [← e]; exact a1 t ht
    · rw [← e]
      rcases List.mem_cons.1 ht with rfl | ht
      · exact hab
      · exact hab.trans (b1 t ht)

/-- C12: merging two ordered tick lists gives an ordered list with each position of either list exactly once. -/
theorem merge_sorted (l1 l2 : List T) (g1 : Good l1) (g2 : Good l2) (h1 : Sorted l1) (h2 : Sorted l2) :
    Sorted (mergeticklists l1 l2) ∧
    ∀ p, (∃ t ∈ mergeticklists l1 l2, t.pos.val = p) ↔ (∃ t ∈ l1, t.pos.val = p) ∨ (∃ t ∈ l2, t.pos.val = p) := by
  have e : mergeticklists l1 l2 = mergeR true l1 l2 := by simp [mergeticklists, mergeLoop_eq]
  rw [e]
  exact ⟨mergeR_sorted l1 l2 g1 g2 h1 h2, (mergeR_isMerge l1 l2 g1 g2).mem⟩

/-- C12: at each position the more significant of the tick levels (label levels) of both lists remains. (For this the lists
need not be ordered.) -/
theorem merge_level (l1 l2 : List T) (g1 : Good l1) (g2 : Good l2) (p : ℚ) :
    levelAt T.ticklevel (mergeticklists l1 l2) p = better (levelAt T.ticklevel l1 p) (levelAt T.ticklevel l2 p) ∧
    levelAt T.labellevel (mergeticklists l1 l2) p = better (levelAt T.labellevel l1 p) (levelAt T.labellevel l2 p) := by
  have e : mergeticklists l1 l2 = mergeR true l1 l2 := by simp [mergeticklists, mergeLoop_eq]
  rw [e]
  exact ⟨(mergeR_isMerge l1 l2 g1 g2).tick p, (mergeR_isMerge l1 l2 g1 g2).labelLv p⟩

theorem merge_good (l1 l2 : List T) (g1 : Good l1) (g2 : Good l2) : Good (mergeticklists l1 l2) := by
  have e : mergeticklists l1 l2 = mergeR true l1 l2 := by simp [mergeticklists, mergeLoop_eq]
  rw [e]; exact (mergeR_isMerge l1 l2 g1 g2).good g1 g2

/-- In an ordered list there is one tick at a position, and its level is the level there. -/
theorem levelAt_sorted (f : T → Option Int) (l : List T) (h : Sorted l) (t : T) (ht : t ∈ l) : levelAt f l t.pos.val = f t := by
  induction l with
  | nil => cases ht
  | cons a l ih =>
    obtain ⟨h1, h2⟩ := List.pairwise_cons.1 h
    rw [levelAt_cons]
    rcases List.mem_cons.1 ht with rfl | ht
    · have : levelAt f l t.pos.val = none := by
        unfold levelAt
        rw [List.filter_eq_nil_iff.2]; · rfl
        intro x hx; simp; exact (h1 x hx).ne'
      simp [this, better_none]
    · rw [if_neg (h1 t ht).ne, better_none_left]; exact ih h2 ht

/-- Labels: the label given in the first list wins. -/
theorem merge_label (a b : T) : (a.merge b).label = a.label.or b.label := by
  cases h : a.label <;> simp [T.merge, h]

/-- Specification of `maxlevels`: a bound for all levels, attained or 0. -/
theorem maxlevels_spec (l : List T) :
    (∀ t ∈ l, ∀ k, t.ticklevel = some k → k < (maxlevels l).1) ∧ (∀ t ∈ l, ∀ k, t.labellevel = some k → k < (maxlevels l).2) ∧
    ((maxlevels l).1 = 0 ∨ ∃ t ∈ l, t.ticklevel = some ((maxlevels l).1 - 1)) ∧
    ((maxlevels l).2 = 0 ∨ ∃ t ∈ l, t.labellevel = some ((maxlevels l).2 - 1)) := by
  induction l using List.reverseRecOn with
  | nil => simp [maxlevels]
  | append_singleton l a ih =>
    have e : maxlevels (l ++ [a]) =
      (match a.ticklevel with | some k => if k ≥ (maxlevels l).1 then k + 1 else (maxlevels l).1 | none => (maxlevels l).1,
       match a.labellevel with | some k => if k ≥ (maxlevels l).2 then k + 1 else (maxlevels l).2 | none => (maxlevels l).2) := by
      rw [maxlevels, List.foldl_append]; rfl
    obtain ⟨i1, i2, i3, i4⟩ := ih
    rw [e]
    refine ⟨?_, ?_, ?_, ?_⟩
    · intro t ht k hk
      rcases List.mem_append.1 ht with ht | ht
      · have := i1 t ht k hk
        cases a.ticklevel with
        | none => exact this
        | some m => simp only; split <;> omega
      · rw [List.mem_singleton] at ht; subst ht
        simp only [hk]; split <;> omega
    · intro t ht k hk
      rcases List.mem_append.1 ht with ht | ht
      · have := i2 t ht k hk
        cases a.labellevel with
        | none => exact this
        | some m => simp only; split <;> omega
      · rw [List.mem_singleton] at ht; subst ht
        simp only [hk]; split <;> omega
    · have old : (maxlevels l).1 = 0 ∨ ∃ t ∈ l ++ [a], t.ticklevel = some ((maxlevels l).1 - 1) := by
        rcases i3 with h | ⟨t, ht, h⟩
        · exact .inl h
        · exact .inr ⟨t, by simp [ht], h⟩
      cases ha : a.ticklevel with
      | none => exact old
      | some m =>
        simp only
        split
        · exact .inr ⟨a, by simp, by simp [ha]⟩
        · exact old
    · have old : (maxlevels l).2 = 0 ∨ ∃ t ∈ l ++ [a], t.labellevel = some ((maxlevels l).2 - 1) := by
        rcases i4 with h | ⟨t, ht, h⟩
        · exact .inl h
        · exact .inr ⟨t, by simp [ht], h⟩
      cases ha : a.labellevel with
      | none => exact old
      | some m =>
        simp only
        split
        · exact .inr ⟨a, by simp, by simp [ha]⟩
        · exact old

/-- Concrete case. -/
example : mergeticklists [⟨⟨0, 1⟩, some 0, none, none⟩, ⟨⟨2, 2⟩, some 0, none, none⟩]
    [⟨⟨1, 2⟩, none, some 1, none⟩, ⟨⟨1, 1⟩, some 1, some 1, some "x"⟩, ⟨⟨3, 2⟩, none, some 1, none⟩] =
    [⟨⟨0, 1⟩, some 0, none, none⟩, ⟨⟨1, 2⟩, none, some 1, none⟩, ⟨⟨2, 2⟩, some 0, some 1, some "x"⟩,
      ⟨⟨3, 2⟩, none, some 1, none⟩] := by decide +kernel

/-- Finding: if a position occurs twice in the second list, it occurs twice in the result. -/
theorem merge_duplicates : mergeticklists [⟨⟨0, 1⟩, some 0, none, none⟩]
    [⟨⟨0, 1⟩, some 1, none, none⟩, ⟨⟨0, 1⟩, none, some 1, none⟩] =
    [⟨⟨0, 1⟩, some 0, none, none⟩, ⟨⟨0, 1⟩, none, some 1, none⟩] := by decide +kernel

end PyX.Tick
