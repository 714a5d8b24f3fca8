import Verif.Tick.Props
import Mathlib.Data.Int.Log
import Mathlib.Data.Rat.Floor
import Mathlib.Algebra.Order.Round

/-!
# C11: `rational` of a float (`initfromfloat`, `pyx/graph/axis/tick.py:101-105`)

A finite float is the rational number it denotes. `"%.pg"` rounds the exact value to `p` significant digits (ties to even), and writes it with or without an exponent, without trailing zeros.
The sign of a negative zero does not matter, since the rational is zero for `"-0"`, too.
-/

set_option linter.unusedSectionVars false
set_option linter.unusedSimpArgs false

namespace PyX.Tick

/-! ## The model -/

/-- Rounding to the nearest integer, ties to even. -/
def roundEven (q : ℚ) : ℤ :=
  if q - ⌊q⌋ < 1 / 2 then ⌊q⌋
  else if 1 / 2 < q - ⌊q⌋ then ⌊q⌋ + 1
  else if ⌊q⌋ % 2 = 0 then ⌊q⌋ else ⌊q⌋ + 1

/-- `w` digits of a number. -/
def digitsOf : ℕ → ℕ → List (Fin 10)
  | 0, _ => []
  | w + 1, n => digitsOf w (n / 10) ++ [Fin.ofNat 10 (n % 10)]

/-- Trailing zeros are removed. -/
def stripZeros (l : List (Fin 10)) : List (Fin 10) := (l.reverse.dropWhile (· = 0)).reverse

/-- The digits after the point; no point without digits. -/
def fraction (l : List (Fin 10)) : Option (List (Fin 10)) := if stripZeros l = [] then none else some (stripZeros l)

/-- An exponent has two digits at least. -/
def expDigits (n : ℕ) : List (Fin 10) := digitsOf (max 2 (Nat.log 10 n + 1)) n

def expSign (e : ℤ) : Sign := if e < 0 then .minus else .plus

/-- `p` digits `m` with the exponent `e` of the first one: the formats of `%g`. -/
def layout (p : ℕ) (s : Sign) (m : ℕ) (e : ℤ) : Dec :=
  if -4 ≤ e ∧ e < p then
    if 0 ≤ e then ⟨s, (digitsOf p m).take (e.toNat + 1), fraction ((digitsOf p m).drop (e.toNat + 1)), none⟩
    else ⟨s, [0], fraction (List.replicate ((-e).toNat - 1) 0 ++ digitsOf p m), none⟩
  else ⟨s, (digitsOf p m).take 1, fraction ((digitsOf p m).drop 1), some (false, expSign e, expDigits e.natAbs)⟩

/-- The sign of the text. -/
def signOf (x : ℚ) : Sign := if x < 0 then .minus else .none

/-- The digits of a number before carrying. -/
def mantissa (p : ℕ) (x : ℚ) : ℤ := roundEven (|x| / 10 ^ (Int.log 10 |x| - p + 1))

/-- `"%.pg" % x`, for `p` at least 1 (`"%.0g"` is the same as `"%.1g"`). -/
def formatG (p : ℕ) (x : ℚ) : Dec :=
  if x = 0 then ⟨.none, [0], none, none⟩
  else if mantissa p x = 10 ^ p then layout p (signOf x) (10 ^ (p - 1)) (Int.log 10 |x| + 1)
  else layout p (signOf x) (mantissa p x).toNat (Int.log 10 |x|)

/-- `rational(x)` for a number, with the precision `p` (`tick.py:101-105, 107, 136-138`); the exception for a negative precision is `none`. -/
def ofNumber (x : ℚ) (p : ℤ := 10) : Option Frac := if p < 0 then none else initfromstring (formatG (max p.toNat 1) x).chars

/-! ## Specification -/

/-- A number with at most `p` significant digits. -/
def Short (p : ℕ) (y : ℚ) : Prop := ∃ (m k : ℤ), |m| ≤ 10 ^ p ∧ y = m * 10 ^ k

/-! ## Proofs -/

theorem roundEven_near (q : ℚ) : |(roundEven q : ℚ) - q| ≤ 1 / 2 := by
  have h1 := Int.floor_le q
  have h2 := Int.lt_floor_add_one q
  unfold roundEven
  rw [abs_le]
  split
  · constructor <;> linarith
  · split
    · push_cast
      constructor <;> linarith
    · split
      · constructor <;> linarith
      · push_cast
        constructor <;> linarith

theorem near_unique (q : ℚ) (a : ℤ) (h : |(a : ℚ) - q| < 1 / 2) : roundEven q = a := by
  have h1 := roundEven_near q
  have h2 : |((roundEven q - a : ℤ) : ℚ)| < 1 := by
    push_cast
    calc |(roundEven q : ℚ) - a| = |((roundEven q : ℚ) - q) - (a - q)| := by ring_nf
      _ ≤ |(roundEven q : ℚ) - q| + |(a : ℚ) - q| := abs_sub _ _
      _ < 1 := by linarith
  have h3 : |roundEven q - a| < 1 := by exact_mod_cast h2
  rw [Int.abs_lt_one_iff] at h3
  omega

theorem digitsVal_append (a b : List (Fin 10)) : digitsVal (a ++ b) = digitsVal a * 10 ^ b.length + digitsVal b := by
  induction a with
  | nil => simp [digitsVal]
  | cons d ds ih =>
    simp only [List.cons_append, digitsVal, ih, List.length_append, pow_add]
    ring

theorem digitsOf_length (w n : ℕ) : (digitsOf w n).length = w := by
  induction w generalizing n with
  | zero => rfl
  | succ w ih => simp [digitsOf, ih]

theorem digitsOf_val (w n : ℕ) (h : n < 10 ^ w) : digitsVal (digitsOf w n) = n := by
  induction w generalizing n with
  | zero => simp at h; subst h; rfl
  | succ w ih =>
    rw [digitsOf, digitsVal_append, ih _ (by rw [pow_succ] at h; omega)]
    simp only [List.length_singleton, pow_one, digitsVal, List.length_nil, pow_zero, mul_one, add_zero, Fin.ofNat]
    omega

theorem digitsVal_zeros (n : ℕ) : digitsVal (List.replicate n 0) = 0 := by
  induction n with
  | zero => rfl
  | succ n ih => simp [List.replicate_succ, digitsVal, ih]

/-- The number written after the point. -/
def frac (l : List (Fin 10)) : ℚ := (digitsVal l : ℚ) / 10 ^ l.length

theorem strip_val (l : List (Fin 10)) : frac (stripZeros l) = frac l := by
  induction l using List.reverseRecOn with
  | nil => rfl
  | append_singleton l d ih =>
    by_cases hd : d = 0
    · subst hd
      have e : stripZeros (l ++ [0]) = stripZeros l := by simp [stripZeros, List.dropWhile_cons]
      rw [e, ih]
      simp only [frac, digitsVal_append, digitsVal, List.length_append, List.length_singleton, List.length_nil]
      push_cast
      rw [pow_succ]
      field_simp
      simp
    · have e : stripZeros (l ++ [d]) = l ++ [d] := by
        have e : (l ++ [d]).reverse = d :: l.reverse := by simp
        rw [stripZeros, e, List.dropWhile_cons_of_neg (by simpa using hd)]
        simp
      rw [e]

/-- The number written after the point, if there is one. -/
def fracOf : Option (List (Fin 10)) → ℚ
  | none => 0
  | some f => frac f

theorem fraction_val (l : List (Fin 10)) : fracOf (fraction l) = frac l := by
  unfold fraction
  by_cases h : stripZeros l = []
  · rw [if_pos h, ← strip_val, h]
    simp [fracOf, frac, digitsVal]
  · rw [if_neg h]
    exact strip_val l

theorem dec_plain (s : Sign) (ip : List (Fin 10)) (fp : Option (List (Fin 10))) : Dec.val ⟨s, ip, fp, none⟩ = s.factor * (digitsVal ip + fracOf fp) := by
  cases fp <;> simp [Dec.val, fracOf, frac]

theorem dec_exp (s : Sign) (ip : List (Fin 10)) (fp : Option (List (Fin 10))) (e : ℤ) (ds : List (Fin 10)) (hd : digitsVal ds = e.natAbs) :
    Dec.val ⟨s, ip, fp, some (false, expSign e, ds)⟩ = s.factor * (digitsVal ip + fracOf fp) * 10 ^ e := by
  unfold Dec.val expSign
  by_cases he : e < 0
  · have h2 : (10 : ℚ) ^ e = 1 / 10 ^ digitsVal ds := by
      rw [hd, one_div, ← zpow_natCast, ← zpow_neg]
      congr 1
      omega
    rw [if_pos he, h2]
    cases fp <;> rfl
  · have h2 : (10 : ℚ) ^ e = 10 ^ digitsVal ds := by
      rw [hd, ← zpow_natCast]
      congr 1
      omega
    rw [if_neg he, h2]
    cases fp <;> rfl

theorem expDigits_val (n : ℕ) : digitsVal (expDigits n) = n := by
  refine digitsOf_val _ _ ?_
  have : n < 10 ^ (Nat.log 10 n + 1) := Nat.lt_pow_succ_log_self (by norm_num) n
  exact lt_of_lt_of_le this (Nat.pow_le_pow_right (by norm_num) (le_max_right _ _))

/-- Cutting digits at the point. -/
theorem cut_val (l : List (Fin 10)) (k : ℕ) : (digitsVal (l.take k) : ℚ) + frac (l.drop k) = digitsVal l / 10 ^ (l.length - k) := by
  have h := digitsVal_append (l.take k) (l.drop k)
  rw [List.take_append_drop] at h
  unfold frac
  rw [h, List.length_drop]
  push_cast
  field_simp

theorem layout_val (p : ℕ) (hp : 1 ≤ p) (s : Sign) (m : ℕ) (hm : m < 10 ^ p) (e : ℤ) : (layout p s m e).val = s.factor * (m * 10 ^ (e - p + 1)) ∧ (layout p s m e).Legal := by
  have hl := digitsOf_length p m
  have hv := digitsOf_val p m hm
  have ten : (10 : ℚ) ≠ 0 := by norm_num
  unfold layout
  by_cases h1 : -4 ≤ e ∧ e < p
  · rw [if_pos h1]
    by_cases h2 : 0 ≤ e
    · rw [if_pos h2]
      refine ⟨?_, by simp [Dec.Legal]⟩
      rw [dec_plain, fraction_val, cut_val _ _, hl, hv]
      congr 1
      rw [div_eq_mul_inv, ← zpow_natCast, ← zpow_neg]
      congr 2
      omega
    · rw [if_neg h2]
      refine ⟨?_, by simp [Dec.Legal]⟩
      rw [dec_plain, fraction_val]
      simp only [frac, digitsVal_append, digitsVal_zeros, List.length_append, List.length_replicate, hl, hv, digitsVal, List.length_nil, Fin.val_zero]
      congr 1
      simp only [zero_mul, zero_add, Nat.cast_zero]
      rw [div_eq_mul_inv, ← zpow_natCast, ← zpow_neg]
      congr 2
      push_cast
      omega
  · rw [if_neg h1]
    refine ⟨?_, ?_⟩
    · rw [dec_exp _ _ _ _ _ (expDigits_val _), fraction_val, cut_val _ _, hl, hv, mul_assoc]
      congr 1
      rw [div_eq_mul_inv, ← zpow_natCast, ← zpow_neg, mul_assoc, ← zpow_add₀ ten]
      congr 2
      omega
    · intro x hx
      simp only [Option.some.injEq] at hx
      subst hx
      intro h
      have := congrArg List.length h
      rw [expDigits, digitsOf_length] at this
      simp at this

theorem log_bounds (x : ℚ) (hx : x ≠ 0) : (10 : ℚ) ^ Int.log 10 |x| ≤ |x| ∧ |x| < 10 ^ (Int.log 10 |x| + 1) :=
  ⟨by exact_mod_cast Int.zpow_log_le_self (b := 10) (by norm_num) (abs_pos.mpr hx), by exact_mod_cast Int.lt_zpow_succ_log_self (b := 10) (by norm_num) |x|⟩

theorem sign_factor (x : ℚ) : (signOf x).factor * |x| = x := by
  unfold signOf
  by_cases h : x < 0
  · rw [if_pos h, abs_of_neg h, Sign.factor]; ring
  · rw [if_neg h, abs_of_nonneg (not_lt.mp h)]
    exact one_mul x

theorem mantissa_range (p : ℕ) (hp : 1 ≤ p) (x : ℚ) (hx : x ≠ 0) : 0 ≤ mantissa p x ∧ mantissa p x ≤ 10 ^ p := by
  obtain ⟨h1, h2⟩ := log_bounds x hx
  have hnear := roundEven_near (|x| / 10 ^ (Int.log 10 |x| - p + 1))
  rw [abs_le] at hnear
  have g : (0 : ℚ) < 10 ^ (Int.log 10 |x| - p + 1) := zpow_pos (by norm_num) _
  have hq : |x| / 10 ^ (Int.log 10 |x| - p + 1) < 10 ^ p := by
    rw [div_lt_iff₀ g, ← zpow_natCast, ← zpow_add₀ (by norm_num : (10 : ℚ) ≠ 0)]
    rw [show (p : ℤ) + (Int.log 10 |x| - p + 1) = Int.log 10 |x| + 1 by ring]
    exact h2
  have hq0 : 0 ≤ |x| / 10 ^ (Int.log 10 |x| - p + 1) := div_nonneg (abs_nonneg _) g.le
  constructor
  · have : (-1 : ℚ) < mantissa p x := by unfold mantissa; linarith [hnear.1]
    have : (-1 : ℤ) < mantissa p x := by exact_mod_cast this
    omega
  · have : (mantissa p x : ℚ) < 10 ^ p + 1 := by unfold mantissa; linarith [hnear.2]
    have : mantissa p x < 10 ^ p + 1 := by exact_mod_cast this
    omega

/-- The number written. -/
theorem formatG_val (p : ℕ) (hp : 1 ≤ p) (x : ℚ) (hx : x ≠ 0) : (formatG p x).val = (signOf x).factor * (mantissa p x * 10 ^ (Int.log 10 |x| - p + 1)) ∧ (formatG p x).Legal := by
  obtain ⟨h0, h1⟩ := mantissa_range p hp x hx
  unfold formatG
  rw [if_neg hx]
  by_cases h : mantissa p x = 10 ^ p
  · rw [if_pos h]
    obtain ⟨g1, g2⟩ := layout_val p hp (signOf x) (10 ^ (p - 1)) (Nat.pow_lt_pow_right (by norm_num) (by omega)) (Int.log 10 |x| + 1)
    refine ⟨?_, g2⟩
    rw [g1, h]
    push_cast
    rw [← zpow_natCast, ← zpow_natCast, ← zpow_add₀ (by norm_num : (10 : ℚ) ≠ 0), ← zpow_add₀ (by norm_num : (10 : ℚ) ≠ 0)]
    congr 2
    omega
  · rw [if_neg h]
    have hlt : (mantissa p x).toNat < 10 ^ p := by
      have : ((mantissa p x).toNat : ℤ) < ((10 ^ p : ℕ) : ℤ) := by
        rw [Int.toNat_of_nonneg h0]
        push_cast
        omega
      exact_mod_cast this
    obtain ⟨g1, g2⟩ := layout_val p hp (signOf x) _ hlt (Int.log 10 |x|)
    refine ⟨?_, g2⟩
    rw [g1]
    have : (((mantissa p x).toNat : ℕ) : ℚ) = (mantissa p x : ℚ) := by
      have : (((mantissa p x).toNat : ℕ) : ℤ) = mantissa p x := Int.toNat_of_nonneg h0
      exact_mod_cast this
    rw [this]

/-- The value of `rational(x)`. -/
theorem ofNumber_val (x : ℚ) (p : ℕ) (hp : 1 ≤ p) : ∃ r, ofNumber x p = some r ∧ 0 < r.denom ∧ r.val = (formatG p x).val := by
  have hl : (formatG p x).Legal := by
    by_cases hx : x = 0
    · subst hx
      simp [formatG, Dec.Legal]
    · exact (formatG_val p hp x hx).2
  obtain ⟨r, h1, h2, h3⟩ := initfromstring_val' (formatG p x) hl
  refine ⟨r, ?_, h2, h3⟩
  unfold ofNumber
  rw [if_neg (by omega)]
  have : max ((p : ℤ).toNat) 1 = p := by simp; omega
  rw [this, h1]

/-- **C11, floats.** The rational of a float is near to it: the error is at most half a unit of the last of the `p` digits. -/
theorem ofNumber_near (x : ℚ) (p : ℕ) (hp : 1 ≤ p) : ∃ r, ofNumber x p = some r ∧ 0 < r.denom ∧ 2 * |r.val - x| * 10 ^ (p - 1) ≤ |x| := by
  obtain ⟨r, h1, h2, h3⟩ := ofNumber_val x p hp
  refine ⟨r, h1, h2, ?_⟩
  by_cases hx : x = 0
  · subst hx
    rw [h3]
    simp [formatG, Dec.val, digitsVal]
  · rw [h3, (formatG_val p hp x hx).1]
    obtain ⟨b1, b2⟩ := log_bounds x hx
    have g : (0 : ℚ) < 10 ^ (Int.log 10 |x| - p + 1) := zpow_pos (by norm_num) _
    have hnear : |(mantissa p x : ℚ) - |x| / 10 ^ (Int.log 10 |x| - p + 1)| ≤ 1 / 2 := roundEven_near _
    have e : (signOf x).factor * (mantissa p x * 10 ^ (Int.log 10 |x| - p + 1)) - x
        = (signOf x).factor * ((mantissa p x - |x| / 10 ^ (Int.log 10 |x| - p + 1)) * 10 ^ (Int.log 10 |x| - p + 1)) := by
      conv_lhs => rw [← sign_factor x]
      rw [sign_factor x]
      have : (signOf x).factor * |x| = x := sign_factor x
      rw [sub_mul, div_mul_cancel₀ _ g.ne', mul_sub, this]
    rw [e, abs_mul, abs_mul, abs_of_pos g]
    have hs : |(signOf x).factor| = 1 := by
      unfold signOf
      split <;> simp [Sign.factor]
    rw [hs, one_mul]
    calc 2 * (|(mantissa p x : ℚ) - |x| / 10 ^ (Int.log 10 |x| - p + 1)| * 10 ^ (Int.log 10 |x| - p + 1)) * 10 ^ (p - 1)
        ≤ 2 * (1 / 2 * 10 ^ (Int.log 10 |x| - p + 1)) * 10 ^ (p - 1) := by gcongr
      _ = 10 ^ Int.log 10 |x| := by
        rw [← zpow_natCast (10 : ℚ) (p - 1), show (2 : ℚ) * (1 / 2 * 10 ^ (Int.log 10 |x| - p + 1)) = 10 ^ (Int.log 10 |x| - p + 1) by ring, ← zpow_add₀ (by norm_num : (10 : ℚ) ≠ 0)]
        congr 1
        omega
      _ ≤ |x| := b1

/-- The rounding of numbers near to those with few digits. -/
theorem mantissa_exact (p : ℕ) (hp : 1 ≤ p) (x : ℚ) (hx : 0 < x) (y : ℚ) (hy : Short p y) (hy0 : 0 < y) (h : 2 * 10 ^ p * |x - y| < y) :
    (mantissa p x : ℚ) * 10 ^ (Int.log 10 |x| - p + 1) = y := by
  obtain ⟨b1, b2⟩ := log_bounds x hx.ne'
  obtain ⟨c1, c2⟩ := log_bounds y hy0.ne'
  rw [abs_of_pos hx] at b1 b2 ⊢
  rw [abs_of_pos hy0] at c1 c2
  set e := Int.log 10 x with he
  set E := Int.log 10 y with hE
  have ten : (10 : ℚ) ≠ 0 := by norm_num
  have ten1 : (1 : ℚ) < 10 := by norm_num
  -- `y` is a multiple of the unit of its last digit
  obtain ⟨m, k, hm, hyk⟩ := hy
  have hgrid : ∃ M : ℤ, y = M * 10 ^ (E - p + 1) := by
    by_cases hk : E - p + 1 ≤ k
    · refine ⟨m * 10 ^ (k - (E - p + 1)).toNat, ?_⟩
      rw [hyk]
      push_cast
      rw [mul_assoc, ← zpow_natCast, ← zpow_add₀ ten]
      congr 2
      omega
    · -- then the number has one digit
      have hm0 : (m : ℚ) ≤ 10 ^ p := by
        have : m ≤ 10 ^ p := le_trans (le_abs_self m) hm
        exact_mod_cast this
      have h1 : y ≤ 10 ^ (p + k) := by
        rw [hyk, zpow_add₀ ten, zpow_natCast]
        exact mul_le_mul_of_nonneg_right hm0 (zpow_pos (by norm_num) _).le
      have h2 : (10 : ℚ) ^ E ≤ 10 ^ ((p : ℤ) + k) := le_trans c1 h1
      rw [zpow_le_zpow_iff_right₀ ten1] at h2
      have h3 : (p : ℤ) + k = E := by omega
      have h4 : y = 10 ^ E := le_antisymm (by rw [h3] at h1; exact h1) c1
      refine ⟨10 ^ (p - 1), ?_⟩
      rw [h4]
      push_cast
      rw [← zpow_natCast, ← zpow_add₀ ten]
      congr 1
      omega
  obtain ⟨M, hM⟩ := hgrid
  have gE : (0 : ℚ) < 10 ^ (E - p + 1) := zpow_pos (by norm_num) _
  have pp : (0 : ℚ) < 10 ^ p := by positivity
  have hpow : (10 : ℚ) ^ p * 10 ^ (E - p + 1) = 10 ^ (E + 1) := by
    rw [← zpow_natCast, ← zpow_add₀ ten]
    congr 1
    omega
  have hpow0 : (10 : ℚ) ^ p * 10 ^ (E - p) = 10 ^ E := by
    rw [← zpow_natCast, ← zpow_add₀ ten]
    congr 1
    omega
  -- the distance is less than half of the unit
  have hd : |x - y| < 1 / 2 * 10 ^ (E - p + 1) := by
    have : 2 * 10 ^ p * |x - y| < 2 * 10 ^ p * (1 / 2 * 10 ^ (E - p + 1)) := by
      calc 2 * 10 ^ p * |x - y| < y := h
        _ < 10 ^ (E + 1) := c2
        _ = 2 * 10 ^ p * (1 / 2 * 10 ^ (E - p + 1)) := by rw [← hpow]; ring
    exact lt_of_mul_lt_mul_left this (by positivity)
  have hMlt : M + 1 ≤ 10 ^ p := by
    have : (M : ℚ) * 10 ^ (E - p + 1) < 10 ^ p * 10 ^ (E - p + 1) := by rw [← hM, hpow]; exact c2
    have : (M : ℚ) < 10 ^ p := lt_of_mul_lt_mul_right this gE.le
    have : M < 10 ^ p := by exact_mod_cast this
    omega
  rw [abs_lt] at hd
  have hxlt : x < 10 ^ (E + 1) := by
    have : ((M + 1 : ℤ) : ℚ) ≤ 10 ^ p := by exact_mod_cast hMlt
    push_cast at this
    have h5 : ((M : ℚ) + 1) * 10 ^ (E - p + 1) ≤ 10 ^ (E + 1) := by rw [← hpow]; gcongr
    rw [add_mul, ← hM] at h5
    linarith [hd.2]
  have hele : e ≤ E := by
    have : (10 : ℚ) ^ e < 10 ^ (E + 1) := lt_of_le_of_lt b1 hxlt
    rw [zpow_lt_zpow_iff_right₀ ten1] at this
    omega
  unfold mantissa
  rw [abs_of_pos hx, ← he]
  rcases eq_or_lt_of_le hele with heq | hlt
  · rw [heq]
    have : roundEven (x / 10 ^ (E - p + 1)) = M := near_unique _ _ (by
      have : (M : ℚ) - x / 10 ^ (E - p + 1) = (y - x) / 10 ^ (E - p + 1) := by rw [hM]; field_simp
      rw [this, abs_div, abs_of_pos gE, div_lt_iff₀ gE, abs_lt]
      constructor <;> linarith)
    rw [this, hM]
  · -- just below a power of ten
    have hx2 : x < 10 ^ E := lt_of_lt_of_le b2 (by
      rw [zpow_le_zpow_iff_right₀ ten1]
      omega)
    have hy2 : y = 10 ^ E := by
      by_contra hne
      have h10 : (10 : ℚ) ^ E = ((10 ^ (p - 1) : ℤ) : ℚ) * 10 ^ (E - p + 1) := by
        push_cast
        rw [← zpow_natCast, ← zpow_add₀ ten]
        congr 1
        omega
      have hlt' : ((10 ^ (p - 1) : ℤ) : ℚ) * 10 ^ (E - p + 1) < M * 10 ^ (E - p + 1) := by
        rw [← h10, ← hM]
        exact lt_of_le_of_ne c1 (Ne.symm hne)
      have : ((10 ^ (p - 1) : ℤ) : ℚ) < M := lt_of_mul_lt_mul_right hlt' gE.le
      have : (10 ^ (p - 1) : ℤ) + 1 ≤ M := by
        have : (10 ^ (p - 1) : ℤ) < M := by exact_mod_cast this
        omega
      have : (((10 ^ (p - 1) : ℤ) : ℚ) + 1) ≤ M := by exact_mod_cast this
      have h6 : (((10 ^ (p - 1) : ℤ) : ℚ) + 1) * 10 ^ (E - p + 1) ≤ y := by rw [hM]; gcongr
      rw [add_mul, ← h10] at h6
      linarith [hd.1]
    have hd2 : |x - y| < 1 / 2 * 10 ^ (E - p) := by
      have : 2 * 10 ^ p * |x - y| < 2 * 10 ^ p * (1 / 2 * 10 ^ (E - p)) := by
        calc 2 * 10 ^ p * |x - y| < y := h
          _ = 2 * 10 ^ p * (1 / 2 * 10 ^ (E - p)) := by rw [hy2, ← hpow0]; ring
      exact lt_of_mul_lt_mul_left this (by positivity)
    have heE : e = E - 1 := by
      have h7 : (10 : ℚ) ^ (E - 1) ≤ x := by
        rw [abs_lt] at hd2
        have h8 : (10 : ℚ) ^ (E - p) ≤ 10 ^ (E - 1) := by
          rw [zpow_le_zpow_iff_right₀ ten1]
          omega
        have h9 : (10 : ℚ) ^ E = 10 * 10 ^ (E - 1) := by
          rw [← zpow_one_add₀ ten]
          congr 1
          omega
        have h10 : (0 : ℚ) < 10 ^ (E - 1) := zpow_pos (by norm_num) _
        linarith [hd2.1]
      have : (10 : ℚ) ^ (E - 1) < 10 ^ (e + 1) := lt_of_le_of_lt h7 b2
      rw [zpow_lt_zpow_iff_right₀ ten1] at this
      omega
    have gE' : (0 : ℚ) < 10 ^ (E - p) := zpow_pos (by norm_num) _
    rw [heE, show E - 1 - (p : ℤ) + 1 = E - p by omega]
    have : roundEven (x / 10 ^ (E - p)) = 10 ^ p := near_unique _ _ (by
      have : (((10 ^ p : ℤ)) : ℚ) - x / 10 ^ (E - p) = (y - x) / 10 ^ (E - p) := by
        rw [hy2, ← hpow0]
        push_cast
        field_simp
      rw [this, abs_div, abs_of_pos gE', div_lt_iff₀ gE', abs_sub_comm]
      exact hd2)
    rw [this, hy2]
    push_cast
    exact hpow0

theorem mantissa_neg (p : ℕ) (x : ℚ) : mantissa p (-x) = mantissa p x := by unfold mantissa; rw [abs_neg]

/-- **C11, floats.** If a float is as near to a decimal number of at most `p` digits as floats are (the relative error of a float is 2^-53, far less than the 2*10^10-th part), its rational is exactly this decimal number. -/
theorem ofNumber_recovers (x y : ℚ) (p : ℕ) (hp : 1 ≤ p) (hy : Short p y) (hy0 : y ≠ 0) (h : 2 * 10 ^ p * |x - y| < |y|) : ∃ r, ofNumber x p = some r ∧ 0 < r.denom ∧ r.val = y := by
  obtain ⟨r, h1, h2, h3⟩ := ofNumber_val x p hp
  refine ⟨r, h1, h2, ?_⟩
  have one : (1 : ℚ) ≤ 2 * 10 ^ p := by
    have : (1 : ℚ) ≤ 10 ^ p := one_le_pow₀ (by norm_num)
    linarith
  have hxy : |x - y| < |y| := lt_of_le_of_lt (le_mul_of_one_le_left (abs_nonneg _) one) h
  rcases lt_or_gt_of_ne hy0 with hn | hpos
  · have hx : x < 0 := by
      rw [abs_of_neg hn, abs_lt] at hxy
      linarith [hxy.2]
    rw [h3, (formatG_val p hp x hx.ne).1]
    have hs : (signOf x).factor = -1 := by rw [signOf, if_pos hx, Sign.factor]
    have hy' : Short p (-y) := by
      obtain ⟨m, k, hm, e⟩ := hy
      exact ⟨-m, k, by rwa [abs_neg], by rw [e]; push_cast; ring⟩
    have := mantissa_exact p hp (-x) (by linarith) (-y) hy' (by linarith) (by
      rw [abs_of_neg hn] at h
      rwa [show -x - -y = -(x - y) by ring, abs_neg])
    rw [mantissa_neg, abs_neg] at this
    rw [hs, this]
    ring
  · have hx : 0 < x := by
      rw [abs_of_pos hpos, abs_lt] at hxy
      linarith [hxy.1]
    rw [h3, (formatG_val p hp x hx.ne').1]
    have hs : (signOf x).factor = 1 := by rw [signOf, if_neg (not_lt.mpr hx.le)]; rfl
    rw [abs_of_pos hpos] at h
    rw [hs, mantissa_exact p hp x hx y hy hpos h, one_mul]

/-- **C11, floats.** Zero is zero, and a negative precision is refused. -/
theorem ofNumber_zero (x : ℚ) (p : ℤ) (hp : p < 0) : (∃ r, ofNumber 0 = some r ∧ r.val = 0) ∧ ofNumber x p = none := by
  refine ⟨?_, by rw [ofNumber, if_pos hp]⟩
  obtain ⟨r, h1, _, h3⟩ := ofNumber_val 0 10 (by norm_num)
  exact ⟨r, h1, by rw [h3]; simp [formatG, Dec.val, digitsVal]⟩

/-- The formats of `%g`: without and with exponent. -/
theorem ex_layout : (layout 10 .none 1500000000 2).chars = "150".toList ∧ (layout 10 .minus 1234567890 (-5)).chars = "-1.23456789e-05".toList ∧ (layout 10 .none 1200000000 (-3)).chars = "0.0012".toList ∧
    (layout 3 .none 100 10).chars = "1e+10".toList ∧ (layout 3 .none 125 123).chars = "1.25e+123".toList := by decide +kernel

/-- The float next to 0.1 gives exactly 1/10. -/
theorem ex_tenth : ∃ r, ofNumber (3602879701896397 / 36028797018963968) = some r ∧ r.val = 1 / 10 := by
  obtain ⟨r, h1, _, h3⟩ := ofNumber_recovers (3602879701896397 / 36028797018963968) (1 / 10) 10 (by norm_num) ⟨1, -1, by norm_num, by norm_num⟩ (by norm_num) (by norm_num [abs_of_pos])
  exact ⟨r, h1, h3⟩

/-- **C11, violated.** An integer is a number, too, and loses its digits after the tenth one. -/
theorem integer_changed : ∃ r, ofNumber 12345678901 = some r ∧ r.val = 12345678900 := by
  obtain ⟨r, h1, _, h3⟩ := ofNumber_val 12345678901 10 (by norm_num)
  refine ⟨r, h1, ?_⟩
  rw [h3, (formatG_val 10 (by norm_num) _ (by norm_num)).1]
  have hl : Int.log 10 |(12345678901 : ℚ)| = 10 := by
    rw [abs_of_pos (by norm_num)]
    refine le_antisymm ?_ ?_
    · have := (Int.lt_zpow_iff_log_lt (b := 10) (by norm_num) (x := 11) (r := (12345678901 : ℚ)) (by norm_num)).mp (by norm_num)
      omega
    · exact (Int.zpow_le_iff_le_log (b := 10) (by norm_num) (x := 10) (r := (12345678901 : ℚ)) (by norm_num)).mp (by norm_num)
  have hm : mantissa 10 12345678901 = 1234567890 := by
    unfold mantissa
    rw [hl]
    refine near_unique _ _ ?_
    rw [abs_of_pos (by norm_num : (0 : ℚ) < 12345678901)]
    norm_num [abs_lt]
  have hs : (signOf 12345678901).factor = 1 := by rw [signOf, if_neg (by norm_num)]; rfl
  rw [hm, hl, hs]
  norm_num

end PyX.Tick
