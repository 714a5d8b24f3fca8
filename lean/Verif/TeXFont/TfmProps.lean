import Verif.TeXFont.Tfm
import Mathlib.Tactic.Linarith
import Mathlib.Tactic.Ring

/-!
# Properties C25 (character info words) and C26 (TFM lengths in DVI units)
-/

namespace PyX.Tfm

/-! ## Specification (TFtoPL / tex.web) -/

/-- A 32 bit word read as a signed number (`readint32`). -/
def signed (u : Nat) : Int := if u < 2 ^ 31 then (u : Int) else (u : Int) - 2 ^ 32

/-- The four bytes of a word. -/
def byte (u : Nat) (i : Nat) : Nat := u / 256 ^ (3 - i) % 256

/-- The fields of a `char_info_word` as laid out in the TFM format: first byte width index; second byte height index
times 16 plus depth index; third byte italic index times 4 plus tag; fourth byte remainder. -/
def fields (u : Nat) : CharInfo where
  width := byte u 0
  height := (byte u 1 / 16 : Nat)
  depth := (byte u 1 % 16 : Nat)
  italic := (byte u 2 / 4 : Nat)
  tag := (byte u 2 % 4 : Nat)
  remainder := byte u 3

/-- TeX's `z`/`alpha` loop (tex.web, "compute the multiplier"): halve `z`, double `alpha`. -/
def texLoop : (fuel : Nat) → (z alpha : Nat) → Nat × Nat
  | 0, z, alpha => (z, alpha)
  | fuel + 1, z, alpha => if z ≥ 2 ^ 23 then texLoop fuel (z / 2) (alpha + alpha) else (z, alpha)

/-- TeX's `store_scaled` for a font of size `z` scaled points: `a b c d` are the bytes of the fix_word. -/
def storeScaled (z a b c d : Nat) : Option Int :=
  let (z, alpha) := texLoop 4 z 16
  let beta := 256 / alpha
  let sw := (((d * z) / 256 + c * z) / 256 + b * z) / beta
  if a = 0 then some sw else if a = 255 then some ((sw : Int) - ((alpha * z : Nat) : Int)) else none

/-! ## C25 -/

theorem land_signed (u m : Nat) (hu : u < 2 ^ 32) (hm : m < 2 ^ 32) :
    Int.land (signed u) (m : Int) = ((u &&& m : Nat) : Int) := by
  unfold signed
  split
  · rfl
  · rename_i h
    have e : (u : Int) - 2 ^ 32 = Int.negSucc (2 ^ 32 - (u + 1)) := by
      rw [Int.negSucc_eq]; omega
    rw [e]
    show ((Nat.ldiff m (2 ^ 32 - (u + 1)) : Nat) : Int) = _
    congr 1
    apply Nat.eq_of_testBit_eq
    intro i
    rw [Nat.testBit_ldiff, Nat.testBit_two_pow_sub_succ hu, Nat.testBit_and]
    by_cases hi : i < 32
    · simp [hi, Bool.and_comm]
    · have : m.testBit i = false := Nat.testBit_lt_two_pow (lt_of_lt_of_le hm (Nat.pow_le_pow_right (by omega) (by omega)))
      simp [this]

theorem field_eq (u k s : Nat) :
    (u &&& (2 ^ k - 1) <<< s) / 2 ^ s = u / 2 ^ s % 2 ^ k := by
  apply Nat.eq_of_testBit_eq
  intro i
  rw [Nat.testBit_div_two_pow, Nat.testBit_and, Nat.testBit_shiftLeft, Nat.testBit_mod_two_pow,
    Nat.testBit_div_two_pow, Nat.add_sub_cancel, Nat.testBit_two_pow_sub_one]
  simp [Bool.and_comm]

theorem shr_cast (n s : Nat) : shr (n : Int) s = ((n / 2 ^ s : Nat) : Int) := by
  unfold shr; push_cast; rfl

/-- C25: the fields of a character info word are the bit-fields of the format for each 32 bit word, also when the
word is read as a negative number. -/
theorem charInfo_fields (u : Nat) (hu : u < 2 ^ 32) : charInfo (signed u) = fields u := by
  have f : ∀ k s m : Nat, m = (2 ^ k - 1) <<< s → m < 2 ^ 32 →
      shr (Int.land (signed u) (m : Int)) s = ((u / 2 ^ s % 2 ^ k : Nat) : Int) := by
    intro k s m e hm
    rw [land_signed u m hu hm, shr_cast, e, field_eq]
  have h1 := f 8 24 0xFF000000 (by decide) (by decide)
  have h2 := f 4 20 0x00F00000 (by decide) (by decide)
  have h3 := f 4 16 0x000F0000 (by decide) (by decide)
  have h4 := f 6 10 0x0000FC00 (by decide) (by decide)
  have h5 := f 2 8 0x00000300 (by decide) (by decide)
  have h6 := f 8 0 0x000000FF (by decide) (by decide)
  simp only [Nat.cast_ofNat] at h1 h2 h3 h4 h5 h6
  unfold charInfo fields byte
  rw [h1, h2, h3, h4, h5]
  rw [shr, pow_zero, Int.ediv_one] at h6
  rw [h6]
  congr 1 <;> congr 1 <;> omega

example : charInfo (signed 0xFF5A37C4) = ⟨255, 5, 10, 13, 3, 196⟩ := by
  rw [charInfo_fields _ (by decide)]; decide

/-! ## C26 -/

theorem halve_texLoop (fuel z : Nat) (k : Nat) (hz : z < 2 ^ (23 + fuel)) :
    ∃ j ≤ fuel, halve z ((20 : Int) - k) = ((texLoop fuel z (16 * 2 ^ k)).1, (20 : Int) - k - j) ∧
      (texLoop fuel z (16 * 2 ^ k)).2 = 16 * 2 ^ (k + j) := by
  induction fuel generalizing z k with
  | zero =>
    refine ⟨0, le_rfl, ?_, by simp [texLoop]⟩
    rw [halve, if_neg (by omega)]; simp [texLoop]
  | succ fuel ih =>
    by_cases h : 8388608 ≤ z
    · have hz' : z / 2 < 2 ^ (23 + fuel) := by
        rw [show 23 + (fuel + 1) = 23 + fuel + 1 by omega, pow_succ] at hz; omega
      obtain ⟨j, hj, e1, e2⟩ := ih (z / 2) (k + 1) hz'
      refine ⟨j + 1, by omega, ?_, ?_⟩
      · rw [halve, if_pos h, texLoop, if_pos (by omega)]
        rw [show 16 * 2 ^ k + 16 * 2 ^ k = 16 * 2 ^ (k + 1) by ring]
        rw [show (20 : Int) - k - 1 = 20 - ((k + 1 : Nat) : Int) by push_cast; ring, e1]
        simp only [Prod.mk.injEq, true_and]; push_cast; ring
      · rw [texLoop, if_pos (by omega), show 16 * 2 ^ k + 16 * 2 ^ k = 16 * 2 ^ (k + 1) by ring, e2]
        ring
    · refine ⟨0, by omega, ?_, ?_⟩
      · rw [halve, if_neg h, texLoop, if_neg (by omega)]; simp
      · rw [texLoop, if_neg (by omega)]; simp

/-- C26: the single multiplication of the code gives the same integer as TeX's byte-wise algorithm, for each
font size below 2^27 and each fix_word with leading byte 0 or 255. -/
theorem convert_eq_tex (z a b c d : Nat) (hz : z < 2 ^ 27) (ha : a = 0 ∨ a = 255) (hb : b < 256) (hc : c < 256)
    (hd : d < 256) :
    convertTfmToDvi z (signed (a * 2 ^ 24 + b * 2 ^ 16 + c * 2 ^ 8 + d)) = storeScaled z a b c d := by
  obtain ⟨j, hj, e1, e2⟩ := halve_texLoop 4 z 0 hz
  simp only [pow_zero, mul_one, Nat.cast_zero, sub_zero, zero_add] at e1 e2
  unfold convertTfmToDvi storeScaled
  have hl : -16777216 ≤ signed (a * 2 ^ 24 + b * 2 ^ 16 + c * 2 ^ 8 + d) ∧
      signed (a * 2 ^ 24 + b * 2 ^ 16 + c * 2 ^ 8 + d) < 16777216 := by
    unfold signed; rcases ha with rfl | rfl <;> split <;> omega
  rw [if_neg (not_not_intro hl), if_neg (by omega)]
  rw [e1]
  have hp : texLoop 4 z 16 = ((texLoop 4 z 16).1, 16 * 2 ^ j) := by rw [← e2]
  rw [hp]
  generalize (texLoop 4 z 16).1 = y
  have hs : signed (a * 2 ^ 24 + b * 2 ^ 16 + c * 2 ^ 8 + d) * (y : Int) =
      if a = 0 then ((65536 * (b * y) + 256 * (c * y) + d * y : Nat) : Int)
      else ((65536 * (b * y) + 256 * (c * y) + d * y : Nat) : Int) - 16777216 * (y : Int) := by
    rcases ha with rfl | rfl
    · have : signed (0 * 2 ^ 24 + b * 2 ^ 16 + c * 2 ^ 8 + d) = 65536 * (b : Int) + 256 * c + d := by
        unfold signed; rw [if_pos (by omega)]; push_cast; ring
      rw [this, if_pos rfl]; push_cast; ring
    · have : signed (255 * 2 ^ 24 + b * 2 ^ 16 + c * 2 ^ 8 + d) = 65536 * (b : Int) + 256 * c + d - 16777216 := by
        unfold signed; rw [if_neg (by omega)]; push_cast; ring
      rw [this, if_neg (by omega)]; push_cast; ring
  simp only [hs]
  generalize b * y = B
  generalize c * y = C
  generalize d * y = D
  have hj5 : j = 0 ∨ j = 1 ∨ j = 2 ∨ j = 3 ∨ j = 4 := by omega
  unfold shr
  rcases ha with rfl | rfl
  · rcases hj5 with rfl | rfl | rfl | rfl | rfl <;> simp <;> omega
  · rcases hj5 with rfl | rfl | rfl | rfl | rfl <;> simp <;> omega

/-- C26: other leading bytes (lengths of 16 design sizes and more) are rejected, as TeX does. -/
theorem convert_rejects (z u : Nat) (hu : u < 2 ^ 32) (h : u / 2 ^ 24 ≠ 0) (h' : u / 2 ^ 24 ≠ 255) :
    convertTfmToDvi z (signed u) = none := by
  unfold convertTfmToDvi
  rw [if_pos]
  unfold signed; split <;> omega

example : convertTfmToDvi 655360 (signed 0xFFF00000) = some (-655360) := by
  rw [show 0xFFF00000 = 255 * 2 ^ 24 + 240 * 2 ^ 16 + 0 * 2 ^ 8 + 0 by rfl,
    convert_eq_tex _ _ _ _ _ (by decide) (by decide) (by decide) (by decide) (by decide)]; decide

end PyX.Tfm
