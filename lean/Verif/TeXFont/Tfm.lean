import Mathlib.Data.Int.Bitwise

/-!
# Model of TFM character data (`pyx/dvi/tfmfile.py:26-34`, `pyx/dvi/texfont.py:69-96`)

Python integers are `Int`; Python's `&` is `Int.land` (two's complement with unlimited sign extension)
and `>>` is floor division by a power of two.
-/

namespace PyX.Tfm

/-- `x >> n` of Python. -/
def shr (x : Int) (n : Nat) : Int := x / 2 ^ n

/-- The fields of `char_info_word`. -/
structure CharInfo where
  width : Int
  height : Int
  depth : Int
  italic : Int
  tag : Int
  remainder : Int
deriving DecidableEq, Repr

/-- `char_info_word.__init__` (`pyx/dvi/tfmfile.py:28-34`). -/
def charInfo (word : Int) : CharInfo where
  width := shr (Int.land word 0xFF000000) 24
  height := shr (Int.land word 0x00F00000) 20
  depth := shr (Int.land word 0x000F0000) 16
  italic := shr (Int.land word 0x0000FC00) 10
  tag := shr (Int.land word 0x00000300) 8
  remainder := Int.land word 0x000000FF

/-- The `while z >= 8388608` loop (`pyx/dvi/texfont.py:92-94`). -/
def halve (z : Nat) (shift : Int) : Nat × Int :=
  if 8388608 ≤ z then halve (z / 2) (shift - 1) else (z, shift)
termination_by z

/-- `_convert_tfm_to_dvi` (`pyx/dvi/texfont.py:88-96`) for a given `z = int(round(self.q*self.tfmconv))`,
which is non-negative for a font of non-negative size. A failing assertion is `none`; so is a negative shift count
(`ValueError`). -/
def convertTfmToDvi (z : Nat) (length : Int) : Option Int :=
  if ¬ (-16777216 ≤ length ∧ length < 16777216) then none
  else if ¬ z < 134217728 then none
  else
    let (z, shift) := halve z 20
    if shift < 0 then none else some (shr (length * z) shift.toNat)

end PyX.Tfm
