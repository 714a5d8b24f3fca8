import Mathlib.Analysis.SpecialFunctions.Trigonometric.Inverse
import Mathlib.Analysis.SpecialFunctions.Pow.Real

/-!
# Real roots of polynomials (`pyx/mathutils.py:49-137`)

Floating point numbers are real numbers; in particular the discriminants are exact.
-/

namespace PyX.Roots

noncomputable section

open Classical in
/-- `_realroots_quadratic` (`mathutils.py:49-55`): `x² + a1 x + a0`. -/
def quadratic (a1 a0 : ℝ) : List ℝ :=
  if a1 * a1 - 4 * a0 < 0 then []
  else [1 / 2 * (-a1 + √(a1 * a1 - 4 * a0)), 1 / 2 * (-a1 - √(a1 * a1 - 4 * a0))]

/-- `Q` (`mathutils.py:62`). -/
def cubicQ (a2 a1 : ℝ) : ℝ := (3 * a1 - a2 * a2) / 9

/-- `R` (`mathutils.py:63`). -/
def cubicR (a2 a1 a0 : ℝ) : ℝ := (9 * a2 * a1 - 27 * a0 - 2 * a2 * a2 * a2) / 54

/-- `D` (`mathutils.py:64`). -/
def cubicD (a2 a1 a0 : ℝ) : ℝ := cubicQ a2 a1 * cubicQ a2 a1 * cubicQ a2 a1 + cubicR a2 a1 a0 * cubicR a2 a1 a0

open Classical in
/-- The real cube root as computed by `mathutils.py:68-75`. -/
def cbrt (x : ℝ) : ℝ := if 0 ≤ x then x ^ (1 / 3 : ℝ) else -(-x) ^ (1 / 3 : ℝ)

open Classical in
/-- `theta` (`mathutils.py:84-90`). -/
def theta (arg : ℝ) : ℝ := if 1 ≤ arg then 0 else if arg ≤ -1 then Real.pi else Real.arccos arg

open Classical in
/-- `_realroots_cubic` (`mathutils.py:58-91`): `x³ + a2 x² + a1 x + a0`. -/
def cubic (a2 a1 a0 : ℝ) : List ℝ :=
  if 0 < cubicD a2 a1 a0 then
    [cbrt (cubicR a2 a1 a0 + √(cubicD a2 a1 a0)) + cbrt (cubicR a2 a1 a0 - √(cubicD a2 a1 a0)) - a2 / 3]
  else if cubicD a2 a1 a0 = 0 then
    if cubicQ a2 a1 = 0 then [-a2 / 3]
    else [2 * -√(-cubicQ a2 a1) - a2 / 3, -(-√(-cubicQ a2 a1)) - a2 / 3]
  else [0, 1, 2].map fun i : ℝ =>
    2 * √(-cubicQ a2 a1) * Real.cos ((theta (cubicR a2 a1 a0 / √(-cubicQ a2 a1) ^ 3) + 2 * 2 * i * Real.pi) / 3) - a2 / 3

/-- The least element of a list (`min`, `mathutils.py:101`). -/
def leastOf (y : ℝ) (ys : List ℝ) : ℝ := ys.foldl min y

open Classical in
/-- The two quadratic factors (`mathutils.py:102-107`). -/
def factors (a3 a2 a1 a0 y1 : ℝ) : List ℝ :=
  if a3 * y1 - 2 * a1 < 0 then
    quadratic (1 / 2 * (a3 + √(a3 * a3 - 4 * a2 + 4 * y1))) (1 / 2 * (y1 - √(y1 * y1 - 4 * a0))) ++
      quadratic (1 / 2 * (a3 - √(a3 * a3 - 4 * a2 + 4 * y1))) (1 / 2 * (y1 + √(y1 * y1 - 4 * a0)))
  else
    quadratic (1 / 2 * (a3 + √(a3 * a3 - 4 * a2 + 4 * y1))) (1 / 2 * (y1 + √(y1 * y1 - 4 * a0))) ++
      quadratic (1 / 2 * (a3 - √(a3 * a3 - 4 * a2 + 4 * y1))) (1 / 2 * (y1 - √(y1 * y1 - 4 * a0)))

open Classical in
/-- The usable roots of the resolvent (`mathutils.py:97-98`). -/
def resolvents (a3 a2 a1 a0 : ℝ) : List ℝ :=
  (cubic (-a2) (a1 * a3 - 4 * a0) (4 * a0 * a2 - a1 * a1 - a0 * a3 * a3)).filter fun y =>
    0 ≤ a3 * a3 - 4 * a2 + 4 * y ∧ 0 ≤ y * y - 4 * a0

/-- `_realroots_quartic` (`mathutils.py:94-107`): `x⁴ + a3 x³ + a2 x² + a1 x + a0`. -/
def quartic (a3 a2 a1 a0 : ℝ) : List ℝ :=
  match resolvents a3 a2 a1 a0 with
  | [] => []
  | y :: ys => factors a3 a2 a1 a0 (leastOf y ys)

/-- The roots of a polynomial whose leading coefficient is one (`mathutils.py:120-137`); `none` is the `RuntimeError`. -/
def monic : List ℝ → Option (List ℝ)
  | [] => some []
  | [a0] => some [-a0]
  | [a1, a0] => some (quadratic a1 a0)
  | [a2, a1, a0] => some (cubic a2 a1 a0)
  | [a3, a2, a1, a0] => some (quartic a3 a2 a1 a0)
  | _ => none

open Classical in
/-- `realpolyroots` (`mathutils.py:110-137`): a vanishing leading coefficient raises `ZeroDivisionError`, which drops it. -/
def realpolyroots : List ℝ → Option (List ℝ)
  | [] => some [0]
  | c :: cs => if c = 0 then realpolyroots cs else monic (cs.map fun a => 1 / c * a)

/-! ## Specification -/

/-- The value of the polynomial: `Σ cs[i] x^(len(cs) - i - 1)`. -/
def eval : List ℝ → ℝ → ℝ
  | [], _ => 0
  | c :: cs, x => c * x ^ cs.length + eval cs x

end

end PyX.Roots
