import Mathlib.Tactic.Ring
import Mathlib.Tactic.FieldSimp
import Mathlib.Tactic.Linarith
import Mathlib.Algebra.Order.Field.Basic
import Mathlib.Analysis.SpecialFunctions.Trigonometric.Basic

/-!
# Model of `pyx/trafo.py`

Numbers: elements of a field `K` (Python floats without rounding); rotations and mirrors over `ℝ`.
Lengths are in points; the `unit.topt` conversions of the non-`_pt` constructors are modelled by
a parameter `topt` where they matter (`slant`).
-/

namespace PyX

/-- An affine transformation, `trafo_pt.__init__` (`pyx/trafo.py:62-66`): `matrix = ((a, b), (c, d))`,
`vector = (e, f)`. -/
@[ext]
structure Trafo (K : Type*) where
  a : K
  b : K
  c : K
  d : K
  e : K
  f : K
deriving DecidableEq, Repr

namespace Trafo
variable {K : Type*}

/-- `identity` / default constructor arguments (`pyx/trafo.py:62,176`). -/
def one [Zero K] [One K] : Trafo K := ⟨1, 0, 0, 1, 0, 0⟩

/-- `trafo_pt.__mul__` for two transformations (`pyx/trafo.py:68-87`). -/
def mul [Add K] [Mul K] (s o : Trafo K) : Trafo K :=
  { a := s.a * o.a + s.b * o.c
    b := s.a * o.b + s.b * o.d
    c := s.c * o.a + s.d * o.c
    d := s.c * o.b + s.d * o.d
    e := s.a * o.e + s.b * o.f + s.e
    f := s.c * o.e + s.d * o.f + s.f }

/-- `trafo_pt.apply_pt` (`pyx/trafo.py:116-119`). -/
def apply [Add K] [Mul K] (t : Trafo K) (p : K × K) : K × K :=
  (t.a * p.1 + t.b * p.2 + t.e, t.c * p.1 + t.d * p.2 + t.f)

/-- `det` as computed in `trafo_pt.inverse` (`pyx/trafo.py:130`). -/
def det [Sub K] [Mul K] (t : Trafo K) : K := t.a * t.d - t.b * t.c

/-- `translate_pt` (`pyx/trafo.py:245-247`). -/
def translate [Zero K] [One K] (x y : K) : Trafo K := ⟨1, 0, 0, 1, x, y⟩

/-- `trafo_pt.inverse` (`pyx/trafo.py:129-134`).  Division by a zero determinant raises
`ZeroDivisionError`, modelled by `none`. -/
def inverse [Field K] [DecidableEq K] (t : Trafo K) : Option (Trafo K) :=
  let det := t.det
  if det = 0 then none
  else some (mul ⟨t.d / det, -t.b / det, -t.c / det, t.a / det, 0, 0⟩ (translate (-t.e) (-t.f)))

/-- `scale_pt.__init__` (`pyx/trafo.py:205-214`); `sy` and the centre `(x, y)` are optional; giving
only one of `x`, `y` raises (modelled by `none`). -/
def scale [Ring K] (sx : K) (sy : Option K) (x y : Option K) : Option (Trafo K) :=
  let sy := sy.getD sx
  match x, y with
  | none, none => some ⟨sx, 0, 0, sy, 0, 0⟩
  | some x, some y => some ⟨sx, 0, 0, sy, (1 - sx) * x, (1 - sy) * y⟩
  | _, _ => none

/-- The arguments written by `processSVGattrs` (`pyx/trafo.py:109-114`), read as a `matrix(a,b,c,d,e,f)`
of the SVG specification, i.e. the map `(x, y) ↦ (a x + c y + e, b x + d y + f)`. -/
def svgAttr [Neg K] (t : Trafo K) : Trafo K :=
  -- written: matrix(m00, -m10, -m01, m11, v0, -v1)
  { a := t.a, c := -t.c, b := -t.b, d := t.d, e := t.e, f := -t.f }

/-- The six numbers written by `processPS`/`processPDF` (`pyx/trafo.py:97-107`), read as a PostScript /
PDF matrix `[A B C D E F]`, i.e. the map `(x, y) ↦ (A x + C y + E, B x + D y + F)`. -/
def psNumbers (t : Trafo K) : List K := [t.a, t.c, t.b, t.d, t.e, t.f]

open Real in
/-- `phi = math.pi*angle/180.0` (`pyx/trafo.py:29`). -/
noncomputable def phi (angle : ℝ) : ℝ := π * angle / 180

open Real in
/-- `rotate_pt.__init__` with `_rmatrix` and `_rvector` (`pyx/trafo.py:28-38, 183-191`).
Giving only one of `x`, `y` raises. -/
noncomputable def rotate (angle : ℝ) (x y : Option ℝ) : Option (Trafo ℝ) :=
  let p := phi angle
  match x, y with
  | none, none => some ⟨cos p, -sin p, sin p, cos p, 0, 0⟩
  | some x, some y => some ⟨cos p, -sin p, sin p, cos p,
      (1 - cos p) * x + sin p * y, -sin p * x + (1 - cos p) * y⟩
  | _, _ => none

open Real in
/-- `mirror.__init__` with `_mmatrix` (`pyx/trafo.py:41-47, 178-180`). -/
noncomputable def mirror (angle : ℝ) : Trafo ℝ :=
  let p := phi angle
  ⟨cos p * cos p - sin p * sin p, -2 * sin p * cos p,
   -2 * sin p * cos p, sin p * sin p - cos p * cos p, 0, 0⟩

/-- `slant_pt.__init__` (`pyx/trafo.py:229-234`): rotation, shear and inverse rotation. -/
noncomputable def slantPt (s angle : ℝ) (x y : Option ℝ) : Option (Trafo ℝ) := do
  let r₁ ← rotate (-angle) x y
  let r₂ ← rotate angle x y
  some (mul (mul r₁ ⟨1, s, 0, 1, 0, 0⟩) r₂)

/-- `slant.__init__` (`pyx/trafo.py:237-242`): as `slantPt` with the centre converted to points by
`rotate` (l. 200); the vector of the product is then handed to `trafo.__init__`, which applies `topt`
once more (l. 168-170). `topt` is the conversion of a number in user units to points. -/
noncomputable def slant (topt : ℝ → ℝ) (s angle : ℝ) (x y : Option ℝ) : Option (Trafo ℝ) := do
  let t ← slantPt s angle (x.map topt) (y.map topt)
  some { t with e := topt t.e, f := topt t.f }

/-- The transforming methods that can be chained on a transformation (`pyx/trafo.py:136-161`). -/
inductive Step (K : Type*) where
  /-- `scaled_pt(sx, sy)` -/
  | scaled (sx sy : K)
  /-- `translated_pt(x, y)` -/
  | translated (x y : K)
  /-- any other method: multiplies by some transformation (`rotated`, `mirrored`, `slanted`) -/
  | by (t : Trafo K)

/-- The transformation a step multiplies with. -/
def Step.trafo [Zero K] [One K] : Step K → Trafo K
  | .scaled sx sy => ⟨sx, 0, 0, sy, 0, 0⟩
  | .translated x y => translate x y
  | .by t => t

/-- `t.scaled(...)`, `t.translated(...)`, ...: `new * self` (`pyx/trafo.py:136-161`). -/
def step [Zero K] [One K] [Add K] [Mul K] (t : Trafo K) (s : Step K) : Trafo K := mul s.trafo t

end Trafo
end PyX
