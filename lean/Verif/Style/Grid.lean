import Verif.Style.Line

/-!
# Data on a grid: model of the styles `gridpos`, `grid` and `density`, and of the colors of `surface` (`graph/style.py:1622-1717, 1753-1758, 1915-2018`)

Dictionaries from positions to data are functions, those with an order are lists of their keys.
-/

set_option linter.unusedSectionVars false

namespace PyX.Style.Grid

variable {K : Type*} [Field K] [LinearOrder K] [IsStrictOrderedRing K] {D C : Type*}

/-- The shared data of `gridpos` (`style.py:1632-1638`); `value1` and `value2` do not exist at the beginning. -/
structure Shared (K D : Type*) where
  values1 : List K
  values2 : List K
  data12 : K → K → Option D
  data21 : K → K → Option D
  value : Option (K × K)

/-- `initdrawpoints` (`style.py:1632-1638`). -/
def Shared.init : Shared K D := ⟨[], [], fun _ _ => none, fun _ _ => none, none⟩

/-- `hasvalue - self.epsilon <= value <= hasvalue + self.epsilon` (`style.py:1646, 1653`). -/
def near (eps v h : K) : Bool := decide (h - eps ≤ v) && decide (v ≤ h + eps)

/-- The value on the grid and the values (`style.py:1644-1650` and `style.py:1651-1657`). -/
def snap (eps : K) (vals : List K) (v : K) : K × List K :=
  if v ∈ vals then (v, vals)
  else match vals.find? (near eps v) with
    | some h => (h, vals)
    | none => (v, vals ++ [v])

/-- `data.setdefault(a, {})[b] = d`. -/
def put (f : K → K → Option D) (a b : K) (d : D) : K → K → Option D := fun x y => if x = a ∧ y = b then some d else f x y

/-- `gridpos.drawpoint` (`style.py:1640-1660`); a point is `none` if its position is not available, and otherwise its two coordinates and its data. -/
def drawpoint (eps : K) (s : Shared K D) : Option (K × K × D) → Shared K D
  | none => s
  | some (v1, v2, d) =>
    let r1 := snap eps s.values1 v1
    let r2 := snap eps s.values2 v2
    ⟨r1.2, r2.2, put s.data12 r1.1 r2.1 d, put s.data21 r2.1 r1.1 d, some (r1.1, r2.1)⟩

/-- All points. -/
def points (eps : K) (pts : List (Option (K × K × D))) : Shared K D := pts.foldl (drawpoint eps) Shared.init

/-- `density.drawpoint` and `surface.drawpoint` (`style.py:1756-1758, 1927-1928`), called behind `gridpos.drawpoint`; `none`: `AttributeError`. -/
def colorpoint (s : Shared K D) (colors : K → K → Option C) (c : C) : Option (K → K → Option C) := s.value.map fun v => put colors v.1 v.2 c

/-- All points with their colors. -/
def colorsFrom (eps : K) : List (Option (K × K × D) × C) → Shared K D → (K → K → Option C) → Option (Shared K D × (K → K → Option C))
  | [], s, colors => some (s, colors)
  | (p, c) :: l, s, colors => (colorpoint (drawpoint eps s p) colors c).bind fun colors => colorsFrom eps l (drawpoint eps s p) colors

def colors (eps : K) (l : List (Option (K × K × D) × C)) : Option (Shared K D × (K → K → Option C)) := colorsFrom eps l Shared.init fun _ _ => none

/-- `values.sort()`. -/
def sorted (l : List K) : List K := l.mergeSort fun a b => decide (a ≤ b)

variable {n : ℕ} {P : Type*}

/-- The lines along the first coordinate (`style.py:1688-1701`): for every second coordinate the pieces of the path. -/
def gridlines1 (f : VPos K n → P) (eps epsPos : K) (s : Shared K (VPos K n)) : List (List (List P)) :=
  ((sorted s.values2).map fun b => line f eps epsPos ((sorted s.values1).map fun a => s.data21 b a)).filter fun p => p ≠ []

/-- The lines along the second coordinate (`style.py:1702-1715`). -/
def gridlines2 (f : VPos K n → P) (eps epsPos : K) (s : Shared K (VPos K n)) : List (List (List P)) :=
  ((sorted s.values1).map fun a => line f eps epsPos ((sorted s.values2).map fun b => s.data12 a b)).filter fun p => p ≠ []

/-! ## The style `density` -/

/-- `equidistant` (`style.py:1942-1951`); `none`: `ValueError`. -/
def equidistant (eps : K) (vals : List K) : Option Unit :=
  match vals.head?, vals.getLast? with
  | some a, some b =>
    if vals.length < 2 then none
    else if (vals.zipIdx).all fun x => !decide (eps < |x.1 - a - (x.2 : K) * (b - a) / ((vals.length - 1 : Nat) : K)|) then some () else none
  | _, _ => none

/-- The colors of the pixels in the order of the file (`style.py:1978-1995`); `color` is `_keygraphstyle.color`, `none` if it raises. -/
def pixels (values1 values2 : List K) (data12 : K → K → Option D) (cols : K → K → Option C) (color : C → Option (List UInt8)) : List (Option (List UInt8)) :=
  values2.flatMap fun b => values1.map fun a => (data12 a b).bind fun _ => (cols a b).bind color

/-- `needalpha` (`style.py:1952-1970`). -/
def needalpha (px : List (Option (List UInt8))) : Bool := px.any Option.isNone

/-- The bytes of a pixel (`style.py:1976-1997`); `bands` is the length of `mode` without alpha. -/
def pixelBytes (bands : Nat) (alpha : Bool) : Option (List UInt8) → List UInt8
  | none => List.replicate (if alpha then bands + 1 else bands) 0
  | some c => c ++ (if alpha then [255] else [])

/-- The data of the bitmap (`style.py:1974-1998`). -/
def imagedata (bands : Nat) (px : List (Option (List UInt8))) : List UInt8 := px.flatMap (pixelBytes bands (needalpha px))

/-- A transformation: matrix and vector (`trafo.trafo_pt`). -/
structure Trafo (K : Type*) where
  a : K
  b : K
  c : K
  d : K
  x : K
  y : K

def Trafo.apply (t : Trafo K) (p : K × K) : K × K := (t.a * p.1 + t.b * p.2 + t.x, t.c * p.1 + t.d * p.2 + t.y)

/-- `t.inverse().apply_pt` (`trafo.py`); `none`: the determinant is zero. -/
def Trafo.unapply (t : Trafo K) (p : K × K) : Option (K × K) :=
  let det := t.a * t.d - t.b * t.c
  if det = 0 then none else some ((t.d * (p.1 - t.x) - t.b * (p.2 - t.y)) / det, (t.a * (p.2 - t.y) - t.c * (p.1 - t.x)) / det)

/-- The transformation of the bitmap (`style.py:2000-2018`), where `f` is `vpos_pt` at fixed values of other coordinates and `v1`, `v2` are the first and the last values; `none`: an exception. -/
def bitmapTrafo (eps : K) (f : K → K → K × K) (n1 n2 : Nat) (a1 b1 a2 b2 : K) : Option (Trafo K) :=
  let e1 := (b1 - a1) * (1 / 2) / ((n1 - 1 : Nat) : K)
  let e2 := (b2 - a2) * (1 / 2) / ((n2 - 1 : Nat) : K)
  let p1 := f (a1 - e1) (b2 + e2)
  let p2 := f (b1 + e1) (b2 + e2)
  let p3 := f (a1 - e1) (a2 - e2)
  let t : Trafo K := ⟨p2.1 - p1.1, p3.1 - p1.1, p2.2 - p1.2, p3.2 - p1.2, p1.1, p1.2⟩
  (t.unapply (f (b1 + e1) (a2 - e2))).bind fun q => if eps < |q.1 - 1| ∨ eps < |q.2 - 1| then none else some t

end PyX.Style.Grid
