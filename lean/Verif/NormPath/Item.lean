import Verif.BBox.Model
import Mathlib.Analysis.SpecialFunctions.Complex.Arg

/-!
# Model of the items of normalised sub-paths (`pyx/normpath.py:158-780`)

Coordinates are in points and elements of a field (ℝ where a square root or an angle occurs).
Methods taking a list of parameters are given for a list where the elements interact, and for a single parameter
where the code just maps over the list.
-/

namespace PyX.NormPath

/-- `normline_pt` (`normpath.py:158-168`). -/
@[ext]
structure Line (K : Type*) where
  x0 : K
  y0 : K
  x1 : K
  y1 : K
deriving DecidableEq, Repr

/-- `normcurve_pt` (`normpath.py:365-379`). -/
@[ext]
structure Curve (K : Type*) where
  x0 : K
  y0 : K
  x1 : K
  y1 : K
  x2 : K
  y2 : K
  x3 : K
  y3 : K
deriving DecidableEq, Repr

section field
variable {K : Type*} [Field K]

namespace Line

/-- `normline_pt.at_pt` (`normpath.py:185-187`). -/
def at_ (l : Line K) (t : K) : K × K := (l.x0 + (l.x1 - l.x0) * t, l.y0 + (l.y1 - l.y0) * t)

/-- `atbegin_pt`, `atend_pt` (`normpath.py:189-193`). -/
def begin_ (l : Line K) : K × K := (l.x0, l.y0)
def end_ (l : Line K) : K × K := (l.x1, l.y1)

/-- `bbox` and `cbox` (`normpath.py:195-199`). -/
def bbox [LinearOrder K] (l : Line K) : BBox K := some ⟨min l.x0 l.x1, min l.y0 l.y1, max l.x0 l.x1, max l.y0 l.y1⟩

/-- `modifiedbegin_pt`, `modifiedend_pt` (`normpath.py:310-314`). -/
def modifiedbegin (l : Line K) (x y : K) : Line K := ⟨x, y, l.x1, l.y1⟩
def modifiedend (l : Line K) (x y : K) : Line K := ⟨l.x0, l.y0, x, y⟩

/-- `reversed` (`normpath.py:325-326`). -/
def reversed (l : Line K) : Line K := ⟨l.x1, l.y1, l.x0, l.y0⟩

/-- `transformed` (`normpath.py:350-351`). -/
def transformed (l : Line K) (t : Trafo K) : Line K :=
  ⟨(t.apply (l.x0, l.y0)).1, (t.apply (l.x0, l.y0)).2, (t.apply (l.x1, l.y1)).1, (t.apply (l.x1, l.y1)).2⟩

/-- The loop of `segments` (`normpath.py:335-342`): `last` is the point of the previous parameter. -/
def segmentsFrom (l : Line K) (last : K × K) : List K → List (Line K)
  | [] => []
  | t :: ts => ⟨last.1, last.2, (l.at_ t).1, (l.at_ t).2⟩ :: segmentsFrom l (l.at_ t) ts

/-- `segments` (`normpath.py:331-343`); `ValueError` for less than two parameters is `none`. -/
def segments (l : Line K) : List K → Option (List (Line K))
  | t :: t' :: ts => some (l.segmentsFrom (l.at_ t) (t' :: ts))
  | _ => none

end Line

namespace Curve

/-- `normcurve_pt.at_pt` (`normpath.py:508-517`). -/
def at_ (c : Curve K) (t : K) : K × K :=
  ((-c.x0 + 3 * c.x1 - 3 * c.x2 + c.x3) * t * t * t + (3 * c.x0 - 6 * c.x1 + 3 * c.x2) * t * t +
    (-3 * c.x0 + 3 * c.x1) * t + c.x0,
   (-c.y0 + 3 * c.y1 - 3 * c.y2 + c.y3) * t * t * t + (3 * c.y0 - 6 * c.y1 + 3 * c.y2) * t * t +
    (-3 * c.y0 + 3 * c.y1) * t + c.y0)

/-- `atbegin_pt`, `atend_pt` (`normpath.py:519-523`). -/
def begin_ (c : Curve K) : K × K := (c.x0, c.y0)
def end_ (c : Curve K) : K × K := (c.x3, c.y3)

/-- The tangent computed in `rotation` (`normpath.py:600-605`). -/
def tangent (c : Curve K) (t : K) : K × K :=
  (3 * (-c.x0 + 3 * c.x1 - 3 * c.x2 + c.x3) * t * t + 2 * (3 * c.x0 - 6 * c.x1 + 3 * c.x2) * t +
    (-3 * c.x0 + 3 * c.x1),
   3 * (-c.y0 + 3 * c.y1 - 3 * c.y2 + c.y3) * t * t + 2 * (3 * c.y0 - 6 * c.y1 + 3 * c.y2) * t +
    (-3 * c.y0 + 3 * c.y1))

/-- The derivatives computed in `curvature_pt` (`normpath.py:544-553`). -/
def dot (c : Curve K) (t : K) : K × K :=
  (3 * (1 - t) * (1 - t) * (-c.x0 + c.x1) + 6 * (1 - t) * t * (-c.x1 + c.x2) + 3 * t * t * (-c.x2 + c.x3),
   3 * (1 - t) * (1 - t) * (-c.y0 + c.y1) + 6 * (1 - t) * t * (-c.y1 + c.y2) + 3 * t * t * (-c.y2 + c.y3))
def ddot (c : Curve K) (t : K) : K × K :=
  (6 * (1 - t) * (c.x0 - 2 * c.x1 + c.x2) + 6 * t * (c.x1 - 2 * c.x2 + c.x3),
   6 * (1 - t) * (c.y0 - 2 * c.y1 + c.y2) + 6 * t * (c.y1 - 2 * c.y2 + c.y3))

/-- `x_pt`, `y_pt` (`normpath.py:686-689, 701-704`). -/
def xy (c : Curve K) (t : K) : K × K :=
  ((((c.x3 - 3 * c.x2 + 3 * c.x1 - c.x0) * t + 3 * c.x0 - 6 * c.x1 + 3 * c.x2) * t + 3 * c.x1 - 3 * c.x0) * t + c.x0,
   (((c.y3 - 3 * c.y2 + 3 * c.y1 - c.y0) * t + 3 * c.y0 - 6 * c.y1 + 3 * c.y2) * t + 3 * c.y1 - 3 * c.y0) * t + c.y0)

/-- `xdot_pt`, `ydot_pt` (`normpath.py:691-693, 706-708`). -/
def xydot (c : Curve K) (t : K) : K × K :=
  (((3 * c.x3 - 9 * c.x2 + 9 * c.x1 - 3 * c.x0) * t + 6 * c.x0 - 12 * c.x1 + 6 * c.x2) * t + 3 * c.x1 - 3 * c.x0,
   ((3 * c.y3 - 9 * c.y2 + 9 * c.y1 - 3 * c.y0) * t + 6 * c.y0 - 12 * c.y1 + 6 * c.y2) * t + 3 * c.y1 - 3 * c.y0)

/-- `xddot_pt`, `yddot_pt` (`normpath.py:695-696, 710-711`). -/
def xyddot (c : Curve K) (t : K) : K × K :=
  ((6 * c.x3 - 18 * c.x2 + 18 * c.x1 - 6 * c.x0) * t + 6 * c.x0 - 12 * c.x1 + 6 * c.x2,
   (6 * c.y3 - 18 * c.y2 + 18 * c.y1 - 6 * c.y0) * t + 6 * c.y0 - 12 * c.y1 + 6 * c.y2)

/-- `_split` without epsilon (`normpath.py:385-486`). -/
def split (c : Curve K) (t : K) : Curve K × Curve K :=
  let s := 1 - t
  let x01 := s * c.x0 + t * c.x1
  let y01 := s * c.y0 + t * c.y1
  let x12 := s * c.x1 + t * c.x2
  let y12 := s * c.y1 + t * c.y2
  let x23 := s * c.x2 + t * c.x3
  let y23 := s * c.y2 + t * c.y3
  let x01_12 := s * x01 + t * x12
  let y01_12 := s * y01 + t * y12
  let x12_23 := s * x12 + t * x23
  let y12_23 := s * y12 + t * y23
  let xm := s * x01_12 + t * x12_23
  let ym := s * y01_12 + t * y12_23
  (⟨c.x0, c.y0, x01, y01, x01_12, y01_12, xm, ym⟩, ⟨xm, ym, x12_23, y12_23, x23, y23, c.x3, c.y3⟩)

/-- One coordinate of a segment (`normpath.py:616-623, 649-656`): the four control values of the part from `t1`
to `t1+dt`. -/
def segCoord (x0 x1 x2 x3 t1 dt : K) : K × K × K × K :=
  let a0 := x0
  let a1 := 3 * (-x0 + x1)
  let a2 := 3 * (x0 - 2 * x1 + x2)
  let a3 := -x0 + 3 * (x1 - x2) + x3
  let n0 := a0 + a1 * t1 + a2 * t1 * t1 + a3 * t1 * t1 * t1
  let n1 := (a1 + 2 * a2 * t1 + 3 * a3 * t1 * t1) * dt / 3 + n0
  let n2 := (a2 + 3 * a3 * t1) * dt * dt / 3 - n0 + 2 * n1
  let n3 := a3 * dt * dt * dt + n0 - 3 * n1 + 3 * n2
  (n0, n1, n2, n3)

/-- One turn of the loop of `segments` (`normpath.py:627-658`). -/
def segment (c : Curve K) (t1 t2 : K) : Curve K :=
  let x := segCoord c.x0 c.x1 c.x2 c.x3 t1 (t2 - t1)
  let y := segCoord c.y0 c.y1 c.y2 c.y3 t1 (t2 - t1)
  ⟨x.1, y.1, x.2.1, y.2.1, x.2.2.1, y.2.2.1, x.2.2.2, y.2.2.2⟩

/-- The loop of `segments` (`normpath.py:625-658`). -/
def segmentsFrom (c : Curve K) (t : K) : List K → List (Curve K)
  | [] => []
  | t' :: ts => c.segment t t' :: segmentsFrom c t' ts

/-- `segments` (`normpath.py:609-660`). -/
def segments (c : Curve K) : List K → Option (List (Curve K))
  | t :: t' :: ts => some (c.segmentsFrom t (t' :: ts))
  | _ => none

/-- `modifiedbegin_pt`, `modifiedend_pt` (`normpath.py:572-582`). -/
def modifiedbegin (c : Curve K) (x y : K) : Curve K := ⟨x, y, c.x1, c.y1, c.x2, c.y2, c.x3, c.y3⟩
def modifiedend (c : Curve K) (x y : K) : Curve K := ⟨c.x0, c.y0, c.x1, c.y1, c.x2, c.y2, x, y⟩

/-- `reversed` (`normpath.py:594-595`). -/
def reversed (c : Curve K) : Curve K := ⟨c.x3, c.y3, c.x2, c.y2, c.x1, c.y1, c.x0, c.y0⟩

/-- `transformed` (`normpath.py:668-673`). -/
def transformed (c : Curve K) (t : Trafo K) : Curve K :=
  let p0 := t.apply (c.x0, c.y0)
  let p1 := t.apply (c.x1, c.y1)
  let p2 := t.apply (c.x2, c.y2)
  let p3 := t.apply (c.x3, c.y3)
  ⟨p0.1, p0.2, p1.1, p1.2, p2.1, p2.2, p3.1, p3.2⟩

/-- `cbox` (`normpath.py:531-535`). -/
def cbox [LinearOrder K] (c : Curve K) : BBox K :=
  some ⟨min (min (min c.x0 c.x1) c.x2) c.x3, min (min (min c.y0 c.y1) c.y2) c.y3,
    max (max (max c.x0 c.x1) c.x2) c.x3, max (max (max c.y0 c.y1) c.y2) c.y3⟩

end Curve

/-- A `normsubpathitem`. -/
inductive Item (K : Type*)
  | line (l : Line K)
  | curve (c : Curve K)
deriving DecidableEq, Repr

namespace Item

def at_ : Item K → K → K × K
  | .line l => l.at_
  | .curve c => c.at_

def begin_ : Item K → K × K
  | .line l => l.begin_
  | .curve c => c.begin_

def end_ : Item K → K × K
  | .line l => l.end_
  | .curve c => c.end_

def modifiedbegin (x y : K) : Item K → Item K
  | .line l => .line (l.modifiedbegin x y)
  | .curve c => .curve (c.modifiedbegin x y)

def modifiedend (x y : K) : Item K → Item K
  | .line l => .line (l.modifiedend x y)
  | .curve c => .curve (c.modifiedend x y)

def reversed : Item K → Item K
  | .line l => .line l.reversed
  | .curve c => .curve c.reversed

def transformed (t : Trafo K) : Item K → Item K
  | .line l => .line (l.transformed t)
  | .curve c => .curve (c.transformed t)

def segments (ts : List K) : Item K → Option (List (Item K))
  | .line l => (l.segments ts).map (List.map .line)
  | .curve c => (c.segments ts).map (List.map .curve)

end Item

end field

/-! ## Over the reals -/

noncomputable section

/-- `math.hypot`. -/
def hypot (x y : ℝ) : ℝ := Real.sqrt (x ^ 2 + y ^ 2)

/-- `math.atan2(y, x)`: the argument of the complex number (0 for 0, as in Python). -/
def atan2 (y x : ℝ) : ℝ := Complex.arg ⟨x, y⟩

/-- `math.degrees`. -/
def degrees (x : ℝ) : ℝ := x * 180 / Real.pi

/-- `rotation` of a line (`normpath.py:328-329`) and of a curve (`normpath.py:597-607`). -/
def Item.rotation (i : Item ℝ) (t : ℝ) : Option (Trafo ℝ) :=
  match i with
  | .line l => Trafo.rotate (degrees (atan2 (l.y1 - l.y0) (l.x1 - l.x0))) none none
  | .curve c => Trafo.rotate (degrees (atan2 (c.tangent t).2 (c.tangent t).1)) none none

/-- `trafo` (`normpath.py:345-348, 662-666`). -/
def Item.trafo (i : Item ℝ) (t : ℝ) : Option (Trafo ℝ) :=
  (i.rotation t).map fun r => Trafo.mul (Trafo.translate (i.at_ t).1 (i.at_ t).2) r

/-- `curvature_pt` (`normpath.py:201-202, 537-557`); `ZeroDivisionError` is `none`. -/
def Item.curvature (i : Item ℝ) (t : ℝ) : Option ℝ :=
  match i with
  | .line _ => some 0
  | .curve c =>
    let h := hypot (c.dot t).1 (c.dot t).2
    if h = 0 then none else some (((c.dot t).1 * (c.ddot t).2 - (c.dot t).2 * (c.ddot t).1) / h ^ 3)

/-- The parameters of `_bezierpolyrange` (`path.py:45-65`). -/
def bezierParams (x0 x1 x2 x3 : ℝ) : List ℝ :=
  let a := x3 - 3 * x2 + 3 * x1 - x0
  let b := 2 * x0 - 4 * x1 + 2 * x2
  let c := x1 - x0
  let s := b * b - 4 * a * c
  [0, 1] ++
    if s ≥ 0 then
      let q := if b ≥ 0 then -(1 / 2) * (b + Real.sqrt s) else -(1 / 2) * (b - Real.sqrt s)
      (if (0 < q ∧ q < a) ∨ (a < q ∧ q < 0) then [q / a] else []) ++
      (if (0 < c ∧ c < q) ∨ (q < c ∧ c < 0) then [c / q] else [])
    else []

/-- The values of `_bezierpolyrange` (`path.py:67`). -/
def bezierValue (x0 x1 x2 x3 t : ℝ) : ℝ :=
  let a := x3 - 3 * x2 + 3 * x1 - x0
  let b := 2 * x0 - 4 * x1 + 2 * x2
  let c := x1 - x0
  ((a * t + 3 / 2 * b) * t + 3 * c) * t + x0

/-- `_bezierpolyrange` (`path.py:45-69`). -/
def bezierpolyrange (x0 x1 x2 x3 : ℝ) : ℝ × ℝ :=
  let p := (bezierParams x0 x1 x2 x3).map (bezierValue x0 x1 x2 x3)
  (p.foldl min (bezierValue x0 x1 x2 x3 0), p.foldl max (bezierValue x0 x1 x2 x3 0))

/-- `normcurve_pt.bbox` (`normpath.py:525-529`). -/
def Curve.bbox (c : Curve ℝ) : BBox ℝ :=
  let x := bezierpolyrange c.x0 c.x1 c.x2 c.x3
  let y := bezierpolyrange c.y0 c.y1 c.y2 c.y3
  some ⟨x.1, y.1, x.2, y.2⟩

/-- `bbox` of an item. -/
def Item.bbox : Item ℝ → BBox ℝ
  | .line l => l.bbox
  | .curve c => c.bbox

end

end PyX.NormPath
