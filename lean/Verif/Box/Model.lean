import Mathlib.Analysis.SpecialFunctions.Pow.Real
import Verif.BBox.Model

/-!
# Model of `pyx/box.py`

Convex boxes with a center.  Coordinates are in points and real numbers replace floats; the wrappers
without `_pt` only convert units.  A polygon is changed in place in Python; here the new polygon is
returned.  `self.center` is never `None` after `__init__` (`pyx/box.py:36-47`).
`path(centerradius=…)` and the removed smoothing parameters are not modelled.
-/

set_option linter.unusedSectionVars false

namespace PyX.Box

noncomputable section

/-- A point or a vector in points. -/
abbrev Pt := ℝ × ℝ

/-- Errors raised by the modelled functions. -/
inductive Err
  /-- `ZeroDivisionError` -/
  | zeroDivision
  /-- `TypeError`: `translate_pt(*None)` after `circlealignpointvector_pt` returned `None` -/
  | typeError
  /-- `BoxCrossError` (`pyx/box.py:32`) -/
  | boxCross
  /-- `IndexError`/`ValueError` for a polygon without corners or an empty list of polygons -/
  | noCorners

/-- `math.hypot`. -/
def hypot (x y : ℝ) : ℝ := Real.sqrt (x * x + y * y)

/-- `polygon_pt` (`pyx/box.py:34-40`). -/
structure Polygon where
  corners : List Pt
  center : Pt

/-- `polygon_pt.__init__` and `_ensurecenter` (`pyx/box.py:36-47`). -/
def mkPolygon (corners : List Pt) (center : Option Pt) : Except Err Polygon :=
  match center with
  | some c => .ok ⟨corners, c⟩
  | none =>
    if corners.length = 0 then .error .zeroDivision
    else
      let s := corners.foldl (fun s p => (s.1 + p.1, s.2 + p.2)) (0, 0)
      .ok ⟨corners, (s.1 / corners.length, s.2 / corners.length)⟩

/-- `rect_pt.__init__` (`pyx/box.py:306-318`). -/
def rect (x y width height : ℝ) (relcenter abscenter : Pt) : Polygon :=
  ⟨[(x, y), (x + width, y), (x + width, y + height), (x, y + height)],
   (x + relcenter.1 * width + abscenter.1, y + relcenter.2 * height + abscenter.2)⟩

/-- `trafo.apply_pt` of a `trafo` as used here. -/
abbrev Apply := Pt → Pt

/-- `trafo.translate_pt(x, y).apply_pt` (the general transformations are in `Verif.Trafo`). -/
def translate (v : Pt) : Apply := fun p => (p.1 + v.1, p.2 + v.2)

/-- `polygon_pt.transform` (`pyx/box.py:63-67`). -/
def transform (P : Polygon) (trafos : List Apply) (keepAnchor : Bool := false) : Polygon :=
  trafos.foldl (fun P t => ⟨P.corners.map t, if keepAnchor then P.center else t P.center⟩) P

/-- `polygon_pt.reltransform` (`pyx/box.py:69-74`). -/
def reltransform (P : Polygon) (trafos : List Apply) : Polygon :=
  transform P (translate (-P.center.1, -P.center.2) :: trafos ++ [translate (P.center.1, P.center.2)])

/-- Corner number `i` (`self.corners[i]`). -/
def pt (P : Polygon) (i : ℕ) : Pt := P.corners.getD i (0, 0)

/-- First component of `successivepointnumbers` (`pyx/box.py:76-77`): the predecessor of corner `i`. -/
def prev (n i : ℕ) : ℕ := if i = 0 then n - 1 else i - 1

/-- `polygon_pt.successivepoints` (`pyx/box.py:79-80`). -/
def edges (P : Polygon) : List (Pt × Pt) :=
  (List.range P.corners.length).map fun i => (pt P (prev P.corners.length i), pt P i)

/-- Return value of the two `…alignlinevector_pt` methods: `None`, `0`, `1` or a vector. -/
inductive Label
  | nothing
  | before
  | after
  | vec (v : Pt)

/-- The default of the parameter `epsilon`. -/
def epsilon : ℝ := 1 / 10 ^ 10

/-- Lines 96-102 and 117-123 of `pyx/box.py`: the decision by the position `alpha` of the crossing. -/
def byAlpha (alpha : ℝ) (v : Pt) : Label :=
  if alpha > 0 - epsilon ∧ alpha < 1 + epsilon then .vec v
  else if alpha < 0 then .before
  else .after

/-- `polygon_pt.circlealignlinevector_pt` (`pyx/box.py:82-102`) with center `c`, unit direction `d` and
the edge from `e` to `f`. The denominators in 95 and 97 are not zero (`circle_den_ne`). -/
def circlealignline (c : Pt) (a : ℝ) (d e f : Pt) : Label :=
  let g : Pt := (e.1 - f.1, e.2 - f.2)
  if g.1 * g.1 + g.2 * g.2 < epsilon then .nothing
  else
    let rsplit := (d.1 * g.1 + d.2 * g.2) * 1 / (g.1 * g.1 + g.2 * g.2)
    let b : Pt := (d.1 - g.1 * rsplit, d.2 - g.2 * rsplit)
    if b.1 * b.1 + b.2 * b.2 < epsilon then .nothing
    else if b.1 * g.2 - b.2 * g.1 < 0 then .nothing
    else
      let sfactor := Real.sqrt ((d.1 * d.1 + d.2 * d.2) / (b.1 * b.1 + b.2 * b.2))
      let b' : Pt := (a * b.1 * sfactor, a * b.2 * sfactor)
      let alpha := ((b'.1 + c.1 - e.1) * d.2 - (b'.2 + c.2 - e.2) * d.1) * 1 / (g.2 * d.1 - g.1 * d.2)
      let beta := ((e.1 - b'.1 - c.1) * g.2 - (e.2 - b'.2 - c.2) * g.1) * 1 / (g.1 * d.2 - g.2 * d.1)
      byAlpha alpha (beta * d.1, beta * d.2)

/-- `polygon_pt.linealignlinevector_pt` (`pyx/box.py:104-123`). The denominators in 116 and 118 are
not zero (`line_den_ne`). -/
def linealignline (c : Pt) (a : ℝ) (d e f : Pt) : Label :=
  let g : Pt := (e.1 - f.1, e.2 - f.2)
  if g.1 * g.1 + g.2 * g.2 < epsilon then .nothing
  else if g.2 * d.1 - g.1 * d.2 < -epsilon then .nothing
  else if d.1 * g.1 + d.2 * g.2 > epsilon ∨ d.1 * g.1 + d.2 * g.2 < -epsilon then
    if d.1 * g.1 + d.2 * g.2 < 0 then .before else .after
  else
    let alpha := ((a * d.1 + c.1 - e.1) * d.2 - (a * d.2 + c.2 - e.2) * d.1) * 1 / (g.2 * d.1 - g.1 * d.2)
    let beta := ((e.1 - a * d.1 - c.1) * g.2 - (e.2 - a * d.2 - c.2) * g.1) * 1 / (g.1 * d.2 - g.2 * d.1)
    byAlpha alpha (beta * d.1, beta * d.2)

/-- `polygon_pt.circlealignpointvector_pt` (`pyx/box.py:125-137`). -/
def circlealignpoint (c : Pt) (a : ℝ) (d p : Pt) : Option Pt :=
  if a * a < epsilon then none
  else
    let P := 2 * ((p.1 - c.1) * d.1 + (p.2 - c.2) * d.2)
    let q := (p.1 - c.1) * (p.1 - c.1) + (p.2 - c.2) * (p.2 - c.2) - a * a
    if P * P / 4 - q < 0 then none
    else
      let alpha := if a > 0 then -P / 2 + Real.sqrt (P * P / 4 - q) else -P / 2 - Real.sqrt (P * P / 4 - q)
      some (alpha * d.1, alpha * d.2)

/-- `polygon_pt.linealignpointvector_pt` (`pyx/box.py:139-142`). -/
def linealignpoint (c : Pt) (a : ℝ) (d p : Pt) : Option Pt :=
  let beta := (a * d.1 + c.1 - p.1) * d.2 - (a * d.2 + c.2 - p.2) * d.1
  some (a * d.1 - beta * d.2 - p.1 + c.1, a * d.2 + beta * d.1 - p.2 + c.2)

/-- The vector of a label. -/
def Label.vec? : Label → Option Pt
  | .vec v => some v
  | _ => none

/-- The condition in `pyx/box.py:154`. -/
def Label.meets : Label → Label → Bool
  | .after, .before => true
  | .after, .nothing => true
  | .nothing, .before => true
  | _, _ => false

/-- `polygon_pt.alignvector_pt` after the normalisation (`pyx/box.py:147-156`); the result `none` is
Python's `None`. -/
def alignunit (P : Polygon) (a : ℝ) (d : Pt) (line : Pt → ℝ → Pt → Pt → Pt → Label)
    (point : Pt → ℝ → Pt → Pt → Option Pt) : Option Pt :=
  let n := P.corners.length
  let label := fun i => line P.center a d (pt P (prev n i)) (pt P i)
  match (List.range n).findSome? (fun i => (label i).vec?) with
  | some v => some v
  | none =>
    match (List.range n).find? (fun i => (label (prev n i)).meets (label i)) with
    | some i => point P.center a d (pt P (prev n i))
    | none => some (a * d.1, a * d.2)

/-- `polygon_pt.alignvector_pt` (`pyx/box.py:144-156`). -/
def alignvector (P : Polygon) (a : ℝ) (d : Pt) (line : Pt → ℝ → Pt → Pt → Pt → Label)
    (point : Pt → ℝ → Pt → Pt → Option Pt) : Except Err (Option Pt) :=
  let n := hypot d.1 d.2
  if n = 0 then .error .zeroDivision
  else .ok (alignunit P a (d.1 / n, d.2 / n) line point)

/-- `polygon_pt.circlealignvector_pt` (`pyx/box.py:158-159`). -/
def circlealignvector (P : Polygon) (a : ℝ) (d : Pt) : Except Err (Option Pt) :=
  alignvector P a d circlealignline circlealignpoint

/-- `polygon_pt.linealignvector_pt` (`pyx/box.py:161-162`). -/
def linealignvector (P : Polygon) (a : ℝ) (d : Pt) : Except Err (Option Pt) :=
  alignvector P a d linealignline linealignpoint

/-- `self.transform(trafo.translate_pt(*v))`; a vector `None` raises `TypeError`. -/
def moveBy (P : Polygon) : Option Pt → Except Err Polygon
  | none => .error .typeError
  | some v => .ok (transform P [translate v])

/-- `polygon_pt.circlealign_pt` (`pyx/box.py:172-174`). -/
def circlealign (P : Polygon) (a : ℝ) (d : Pt) : Except Err Polygon := do
  moveBy P (← circlealignvector P a d)

/-- `polygon_pt.linealign_pt` (`pyx/box.py:176-178`). -/
def linealign (P : Polygon) (a : ℝ) (d : Pt) : Except Err Polygon := do
  moveBy P (← linealignvector P a d)

/-- Difference of two vectors along `d` as in `pyx/box.py:197`. -/
def extentOf (d : Pt) : Option Pt → Option Pt → Except Err ℝ
  | some v, some w => .ok ((v.1 - w.1) * d.1 + (v.2 - w.2) * d.2)
  | _, _ => .error .typeError

/-- `polygon_pt.extent_pt` (`pyx/box.py:188-197`). -/
def extent (P : Polygon) (d : Pt) : Except Err ℝ :=
  let n := hypot d.1 d.2
  if n = 0 then .error .zeroDivision
  else do
    let d' : Pt := (d.1 / n, d.2 / n)
    let v ← linealignvector P 0 d'
    let w ← linealignvector P 0 (-d'.1, -d'.2)
    extentOf d' v w

/-- Body of the loop in `pointdistance_pt` (`pyx/box.py:205-216`): the distance of `x` to an edge. -/
def edgedistance (x p1 p2 : Pt) : ℝ :=
  let g : Pt := (p2.1 - p1.1, p2.2 - p1.2)
  if g.1 * g.1 + g.2 * g.2 < epsilon then hypot (p1.1 - x.1) (p1.2 - x.2)
  else
    let a := (g.1 * (x.1 - p1.1) + g.2 * (x.2 - p1.2)) / (g.1 * g.1 + g.2 * g.2)
    if a < 0 then hypot (p1.1 - x.1) (p1.2 - x.2)
    else if a > 1 then hypot (p2.1 - x.1) (p2.2 - x.2)
    else hypot (x.1 - p1.1 - a * g.1) (x.2 - p1.2 - a * g.2)

/-- The running minimum `if result is None or new < result: result = new` (`pyx/box.py:217-218`). -/
def smaller (result : Option ℝ) (new : ℝ) : Option ℝ :=
  match result with
  | none => some new
  | some r => if new < r then some new else some r

/-- `polygon_pt.pointdistance_pt` (`pyx/box.py:202-219`); `none` without corners. -/
def pointdistance (P : Polygon) (x : Pt) : Option ℝ :=
  (edges P).foldl (fun r e => smaller r (edgedistance x e.1 e.2)) none

/-- The test for crossing edges (`pyx/box.py:228-233`). -/
def crossing (p1 p2 p3 p4 : Pt) : Prop :=
  let a := (p4.2 - p3.2) * (p3.1 - p1.1) - (p4.1 - p3.1) * (p3.2 - p1.2)
  let b := (p2.2 - p1.2) * (p3.1 - p1.1) - (p2.1 - p1.1) * (p3.2 - p1.2)
  let c := (p2.1 - p1.1) * (p4.2 - p3.2) - (p2.2 - p1.2) * (p4.1 - p3.1)
  |c| > epsilon ∧ a / c > -epsilon ∧ a / c < 1 + epsilon ∧ b / c > -epsilon ∧ b / c < 1 + epsilon

/-- `new < result` with `new` maybe `None` raises `TypeError`. -/
def smaller? (result : Option ℝ) (new : Option ℝ) : Except Err (Option ℝ) :=
  match new with
  | some v => .ok (smaller result v)
  | none => .error .typeError

open Classical in
/-- `polygon_pt.boxdistance_pt` (`pyx/box.py:224-244`). -/
def boxdistance (P Q : Polygon) : Except Err (Option ℝ) :=
  if ∃ e ∈ edges P, ∃ f ∈ edges Q, crossing e.1 e.2 f.1 f.2 then .error .boxCross
  else do
    let r ← Q.corners.foldlM (fun r p => smaller? r (pointdistance P p)) none
    P.corners.foldlM (fun r p => smaller? r (pointdistance Q p)) r

/-- `min`/`max` of a non-empty list. -/
def listMin : List ℝ → Option ℝ
  | [] => none
  | x :: xs => some (xs.foldl min x)

/-- See `listMin`. -/
def listMax : List ℝ → Option ℝ
  | [] => none
  | x :: xs => some (xs.foldl max x)

/-- `polygon_pt.bbox` (`pyx/box.py:249-253`). -/
def bbox (P : Polygon) : Except Err (BBox ℝ) :=
  match listMin (P.corners.map (·.1)), listMin (P.corners.map (·.2)), listMax (P.corners.map (·.1)),
      listMax (P.corners.map (·.2)) with
  | some a, some b, some c, some d => .ok (some ⟨a, b, c, d⟩)
  | _, _, _, _ => .error .noCorners

/-- `vec is None or vec·d < v·d` (`pyx/box.py:260`). -/
def furthest (d : Pt) (vec : Option Pt) (v : Pt) : Option Pt :=
  match vec with
  | none => some v
  | some w => if w.1 * d.1 + w.2 * d.2 < v.1 * d.1 + v.2 * d.2 then some v else some w

/-- One turn of the first loop in `genericalignequal_pt` (`pyx/box.py:258-261`). As long as `vec` is `None` any
`v` replaces it, also `None`; later `v[0]` of a `None` is a `TypeError`. -/
def furthestStep (method : Polygon → ℝ → Pt → Except Err (Option Pt)) (a : ℝ) (d : Pt) (vec : Option Pt)
    (P : Polygon) : Except Err (Option Pt) := do
  match vec, ← method P a d with
  | _, some v => .ok (furthest d vec v)
  | none, none => .ok none
  | some _, none => .error .typeError

/-- `genericalignequal_pt` (`pyx/box.py:256-263`). An empty list is returned unchanged. -/
def alignequal (method : Polygon → ℝ → Pt → Except Err (Option Pt)) (Ps : List Polygon) (a : ℝ) (d : Pt) :
    Except Err (List Polygon) := do
  let vec ← Ps.foldlM (furthestStep method a d) none
  Ps.mapM fun P => moveBy P vec

/-- `circlealignequal_pt` (`pyx/box.py:266-267`). -/
def circlealignequal (Ps : List Polygon) (a : ℝ) (d : Pt) : Except Err (List Polygon) :=
  alignequal circlealignvector Ps a d

/-- `linealignequal_pt` (`pyx/box.py:269-270`). -/
def linealignequal (Ps : List Polygon) (a : ℝ) (d : Pt) : Except Err (List Polygon) :=
  alignequal linealignvector Ps a d

/-- The largest extent (`pyx/box.py:280-284`). -/
def maxextent (Ps : List Polygon) (d : Pt) : Except Err ℝ :=
  match Ps with
  | [] => .error .noCorners
  | P :: Ps => do
    let m ← extent P d
    Ps.foldlM (fun m P => do
      let e ← extent P d
      .ok (if e > m then e else m)) m

/-- The moving loop of `tile_pt` (`pyx/box.py:286-289`). -/
def tileMove (delta : ℝ) (d : Pt) : ℝ → List Polygon → List Polygon
  | _, [] => []
  | s, P :: Ps => transform P [translate (s * d.1, s * d.2)] :: tileMove delta d (s + delta) Ps

/-- `tile_pt` (`pyx/box.py:279-290`): the moved polygons and the distance. -/
def tile (Ps : List Polygon) (a : ℝ) (d : Pt) : Except Err (List Polygon × ℝ) := do
  let m ← maxextent Ps d
  .ok (tileMove (m + a) d 0 Ps, m + a)

end

end PyX.Box
