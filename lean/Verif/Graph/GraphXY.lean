import Mathlib.Algebra.Order.Field.Basic
import Mathlib.Tactic.Linarith
import Mathlib.Tactic.Ring
import Mathlib.Tactic.NormNum
import Mathlib.Algebra.Order.Ring.Rat

/-!
# Two-dimensional graphs: model of `graphxy` (`graph/graph.py:311-632`), the positioners of its axes (`graph/axis/positioner.py:79-104`) and `key.paint` (`graph/key.py:98-114`)

All lengths are in points.
-/

set_option linter.unusedSectionVars false

namespace PyX.Graph.XY

variable {K : Type} [Field K] [LinearOrder K] [IsStrictOrderedRing K]

abbrev P (K : Type) := K × K

/-- A graph (`graph.py:313-340`). -/
structure Graph2 (K : Type) where
  xpos : K
  ypos : K
  width : K
  height : K
  axesdist : K
  flipped : Bool

/-- The arguments `width`, `height` and `ratio` (`graph.py:329-339`); `none`: `ValueError`. -/
def size (ratio : K) : Option K → Option K → Option (K × K)
  | none, none => none
  | none, some h => some (ratio * h, h)
  | some w, none => some (w, 1 / ratio * w)
  | some w, some h => some (w, h)

variable (g : Graph2 K)

/-- `vpos_pt` (`graph.py:453-457`). -/
def vpos (vx vy : K) : P K :=
  if g.flipped then (g.xpos + vy * g.width, g.ypos + vx * g.height) else (g.xpos + vx * g.width, g.ypos + vy * g.height)

/-- `vgeodesic` (`graph.py:471-479`): begin and end of the line. -/
def vgeodesic (vx1 vy1 vx2 vy2 : K) : P K × P K :=
  if g.flipped then ((g.xpos + vy1 * g.width, g.ypos + vx1 * g.height), (g.xpos + vy2 * g.width, g.ypos + vx2 * g.height))
  else ((g.xpos + vx1 * g.width, g.ypos + vy1 * g.height), (g.xpos + vx2 * g.width, g.ypos + vy2 * g.height))

/-- `vcap_pt` (`graph.py:489-506`); `second` is `coordinate == 1`. -/
def vcap (second : Bool) (length vx vy : K) : P K × P K :=
  let ux := if g.flipped then vy else vx
  let uy := if g.flipped then vx else vy
  if (second == g.flipped) then
    ((g.xpos + ux * g.width - 1 / 2 * length, g.ypos + uy * g.height), (g.xpos + ux * g.width + 1 / 2 * length, g.ypos + uy * g.height))
  else ((g.xpos + ux * g.width, g.ypos + uy * g.height - 1 / 2 * length), (g.xpos + ux * g.width, g.ypos + uy * g.height + 1 / 2 * length))

/-- `xvgridpath` (`graph.py:508-510`). -/
def xvgridpath (v : K) : P K × P K := ((g.xpos + v * g.width, g.ypos), (g.xpos + v * g.width, g.ypos + g.height))

/-- `yvgridpath` (`graph.py:512-514`). -/
def yvgridpath (v : K) : P K × P K := ((g.xpos, g.ypos + v * g.height), (g.xpos + g.width, g.ypos + v * g.height))

/-- `lineaxispos_pt` (`positioner.py:79-88`). -/
structure LinePos (K : Type) where
  p1 : P K
  p2 : P K
  dir : P K
  grid : K → P K × P K

/-- `vtickpoint_pt` (`positioner.py:100-101`). -/
def LinePos.tickpoint (l : LinePos K) (v : K) : P K := ((1 - v) * l.p1.1 + v * l.p2.1, (1 - v) * l.p1.2 + v * l.p2.2)

/-- `vbasepath` (`positioner.py:90-98`). -/
def LinePos.basepath (l : LinePos K) (v1 v2 : Option K) : P K × P K :=
  let v1 := v1.getD 0
  let v2 := v2.getD 1
  (((1 - v1) * l.p1.1 + v1 * l.p2.1, (1 - v1) * l.p1.2 + v1 * l.p2.2), ((1 - v2) * l.p1.1 + v2 * l.p2.1, (1 - v2) * l.p1.2 + v2 * l.p2.2))

/-- The four positioners before flipping (`graph.py:411-422`): at the bottom, the top, the left and the right. -/
def bottom : LinePos K := ⟨(g.xpos, g.ypos), (g.xpos + g.width, g.ypos), (0, 1), xvgridpath g⟩
def top : LinePos K := ⟨(g.xpos, g.ypos + g.height), (g.xpos + g.width, g.ypos + g.height), (0, -1), xvgridpath g⟩
def left : LinePos K := ⟨(g.xpos, g.ypos), (g.xpos, g.ypos + g.height), (1, 0), yvgridpath g⟩
def right : LinePos K := ⟨(g.xpos + g.width, g.ypos), (g.xpos + g.width, g.ypos + g.height), (-1, 0), yvgridpath g⟩

/-- `axespositioners` (`graph.py:411-427`): `yaxis` chooses y or y2, `second` x2 or y2. -/
def axespositioner (yaxis second : Bool) : LinePos K :=
  match g.flipped, yaxis, second with
  | false, false, false => bottom g
  | false, false, true => top g
  | false, true, false => left g
  | false, true, true => right g
  | true, false, false => right g
  | true, false, true => left g
  | true, true, false => bottom g
  | true, true, true => top g

/-- `sign` (`graph.py:568-570`) of the axis with the number `n`. -/
def sign (yaxis : Bool) (n : Nat) : K :=
  let s : K := 2 * ((n % 2 : Nat) : K) - 1
  if !yaxis && g.flipped then -s else s

/-- `doaxispositioner` (`graph.py:556-581`) for the axis with the number `n` (x is number 1), where `extent` are the extents of the created axes; `none`: an axis on which it depends does not exist (`KeyError`).
`present` says which axes there are. -/
def doaxispositioner (present : Nat → Bool) (extent : Nat → K) (yaxis : Bool) : Nat → Option (LinePos K)
  | 0 => none
  | 1 => if present 1 then some (axespositioner g yaxis false) else none
  | 2 => if present 2 then some (axespositioner g yaxis true) else none
  | n + 3 =>
    if present (n + 3) then
      (doaxispositioner present extent yaxis (n + 1)).map fun d =>
        let s := sign g yaxis (n + 3)
        if yaxis == g.flipped then
          let y := d.p1.2 - s * (extent (n + 1) + g.axesdist)
          ⟨(g.xpos, y), (g.xpos + g.width, y), (0, s), xvgridpath g⟩
        else
          let x := d.p1.1 - s * (extent (n + 1) + g.axesdist)
          ⟨(x, g.ypos), (x, g.ypos + g.height), (s, 0), yvgridpath g⟩
    else none

/-- `axisatv` (`graph.py:543-554`): the translation of the canvas of an axis. -/
def axisatv (l : LinePos K) (v : K) : P K :=
  if l.dir.1 ≠ 0 then (g.xpos + v * g.width - l.p1.1, 0) else (0, g.ypos + v * g.height - l.p1.2)

/-- The loop of `autokeygraphtrafo` (`graph.py:520-532`): the largest number among the axes at the right of the graph; `nums` are the numbers of the y-axes (x-axes in a flipped graph). -/
def rightmost (nums : List Nat) : Option Nat :=
  nums.foldl (fun best n =>
    if (n % 2 == 0 && !g.flipped) || (n % 2 != 0 && g.flipped) then
      match best with
      | none => some n
      | some b => if b < n then some n else best
    else best) none

/-- `autokeygraphtrafo` (`graph.py:519-541`): the left of the key graph of a density plot.  `none`: an axis on which it depends is missing. -/
def autokeygraph (nums : List Nat) (extent : Nat → K) : Option K :=
  match rightmost g nums with
  | none => some (g.xpos + g.width + g.axesdist)
  | some n => (doaxispositioner g (fun k => nums.contains k) extent (!g.flipped) n).map fun l => l.p1.1 + extent n + g.axesdist

/-! ## Keys -/

/-- `parentchildalign` (`graph.py:618-621, 1146-1149`). -/
def parentchildalign (pmin pmax cmin cmax pos dist inside : K) : K :=
  let ppos := pmin + 1 / 2 * (cmax - cmin) + dist + pos * (pmax - pmin - cmax + cmin - 2 * dist)
  let cpos := 1 / 2 * (cmin + cmax) + (1 - inside) * (1 - 2 * pos) * (cmax - cmin + 2 * dist)
  ppos - cpos

/-- `itemspercolumn` (`key.py:102`). -/
def itemspercolumn (items columns : Nat) : Nat := (items + columns - 1) / columns

/-- The `while` loop of `paint` (`key.py:104-108`): the items of every column (`n` is `itemspercolumn`).  The fuel is the number of items; the loop does not end if `n` is 0. -/
def columnsLoop {α : Type} (n : Nat) : Nat → List α → Option (List (List α))
  | _, [] => some []
  | 0, _ :: _ => none
  | fuel + 1, l => (columnsLoop n fuel (l.drop n)).map (l.take n :: ·)

/-- The columns of a key; `columns = 0` raises `ZeroDivisionError`. -/
def columns {α : Type} (items : List α) (columns : Nat) : Option (List (List α)) :=
  if columns = 0 then none else columnsLoop (itemspercolumn items.length columns) items.length items

/-- The offsets of the columns (`key.py:103, 106-107`), given their widths. -/
def offsets (dist : K) : K → List K → List K
  | _, [] => []
  | x, w :: ws => x :: offsets dist (x + w + dist) ws

end PyX.Graph.XY
