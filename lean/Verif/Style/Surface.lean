import Verif.Graph.Projector
import Mathlib.Data.List.Basic

/-!
# Surfaces in three-dimensional graphs: model of the style `surface` (`graph/style.py:1718-1909`) with `vzindex` (`graph/graph.py:921-924`)

The elements of the mesh are listed in the order they are drawn, with positions in graph coordinates (the points given to `vpos_pt`).
-/

set_option linter.unusedSectionVars false

namespace PyX.Style.Surface

open PyX.Graph

/-- A graph coordinate by its number. -/
def coord (i : Fin 3) (v : V3) : ℝ := match i with
  | 0 => v.x
  | 1 => v.y
  | 2 => v.z

/-- A point by its coordinates. -/
def ofCoords (f : Fin 3 → ℝ) : V3 := ⟨f 0, f 1, f 2⟩

/-- `vzindex` (`graph.py:921-924`, `zindexscale` from `graph.py:791`). -/
noncomputable def vzindex (g : Graph3) (v : V3) : ℝ :=
  g.projector.zindex (g.space v) / Real.sqrt (g.xscale * g.xscale + g.yscale * g.yscale + g.zscale * g.zscale)

/-- `v = [0]*len(graph.axesnames); v[i] = x` (`style.py:1778-1781, 1790-1793`). -/
def at1 (i : Fin 3) (x : ℝ) : V3 := ofCoords fun k => if k = i then x else 0

/-- `v = [0]*len(graph.axesnames); v[i] = x; v[j] = y` (`style.py:1761-1770`). -/
def at2 (i : Fin 3) (x : ℝ) (j : Fin 3) (y : ℝ) : V3 := ofCoords fun k => if k = j then y else if k = i then x else 0

/-- The condition for reversing the values of a coordinate (`style.py:1783, 1794`). -/
def Reversed (g : Graph3) (i : Fin 3) : Prop := vzindex g (at1 i (-1)) < vzindex g (at1 i 1)

open Classical in
/-- The values of a coordinate in the order of drawing (`style.py:1776-1777, 1784` and `style.py:1788-1789, 1795`). -/
noncomputable def values (g : Graph3) (i : Fin 3) (vals : List ℝ) : List ℝ :=
  if Reversed g i then (vals.mergeSort fun a b => decide (a ≤ b)).reverse else vals.mergeSort fun a b => decide (a ≤ b)

open Classical in
/-- `sign` (`style.py:1782, 1785, 1796`). -/
noncomputable def sign (g : Graph3) (i1 i2 : Fin 3) : ℝ := (if Reversed g i1 then -1 else 1) * (if Reversed g i2 then -1 else 1)

/-- `sortElements` at the beginning (`style.py:1771-1774`). -/
noncomputable def keys0 (g : Graph3) (i1 i2 : Fin 3) : Fin 4 → ℝ
  | 0 => -vzindex g (at2 i2 (1 / 2) i1 0)
  | 1 => -vzindex g (at2 i1 (1 / 2) i2 0)
  | 2 => -vzindex g (at2 i1 (1 / 2) i2 1)
  | 3 => -vzindex g (at2 i1 1 i2 (1 / 2))

open Classical in
/-- `sortElements` behind the exchanges (`style.py:1786, 1797`). -/
noncomputable def keys (g : Graph3) (i1 i2 : Fin 3) : Fin 4 → ℝ :=
  let k := keys0 g i1 i2
  let k : Fin 4 → ℝ := if Reversed g i1 then fun | 0 => k 3 | 1 => k 1 | 2 => k 2 | 3 => k 0 else k
  if Reversed g i2 then fun | 0 => k 0 | 1 => k 2 | 2 => k 1 | 3 => k 3 else k

open Classical in
/-- Comparison of tuples. -/
noncomputable def tupleLe (x y : ℝ × Fin 4) : Bool := decide (x.1 < y.1 ∨ (x.1 = y.1 ∧ x.2 ≤ y.2))

/-- The order of the four triangles of a cell (`style.py:1799-1800`). -/
noncomputable def order (g : Graph3) (i1 i2 : Fin 3) : List (Fin 4) :=
  (([0, 1, 2, 3].map fun i => (keys g i1 i2 i, i)).mergeSort tupleLe).map fun x => x.2

/-- A cell of the grid: two values for each coordinate. -/
structure Cell where
  a1 : ℝ
  b1 : ℝ
  a2 : ℝ
  b2 : ℝ

/-- Neighbours in a list (`zip(values[:-1], values[1:])`, `style.py:1804-1805`). -/
def pairs (l : List ℝ) : List (ℝ × ℝ) := l.zip l.tail

/-- The cells in the order of drawing (`style.py:1804-1805`). -/
def cells (values1 values2 : List ℝ) : List Cell := (pairs values1).flatMap fun x => (pairs values2).map fun y => ⟨x.1, x.2, y.1, y.2⟩

/-- Four corners. -/
structure Corners where
  v1 : V3
  v2 : V3
  v3 : V3
  v4 : V3

/-- The data at the corners, or `none` if the cell is left out (`style.py:1806-1817`); data are whether they are valid, and the position. -/
def corners (data : ℝ → ℝ → Option (Bool × V3)) (c : Cell) : Option Corners :=
  match data c.a1 c.a2, data c.a1 c.b2, data c.b1 c.a2, data c.b1 c.b2 with
  | some (true, v1), some (true, v2), some (true, v3), some (true, v4) => some ⟨v1, v2, v3, v4⟩
  | _, _, _, _ => none

/-- `shrink` (`style.py:1818-1824`). -/
def shrink (index : Fin 3) (v1 v2 : V3) (by' : ℝ) : V3 × V3 :=
  (ofCoords fun i => if i ≠ index then coord i v1 + by' * (coord i v2 - coord i v1) else coord i v1,
   ofCoords fun i => if i ≠ index then coord i v2 + by' * (coord i v1 - coord i v2) else coord i v2)

open Classical in
/-- The corners of the colored area (`style.py:1825-1831`); `lines` are `gridlines1` and `gridlines2`, or zero without a grid color. -/
noncomputable def shrunk (i1 i2 : Fin 3) (lines : ℝ × ℝ) (c : Corners) : Corners :=
  let c1 : Corners := if lines.1 ≠ 0 then
      ⟨(shrink i1 c.v1 c.v2 lines.1).1, (shrink i1 c.v1 c.v2 lines.1).2, (shrink i1 c.v3 c.v4 lines.1).1, (shrink i1 c.v3 c.v4 lines.1).2⟩
    else c
  if lines.2 ≠ 0 then
    ⟨(shrink i2 c1.v1 c1.v3 lines.2).1, (shrink i2 c1.v2 c1.v4 lines.2).1, (shrink i2 c1.v1 c1.v3 lines.2).2, (shrink i2 c1.v2 c1.v4 lines.2).2⟩
  else c1

/-- `midvalue` (`style.py:1736-1737, 1832`). -/
noncomputable def mid (c : Corners) : V3 := ofCoords fun i => 1 / 4 * (coord i c.v1 + coord i c.v2 + coord i c.v3 + coord i c.v4)

/-- An element of the mesh: its cell, the number of the triangle it belongs to, its corners. -/
structure Elem where
  cell : Cell
  part : Fin 4
  p : V3
  q : V3
  r : V3

/-- The corners of the colored triangles (`style.py:1865-1867, 1876-1878, 1887-1889, 1898-1900`; the same order in `vangle`, `style.py:1849-1862`). -/
noncomputable def face (c : Corners) : Fin 4 → V3 × V3 × V3
  | 0 => (c.v1, c.v2, mid c)
  | 1 => (c.v3, c.v1, mid c)
  | 2 => (c.v2, c.v4, mid c)
  | 3 => (c.v4, c.v3, mid c)

open Classical in
/-- The strips of the grid lines (`style.py:1868-1874, 1879-1885, 1890-1896, 1901-1907`); `f` are the corners of the cell. -/
noncomputable def strips (lines : ℝ × ℝ) (f c : Corners) : Fin 4 → List (V3 × V3 × V3)
  | 0 => if lines.2 ≠ 0 then [(f.v1, c.v2, c.v1), (f.v1, c.v2, f.v2)] else []
  | 1 => if lines.1 ≠ 0 then [(f.v1, c.v3, c.v1), (f.v1, c.v3, f.v3)] else []
  | 2 => if lines.1 ≠ 0 then [(f.v2, c.v4, c.v2), (f.v2, c.v4, f.v4)] else []
  | 3 => if lines.2 ≠ 0 then [(f.v3, c.v4, c.v3), (f.v3, c.v4, f.v4)] else []

/-- The elements of a cell (`style.py:1863-1907`). -/
noncomputable def cellElements (g : Graph3) (i1 i2 : Fin 3) (lines : ℝ × ℝ) (data : ℝ → ℝ → Option (Bool × V3)) (c : Cell) : List Elem :=
  match corners data c with
  | none => []
  | some f => (order g i1 i2).flatMap fun i => (face (shrunk i1 i2 lines f) i :: strips lines f (shrunk i1 i2 lines f) i).map fun t => ⟨c, i, t.1, t.2.1, t.2.2⟩

/-- All elements in the order of drawing (`style.py:1804-1907`). -/
noncomputable def elements (g : Graph3) (i1 i2 : Fin 3) (lines : ℝ × ℝ) (data : ℝ → ℝ → Option (Bool × V3)) (vals1 vals2 : List ℝ) : List Elem :=
  (cells (values g i1 vals1) (values g i2 vals2)).flatMap (cellElements g i1 i2 lines data)

/-- `sign*graph.vangle(...)` of a triangle (`style.py:1849-1862`). -/
noncomputable def facing (g : Graph3) (i1 i2 : Fin 3) (c : Corners) (i : Fin 4) : Option ℝ :=
  (g.vangle (face c i).1 (face c i).2.1 (face c i).2.2).map fun x => sign g i1 i2 * x

end PyX.Style.Surface
