import Mathlib.Analysis.SpecialFunctions.Trigonometric.Basic

/-!
# Projections of three-dimensional graphs: model of `graphxyz.central`, `graphxyz.parallel` and the functions of `graphxyz` built on them (`graph/graph.py:689-803, 909-993, 1019-1112`)

Numbers are real.  A division by zero is `none`.
-/

set_option linter.unusedSectionVars false

namespace PyX.Graph

@[ext] structure V3 where
  x : ℝ
  y : ℝ
  z : ℝ

/-- Division which raises on zero. -/
noncomputable def divide (a b : ℝ) : Option ℝ := if b = 0 then none else some (a / b)

/-- What a graph needs from a projector. -/
structure Projector where
  point : V3 → Option (ℝ × ℝ)
  zindex : V3 → ℝ
  angle : V3 → V3 → V3 → Option ℝ

/-- `self.a` of both projectors (`graph.py:696, 744`), angles in radians. -/
noncomputable def vecA (phi : ℝ) : V3 := ⟨-Real.sin phi, Real.cos phi, 0⟩

/-- `self.b` of both projectors (`graph.py:697-699, 745-747`). -/
noncomputable def vecB (phi theta : ℝ) : V3 := ⟨-Real.cos phi * Real.sin theta, -Real.sin phi * Real.sin theta, Real.cos theta⟩

/-- `self.eye` (`graph.py:700-702`). -/
noncomputable def vecEye (distance phi theta : ℝ) : V3 :=
  ⟨distance * Real.cos phi * Real.cos theta, distance * Real.sin phi * Real.cos theta, distance * Real.sin theta⟩

/-- `self.c` (`graph.py:748-750`). -/
noncomputable def vecC (phi theta : ℝ) : V3 := ⟨-Real.cos phi * Real.cos theta, -Real.sin phi * Real.cos theta, -Real.sin theta⟩

/-- The sum of products in `central.point` (`graph.py:705-722`). -/
def det3 (a b p e : V3) : ℝ :=
  a.x * b.y * (p.z - e.z) + a.z * b.x * (p.y - e.y) + a.y * b.z * (p.x - e.x) - a.z * b.y * (p.x - e.x) - a.x * b.z * (p.y - e.y) - a.y * b.x * (p.z - e.z)

/-- The normal vector in `angle` (`graph.py:732-734, 759-761`). -/
def normal (p q r : V3) : V3 :=
  ⟨(q.y - p.y) * (r.z - p.z) - (q.z - p.z) * (r.y - p.y), (q.z - p.z) * (r.x - p.x) - (q.x - p.x) * (r.z - p.z), (q.x - p.x) * (r.y - p.y) - (q.y - p.y) * (r.x - p.x)⟩

noncomputable def norm3 (v : V3) : ℝ := Real.sqrt (v.x * v.x + v.y * v.y + v.z * v.z)

/-- `graphxyz.central` (`graph.py:689-735`). -/
noncomputable def central (distance phi0 theta0 anglefactor : ℝ) : Projector :=
  let phi := phi0 * anglefactor
  let theta := theta0 * anglefactor
  let a := vecA phi
  let b := vecB phi theta
  let eye := vecEye distance phi theta
  { point := fun p =>
      (divide (det3 eye b p eye) (det3 a b p eye)).bind fun u => (divide (det3 a eye p eye) (det3 a b p eye)).map fun v => (u, v)
    zindex := fun p => norm3 ⟨p.x - eye.x, p.y - eye.y, p.z - eye.z⟩ - distance
    angle := fun p q r =>
      let n := normal p q r
      (divide ((p.x - eye.x) * n.x + (p.y - eye.y) * n.y + (p.z - eye.z) * n.z) (norm3 n)).bind fun w => divide w (norm3 ⟨p.x - eye.x, p.y - eye.y, p.z - eye.z⟩) }

/-- `graphxyz.parallel` (`graph.py:738-762`). -/
noncomputable def parallel (phi0 theta0 anglefactor : ℝ) : Projector :=
  let phi := phi0 * anglefactor
  let theta := theta0 * anglefactor
  let a := vecA phi
  let b := vecB phi theta
  let c := vecC phi theta
  { point := fun p => some (a.x * p.x + a.y * p.y + a.z * p.z, b.x * p.x + b.y * p.y + b.z * p.z)
    zindex := fun p => c.x * p.x + c.y * p.y + c.z * p.z
    angle := fun p q r =>
      let n := normal p q r
      divide (c.x * n.x + c.y * n.y + c.z * n.z) (norm3 n) }

/-- A graph (`graph.py:765-787`), lengths in points. -/
structure Graph3 where
  xpos : ℝ
  ypos : ℝ
  size : ℝ
  xscale : ℝ
  yscale : ℝ
  zscale : ℝ
  projector : Projector

/-- Graph coordinates in space (`graph.py:910-912` and similar). -/
noncomputable def Graph3.space (g : Graph3) (v : V3) : V3 := ⟨2 * g.xscale * (v.x - 1 / 2), 2 * g.yscale * (v.y - 1 / 2), 2 * g.zscale * (v.z - 1 / 2)⟩

/-- `vpos_pt` (`graph.py:909-913`). -/
noncomputable def Graph3.vpos (g : Graph3) (v : V3) : Option (ℝ × ℝ) :=
  (g.projector.point (g.space v)).map fun p => (g.xpos + p.1 * g.size, g.ypos + p.2 * g.size)

/-- `vangle` (`graph.py:926-935`). -/
noncomputable def Graph3.vangle (g : Graph3) (p q r : V3) : Option ℝ := g.projector.angle (g.space p) (g.space q) (g.space r)

/-- `> 0`; an exception is not positive. -/
noncomputable def positive (o : Option ℝ) : Prop := ∃ x, o = some x ∧ 0 < x

/-- `xorder` (`graph.py:789`). -/
noncomputable def Graph3.xorder (g : Graph3) : ℝ := if g.projector.zindex ⟨0, 1, 0⟩ < g.projector.zindex ⟨0, -1, 0⟩ then 1 else 0

/-- `yorder` (`graph.py:790`). -/
noncomputable def Graph3.yorder (g : Graph3) : ℝ := if g.projector.zindex ⟨1, 0, 0⟩ < g.projector.zindex ⟨-1, 0, 0⟩ then 1 else 0

/-- `pz0show` and the other five (`graph.py:798-803`). -/
def Graph3.pz0show (g : Graph3) : Prop := positive (g.vangle ⟨0, 0, 0⟩ ⟨1, 0, 0⟩ ⟨1, 1, 0⟩)
def Graph3.pz1show (g : Graph3) : Prop := positive (g.vangle ⟨0, 0, 1⟩ ⟨0, 1, 1⟩ ⟨1, 1, 1⟩)
def Graph3.py0show (g : Graph3) : Prop := positive (g.vangle ⟨0, 0, 0⟩ ⟨0, 0, 1⟩ ⟨1, 0, 1⟩)
def Graph3.py1show (g : Graph3) : Prop := positive (g.vangle ⟨0, 1, 0⟩ ⟨1, 1, 0⟩ ⟨1, 1, 1⟩)
def Graph3.px0show (g : Graph3) : Prop := positive (g.vangle ⟨0, 0, 0⟩ ⟨0, 1, 0⟩ ⟨0, 1, 1⟩)
def Graph3.px1show (g : Graph3) : Prop := positive (g.vangle ⟨1, 0, 0⟩ ⟨1, 0, 1⟩ ⟨1, 1, 1⟩)

/-- `vcap_pt` (`graph.py:945-956`): the two ends of the line. -/
noncomputable def Graph3.vcap (g : Graph3) (coordinate : Fin 3) (length : ℝ) (v : V3) : Option (ℝ × ℝ) × Option (ℝ × ℝ) :=
  let d := 1 / 2 * length / g.size
  match coordinate with
  | 0 => (g.vpos ⟨v.x - d, v.y, v.z⟩, g.vpos ⟨v.x + d, v.y, v.z⟩)
  | 1 => (g.vpos ⟨v.x, v.y - d, v.z⟩, g.vpos ⟨v.x, v.y + d, v.z⟩)
  | 2 => (g.vpos ⟨v.x, v.y, v.z - d⟩, g.vpos ⟨v.x, v.y, v.z + d⟩)

/-- The names of the axes with a position; other names raise `NotImplementedError` (`graph.py:1112`). -/
inductive AxisName where
  | x | x2 | x3 | x4 | y | y2 | y3 | y4 | z | z2 | z3 | z4

open AxisName in
/-- The point of an axis given to `vpos_pt` (`graph.py:1029-1108`); `at'` is `xy12axesatv`. -/
noncomputable def Graph3.axisPoint (g : Graph3) (at' : ℝ) (n : AxisName) (v : ℝ) : V3 :=
  match n with
  | x => ⟨v, g.xorder, at'⟩
  | x2 => ⟨v, 1 - g.xorder, at'⟩
  | x3 => ⟨v, g.xorder, 1⟩
  | x4 => ⟨v, 1 - g.xorder, 1⟩
  | y => ⟨g.yorder, v, at'⟩
  | y2 => ⟨1 - g.yorder, v, at'⟩
  | y3 => ⟨g.yorder, v, 1⟩
  | y4 => ⟨1 - g.yorder, v, 1⟩
  | z => ⟨0, 0, v⟩
  | z2 => ⟨1, 0, v⟩
  | z3 => ⟨0, 1, v⟩
  | z4 => ⟨1, 1, v⟩

open AxisName in
/-- The two points given to `vtickdirection` (`graph.py:1030-1109`). -/
noncomputable def Graph3.tickPoints (g : Graph3) (at' : ℝ) (n : AxisName) (v : ℝ) : V3 × V3 :=
  match n with
  | x => (⟨v, g.xorder, 0⟩, ⟨v, 1 - g.xorder, at'⟩)
  | x2 => (⟨v, 1 - g.xorder, 0⟩, ⟨v, g.xorder, at'⟩)
  | x3 => (⟨v, g.xorder, 1⟩, ⟨v, 1 - g.xorder, 1⟩)
  | x4 => (⟨v, 1 - g.xorder, 1⟩, ⟨v, g.xorder, 1⟩)
  | y => (⟨g.yorder, v, 0⟩, ⟨1 - g.yorder, v, at'⟩)
  | y2 => (⟨1 - g.yorder, v, 0⟩, ⟨g.yorder, v, at'⟩)
  | y3 => (⟨g.yorder, v, 1⟩, ⟨1 - g.yorder, v, 1⟩)
  | y4 => (⟨1 - g.yorder, v, 1⟩, ⟨g.yorder, v, 1⟩)
  | z => (⟨0, 0, v⟩, ⟨1, 1, v⟩)
  | z2 => (⟨1, 0, v⟩, ⟨0, 1, v⟩)
  | z3 => (⟨0, 1, v⟩, ⟨1, 0, v⟩)
  | z4 => (⟨1, 1, v⟩, ⟨0, 0, v⟩)

/-- `vtickdirection` (`graph.py:984-990`). -/
noncomputable def Graph3.vtickdirection (g : Graph3) (p q : V3) : Option (ℝ × ℝ) :=
  (g.vpos p).bind fun p => (g.vpos q).bind fun q =>
    let norm := Real.sqrt ((q.1 - p.1) * (q.1 - p.1) + (q.2 - p.2) * (q.2 - p.2))
    (divide (q.1 - p.1) norm).bind fun dx => (divide (q.2 - p.2) norm).map fun dy => (dx, dy)

/-- The direction of a tick of an axis. -/
noncomputable def Graph3.tickdirection (g : Graph3) (at' : ℝ) (n : AxisName) (v : ℝ) : Option (ℝ × ℝ) :=
  g.vtickdirection (g.tickPoints at' n v).1 (g.tickPoints at' n v).2

open AxisName in
/-- The attribute `hidden` of an axis (`graph.py:1032-1110`). -/
noncomputable def Graph3.hidden (g : Graph3) (n : AxisName) : Prop :=
  match n with
  | x => if g.xorder = 1 then ¬ g.py1show ∧ ¬ g.pz0show else ¬ g.py0show ∧ ¬ g.pz0show
  | x2 => if g.xorder = 1 then ¬ g.py0show ∧ ¬ g.pz0show else ¬ g.py1show ∧ ¬ g.pz0show
  | x3 => if g.xorder = 1 then ¬ g.py1show ∧ ¬ g.pz1show else ¬ g.py0show ∧ ¬ g.pz1show
  | x4 => if g.xorder = 1 then ¬ g.py0show ∧ ¬ g.pz1show else ¬ g.py1show ∧ ¬ g.pz1show
  | y => if g.yorder = 1 then ¬ g.px1show ∧ ¬ g.pz0show else ¬ g.px0show ∧ ¬ g.pz0show
  | y2 => if g.yorder = 1 then ¬ g.px0show ∧ ¬ g.pz0show else ¬ g.px1show ∧ ¬ g.pz0show
  | y3 => if g.yorder = 1 then ¬ g.px1show ∧ ¬ g.pz1show else ¬ g.px0show ∧ ¬ g.pz1show
  | y4 => if g.yorder = 1 then ¬ g.px0show ∧ ¬ g.pz1show else ¬ g.px1show ∧ ¬ g.pz1show
  | z => ¬ g.px0show ∧ ¬ g.py0show
  | z2 => ¬ g.px1show ∧ ¬ g.py0show
  | z3 => ¬ g.px0show ∧ ¬ g.py1show
  | z4 => ¬ g.px1show ∧ ¬ g.py1show

end PyX.Graph
