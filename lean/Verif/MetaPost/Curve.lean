import Verif.MetaPost.Model
import Mathlib.Analysis.SpecialFunctions.Complex.Arg

/-!
# Model of the control points of MetaPost-like paths (`pyx/metapost/mp_path.py:100-380`)

One run of knots between two breakpoints, or once round a cycle. Floats are real numbers; `atan2(y, x)` is
`Complex.arg ⟨x, y⟩`. The solution of the linear system is the one of `Model`. Knots are numbered from `0`;
the values beyond the last knot of an open run are never used. A division by zero is `none`.
-/

set_option linter.unusedSectionVars false

namespace PyX.MetaPost

open Real

/-- Positions, right and left tensions (negative for "at least"), the types of the ends; a given direction is
the angle itself. In a cycle, the knots are repeated with the period `n`. -/
structure Run where
  n : ℕ
  x : ℕ → ℝ
  y : ℕ → ℝ
  rt : ℕ → ℝ
  lt : ℕ → ℝ
  start : Start ℝ
  stop : Stop ℝ

/-- `pyx/metapost/mp_path.py:111`. -/
def Run.dx (R : Run) (k : ℕ) : ℝ := R.x (k + 1) - R.x k

/-- `pyx/metapost/mp_path.py:112`. -/
def Run.dy (R : Run) (k : ℕ) : ℝ := R.y (k + 1) - R.y k

/-- `mp_pyth_add` of the two (`pyx/metapost/mp_path.py:113, 405`). -/
noncomputable def Run.delta (R : Run) (k : ℕ) : ℝ := √(R.dx k * R.dx k + R.dy k * R.dy k)

/-- `mp_n_arg` (`pyx/metapost/mp_path.py:337-339`). -/
noncomputable def nArg (x y : ℝ) : ℝ := Complex.arg ⟨x, y⟩

/-- `pyx/metapost/mp_path.py:115-119`. -/
noncomputable def Run.turn (R : Run) (k : ℕ) : ℝ :=
  let sine := R.dy (k - 1) / R.delta (k - 1)
  let cosine := R.dx (k - 1) / R.delta (k - 1)
  nArg (R.dx k * cosine + R.dy k * sine) (R.dy k * cosine - R.dx k * sine)

/-- The list `psi` (`pyx/metapost/mp_path.py:114-130`): the last entry is `0`, in a cycle it is `psi[1]`. -/
noncomputable def Run.psi (R : Run) (k : ℕ) : ℝ :=
  match R.stop with
  | .cycle => if k = R.n + 1 then R.turn 1 else R.turn k
  | _ => if k = R.n then 0 else R.turn k

/-- `reduce_angle` (`pyx/metapost/mp_path.py:439-446`). -/
noncomputable def reduceAngle (a : ℝ) : ℝ :=
  if π < |a| then if 0 < a then a - 2 * π else a + 2 * π else a

/-- `pyx/metapost/mp_path.py:199-200`. -/
noncomputable def Run.start' (R : Run) : Start ℝ :=
  match R.start with
  | .given v => .given (reduceAngle (v - nArg (R.dx 0) (R.dy 0)))
  | .curl g => .curl g
  | .cycle => .cycle

/-- `pyx/metapost/mp_path.py:310-311`. -/
noncomputable def Run.stop' (R : Run) : Stop ℝ :=
  match R.stop with
  | .given v => .given (reduceAngle (v - nArg (R.dx (R.n - 1)) (R.dy (R.n - 1))))
  | .curl g => .curl g
  | .cycle => .cycle

/-- The linear system that is solved. -/
noncomputable def Run.chain (R : Run) : Chain ℝ :=
  ⟨R.n, R.delta, R.psi, fun k => |R.rt k|, fun k => |R.lt k|, R.start', R.stop'⟩

/-- `mp_velocity` (`pyx/metapost/mp_path.py:433-437`). -/
noncomputable def velocity (st ct sf cf t : ℝ) : Option ℝ :=
  let den := 3 / 2 * t * (2 + (√5 - 1) * ct + (3 - √5) * cf)
  if den = 0 then none
  else some (min 4 ((2 + √2 * (st - sf / 16) * (sf - st / 16) * (ct - cf)) / den))

/-- The safety factor (`pyx/metapost/mp_path.py:367`). -/
noncomputable def safety : ℝ := 100024414062 / 100000000000

/-- Decrease of one velocity (`pyx/metapost/mp_path.py:360-373`); `s1`, `s2` are the sines of the angles at this
and at the other end, `c1`, `c2` the cosines, `v` the velocity at this end, `t` its tension. -/
noncomputable def decrease (s1 c1 s2 c2 v t : ℝ) : ℝ :=
  if (0 ≤ s1 ∧ 0 ≤ s2) ∨ (s1 ≤ 0 ∧ s2 ≤ 0) then
    let sine := |s1| * c2 + |s2| * c1
    if 0 < sine then
      let sine' := sine * safety
      if t < 0 then if |s2| < v * sine' then |s2| / sine' else v
      else v
    else v
  else v

/-- `mp_set_controls` (`pyx/metapost/mp_path.py:349-380`). -/
noncomputable def setControls (px py qx qy rtp ltq dx dy st ct sf cf : ℝ) : Option ((ℝ × ℝ) × (ℝ × ℝ)) :=
  (velocity st ct sf cf |rtp|).bind fun rr =>
  (velocity sf cf st ct |ltq|).map fun ss =>
    let rr := decrease st ct sf cf rr rtp
    let ss := decrease sf cf st ct ss ltq
    ((px + (dx * ct - dy * st) * rr, py + (dy * ct + dx * st) * rr),
     (qx - (dx * cf + dy * sf) * ss, qy - (dy * cf - dx * sf) * ss))

/-- Which way the run is handled (`pyx/metapost/mp_path.py:189-221`). -/
inductive Way where
  | givens (a b : ℝ)
  | line
  | solve

def Run.way (R : Run) : Way :=
  if R.n = 1 then
    match R.start, R.stop with
    | .given a, .given b => .givens a b
    | .curl _, .curl _ => .line
    | _, _ => .solve
  else .solve

/-- The control points between knots `k` and `k + 1` (`pyx/metapost/mp_path.py:189-219, 321-335`). -/
noncomputable def Run.segment (R : Run) (k : ℕ) : Option ((ℝ × ℝ) × (ℝ × ℝ)) :=
  match R.way with
  | .givens a b =>
    let aa := nArg (R.dx 0) (R.dy 0)
    setControls (R.x 0) (R.y 0) (R.x 1) (R.y 1) (R.rt 0) (R.lt 1) (R.dx 0) (R.dy 0)
      (sin (a - aa)) (cos (a - aa)) (-sin (b - aa)) (cos (b - aa))
  | .line =>
    if 3 * |R.rt 0| = 0 then none
    else if 3 * |R.lt 1| = 0 then none
    else some ((R.x 0 + R.dx 0 * (1 / (3 * |R.rt 0|)), R.y 0 + R.dy 0 * (1 / (3 * |R.rt 0|))),
      (R.x 1 - R.dx 0 * (1 / (3 * |R.lt 1|)), R.y 1 - R.dy 0 * (1 / (3 * |R.lt 1|))))
  | .solve =>
    let th := theta R.chain k
    let ph := -R.psi (k + 1) - theta R.chain (k + 1)
    setControls (R.x k) (R.y k) (R.x (k + 1)) (R.y (k + 1)) (R.rt k) (R.lt (k + 1)) (R.dx k) (R.dy k)
      (sin th) (cos th) (sin ph) (cos ph)

end PyX.MetaPost
