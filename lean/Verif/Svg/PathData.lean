import Verif.Path.EndProps

/-!
# Model of the reading of SVG path data (`svgfile.py:148-240`, `svgHandler.toPath`)

The commands with their numbers, as split by the regular expressions (see `Verif.Svg.Number`); the numbers are already in points.  The elliptical arc
(commands `A` and `a`) is not part of this model (see `Verif.Svg.EllArc`).
-/

set_option linter.unusedSectionVars false

namespace PyX.Svg

open PyX.NormPath PyX.Path

noncomputable section

/-- The letters other than `A`. -/
inductive Letter
  | M | L | H | V | C | S | Q | T | Z
deriving DecidableEq

/-- A command: letter, whether it is upper case (`cmd.isupper()`), the numbers, and whether reading the numbers ends with an `svgValueError` after these. -/
structure Cmd where
  letter : Letter
  upper : Bool
  args : List ℝ
  bad : Bool

/-- Exceptions leaving `toPath`. -/
inductive SErr
  | unpack -- ValueError: not enough values to unpack
  | index -- IndexError of `p[-1]`
  | path (e : PErr)
deriving DecidableEq

abbrev Res := Except SErr (List PItem)

/-- `p.atend_pt()`, a parameter. -/
abbrev AtEnd := List PItem → Except PErr Pt

/-- The loop for `M`, `m`, `L` and `l` (`svgfile.py:157-165`) after the first turn. -/
def lines (upper : Bool) (p : List PItem) : List ℝ → Res
  | [] => .ok p
  | x :: y :: args => lines upper (p ++ [if upper then .lineto (x, y) else .rlineto (x, y)]) args
  | [_] => .error .unpack

/-- The first turn for `M` and `m` (`svgfile.py:158-165`). -/
def moves (upper : Bool) (p : List PItem) : List ℝ → Res
  | x :: y :: args => lines upper (p ++ [if upper || p.isEmpty then .moveto (x, y) else .rmoveto (x, y)]) args
  | _ => .error .unpack

/-- The first turn for `L` and `l`. -/
def linesFirst (upper : Bool) (p : List PItem) : List ℝ → Res
  | x :: y :: args => lines upper (p ++ [if upper then .lineto (x, y) else .rlineto (x, y)]) args
  | _ => .error .unpack

/-- The loop for `H`, `h`, `V` and `v` (`svgfile.py:168-174`): the coordinate which is not given is kept. -/
def straight (horizontal upper : Bool) (other : ℝ) (p : List PItem) : List ℝ → List PItem
  | [] => p
  | a :: args =>
    let q : Pt := if horizontal then (a, other) else (other, a)
    straight horizontal upper other (p ++ [if upper then .lineto q else .rlineto q]) args

/-- The item of a curve (`svgfile.py:193-194`). -/
def curve (upper : Bool) (p1 p2 p3 : Pt) : PItem := if upper then .curveto p1 p2 p3 else .rcurveto p1 p2 p3

/-- The loop for `C` and `c` (`svgfile.py:176-178, 193-194`) after the first turn. -/
def curves (upper : Bool) (p : List PItem) : List ℝ → Res
  | [] => .ok p
  | x1 :: y1 :: x2 :: y2 :: x3 :: y3 :: args => curves upper (p ++ [curve upper (x1, y1) (x2, y2) (x3, y3)]) args
  | _ => .error .unpack

/-- The difference of the last two points of the last item (`svgfile.py:181-188`, `svgfile.py:212-219`); zero if it is not a curve. -/
def lastDiff : PItem → Pt
  | .curveto _ p2 p3 => p3 - p2
  | .rcurveto _ d2 d3 => d3 - d2
  | _ => (0, 0)

/-- The first control point of `S` and `s` (`svgfile.py:181-192`): relative to the current point for `s`. -/
def smoothPoint (atEnd : AtEnd) (upper : Bool) (p : List PItem) : Except SErr Pt :=
  match p.getLast? with
  | none => .error .index
  | some i =>
    if upper then
      match atEnd p with
      | .ok p0 => .ok (lastDiff i + p0)
      | .error e => .error (.path e)
    else .ok (lastDiff i)

/-- The loop for `S` and `s` (`svgfile.py:176, 180-194`) after the first turn. -/
def smooths (atEnd : AtEnd) (upper : Bool) (p : List PItem) : List ℝ → Res
  | [] => .ok p
  | x2 :: y2 :: x3 :: y3 :: args =>
    match smoothPoint atEnd upper p with
    | .ok p1 => smooths atEnd upper (p ++ [curve upper p1 (x2, y2) (x3, y3)]) args
    | .error e => .error e
  | _ => .error .unpack

/-- The Bezier curve of a quadratic one (`svgfile.py:220-224`). -/
def quad (p0 q p3 : Pt) : PItem :=
  .curveto (p0.1 + 2 / 3 * (q.1 - p0.1), p0.2 + 2 / 3 * (q.2 - p0.2)) (p3.1 + 2 / 3 * (q.1 - p3.1), p3.2 + 2 / 3 * (q.2 - p3.2)) p3

/-- Relative coordinates (`svgfile.py:200-204, 207-209`). -/
def shifted (upper : Bool) (p0 d : Pt) : Pt := if upper then d else d + p0

/-- The loop for `Q` and `q` (`svgfile.py:196-204, 220-224`) after the first turn. -/
def quads (atEnd : AtEnd) (upper : Bool) (p : List PItem) : List ℝ → Res
  | [] => .ok p
  | a :: args =>
    match atEnd p with
    | .error e => .error (.path e)
    | .ok p0 =>
      match args with
      | b :: c :: d :: args => quads atEnd upper (p ++ [quad p0 (shifted upper p0 (a, b)) (shifted upper p0 (c, d))]) args
      | _ => .error .unpack

/-- The control point of `T` and `t` (`svgfile.py:210-219`). -/
def reflected (p0 : Pt) (i : PItem) : Pt := (p0.1 + 3 / 2 * (lastDiff i).1, p0.2 + 3 / 2 * (lastDiff i).2)

/-- The loop for `T` and `t` (`svgfile.py:196-197, 205-224`) after the first turn. -/
def quadSmooths (atEnd : AtEnd) (upper : Bool) (p : List PItem) : List ℝ → Res
  | [] => .ok p
  | a :: args =>
    match atEnd p with
    | .error e => .error (.path e)
    | .ok p0 =>
      match args with
      | b :: args =>
        match p.getLast? with
        | none => .error .index
        | some i => quadSmooths atEnd upper (p ++ [quad p0 (reflected p0 i) (shifted upper p0 (a, b))]) args
      | _ => .error .unpack

/-- Unpacking the numbers of the first turn reads all of them; an `svgValueError` leaves the path as it is (`svgfile.py:239-240`), and without any number the
unpacking fails. -/
def unpacked (c : Cmd) (p : List PItem) (f : List ℝ → Res) : Res :=
  if c.bad then .ok p else if c.args.isEmpty then .error .unpack else f c.args

/-- The end of the path before the first turn of `H`, `V`, `Q` and `T`. -/
def withEnd (atEnd : AtEnd) (p : List PItem) (f : Pt → Res) : Res :=
  match atEnd p with
  | .ok q => f q
  | .error e => .error (.path e)

/-- One command (`svgfile.py:151-240`). -/
def step (atEnd : AtEnd) (p : List PItem) (c : Cmd) : Res :=
  match c.letter with
  | .M => unpacked c p (moves c.upper p)
  | .L => unpacked c p (linesFirst c.upper p)
  | .H => if c.upper then withEnd atEnd p fun q => .ok (straight true true q.2 p c.args) else .ok (straight true false 0 p c.args)
  | .V => if c.upper then withEnd atEnd p fun q => .ok (straight false true q.1 p c.args) else .ok (straight false false 0 p c.args)
  | .C => unpacked c p (curves c.upper p)
  | .S => unpacked c p (smooths atEnd c.upper p)
  | .Q => withEnd atEnd p fun _ => unpacked c p (quads atEnd c.upper p)
  | .T => withEnd atEnd p fun _ => unpacked c p (quadSmooths atEnd c.upper p)
  | .Z => .ok (p ++ [.closepath])

/-- The loop of `toPath` (`svgfile.py:150-240`). -/
def loop (atEnd : AtEnd) : List PItem → List Cmd → Res
  | p, [] => .ok p
  | p, c :: cs =>
    match step atEnd p c with
    | .ok p => loop atEnd p cs
    | .error e => .error e

/-- `toPath` (`svgfile.py:148-241`); `p.atend_pt()` is that of `Verif.Path.EndProps`. -/
def toPath (roots : ℝ → ℝ → ℝ → ℝ → List ℝ) (eps : Option ℝ) (n : ℕ) (cs : List Cmd) : Res := loop (Path.atEnd roots eps n) [] cs

end

end PyX.Svg
