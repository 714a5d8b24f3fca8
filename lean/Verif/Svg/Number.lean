import Verif.Svg.PathData
import Mathlib.Data.Rat.Floor
import Mathlib.Algebra.Order.Field.Rat

/-!
# Model of the reading of numbers and commands in SVG attributes (`svgfile.py:84-134, 148-156`)

Strings are lists of characters and numbers are rational (the exact value of the decimal literal, `float` rounds it).  `\s` is ASCII white space, and ignoring the
case is restricted to ASCII.  The regular expressions are written as the functions their matching amounts to: all choices made by the matcher are determined by
the next characters.
-/

set_option linter.unusedSectionVars false

namespace PyX.Svg

open PyX.Path

/-! ## Characters -/

/-- `[0-9]` -/
def digit (c : Char) : Bool := c.isDigit

/-- `\s` -/
def ws (c : Char) : Bool := c == ' ' || c == '\t' || c == '\n' || c == '\r' || c == '\x0b' || c == '\x0c'

/-- The number written by digits. -/
def natOf (ds : List Char) : ℕ := ds.foldl (fun n c => 10 * n + (c.toNat - 48)) 0

/-! ## Numbers -/

/-- `[-+]?`: whether there is a minus sign, and the rest. -/
def readSign : List Char → Bool × List Char
  | '-' :: s => (true, s)
  | '+' :: s => (false, s)
  | s => (false, s)

/-- `[0-9]*\.?[0-9]+` (`svgfile.py:84`): the digits before and after the point, and the rest.  Without a digit after the point the expression
matches the digits before it. -/
def readMantissa (s : List Char) : Option (List Char × List Char × List Char) :=
  let d := s.takeWhile digit
  let r := s.dropWhile digit
  let whole := if d.isEmpty then none else some (d, [], r)
  match r with
  | '.' :: t => if (t.takeWhile digit).isEmpty then whole else some (d, t.takeWhile digit, t.dropWhile digit)
  | _ => whole

/-- `([eE][-+]?[0-9]+)?`: the exponent, and the rest. -/
def readExp (s : List Char) : ℤ × List Char :=
  match s with
  | c :: t =>
    if c == 'e' || c == 'E' then
      let sg := readSign t
      if (sg.2.takeWhile digit).isEmpty then (0, s)
      else ((if sg.1 then -1 else 1) * (natOf (sg.2.takeWhile digit) : ℤ), sg.2.dropWhile digit)
    else (0, s)
  | [] => (0, s)

/-- The group `value` of `_svgFloatPattern` (`svgfile.py:84`) with `float` of it (`svgfile.py:109`), and the rest. -/
def readValue (s : List Char) : Option (ℚ × List Char) :=
  let sg := readSign s
  (readMantissa sg.2).map fun m =>
    let e := readExp m.2.2
    ((if sg.1 then -1 else 1) * ((natOf (m.1 ++ m.2.1) : ℚ) / 10 ^ m.2.1.length) * 10 ^ e.1, e.2)

/-- Units (`svgfile.py:95-101`). -/
inductive Unit
  | none | px | pt | pc | mm | cm | inch | percent
deriving DecidableEq

/-- The group `unit`. -/
def readUnit : List Char → Unit × List Char
  | 'p' :: 'x' :: s => (.px, s)
  | 'p' :: 't' :: s => (.pt, s)
  | 'p' :: 'c' :: s => (.pc, s)
  | 'm' :: 'm' :: s => (.mm, s)
  | 'c' :: 'm' :: s => (.cm, s)
  | 'i' :: 'n' :: s => (.inch, s)
  | '%' :: s => (.percent, s)
  | s => (.none, s)

/-- `\s*,?\s*` -/
def skipSep (s : List Char) : List Char :=
  match s.dropWhile ws with
  | ',' :: t => t.dropWhile ws
  | t => t

/-- `self.units` (`svgfile.py:95-101`), in points, for the resolution `res`; none for `%`. -/
def factor (res : ℚ) : Unit → Option ℚ
  | .none => some (72 / res)
  | .px => some (72 / res)
  | .pt => some 1
  | .pc => some 12
  | .mm => some (72 / (254 / 10))
  | .cm => some (72 / (254 / 100))
  | .inch => some 72
  | .percent => Option.none

/-- `toFloat` (`svgfile.py:103-124`) with `single=False`; none is `svgValueError`. -/
def toFloat (res : ℚ) (units : Bool) (relative : Option ℚ) (s : List Char) : Option (ℚ × List Char) :=
  (readValue s).bind fun v =>
    let u := readUnit v.2
    if u.1 ≠ .none ∧ units = false then none
    else if u.1 = .percent then relative.map fun r => (v.1 * (1 / 100 * r), skipSep u.2)
    else if units then (factor res u.1).map fun f => (v.1 * f, skipSep u.2)
    else some (v.1, skipSep u.2)

/-- `toFloats` (`svgfile.py:126-129`): the numbers, and whether it ends with an `svgValueError`.  Each number takes at least one character: the length of the text
is enough for the number of turns. -/
def toFloatsN (res : ℚ) (units : Bool) : ℕ → List Char → List ℚ × Bool
  | _, [] => ([], false)
  | 0, _ => ([], true)
  | n + 1, s =>
    match toFloat res units none s with
    | none => ([], true)
    | some v => let r := toFloatsN res units n v.2; (v.1 :: r.1, r.2)

def toFloats (res : ℚ) (units : Bool) (s : List Char) : List ℚ × Bool := toFloatsN res units s.length s

/-- `toBool` (`svgfile.py:141-145`). -/
def toBool : List Char → Option (Bool × List Char)
  | '0' :: s => some (false, skipSep s)
  | '1' :: s => some (true, skipSep s)
  | _ => none

/-! ## Commands -/

/-- `[mlhvcsqtaz]` ignoring the case. -/
def isCmd (c : Char) : Bool := c.toLower ∈ ['m', 'l', 'h', 'v', 'c', 's', 'q', 't', 'a', 'z']

/-- `([^mlhvcsqtaz]|pt|pc|mm|cm)*` (`svgfile.py:86`): the text and the rest.  The alternatives `pt` and `pc` are never reached: their first letter is taken by the first
alternative, which ends the text before the `t` or `c`. -/
def takeArgs : List Char → List Char × List Char
  | [] => ([], [])
  | [c] => if isCmd c then ([], [c]) else ([c], [])
  | c :: d :: s =>
    if !isCmd c then
      let r := takeArgs (d :: s)
      (c :: r.1, r.2)
    else if (c.toLower == 'm' || c.toLower == 'c') && d.toLower == 'm' then
      let r := takeArgs s
      (c :: d :: r.1, r.2)
    else ([], c :: d :: s)

/-- `_svgPathPattern.finditer` (`svgfile.py:86, 151-153`): the commands with the text of their arguments. -/
def findCmds : ℕ → List Char → List (Char × List Char)
  | 0, _ => []
  | n + 1, s =>
    match s.dropWhile fun c => !isCmd c with
    | [] => []
    | c :: t =>
      let a := takeArgs (t.dropWhile ws)
      (c, a.1) :: findCmds n a.2

/-- All commands of path data. -/
def commands (s : List Char) : List (Char × List Char) := findCmds (s.length + 1) s

/-- The numbers of the arguments of an arc (`svgfile.py:227-234`): radii, rotation, flags and end point.  All numbers are read with units. -/
structure ArcArgs where
  rx : ℚ
  ry : ℚ
  phi : ℚ
  large : Bool
  sweep : Bool
  x : ℚ
  y : ℚ
deriving DecidableEq

/-- The arguments of one arc, and the rest. -/
def readArc (res : ℚ) (s : List Char) : Option (ArcArgs × List Char) :=
  (toFloat res true none s).bind fun rx =>
  (toFloat res true none rx.2).bind fun ry =>
  (toFloat res true none ry.2).bind fun phi =>
  (toBool phi.2).bind fun fA =>
  (toBool fA.2).bind fun fS =>
  (toFloat res true none fS.2).bind fun x =>
  (toFloat res true none x.2).map fun y => (⟨rx.1, ry.1, phi.1, fA.1, fS.1, x.1, y.1⟩, y.2)

/-- The letter of a command without arcs. -/
def letterOf (c : Char) : Option Letter :=
  match c.toLower with
  | 'm' => some .M
  | 'l' => some .L
  | 'h' => some .H
  | 'v' => some .V
  | 'c' => some .C
  | 's' => some .S
  | 'q' => some .Q
  | 't' => some .T
  | 'z' => some .Z
  | _ => none

noncomputable section

/-- A command with its numbers (`svgfile.py:152-156`); none for arcs. -/
def cmdOf (res : ℚ) (c : Char × List Char) : Option Cmd :=
  (letterOf c.1).map fun l => ⟨l, c.1.isUpper, (toFloats res true c.2).1.map (fun (q : ℚ) => (q : ℝ)), (toFloats res true c.2).2⟩

end

end PyX.Svg
