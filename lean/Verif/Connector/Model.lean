import Verif.Path.Arc

/-!
# Connectors between boxes (`pyx/connector.py`)

The curves that the connectors draw between the centers of two boxes, before `omitends` and `shortenpath` cut off their ends
(`connector.py:34-73`, not modelled).  Numbers are reals; `ZeroDivisionError` and the domain errors of `math.acos` and `math.sqrt` are
values.
-/

set_option linter.unusedSectionVars false

namespace PyX.Connector

open Real PyX.NormPath PyX.Path

noncomputable section

/-- The exceptions of the constructors. -/
inductive Err where
  | zeroDivision
  | domain
  | notImplemented
deriving DecidableEq, Repr

/-- The path of a connector. -/
inductive Conn where
  /-- a straight line -/
  | line (p q : ℝ × ℝ)
  /-- `moveto` to the first point, and `arcn` (`clockwise`) or `arc` with center, radius and angles in degrees -/
  | arc (clockwise : Bool) (start center : ℝ × ℝ) (r angle1 angle2 : ℝ)

/-- The bulge of `arc_pt.__init__` (`connector.py:117-126`). -/
def arcBulge (distance relangle : ℝ) (absbulge relbulge : Option ℝ) : ℝ :=
  if relbulge.isSome || absbulge.isSome then absbulge.getD 0 + relbulge.getD 0 * distance
  else 1 / 2 * distance * tan (1 / 2 * radians relangle)

/-- `mathutils.sign` (`mathutils.py:33-40`). -/
def msign (x : ℝ) : ℝ := if x ≥ 0 then 1 else -1

/-- `arc_pt.__init__` (`connector.py:98-147`). -/
def arc (eps : ℝ) (begin_ end_ : ℝ × ℝ) (relangle : ℝ) (absbulge relbulge : Option ℝ) : Except Err Conn :=
  let distance := hypot (end_.1 - begin_.1) (end_.2 - begin_.2)
  if distance = 0 then .error .zeroDivision
  else
    let tx := (end_.1 - begin_.1) / distance
    let ty := (end_.2 - begin_.2) / distance
    let bulge := arcBulge distance relangle absbulge relbulge
    if |bulge| < eps then .ok (.line begin_ end_)
    else if bulge = 0 then .error .zeroDivision
    else
      let radius := |1 / 2 * (bulge + 1 / 4 * distance ^ 2 / bulge)|
      let centerdist := msign bulge * (radius - |bulge|)
      let cx := 1 / 2 * (begin_.1 + end_.1) + ty * centerdist
      let cy := 1 / 2 * (begin_.2 + end_.2) - tx * centerdist
      let angle1 := atan2 (begin_.2 - cy) (begin_.1 - cx)
      let angle2 := atan2 (end_.2 - cy) (end_.1 - cx)
      .ok (.arc (if bulge > 0 then true else false) begin_ (cx, cy) radius (degrees angle1) (degrees angle2))

/-- `curve_pt.__init__` (`connector.py:155-203`). -/
def curve (begin_ end_ : ℝ × ℝ) (relangle1 relangle2 : ℝ) (absangle1 absangle2 : Option ℝ) (absbulge relbulge : ℝ) : Curve ℝ :=
  let distance := hypot (end_.1 - begin_.1) (end_.2 - begin_.2)
  let dangle := atan2 (end_.2 - begin_.2) (end_.1 - begin_.1)
  let bulge := |distance * relbulge + absbulge|
  let angle1 := match absangle1 with
    | some a => radians a
    | none => dangle + radians relangle1
  let angle2 := match absangle2 with
    | some a => radians a
    | none => dangle + radians relangle2
  ⟨begin_.1, begin_.2, begin_.1 + cos angle1 * bulge, begin_.2 + sin angle1 * bulge,
   end_.1 - cos angle2 * bulge, end_.2 - sin angle2 * bulge, end_.1, end_.2⟩

/-- `twolines_pt._middle_a` (`connector.py:308-311`). -/
def middleA (begin_ : ℝ × ℝ) (dangle length1 angle1 : ℝ) : ℝ × ℝ :=
  let a := dangle - angle1
  (begin_.1 + length1 * cos a, begin_.2 + length1 * sin a)

/-- `twolines_pt._middle_b` (`connector.py:313-315`). -/
def middleB (end_ : ℝ × ℝ) (dangle length2 angle2 : ℝ) : ℝ × ℝ := middleA end_ (-π + dangle) length2 (-angle2)

/-- `twolines_pt._missinglength` (`connector.py:317-322`). -/
def missinglength (lenA lenB angleA : ℝ) : Except Err ℝ :=
  let tmp1 := lenB * cos angleA
  if tmp1 ^ 2 - lenB ^ 2 + lenA ^ 2 < 0 then .error .domain
  else
    let tmp2 := sqrt (tmp1 ^ 2 - lenB ^ 2 + lenA ^ 2)
    if tmp1 > tmp2 then .ok (tmp1 - tmp2) else .ok (tmp1 + tmp2)

/-- The angle of the cosine theorem (`connector.py:272`, `291`, `295`), with the exceptions of the division and of `math.acos`. -/
def cosineAngle (distance length1 length2 : ℝ) : Except Err ℝ :=
  if 2 * distance * length1 = 0 then .error .zeroDivision
  else
    let c := (distance ^ 2 + length1 ^ 2 - length2 ^ 2) / (2 * distance * length1)
    if c < -1 ∨ 1 < c then .error .domain else .ok (arccos c)

/-- The arguments of `twolines_pt`, angles in degrees. -/
structure TwoArgs where
  absangle1 : Option ℝ := none
  absangle2 : Option ℝ := none
  relangle1 : Option ℝ := none
  relangle2 : Option ℝ := none
  relangleM : Option ℝ := none
  length1 : Option ℝ := none
  length2 : Option ℝ := none

/-- The relative angle at the first box in radians (`connector.py:241`, `245`). -/
def TwoArgs.ra1 (A : TwoArgs) (dangle : ℝ) : Option ℝ :=
  match A.absangle1 with
  | some a => some (dangle - radians a)
  | none => A.relangle1.map radians

/-- The relative angle at the second box in radians (`connector.py:242`, `246`). -/
def TwoArgs.ra2 (A : TwoArgs) (dangle : ℝ) : Option ℝ :=
  match A.absangle2 with
  | some a => some (π - dangle + radians a)
  | none => A.relangle2.map radians

/-- The case of two angles (`connector.py:263-268`); the third angle follows from the sum. -/
def twoAngles (begin_ : ℝ × ℝ) (distance dangle ra1 ra2 raM : ℝ) : Except Err (ℝ × ℝ) :=
  if sin raM = 0 then .error .zeroDivision
  else .ok (middleA begin_ dangle (distance * |sin ra2 / sin raM|) ra1)

/-- The middle point of `twolines_pt.__init__` (`connector.py:233-298`): the cases in the order of the tests of the code. -/
def twolines (begin_ end_ : ℝ × ℝ) (A : TwoArgs) : Except Err (ℝ × ℝ) :=
  let distance := hypot (end_.1 - begin_.1) (end_.2 - begin_.2)
  let dangle := atan2 (end_.2 - begin_.2) (end_.1 - begin_.1)
  match A.ra1 dangle, A.ra2 dangle, A.relangleM.map radians, A.length1, A.length2 with
  -- two angles
  | none, some a2, some aM, none, none => twoAngles begin_ distance dangle (π - a2 - aM) a2 aM
  | some a1, none, some aM, none, none => twoAngles begin_ distance dangle a1 (π - a1 - aM) aM
  | some a1, some a2, none, none, none => twoAngles begin_ distance dangle a1 a2 (π - a1 - a2)
  -- two lengths
  | none, none, none, some l1, some l2 => do
      let a1 ← cosineAngle distance l1 l2
      return middleA begin_ dangle l1 a1
  -- one length and one angle
  | some a1, none, none, some l1, none => .ok (middleA begin_ dangle l1 a1)
  | some a1, none, none, none, some l2 => do
      let l1 ← missinglength l2 distance a1
      return middleA begin_ dangle l1 a1
  | none, some a2, none, some l1, none => do
      let l2 ← missinglength l1 distance a2
      return middleB end_ dangle l2 a2
  | none, some a2, none, none, some l2 => .ok (middleB end_ dangle l2 a2)
  | none, none, some aM, some l1, none => do
      let l2 ← missinglength distance l1 aM
      let a1 ← cosineAngle distance l1 l2
      return middleA begin_ dangle l1 a1
  | none, none, some aM, none, some l2 => do
      let l1 ← missinglength distance l2 aM
      let a1 ← cosineAngle distance l1 l2
      return middleA begin_ dangle l1 a1
  -- any other number of arguments
  | _, _, _, _, _ => .error .notImplemented

end

end PyX.Connector
