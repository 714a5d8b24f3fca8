import Verif.T1.CharstringSpec
import Mathlib.Algebra.Ring.Rat
import Mathlib.Algebra.Group.Prod

/-!
# Specification: the outline of a Type 1 glyph

Independent of PyX's code. The list of executed operators of a charstring (`Spec.drawing`) describes an
outline made of lines, curves and closing lines, with the meaning of the operators given in chapter 6 and of
the flex procedures in chapter 8 of the *Adobe Type 1 Font Format*. The outline is undefined (`none`) when an
operator has the wrong number of operands or appears in the wrong place.
-/

namespace PyX.T1.Spec

abbrev Pt := ℚ × ℚ

/-- A drawn piece: a straight line, a Bézier curve, the line closing a subpath. -/
inductive Seg (P : Type) where
  | line (a b : P)
  | curve (a b c d : P)
  | close (a b : P)
deriving DecidableEq

def Seg.map {P Q : Type} (f : P → Q) : Seg P → Seg Q
  | .line a b => .line (f a) (f b)
  | .curve a b c d => .curve (f a) (f b) (f c) (f d)
  | .close a b => .close (f a) (f b)

/-- The drawing in progress. `cur` is the current point in the coordinates of the component being drawn,
`origin` the position of the component in the glyph; `pen` and `start` are the end and the beginning of the
current subpath in the glyph; `flex` are the points collected in a flex section, and whether a move has been
made after the last one. -/
structure Geo where
  sb : ℚ
  width : Option Pt
  comp : Bool
  ended : Bool
  origin : Pt
  cur : Option Pt
  pen : Pt
  start : Pt
  flex : Option (List Pt × Bool)
  segs : List (Seg Pt)
deriving DecidableEq

def Geo.init : Geo := ⟨0, none, false, false, (0, 0), none, (0, 0), (0, 0), none, []⟩

/-- The left sidebearing point and the width; they come first. The width is that of the whole glyph. -/
def Geo.side (sb w : Pt) (γ : Geo) : Option Geo :=
  if γ.cur.isSome ∨ γ.flex.isSome then none
  else some { γ with cur := some sb, pen := sb + γ.origin, start := sb + γ.origin
                     width := if γ.comp then γ.width else some w, sb := if γ.comp then γ.sb else sb.1 }

/-- A relative move; inside a flex section it does not start a subpath. -/
def Geo.move (d : Pt) (γ : Geo) : Option Geo :=
  γ.cur.bind fun p =>
    match γ.flex with
    | none => some { γ with cur := some (p + d), pen := p + d + γ.origin, start := p + d + γ.origin }
    | some (pts, false) => some { γ with cur := some (p + d), flex := some (pts, true) }
    | some (_, true) => none

def Geo.line (d : Pt) (γ : Geo) : Option Geo :=
  γ.cur.bind fun p =>
    if γ.flex.isSome then none
    else some { γ with cur := some (p + d), pen := p + d + γ.origin
                       segs := γ.segs ++ [.line γ.pen (p + d + γ.origin)] }

def Geo.curve (a b c : Pt) (γ : Geo) : Option Geo :=
  γ.cur.bind fun p =>
    if γ.flex.isSome then none
    else some { γ with cur := some (p + a + b + c), pen := p + a + b + c + γ.origin
                       segs := γ.segs ++ [.curve γ.pen (p + a + γ.origin) (p + a + b + γ.origin)
                         (p + a + b + c + γ.origin)] }

/-- `closepath` does not move the current point. -/
def Geo.close (γ : Geo) : Option Geo :=
  if γ.cur.isNone ∨ γ.flex.isSome then none
  else some { γ with start := γ.pen, segs := γ.segs ++ [.close γ.pen γ.start] }

/-- `setcurrentpoint` only states the current point. -/
def Geo.setcur (q : Pt) (γ : Geo) : Option Geo :=
  if γ.cur = some q ∧ γ.flex.isNone then some γ else none

/-- End of a flex section with the seven points: the first one is only a reference point. With `curves`
unset a line replaces the two curves (flex below the threshold). -/
def Geo.flexEnd (curves : Bool) (q : Pt) (γ : Geo) : Option Geo :=
  match γ.flex with
  | some ([_, a, b, c, d, e, f], false) =>
    if f = q ∧ γ.cur = some q then
      let o := γ.origin
      some { γ with flex := none, pen := q + o
                    segs := γ.segs ++ (if curves then [.curve γ.pen (a + o) (b + o) (c + o),
                        .curve (c + o) (d + o) (e + o) (f + o)]
                      else [.line γ.pen (q + o)]) }
    else none
  | _ => none

/-- Counter hints draw nothing; any other procedure is unknown. -/
def Geo.counter (γ : Geo) (args : List ℚ) : Option Geo :=
  match args with
  | o :: _ => if (o = 12 ∨ o = 13) ∧ γ.flex.isNone then some γ else none
  | [] => none

/-- The `OtherSubrs` procedures: 0, 1, 2 are flex, 3 is hint replacement, 12 and 13 are counter hints. -/
def Geo.proc (curves : Bool) (γ : Geo) (args : List ℚ) : Option Geo :=
  match args with
  | [o] =>
    if o = 1 then if γ.flex.isSome ∨ γ.cur.isNone then none else some { γ with flex := some ([], false) }
    else if o = 2 then
      match γ.flex, γ.cur with
      | some (pts, true), some p => some { γ with flex := some (pts ++ [p], false) }
      | _, _ => none
    else γ.counter args
  | [o, _] => if o = 3 then some γ else γ.counter args
  | [o, _, x, y] => if o = 0 then γ.flexEnd curves (x, y) else γ.counter args
  | _ => γ.counter args

/-- The operators. -/
def Geo.op (curves : Bool) (t : Tok) (args : List ℚ) (γ : Geo) : Option Geo :=
  match t, args with
  | .cmd 13, [sbx, wx] => γ.side (sbx, 0) (wx, 0)
  | .esc 7, [sbx, sby, wx, wy] => γ.side (sbx, sby) (wx, wy)
  | .cmd 21, [dx, dy] => γ.move (dx, dy)
  | .cmd 22, [dx] => γ.move (dx, 0)
  | .cmd 4, [dy] => γ.move (0, dy)
  | .cmd 5, [dx, dy] => γ.line (dx, dy)
  | .cmd 6, [dx] => γ.line (dx, 0)
  | .cmd 7, [dy] => γ.line (0, dy)
  | .cmd 8, [dx1, dy1, dx2, dy2, dx3, dy3] => γ.curve (dx1, dy1) (dx2, dy2) (dx3, dy3)
  | .cmd 31, [dx1, dx2, dy2, dy3] => γ.curve (dx1, 0) (dx2, dy2) (0, dy3)
  | .cmd 30, [dy1, dx2, dy2, dx3] => γ.curve (0, dy1) (dx2, dy2) (dx3, 0)
  | .cmd 9, [] => γ.close
  | .cmd 1, [_, _] => some γ
  | .cmd 3, [_, _] => some γ
  | .esc 0, [] => some γ
  | .esc 1, [_, _, _, _, _, _] => some γ
  | .esc 2, [_, _, _, _, _, _] => some γ
  | .esc 33, [x, y] => γ.setcur (x, y)
  | .esc 16, args => γ.proc curves args
  | .cmd 14, [] => if γ.flex.isSome then none else some { γ with ended := true }
  | _, _ => none

/-- One event. `off sb adx asb` is the horizontal position of the accent of a composite glyph. -/
def Geo.step (off : ℚ → ℚ → ℚ → ℚ) (curves : Bool) (γ : Geo) : Ev → Option Geo
  | .op t args => if γ.ended then none else γ.op curves t args
  | .call _ => if γ.ended then none else some γ
  | .base _ => if γ.comp ∨ γ.ended ∨ γ.flex.isSome then none else some { γ with comp := true, cur := none }
  | .accent _ asb adx ady =>
    if γ.comp ∧ γ.ended then
      some { γ with ended := false, cur := none, origin := (off γ.sb adx asb, ady) }
    else none

/-- The drawing after a list of events. -/
def geo (off : ℚ → ℚ → ℚ → ℚ) (curves : Bool) (evs : List Ev) : Option Geo :=
  evs.foldlM (Geo.step off curves) Geo.init

/-- `seac` puts the left sidebearing point of the accent at `adx`, relative to that of the whole glyph. -/
def seacOffset (sb adx asb : ℚ) : ℚ := sb + adx - asb

/-- The outline and the width of a drawing that has come to its end. -/
def outline (off : ℚ → ℚ → ℚ → ℚ) (curves : Bool) (evs : List Ev) : Option (List (Seg Pt) × Pt) :=
  (geo off curves evs).bind fun γ => if γ.ended then γ.width.map fun w => (γ.segs, w) else none

/-- What the standard `OtherSubrs` procedures hand back: the end of a flex section its end point. -/
def stdOther : Other := fun o args _ => if o = 0 then args.drop 1 else []

/-- The restrictions met by ordinary fonts: quotients are integers; `callothersubr` takes the whole stack,
calls one of the standard procedures, and its results have been taken before the next call. -/
def tidy : Ok := fun t s =>
  match t with
  | .esc 12 => match s.stack with
    | b :: a :: _ => decide ((a.q / b.q).den = 1)
    | _ => true
  | .esc 16 => s.ps.isEmpty && match s.stack with
    | .int o :: .int n :: st => decide (st.length = n.toNat ∧ (o, n) ∈ [((0 : Int), (3 : Int)), (1, 0), (2, 0), (3, 1)])
    | _ => false
  | .esc 6 => s.ps.isEmpty
  | .cmd 14 => s.ps.isEmpty
  | _ => true

end PyX.T1.Spec
