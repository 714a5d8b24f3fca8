import Mathlib.Algebra.Order.Field.Basic
import Mathlib.Algebra.Order.Group.Abs
import Mathlib.Data.List.FinRange
import Mathlib.Data.Fin.VecNotation
import Mathlib.Tactic.FieldSimp
import Mathlib.Tactic.Linarith

/-!
# Lines of a graph, cut at its boundary: model of `pos.drawpoint` and `_line` (`graph/style.py:222-235, 509-629`)

The position of a data point is given by one number per dimension of the graph, between 0 and 1 within the graph.  `f` is `graph.vpos_pt`, the map of these numbers to
points of the canvas; a path of straight lines is the list of its points.
-/

set_option linter.unusedSectionVars false

namespace PyX.Style

variable {K : Type*} [Field K] [LinearOrder K] [IsStrictOrderedRing K] {n : ℕ} {P : Type*}

/-- The position of a point in the graph. -/
abbrev VPos (K : Type*) (n : ℕ) := Fin n → K

/-! ## Model -/

/-- `vposvalid` (`style.py:224-235`): within the graph, up to `epsilon`. -/
def valid (eps : K) (v : VPos K n) : Bool := (List.finRange n).all fun i => !(decide (v i < -eps) || decide (1 + eps < v i))

/-- The cut of one coordinate which leaves the graph towards `vend` (`style.py:545-551`, `style.py:591-596`). -/
def leave (a b : K) : Option K :=
  if b < 0 then some (-a / (b - a)) else if 1 < b then some ((1 - a) / (b - a)) else none

/-- The cut of one coordinate which comes from outside (`style.py:569-575`, `style.py:585-590`). -/
def enter (a b : K) : Option K :=
  if a < 0 then some (-a / (b - a)) else if 1 < a then some ((1 - a) / (b - a)) else none

/-- `if newcut is not None and newcut < cut: cut = newcut` -/
def lower (cut : K) : Option K → K
  | none => cut
  | some c => if c < cut then c else cut

/-- `if newcut is not None and newcut > cut: cut = newcut` -/
def raise (cut : K) : Option K → K
  | none => cut
  | some c => if cut < c then c else cut

/-- The point at a part of the line (`style.py:554-556` and similar). -/
def between (u v : VPos K n) (t : K) : VPos K n := fun i => u i + (v i - u i) * t

/-- `cut` for a line which ends outside (`style.py:541-553`). -/
def cutEnd (eps : K) (u v : VPos K n) : K :=
  (List.finRange n).foldl (fun cut i => if eps < |v i - u i| then lower cut (leave (u i) (v i)) else cut) 1

/-- `cut` for a line which begins outside (`style.py:565-577`). -/
def cutBegin (eps : K) (u v : VPos K n) : K :=
  (List.finRange n).foldl (fun cut i => if eps < |v i - u i| then raise cut (enter (u i) (v i)) else cut) 0

/-- `cutfrom`, `cutto` for a line between two points outside (`style.py:583-606`); `none`: the loop is left by `break`. -/
def cutBoth (eps : K) (u v : VPos K n) : List (Fin n) → K × K → Option (K × K)
  | [], c => some c
  | i :: l, c =>
    if 1 < u i ∧ 1 < v i then none
    else if u i < 0 ∧ v i < 0 then none
    else cutBoth eps u v l (if eps < |v i - u i| then (raise c.1 (enter (u i) (v i)), lower c.2 (leave (u i) (v i))) else c)

/-- `privatedata` (`style.py:517-520`). -/
structure Private (K : Type*) (n : ℕ) (P : Type*) where
  path : List (List P)
  base : List P
  last : Option (VPos K n)

/-- `initpointstopath` (`style.py:517-520`). -/
def initial : Private K n P := ⟨[], [], none⟩

/-- `addpointstopath` (`style.py:522-530`). -/
def flush (s : Private K n P) : Private K n P := { s with path := if 1 < s.base.length then s.path ++ [s.base] else s.path, base := [] }

/-- `if len(privatedata.linebasepoints) > 1: self.addpointstopath(privatedata)` (`style.py:617-618, 622-623, 627-628`). -/
def flushIf (s : Private K n P) : Private K n P := if 1 < s.base.length then flush s else s

/-- A point behind a point inside (`style.py:536-559`). -/
def fromInside (f : VPos K n → P) (eps epsPos : K) (s : Private K n P) (u v : VPos K n) : Private K n P :=
  if valid epsPos v then { s with base := s.base ++ [f v] }
  else flush { s with base := s.base ++ [f (between u v (cutEnd eps u v))] }

/-- A point behind a point outside, or the first one (`style.py:562-615`). -/
def fromOutside (f : VPos K n → P) (eps epsPos : K) (s : Private K n P) (u v : VPos K n) : Private K n P :=
  if valid epsPos v then { s with base := s.base ++ [f (between u v (cutBegin eps u v)), f v] }
  else
    match cutBoth eps u v (List.finRange n) (0, 1) with
    | none => s
    | some c => if c.1 < c.2 then flush { s with base := s.base ++ [f (between u v c.1), f (between u v c.2)] } else s

/-- `addpoint` (`style.py:532-619`); `none` is a point whose position is not available.  If `linebasepoints` is not empty, then there is a last position. -/
def addpoint (f : VPos K n → P) (eps epsPos : K) (s : Private K n P) : Option (VPos K n) → Private K n P
  | none => { flushIf s with last := none }
  | some v =>
    match s.last with
    | none => { s with last := some v }
    | some u => { (if s.base.isEmpty then fromOutside f eps epsPos s u v else fromInside f eps epsPos s u v) with last := some v }

/-- `initdrawpoints`, `drawpoint` for all points and `donepointstopath` (`style.py:626-629, 653-660`): the pieces of the path. -/
def line (f : VPos K n → P) (eps epsPos : K) (points : List (Option (VPos K n))) : List (List P) :=
  (flushIf (points.foldl (addpoint f eps epsPos) initial)).path

end PyX.Style
