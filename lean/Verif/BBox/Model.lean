import Verif.Trafo.Model
import Mathlib.Algebra.Order.Floor.Ring
import Mathlib.Data.Rat.Floor

/-!
# Model of `pyx/bbox.py`

A `bbox_pt` whose `llx_pt` is `None` is empty (`pyx/bbox.py:37-48`): `none`. Stale values of the other
three coordinates of an empty box (left behind by `__imul__`) are not modelled: every method tests
`llx_pt` first.  In-place methods return the new value.  Coordinates are in points.
-/

namespace PyX

/-- The four coordinates of a non-empty box (`pyx/bbox.py:41-45`). Nothing enforces `llx ≤ urx`. -/
@[ext]
structure Quad (K : Type*) where
  llx : K
  lly : K
  urx : K
  ury : K
deriving DecidableEq, Repr

/-- `bbox_pt`; `none` is the empty box. -/
abbrev BBox (K : Type*) := Option (Quad K)

namespace BBox
variable {K : Type*} [LinearOrder K]

/-- `bbox_pt.__add__` (`pyx/bbox.py:50-59`). -/
def add : BBox K → BBox K → BBox K
  | some a, some b => some ⟨min a.llx b.llx, min a.lly b.lly, max a.urx b.urx, max a.ury b.ury⟩
  | some a, none => some a
  | none, b => b

/-- `bbox_pt.__iadd__`, new value of `self` (`pyx/bbox.py:61-74`). -/
def iadd (self other : BBox K) : BBox K :=
  match self with
  | some a =>
    match other with
    | some b => some ⟨min a.llx b.llx, min a.lly b.lly, max a.urx b.urx, max a.ury b.ury⟩
    | none => some a
  | none => other

/-- `bbox_pt.__mul__` (`pyx/bbox.py:76-82`). -/
def mul : BBox K → BBox K → BBox K
  | some a, some b => some ⟨max a.llx b.llx, max a.lly b.lly, min a.urx b.urx, min a.ury b.ury⟩
  | _, _ => none

/-- `bbox_pt.__imul__`, new value of `self` (`pyx/bbox.py:84-93`). -/
def imul (self other : BBox K) : BBox K :=
  match self, other with
  | some a, some b => some ⟨max a.llx b.llx, max a.lly b.lly, min a.urx b.urx, min a.ury b.ury⟩
  | _, none => none
  | none, some _ => none

/-- `bbox_pt.intersects` (`pyx/bbox.py:115-123`). -/
def intersects : BBox K → BBox K → Bool
  | some a, some b => !(decide (a.llx > b.urx) || decide (a.lly > b.ury) || decide (a.urx < b.llx) ||
      decide (a.ury < b.lly))
  | _, _ => false

/-- `bbox_pt.includepoint_pt`, new value (`pyx/bbox.py:125-133`). -/
def includepoint (b : BBox K) (x y : K) : BBox K :=
  match b with
  | none => some ⟨x, y, x, y⟩
  | some b => some ⟨min b.llx x, min b.lly y, max b.urx x, max b.ury y⟩

/-- `bbox_pt.transformed` / `transform` (`pyx/bbox.py:135-165`). -/
def transformed [Add K] [Mul K] (b : BBox K) (t : Trafo K) : BBox K :=
  match b with
  | none => none
  | some b =>
    let ll := t.apply (b.llx, b.lly)
    let lr := t.apply (b.urx, b.lly)
    let ur := t.apply (b.urx, b.ury)
    let ul := t.apply (b.llx, b.ury)
    some ⟨min (min (min ll.1 lr.1) ur.1) ul.1, min (min (min ll.2 lr.2) ur.2) ul.2,
          max (max (max ll.1 lr.1) ur.1) ul.1, max (max (max ll.2 lr.2) ur.2) ul.2⟩

/-- `bbox_pt.enlarged_pt` / `enlarge_pt` (`pyx/bbox.py:167-204`); optional amounts default to `all`. -/
def enlarged [Add K] [Sub K] (b : BBox K) (all : K) (bottom left top right : Option K) : BBox K :=
  match b with
  | none => none
  | some b => some ⟨b.llx - left.getD all, b.lly - bottom.getD all, b.urx + right.getD all,
      b.ury + top.getD all⟩

/-- `bbox_pt.lowrestuple_pt` (`pyx/bbox.py:104-108`); `ValueError` for an empty box is `none`. -/
def lowres [Ring K] [FloorRing K] (b : BBox K) : Option (Int × Int × Int × Int) :=
  b.map fun b => (⌊b.llx⌋, ⌊b.lly⌋, ⌈b.urx⌉, ⌈b.ury⌉)

/-- `bbox_pt.center_pt` (`pyx/bbox.py:292-296`). -/
def center [Field K] (b : BBox K) : Option (K × K) :=
  b.map fun b => (1 / 2 * (b.llx + b.urx), 1 / 2 * (b.lly + b.ury))

/-- `bbox_pt.width_pt` / `height_pt` (`pyx/bbox.py:256-266`). -/
def size [Sub K] (b : BBox K) : Option (K × K) := b.map fun b => (b.urx - b.llx, b.ury - b.lly)

end BBox
end PyX
