import Mathlib.Algebra.Order.Field.Basic
import Mathlib.Tactic.Linarith
import Mathlib.Tactic.Ring
import Mathlib.Tactic.NormNum
import Mathlib.Tactic.FieldSimp
import Mathlib.Data.Rat.Defs
import Mathlib.Algebra.Order.Ring.Rat

/-!
# Bars of graphs: model of `barpos`, `stackedbarpos` and `bar` (`graph/style.py:1327-1593`)

Coordinates are those of the graph (the graph is the unit square).  `none` stands for Python's `None` and for a conversion which raises.
The three-dimensional bars are in `Verif.Graph.Bar3`.
-/

set_option linter.unusedSectionVars false

namespace PyX.Style.Bar

/-! ## Names of bars -/

/-- A value of a bar axis: a string, a value which cannot be indexed, or a pair. -/
inductive Val where
  | str (s : String)
  | num (n : Int)
  | pair (a b : Val)
deriving DecidableEq, Repr

/-- `barpos.addsubvalue` (`style.py:1362-1371`).  Tuples are pairs. -/
def addsubvalue (value subvalue : Val) : Val :=
  match value with
  | .str s => .pair (.str s) subvalue
  | .pair a b => .pair a (addsubvalue b subvalue)
  | .num n => .pair (.num n) subvalue

variable {K : Type} [Field K] [LinearOrder K] [IsStrictOrderedRing K]

/-! ## Positions -/

/-- What the styles share (`sharedata`): `vbarrange`, `vpos`, `vposavailable`, `vposvalid`, `lastbarvalue`. -/
structure State (K : Type) where
  ranges : List (Option K × Option K)
  vpos : List (Option K)
  available : Bool
  valid : Bool
  last : Option K

/-- The position in a dimension with names: the middle (`style.py:1423-1426`). -/
def middle : Option K × Option K → Option K
  | (some a, some b) => some (1 / 2 * (a + b))
  | _ => none

/-- One step of the loop of `barpos.drawpoint` for the flags (`style.py:1427-1430`). -/
def flags (eps : K) (f : Bool × Bool) : Option K → Bool × Bool
  | none => (false, false)
  | some v => if v < -eps ∨ v > 1 + eps then (f.1, false) else f

/-- `barpos.drawpoint` (`style.py:1407-1430`).  `names i` are the converted subvalues 0 and 1 of the name in the dimension `i`, `index` is `barvalueindex`, `from'` is `vfromvalue`. -/
def barpos (eps from' : K) (convert : Option K → Option K) (index dims : Nat) (names : Nat → Option K × Option K) (value : Option K) : State K :=
  let ranges := (List.range dims).map fun i => if i = index then (some from', convert value) else names i
  let vpos := (List.range dims).map fun i => if i = index then convert value else middle (names i)
  let f := vpos.foldl (flags eps) (true, true)
  ⟨ranges, vpos, f.1, f.2, value⟩

/-- `lastbarvalue += …` (`style.py:1460-1466`): an exception leaves `None`. -/
def addValue : Option K → Option K → Option K
  | some a, some b => some (a + b)
  | _, _ => none

/-- The loop of `stackedbarpos.drawpoint` for the flags (`style.py:1474-1480`); it ends at a missing position. -/
def recheck (eps : K) : Bool × Bool → List (Option K) → Bool × Bool
  | f, [] => f
  | _, none :: _ => (false, false)
  | f, some v :: vs => if v < -eps ∨ v > 1 + eps then recheck eps (f.1, false) vs else recheck eps f vs

/-- `stackedbarpos.drawpoint` (`style.py:1458-1480`). -/
def stacked (eps : K) (convert : Option K → Option K) (index : Nat) (addontop : Bool) (value : Option K) (s : State K) : State K :=
  let last := if addontop then addValue s.last value else value
  let v := convert last
  let ranges := s.ranges.modify index fun r => (r.2, v)
  let vpos := s.vpos.set index v
  match v with
  | none => ⟨ranges, vpos, false, false, last⟩
  | some _ =>
    if !s.available || !s.valid then
      let f := recheck eps (true, true) vpos
      ⟨ranges, vpos, f.1, f.2, last⟩
    else ⟨ranges, vpos, s.available, s.valid, last⟩

/-! ## The bars -/

/-- One dimension in `bar.drawpoint` (`style.py:1515-1528`). -/
def clip : Option K × Option K → Option (K × K)
  | (some vmin, some vmax) =>
    let lo := if vmin > vmax then vmax else vmin
    let hi := if vmin > vmax then vmin else vmax
    if lo > 1 ∨ hi < 0 then none
    else some (if lo < 0 then 0 else lo, if hi > 1 then 1 else hi)
  | _ => none

/-- The ranges of a bar which is drawn. -/
def clipAll : List (Option K × Option K) → Option (List (K × K))
  | [] => some []
  | r :: rs => (clip r).bind fun c => (clipAll rs).map (c :: ·)

/-- The corners of the polygon in two dimensions (`style.py:1529-1535`). -/
def polygon (x y : K × K) : List (K × K) := [(x.1, y.1), (x.2, y.1), (x.2, y.2), (x.1, y.2), (x.1, y.1)]

/-- `bar.drawpoint` in two dimensions (`style.py:1513-1535`): what is filled. -/
def drawpoint (ranges : List (Option K × Option K)) : Option (List (K × K)) :=
  match clipAll ranges with
  | some [x, y] => some (polygon x y)
  | _ => none

/-! ## The key -/

/-- A style, as far as the counters are concerned (`style.py:1393, 1454-1456, 1503-1506`). -/
inductive Kind where
  | barpos | stacked | bar
deriving DecidableEq, Repr

/-- The counters `stackedbar` and `stackedbardraw`, and the value of `privatedata.stackedbar` of the bars. -/
def initdrawpoints : Nat × Bool → List Kind → List Nat × Nat
  | (n, _), [] => ([], n)
  | _, .barpos :: ks => initdrawpoints (0, false) ks
  | (n, d), .stacked :: ks => initdrawpoints (if d then n + 1 else n, d) ks
  | (n, _), .bar :: ks => let r := initdrawpoints (n, true) ks; (n :: r.1, r.2)

/-- `bar.key_pt` (`style.py:1590-1593`): left end and width of the rectangle of a bar. -/
def keySlice (x width : K) (index last : Nat) : K × K := (x + width * index / (last + 1), width / (last + 1))

/-- The slices of the key of a plot. -/
def keySlices (x width : K) (styles : List Kind) : List (K × K) :=
  let r := initdrawpoints (0, false) styles
  r.1.map fun i => keySlice x width i r.2

end PyX.Style.Bar
