import Mathlib.Algebra.Order.Field.Basic
import Mathlib.Analysis.SpecialFunctions.Log.Basic

/-!
# Model of `pyx/graph/axis/axis.py`: ranges, conversion, bar axes

Numbers are elements of an ordered field `K` (real numbers for logarithmic axes).
-/

namespace PyX.Axis

section Regular
variable {K : Type} [Field K] [LinearOrder K]

/-- The fixed bounds and direction of a `_regularaxis` (`pyx/graph/axis/axis.py:77-81`). -/
structure Reg (K : Type) where
  min : Option K
  max : Option K
  reverse : Bool

/-- `_regularaxis.__init__` (`pyx/graph/axis/axis.py:77-81`). -/
def Reg.init (min max : Option K) (reverse : Bool) : Reg K :=
  match min, max with
  | some a, some b => if a > b then ⟨some b, some a, !reverse⟩ else ⟨some a, some b, reverse⟩
  | _, _ => ⟨min, max, reverse⟩

/-- `axisdata` of a regular axis. -/
structure Data (K : Type) where
  min : Option K
  max : Option K
deriving DecidableEq

/-- `createdata` (`pyx/graph/axis/axis.py:91-92`). -/
def createdata (a : Reg K) : Data K := ⟨a.min, a.max⟩

/-- `data.min is None or value < data.min` (`pyx/graph/axis/axis.py:104`) -/
def below (v : K) : Option K → Bool
  | none => true
  | some m => decide (v < m)

/-- `data.max is None or value > data.max` (`pyx/graph/axis/axis.py:106`) -/
def above (v : K) : Option K → Bool
  | none => true
  | some m => decide (v > m)

/-- Loop body of `adjustaxis` (`pyx/graph/axis/axis.py:99-107`). An entry that cannot be added to `0.0` is `none`. -/
def adjust1 (a : Reg K) (d : Data K) (value : Option K) : Data K :=
  match value with
  | none => d
  | some v =>
    { min := if a.min.isNone && below v d.min then some v else d.min
      max := if a.max.isNone && above v d.max then some v else d.max }

/-- `adjustaxis` (`pyx/graph/axis/axis.py:96-107`). -/
def adjustaxis (a : Reg K) (d : Data K) (columndata : List (Option K)) : Data K :=
  if a.min.isNone || a.max.isNone then columndata.foldl (adjust1 a) d else d

/-- The data after a sequence of columns. -/
def history (a : Reg K) (cols : List (List (Option K))) : Data K := cols.foldl (adjustaxis a) (createdata a)

/-- The treatment of an empty range at the beginning of `_create` (`pyx/graph/axis/axis.py:123-132`); `fallback` is a
width. `none` is an exception. -/
def checkRange (d : Data K) (fallback : Option K) : Option (K × K) :=
  match d.min, d.max with
  | some a, some b =>
    if b = a then fallback.map fun f => (a - 1 / 2 * f, a + 1 / 2 * f) else some (a, b)
  | _, _ => none

/-- `linear.convert` (`pyx/graph/axis/axis.py:267-272`). -/
def convert (reverse : Bool) (mn mx v : K) : K :=
  if reverse then (mx - v) / (mx - mn) else (v - mn) / (mx - mn)

end Regular

/-- `logarithmic.convert` (`pyx/graph/axis/axis.py:308-320`). -/
noncomputable def logConvert (reverse : Bool) (mn mx v : ℝ) : ℝ :=
  if mx < 0 then
    if reverse then (Real.log (-mx) - Real.log (-v)) / (Real.log (-mx) - Real.log (-mn))
    else (Real.log (-v) - Real.log (-mn)) / (Real.log (-mx) - Real.log (-mn))
  else
    if reverse then (Real.log mx - Real.log v) / (Real.log mx - Real.log mn)
    else (Real.log v - Real.log mn) / (Real.log mx - Real.log mn)

section Bar
variable {K : Type} [Field K] [LinearOrder K] {N : Type} [DecidableEq N] {S V : Type}

/-- Configuration of a bar axis (`pyx/graph/axis/axis.py:376-391`). -/
structure Bar (K : Type) where
  dist : K
  firstdist : K
  lastdist : K
  reverse : Bool

/-- `bar.__init__` (`pyx/graph/axis/axis.py:378-388`). -/
def Bar.init (dist : K) (firstdist lastdist : Option K) (reverse : Bool) : Bar K :=
  ⟨dist, firstdist.getD (1 / 2 * dist), lastdist.getD (1 / 2 * dist), reverse⟩

/-- What the bar axis needs of its sub axes: `size` is `data.size` if the sub axis is sized, `adj` is its `adjustaxis`. The state
may again be that of a bar axis. -/
structure Sub (K S V : Type) where
  size : S → Option K
  adj : S → List V → S

/-- `data` of a bar axis: `size`, `names` with the sub axes. -/
structure BarData (K N S : Type) where
  size : K
  subs : List (N × S)

/-- Width of a sub axis: its size, 1 if not sized (`pyx/graph/axis/axis.py:405-408,466-469`). -/
def Sub.width (s : Sub K S V) (x : S) : K := (s.size x).getD 1

/-- `bar.createdata` (`pyx/graph/axis/axis.py:397-399`). -/
def Bar.createdata (b : Bar K) : BarData K N S := ⟨b.firstdist + b.lastdist - b.dist, []⟩

/-- `addsubaxis` (`pyx/graph/axis/axis.py:401-414`). -/
def addsubaxis (s : Sub K S V) (b : Bar K) (d : BarData K N S) (name : N) (x : S) : BarData K N S :=
  ⟨d.size + s.width x + b.dist, if b.reverse then (name, x) :: d.subs else d.subs ++ [(name, x)]⟩

/-- First loop of `adjustaxis` (`pyx/graph/axis/axis.py:417-438`) for well-formed entries. `mk` gives the sub axis to create for a
name: `none` is a `KeyError`, `some none` a name without axis. -/
def addNames (s : Sub K S V) (b : Bar K) (mk : N → Option (Option S)) :
    BarData K N S → List (Option N × V) → Option (BarData K N S)
  | d, [] => some d
  | d, (none, _) :: col => addNames s b mk d col
  | d, (some name, _) :: col =>
    if name ∈ d.subs.map Prod.fst then addNames s b mk d col
    else match mk name with
      | none => none
      | some none => addNames s b mk d col
      | some (some x) => addNames s b mk (addsubaxis s b d name x) col

/-- One step of the second loop (`pyx/graph/axis/axis.py:440-448`): the size without, the change of the sub axis, the size
with it. -/
def adjustSub (s : Sub K S V) (col : List (Option N × V)) (size : K) (p : N × S) : K × (N × S) :=
  let x' := s.adj p.2 ((col.filter fun c => c.1 = some p.1).map Prod.snd)
  let size := match s.size p.2 with | some k => size - k | none => size
  let size := match s.size p.2, s.size x' with | some _, some k => size + k | _, _ => size
  (size, (p.1, x'))

/-- Second loop of `adjustaxis` (`pyx/graph/axis/axis.py:439-448`). -/
def adjustSubs (s : Sub K S V) (col : List (Option N × V)) : K → List (N × S) → K × List (N × S)
  | size, [] => (size, [])
  | size, p :: ps =>
    let r := adjustSub s col size p
    let q := adjustSubs s col r.1 ps
    (q.1, r.2 :: q.2)

/-- `bar.adjustaxis` (`pyx/graph/axis/axis.py:416-448`). -/
def barAdjust (s : Sub K S V) (b : Bar K) (mk : N → Option (Option S)) (d : BarData K N S) (col : List (Option N × V)) :
    Option (BarData K N S) :=
  (addNames s b mk d col).map fun d => let r := adjustSubs s col d.size d.subs; ⟨r.1, r.2⟩

/-- Sub range of a bar. -/
structure Range (K : Type) where
  vmin : K
  vmax : K
  vminover : K
  vmaxover : K

/-- The loop of `bar.create` (`pyx/graph/axis/axis.py:461-485`); `last` is `data.names[-1]`. -/
def createLoop (s : Sub K S V) (dist size : K) (last : Option N) : K → K → List (N × S) → List (Range K)
  | _, _, [] => []
  | v, position, (name, x) :: ps =>
    let vmin := position / size
    let position := position + s.width x
    let vmax := position / size
    let position := position + 1 / 2 * dist
    let vmaxover := if some name = last then 1 else position / size
    ⟨vmin, vmax, v, vmaxover⟩ :: createLoop s dist size last vmaxover (position + 1 / 2 * dist) ps

/-- `bar.create` (`pyx/graph/axis/axis.py:459-488`): the ranges of the bars. -/
def create (s : Sub K S V) (b : Bar K) (d : BarData K N S) : List (Range K) :=
  createLoop s b.dist d.size ((d.subs.map Prod.fst).getLast?) 0 b.firstdist d.subs

/-- `bar.convert` (`pyx/graph/axis/axis.py:450-457`) for the converted sub value. -/
def barConvert (r : Range K) (eps : Option K) (subvalue : K) : Option K :=
  match eps with
  | some e => if -e < subvalue ∧ subvalue < 1 + e then some (r.vmin + subvalue * (r.vmax - r.vmin)) else none
  | none => some (r.vmin + subvalue * (r.vmax - r.vmin))

end Bar

end PyX.Axis
