import Verif.Tick.Model
import Mathlib.Algebra.Order.Floor.Ring
import Mathlib.Algebra.Order.Archimedean.Basic
import Mathlib.Algebra.Field.Basic

/-!
# Model of the linear partitioners (`pyx/graph/axis/parter.py:65-187`)

Axis positions are elements of an ordered field `K` with floor; tick distances are the `rational`
instances of `Verif.Tick.Model`. Exceptions are `none`.
-/

namespace PyX.Parter
open PyX.Tick

variable {K : Type} [Field K] [LinearOrder K] [FloorRing K]

/-- `float(r)` (`pyx/graph/axis/tick.py:199-201`) -/
def toK (r : Frac) : K := (r.num : K) / (r.denom : K)

/-- `linear.extendminmax` (`pyx/graph/axis/parter.py:85-93`). -/
def extendminmax (eps : K) (mn mx : K) (dist : Frac) (extendmin extendmax : Bool) : K × K :=
  (if extendmin then toK dist * (⌊mn / toK dist + eps⌋ : ℤ) else mn,
   if extendmax then toK dist * (⌈mx / toK dist - eps⌉ : ℤ) else mx)

/-- `range(a, b)` -/
def irange (a b : ℤ) : List ℤ := (List.range (b - a).toNat).map fun k : ℕ => a + (k : ℤ)

/-- `linear.getticks` (`pyx/graph/axis/parter.py:95-105`). -/
def getticks (eps : K) (mn mx : K) (dist : Frac) (ticklevel labellevel : Option Int) : List T :=
  let imin := ⌈mn / toK dist - 1 / 2 * eps⌉
  let imax := ⌊mx / toK dist + 1 / 2 * eps⌋
  (irange imin (imax + 1)).map fun i => ⟨⟨i * dist.num, dist.denom⟩, ticklevel, labellevel, none⟩

/-- The parameters of a `linear` partitioner (`pyx/graph/axis/parter.py:68-79`). -/
structure Linear (K : Type) where
  ticklist : List Frac
  labellist : List Frac
  extendtick : Option Nat
  extendlabel : Option Nat
  eps : K

/-- `linear.__init__` (`pyx/graph/axis/parter.py:68-79`); `none` if both lists are missing, or an empty list is the only
one. -/
def Linear.mk' (tickdists labeldists : Option (List Frac)) (extendtick extendlabel : Option Nat) (eps : K) :
    Option (Linear K) :=
  match tickdists, labeldists with
  | none, none => none
  | some t, none => t.head?.map fun t0 => ⟨t, [t0], extendtick, extendlabel, eps⟩
  | none, some l => l.head?.map fun l0 => ⟨[l0], l, extendtick, extendlabel, eps⟩
  | some t, some l => some ⟨t, l, extendtick, extendlabel, eps⟩

/-- `if self.extendtick is not None and len(self.ticklist) > self.extendtick: ...`
(`pyx/graph/axis/parter.py:112-115`) -/
def extendBy (eps : K) (list : List Frac) (index : Option Nat) (r : K × K) (em eM : Bool) : K × K :=
  match index with
  | none => r
  | some k => match list[k]? with
    | none => r
    | some d => extendminmax eps r.1 r.2 d em eM

/-- The (possibly extended) range. -/
def Linear.range (p : Linear K) (mn mx : K) (em eM : Bool) : K × K :=
  extendBy p.eps p.labellist p.extendlabel (extendBy p.eps p.ticklist p.extendtick (mn, mx) em eM) em eM

/-- The two loops of `linear.partfunction` (`pyx/graph/axis/parter.py:116-121`) with a method `getticks`. The loops run over
the indices with the level. -/
def partG {D : Type} (g : D → Option Int → Option Int → List T) (ticklist labellist : List D) : List T :=
  labellist.zipIdx.foldl (fun ticks d => mergeticklists ticks (g d.1 none (some d.2)))
    (ticklist.zipIdx.foldl (fun ticks d => mergeticklists ticks (g d.1 (some d.2) none)) [])

/-- First call of `linear.partfunction` (`pyx/graph/axis/parter.py:107-123`). -/
def Linear.part (p : Linear K) (mn mx : K) (em eM : Bool) : List T :=
  partG (getticks p.eps (p.range mn mx em eM).1 (p.range mn mx em eM).2) p.ticklist p.labellist

/-- State of `autolinear.partfunction` (`_partdata`, `pyx/graph/axis/parter.py:163-168`). -/
structure Auto where
  sign : Int
  tickindex : Int
  base : Frac

/-- The state change of `autolinear.partfunction` (`pyx/graph/axis/parter.py:171-182`) for `n` variants. -/
def Auto.step (n : Nat) (d : Auto) : Auto :=
  if d.sign = 1 then
    if d.tickindex < (n : Int) - 1 then { d with tickindex := d.tickindex + 1 }
    else { d with tickindex := 0, base := ⟨d.base.num * 10, d.base.denom⟩ }
  else if d.tickindex ≠ 0 then { d with tickindex := d.tickindex - 1 }
  else { d with tickindex := (n : Int) - 1, base := ⟨d.base.num, d.base.denom * 10⟩ }

/-- The tick distances of a variant times the base (`pyx/graph/axis/parter.py:183`). -/
def Auto.dists (variants : List (List Frac)) (d : Auto) : Option (List Frac) :=
  match variants[d.tickindex.toNat]? with
  | none => none
  | some v => v.mapM fun t => mul t d.base

/-- The two walks (`pyx/graph/axis/parter.py:163-168`): towards fewer ticks and towards more ticks. -/
def Auto.less (base : Frac) : Auto := ⟨1, -1, base⟩
def Auto.more (base : Frac) : Auto := ⟨-1, 0, base⟩

/-- State used by call number `k` (counted from 0). -/
def Auto.run (n : Nat) (d : Auto) (k : Nat) : Auto := (Auto.step n)^[k + 1] d

/-- Call number `k` of a partition function of `autolinear` (`pyx/graph/axis/parter.py:170-185`). -/
def Auto.part (variants : List (List Frac)) (extendtick : Option Nat) (eps : K) (d : Auto) (mn mx : K) (em eM : Bool)
    (k : Nat) : Option (List T) := do
  let t ← (d.run variants.length k).dists variants
  let p ← Linear.mk' (some t) none extendtick none eps
  some (p.part mn mx em eM)

/-- `autolinear.defaultvariants` (`pyx/graph/axis/parter.py:137-140`). -/
def defaultvariants : List (List Frac) := [[⟨1, 1⟩, ⟨1, 2⟩], [⟨2, 1⟩, ⟨1, 1⟩], [⟨5, 2⟩, ⟨5, 4⟩], [⟨5, 1⟩, ⟨5, 2⟩]]

end PyX.Parter
