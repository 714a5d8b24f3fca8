import Verif.Parter.Model
import Mathlib.Analysis.SpecialFunctions.Log.Base

/-!
# Model of the logarithmic partitioners (`pyx/graph/axis/parter.py:190-336`) and of the initial guess of `autolinear`

Axis positions are real numbers, `math.log` is the real logarithm. Exceptions are `none`.
-/

namespace PyX.Parter
open PyX.Tick

/-- `int(x)`: truncation towards zero. -/
noncomputable def pyInt (x : ℝ) : ℤ := if x < 0 then ⌈x⌉ else ⌊x⌋

/-- The base of `autolinear.partfunctions` (`pyx/graph/axis/parter.py:152-159`); `math.log` raises for an empty range (the
`ValueError` is not the `ArithmeticError` the code waits for). -/
noncomputable def autoBase (mn mx : ℝ) : Option Frac :=
  if mx - mn ≤ 0 then none else
  let logmm := Real.log (mx - mn) / Real.log 10
  some (if logmm < 0 then power ⟨10, 1⟩ (pyInt (logmm - 1)) else power ⟨10, 1⟩ (pyInt logmm))

/-- `preexp` (`pyx/graph/axis/parter.py:190-201`). -/
structure Preexp where
  pres : List Frac
  exp : ℕ

/-- The range check (`pyx/graph/axis/parter.py:232-233,267-268`). -/
def badRange (mn mx : ℝ) : Prop := (mn ≤ 0 ∧ mx ≥ 0) ∨ (mn ≥ 0 ∧ mx ≤ 0)

/-- Loop for `minpower, minindex` (`pyx/graph/axis/parter.py:237-245`). -/
def argMin (l : List ℤ) : Option (ℤ × ℕ) :=
  l.zipIdx.foldl (fun s x => match s with
    | none => some x
    | some s => if x.1 < s.1 then some x else some s) none

/-- Loop for `maxpower, maxindex` (`pyx/graph/axis/parter.py:237-247`). -/
def argMax (l : List ℤ) : Option (ℤ × ℕ) :=
  l.zipIdx.foldl (fun s x => match s with
    | none => some x
    | some s => if x.1 ≥ s.1 then some x else some s) none

/-- `float(r) * float(exp) ** power` -/
noncomputable def tickAt (r : Frac) (exp : ℕ) (power : ℤ) : ℝ := toK r * (exp : ℝ) ^ power

/-- The new lower bound (`pyx/graph/axis/parter.py:240-241,244-245,248-252,259`). -/
noncomputable def logMin (eps mn : ℝ) (p : Preexp) : Option ℝ :=
  match argMin (p.pres.map fun f => ⌊Real.log (mn / toK f) / Real.log p.exp + eps⌋ + 1) with
  | none => none
  | some (minpower, minindex) =>
    if minindex ≠ 0 then (p.pres[minindex - 1]?).map fun r => tickAt r p.exp minpower
    else p.pres.getLast?.map fun r => tickAt r p.exp (minpower - 1)

/-- The new upper bound (`pyx/graph/axis/parter.py:242-243,246-247,253-257,261`). -/
noncomputable def logMax (eps mx : ℝ) (p : Preexp) : Option ℝ :=
  match argMax (p.pres.map fun f => ⌈Real.log (mx / toK f) / Real.log p.exp - eps⌉ - 1) with
  | none => none
  | some (maxpower, maxindex) =>
    if maxindex ≠ p.pres.length - 1 then (p.pres[maxindex + 1]?).map fun r => tickAt r p.exp maxpower
    else p.pres.head?.map fun r => tickAt r p.exp (maxpower + 1)

/-- Lines 237-261 for a positive range. -/
noncomputable def logExtendPos (eps mn mx : ℝ) (p : Preexp) (em eM : Bool) : Option (ℝ × ℝ) :=
  match logMin eps mn p, logMax eps mx p with
  | some a, some b => some (if em then a else mn, if eM then b else mx)
  | _, _ => none

open Classical in
/-- `logarithmic.extendminmax` (`pyx/graph/axis/parter.py:231-264`). The flags are not exchanged for a negative range. -/
noncomputable def logExtend (eps mn mx : ℝ) (p : Preexp) (em eM : Bool) : Option (ℝ × ℝ) :=
  if badRange mn mx then none
  else if mx < 0 then (logExtendPos eps (-mx) (-mn) p em eM).map fun r => (-r.2, -r.1)
  else logExtendPos eps mn mx p em eM

/-- The product `f * tick.rational((preexp.exp, 1), power=i)` (`pyx/graph/axis/parter.py:280`); the denominators are not zero. -/
def preTimes (f : Frac) (exp : ℕ) (i : ℤ) : Frac :=
  let q := power ⟨exp, 1⟩ i
  ⟨f.num * q.num, f.denom * q.denom⟩

/-- The inner loop of `getticks` (`pyx/graph/axis/parter.py:274-284`) for the (made positive) range. -/
noncomputable def logTicks1 (eps mn mx : ℝ) (neglog : Bool) (exp : ℕ) (f : Frac) (tl ll : Option Int) : List T :=
  let imin := ⌈Real.log (mn / toK f) / Real.log exp - 1 / 2 * eps⌉
  let imax := ⌊Real.log (mx / toK f) / Real.log exp + 1 / 2 * eps⌋
  (irange imin (imax + 1)).foldl (fun ticks i =>
    let pos := preTimes f exp i
    if neglog then ⟨⟨-pos.num, pos.denom⟩, tl, ll, none⟩ :: ticks else ticks ++ [⟨pos, tl, ll, none⟩]) []

/-- Lines 272-286. -/
noncomputable def logTicksPos (eps mn mx : ℝ) (neglog : Bool) (p : Preexp) (tl ll : Option Int) : List T :=
  p.pres.foldl (fun ticks f => mergeticklists ticks (logTicks1 eps mn mx neglog p.exp f tl ll)) []

open Classical in
/-- `logarithmic.getticks` (`pyx/graph/axis/parter.py:266-286`). -/
noncomputable def logTicks (eps mn mx : ℝ) (p : Preexp) (tl ll : Option Int) : Option (List T) :=
  if badRange mn mx then none
  else if mx < 0 then some (logTicksPos eps (-mx) (-mn) true p tl ll)
  else some (logTicksPos eps mn mx false p tl ll)

/-- A `logarithmic` partitioner (`pyx/graph/axis/parter.py:213-225`). -/
structure Log where
  ticklist : List Preexp
  labellist : List Preexp
  extendtick : Option Nat
  extendlabel : Option Nat
  eps : ℝ

noncomputable def logExtendBy (eps : ℝ) (list : List Preexp) (index : Option Nat) (r : ℝ × ℝ) (em eM : Bool) : Option (ℝ × ℝ) :=
  match index with
  | none => some r
  | some k => match list[k]? with
    | none => some r
    | some d => logExtend eps r.1 r.2 d em eM

noncomputable def Log.range (p : Log) (mn mx : ℝ) (em eM : Bool) : Option (ℝ × ℝ) :=
  (logExtendBy p.eps p.ticklist p.extendtick (mn, mx) em eM).bind fun r =>
    logExtendBy p.eps p.labellist p.extendlabel r em eM

/-- `partfunction` (inherited, `pyx/graph/axis/parter.py:107-123`), with failing `getticks`. -/
noncomputable def Log.part (p : Log) (mn mx : ℝ) (em eM : Bool) : Option (List T) :=
  (p.range mn mx em eM).bind fun r =>
  (p.ticklist.zipIdx.foldlM (fun ticks d =>
    (logTicks p.eps r.1 r.2 d.1 (some d.2) none).map fun t => mergeticklists ticks t) []).bind fun ticks =>
  p.labellist.zipIdx.foldlM (fun ticks d =>
    (logTicks p.eps r.1 r.2 d.1 none (some d.2)).map fun t => mergeticklists ticks t) ticks

/-- Constants (`pyx/graph/axis/parter.py:208-210`). -/
def pre1exp : Preexp := ⟨[⟨1, 1⟩], 10⟩
def pre125exp : Preexp := ⟨[⟨1, 1⟩, ⟨2, 1⟩, ⟨5, 1⟩], 10⟩
def pre1to9exp : Preexp := ⟨(List.range 9).map fun (k : ℕ) => ⟨(k : ℤ) + 1, 1⟩, 10⟩

end PyX.Parter
