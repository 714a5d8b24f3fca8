import Verif.Axis.Model
import Verif.Axis.Props
import Mathlib.Data.List.Sort

/-!
# Creation of regular axes

`_regularaxis._create` (`pyx/graph/axis/axis.py:120-238`): the layout of the variants found by the parter, the choice of one of them, and
the range of the axis afterwards. Ticks are objects, which are changed in place by `t *= rational_divisor` and by the texter.
-/

set_option linter.unusedSectionVars false

namespace PyX.Axis.Create

variable {K : Type} [Field K] [LinearOrder K] {R L C : Type} [DecidableEq R]

/-- The attributes of tick objects which are changed: the value (`num` and `denom`, `tick.py:171-174`) and `label`. -/
structure Heap (K R L : Type) where
  val : R → K
  lab : R → Option L

/-- What the creation of an axis depends on. `divisor` is given twice: as the number `self.divisor` and as `tick.rational(self.divisor)`, which is
rounded to ten digits (`axis.py:134-138`, `tick.py:101-105`). `labelled` are the ticks with a `labellevel`; the texter sets the labels of those of
them without a label (`texter.py`); what it sets may depend on all ticks. `paint` is the painter, for the range of the axis and the ticks with
their values and labels. An empty canvas counts as false (`canvas.py:151-152`). `ratelayout` gives `none` for layouts which are not suitable. -/
structure Cfg (K R L C : Type) where
  reg : Reg K
  divisor : Option (K × K)
  labelled : R → Bool
  tex : List (R × K × Option L) → R → L
  paint : Option (Data K → List (R × K × Option L) → C)
  empty : C
  nonempty : C → Bool
  ratelayout : C → Option K

/-- The ticks with their values and labels. -/
def Heap.view (h : Heap K R L) (ticks : List R) : List (R × K × Option L) := ticks.map fun t => (t, h.val t, h.lab t)

/-- `self.texter.labels(data.ticks)` (`axis.py:145`). -/
def labels (g : Cfg K R L C) (h : Heap K R L) (ticks : List R) : Heap K R L :=
  { h with lab := fun t => if t ∈ ticks ∧ g.labelled t = true ∧ h.lab t = none then some (g.tex (h.view ticks) t) else h.lab t }

/-- `for t in data.ticks: t *= rational_divisor` (`axis.py:147-148`) -/
def mulTicks (q : K) (val : R → K) (ticks : List R) : R → K := ticks.foldl (fun f t => Function.update f t (f t * q)) val

/-- `convert_tick` (`axis.py:136, 138`) -/
def Cfg.factor (g : Cfg K R L C) : K := match g.divisor with
  | none => 1
  | some d => d.1

/-- `[convert_tick(data.ticks[0]), convert_tick(data.ticks[-1])]` (`axis.py:144`) -/
def ends (f : R → K) : List R → List (Option K)
  | [] => []
  | t :: ts => [some (f t), some (f ((t :: ts).getLast (by simp)))]

/-- `layout` (`axis.py:142-152`). -/
def layout (g : Cfg K R L C) (h : Heap K R L) (d : Data K) (ticks : List R) : Heap K R L × Data K × C :=
  let d' := adjustaxis g.reg d (ends (fun t => h.val t * g.factor) ticks)
  let h1 := labels g h ticks
  let h2 := match g.divisor with
    | none => h1
    | some q => { h1 with val := mulTicks q.2 h1.val ticks }
  (h2, d', match g.paint with
    | none => g.empty
    | some p => p d' (h2.view ticks))

/-- `variant` (`axis.py:158-175`): attributes set on the variant itself; `data` is what `getattr` finds on it. -/
structure Var (K R C : Type) where
  rate : K
  ticks : List R
  data : Data K
  canvas : Option C

/-- `variants.sort()` -/
def sortVars (vs : List (Var K R C)) : List (Var K R C) := vs.insertionSort fun a b => a.rate ≤ b.rate

/-- The result of a number of passes through the loop. -/
inductive Out (K R L C : Type) where
  | more
  | error
  | done (h : Heap K R L) (v : Var K R C) (c : C)

/-- Whether the canvas is there and not empty (`axis.py:227`). -/
def ready (g : Cfg K R L C) : Option C → Option C
  | none => none
  | some c => if g.nonempty c then some c else none

/-- The loop (`axis.py:227-235`), with at most the given number of tests of its condition. -/
def loop (g : Cfg K R L C) : Nat → Heap K R L → List (Var K R C) → Out K R L C
  | 0, _, _ => .more
  | _ + 1, _, [] => .error
  | n + 1, h, v :: vs =>
    match ready g v.canvas with
    | some c => .done h v c
    | none =>
      let r := layout g h v.data v.ticks
      match g.ratelayout r.2.2 with
      | none => loop g n r.1 (sortVars vs)
      | some l => loop g n r.1 (sortVars ({ v with rate := v.rate + l, data := r.2.1, canvas := some r.2.2 } :: vs))

/-- The ticks available: `self.manualticks` if there is no parter (`axis.py:154-156`), or variants with their rates (`axis.py:179-214`). -/
inductive Source (K R : Type) where
  | manual (ticks : List R)
  | variants (vs : List (K × List R))

/-- The axis after its creation. -/
structure Made (K R L C : Type) where
  heap : Heap K R L
  data : Data K
  ticks : List R
  canvas : C

/-- `data.ticks = ticks; return layout(data)` (`axis.py:155-156, 219-220`) -/
def layoutData (g : Cfg K R L C) (h : Heap K R L) (d : Data K) (ticks : List R) : Made K R L C :=
  ⟨(layout g h d ticks).1, (layout g h d ticks).2.1, ticks, (layout g h d ticks).2.2⟩

/-- A new variant. -/
def start (d : Data K) (v : K × List R) : Var K R C := ⟨v.1, v.2, d, none⟩

/-- The end of `_create` (`axis.py:236-238`). -/
def finish (g : Cfg K R L C) (d : Data K) : Out K R L C → Option (Option (Made K R L C))
  | .more => none
  | .error => some none
  | .done h v c => some (some ⟨h, adjustaxis g.reg d (v.ticks.map fun t => some (h.val t)), v.ticks, c⟩)

/-- `_create` (`axis.py:120-238`) with at most `n` passes: `none` if it is not ready, `some none` if it raises an error. -/
def create (g : Cfg K R L C) (n : Nat) (fallback : Option K) (h : Heap K R L) (d : Data K) (s : Source K R) : Option (Option (Made K R L C)) :=
  match checkRange d fallback with
  | none => some none
  | some m =>
    let d := ⟨some m.1, some m.2⟩
    match s with
    | .manual ticks => some (some (layoutData g h d ticks))
    | .variants [] => some none
    | .variants [v] => some (some (layoutData g h d v.2))
    | .variants (v :: w :: vs) =>
      if g.paint.isNone then some (some (layoutData g h d v.2))
      else finish g d (loop g n h (sortVars ((v :: w :: vs).map (start d))))

end PyX.Axis.Create
