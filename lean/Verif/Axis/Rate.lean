import Verif.Tick.Model
import Mathlib.Algebra.Order.Field.Basic
import Mathlib.Data.List.Sort

/-!
# Model of `pyx/graph/axis/rater.py` and of the choice of a partition in `_regularaxis._create`
(`pyx/graph/axis/axis.py:175-239`), and of `rotatetext` (`pyx/graph/axis/painter.py:50-67`)
-/

namespace PyX.Axis
open PyX.Tick

variable {K : Type} [Field K] [LinearOrder K]

/-- `cube` (`pyx/graph/axis/rater.py:48-60`). -/
structure Cube (K : Type) where
  opt : K
  left : K
  right : K
  weight : K

/-- `cube.__init__` (`pyx/graph/axis/rater.py:53-60`). -/
def Cube.init (opt : K) (left right : Option K) (weight : K) : Cube K := ⟨opt, left.getD 0, right.getD (3 * opt), weight⟩

/-- `cube.rate` (`pyx/graph/axis/rater.py:62-76`). -/
def Cube.rate (c : Cube K) (value density : K) : K :=
  let opt := c.opt * density
  let f (other : K) : K := c.weight * ((value - opt) / (other - opt)) ^ 3
  if value < opt then f (c.left * density)
  else if value > opt then f (c.right * density)
  else 0

/-- `distance.rate` (`pyx/graph/axis/rater.py:99-114`), `opt` is `unit.topt(self.opt)`; `none` is the value `None` returned for an
empty list. -/
def distRate (opt weight : K) (distances : List K) (density : K) : Option K :=
  if distances.isEmpty then none else
  let opt := opt / density
  some (distances.foldl (fun rate d =>
    if d < opt then rate + weight * (opt / d - 1) else rate + weight * (d / opt - 1)) 0 / distances.length)

/-- The counting loop of `rateticks` (`pyx/graph/axis/rater.py:177-185`) for one kind of level: for each tick with a level, all
entries from that level on are incremented (levels are not negative). -/
def countLevels (levels : List (Option Int)) (maxlevel : Nat) : List Nat :=
  levels.foldl (fun counts l => match l with
    | none => counts
    | some l => counts.mapIdx fun level c => if l ≤ level then c + 1 else c) (List.replicate maxlevel 0)

/-- `rateticks` (`pyx/graph/axis/rater.py:163-194`); `none` is the rating `None`. A vanishing weight sum (`ZeroDivisionError`) is not
distinguished from a weight. -/
def rateticks (tickraters labelraters : List (Cube K)) (density : K) (ticks : List T) : Option K :=
  let m := maxlevels ticks
  if m.1 = 0 ∧ m.2 = 0 then none else
  let numticks := countLevels (ticks.map T.ticklevel) m.1.toNat
  let numlabels := countLevels (ticks.map T.labellevel) m.2.toNat
  let zs := numticks.zip tickraters ++ numlabels.zip labelraters
  some ((zs.map fun z => z.2.rate z.1 density).sum / (zs.map fun z => z.2.weight).sum)

/-! ## Choice of the partition -/

/-- A variant (`pyx/graph/axis/axis.py:158-173`): current `rate`; whether `storedcanvas` is set; what `ratelayout` says for it
(`none`: not suitable); whether its canvas contains something (an empty canvas counts as false in l. 227). -/
structure Variant (K : Type) where
  rate : K
  stored : Bool
  layout : Option K
  nonempty : Bool

/-- `not variants[0].storedcanvas` (l. 227): `None` or an empty canvas (`canvas.__len__`, `pyx/canvas.py:151-152`) -/
def Variant.todo (v : Variant K) : Bool := !(v.stored && v.nonempty)

/-- `variants.sort()` (stable, by `rate`) -/
def sortV (vs : List (Variant K)) : List (Variant K) := vs.insertionSort fun a b => a.rate ≤ b.rate

/-- Outcome of the choice. -/
inductive Choice (K : Type) where
  | run (vs : List (Variant K))
  | error
  | done (v : Variant K)

/-- One pass through the loop (`pyx/graph/axis/axis.py:227-236`), including the loop test. -/
def chooseStep : Choice K → Choice K
  | .run [] => .error
  | .run (v :: vs) =>
    if v.todo then
      match v.layout with
      | none => if vs.isEmpty then .error else .run (sortV vs)
      | some l => .run (sortV ({ v with stored := true, rate := v.rate + l } :: vs))
    else .done v
  | .error => .error
  | .done v => .done v

/-- Initial state (`pyx/graph/axis/axis.py:224-226`). -/
def chooseInit (vs : List (Variant K)) : Choice K := .run (sortV (vs.map fun v => { v with stored := false }))

/-- State of the search for variants in one direction: number of successive failures, best rate, collected rates. -/
structure Search (K : Type) where
  worse : Nat
  best : Option K
  found : List K

/-- One pass of the inner loop of the search (`pyx/graph/axis/axis.py:195-212`) for a partition with the given total rate (`none`: no
ticks or not suitable). -/
def searchStep (s : Search K) (rate : Option K) : Search K :=
  match rate with
  | none => { s with worse := s.worse + 1 }
  | some r =>
    match s.best with
    | none => ⟨0, some r, s.found ++ [r]⟩
    | some b => if r < b then ⟨0, some r, s.found ++ [r]⟩ else ⟨s.worse + 1, some b, s.found ++ [r]⟩

/-- The state after `n` passes of the inner loop for the stream `f` of rates, never testing for the end. -/
def searchAfter (f : Nat → Option K) (s : Search K) : Nat → Search K
  | 0 => s
  | n + 1 => searchStep (searchAfter f s n) (f n)

/-- The inner loop ends after `n` passes (`while worse < self.maxworse`). -/
def EndsAt (maxworse : Nat) (f : Nat → Option K) (s : Search K) (n : Nat) : Prop :=
  maxworse ≤ (searchAfter f s n).worse ∧ ∀ m < n, (searchAfter f s m).worse < maxworse

/-! ## `rotatetext` -/

/-- `while x > bound: x -= step` as a relation between the value before and after. -/
inductive WhileSub (bound step : K) : K → K → Prop
  | stop {x} : ¬ x > bound → WhileSub bound step x x
  | next {x y} : x > bound → WhileSub bound step (x - step) y → WhileSub bound step x y

/-- `while x < bound: x += step` -/
inductive WhileAdd (bound step : K) : K → K → Prop
  | stop {x} : ¬ x < bound → WhileAdd bound step x x
  | next {x y} : x < bound → WhileAdd bound step (x + step) y → WhileAdd bound step x y

/-- The angle computed by `rotatetext.trafo` (`pyx/graph/axis/painter.py:58-66`) from `direction = self.direction + angle`. -/
def RotateText (eps : K) (direction result : K) : Prop :=
  ∃ a b c, WhileSub (180 + eps) 360 direction a ∧ WhileAdd (-180 - eps) 360 a b ∧ WhileSub (90 + eps) 180 b c ∧
    WhileAdd (-90 - eps) 180 c result

end PyX.Axis
