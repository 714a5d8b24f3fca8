import Mathlib.Data.List.Basic

/-!
# The steps of drawing a graph: model of `graph` and `graphxy` (`graph/graph.py:163-308, 556-632`)

What the methods do is recorded in a log, newest first; which methods have been called is recorded as in `did`.
-/

namespace PyX.Graph.Steps

/-- An axis: y or x, and its number. -/
abbrev Axis := Bool × Nat

/-- The calls remembered by `did` (`graph.py:180-187`). -/
inductive Call where
  | ranges
  | positioner (a : Axis)
  | create (a : Axis)
  | layout
  | background
  | axes
  | styles
  | plotitem (i : Nat)
  | keyitem (i : Nat)
  | key
  deriving DecidableEq

/-- What is done.  Plot items are numbered in the order of `plot`. -/
inductive Act where
  | static (i : Nat)
  | makedynamic (i : Nat)
  | adjustdynamic (i : Nat)
  | position (a : Axis)
  | create (a : Axis)
  | background
  | insertaxes
  | select (i : Nat)
  | draw (i : Nat)
  | keyitem (i : Nat)
  | paintkey
  | output
  deriving DecidableEq

/-- The state of a graph.  `didranges` and `didstyles` also tell the number of plot items at that time. -/
structure State where
  calls : List Call
  log : List Act
  count : Nat
  didranges : Option Nat
  didstyles : Option Nat

/-- A new graph (`graph.py:165-178`). -/
def State.init : State := ⟨[], [], 0, none, none⟩

def State.act (s : State) (a : Act) : State := { s with log := a :: s.log }

/-- `for plotitem in self.plotitems: ...`. -/
def forItems (f : Nat → State → State) : Nat → State → State
  | 0, s => s
  | n + 1, s => f n (forItems f n s)

/-- `if self.did(...): return` (`graph.py:180-187`). -/
def did (c : Call) (body : State → State) (s : State) : State := if c ∈ s.calls then s else body { s with calls := c :: s.calls }

/-- `doranges` (`graph.py:232-241`). -/
def doranges : State → State := did .ranges fun s =>
  let s := forItems (fun i s => s.act (.static i)) s.count s
  let s := forItems (fun i s => s.act (.makedynamic i)) s.count s
  let s := forItems (fun i s => s.act (.adjustdynamic i)) s.count s
  { s with didranges := some s.count }

/-- `doaxispositioner` (`graph.py:556-580`) for axis number `n`, with `doaxiscreate` of the axis it depends on. -/
def doaxispositioner (y : Bool) : Nat → State → State
  | n + 3 => did (.positioner (y, n + 3)) fun s =>
    (did (.create (y, n + 1)) (fun s => (doaxispositioner y (n + 1) s).act (.create (y, n + 1))) (doranges s)).act (.position (y, n + 3))
  | n => did (.positioner (y, n)) fun s => (doranges s).act (.position (y, n))

/-- `doaxiscreate` (`graph.py:243-247`). -/
def doaxiscreate (a : Axis) : State → State := did (.create a) fun s => (doaxispositioner a.1 a.2 s).act (.create a)

/-- `dolayout` (`graph.py:582-590`); moving the axes is part of the creation here. -/
def dolayout (axes : List Axis) : State → State := did .layout fun s => axes.foldl (fun s a => doaxiscreate a s) s

/-- `dobackground` (`graph.py:592-597`). -/
def dobackground : State → State := did .background fun s => s.act .background

/-- `doaxes` (`graph.py:599-607`). -/
def doaxes (axes : List Axis) : State → State := did .axes fun s => (dobackground (dolayout axes s)).act .insertaxes

/-- `dostyles` (`graph.py:257-283`). -/
def dostyles (axes : List Axis) : State → State := did .styles fun s =>
  let s := dobackground (dolayout axes s)
  let s := forItems (fun i s => s.act (.select i)) s.count s
  { s with didstyles := some s.count }

/-- `doplotitem` (`graph.py:285-289`). -/
def doplotitem (axes : List Axis) (i : Nat) : State → State := did (.plotitem i) fun s => (dostyles axes s).act (.draw i)

/-- `doplot` (`graph.py:291-293`). -/
def doplot (axes : List Axis) (s : State) : State := forItems (doplotitem axes) s.count s

/-- `dokeyitem` (`graph.py:299-304`); `title i`: the plot item has a title. -/
def dokeyitem (axes : List Axis) (title : Nat → Bool) (i : Nat) : State → State := did (.keyitem i) fun s =>
  let s := dostyles axes s
  if title i then s.act (.keyitem i) else s

/-- `dokey` (`graph.py:609-629`). -/
def dokey (axes : List Axis) (title : Nat → Bool) : State → State := did .key fun s =>
  let s := dobackground s
  (forItems (dokeyitem axes title) s.count s).act .paintkey

/-- `finish` (`graph.py:309-313`). -/
def finish (axes : List Axis) (title : Nat → Bool) (s : State) : State := dokey axes title (doplot axes (doaxes axes (dobackground s)))

/-- `plot` (`graph.py:203-230`) of one data; `none`: `RuntimeError`. -/
def plot (s : State) : Option State :=
  match s.didstyles with
  | some _ => none
  | none =>
    let i := s.count
    let s := { s with count := i + 1 }
    match s.didranges with
    | some _ => some (s.act (.makedynamic i))
    | none => some s

/-- What a user can do. -/
inductive Op where
  | plot
  | doranges
  | doaxiscreate (a : Axis)
  | dolayout
  | dobackground
  | doaxes
  | dostyles
  | doplotitem (i : Nat)
  | doplot
  | dokeyitem (i : Nat)
  | dokey
  | bbox
  | writePS
  | writePDF
  | writeSVG

variable (axes : List Axis) (title : Nat → Bool)

/-- The methods; those for plot items can be called with items of the graph only, those for axes with its axes.  `writePS` and `writePDF` are `processPS` and `processPDF` (`graph.py:189-201`), `writeSVG` is `canvas.processSVG`, which `graph` does not override. -/
def step (s : State) : Op → State
  | .plot => (plot s).getD s
  | .doranges => doranges s
  | .doaxiscreate a => if a ∈ axes then doaxiscreate a s else s
  | .dolayout => dolayout axes s
  | .dobackground => dobackground s
  | .doaxes => doaxes axes s
  | .dostyles => dostyles axes s
  | .doplotitem i => if i < s.count then doplotitem axes i s else s
  | .doplot => doplot axes s
  | .dokeyitem i => if i < s.count then dokeyitem axes title i s else s
  | .dokey => dokey axes title s
  | .bbox => finish axes title s
  | .writePS => (finish axes title s).act .output
  | .writePDF => (finish axes title s).act .output
  | .writeSVG => s.act .output

/-- Any use of a graph. -/
def run (ops : List Op) : State := ops.foldl (step axes title) State.init

end PyX.Graph.Steps
