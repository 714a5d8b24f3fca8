import Mathlib.Data.List.Basic

/-!
# Columns of positions and ranges: model of the styles `pos` and `range` (`graph/style.py:172-394`)

Names are lists of characters, `use` is `usenames` with the default of lines 187-190 and 270-273; data have distinct column names.
-/

set_option linter.unusedSectionVars false

namespace PyX.Style.Columns

abbrev Name := List Char

variable {A : Type} [DecidableEq A]

/-! ## Positions -/

/-- `privatedata` of `pos`. -/
structure PosCols (A : Type) where
  names : List (Option Name)
  missing : List Nat
  axis : Name → Option A

/-- The loops over the axes of a dimension and the columns (`style.py:186-194`). -/
def posAxes (use : A → Name) (cols : List Name) : List A → PosCols A → PosCols A
  | [], st => st
  | a :: as, st =>
    posAxes use cols as (cols.foldl (fun st c => if use a = c then { st with names := st.names ++ [some c], axis := fun x => if x = c then some a else st.axis x } else st) st)

/-- The loop over the dimensions of the graph (`style.py:185-199`); `none`: `ValueError`. -/
def posDims (use : A → Name) (cols : List Name) : Nat → List (List A) → PosCols A → Option (PosCols A)
  | _, [], st => some st
  | count, d :: ds, st =>
    let st := posAxes use cols d st
    if st.names.length > count + 1 then none
    else if st.names.length < count + 1 then posDims use cols (count + 1) ds { st with missing := st.missing ++ [count], names := st.names ++ [none] }
    else posDims use cols (count + 1) ds st

/-- `pos.columnnames` (`style.py:181-209`). -/
def posColumns (use : A → Name) (cols : List Name) (axesnames : List (List A)) : Option (PosCols A) := posDims use cols 0 axesnames ⟨[], [], fun _ => none⟩

/-- The loops over the missing dimensions (`style.py:219-222, 368-371`): the index of the dimension. -/
def shift (missing : List Nat) (i : Nat) : Nat := missing.foldl (fun i m => if m ≤ i then i + 1 else i) i

/-- `pointpostmplist` of `pos.initdrawpoints` (`style.py:216-222`): column, index and axis. -/
def pointpostmplist (p : PosCols A) : List (Name × Nat × Option A) :=
  ((p.names.filterMap id).zipIdx).map fun x => (x.1, shift p.missing x.2, p.axis x.1)

variable {V K : Type}

/-- `pos.drawpoint` (`style.py:224-235`): `conv` is `convert` of an axis, `none` if it raises; `vpos`. -/
def posDraw (conv : A → V → Option K) (point : Name → V) : List (Name × Nat × Option A) → List (Option K) → List (Option K)
  | [], vpos => vpos
  | (c, i, a) :: l, vpos => posDraw conv point l (vpos.set i (a.bind fun a => conv a (point c)))

/-! ## Ranges -/

/-- The bit mask of `range` (`style.py:245-250`). -/
structure Mask where
  value : Bool
  min : Bool
  max : Bool
  dmin : Bool
  dmax : Bool
  d : Bool
  deriving DecidableEq

def Mask.lower (m : Mask) : List Bool := [m.min, m.dmin, m.d]
def Mask.upper (m : Mask) : List Bool := [m.max, m.dmax, m.d]

/-- The column names of a range. -/
def nmin (u : Name) : Name := u ++ ['m', 'i', 'n']
def nmax (u : Name) : Name := u ++ ['m', 'a', 'x']
def ndmin (u : Name) : Name := 'd' :: u ++ ['m', 'i', 'n']
def ndmax (u : Name) : Name := 'd' :: u ++ ['m', 'a', 'x']
def nd (u : Name) : Name := 'd' :: u

/-- The loop over the columns (`style.py:275-294`): the mask and the columns used. -/
def maskOf (u : Name) : List Name → Mask × List Name → Mask × List Name
  | [], st => st
  | c :: cs, (m, l) =>
    maskOf u cs (
      if u = c then ({ m with value := true }, l ++ [c])
      else if nmin u = c then ({ m with min := true }, l ++ [c])
      else if nmax u = c then ({ m with max := true }, l ++ [c])
      else if ndmin u = c then ({ m with dmin := true }, l ++ [c])
      else if ndmax u = c then ({ m with dmax := true }, l ++ [c])
      else if nd u = c then ({ m with d := true }, l ++ [c])
      else (m, l))

/-- The data of `range`. -/
structure RangeCols (A : Type) where
  use : List Name
  pos : List (A × Name × Mask)
  missing : List Nat
  minmissing : List Nat
  maxmissing : List Nat

/-- The loop over the axes of a dimension (`style.py:269-305`); `none`: `ValueError`. -/
def rangeAxes (use : A → Name) (cols : List Name) : List A → RangeCols A → Option (RangeCols A)
  | [], st => some st
  | a :: as, st =>
    let (m, l) := maskOf (use a) cols (⟨false, false, false, false, false, false⟩, st.use)
    if m.min || m.max || m.dmin || m.dmax || m.d then
      if m.lower.count true > 1 || m.upper.count true > 1 then none
      else if (m.dmin || m.dmax || m.d) && !m.value then none
      else rangeAxes use cols as { st with use := l, pos := st.pos ++ [(a, use a, m)] }
    else if m.value then rangeAxes use cols as { st with use := l.dropLast }
    else rangeAxes use cols as { st with use := l }

/-- The loop over the dimensions (`style.py:268-317`). -/
def rangeDims (use : A → Name) (cols : List Name) : Nat → List (List A) → RangeCols A → Option (RangeCols A)
  | _, [], st => some st
  | count, d :: ds, st =>
    match rangeAxes use cols d st with
    | none => none
    | some st =>
      if st.pos.length + st.missing.length > count + 1 then none
      else if st.pos.length + st.missing.length < count + 1 then
        rangeDims use cols (count + 1) ds { st with missing := st.missing ++ [count], minmissing := st.minmissing ++ [count], maxmissing := st.maxmissing ++ [count] }
      else
        let m := (st.pos.getLast?.map fun x => x.2.2).getD ⟨false, false, false, false, false, false⟩
        rangeDims use cols (count + 1) ds { st with
          minmissing := if m.min || m.dmin || m.d then st.minmissing else st.minmissing ++ [count],
          maxmissing := if m.max || m.dmax || m.d then st.maxmissing else st.maxmissing ++ [count] }

/-- `range.columnnames` (`style.py:261-318`). -/
def rangeColumns (use : A → Name) (cols : List Name) (axesnames : List (List A)) : Option (RangeCols A) := rangeDims use cols 0 axesnames ⟨[], [], [], [], []⟩

/-- `rangepostmplist` (`style.py:364-371`). -/
def rangepostmplist (r : RangeCols A) : List (Name × Mask × Nat × A) := r.pos.zipIdx.map fun x => (x.1.2.1, x.1.2.2, shift r.missing x.2, x.1.1)

/-- The lower end of a range (`style.py:375-383`): the last assignment counts; `none`: nothing assigned. -/
def lowerEnd (conv : A → V → Option K) (sub : V → V → Option V) (point : Name → V) (u : Name) (m : Mask) (a : A) : Option (Option K) :=
  if m.d then some ((sub (point u) (point (nd u))).bind (conv a))
  else if m.dmin then some ((sub (point u) (point (ndmin u))).bind (conv a))
  else if m.min then some (conv a (point (nmin u)))
  else none

/-- The upper end (`style.py:384-392`). -/
def upperEnd (conv : A → V → Option K) (add : V → V → Option V) (point : Name → V) (u : Name) (m : Mask) (a : A) : Option (Option K) :=
  if m.d then some ((add (point u) (point (nd u))).bind (conv a))
  else if m.dmax then some ((add (point u) (point (ndmax u))).bind (conv a))
  else if m.max then some (conv a (point (nmax u)))
  else none

/-- `range.drawpoint` (`style.py:373-392`).  (With one definition per end, as `columnnames` ensures, a failing conversion is not followed by another assignment.) -/
def rangeDraw (conv : A → V → Option K) (sub add : V → V → Option V) (point : Name → V) : List (Name × Mask × Nat × A) → List (Option K × Option K) → List (Option K × Option K)
  | [], v => v
  | (u, m, i, a) :: l, v =>
    rangeDraw conv sub add point l (v.modify i fun x => ((lowerEnd conv sub point u m a).getD x.1, (upperEnd conv add point u m a).getD x.2))

/-! ## Adjusting an axis to ranges -/

/-- `rangeposdeltacolumns[axisname]` (`style.py:336-345`). -/
structure Delta (V : Type) where
  value : Option (List V)
  dmin : Option (List V)
  dmax : Option (List V)
  d : Option (List V)

/-- `value-delta` for all values, without those that fail (`style.py:351-357`). -/
def combine (op : V → V → Option V) (vs ds : List V) : List V := (vs.zip ds).filterMap fun p => op p.1 p.2

/-- Processing the deltas (`style.py:347-361`) once the values are known: the calls of `adjustaxis` of the axis. -/
def process (sub add : V → V → Option V) (s : Delta V) : Delta V × List (List V) :=
  match s.value with
  | none => (s, [])
  | some vs =>
    (⟨some vs, none, none, none⟩,
      (s.dmin.map fun ds => [combine sub vs ds]).getD [] ++
      (s.dmax.map fun ds => [combine add vs ds]).getD [] ++
      (s.d.map fun ds => [combine sub vs ds, combine add vs ds]).getD [])

/-- `range.adjustaxis` (`style.py:320-361`) for one axis: the calls of its `adjustaxis`. -/
def adjust (sub add : V → V → Option V) (u : Name) (m : Mask) (s : Delta V) (c : Name) (data : List V) : Delta V × List (List V) :=
  let out := (if c = nmin u ∧ m.min = true then [data] else []) ++ (if c = nmax u ∧ m.max = true then [data] else [])
  let s := if c = u ∧ (m.dmin || m.dmax || m.d) = true then { s with value := some data } else s
  let s := if c = ndmin u ∧ m.dmin = true then { s with dmin := some data } else s
  let s := if c = ndmax u ∧ m.dmax = true then { s with dmax := some data } else s
  let s := if c = nd u ∧ m.d = true then { s with d := some data } else s
  let p := process sub add s
  (p.1, out ++ p.2)

/-- `plotitem.adjustaxesstatic` (`graph/graph.py:103-106`): all columns, in the order of the dictionary. -/
def adjustAll (sub add : V → V → Option V) (u : Name) (m : Mask) : List (Name × List V) → Delta V × List (List V) → Delta V × List (List V)
  | [], st => st
  | (c, data) :: cs, st =>
    let r := adjust sub add u m st.1 c data
    adjustAll sub add u m cs (r.1, st.2 ++ r.2)

end PyX.Style.Columns
