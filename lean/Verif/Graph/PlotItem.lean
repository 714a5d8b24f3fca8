import Mathlib.Data.List.Basic

/-!
# Plot items: model of `plotitem` and of the selection of styles (`graph/graph.py:36-160, 257-283`)

A style is known by its identity, the names of the data it needs (`needsdata`) and of those it provides (`providesdata`).
-/

set_option linter.unusedSectionVars false

namespace PyX.Graph.Item

/-- A style (`graph/style.py:35-62`). -/
structure Style (κ : Type) where
  ident : Nat
  needs : List κ
  provides : List κ
  deriving DecidableEq

variable {κ : Type} [DecidableEq κ]

/-- `_defaultprovider` (`graph.py:36-50`); `none`: `KeyError`. -/
abbrev Registry (κ : Type) := κ → Option (Style κ)

/-- `registerdefaultprovider` (`graph.py:38-45`); `none`: the assertion fails. -/
def register (reg : Registry κ) (s : Style κ) : List κ → Option (Registry κ)
  | [] => some reg
  | k :: ks => if k ∈ s.provides then register (fun x => if x = k then some s else reg x) s ks else none

/-- The loop over the needs of a style (`graph.py:79-83`): `provided` and `addstyles`. -/
def scanNeeds (reg : Registry κ) : List κ → List κ × List (Style κ) → Option (List κ × List (Style κ))
  | [], st => some st
  | n :: ns, st =>
    if n ∈ st.1 then scanNeeds reg ns st
    else match reg n with
      | none => none
      | some p => scanNeeds reg ns (st.1 ++ p.provides, st.2 ++ [p])

/-- The loop over the styles (`graph.py:78-84`). -/
def scan (reg : Registry κ) : List (Style κ) → List κ × List (Style κ) → Option (List κ × List (Style κ))
  | [], st => some st
  | s :: ss, st =>
    match scanNeeds reg s.needs st with
    | none => none
    | some st' => scan reg ss (st'.1 ++ s.provides, st'.2)

/-- The `while` loop (`graph.py:73-85`) with at most `fuel` passes: `none` if there is no default provider, `some none` if it does not end within `fuel` passes. -/
def addDefaults (reg : Registry κ) : Nat → List (Style κ) → Option (Option (List (Style κ)))
  | 0, _ => some none
  | fuel + 1, styles =>
    match scan reg styles ([], []) with
    | none => none
    | some (_, []) => some (some styles)
    | some (_, a :: as) => addDefaults reg fuel (a :: as ++ styles)

/-! ## Drawing -/

/-- A point: a value or `None` for every column name. -/
abbrev Point (κ α : Type) := κ → Option (Option α)

variable {α : Type}

/-- `dict([(columnname, None) for columnname in self.usedcolumnnames])` (`graph.py:118, 126`). -/
def emptyPoint (used : List κ) : Point κ α := fun c => if c ∈ used then some none else none

/-- `point[column] = value` for the columns (`graph.py:122-123, 134-135`). -/
def fill (point : Point κ α) : List (κ × α) → Point κ α
  | [] => point
  | (c, v) :: cs => fill (fun x => if x = c then some (some v) else point x) cs

/-- `zip(*columns.values())` together with the names: the rows, ending with the shortest column; no rows without columns. -/
def rows : List (κ × List α) → List (List (κ × α))
  | [] => []
  | [(c, vs)] => vs.map fun v => [(c, v)]
  | (c, vs) :: cs => (vs.zip (rows cs)).map fun p => (c, p.1) :: p.2

/-- The loop over the rows (`graph.py:121-125`): the points passed to the styles and the last one. -/
def drawRows (point : Point κ α) : List (List (κ × α)) → List (Point κ α)
  | [] => []
  | r :: rs => fill point r :: drawRows (fill point r) rs

/-- `plotitem.draw` (`graph.py:113-140`): the points passed to every style. -/
def draw (used : List κ) (static dynamic : List (κ × List α)) : List (Point κ α) :=
  drawRows (emptyPoint used) (rows static) ++
  (if static ≠ [] ∧ dynamic ≠ [] then [emptyPoint used] else []) ++
  drawRows (emptyPoint used) (rows dynamic)

/-- The calls of `drawpoint` in `draw`: for every point all styles in order (`graph.py:124-125`). -/
def drawCalls {σ π : Type} (styles : List σ) (points : List π) : List (σ × π) := points.flatMap fun p => styles.map fun s => (s, p)

/-! ## Selection -/

/-- Counting the uses of styles in a dictionary (`graph.py:265-269`). -/
def countStyles {ι : Type} [DecidableEq ι] : List ι → (ι → Option Nat) → (ι → Option Nat)
  | [], d => d
  | i :: is, d =>
    countStyles is (match d i with
      | some n => fun x => if x = i then some (n + 1) else d x
      | none => fun x => if x = i then some 1 else d x)

/-- The selections (`graph.py:271-278`): the arguments `selectindex` and `selecttotal` for every plot item. -/
def selects {ι : Type} [DecidableEq ι] (total : ι → Option Nat) : List ι → (ι → Option Nat) → List (Option Nat × Option Nat)
  | [], _ => []
  | i :: is, d =>
    let d' : ι → Option Nat := match d i with
      | some n => fun x => if x = i then some (n + 1) else d x
      | none => fun x => if x = i then some 0 else d x
    (d' i, total i) :: selects total is d'

/-- `stylesid` (`graph.py:263-264`). -/
def stylesid (ids : List Nat) : List Char := [':'].intercalate (ids.map (Nat.toDigits 10))

/-- `dostyles` (`graph.py:257-283`): the arguments of `selectstyles` for all plot items. -/
def dostyles (items : List (List Nat)) : List (Option Nat × Option Nat) :=
  selects (countStyles (items.map stylesid) (fun _ => none)) (items.map stylesid) (fun _ => none)

/-! ## The registered styles -/

/-- The styles of `graph/style.py` which are default providers: `pos` 172-237, `range` 240-394, `barpos` 1327-1432, `gridpos` 1622-1662. -/
def posStyle : Style String := ⟨0, [], ["vpos", "vposmissing", "vposavailable", "vposvalid", "poscolumnnames"]⟩
def rangeStyle : Style String := ⟨1, [], ["vrange", "vrangemissing", "vrangeminmissing", "vrangemaxmissing"]⟩
def barposStyle : Style String := ⟨2, [], ["vpos", "vposmissing", "vposavailable", "vposvalid", "vbarrange", "barposcolumnnames", "barvalueindex", "lastbarvalue", "stackedbar", "stackedbardraw"]⟩
def gridposStyle : Style String := ⟨3, ["vpos", "vposmissing", "vposavailable", "vposvalid"], ["values1", "values2", "data12", "data21", "index1", "index2"]⟩

/-- The calls of `registerdefaultprovider` in `graph/style.py`. -/
def registry : Option (Registry String) := do
  let r ← register (fun _ => none) posStyle posStyle.provides
  let r ← register r rangeStyle rangeStyle.provides
  let r ← register r barposStyle ["vbarrange", "barposcolumnnames", "barvalueindex", "lastbarvalue", "stackedbar", "stackedbardraw"]
  register r gridposStyle gridposStyle.provides

end PyX.Graph.Item
