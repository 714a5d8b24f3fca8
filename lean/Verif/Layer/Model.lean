import Mathlib.Data.List.Basic
import Mathlib.Data.List.Nodup
import Mathlib.Data.List.Perm.Basic
import Mathlib.Data.List.Infix

/-!
# Model of `canvas.layer` (`pyx/canvas.py:287-329`)

A canvas is its list of items and its dictionary of layers.  The items are layers of the canvas, given
by their name, or anything else.  A dotted layer name is the list of its parts (`name.split(".", 1)`
separates the first one); a name with several parts is never a key of a dictionary.
-/

namespace PyX.Layer

/-- An item of a canvas: another item, or one of its layers. -/
inductive Slot
  | other (n : ℕ)
  | lay (name : String)
deriving DecidableEq, Repr

/-- A canvas with layers. -/
inductive Node
  | mk (items : List Slot) (layers : List (String × Node))

namespace Node

/-- `self.items`. -/
def items : Node → List Slot
  | mk i _ => i

/-- `self.layers`. -/
def layers : Node → List (String × Node)
  | mk _ l => l

/-- A new canvas. -/
def empty : Node := mk [] []

/-- `name in self.layers`. -/
def has (c : Node) (k : String) : Bool := (c.layers.map Prod.fst).contains k

/-- `self.layers[k]`. -/
def get? (c : Node) (k : String) : Option Node := c.layers.lookup k

end Node

/-- Exceptions. -/
inductive Err
  | value | key | assert
deriving DecidableEq, Repr

/-- The dictionary with the canvas at a key replaced. -/
def setKey (l : List (String × Node)) (k : String) (c : Node) : List (String × Node) :=
  l.map fun x => if x.1 = k then (k, c) else x

/-- `items.insert(items.index(a) + d, n)`; `index` raises `ValueError`. -/
def insertNear (d : ℕ) (items : List Slot) (a n : Slot) : Option (List Slot) :=
  if a ∈ items then some (items.insertIdx (items.idxOf a + d) n) else none

/-- The list `self.items` and the dictionary before positioning (`pyx/canvas.py:303-311`); `remove` raises
`ValueError`. -/
def prepare (c : Node) (n : String) (placed : Bool) : Option Node :=
  if c.has n then
    if placed then
      if Slot.lay n ∈ c.items then some (.mk (c.items.erase (.lay n)) c.layers) else none
    else some c
  else some (.mk (if placed then c.items else c.items ++ [.lay n]) (c.layers ++ [(n, .empty)]))

/-- Positioning next to another layer (`pyx/canvas.py:314-317`): `KeyError` for an unknown name,
`ValueError` if it is not among the items. -/
def position (d : ℕ) (c : Node) (n : String) (a : List String) : Node × Option Err :=
  match a with
  | [a] =>
    if c.has a then
      match insertNear d c.items (.lay a) (.lay n) with
      | some items => (.mk items c.layers, none)
      | none => (c, some .value)
    else (c, some .key)
  | _ => (c, some .key)

/-- `canvas.layer` for a name without a dot (`pyx/canvas.py:303-319`). -/
def layer1 (c : Node) (n : String) (above below : Option (List String)) : Node × Option Err :=
  match prepare c n (above.isSome || below.isSome) with
  | none => (c, some .value)
  | some c1 =>
    match above, below with
    | some a, _ => position 1 c1 n a
    | none, some b => position 0 c1 n b
    | none, none => (c1, none)

/-- `abovegroup, above = above.split(".", 1)`, `assert abovegroup == group` (`pyx/canvas.py:323-328`). -/
def splitRef (g : String) : Option (List String) → Except Err (Option (List String))
  | none => .ok none
  | some [] => .error .value
  | some [_] => .error .value
  | some (h :: t) => if h = g then .ok (some t) else .error .assert

/-- The group of a dotted name is created if missing (`pyx/canvas.py:321-322`). -/
def withGroup (c : Node) (g : String) : Node :=
  if c.has g then c else .mk (c.items ++ [.lay g]) (c.layers ++ [(g, .empty)])

/-- `canvas.layer(name, above, below)` (`pyx/canvas.py:287-329`): the canvas afterwards, and the
exception raised, if any. -/
def layer : Node → List String → Option (List String) → Option (List String) → Node × Option Err
  | c, [], _, _ => (c, some .value)
  | c, [n], above, below =>
    if above.isSome && below.isSome then (c, some .value) else layer1 c n above below
  | c, g :: m :: rest, above, below =>
    if above.isSome && below.isSome then (c, some .value)
    else
      match splitRef g above, splitRef g below with
      | .ok a, .ok b =>
        ((.mk (withGroup c g).items (setKey (withGroup c g).layers g
          (layer (((withGroup c g).get? g).getD .empty) (m :: rest) a b).1)),
          (layer (((withGroup c g).get? g).getD .empty) (m :: rest) a b).2)
      | .error e, _ => (withGroup c g, some e)
      | _, .error e => (withGroup c g, some e)

/-- The canvas at a dotted name. -/
def Node.at (c : Node) : List String → Option Node
  | [] => some c
  | k :: l => (c.get? k).bind fun d => d.at l

/-- `insert` of another item in the canvas with the given (dotted) name (`pyx/canvas.py:331-351`). -/
def insertAt : Node → List String → ℕ → Node
  | c, [], n => .mk (c.items ++ [.other n]) c.layers
  | c, k :: l, n =>
    match c.get? k with
    | some d => .mk c.items (setKey c.layers k (insertAt d l n))
    | none => c

end PyX.Layer
