import Verif.NormPath.Arclen
import Mathlib.Data.List.Sort

/-!
# Model of `normsubpath` (`pyx/normpath.py:787-1447`)

Coordinates are real numbers.  `mathutils.realpolyroots` used while appending curves is a parameter (`roots`), such that
all properties hold for whatever roots it returns (see `Verif.Roots` for the function itself).  Methods changing the object return
the new object and the exception, if any: after an exception the object is in the state the code leaves it in.
Recursive calls (`append` and `extend` for split curves, the loop of `flushskippedline`) are bounded by a natural number; exceeding
it is the error `deep`.
-/

namespace PyX.NormPath

noncomputable section

/-- `normsubpath` (`normpath.py:787-831`), apart from epsilon, which is passed separately. -/
@[ext]
structure Sub where
  items : List (Item ℝ)
  closed : Bool
  skipped : Option (Line ℝ)

/-- Exceptions. -/
inductive Err
  | mismatch -- AssertionError "normsubpathitems do not match"
  | appendClosed -- NormpathException "Cannot append to closed normsubpath"
  | closeClosed -- NormpathException "Cannot close already closed normsubpath"
  | closeEmpty -- NormpathException "Cannot close empty normsubpath", "Normsubpath too short, cannot be closed"
  | flushShort -- ValueError "normsubpath too short to flush the skippedline"
  | joinClosed -- NormpathException "Cannot join closed normsubpath"
  | index -- IndexError
  | params -- ValueError "at least two parameters needed in segments"
  | deep
deriving DecidableEq

abbrev Out := Sub × Option Err

namespace Sub

/-- A fresh `normsubpath(epsilon=epsilon)` (`normpath.py:810-822`). -/
def fresh : Sub := ⟨[], false, none⟩

/-- `atbegin_pt` (`normpath.py:1019-1023`); `none` is `IndexError`. -/
def begin_ (s : Sub) : Option (ℝ × ℝ) :=
  match s.items, s.skipped with
  | [], some l => some l.begin_
  | [], none => none
  | i :: _, _ => some i.begin_

/-- `atend_pt` (`normpath.py:1025-1029`). -/
def end_ (s : Sub) : Option (ℝ × ℝ) :=
  match s.skipped with
  | some l => some l.end_
  | none => s.items.getLast?.map Item.end_

/-- The point with which the next item has to match (`normpath.py:881-884`). -/
def matches_ (e : ℝ) (s : Sub) (i : Item ℝ) : Prop :=
  ∀ p, s.end_ = some p → hypot (p.1 - i.begin_.1) (p.2 - i.begin_.2) < e

/-- A curve which is not too short (`normpath.py:909-916`). -/
def long (e : ℝ) (c : Curve ℝ) : Prop :=
  hypot (c.x3 - c.x0) (c.y3 - c.y0) ≥ e ∨
    ((hypot (c.x1 - c.x0) (c.y1 - c.y0) * 3 ≥ e ∨ hypot (c.x2 - c.x0) (c.y2 - c.y0) * 3 ≥ e) ∧
     (hypot (c.x2 - c.x3) (c.y2 - c.y3) * 3 ≥ e ∨ hypot (c.x1 - c.x3) (c.y1 - c.y3) * 3 ≥ e))

open Classical in
/-- Shifting the control points (`normpath.py:917-943`). -/
def shift (e : ℝ) (c : Curve ℝ) : Curve ℝ :=
  let l03 := hypot (c.x3 - c.x0) (c.y3 - c.y0)
  let l01 := hypot (c.x1 - c.x0) (c.y1 - c.y0)
  let l02 := hypot (c.x2 - c.x0) (c.y2 - c.y0)
  let l23 := hypot (c.x2 - c.x3) (c.y2 - c.y3)
  let l13 := hypot (c.x1 - c.x3) (c.y1 - c.y3)
  let p1 : ℝ × ℝ :=
    if l01 * 3 < e then
      if l02 * 3 ≥ e then (c.x0 + (c.x2 - c.x0) * e / l02 / 2.9, c.y0 + (c.y2 - c.y0) * e / l02 / 2.9)
      else (c.x0 + (c.x3 - c.x0) * e / l03 / 2.9, c.y0 + (c.y3 - c.y0) * e / l03 / 2.9)
    else (c.x1, c.y1)
  let p2 : ℝ × ℝ :=
    if l23 * 3 < e then
      if l13 * 3 ≥ e then (c.x3 + (c.x1 - c.x3) * e / l13 / 2.9, c.y3 + (c.y1 - c.y3) * e / l13 / 2.9)
      else (c.x3 + (c.x0 - c.x3) * e / l03 / 2.9, c.y3 + (c.y0 - c.y3) * e / l03 / 2.9)
    else (c.x2, c.y2)
  ⟨c.x0, c.y0, p1.1, p1.2, p2.1, p2.2, c.x3, c.y3⟩

open Classical in
/-- The points of too small derivative (`normpath.py:945-955`). -/
def splitpoints (roots : ℝ → ℝ → ℝ → ℝ → List ℝ) (e : ℝ) (c : Curve ℝ) : List ℝ :=
  let ax := c.x3 - 3 * c.x2 + 3 * c.x1 - c.x0
  let bx := 2 * c.x0 - 4 * c.x1 + 2 * c.x2
  let cx := c.x1 - c.x0
  let ay := c.y3 - 3 * c.y2 + 3 * c.y1 - c.y0
  let by' := 2 * c.y0 - 4 * c.y1 + 2 * c.y2
  let cy := c.y1 - c.y0
  (roots (4 * ax * ax + 4 * ay * ay) (6 * ax * bx + 6 * ay * by') (4 * ax * cx + 4 * ay * cy + 2 * bx * bx + 2 * by' * by')
    (2 * bx * cx + 2 * by' * cy)).filter fun t =>
      decide ((0 < t ∧ t < 1) ∧ 9 * ((ax * t * t + bx * t + cx) ^ 2 + (ay * t * t + by' * t + cy) ^ 2) < e * e)

/-- The split point relative to the remaining curve (`normpath.py:961-963`). -/
def relParam (prev : Option ℝ) (t : ℝ) : ℝ :=
  match prev with
  | none => t
  | some p => (t - p) / (1 - p)

/-- Splitting the curve at the sorted points (`normpath.py:959-964`); `prev` is the previous split point. -/
def splitAll (prev : Option ℝ) (c : Curve ℝ) : List ℝ → List (Curve ℝ)
  | [] => [c]
  | t :: ts => (c.split (relParam prev t)).1 :: splitAll (some t) (c.split (relParam prev t)).2 ts

open Classical in
/-- Replacing short curves by lines (`normpath.py:966-973`). -/
def lineIfShort (e : ℝ) (c : Curve ℝ) : Item ℝ :=
  if c.polygon < e then .line ⟨c.x0, c.y0, c.x3, c.y3⟩ else .curve c

/-- `extend` (`normpath.py:1084-1090`), for an `append` method given. -/
def extendWith (f : Sub → Item ℝ → Out) : Sub → List (Item ℝ) → Out
  | s, [] => (s, none)
  | s, i :: is =>
    match f s i with
    | (s', none) => extendWith f s' is
    | (s', some e) => (s', some e)

/-- The item with its begin moved to the begin of the skipped line (`normpath.py:889-890`). -/
def adjusted (s : Sub) (i : Item ℝ) : Item ℝ :=
  match s.skipped with
  | some l => i.modifiedbegin l.x0 l.y0
  | none => i

/-- Appending an item to the list. -/
def push (s : Sub) (i : Item ℝ) : Sub := ⟨s.items ++ [i], s.closed, s.skipped⟩

/-- Dropping the skipped line (`normpath.py:891`). -/
def unskip (s : Sub) : Sub := ⟨s.items, s.closed, none⟩

/-- Setting the skipped line. -/
def skip (s : Sub) (l : Line ℝ) : Sub := ⟨s.items, s.closed, some l⟩

open Classical in
/-- `append` (`normpath.py:871-977`). -/
def append (roots : ℝ → ℝ → ℝ → ℝ → List ℝ) (eps : Option ℝ) : ℕ → Sub → Item ℝ → Out
  | 0, s, _ => (s, some .deep)
  | n + 1, s, i =>
    match eps with
    | none => (s.push i, none)
    | some e =>
      if ¬ s.matches_ e i then (s, some .mismatch)
      else if s.closed then (s, some .appendClosed)
      else
        match s.adjusted i with
        | .line l =>
          if hypot (l.x1 - l.x0) (l.y1 - l.y0) ≥ e then (s.unskip.push (.line l), none)
          else (s.skip l, none)
        | .curve c =>
          if long e c then
            if splitpoints roots e (shift e c) = [] then (s.unskip.push (.curve (shift e c)), none)
            else extendWith (append roots (some e) n) s.unskip
              ((splitAll none (shift e c) ((splitpoints roots e (shift e c)).insertionSort (· ≤ ·))).map (lineIfShort e))
          else (s.skip ⟨c.x0, c.y0, c.x3, c.y3⟩, none)

/-- `extend` (`normpath.py:1084-1090`). -/
def extend (roots : ℝ → ℝ → ℝ → ℝ → List ℝ) (eps : Option ℝ) (n : ℕ) : Sub → List (Item ℝ) → Out :=
  extendWith (append roots eps n)

/-- `flushskippedline` (`normpath.py:1092-1104`). -/
def flush (roots : ℝ → ℝ → ℝ → ℝ → List ℝ) (eps : Option ℝ) : ℕ → Sub → Out
  | 0, s => (s, some .deep)
  | n + 1, s =>
    match s.skipped with
    | none => (s, none)
    | some l =>
      match s.items.getLast? with
      | none => (s, some .flushShort)
      | some last =>
        match append roots eps n ⟨s.items.dropLast, s.closed, none⟩ (last.modifiedend l.x1 l.y1) with
        | (s', none) => flush roots eps n s'
        | (s', some e) => (s', some e)

/-- `close` (`normpath.py:1041-1058`). -/
def close (roots : ℝ → ℝ → ℝ → ℝ → List ℝ) (eps : Option ℝ) (n : ℕ) (s : Sub) : Out :=
  if s.closed then (s, some .closeClosed)
  else
    match s.items.head?, s.items.getLast? with
    | some first, some last =>
      match append roots eps n s (.line ⟨last.end_.1, last.end_.2, first.begin_.1, first.begin_.2⟩) with
      | (s', none) =>
        match flush roots eps n s' with
        | (s'', none) => (⟨s''.items, true, s''.skipped⟩, none)
        | (s'', some e) => (s'', some e)
      | (s', some e) => (s', some e)
    | _, _ => (s, some .closeEmpty)

/-- The constructor with items (`normpath.py:810-831`). -/
def make (roots : ℝ → ℝ → ℝ → ℝ → List ℝ) (eps : Option ℝ) (n : ℕ) (is : List (Item ℝ)) (closed : Bool) : Out :=
  match extend roots eps n fresh is with
  | (s, none) => if closed then close roots eps n s else (s, none)
  | (s, some e) => (s, some e)

/-- `join` (`normpath.py:1217-1234`). -/
def join (roots : ℝ → ℝ → ℝ → ℝ → List ℝ) (eps : Option ℝ) (n : ℕ) (s o : Sub) : Out :=
  if o.closed then (s, some .joinClosed)
  else
    -- the connection line
    let r : Out :=
      if s.items = [] then (s, none)
      else
        match s.end_, o.begin_ with
        | some p, some q => append roots eps n s (.line ⟨p.1, p.2, q.1, q.2⟩)
        | _, _ => (s, some .index)
    match r with
    | (s', some e) => (s', some e)
    | (s', none) =>
      match extend roots eps n s' o.items with
      | (s'', some e) => (s'', some e)
      | (s'', none) =>
        match o.skipped with
        | some l => append roots eps n s'' (.line l)
        | none => (s'', none)

/-- `reversed` (`normpath.py:1284-1289`). -/
def reversed (roots : ℝ → ℝ → ℝ → ℝ → List ℝ) (eps : Option ℝ) (n : ℕ) (s : Sub) : Out :=
  make roots eps n (s.items.reverse.map Item.reversed) s.closed

/-- `transformed` (`normpath.py:1386-1395`). -/
def transformed (roots : ℝ → ℝ → ℝ → ℝ → List ℝ) (eps : Option ℝ) (n : ℕ) (s : Sub) (t : Trafo ℝ) : Out :=
  match extend roots eps n fresh (s.items.map (Item.transformed t)) with
  | (s', some e) => (s', some e)
  | (s', none) =>
    if s.closed then close roots eps n s'
    else
      match s.skipped with
      | some l => append roots eps n s' (.line (l.transformed t))
      | none => (s', none)

/-! ## `segments` -/

/-- Index of the item and parameter in it (`normpath.py:331-338`, in `segments` `normpath.py:1332-1338`, in `_distributeparams`
`normpath.py:860-868`). -/
def locate (len : ℕ) (t : ℝ) : ℕ × ℝ :=
  open Classical in
  if t > 0 then (min ⌊t⌋₊ (len - 1), t - (min ⌊t⌋₊ (len - 1) : ℕ)) else (0, t)

/-- The variables of `segments` (`normpath.py:1323-1329`): `result` is `done ++ [cur]`. -/
structure SegState where
  done : List Sub
  cur : Sub
  params : List ℝ
  index : Option ℕ

/-- Turns the outcome of a method of a local object into a result. -/
def ok (o : Out) : Except Err Sub :=
  match o with
  | (s, none) => .ok s
  | (_, some e) => .error e

/-- `normsubpath([segment], epsilon=self.epsilon) for segment in segments[1:]` (`normpath.py:1349, 1365`). -/
def makeAll (roots : ℝ → ℝ → ℝ → ℝ → List ℝ) (eps : Option ℝ) (n : ℕ) : List (Item ℝ) → Except Err (List Sub)
  | [] => .ok []
  | i :: is =>
    match ok (make roots eps n [i] false), makeAll roots eps n is with
    | .ok s, .ok ss => .ok (s :: ss)
    | .error e, _ => .error e
    | _, .error e => .error e

/-- Adding the segments of an item to the result (`normpath.py:1347-1349, 1363-1365`): the new `done` and `cur`. -/
def collect (roots : ℝ → ℝ → ℝ → ℝ → List ℝ) (eps : Option ℝ) (n : ℕ) (done : List Sub) (cur : Sub) (item : Item ℝ)
    (params : List ℝ) : Except Err (List Sub × Sub) :=
  match item.segments params with
  | some (s0 :: ss) =>
    match ok (append roots eps n cur s0), makeAll roots eps n ss with
    | .ok cur', .ok new => .ok (done ++ (cur' :: new).dropLast, (cur' :: new).getLast (List.cons_ne_nil _ _))
    | .error e, _ => .error e
    | _, .error e => .error e
  | _ => .error .params

/-- The items between two indices, forwards or backwards (`normpath.py:1352-1359`), and the parameter to go on with. -/
def between (items : List (Item ℝ)) (i j : ℕ) : List (Item ℝ) × ℝ :=
  if j > i then ((items.take j).drop (i + 1), 0)
  else ((((items.take i).drop (j + 1)).reverse).map Item.reversed, 1)

/-- One turn of the loop of `segments` (`normpath.py:1330-1361`). -/
def segStep (roots : ℝ → ℝ → ℝ → ℝ → List ℝ) (eps : Option ℝ) (n : ℕ) (items : List (Item ℝ)) (st : SegState) (t : ℝ) :
    Except Err SegState :=
  let l := locate items.length t
  match st.index with
  | none => .ok ⟨st.done, st.cur, st.params ++ [l.2], some l.1⟩
  | some ci =>
    if l.1 = ci then .ok ⟨st.done, st.cur, st.params ++ [l.2], some ci⟩
    else
      match items[ci]? with
      | none => .error .index
      | some item =>
        match collect roots eps n st.done st.cur item (st.params ++ [if l.1 > ci then 1 else 0]) with
        | .error e => .error e
        | .ok (done, cur) =>
          match ok (extend roots eps n cur (between items ci l.1).1) with
          | .error e => .error e
          | .ok cur' => .ok ⟨done, cur', [(between items ci l.1).2, l.2], some l.1⟩

/-- The loop of `segments`. -/
def segLoop (roots : ℝ → ℝ → ℝ → ℝ → List ℝ) (eps : Option ℝ) (n : ℕ) (items : List (Item ℝ)) :
    SegState → List ℝ → Except Err SegState
  | st, [] => .ok st
  | st, t :: ts =>
    match segStep roots eps n items st t with
    | .ok st' => segLoop roots eps n items st' ts
    | .error e => .error e

/-- `segments` up to the treatment of closed sub-paths (`normpath.py:1317-1365`). -/
def segmentsOpen (roots : ℝ → ℝ → ℝ → ℝ → List ℝ) (eps : Option ℝ) (n : ℕ) (s : Sub) (params : List ℝ) :
    Except Err (List Sub) :=
  if params.length < 2 then .error .params
  else if s.items = [] then .ok (List.replicate (params.length - 1) s)
  else
    match segLoop roots eps n s.items ⟨[], fresh, [], none⟩ params with
    | .error e => .error e
    | .ok st =>
      match st.index with
      | none => .error .index
      | some ci =>
        match s.items[ci]? with
        | none => .error .index
        | some item =>
          match collect roots eps n st.done st.cur item st.params with
          | .error e => .error e
          | .ok (done, cur) => .ok (done ++ [cur])

open Classical in
/-- The parameters start and end at the ends of the sub-path (`normpath.py:1371-1372`). -/
def fromEndToEnd (len : ℕ) (params : List ℝ) : Prop :=
  (params.head? = some 0 ∧ params.getLast? = some (len : ℝ)) ∨ (params.getLast? = some 0 ∧ params.head? = some (len : ℝ))

/-- Joining the last and the first segment of a closed sub-path (`normpath.py:1373-1374`).  With a single segment the list is
extended by itself. -/
def joinEnds (l : List Sub) : List Sub :=
  match l with
  | [] => []
  | [s] => [⟨s.items ++ s.items, s.closed, s.skipped⟩]
  | first :: second :: rest =>
    let last := (second :: rest).getLast (List.cons_ne_nil _ _)
    ⟨last.items ++ first.items, last.closed, last.skipped⟩ :: (second :: rest).dropLast

open Classical in
/-- `segments` (`normpath.py:1299-1376`). -/
def segments (roots : ℝ → ℝ → ℝ → ℝ → List ℝ) (eps : Option ℝ) (n : ℕ) (s : Sub) (params : List ℝ) : Except Err (List Sub) :=
  match segmentsOpen roots eps n s params with
  | .error e => .error e
  | .ok l => .ok (if s.items ≠ [] ∧ s.closed ∧ fromEndToEnd s.items.length params then joinEnds l else l)

end Sub

end

end PyX.NormPath
