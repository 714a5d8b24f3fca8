import Verif.Box.Lists

/-!
# Model of the painters of axes (`pyx/graph/axis/painter.py`)

`regular.paint` and `_title.paint`, `bar.paint` and `split.paint`.  Lengths are in points, real numbers
replace floats.  Boxes of text come from `text : Pt → Pt → L → B → Polygon`, the result of
`textengine.text_pt` at a point, with the direction of the tick (used by `labeldirection`), the text and the selected
attributes; alignment and extents are those of `Verif.Box`.  `selectattrs` and `selectattr` are functions of
the level and the number of levels; `none` stands for Python's `None`.

Left out: the order of layers of an axis canvas (each item tells its layer), rotation of labels (see `rotatetext`), the
attributes themselves, `t.labelattrs`.
-/

set_option linter.unusedSectionVars false

namespace PyX.Axis.Paint

open PyX.Box

noncomputable section

/-- Errors: those of boxes, or `AttributeError` for a label without text box (`temp_labelbox`). -/
inductive PErr
  | box (e : Err)
  | attribute
  /-- `TypeError`: an error of `select` -/
  | select

/-- Errors of boxes within the painters. -/
def lift {α : Type} : Except Err α → Except PErr α
  | .ok a => .ok a
  | .error e => .error (.box e)

/-- A tick (`tick.py:207-227`) with its position `temp_v` in graph coordinates (`painter.py:202`). -/
structure Tick (L : Type) where
  v : ℝ
  ticklevel : Option Nat
  labellevel : Option Nat
  label : L

/-- A positioner (`positioner.py:27-48`) with grid paths of type `G`. -/
structure Pos (G : Type) where
  point : ℝ → Pt
  dir : ℝ → Pt
  grid : ℝ → G

/-- The painter `regular` (`painter.py:166-192`), with the parameters of `_title` (`painter.py:84-94`). -/
structure Painter (A B : Type) where
  inner : Nat → Nat → Option ℝ
  outer : Nat → Nat → Option ℝ
  tickattrs : Option (Nat → Nat → Option A)
  gridattrs : Option (Option Nat → Nat → Except PErr (Option A))
  base : Option A
  labeldist : ℝ
  labelattrs : Option (Nat → Nat → Option B)
  hequal : Bool
  vequal : Bool
  titledist : ℝ
  titleattrs : Option B
  titlepos : ℝ

/-- What is drawn. -/
inductive Item (A G : Type)
  | tick (p q : Pt) (a : A)
  | grid (g : G) (a : A)
  | label (Q : Polygon)
  | base (a : A)
  | title (Q : Polygon)

/-- The state of an axis canvas (`painter.py:34-47`). -/
structure State (A G : Type) where
  items : List (Item A G) := []
  extent : ℝ := 0
  labels : Option (List Polygon) := some []

/-- One turn of `tick.maxlevels` (`tick.py:270-274`). -/
def raise (m : Nat) : Option Nat → Nat
  | some l => if l ≥ m then l + 1 else m
  | none => m

variable {L A B G : Type}

/-- First component of `tick.maxlevels` (`tick.py:267-275`). -/
def maxticklevel (ts : List (Tick L)) : Nat := ts.foldl (fun m t => raise m t.ticklevel) 0

/-- Second component of `tick.maxlevels` (`tick.py:267-275`). -/
def maxlabellevel (ts : List (Tick L)) : Nat := ts.foldl (fun m t => raise m t.labellevel) 0

variable (text : Pt → Pt → L → B → Polygon) (p : Painter A B) (pos : Pos G)

/-- `t.temp_labelbox` before the alignment (`painter.py:209-218`); `none`: not set. -/
def labelBox (m : Nat) (t : Tick L) : Option Polygon :=
  match t.labellevel, p.labelattrs with
  | some l, some sel => (sel l m).map (text (pos.point t.v) (pos.dir t.v) t.label)
  | _, _ => none

/-- `equaldirection` (`painter.py:219-225`). -/
def EqualDirection : List (Tick L) → Prop
  | [] => False
  | t :: ts => ts ≠ [] ∧ ∀ u ∈ ts, pos.dir u.v = pos.dir t.v

/-- The whole condition in `painter.py:226-227` for equal alignment. -/
def Equalize (ts : List (Tick L)) : Prop :=
  EqualDirection pos ts ∧ ∀ t, ts.head? = some t → ((pos.dir t.v).1 = 0 ∧ p.vequal = true) ∨ ((pos.dir t.v).2 = 0 ∧ p.hequal = true)

/-- Boxes are changed in place: the boxes which are there become those of the second list. -/
def fill : List (Option Polygon) → List Polygon → List (Option Polygon)
  | none :: bs, Qs => none :: fill bs Qs
  | some _ :: bs, Q :: Qs => some Q :: fill bs Qs
  | some b :: bs, [] => some b :: bs
  | [], _ => []

/-- A label whose text box is missing. -/
def missing (t : Tick L) (b : Option Polygon) : Bool := t.labellevel.isSome && b.isNone

/-- The alignment of one label (`painter.py:234`). -/
def alignOne (t : Tick L) : Option Polygon → Except PErr (Option Polygon)
  | none => .ok none
  | some Q => (lift (linealign Q p.labeldist (-pos.dir t.v))).map some

/-- The direction of the first tick. -/
def firstDir (ts : List (Tick L)) : Pt := (ts.head?.map fun t => pos.dir t.v).getD 0

open Classical in
/-- The alignment of the labels (`painter.py:219-234`). If several errors occur, Python raises the first of them; here it is
`AttributeError`. -/
def align (ts : List (Tick L)) (bs : List (Option Polygon)) : Except PErr (List (Option Polygon)) :=
  if p.labelattrs.isNone then .ok bs
  else if (ts.zip bs).any (fun x => missing x.1 x.2) then .error .attribute
  else if Equalize p pos ts then
    (lift (linealignequal (bs.filterMap id) p.labeldist (-firstDir pos ts))).map (fill bs)
  else (ts.zip bs).mapM fun x => alignOne p pos x.1 x.2

open Classical in
/-- `if b > a: a = b`. -/
def larger (a b : ℝ) : ℝ := if b > a then b else a

/-- The tick itself (`painter.py:237-257`). -/
def drawTick (m : Nat) (t : Tick L) (s : State A G) : State A G :=
  match t.ticklevel, p.tickattrs with
  | some l, some sel =>
    match sel l m with
    | none => s
    | some a =>
      if (p.inner l m).isNone && (p.outer l m).isNone then s
      else
        let i := (p.inner l m).getD 0
        let o := (p.outer l m).getD 0
        let x := pos.point t.v
        let d := pos.dir t.v
        { s with items := s.items ++ [.tick (x.1 + d.1 * i, x.2 + d.2 * i) (x.1 - d.1 * o, x.2 - d.2 * o) a],
                 extent := larger (larger s.extent o) (-i) }
  | _, _ => s

/-- The grid line of a tick (`painter.py:258-261`). -/
def drawGrid (m : Nat) (t : Tick L) (s : State A G) : Except PErr (State A G) :=
  match p.gridattrs with
  | none => .ok s
  | some sel =>
    match sel t.ticklevel m with
    | .error e => .error e
    | .ok none => .ok s
    | .ok (some a) => .ok { s with items := s.items ++ [.grid (pos.grid t.v) a] }

/-- The label of a tick (`painter.py:262-267`). -/
def drawLabel (t : Tick L) (b : Option Polygon) (s : State A G) : Except PErr (State A G) :=
  match t.labellevel, p.labelattrs, b with
  | some _, some _, some Q =>
    match extent Q (pos.dir t.v) with
    | .error e => .error (.box e)
    | .ok e => .ok { items := s.items ++ [.label Q], labels := s.labels.map (· ++ [Q]), extent := larger s.extent (e + p.labeldist) }
  | some _, some _, none => .error .attribute
  | _, _, _ => .ok s

/-- One turn of the loop (`painter.py:236-267`). -/
def drawOne (m : Nat) (s : State A G) (x : Tick L × Option Polygon) : Except PErr (State A G) :=
  match drawGrid p pos m x.1 (drawTick p pos m x.1 s) with
  | .error e => .error e
  | .ok s => drawLabel p pos x.1 x.2 s

/-- `canvas.labels = None` without labels and the base line (`painter.py:269-273`). -/
def drawBase (s : State A G) : State A G :=
  let s := if p.labelattrs.isNone then { s with labels := none } else s
  match p.base with
  | none => s
  | some a => { s with items := s.items ++ [.base a] }

/-- `_title.paint` (`painter.py:96-112`) with the title of the axis. -/
def drawTitle (titledist titlepos : ℝ) (titleattrs : Option B) (title : Option L) (s : State A G) : Except PErr (State A G) :=
  match title, titleattrs with
  | some l, some b =>
    let d := pos.dir titlepos
    match linealign (text (pos.point titlepos) d l b) (s.extent + titledist) (-d) with
    | .error e => .error (.box e)
    | .ok Q =>
      match extent Q d with
      | .error e => .error (.box e)
      | .ok e => .ok { s with items := s.items ++ [.title Q], extent := s.extent + titledist + e }
  | _, _ => .ok s

/-- The arguments of `titledirection.trafo` (`painter.py:101-106`): the direction along the axis, from the points at `titlepos` and
slightly after it. -/
def titleDir (d x x2 : Pt) : Pt :=
  let w : Pt := (x2.1 - x.1, x2.2 - x.2)
  if d.1 * w.2 - d.2 * w.1 < 0 then (-w.2, w.1) else (w.2, -w.1)

/-- `regular.paint` (`painter.py:200-284`). -/
def paint (ts : List (Tick L)) (title : Option L) : Except PErr (State A G) :=
  match align p pos ts (ts.map (labelBox text p pos (maxlabellevel ts))) with
  | .error e => .error e
  | .ok bs =>
    match (ts.zip bs).foldlM (drawOne p pos (maxticklevel ts)) {} with
    | .error e => .error e
    | .ok s => drawTitle text pos p.titledist p.titlepos p.titleattrs title (drawBase p s)

end

end PyX.Axis.Paint
