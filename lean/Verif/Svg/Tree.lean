/-!
# Groups, shapes and inherited paint of SVG files (`svgfile.py:134-138, 283-289, 388-470`): model and C102

The handler gets the elements of the file one by one.  `T` stands for transformations and `C` for colors; a shape is given by a name, its paint attributes, its
transformation and whether it has an extent (a circle of radius zero has not).  The canvas of a group is inserted into the one it is made in, so a canvas is given by the root
canvas it belongs to and the transformations on the way to it; a drawing of a file is what is drawn on the root canvas, which is the current one at the end.
-/

set_option linter.unusedSectionVars false

namespace PyX.Svg.Tree

variable {T C : Type}

/-- A `fill` or `stroke` attribute; `inherit` also if the attribute is missing (`svgfile.py:419-420, 463-466`). -/
inductive PaintAttr (C : Type)
  | inherit
  | none
  | color (c : C)

/-- The elements the handler knows: the root, groups, shapes; other elements (`defs`, `symbol`, `a`, …) are ignored. -/
inductive Start (T C : Type)
  | svg (fill stroke : PaintAttr C) (t : T)
  | g (fill stroke : PaintAttr C) (t : T)
  | shape (fill stroke : PaintAttr C) (t : T) (extent : Bool) (name : Nat)
  | other

/-- Begin or end of an element; for the end only its kind matters. -/
inductive Event (T C : Type)
  | start (e : Start T C)
  | ending (isGroup : Bool)

/-- A canvas: the number of its root canvas and the transformations on the way. -/
structure Canvas (T : Type) where
  root : Nat
  chain : List T

/-- A shape drawn: where, with which transformations, and its colors. -/
structure Drawing (T C : Type) where
  name : Nat
  chain : List T
  fill : Option C
  stroke : Option C

/-- The state of the handler: `roots` counts the root canvases made. -/
structure State (T C : Type) where
  roots : Nat
  canvas : Option (Canvas T)
  stack : List (Option (Canvas T) × Option C × Option C)
  stroke : Option C
  fill : Option C
  drawn : List (Nat × Drawing T C)

/-! ## Model -/

/-- `toColor` (`svgfile.py:283-289`; the colors themselves are not modelled). -/
def PaintAttr.get (inherited : Option C) : PaintAttr C → Option C
  | .inherit => inherited
  | .none => Option.none
  | .color c => some c

/-- The handler before the file (`svgfile.py:134-138`). -/
def begin (black : C) : State T C := ⟨0, none, [], none, some black, []⟩

/-- The drawing of a shape on the current canvas (`svgfile.py:460-470`); `none`: there is no canvas. -/
def drawShape (s : State T C) (fill stroke : PaintAttr C) (t : T) (extent : Bool) (name : Nat) : Option (State T C) :=
  if extent && ((fill.get s.fill).isSome || (stroke.get s.stroke).isSome) then
    s.canvas.map fun c => { s with drawn := s.drawn ++ [(c.root, ⟨name, c.chain ++ [t], fill.get s.fill, stroke.get s.stroke⟩)] }
  else some s

/-- `startElementNS` and `endElementNS` (`svgfile.py:388-476`); `none`: an exception. -/
def event (s : State T C) : Event T C → Option (State T C)
  | .start (.svg _ _ t) => some { s with roots := s.roots + 1, canvas := some ⟨s.roots, [t]⟩ }
  | .start (.g fill stroke t) =>
    s.canvas.map fun c =>
      { s with stack := (s.canvas, s.stroke, s.fill) :: s.stack, canvas := some ⟨c.root, c.chain ++ [t]⟩, fill := fill.get s.fill, stroke := stroke.get s.stroke }
  | .start (.shape fill stroke t extent name) => drawShape s fill stroke t extent name
  | .start .other => some s
  | .ending true =>
    match s.stack with
    | [] => none
    | (c, stroke, fill) :: rest => some { s with stack := rest, canvas := c, stroke := stroke, fill := fill }
  | .ending false => some s

/-- All events in turn. -/
def run (s : State T C) : List (Event T C) → Option (State T C)
  | [] => some s
  | e :: l => (event s e).bind fun s => run s l

/-- What is on the canvas of the file at the end (`svgfile.py:565-567`). -/
def shown (s : State T C) : List (Drawing T C) :=
  match s.canvas with
  | none => []
  | some c => (s.drawn.filter fun d => d.1 == c.root).map Prod.snd

/-! ## Specification: the tree of elements -/

/-- A tree of elements. -/
inductive Node (T C : Type)
  | g (fill stroke : PaintAttr C) (t : T) (children : List (Node T C))
  | shape (fill stroke : PaintAttr C) (t : T) (extent : Bool) (name : Nat)
  | svg (fill stroke : PaintAttr C) (t : T) (children : List (Node T C))
  | other (children : List (Node T C))

mutual

/-- The events of an element. -/
def Node.events : Node T C → List (Event T C)
  | .g fill stroke t children => .start (.g fill stroke t) :: (eventsAll children ++ [.ending true])
  | .shape fill stroke t extent name => [.start (.shape fill stroke t extent name), .ending false]
  | .svg fill stroke t children => .start (.svg fill stroke t) :: (eventsAll children ++ [.ending false])
  | .other children => .start .other :: (eventsAll children ++ [.ending false])

def eventsAll : List (Node T C) → List (Event T C)
  | [] => []
  | n :: l => n.events ++ eventsAll l

end

/-- The paint of an element: its own one, or the one of its parent. -/
def painted (inherited : Option C) : PaintAttr C → Option C
  | .inherit => inherited
  | .none => Option.none
  | .color c => some c

mutual

/-- What SVG draws for an element (11.2, 5.2, 7.6): shapes with an extent and any paint, with the transformations of all elements around them; nothing within elements
which are only definitions. -/
def Node.draws (chain : List T) (fill stroke : Option C) : Node T C → List (Drawing T C)
  | .g f s t children => drawsAll (chain ++ [t]) (painted fill f) (painted stroke s) children
  | .shape f s t extent name =>
    if extent = true ∧ (painted fill f ≠ none ∨ painted stroke s ≠ none) then [⟨name, chain ++ [t], painted fill f, painted stroke s⟩] else []
  | .svg f s t children => drawsAll (chain ++ [t]) (painted fill f) (painted stroke s) children
  | .other _ => []

def drawsAll (chain : List T) (fill stroke : Option C) : List (Node T C) → List (Drawing T C)
  | [] => []
  | n :: l => n.draws chain fill stroke ++ drawsAll chain fill stroke l

end

mutual

/-- Only groups and shapes. -/
def Node.simple : Node T C → Bool
  | .g _ _ _ children => simpleAll children
  | .shape _ _ _ _ _ => true
  | .svg _ _ _ _ => false
  | .other _ => false

def simpleAll : List (Node T C) → Bool
  | [] => true
  | n :: l => n.simple && simpleAll l

end

/-- A file: the root element with its content. -/
def file (fill stroke : PaintAttr C) (t : T) (content : List (Node T C)) : List (Event T C) := (Node.svg fill stroke t content).events

/-! ## Proof -/

theorem get_eq (i : Option C) (p : PaintAttr C) : p.get i = painted i p := by cases p <;> rfl

theorem run_append (s : State T C) (a b : List (Event T C)) : run s (a ++ b) = (run s a).bind fun s => run s b := by
  induction a generalizing s with
  | nil => rfl
  | cons e a ih =>
    simp only [List.cons_append, run]
    cases event s e with
    | none => rfl
    | some s => simp only [Option.bind_some, ih]

mutual

/-- A simple element draws what it should and leaves the handler as it was. -/
theorem node_run (n : Node T C) (hn : n.simple = true) (s : State T C) (c : Canvas T) (hc : s.canvas = some c) :
    run s n.events = some { s with drawn := s.drawn ++ (n.draws c.chain s.fill s.stroke).map fun d => (c.root, d) } := by
  cases n with
  | g fill stroke t children =>
    simp only [Node.simple] at hn
    simp only [Node.events, run, event, hc, Option.map_some, Option.bind_some]
    rw [run_append, all_run children hn _ ⟨c.root, c.chain ++ [t]⟩ rfl]
    simp only [Option.bind_some, run, event, Node.draws, get_eq]
  | shape fill stroke t extent name =>
    simp only [Node.events, run, event, drawShape, get_eq, hc]
    by_cases h : (extent && ((painted s.fill fill).isSome || (painted s.stroke stroke).isSome)) = true
    · rw [if_pos h]
      simp only [Option.map_some, Option.bind_some, Node.draws]
      rw [if_pos]
      · simp
      · simpa [Option.isSome_iff_ne_none] using h
    · rw [if_neg h]
      simp only [Option.bind_some, Node.draws]
      rw [if_neg]
      · cases s
        simp_all
      · simpa [Option.isSome_iff_ne_none] using h
  | svg _ _ _ _ => simp [Node.simple] at hn
  | other _ => simp [Node.simple] at hn

theorem all_run (l : List (Node T C)) (hl : simpleAll l = true) (s : State T C) (c : Canvas T) (hc : s.canvas = some c) :
    run s (eventsAll l) = some { s with drawn := s.drawn ++ (drawsAll c.chain s.fill s.stroke l).map fun d => (c.root, d) } := by
  cases l with
  | nil => simp [eventsAll, run, drawsAll]
  | cons n l =>
    simp only [simpleAll, Bool.and_eq_true] at hl
    simp only [eventsAll]
    rw [run_append, node_run n hl.1 s c hc, Option.bind_some, all_run l hl.2 { s with drawn := s.drawn ++ (n.draws c.chain s.fill s.stroke).map fun d => (c.root, d) } c hc]
    simp only [drawsAll, List.map_append, List.append_assoc]

end

theorem filter_root (r : Nat) (l : List (Drawing T C)) : ((l.map fun d => (r, d)).filter fun d => d.1 == r).map Prod.snd = l := by
  induction l with
  | nil => rfl
  | cons d l ih =>
    rw [List.map_cons, List.filter_cons_of_pos (by simp), List.map_cons, ih]

/-- C102: of a file made of groups and shapes exactly the shapes with an extent and a paint are drawn, in their order, with the transformations of all elements around them
and the paint of the nearest element that gives one; a shape without any is filled with black.  (The paint of the root element has to be left out.) -/
theorem file_partial (black : C) (t : T) (content : List (Node T C)) (h : simpleAll content = true) :
    ∃ s, run (begin black) (file .inherit .inherit t content) = some s ∧ shown s = Node.draws [] (some black) none (.svg .inherit .inherit t content) := by
  have h1 := all_run content h ⟨1, some ⟨0, [t]⟩, [], none, some black, []⟩ ⟨0, [t]⟩ rfl
  refine ⟨⟨1, some ⟨0, [t]⟩, [], none, some black, (drawsAll [t] (some black) none content).map fun d => (0, d)⟩, ?_, ?_⟩
  · unfold file
    simp only [Node.events, run, event, begin, Option.bind_some]
    rw [run_append, h1]
    rfl
  · simp only [shown, filter_root, Node.draws, painted, List.nil_append]

/-- C102 does not hold for the paint of the root element: it is ignored. -/
theorem root_paint (black red : C) (h : black ≠ red) (t u : T) :
    ∃ s, run (begin black) (file (.color red) .inherit t [.shape .inherit .inherit u true 0]) = some s ∧
      shown s = [⟨0, [t, u], some black, none⟩] ∧ Node.draws [] (some black) none (.svg (.color red) .inherit t [.shape .inherit .inherit u true 0]) = [⟨0, [t, u], some red, none⟩] ∧
      (⟨0, [t, u], some black, none⟩ : Drawing T C) ≠ ⟨0, [t, u], some red, none⟩ := by
  refine ⟨_, rfl, rfl, rfl, fun e => h ?_⟩
  injection e with _ _ e _
  exact Option.some.inj e

/-- C102 does not hold for definitions: the shapes in them are drawn. -/
theorem defs_drawn (black : C) (t u : T) :
    ∃ s, run (begin black) (file .inherit .inherit t [.other [.shape .inherit .inherit u true 0]]) = some s ∧ shown s = [⟨0, [t, u], some black, none⟩] ∧
      Node.draws [] (some black) none (.svg .inherit .inherit t [.other [.shape .inherit .inherit u true 0]]) = [] := ⟨_, rfl, rfl, rfl⟩

/-- C102 does not hold for `svg` elements within the file: all shapes in front of them get lost. -/
theorem inner_svg_loses (black : C) (t u v : T) :
    ∃ s, run (begin black) (file .inherit .inherit t [.shape .inherit .inherit u true 0, .svg .inherit .inherit v [.shape .inherit .inherit u true 1]]) = some s ∧
      (shown s).map (·.name) = [1] ∧
      (Node.draws [] (some black) none
        (.svg .inherit .inherit t [.shape .inherit .inherit u true 0, .svg .inherit .inherit v [.shape .inherit .inherit u true 1]])).map (·.name) = [0, 1] :=
  ⟨_, rfl, rfl, rfl⟩

/-- A red group with a shape of its own stroke, a group without fill in it, and a shape behind both. -/
example : ∃ s, run (begin "black") (file .inherit .inherit 0
      [.g (.color "red") .inherit 1 [.shape .inherit (.color "blue") 2 true 0, .g .none .inherit 3 [.shape .inherit .inherit 4 true 1, .shape .inherit (.color "green") 5 true 2]],
       .shape .inherit .inherit 6 true 3]) = some s ∧
    shown s = [⟨0, [0, 1, 2], some "red", some "blue"⟩, ⟨2, [0, 1, 3, 5], none, some "green"⟩, ⟨3, [0, 6], some "black", none⟩] := ⟨_, rfl, rfl⟩

end PyX.Svg.Tree
