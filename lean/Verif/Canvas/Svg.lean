import Verif.Canvas.BoxProps

/-!
# Model of the SVG output of canvas trees

`canvas.processSVG`, `decoratedpath.processSVG`, `text_pt.processSVG`, the `processSVGattrs` methods of the
styles, of `trafo` and of `clip`, and the head of the file written by `SVGwriter`.  The elements are
written as a stream: start of a group, end of a group, a path, a text.  Attributes of an element are a
dictionary `At`.

`SVG.run` is what a viewer does with the stream: presentation attributes are inherited, the transformation
acts on the element and on its clip path, the opacity on the element as a whole, a path is filled first
and stroked then.  Coordinates in the file have the `y` axis downwards.

Not modelled: the registry (a clip path is given by its path instead of a reference to its id), format of
numbers, kerning and slant of texts, patterns which raise an error (with steps or without colour).
-/

set_option linter.unusedSectionVars false

namespace PyX.Canvas

/-- The value of the attributes `fill` and `stroke`. -/
inductive Paint
  | no
  | col (c : Col)
deriving DecidableEq, Repr

/-- The attributes of an element.  `dasharray` `[]` is `"none"`; `params` are `stroke-linecap` and so on;
`clip` is the path the attribute `clip-path` refers to, in coordinates of the file. -/
structure At (K P : Type) where
  strokeWidth : Option K := none
  dasharray : Option (List K) := none
  dashoffset : Option K := none
  params : List (ℕ × ℕ) := []
  fillRule : Option Bool := none
  stroke : Option Paint := none
  fill : Option Paint := none
  opacity : Option K := none
  clip : Option P := none
  transform : Option (Trafo K) := none

/-- `not attrs` for the dictionary. -/
def At.isEmpty {K P : Type} (a : At K P) : Bool :=
  a.strokeWidth.isNone && a.dasharray.isNone && a.dashoffset.isNone && a.params.isEmpty && a.fillRule.isNone &&
    a.stroke.isNone && a.fill.isNone && a.opacity.isNone && a.clip.isNone && a.transform.isNone

/-- What is written: `startSVGElement("g", a)`, `endSVGElement("g")`, a `path` and a `text`. -/
inductive STok (K P F : Type)
  | g (a : At K P)
  | endg
  | path (a : At K P) (p : P)
  | text (a : At K P) (f : F) (s : P)

/-- `svgwriter.context` (`pyx/svgwriter.py:245-262`). -/
structure SCtx (K : Type) where
  lw : K
  strokeattr : Bool
  fillattr : Bool
  fillcolor : Col
  strokecolor : Col
  fillopacity : K
  strokeopacity : K

section
variable {K P F : Type} [Field K] [LinearOrder K] [PathLike K P]

/-- The `y` axis of SVG files is downwards. -/
def flipT : Trafo K := ⟨1, 0, 0, -1, 0, 0⟩

/-- `path.returnSVGdata`: the path with all `y` coordinates negated (`pyx/path.py`, see `Verif.Path.SvgProps`). -/
def svgData (p : P) : P := PathLike.transformed p flipT

/-- `dash.processSVGattrs` (`pyx/style.py:162-171`). -/
def svgDash (w0 lw : K) (a : At K P) (l : List K) (o : K) (rel : Bool) : At K P :=
  if (dashNumbers w0 lw l rel).isEmpty then { a with dasharray := some [] }
  else { a with dasharray := some (dashNumbers w0 lw l rel), dashoffset := some o }

/-- `processSVGattrs` of a style, the attributes (`pyx/style.py:62-267`). -/
def svgStyle (w0 : K) (c : SCtx K) (a : At K P) : Style K → At K P
  | .linewidth w => { a with strokeWidth := some w }
  | .dash l o rel => svgDash w0 c.lw a l o rel
  | .linestyle cap l o rel => svgDash w0 c.lw { a with params := a.params ++ [(0, cap)] } l o rel
  | .param k v => { a with params := a.params ++ [(k, v)] }
  | .fillrule b => { a with fillRule := some b }
  | _ => a

/-- Colours and patterns are kept in the context (`pyx/color.py:59-63`, `pyx/pattern.py:170-173`). -/
def svgColor (c : SCtx K) (n : Col) : SCtx K :=
  { c with strokecolor := if c.strokeattr then n else c.strokecolor,
           fillcolor := if c.fillattr then n else c.fillcolor }

/-- `transparency.processSVGattrs` (`pyx/color.py:615-619`). -/
def svgOpacity (c : SCtx K) (v : K) : SCtx K :=
  { c with strokeopacity := if c.strokeattr then v else c.strokeopacity,
           fillopacity := if c.fillattr then v else c.fillopacity }

/-- `processSVGattrs` of a style, the context afterwards (`pyx/style.py:231`, `pyx/color.py:59-63,615-619`,
`pyx/pattern.py:170-173`). -/
def svgCtx1 (c : SCtx K) : Style K → SCtx K
  | .linewidth w => { c with lw := w }
  | .color n => svgColor c (.dev n)
  | .pattern n => svgColor c (.pat n)
  | .opacity v => svgOpacity c v
  | _ => c

/-- A loop over styles, the attributes. -/
def svgStyles (w0 : K) (c : SCtx K) (a : At K P) : List (Style K) → At K P
  | [] => a
  | s :: l => svgStyles w0 (svgCtx1 c s) (svgStyle w0 c a s) l

/-- A loop over styles, the context afterwards. -/
def svgCtx (c : SCtx K) : List (Style K) → SCtx K
  | [] => c
  | s :: l => svgCtx (svgCtx1 c s) l

/-- `_writestrokestyles`, the context afterwards (`pyx/deco.py:298-302`). -/
def svgStrokeCtx (c : SCtx K) (l : List (Style K)) : SCtx K :=
  { svgCtx { c with fillattr := false } l with fillattr := true }

/-- `_writefillstyles`, the context afterwards (`pyx/deco.py:304-308`). -/
def svgFillCtx (c : SCtx K) (l : List (Style K)) : SCtx K :=
  { svgCtx { c with strokeattr := false } l with strokeattr := true }

/-- `if acontext.strokeopacity != 1: attrs["opacity"] = ...` -/
def setOpacity (v : K) (a : At K P) : At K P := if v = 1 then a else { a with opacity := some v }

/-- The path of a stroke which is not the path of the filling (`pyx/deco.py:321-329`). -/
def svgStroke (w0 : K) (c : SCtx K) (p : P) (l : List (Style K)) : List (STok K P F) :=
  [.path (setOpacity (svgStrokeCtx c l).strokeopacity
    { svgStyles w0 { c with fillattr := false } {} l with stroke := some (.col (svgStrokeCtx c l).strokecolor) }) (svgData p)]

/-- The path of a filling which is not the path of the stroke (`pyx/deco.py:330-338`). -/
def svgFill (w0 : K) (c : SCtx K) (p : P) (l : List (Style K)) : List (STok K P F) :=
  [.path (setOpacity (svgFillCtx c l).fillopacity
    { svgStyles w0 { c with strokeattr := false } {} l with fill := some (.col (svgFillCtx c l).fillcolor) }) (svgData p)]

/-- The context after stroke and fill styles of one path (`pyx/deco.py:341-342`). -/
def svgBothCtx (c : SCtx K) (fs ss : Option (List (Style K))) : SCtx K :=
  svgFillCtx (svgStrokeCtx c (ss.getD [])) (fs.getD [])

/-- The attributes of the stroke and fill styles of one path (`pyx/deco.py:340-346`). -/
def svgBothAttrs (w0 : K) (c : SCtx K) (fs ss : Option (List (Style K))) : At K P :=
  let a := svgStyles w0 { svgStrokeCtx c (ss.getD []) with strokeattr := false }
    (svgStyles w0 { c with fillattr := false } {} (ss.getD [])) (fs.getD [])
  let a := if ss.isSome then { a with stroke := some (.col (svgBothCtx c fs ss).strokecolor) } else a
  if fs.isSome then { a with fill := some (.col (svgBothCtx c fs ss).fillcolor) } else a

/-- Stroke and filling of one path (`pyx/deco.py:339-365`); `c` is the context afterwards, `a` are the
attributes.  If the opacities differ the path is written twice, with the same dictionary. -/
def svgBoth (c : SCtx K) (a : At K P) (p : P) (fs ss : Option (List (Style K))) : List (STok K P F) :=
  if c.strokeopacity ≠ c.fillopacity ∧ ss.isSome ∧ fs.isSome then
    let a1 := { setOpacity c.strokeopacity a with stroke := some (.col c.strokecolor), fill := some .no }
    let a2 := { setOpacity c.fillopacity a1 with stroke := some .no, fill := some (.col c.fillcolor) }
    [.path a1 (svgData p), .path a2 (svgData p)]
  else
    let a1 := if ss.isSome then setOpacity c.strokeopacity a else a
    let a2 := if fs.isSome then setOpacity c.fillopacity a1 else a1
    [.path a2 (svgData p)]

/-- The path elements of a decorated path (`pyx/deco.py:320-369`). -/
def svgPaths (w0 : K) (c : SCtx K) (path : P) (sp : Option P) (fs ss : Option (List (Style K))) :
    List (STok K P F) :=
  match sp with
  | some q =>
    (match ss with
      | some l => svgStroke w0 c q l
      | none => []) ++
    (match fs with
      | some f => svgFill w0 (svgStrokeCtx c (ss.getD [])) path f
      | none => [])
  | none => svgBoth (svgBothCtx c fs ss) (svgBothAttrs w0 c fs ss) path fs ss

/-- `xml.startSVGElement("g", gattrs)` and its end, if there are attributes (`pyx/deco.py:317-318,375-376`). -/
def svgWrap (a : At K P) (inner : List (STok K P F)) : List (STok K P F) :=
  if a.isEmpty then inner else [.g a] ++ inner ++ [.endg]

/-- The groups of a canvas which modifies the state (`pyx/canvas.py:259-273,282-285`). -/
def svgGroups (cv : CV K P) (a : At K P) (inner : List (STok K P F)) : List (STok K P F) :=
  match cv.clip with
  | some p =>
    if cv.hasTrafo then
      [.g { a with clip := some (svgData p) }, .g { transform := some cv.trafo.svgAttr }] ++ inner ++ [.endg, .endg]
    else [.g { a with clip := some (svgData p) }] ++ inner ++ [.endg]
  | none =>
    if cv.hasTrafo then [.g { a with transform := some cv.trafo.svgAttr }] ++ inner ++ [.endg]
    else [.g a] ++ inner ++ [.endg]

/-- A text output as a text: the opacity is written unless it is zero (`pyx/font/font.py:727-733`). -/
def svgText (c : SCtx K) (f : F) (s : P) : List (STok K P F) :=
  [.text { fill := some (.col c.fillcolor), opacity := if c.fillopacity = 0 then none else some c.fillopacity } f (svgData s)]

/-- The context for the ornaments of a decorated path: the one the stroke and fill styles have been written
with (`pyx/deco.py:314,371`).  Stroke and fill styles are written to the context in any case. -/
def svgOrnCtx (c : SCtx K) (sp : Option P) (fs ss : Option (List (Style K))) : SCtx K :=
  match sp with
  | some _ => match fs with
    | some f => svgFillCtx (svgStrokeCtx c (ss.getD [])) f
    | none => svgStrokeCtx c (ss.getD [])
  | none => svgBothCtx c fs ss

mutual
/-- `item.processSVG`, the elements written (`pyx/canvas.py:256-285`, `pyx/deco.py:297-376`,
`pyx/font/font.py:692-760`).  The context of the caller is not changed: decorated paths and canvases with
attributes work on copies.  Form fields raise an error in SVG; they write nothing here. -/
def svgItem (w0 : K) (tap : Bool) (c : SCtx K) : Item K P F → List (STok K P F)
  | .text f t1 s => if tap && t1 then svgPaths w0 c s none (some []) none else svgText c f s
  | .dp path sp sty fs ss orn =>
    svgWrap (svgStyles w0 c {} sty)
      (svgPaths w0 (svgCtx c sty) path sp fs ss ++ svgItems w0 tap (svgOrnCtx (svgCtx c sty) sp fs ss) orn)
  | .field _ => []
  | .cv attrs items =>
    if items.isEmpty then []
    else if attrs.isEmpty then svgItems w0 tap c items
    else svgGroups (cvOf attrs) (svgStyles w0 c {} (stylesOf attrs))
      (svgItems w0 tap (svgCtx c (stylesOf attrs)) items)
/-- The loop over the items (`pyx/canvas.py:275-276`). -/
def svgItems (w0 : K) (tap : Bool) (c : SCtx K) : Items K P F → List (STok K P F)
  | .nil => []
  | .cons i l => svgItem w0 tap c i ++ svgItems w0 tap c l
end

/-! ## Bounding box -/

/-- `bbox +=` of the paths (`pyx/deco.py:329,338,366-369`); `lw` is the line width of the context. -/
def svgDpBox (lw : K) (path : P) (sp : Option P) (fs ss : Option (List (Style K))) (b : BBox K) : BBox K :=
  match sp with
  | some q =>
    let b := match ss with
      | some l => BBox.iadd b (strokeBox (lwAfter lw l) q)
      | none => b
    if fs.isSome then BBox.iadd b (PathLike.bbox path) else b
  | none =>
    if ss.isSome then BBox.iadd b (strokeBox (lwAfter (lwAfter lw (ss.getD [])) (fs.getD [])) path)
    else BBox.iadd b (PathLike.bbox path)

/-- The line width of the context of the ornaments. -/
def svgOrnLw (lw : K) (fs ss : Option (List (Style K))) : K := lwAfter (lwAfter lw (ss.getD [])) (fs.getD [])

mutual
/-- The bounding box computed while writing (`pyx/canvas.py:274-281`, `pyx/deco.py:329-371`,
`pyx/font/font.py:693-694`), new value. -/
def svgBox (lw : K) : Item K P F → BBox K → BBox K
  | .text _ _ s, b => BBox.iadd b (PathLike.bbox s)
  | .dp path sp sty fs ss orn, b =>
    if orn.isEmpty then svgDpBox (lwAfter lw sty) path sp fs ss b
    else BBox.iadd (svgDpBox (lwAfter lw sty) path sp fs ss b)
      (BBox.transformed (svgBoxes (svgOrnLw (lwAfter lw sty) fs ss) orn none) Trafo.one)
  | .field _, b => b
  | .cv attrs items, b =>
    if items.isEmpty then b
    else cvBox (cvOf attrs) b (svgBoxes (lwAfter lw (stylesOf attrs)) items none)
/-- The loop over the items. -/
def svgBoxes (lw : K) : Items K P F → BBox K → BBox K
  | .nil, b => b
  | .cons i l, b => svgBoxes lw l (svgBox lw i b)
end

/-- The attribute `viewBox` of the file: left, upper edge, width and height (`pyx/svgwriter.py:207-213`). -/
def viewBox (b : BBox K) : Option (K × K × K × K) :=
  b.map fun q => (q.llx, -q.ury, q.urx - q.llx, q.ury - q.lly)

end

/-! ## A viewer -/

namespace SVG
variable {K P F : Type} [Field K] [LinearOrder K] [PathLike K P]

/-- Inherited properties, transformation, clip paths (in coordinates of the file) and opacity. -/
structure GS (K P : Type) where
  ctm : Trafo K
  clips : List P
  lw : K
  dasharray : List K
  dashoffset : K
  param : ℕ → ℕ
  rule : Bool
  stroke : Paint
  fill : Paint
  op : K

/-- Viewer state. -/
structure St (K P F : Type) where
  gs : GS K P
  stack : List (GS K P)
  out : List (Mark K P F)

/-- The attributes of an element in force. -/
def enter (g : GS K P) (a : At K P) : GS K P :=
  { ctm := g.ctm.mul (a.transform.getD Trafo.one)
    clips := (a.clip.toList.map fun p => PathLike.transformed p (g.ctm.mul (a.transform.getD Trafo.one))) ++ g.clips
    lw := a.strokeWidth.getD g.lw
    dasharray := a.dasharray.getD g.dasharray
    dashoffset := a.dashoffset.getD g.dashoffset
    param := a.params.foldl (fun f kv => Function.update f kv.1 kv.2) g.param
    rule := a.fillRule.getD g.rule
    stroke := a.stroke.getD g.stroke
    fill := a.fill.getD g.fill
    op := g.op * a.opacity.getD 1 }

/-- Dashes: without pattern the offset has no effect. -/
def dashOf (l : List K) (o : K) : List K × K := if l.isEmpty then ([], 0) else (l, o)

/-- The marks of a path element. -/
def paint (g : GS K P) (p : P) : List (Mark K P F) :=
  (match g.fill with
    | .no => []
    | .col c => [⟨.fill g.rule c g.op, p, g.ctm, g.clips⟩]) ++
  (match g.stroke with
    | .no => []
    | .col c => [⟨.stroke c g.op g.lw (dashOf g.dasharray g.dashoffset) g.param, p, g.ctm, g.clips⟩])

/-- One element.  Texts are supposed not to be stroked. -/
def step (s : St K P F) : STok K P F → Option (St K P F)
  | .g a => some { s with gs := enter s.gs a, stack := s.gs :: s.stack }
  | .endg => match s.stack with
    | g :: st => some { s with gs := g, stack := st }
    | [] => none
  | .path a p => some { s with out := s.out ++ paint (enter s.gs a) p }
  | .text a f o => match (enter s.gs a).stroke with
    | .col _ => none
    | .no => some { s with out := s.out ++ match (enter s.gs a).fill with
      | .no => []
      | .col c => [⟨.text f c (enter s.gs a).op, o, (enter s.gs a).ctm, (enter s.gs a).clips⟩] }

/-- A stream of elements. -/
def run : List (STok K P F) → St K P F → Option (St K P F)
  | [], s => some s
  | t :: l, s => (step s t).bind (run l)

end SVG

/-! ## What is to be seen -/

section
variable {K P F : Type} [Field K] [LinearOrder K] [PathLike K P]

/-- Strokes without dashes have no offset. -/
def Ink.norm : Ink K F → Ink K F
  | .stroke c o w d p => .stroke c o w (SVG.dashOf d.1 d.2) p
  | i => i

/-- A mark in coordinates with the `y` axis downwards. -/
def svgMark (k : Mark K P F) : Mark K P F :=
  ⟨k.ink.norm, PathLike.transformed k.path flipT, flipT.mul (k.T.mul flipT),
    k.clips.map fun p => PathLike.transformed p flipT⟩

end
end PyX.Canvas
