import Verif.Canvas.Model

/-!
# What a canvas tree is to look like, and what PostScript and PDF interpreters do

`pic` is the picture denoted by a tree, independent of any output format: a list of marks (filled or
stroked paths and texts), each with its transformation, the clip paths in force and its style.  The
attributes of a canvas act from left to right on the picture of its content.

`PS.run` and `PDF.run` are the interpreters: a graphics state, a stack of saved states and the marks
made so far.  `none` is an error (missing path or font, `grestore` without `gsave`, an operator not
allowed in a text section, ...).
-/

namespace PyX.Canvas

variable {K P F : Type} [Field K] [LinearOrder K] [PathLike K P]

/-- The ink of a mark; `op` is the opacity. -/
inductive Ink (K F : Type)
  | fill (evenodd : Bool) (col : Col) (op : K)
  | stroke (col : Col) (op : K) (lw : K) (dash : List K × K) (param : ℕ → ℕ)
  | text (f : F) (col : Col) (op : K)
  | field

/-- A mark: ink, path in its own coordinates, transformation to the page, and clip paths in page
coordinates. -/
structure Mark (K P F : Type) where
  ink : Ink K F
  path : P
  T : Trafo K
  clips : List P

/-- The style in force. -/
structure Sty (K : Type) where
  lw : K
  dash : List K × K
  param : ℕ → ℕ
  rule : Bool
  scol : Col
  fcol : Col
  sop : K
  fop : K

/-- The effect of a style; `ps`: patterns are used for strokes as well (PostScript only). -/
def Sty.apply (w0 : K) (ps : Bool) (y : Sty K) : Style K → Sty K
  | .linewidth w => { y with lw := w }
  | .dash l o rel => { y with dash := (if rel then l.map (fun e => e * y.lw / w0) else l, o) }
  | .linestyle cap l o rel =>
    { y with param := Function.update y.param 0 cap,
             dash := (if rel then l.map (fun e => e * y.lw / w0) else l, o) }
  | .param k v => { y with param := Function.update y.param k v }
  | .color c => { y with scol := .dev c, fcol := .dev c }
  | .pattern n => { y with scol := if ps then .pat n else y.scol, fcol := .pat n }
  | .fillrule b => { y with rule := b }
  | .opacity v => { y with sop := v, fop := v }

/-- Styles act one after the other. -/
def Sty.applyAll (w0 : K) (ps : Bool) (y : Sty K) (l : List (Style K)) : Sty K :=
  l.foldl (Sty.apply w0 ps) y

/-- An attribute acting on a picture: transformations move everything, clips cut everything. -/
def Mark.attr (k : Mark K P F) : Attr K P → Mark K P F
  | .trafo t => { k with T := t.mul k.T, clips := k.clips.map fun p => PathLike.transformed p t }
  | .clip p => { k with clips := k.clips ++ [p] }
  | .style _ => k

/-- The mark of a filling. -/
def fillMark (y : Sty K) (p : P) : Mark K P F := ⟨.fill y.rule y.fcol y.fop, p, Trafo.one, []⟩

/-- The mark of a stroke. -/
def strokeMark (y : Sty K) (p : P) : Mark K P F := ⟨.stroke y.scol y.sop y.lw y.dash y.param, p, Trafo.one, []⟩

mutual
/-- The picture of an item where the style `y` is in force: `tap` texts are given as filled outlines
where possible. -/
def pic (w0 : K) (ps tap : Bool) (y : Sty K) : Item K P F → List (Mark K P F)
  | .text f t1 s => if tap && t1 then [fillMark y s] else [⟨.text f y.fcol y.fop, s, Trafo.one, []⟩]
  | .dp path sp sty fs ss orn =>
    (fs.toList.map fun f => fillMark ((y.applyAll w0 ps sty).applyAll w0 ps f) path) ++
    (ss.toList.map fun s => strokeMark ((y.applyAll w0 ps sty).applyAll w0 ps s) (sp.getD path)) ++
    pics w0 ps tap (y.applyAll w0 ps sty) orn
  | .field r => if ps then [] else [⟨.field, r, Trafo.one, []⟩]
  | .cv attrs items =>
    (pics w0 ps tap (y.applyAll w0 ps (stylesOf attrs)) items).map fun k => attrs.foldl Mark.attr k
/-- The pictures of items, in order. -/
def pics (w0 : K) (ps tap : Bool) (y : Sty K) : Items K P F → List (Mark K P F)
  | .nil => []
  | .cons i l => pic w0 ps tap y i ++ pics w0 ps tap y l
end

/-- A picture put on a page with transformation `T` and clip paths `cl`. -/
def place (T : Trafo K) (cl : List P) (k : Mark K P F) : Mark K P F :=
  { k with T := T.mul k.T, clips := (k.clips.map fun p => PathLike.transformed p T) ++ cl }

/-! ## PostScript interpreter -/

namespace PS

/-- The graphics state; the current path is part of it. -/
@[ext]
structure GS (K P F : Type) where
  ctm : Trafo K
  clips : List P
  lw : K
  dash : List K × K
  param : ℕ → ℕ
  col : Col
  op : K
  font : Option F
  path : List (P × Trafo K)

/-- Interpreter state. -/
structure St (K P F : Type) where
  gs : GS K P F
  stack : List (GS K P F)
  out : List (Mark K P F)

/-- Paint the current path. -/
def paint (s : St K P F) (ink : Ink K F) : Option (St K P F) :=
  match s.gs.path with
  | [(p, T)] => some { s with gs := { s.gs with path := [] }, out := s.out ++ [⟨ink, p, T, s.gs.clips⟩] }
  | _ => none

/-- One operator. -/
def step (s : St K P F) : PTok K P F → Option (St K P F)
  | .gsave => some { s with stack := s.gs :: s.stack }
  | .grestore => match s.stack with
    | g :: st => some { s with gs := g, stack := st }
    | [] => none
  | .newpath => some { s with gs := { s.gs with path := [] } }
  | .path p => some { s with gs := { s.gs with path := s.gs.path ++ [(p, s.gs.ctm)] } }
  | .clip => match s.gs.path with
    | [(p, T)] => some { s with gs := { s.gs with clips := PathLike.transformed p T :: s.gs.clips } }
    | _ => none
  | .concat t => some { s with gs := { s.gs with ctm := s.gs.ctm.mul t } }
  | .setlinewidth w => some { s with gs := { s.gs with lw := w } }
  | .setdash l o => some { s with gs := { s.gs with dash := (l, o) } }
  | .param k v => some { s with gs := { s.gs with param := Function.update s.gs.param k v } }
  | .setcolor c => some { s with gs := { s.gs with col := .dev c } }
  | .setpattern n => some { s with gs := { s.gs with col := .pat n } }
  | .alpha v => some { s with gs := { s.gs with op := v } }
  | .fill => paint s (.fill false s.gs.col s.gs.op)
  | .eofill => paint s (.fill true s.gs.col s.gs.op)
  | .stroke => paint s (.stroke s.gs.col s.gs.op s.gs.lw s.gs.dash s.gs.param)
  | .selectfont f => some { s with gs := { s.gs with font := some f } }
  | .show o => match s.gs.font with
    | some f => some { s with out := s.out ++ [⟨.text f s.gs.col s.gs.op, o, s.gs.ctm, s.gs.clips⟩] }
    | none => none

/-- A stream of operators. -/
def run : List (PTok K P F) → St K P F → Option (St K P F)
  | [], s => some s
  | t :: l, s => (step s t).bind (run l)

end PS

/-! ## PDF interpreter -/

namespace PDF

/-- The graphics state; `fpat`: the fill colour space is `Pattern`. -/
@[ext]
structure GS (K P F : Type) where
  ctm : Trafo K
  clips : List P
  lw : K
  dash : List K × K
  param : ℕ → ℕ
  scol : Col
  fcol : Col
  fpat : Bool
  sop : K
  fop : K
  font : Option F

/-- Interpreter state; the current path and the text section are not part of the graphics state. -/
structure St (K P F : Type) where
  gs : GS K P F
  stack : List (GS K P F)
  path : List P
  text : Bool
  out : List (Mark K P F)

/-- Paint the current path with the given inks. -/
def paint (s : St K P F) (inks : List (Ink K F)) : Option (St K P F) :=
  match s.path with
  | [p] => some { s with path := [], out := s.out ++ inks.map fun ink => ⟨ink, p, s.gs.ctm, s.gs.clips⟩ }
  | _ => none

/-- The ink of a stroke. -/
def strokeInk (g : GS K P F) : Ink K F := .stroke g.scol g.sop g.lw g.dash g.param

/-- One operator.  A form field is recorded with the transformation it was registered with and the
clips in force there (viewers do not clip form fields).  In a text section only text operators and parameters of the graphics state are
allowed.  With `strict`, between the construction of a path and its painting nothing is allowed (PDF
reference, figure 4.1); without, only saving, restoring and parameters are. -/
def step (strict : Bool) (s : St K P F) (t : DTok K P F) : Option (St K P F) :=
  match t with
  | .q => if s.text || strict && !s.path.isEmpty then none else some { s with stack := s.gs :: s.stack }
  | .Q => if s.text || strict && !s.path.isEmpty then none else match s.stack with
    | g :: st => some { s with gs := g, stack := st }
    | [] => none
  | .path p => if s.text then none else some { s with path := s.path ++ [p] }
  | .clip => if s.text then none else match s.path with
    | [p] => some { s with path := [], gs := { s.gs with clips := PathLike.transformed p s.gs.ctm :: s.gs.clips } }
    | _ => none
  | .cm t => if s.text || !s.path.isEmpty then none else some { s with gs := { s.gs with ctm := s.gs.ctm.mul t } }
  | .w w => if strict && !s.path.isEmpty then none else some { s with gs := { s.gs with lw := w } }
  | .d l o => if strict && !s.path.isEmpty then none else some { s with gs := { s.gs with dash := (l, o) } }
  | .param k v => if strict && !s.path.isEmpty then none
      else some { s with gs := { s.gs with param := Function.update s.gs.param k v } }
  | .sc c => if strict && !s.path.isEmpty then none else some { s with gs := { s.gs with scol := .dev c } }
  | .fc c => if strict && !s.path.isEmpty then none
      else some { s with gs := { s.gs with fcol := .dev c, fpat := false } }
  | .cs => if strict && !s.path.isEmpty then none else some { s with gs := { s.gs with fpat := true } }
  | .scn n => if strict && !s.path.isEmpty || !s.gs.fpat then none
      else some { s with gs := { s.gs with fcol := .pat n } }
  | .CA v => if strict && !s.path.isEmpty then none else some { s with gs := { s.gs with sop := v } }
  | .ca v => if strict && !s.path.isEmpty then none else some { s with gs := { s.gs with fop := v } }
  | .f => if s.text then none else paint s [.fill false s.gs.fcol s.gs.fop]
  | .fstar => if s.text then none else paint s [.fill true s.gs.fcol s.gs.fop]
  | .S => if s.text then none else paint s [strokeInk s.gs]
  | .B => if s.text then none else paint s [.fill false s.gs.fcol s.gs.fop, strokeInk s.gs]
  | .Bstar => if s.text then none else paint s [.fill true s.gs.fcol s.gs.fop, strokeInk s.gs]
  | .BT => if s.text || !s.path.isEmpty then none else some { s with text := true }
  | .ET => if s.text then some { s with text := false } else none
  | .Tf f => if strict && !s.path.isEmpty then none else some { s with gs := { s.gs with font := some f } }
  | .Tj o => if s.text then match s.gs.font with
      | some f => some { s with out := s.out ++ [⟨.text f s.gs.fcol s.gs.fop, o, s.gs.ctm, s.gs.clips⟩] }
      | none => none
    else none
  | .field T _ r => some { s with out := s.out ++ [⟨.field, r, T, s.gs.clips⟩] }

/-- A stream of operators. -/
def run (strict : Bool) : List (DTok K P F) → St K P F → Option (St K P F)
  | [], s => some s
  | t :: l, s => (step strict s t).bind (run strict l)

end PDF

end PyX.Canvas
