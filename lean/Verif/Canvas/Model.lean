import Verif.BBox.Model

/-!
# Model of `pyx/canvas.py`, `pyx/deco.py` (`decoratedpath`), `pyx/style.py` and text output

A picture is a tree: canvases with attributes contain items; an item is a text, a decorated path
(whose ornaments form a canvas without attributes), a PDF form field or a canvas again.  The
functions `psItem` and `pdfItem` return the operators written by `processPS` and `processPDF` and
the new value of the `context` of the caller.

Paths are elements of a type `P` which can be transformed (`PathLike`); a text is known by its outline.
Attribute lists are those after `attr.mergeattrs`.  The SVG output is in `Verif.Canvas.Svg`.  Not
modelled: the registry, bitmaps, meshes and EPS files as items.
-/

namespace PyX.Canvas

/-- What the canvas needs from paths: `path.transformed` and `path.bbox`.  `inside p x` are the
points of the path (or the area enclosed by it); the laws are what `pyx/path.py` promises. -/
class PathLike (K : outParam Type) (P : Type) [Field K] [LinearOrder K] where
  transformed : P → Trafo K → P
  bbox : P → BBox K
  inside : P → K × K → Prop
  transformed_mul : ∀ (p : P) (s t : Trafo K), transformed (transformed p s) t = transformed p (t.mul s)
  transformed_one : ∀ p : P, transformed p Trafo.one = p
  inside_transformed : ∀ (p : P) (t : Trafo K) (y : K × K),
    inside (transformed p t) y ↔ ∃ x, inside p x ∧ t.apply x = y
  inside_bbox : ∀ (p : P) (x : K × K), inside p x →
    ∃ q, bbox p = some q ∧ q.llx ≤ x.1 ∧ x.1 ≤ q.urx ∧ q.lly ≤ x.2 ∧ x.2 ≤ q.ury

/-- A colour in the graphics state: a plain colour or a pattern. -/
inductive Col
  | dev (c : ℕ)
  | pat (n : ℕ)
deriving DecidableEq, Repr

/-- Styles (`pyx/style.py`, `pyx/color.py`, `pyx/pattern.py`): `linewidth`, `dash`, `linestyle` (line
cap and dash), the other parameters (`linecap`, `linejoin`, `miterlimit`: which one, value), plain
colours, patterns, the fill rule and the opacity (`color.transparency`, `pyx/color.py:591-620`). -/
inductive Style (K : Type)
  | linewidth (w : K)
  | dash (pattern : List K) (offset : K) (rel : Bool)
  | linestyle (cap : ℕ) (pattern : List K) (offset : K) (rel : Bool)
  | param (k v : ℕ)
  | color (c : ℕ)
  | pattern (n : ℕ)
  | fillrule (evenodd : Bool)
  | opacity (v : K)
deriving DecidableEq, Repr

/-- Canvas attributes (`pyx/canvas.py:135`). -/
inductive Attr (K P : Type)
  | trafo (t : Trafo K)
  | clip (p : P)
  | style (s : Style K)
deriving Repr

mutual
/-- Items of a canvas.  `text f t1 s`: font and size `f`, `t1` tells whether a font file is there,
`s` the outline.  `dp`: a `decoratedpath` with its `path`, the stroke path if it is another object
(`nostrokeranges`), `styles`, `fillstyles`, `strokestyles` and `ornaments`.  `field r`: a form field. -/
inductive Item (K P F : Type)
  | text (f : F) (t1 : Bool) (s : P)
  | dp (path : P) (strokepath : Option P) (styles : List (Style K)) (fillstyles : Option (List (Style K)))
      (strokestyles : Option (List (Style K))) (ornaments : Items K P F)
  | field (r : P)
  | cv (attrs : List (Attr K P)) (items : Items K P F)
/-- Lists of items. -/
inductive Items (K P F : Type)
  | nil
  | cons (i : Item K P F) (l : Items K P F)
end

/-- `if self.items` (`pyx/canvas.py:196,220`). -/
def Items.isEmpty {K P F : Type} : Items K P F → Bool
  | .nil => true
  | .cons _ _ => false

/-- `item.requiretextregion()` (`pyx/baseclasses.py:33-36`, `pyx/font/font.py:443-444`). -/
def Item.requiretextregion {K P F : Type} : Item K P F → Bool
  | .text _ _ _ => true
  | _ => false

/-- A canvas as built by `canvas.__init__`; `hasTrafo` is `self.trafo is not trafo.identity`. -/
structure CV (K P : Type) where
  trafo : Trafo K
  hasTrafo : Bool
  clip : Option P
deriving Repr

section
variable {K P F : Type} [Field K] [LinearOrder K] [PathLike K P]

/-- One round of the loop of `canvas.__init__` (`pyx/canvas.py:143-149`); a second clip raises
`ValueError` (`none`). -/
def buildStep (a : Attr K P) (c : CV K P) : Option (CV K P) :=
  match a with
  | .trafo t => some { c with trafo := c.trafo.mul t, hasTrafo := true }
  | .clip p => if c.clip.isSome then none else some { c with clip := some (PathLike.transformed p c.trafo) }
  | .style _ => some c

/-- `canvas.__init__`, transformation and clip: the attributes are visited in reversed order
(`pyx/canvas.py:121-149`). -/
def build : List (Attr K P) → Option (CV K P)
  | [] => some ⟨Trafo.one, false, none⟩
  | a :: l => (build l).bind (buildStep a)

/-- The canvas built from the attributes; only used for lists which do not raise an error. -/
def cvOf (attrs : List (Attr K P)) : CV K P := (build attrs).getD ⟨Trafo.one, false, none⟩

omit [PathLike K P] in
/-- `self.styles = attr.getattrs(attrs, [style.style])` (`pyx/canvas.py:139`). -/
def stylesOf (attrs : List (Attr K P)) : List (Style K) :=
  attrs.filterMap fun a => match a with
    | .style s => some s
    | _ => none

omit [PathLike K P] in
/-- `dash.processPS`: the numbers written; `w0` is `_defaultlinewidth_pt` (`pyx/style.py:148-160`). -/
def dashNumbers (w0 lw : K) (pattern : List K) (rel : Bool) : List K :=
  if rel then pattern.map (fun e => e * lw / w0) else pattern

/-! ## PostScript -/

/-- PostScript operators.  `path p`: the path construction operators; `show s`: `x y moveto (...) show`. -/
inductive PTok (K P F : Type)
  | gsave | grestore | newpath
  | path (p : P)
  | clip
  | concat (t : Trafo K)
  | setlinewidth (w : K)
  | setdash (l : List K) (o : K)
  | param (k v : ℕ)
  | setcolor (c : ℕ)
  | setpattern (n : ℕ)
  | alpha (v : K)
  | fill | eofill | stroke
  | selectfont (f : F)
  | show (s : P)

/-- `pswriter.context` (`pyx/pswriter.py:268-280`); `colorspace` is not used for PostScript. -/
structure PCtx (K F : Type) where
  lw : K
  font : Option F
  rule : Bool

/-- `processPS` of a style, the operators written (`pyx/style.py:56-265`, `pyx/color.py:79-80,128-129`,
`pyx/pattern.py:113`, `pyx/color.py:597-599`). -/
def psStyle (w0 : K) (c : PCtx K F) : Style K → List (PTok K P F)
  | .linewidth w => [.setlinewidth w]
  | .dash l o rel => [.setdash (dashNumbers w0 c.lw l rel) o]
  | .linestyle cap l o rel => [.param 0 cap, .setdash (dashNumbers w0 c.lw l rel) o]
  | .param k v => [.param k v]
  | .color n => [.setcolor n]
  | .pattern n => [.setpattern n]
  | .fillrule _ => []
  | .opacity v => [.alpha v]

/-- `processPS` of a style, the context afterwards (`pyx/style.py:223,261`). -/
def psCtx1 (c : PCtx K F) : Style K → PCtx K F
  | .linewidth w => { c with lw := w }
  | .fillrule b => { c with rule := b }
  | _ => c

/-- `_writestyles`, the context afterwards. -/
def psCtx (c : PCtx K F) : List (Style K) → PCtx K F
  | [] => c
  | s :: l => psCtx (psCtx1 c s) l

/-- `_writestyles` (`pyx/deco.py:129-131`, `pyx/canvas.py:199-200`). -/
def psStyles (w0 : K) (c : PCtx K F) : List (Style K) → List (PTok K P F)
  | [] => []
  | s :: l => psStyle w0 c s ++ psStyles w0 (psCtx1 c s) l

/-- `gsave`, styles, ..., `grestore` if there are styles, nothing but the inner part otherwise
(`pyx/deco.py:137-140,160-169,172-183,189-200`). -/
def psWrap (l : List (Style K)) (styles inner : List (PTok K P F)) : List (PTok K P F) :=
  if l.isEmpty then inner else [.gsave] ++ styles ++ inner ++ [.grestore]

/-- `if context.fillrule: eofill else: fill` (`pyx/deco.py:153-156,176-179`). -/
def psFill (c : PCtx K F) : List (PTok K P F) := if c.rule then [.eofill] else [.fill]

/-- The filling part of `decoratedpath.processPS` (`pyx/deco.py:142-183`). -/
def psFillPart (w0 : K) (c : PCtx K F) (path : P) (sp : Option P) (fs : Option (List (Style K)))
    (ss : Option (List (Style K))) : List (PTok K P F) :=
  match fs with
  | none => []
  | some f =>
    match ss, sp with
    | some s, none =>
      [.newpath, .path path, .gsave] ++ (psStyles w0 c f) ++ psFill c ++ [.grestore] ++
        psWrap s (psStyles w0 c s) [.stroke]
    | _, _ => [.newpath, .path path] ++ psWrap f (psStyles w0 c f) (psFill c)

/-- The remaining stroking part of `decoratedpath.processPS` (`pyx/deco.py:185-200`). -/
def psStrokePart (w0 : K) (c : PCtx K F) (path : P) (sp : Option P) (fs : Option (List (Style K)))
    (ss : Option (List (Style K))) : List (PTok K P F) :=
  match ss with
  | none => []
  | some s =>
    if sp.isSome || fs.isNone then
      psWrap s (psStyles w0 c s) [.newpath, .path (sp.getD path), .stroke]
    else []

variable [DecidableEq F]

/-- Output of a text as a text (`pyx/font/font.py:571-600`). -/
def psText (c : PCtx K F) (f : F) (s : P) : List (PTok K P F) :=
  (if c.font = some f then [] else [.selectfont f]) ++ [.show s]

omit [DecidableEq F] in
/-- The beginning of a canvas which modifies the state (`pyx/canvas.py:198-204`). -/
def psBegin (cv : CV K P) (styles : List (PTok K P F)) : List (PTok K P F) :=
  [.gsave] ++ styles ++ (match cv.clip with
      | some p => [.newpath, .path p, .clip]
      | none => []) ++ (if cv.hasTrafo then [.concat cv.trafo] else [])

mutual
/-- `item.processPS`: the operators written and the context of the caller afterwards
(`pyx/canvas.py:194-214`, `pyx/deco.py:123-207`, `pyx/font/font.py:537-600`).  A canvas works on a
copy of the context (`pyx/canvas.py:195`), a decorated path on a copy if it has styles
(`pyx/deco.py:139`); its ornaments are a canvas without attributes.  Form fields raise an error in
PostScript (`pyx/pdfextra.py:153-154`); they write nothing here and are excluded by hypothesis. -/
def psItem (w0 : K) (tap : Bool) (c : PCtx K F) : Item K P F → List (PTok K P F) × PCtx K F
  | .text f t1 s =>
    if tap && t1 then ([.newpath, .path s] ++ psFill c, c)
    else (psText c f s, { c with font := some f })
  | .dp path sp sty fs ss orn =>
    (psWrap sty (psStyles w0 c sty)
      (psFillPart w0 (psCtx c sty) path sp fs ss ++
       psStrokePart w0 (psCtx c sty) path sp fs ss ++
       (psItems w0 tap (psCtx c sty) orn).1), c)
  | .field _ => ([], c)
  | .cv attrs items =>
    (if items.isEmpty then []
     else if attrs.isEmpty then (psItems w0 tap c items).1
     else psBegin (cvOf attrs) (psStyles w0 c (stylesOf attrs)) ++
       (psItems w0 tap (psCtx c (stylesOf attrs)) items).1 ++ [.grestore], c)
/-- The loop over the items (`pyx/canvas.py:206-207`). -/
def psItems (w0 : K) (tap : Bool) (c : PCtx K F) : Items K P F → List (PTok K P F) × PCtx K F
  | .nil => ([], c)
  | .cons i l => ((psItem w0 tap c i).1 ++ (psItems w0 tap (psItem w0 tap c i).2 l).1,
      (psItems w0 tap (psItem w0 tap c i).2 l).2)
end

/-! ## PDF -/

/-- PDF operators.  `path p`: path construction; `clip`: `W n`; `field T st r`: not an operator of the
stream but the form field `r` registered with `context.trafo` and `context.fillstyles`. -/
inductive DTok (K P F : Type)
  | q | Q
  | path (p : P)
  | clip
  | cm (t : Trafo K)
  | w (w : K)
  | d (l : List K) (o : K)
  | param (k v : ℕ)
  | sc (c : ℕ)      -- `G`, `RG`, ...: stroke colour
  | fc (c : ℕ)      -- `g`, `rg`, ...: fill colour
  | cs              -- `/Pattern cs`
  | scn (n : ℕ)
  | CA (v : K)      -- `gs` with an `ExtGState`: opacity of strokes
  | ca (v : K)      -- the same for fillings
  | f | fstar | S | B | Bstar
  | BT | ET
  | Tf (f : F)
  | Tj (s : P)
  | field (T : Trafo K) (st : List (Style K)) (r : P)

/-- `pdfwriter.context` (`pyx/pdfwriter.py:395-412`).  `patcs`: `colorspace == "Pattern"`.  The list
`fillstyles` is one object shared by all copies of the context. -/
structure DCtx (K F : Type) where
  lw : K
  font : Option F
  rule : Bool
  patcs : Bool
  strokeattr : Bool
  fillattr : Bool
  trafo : Trafo K
  fillstyles : List (Style K)

omit [DecidableEq F] in
/-- Colours write what `strokeattr` and `fillattr` ask for (`pyx/color.py:82-86,131-135`). -/
def pdfColor (c : DCtx K F) (n : ℕ) : List (DTok K P F) :=
  (if c.strokeattr then [.sc n] else []) ++ (if c.fillattr then [.fc n] else [])

omit [DecidableEq F] in
/-- `pattern.processPDF`, activation (`pyx/pattern.py:150-160`). -/
def pdfPattern (c : DCtx K F) (n : ℕ) : List (DTok K P F) :=
  (if c.patcs then [] else [.cs]) ++ (if c.fillattr then [.scn n] else [])

omit [DecidableEq F] in
/-- `transparency.processPDF` (`pyx/color.py:601-613`); the entries `CA` and `ca` of the `ExtGState` as two
tokens. -/
def pdfOpacity (c : DCtx K F) (v : K) : List (DTok K P F) :=
  (if c.strokeattr then [.CA v] else []) ++ (if c.fillattr then [.ca v] else [])

/-- `processPDF` of a style, the operators written (`pyx/style.py`, `pyx/color.py`, `pyx/pattern.py`). -/
def pdfStyle (w0 : K) (c : DCtx K F) : Style K → List (DTok K P F)
  | .linewidth w => [.w w]
  | .dash l o rel => [.d (dashNumbers w0 c.lw l rel) o]
  | .linestyle cap l o rel => [.param 0 cap, .d (dashNumbers w0 c.lw l rel) o]
  | .param k v => [.param k v]
  | .color n => pdfColor c n
  | .pattern n => pdfPattern c n
  | .fillrule _ => []
  | .opacity v => pdfOpacity c v

/-- `processPDF` of a style, the context afterwards (`pyx/style.py:227,264`, `pyx/pattern.py:154`). -/
def pdfCtx1 (c : DCtx K F) : Style K → DCtx K F
  | .linewidth w => { c with lw := w }
  | .pattern _ => { c with patcs := true }
  | .fillrule b => { c with rule := b }
  | _ => c

/-- `_writestyles`, the context afterwards. -/
def pdfCtx (c : DCtx K F) : List (Style K) → DCtx K F
  | [] => c
  | s :: l => pdfCtx (pdfCtx1 c s) l

/-- `_writestyles` (`pyx/deco.py:212-214`). -/
def pdfStyles (w0 : K) (c : DCtx K F) : List (Style K) → List (DTok K P F)
  | [] => []
  | s :: l => pdfStyle w0 c s ++ pdfStyles w0 (pdfCtx1 c s) l

/-- `isinstance(attr, style.fillstyle)` (`pyx/style.py:37,249`, `pyx/color.py:54`, `pyx/pattern.py:34`,
`pyx/color.py:591`). -/
def Style.isFill : Style K → Bool
  | .color _ => true
  | .pattern _ => true
  | .fillrule _ => true
  | .opacity _ => true
  | _ => false

/-- `_writestrokestyles` (`pyx/deco.py:216-220`). -/
def pdfStrokeStyles (w0 : K) (c : DCtx K F) (l : List (Style K)) : List (DTok K P F) :=
  pdfStyles w0 { c with fillattr := false } l

/-- `_writefillstyles` (`pyx/deco.py:222-226`). -/
def pdfFillStyles (w0 : K) (c : DCtx K F) (l : List (Style K)) : List (DTok K P F) :=
  pdfStyles w0 { c with strokeattr := false } l

/-- `_writefillstyles`, the context afterwards. -/
def pdfFillCtx (c : DCtx K F) (l : List (Style K)) : DCtx K F :=
  { pdfCtx { c with strokeattr := false } l with strokeattr := true }

/-- `q`, styles, ..., `Q` if there are styles (`pyx/deco.py:232-235,260-271,278-288,294-295`). -/
def pdfWrap (l : List (Style K)) (styles inner : List (DTok K P F)) : List (DTok K P F) :=
  if l.isEmpty then inner else [.q] ++ styles ++ inner ++ [.Q]

/-- `f*` or `f` (`pyx/deco.py:264-267`). -/
def pdfFill (c : DCtx K F) : List (DTok K P F) := if c.rule then [.fstar] else [.f]

/-- The filling part of `decoratedpath.processPDF` (`pyx/deco.py:237-271`).  The context `acontext`
is shared by fill and stroke styles; empty style lists write nothing. -/
def pdfFillPart (w0 : K) (c : DCtx K F) (path : P) (sp : Option P) (fs : Option (List (Style K)))
    (ss : Option (List (Style K))) : List (DTok K P F) :=
  match fs with
  | none => []
  | some f =>
    match ss, sp with
    | some s, none =>
      [.path path, .q] ++ (pdfFillStyles w0 c f) ++
        pdfStrokeStyles w0 (pdfFillCtx c f) s ++
        (if c.rule then [.Bstar] else [.B]) ++ [.Q]
    | _, _ => [.path path] ++ pdfWrap f (pdfFillStyles w0 c f) (pdfFill c)

/-- The remaining stroking part of `decoratedpath.processPDF` (`pyx/deco.py:273-288`). -/
def pdfStrokePart (w0 : K) (c : DCtx K F) (path : P) (sp : Option P) (fs : Option (List (Style K)))
    (ss : Option (List (Style K))) : List (DTok K P F) :=
  match ss with
  | none => []
  | some s =>
    if sp.isSome || fs.isNone then
      pdfWrap s (pdfStrokeStyles w0 c s) [.path (sp.getD path), .S]
    else []

/-- Output of a text as a text (`pyx/font/font.py:651-690`). -/
def pdfText (c : DCtx K F) (f : F) (s : P) : List (DTok K P F) :=
  (if c.font = some f then [] else [.Tf f]) ++ [.Tj s]

omit [DecidableEq F] in
/-- The beginning of a canvas which modifies the state (`pyx/canvas.py:222-230`). -/
def pdfBegin (cv : CV K P) (styles : List (DTok K P F)) : List (DTok K P F) :=
  [.q] ++ styles ++ (match cv.clip with
      | some p => [.path p, .clip]
      | none => []) ++ (if cv.hasTrafo then [.cm cv.trafo] else [])

omit [DecidableEq F] [PathLike K P] in
/-- The operator written before an item and the state of the text region afterwards
(`pyx/canvas.py:233-241`). -/
def region (tap tr : Bool) (req : Bool) : List (DTok K P F) × Bool :=
  if tap then ([], tr)
  else if req then (if tr then [] else [.BT], true)
  else (if tr then [.ET] else [], false)

omit [DecidableEq F] in
/-- `context.selectedfont = None` when a text region ends (`pyx/canvas.py:239-242`). -/
def regionCtx (tap tr req : Bool) (c : DCtx K F) : DCtx K F :=
  if !tap && !req && tr then { c with font := none } else c

omit [DecidableEq F] in
/-- The context of the items of a canvas: a copy with the new transformation and with the fill styles
appended to the shared list (`pyx/canvas.py:217-219,223-226`). -/
def pdfCvCtx (c : DCtx K F) (t : Trafo K) (styles : List (Style K)) : DCtx K F :=
  { c with trafo := c.trafo.mul t, fillstyles := c.fillstyles ++ styles.filter Style.isFill }

mutual
/-- `item.processPDF` (`pyx/canvas.py:216-254`, `pyx/deco.py:209-295`, `pyx/font/font.py:602-690`,
`pyx/pdfextra.py:182-199`): the operators written and the context of the caller afterwards; of the
changes made by a canvas only those of the shared list `fillstyles` are seen by the caller. -/
def pdfItem (w0 : K) (tap : Bool) (c : DCtx K F) : Item K P F → List (DTok K P F) × DCtx K F
  | .text f t1 s =>
    if tap && t1 then ([.path s] ++ pdfFill c, c)
    else (pdfText c f s, { c with font := some f })
  | .dp path sp sty fs ss orn =>
    (pdfWrap sty (pdfStyles w0 c sty)
      (pdfFillPart w0 (pdfCtx c sty) path sp fs ss ++
       pdfStrokePart w0 (pdfCtx c sty) path sp fs ss ++
       (pdfItems w0 tap false (pdfCvCtx (pdfCtx c sty) Trafo.one []) orn).1),
     { c with fillstyles :=
        (pdfItems w0 tap false (pdfCvCtx (pdfCtx c sty) Trafo.one []) orn).2.fillstyles })
  | .field r => ([.field c.trafo c.fillstyles r], c)
  | .cv attrs items =>
    (if items.isEmpty then []
     else if attrs.isEmpty then (pdfItems w0 tap false (pdfCvCtx c Trafo.one []) items).1
     else pdfBegin (cvOf attrs) (pdfStyles w0 (pdfCvCtx c (cvOf attrs).trafo (stylesOf attrs)) (stylesOf attrs)) ++
       (pdfItems w0 tap false
         (pdfCtx (pdfCvCtx c (cvOf attrs).trafo (stylesOf attrs)) (stylesOf attrs)) items).1 ++
       [.Q],
     { c with fillstyles :=
        if items.isEmpty then c.fillstyles
        else (pdfItems w0 tap false
         (pdfCtx (pdfCvCtx c (cvOf attrs).trafo (stylesOf attrs)) (stylesOf attrs))
          items).2.fillstyles })
/-- The loop over the items and the closing `ET` (`pyx/canvas.py:232-247`); `tr` is `textregion`. -/
def pdfItems (w0 : K) (tap tr : Bool) (c : DCtx K F) : Items K P F → List (DTok K P F) × DCtx K F
  | .nil => (if tr then [.ET] else [], c)
  | .cons i l =>
    ((region tap tr i.requiretextregion).1 ++
      (pdfItem w0 tap (regionCtx tap tr i.requiretextregion c) i).1 ++
      (pdfItems w0 tap (region (K := K) (P := P) (F := F) tap tr i.requiretextregion).2
        (pdfItem w0 tap (regionCtx tap tr i.requiretextregion c) i).2 l).1,
     (pdfItems w0 tap (region (K := K) (P := P) (F := F) tap tr i.requiretextregion).2
        (pdfItem w0 tap (regionCtx tap tr i.requiretextregion c) i).2 l).2)
end

/-! ## Bounding boxes -/

/-- `context.linewidth_pt` after the styles. -/
def lwAfter (lw : K) : List (Style K) → K
  | [] => lw
  | .linewidth w :: l => lwAfter w l
  | _ :: l => lwAfter lw l

mutual
/-- `item.bbox()` (`pyx/canvas.py:176-192`, `pyx/deco.py:100-106`). -/
def boxItem : Item K P F → BBox K
  | .text _ _ s => PathLike.bbox s
  | .dp path _ _ _ _ orn => BBox.add (BBox.transformed (boxItems orn none) Trafo.one) (PathLike.bbox path)
  | .field r => PathLike.bbox r
  | .cv attrs items =>
    match (cvOf attrs).clip with
    | some p => BBox.imul (BBox.transformed (boxItems items none) (cvOf attrs).trafo) (PathLike.bbox p)
    | none => BBox.transformed (boxItems items none) (cvOf attrs).trafo
/-- The loop of `canvas.bbox` (`pyx/canvas.py:182-184`). -/
def boxItems : Items K P F → BBox K → BBox K
  | .nil, b => b
  | .cons i l, b => boxItems l (BBox.iadd b (boxItem i))
end

omit [DecidableEq F] in
/-- The box of a stroked path (`pyx/deco.py:166,197`). -/
def strokeBox (lw : K) (p : P) : BBox K := BBox.enlarged (PathLike.bbox p) (1 / 2 * lw) none none none none

omit [DecidableEq F] in
/-- `bbox +=` of the filling and stroking of a decorated path (`pyx/deco.py:166,180,197`). -/
def dpBox (lw : K) (path : P) (sp : Option P) (fs ss : Option (List (Style K))) (b : BBox K) : BBox K :=
  let b1 := match fs with
    | none => b
    | some _ => match ss, sp with
      | some s, none => BBox.iadd b (strokeBox (lwAfter lw s) path)
      | _, _ => BBox.iadd b (PathLike.bbox path)
  match ss with
  | none => b1
  | some s => if sp.isSome || fs.isNone then BBox.iadd b1 (strokeBox (lwAfter lw s) (sp.getD path)) else b1

omit [DecidableEq F] in
/-- What a canvas adds to the box of its caller (`pyx/canvas.py:205-212`). -/
def cvBox (cv : CV K P) (b inner : BBox K) : BBox K :=
  match cv.clip with
  | some p => BBox.iadd b (BBox.imul (BBox.transformed inner cv.trafo) (PathLike.bbox p))
  | none => BBox.iadd b (BBox.transformed inner cv.trafo)

mutual
/-- The bounding box computed while writing (argument `bbox` of `processPS` and `processPDF`), new
value (`pyx/canvas.py:205-212`, `pyx/deco.py:166-203`, `pyx/font/font.py:538-539`); `lw` is
`context.linewidth_pt`. -/
def outBox (lw : K) : Item K P F → BBox K → BBox K
  | .text _ _ s, b => BBox.iadd b (PathLike.bbox s)
  | .dp path sp sty fs ss orn, b =>
    if orn.isEmpty then dpBox (lwAfter lw sty) path sp fs ss b
    else BBox.iadd (dpBox (lwAfter lw sty) path sp fs ss b)
      (BBox.transformed (outBoxes (lwAfter lw sty) orn none) Trafo.one)
  | .field r, b => BBox.iadd b (PathLike.bbox r)
  | .cv attrs items, b =>
    if items.isEmpty then b
    else cvBox (cvOf attrs) b (outBoxes (lwAfter lw (stylesOf attrs)) items none)
/-- The loop over the items. -/
def outBoxes (lw : K) : Items K P F → BBox K → BBox K
  | .nil, b => b
  | .cons i l, b => outBoxes lw l (outBox lw i b)
end

end
end PyX.Canvas
