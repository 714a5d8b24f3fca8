import Verif.Eps.Props
import Verif.BBox.Props

/-!
# Model of the writing of PostScript files (`pyx/pswriter.py`)

Texts and bytes are lists of characters (`writer.write` encodes them in ASCII).  What a page draws (`page.processPS`) is a text and a bounding box; the
numbers of `%g` and the date are parameters.
-/

set_option linter.unusedSectionVars false

namespace PyX.PSFile

abbrev Str := List Char

/-- A text written down in the source. -/
def lit (s : String) : Str := s.toList

/-- `%d` of a natural number. -/
def nat (n : ℕ) : Str := Nat.toDigits 10 n

/-- `%d` of an integer. -/
def int : ℤ → Str
  | .ofNat n => nat n
  | .negSucc n => '-' :: nat (n + 1)

/-- A line. -/
def line (s : Str) : Str := s ++ ['\n']

/-! ## The registry -/

section Registry

variable {Key R : Type} [DecidableEq Key] (key : R → Key) (merge : R → R → R)

/-- `PSregistry.add` (`pswriter.py:38-44`), the same in `SVGregistry.add` (`svgwriter.py:39-45`): `key` is type and identifier of a resource, `merge a b` is
`a` after `a.merge(b)`.  The list and the dictionary share the resources, hence merging changes the one in the list. -/
def add (l : List R) (r : R) : List R :=
  if l.any fun x => decide (key x = key r) then l.map fun x => if key x = key r then merge x r else x else l ++ [r]

/-- The list of resources after all pages (`pswriter.py:33-44`). -/
def addAll (rs : List R) : List R := rs.foldl (add key merge) []

end Registry

/-- `PSdefinition.output` (`pswriter.py:86-90`). -/
def definition (id body : Str) : Str :=
  line (lit "%%BeginResource: " ++ id) ++ body ++ line (lit " /" ++ id ++ lit " exch def") ++ line (lit "%%EndResource")

/-- `PST1file.output` (`font.py:50-60`): `comments` are the lines with the glyphs. -/
def fontResource (name comments font : Str) : Str :=
  line (lit "%%BeginFont: " ++ name) ++ comments ++ font ++ ['\n'] ++ line (lit "%%EndFont")

/-- Type and identifier of the resources of a text (`font.py:38-43,86-94,137-145`).  The names of reencoded and slanted fonts are shown by their parts. -/
inductive ResKey
  | t1file (name : Str)
  | definition (name : Str)
  | reencode (base enc : Str)
  | slanted (base : Str) (enc : Option Str) (slant : Str)
deriving DecidableEq

/-- A text: name of the font and whether it is given by a file, the name of the encoding for decoded texts, slant, and glyphs or character codes. -/
structure Text where
  font : Str
  file : Bool
  enc : Option Str
  slant : Option Str
  glyphs : List Str

/-- The resources a text registers (`font.py:546-571`), those of font files with their glyphs. -/
def textResources (t : Text) : List (ResKey × List Str) :=
  (if t.file then [(.t1file t.font, t.glyphs)] else []) ++
  (match t.enc with
    | some e => [(.definition (lit "ReEncodeFont"), []), (.reencode t.font e, [])]
    | none => []) ++
  (match t.slant with
    | some s => [(.definition (lit "ChangeFontMatrix"), []), (.slanted t.font t.enc s, [])]
    | none => [])

/-- `PST1file.merge` (`font.py:46-48`); the other resources are not changed by merging. -/
def mergeRes (a b : ResKey × List Str) : ResKey × List Str := (a.1, a.2 ++ b.2)

/-- What the definition of a resource refers to: the font it is made of and the procedure (`font.py:63-112,114-156`). -/
def needs (file : Str → Bool) : ResKey → List ResKey
  | .t1file _ => []
  | .definition _ => []
  | .reencode b _ => .definition (lit "ReEncodeFont") :: if file b then [.t1file b] else []
  | .slanted b none _ => .definition (lit "ChangeFontMatrix") :: if file b then [.t1file b] else []
  | .slanted b (some e) _ => [.definition (lit "ChangeFontMatrix"), .reencode b e]

/-! ## Pages -/

/-- A paper format (`document.py:28-33`), which is compared by identity; sizes in points. -/
structure Paper (K : Type) where
  ident : ℕ
  name : Option Str
  width : K
  height : K

/-- `%s` of the name. -/
def Paper.label {K : Type} (p : Paper K) : Str := p.name.getD (lit "None")

/-- A page after `page.processPS` (`pswriter.py:187-191`): what was written and the bounding box. -/
structure Page (K : Type) where
  name : Option Str
  paper : Option (Paper K)
  rotated : Bool
  bbox : BBox K
  content : Str

section Files

variable {K : Type} [Field K] [LinearOrder K] [IsStrictOrderedRing K] [FloorRing K] (g : K → Str)

/-- A comment with a box of integers. -/
def boxLine (k : String) (q : Quad K) : Str :=
  line (lit k ++ int ⌊q.llx⌋ ++ lit " " ++ int ⌊q.lly⌋ ++ lit " " ++ int ⌈q.urx⌉ ++ lit " " ++ int ⌈q.ury⌉)

/-- The comment with the exact box. -/
def hiresLine (q : Quad K) : Str :=
  line (lit "%%HiResBoundingBox: " ++ g q.llx ++ lit " " ++ g q.lly ++ lit " " ++ g q.urx ++ lit " " ++ g q.ury)

/-- `_PSwriter.writeinfo` (`pswriter.py:123-132`). -/
def info (version date : Str) (title : Option Str) : Str :=
  line (lit "%%Creator: PyX " ++ version) ++ (match title with
    | some t => line (lit "%%Title: " ++ t)
    | none => []) ++ line (lit "%%CreationDate: " ++ date)

/-- `EPSwriter.__init__` (`pswriter.py:145-179`); `none` is the `ValueError` for several pages. -/
def writeEPS (version date : Str) (title : Option Str) (prolog : Str) : List (Page K) → Option Str
  | [p] => some (line (lit "%!PS-Adobe-3.0 EPSF-3.0") ++ (match p.bbox with
      | some q => boxLine "%%BoundingBox: " q ++ hiresLine g q
      | none => []) ++ info version date title ++ line (lit "%%EndComments") ++ line (lit "%%BeginProlog") ++ prolog ++
      line (lit "%%EndProlog") ++ p.content ++ line (lit "showpage") ++ line (lit "%%Trailer") ++ line (lit "%%EOF"))
  | _ => none

/-- The name of page `nr` counted from zero (`pswriter.py:195`). -/
def Page.label (p : Page K) (nr : ℕ) : Str := p.name.getD (nat (nr + 1))

/-- The text of a page (`pswriter.py:195-211`). -/
def pageText (writebbox : Bool) (nr : ℕ) (p : Page K) : Str :=
  line (lit "%%Page: " ++ p.label nr ++ lit " " ++ nat (nr + 1)) ++
  (match p.paper with
    | some f => line (lit "%%PageMedia: " ++ f.label)
    | none => []) ++
  line (lit "%%PageOrientation: " ++ if p.rotated then lit "Landscape" else lit "Portrait") ++
  (match p.bbox, writebbox with
    | some q, true => boxLine "%%PageBoundingBox: " q
    | _, _ => []) ++
  line (lit "%%BeginPageSetup") ++ line (lit "/pgsave save def") ++ line (lit "%%EndPageSetup") ++ p.content ++ line (lit "pgsave restore") ++
  line (lit "showpage") ++ line (lit "%%PageTrailer")

/-- The pages numbered from `nr` (`pswriter.py:186-211`). -/
def pagesText (writebbox : Bool) : ℕ → List (Page K) → Str
  | _, [] => []
  | nr, p :: ps => pageText writebbox nr p ++ pagesText writebbox (nr + 1) ps

/-- `int` of a float as in `%d`. -/
def trunc (x : K) : ℤ := if 0 ≤ x then ⌊x⌋ else ⌈x⌉

/-- The paper formats of the document (`pswriter.py:220-223`): a dictionary keeps the order of the first use. -/
def papers (ps : List (Page K)) : List (Paper K) :=
  (ps.filterMap (·.paper)).foldl (fun l f => if l.any fun x => decide (x.ident = f.ident) then l else l ++ [f]) []

/-- The lines about the paper formats (`pswriter.py:225-235`). -/
def mediaText (first : Bool) : List (Paper K) → Str
  | [] => []
  | f :: fs => line ((if first then lit "%%DocumentMedia: " else lit "%%+ ") ++ f.label ++ lit " " ++ int (trunc f.width) ++ lit " " ++
      int (trunc f.height) ++ lit " 75 white ()") ++ mediaText false fs

/-- The bounding box of the document (`pswriter.py:184,193`). -/
def docBBox (ps : List (Page K)) : BBox K := ps.foldl (fun b p => BBox.iadd b p.bbox) none

/-- `PSwriter.__init__` (`pswriter.py:184-263`). -/
def writePS (version date : Str) (title : Option Str) (writebbox : Bool) (prolog : Str) (ps : List (Page K)) : Str :=
  line (lit "%!PS-Adobe-3.0") ++ (match docBBox ps, writebbox with
    | some q, true => boxLine "%%BoundingBox: " q ++ hiresLine g q
    | _, _ => []) ++ info version date title ++ mediaText true (papers ps) ++ line (lit "%%Pages: " ++ nat ps.length) ++
  line (lit "%%PageOrder: Ascend") ++ line (lit "%%EndComments") ++ line (lit "%%BeginProlog") ++ prolog ++ line (lit "%%EndProlog") ++
  pagesText writebbox 0 ps ++ line (lit "%%Trailer") ++ line (lit "%%EOF")

end Files

/-- An EPS file within a page (`epsfile.py:327-341`): `setup` is what clips and transforms, `data` the contents of the file. -/
def embed (setup filename data : Str) : Str :=
  line (lit "BeginEPSF") ++ setup ++ line (lit "%%BeginDocument: " ++ filename) ++ data ++ line (lit "%%EndDocument") ++ line (lit "EndEPSF")

/-! ## Options -/

/-- The options with their old names (`pswriter.py:100-102`). -/
structure Old (K : Type) where
  strip_fonts : Option Bool := none
  text_as_path : Option Bool := none
  mesh_as_bitmap : Option Bool := none
  mesh_as_bitmap_resolution : Option K := none

/-- What a writer remembers; `meshasbitmapresolution` is `none` if there is no such attribute. -/
structure Options (K : Type) where
  stripfonts : Bool
  textaspath : Bool
  meshasbitmap : Bool
  meshasbitmapresolution : Option K
deriving DecidableEq

inductive PyErr | nameError | attributeError
deriving DecidableEq

/-- `_PSwriter.__init__` (`pswriter.py:100-117`): there is no `logger` in the module, so every old name fails; the resolution is not stored. -/
def init {K : Type} (stripfonts textaspath meshasbitmap : Bool) (_resolution : K) (old : Old K) : Except PyErr (Options K) :=
  match old.strip_fonts, old.text_as_path, old.mesh_as_bitmap, old.mesh_as_bitmap_resolution with
  | none, none, none, none => .ok ⟨stripfonts, textaspath, meshasbitmap, none⟩
  | _, _, _, _ => .error .nameError

/-- The resolution a mesh uses in a PostScript file (`mesh.py:110-116`): `none` for a mesh which is not a bitmap. -/
def meshResolution {K : Type} (o : Options K) : Except PyErr (Option K) :=
  if o.meshasbitmap then
    match o.meshasbitmapresolution with
    | some r => .ok (some r)
    | none => .error .attributeError
  else .ok none

end PyX.PSFile
