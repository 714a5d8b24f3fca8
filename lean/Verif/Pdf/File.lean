import Verif.Pdf.Props
import Mathlib.Data.List.Sort

/-!
# C152: model of PDF files: catalog, page tree, pages and contents (`pyx/pdfwriter.py`)

The registry and the writing of objects, cross-reference table and trailer are those of C30 (`Verif.Pdf.Model`).  Here are the objects which make up the document.
What the pages draw is arbitrary, and so are the objects they register (fonts, images, annotations, form fields, ...).  Numbers printed with `%f` are texts.
-/

set_option linter.unusedSectionVars false

namespace PyX.Pdf.File
open PyX.Texter (str)
open PyX.Pdf

/-- Type and id of an object.  `PDFcontent` has the registry of its page as type (`pdfwriter.py:315`), `PDFpage`, `PDFpages`, `PDFcatalog` and `PDFinfo` have `id(self)`. -/
inductive Key (σ : Type)
  | page (i : ℕ)
  | content (i : ℕ)
  | pages
  | catalog
  | info
  | annots
  | form
  | other (s : σ)
deriving DecidableEq

variable {σ : Type} [DecidableEq σ]

/-- A call of `addresource(type, name, object, procset)`. -/
structure Call (σ : Type) where
  type : List Char
  name : List Char
  key : Key σ
  procset : Option (List Char)

/-- A page: the objects it registers, its calls of `addresource`, its content, bounding box (texts of the four numbers, `none` if empty), size of the paper and
orientation. -/
structure Page (σ : Type) where
  os : List (Obj (Key σ))
  calls : List (Call σ)
  content : List Char
  bbox : Option (List Char)
  paper : Option (List Char × List Char)
  rotated : Bool

/-- The options of `PDFwriter` used here (`pdfwriter.py:336-340`). -/
structure Options where
  fullscreen : Bool
  writebbox : Bool
  compress : Bool
  compresslevel : ℤ

/-- Several lines. -/
def txt (ls : List (List Char)) : List Char := ls.flatMap fun l => l ++ ['\n']

/-- `dict[name] = object`. -/
def put {κ : Type} (d : List (List Char × κ)) (n : List Char) (k : κ) : List (List Char × κ) :=
  if d.any (fun e => e.1 = n) then d.map fun e => if e.1 = n then (n, k) else e else d ++ [(n, k)]

/-- `self.resources.setdefault(resourcetype, {})[resourcename] = object` (`pdfwriter.py:109`). -/
def addresource {κ : Type} (r : List (List Char × List (List Char × κ))) (t n : List Char) (k : κ) : List (List Char × List (List Char × κ)) :=
  if r.any (fun e => e.1 = t) then r.map fun e => if e.1 = t then (t, put e.2 n k) else e else r ++ [(t, [(n, k)])]

/-- The resources after all calls. -/
def resources (calls : List (Call σ)) : List (List Char × List (List Char × Key σ)) := calls.foldl (fun r c => addresource r c.type c.name c.key) []

/-- The `procsets` after all calls (`pdfwriter.py:43, 110-111`). -/
def procsets (calls : List (Call σ)) : List (List Char) := (calls.filterMap Call.procset).foldl (fun l p => if p ∈ l then l else l ++ [p]) ["PDF".toList]

/-- The order of strings in `sorted`. -/
def le (a b : List Char) : Prop := a ≤ b

instance : DecidableRel le := fun a b => inferInstanceAs (Decidable (a ≤ b))

/-- `sorted(dict.items())`: names occur once, so the names decide. -/
def sorted {β : Type} (d : List (List Char × β)) : List (List Char × β) := d.insertionSort fun a b => le a.1 b.1

/-- The resources in the order in which they are written. -/
def resourceList (calls : List (Call σ)) : List (List Char × List (List Char × Key σ)) := (sorted (resources calls)).map fun r => (r.1, sorted r.2)

/-- The lines of one type of resources (`pdfwriter.py:117-119`). -/
def groupLines (t : List Char) (names : List (List Char)) (nos : List ℕ) : List (List Char) :=
  ["/".toList ++ t ++ " <<".toList] ++ List.zipWith (fun n no => "/".toList ++ n ++ " ".toList ++ str no ++ " 0 R".toList) names nos ++ [">>".toList]

/-- The lines of all types. -/
def groupsLines : List (List Char × List (List Char)) → List ℕ → List (List Char)
  | [], _ => []
  | (t, names) :: r, nos => groupLines t names (nos.take names.length) ++ groupsLines r (nos.drop names.length)

/-- `writeresources` (`pdfwriter.py:113-120`) behind `/Resources `. -/
def resourceLines (calls : List (Call σ)) (nos : List ℕ) : List (List Char) :=
  ["/Resources <<".toList, "/ProcSet [".toList ++ ((procsets calls).insertionSort le).flatMap (fun p => " /".toList ++ p) ++ " ]".toList] ++
    groupsLines ((resourceList calls).map fun r => (r.1, r.2.map Prod.fst)) nos ++ [">>".toList]

/-- The `MediaBox` (`pdfwriter.py:290-294`); `none` is the `ValueError` of an empty bounding box. -/
def mediabox (p : Page σ) : Option (List Char) :=
  match p.paper with
  | some (w, h) => some ("0 0 ".toList ++ w ++ " ".toList ++ h)
  | none => p.bbox

/-- `PDFpage` (`pdfwriter.py:262-308`); `annots` tells whether there are annotations in the registry of the document (lines 300-302). -/
def pageObj (o : Options) (annots : Bool) (i : ℕ) (p : Page σ) : Obj (Key σ) where
  key := .page i
  refs := [.pages] ++ (if annots then [.annots] else []) ++ [.content i] ++ (resourceList p.calls).flatMap fun r => r.2.map Prod.snd
  body := fun nos => txt (["<<".toList, "/Type /Page".toList, "/Parent ".toList ++ str (nos.getD 0 0) ++ " 0 R".toList,
      "/MediaBox [".toList ++ (mediabox p).getD [] ++ "]".toList] ++
    (if p.bbox.isSome && o.writebbox then ["/CropBox [".toList ++ p.bbox.getD [] ++ "]".toList] else []) ++
    (if p.rotated then ["/Rotate 90".toList] else []) ++
    (if annots then ["/Annots ".toList ++ str (nos.getD 1 0) ++ " 0 R".toList] else []) ++
    ["/Contents ".toList ++ str (nos.getD (if annots then 2 else 1) 0) ++ " 0 R".toList] ++
    resourceLines p.calls (nos.drop (if annots then 3 else 2)) ++ [">>".toList])
  merges := false

/-- The bytes of a content (`pdfwriter.py:323-326`): `zlib.compress(self.content)`, without the level asked for. -/
def contentData (zlib : Option ℤ → List Char → List Char) (o : Options) (c : List Char) : List Char := if o.compress then zlib none c else c

/-- `PDFcontent` (`pdfwriter.py:311-333`). -/
def contentObj (zlib : Option ℤ → List Char → List Char) (o : Options) (i : ℕ) (c : List Char) : Obj (Key σ) where
  key := .content i
  refs := []
  body := fun _ => txt (["<<".toList, "/Length ".toList ++ str (contentData zlib o c).length] ++ (if o.compress then ["/Filter /FlateDecode".toList] else []) ++
    [">>".toList, "stream".toList]) ++ contentData zlib o c ++ "endstream\n".toList
  merges := false

/-- `PDFpages` (`pdfwriter.py:243-259`). -/
def pagesObj (n : ℕ) : Obj (Key σ) where
  key := .pages
  refs := (List.range n).map Key.page
  body := fun nos => txt ["<<".toList, "/Type /Pages".toList, "/Kids [".toList ++ List.intercalate " ".toList (nos.map fun no => str no ++ " 0 R".toList) ++ "]".toList,
    "/Count ".toList ++ str n, ">>".toList]
  merges := false

/-- `PDFcatalog` (`pdfwriter.py:145-163`); `form` tells whether there is a form in the registry. -/
def catalogObj (o : Options) (form : Bool) : Obj (Key σ) where
  key := .catalog
  refs := .pages :: (if form then [.form] else [])
  body := fun nos => txt (["<<".toList, "/Type /Catalog".toList, "/Pages ".toList ++ str (nos.getD 0 0) ++ " 0 R".toList] ++
    (if form then ["/AcroForm ".toList ++ str (nos.getD 1 0) ++ " 0 R".toList] else []) ++ (if o.fullscreen then ["/PageMode /FullScreen".toList] else []) ++ [">>".toList])
  merges := false

/-- `PDFinfo` (`pdfwriter.py:166-205`), its text being that of C31 and C32. -/
def infoObj (info : List Char) : Obj (Key σ) := ⟨.info, [], fun _ => info, false⟩

/-- Whether an object with this type and id is registered by some page. -/
def has (k : Key σ) (ps : List (Page σ)) : Bool := ps.any fun p => p.os.any fun o => decide (o.key = k)

/-- The registrations of one page (`pdfwriter.py:251-254, 272-284`). -/
def pageRegs (zlib : Option ℤ → List Char → List Char) (o : Options) (annots : Bool) (i : ℕ) (p : Page σ) : List (Reg (Key σ)) :=
  [.page (pageObj o annots i p :: p.os ++ [contentObj zlib o i p.content]), .add (pageObj o annots i p)]

/-- All registrations (`pdfwriter.py:145-151, 246-254, 373-379`). -/
def regs (zlib : Option ℤ → List Char → List Char) (o : Options) (info : List Char) (ps : List (Page σ)) : List (Reg (Key σ)) :=
  (ps.zipIdx.flatMap fun (p, i) => pageRegs zlib o (has .annots ps) i p) ++
    [.add (pagesObj ps.length), .add (catalogObj o (has .form ps)), .add (infoObj info)]

/-- `PDFwriter.__init__` (`pdfwriter.py:373-383`): the file; `none` is an exception. -/
def pdf (zlib : Option ℤ → List Char → List Char) (o : Options) (head info : List Char) (ps : List (Page σ)) : Option (List Char) :=
  if ps.all fun p => (mediabox p).isSome then write (registered (regs zlib o info ps)) head .catalog .info else none

end PyX.Pdf.File
