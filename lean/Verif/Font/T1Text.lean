import Mathlib.Algebra.Order.Field.Basic
import Mathlib.Algebra.Order.Floor.Ring
import Mathlib.Data.List.Basic

/-!
# C131: texts in Type 1 fonts (`font/font.py:93-104, 159-209, 283-311, 319-373, 446-761`, `font/afmfile.py:1376-1440`): model
-/

set_option linter.unusedSectionVars false

namespace PyX.T1Text

variable {G K : Type} [DecidableEq G]

/-! ## Font metrics -/

/-- What is used of an AFM file (`afmfile.py:933-965`): widths and vertical extents of glyphs in units of 1/1000, ligatures (with the next glyph and the replacement) and pairs with kerning. -/
structure Metric (G K : Type) where
  width : G → K
  top : G → K
  bottom : G → K
  ligs : G → List (G × G)
  kern : G → G → Option K

/-- The inner loop of `resolveligatures` (`afmfile.py:1391-1395`): the replacement of a glyph and its successor. -/
def Metric.lig (m : Metric G K) (g h : G) : Option G := ((m.ligs g).find? fun p => p.1 = h).map (·.2)

/-- The loop of `resolveligatures` (`afmfile.py:1389-1397`); the first argument is `glyphnames[i-1]`, the second one are the glyphs from `i` on. -/
def ligLoop (m : Metric G K) : G → List G → List G
  | g, [] => [g]
  | g, h :: t =>
    match m.lig g h with
    | some r => ligLoop m r t
    | none => g :: ligLoop m h t

/-- `resolveligatures` (`afmfile.py:1388-1398`). -/
def resolveLigatures (m : Metric G K) : List G → List G
  | [] => []
  | g :: t => ligLoop m g t

/-- The entries of the list made by `resolvekernings`: glyphs at even positions, and numbers or `None` between. -/
inductive Item (G K : Type)
  | glyph (g : G)
  | kern (k : Option K)
  deriving DecidableEq

/-- `resolvekernings` (`afmfile.py:1400-1411`); `scale` is `size_pt/1000.0`, or 1 without `size_pt`. -/
def resolveKernings [Mul K] (m : Metric G K) (scale : K) : List G → List (Item G K)
  | [] => []
  | [g] => [.glyph g]
  | g :: h :: t => .glyph g :: .kern ((m.kern g h).map (· * scale)) :: resolveKernings m scale (h :: t)

/-- The data of the loops of `T1text_pt` (`font.py:514-520, 578-584, 664-670, 719-725`). -/
def dataOf [Mul K] (m : Metric G K) (kerning : Bool) (scale : K) (gs : List G) : List (Item G K) :=
  if kerning then resolveKernings m scale gs else gs.map .glyph

section
variable [Field K] [LinearOrder K] [IsStrictOrderedRing K]

/-- The sum of the kernings in `bbox` (`font.py:481`). -/
def kernSum : List (Item G K) → K
  | [] => 0
  | .kern (some k) :: l => k + kernSum l
  | _ :: l => kernSum l

/-- The width in `bbox` (`font.py:480-486`, `afmfile.py:1379-1380`). -/
def bboxWidth (m : Metric G K) (kerning : Bool) (size spaced : K) (gs : List G) : K :=
  (gs.map m.width).sum * size / 1000 + ((gs.length : K) - 1) * spaced +
    (if kerning then kernSum (resolveKernings m (size / 1000) gs) else 0)

/-! ## The path of a text -/

/-- The loop of `textpath` (`font.py:524-534`): glyphs with their positions. `first` tells whether the index is 0; `adv` are the advances of the glyphs in the font file for the size of the text. -/
def pathLoop (adv : G → K × K) (spaced : K) : Bool → List (Item G K) → K → K → List (G × K × K)
  | _, [], _, _ => []
  | _, .kern k :: l, x, y => pathLoop adv spaced false l (x + k.getD 0) y
  | first, .glyph g :: l, x, y =>
    (g, (if first then x else x + spaced), y) ::
      pathLoop adv spaced false l ((if first then x else x + spaced) + (adv g).1) (y + (adv g).2)

/-- `textpath` (`font.py:512-535`) for texts with glyph names. -/
def textPath (m : Metric G K) (adv : G → K × K) (kerning : Bool) (size spaced x y : K) (gs : List G) : List (G × K × K) :=
  pathLoop adv spaced true (dataOf m kerning (size / 1000) gs) x y

/-! ## PostScript -/

/-- The operators written by `processPS` (`font.py:577-600`). -/
inductive PSOp (K : Type)
  | moveto (x y : K)
  | show (codes : List ℕ)
  | rmoveto (dx : K)

/-- The loop of `processPS` (`font.py:585-600`); `cur` are the codes since the last `(`. `enc` is the encoding. -/
def psLoop (enc : G → ℕ) (kerning : Bool) (spaced : K) : Bool → List (Item G K) → List ℕ → List (PSOp K)
  | _, [], cur => [.show cur]
  | _, .kern (some k) :: l, cur => .show cur :: .rmoveto (k + spaced) :: psLoop enc kerning spaced false l []
  | _, .kern none :: l, cur =>
    if spaced ≠ 0 then .show cur :: .rmoveto spaced :: psLoop enc kerning spaced false l []
    else psLoop enc kerning spaced false l cur
  | first, .glyph g :: l, cur =>
    if first = false ∧ kerning = false ∧ spaced ≠ 0 then .show cur :: .rmoveto spaced :: psLoop enc kerning spaced false l [enc g]
    else psLoop enc kerning spaced false l (cur ++ [enc g])

/-- `processPS` (`font.py:577-600`) after the selection of the font. -/
def processPS (m : Metric G K) (enc : G → ℕ) (kerning : Bool) (size spaced x y : K) (gs : List G) : List (PSOp K) :=
  .moveto x y :: psLoop enc kerning spaced true (dataOf m kerning (size / 1000) gs) []

/-! ## PDF -/

/-- The elements of the array of `TJ`. -/
inductive TJ (K : Type)
  | str (codes : List ℕ)
  | num (n : K)

/-- The loop of `processPDF` (`font.py:672-690`), with `spaced` in font units. -/
def pdfLoop (enc : G → ℕ) (kerning : Bool) (spaced : K) : Bool → List (Item G K) → List ℕ → List (TJ K)
  | _, [], cur => [.str cur]
  | _, .kern (some k) :: l, cur => .str cur :: .num (-k - spaced) :: pdfLoop enc kerning spaced false l []
  | _, .kern none :: l, cur =>
    if spaced ≠ 0 then .str cur :: .num (-spaced) :: pdfLoop enc kerning spaced false l []
    else pdfLoop enc kerning spaced false l cur
  | first, .glyph g :: l, cur =>
    if first = false ∧ kerning = false ∧ spaced ≠ 0 then .str cur :: .num (-spaced) :: pdfLoop enc kerning spaced false l [enc g]
    else pdfLoop enc kerning spaced false l (cur ++ [enc g])

/-- `processPDF` (`font.py:657-690`): the operand of `TJ` (`Tj` for a single string) after `1 0 slant 1 x y Tm`. -/
def processPDF (m : Metric G K) (enc : G → ℕ) (kerning : Bool) (size spaced : K) (gs : List G) : List (TJ K) :=
  pdfLoop enc kerning (spaced * 1000 / size) true (dataOf m kerning 1 gs) []

/-- The elements written by `processSVG` (`font.py:735-761`) within `text`. -/
inductive SVGEv (K : Type)
  | start (dx : K)
  | stop
  | char (c : ℕ)

/-- The end of an open `tspan` (`font.py:740-741, 745-746, 751-752, 759-760`). -/
def stopIf (tspan : Bool) (l : List (SVGEv K)) : List (SVGEv K) := if tspan then .stop :: l else l

/-- The loop of `processSVG` (`font.py:736-760`); `chr` are the characters of the glyphs. -/
def svgLoop (chr : G → ℕ) (kerning : Bool) (spaced : K) : Bool → Bool → List (Item G K) → List (SVGEv K)
  | _, tspan, [] => stopIf tspan []
  | _, tspan, .kern (some k) :: l => stopIf tspan (.start (k + spaced) :: svgLoop chr kerning spaced false true l)
  | _, tspan, .kern none :: l =>
    if spaced ≠ 0 then stopIf tspan (.start spaced :: svgLoop chr kerning spaced false true l)
    else svgLoop chr kerning spaced false tspan l
  | first, tspan, .glyph g :: l =>
    if first = false ∧ kerning = false ∧ spaced ≠ 0 then
      stopIf tspan (.start spaced :: .char (chr g) :: svgLoop chr kerning spaced false true l)
    else .char (chr g) :: svgLoop chr kerning spaced false tspan l

/-- `processSVG` (`font.py:719-761`). -/
def processSVG (m : Metric G K) (chr : G → ℕ) (kerning : Bool) (size spaced : K) (gs : List G) : List (SVGEv K) :=
  svgLoop chr kerning spaced true false (dataOf m kerning (size / 1000) gs)

/-! ## Slanted fonts -/

/-- The matrix `((1, slant), (0, 1))` (`font.py:563`), and `1 0 slant 1` of `Tm` (`font.py:646-663`); no slant is 0. -/
def slantBy (slant : Option K) (p : K × K) : K × K := (p.1 + slant.getD 0 * p.2, p.2)

/-- A point of a glyph in PostScript: the matrix of the font is changed (`font.py:562-569`), the glyph is put at the current point. -/
def pointPS (slant : Option K) (pos p : K × K) : K × K := (pos.1 + (slantBy slant p).1, pos.2 + (slantBy slant p).2)

/-- A point of a glyph in PDF: the text matrix is `1 0 slant 1 x y` (`font.py:661-663`), the glyph is at `dx` on the base line. -/
def pointPDF (slant : Option K) (origin : K × K) (dx : K) (p : K × K) : K × K :=
  (origin.1 + (slantBy slant (dx + p.1, p.2)).1, origin.2 + (slantBy slant (dx + p.1, p.2)).2)

/-- A point of a glyph in `textpath` (`font.py:531`, `t1file.py:908-912`): `slant` is not used. -/
def pointPath (_slant : Option K) (pos p : K × K) : K × K := (pos.1 + p.1, pos.2 + p.2)

/-- `"%i"` of a number (`font.py:200-202`). -/
def trunc [FloorRing K] (w : K) : ℤ := if 0 ≤ w then ⌊w⌋ else ⌈w⌉

/-- The array `/Widths` (`font.py:180-205`) from the first to the last code; `width` is the width of the glyph with a code. -/
def widths [FloorRing K] (width : ℕ → K) (codes : List ℕ) (first last : ℕ) : List ℤ :=
  (List.range' first (last + 1 - first)).map fun i => if i ∈ codes then trunc (width i) else 0

end

/-- The characters of a string which are written as they are in PostScript (`font.py:596`). -/
def plainPS (v : ℕ) : Bool := decide (32 < v) && decide (v < 127) && !(['(', ')', '[', ']', '<', '>', '\\'].contains (Char.ofNat v))

/-- The characters of a string which are written as they are in PDF (`font.py:683`). -/
def plainPDF (v : ℕ) : Bool := decide (32 ≤ v) && decide (v ≤ 127) && !(['(', ')', '[', ']', '<', '>', '\\'].contains (Char.ofNat v))

/-- An octal digit. -/
def octDigit (d : ℕ) : Char := Char.ofNat (48 + d)

/-- `"\\%03o" % value` for a value below 512. -/
def octal (v : ℕ) : List Char := ['\\', octDigit (v / 64), octDigit (v / 8 % 8), octDigit (v % 8)]

/-- A code in a string (`font.py:596-599, 683-686`). -/
def escape (plain : ℕ → Bool) (v : ℕ) : List Char := if plain v then [Char.ofNat v] else octal v

/-! ## Encodings -/

/-- An encoding: a dictionary from glyphs to codes. -/
abbrev Enc (G : Type) := List (G × ℕ)

/-- `glyphname in encoding`. -/
def Enc.has (e : Enc G) (g : G) : Bool := e.any fun p => p.1 = g

/-- `encoding[glyphname]`. -/
def Enc.code (e : Enc G) (g : G) : Option ℕ := (e.find? fun p => p.1 = g).map (·.2)

/-- `for glyphname in glyphsmissing: encoding[glyphname] = len(encoding)` (`font.py:504-505`): the length is that before the assignment, as the right hand side is evaluated first. -/
def Enc.extend : Enc G → List G → Enc G
  | e, [] => e
  | e, g :: l => Enc.extend (e ++ [(g, e.length)]) l

/-- The loop over the encodings in `getencodingname` (`font.py:496-507`): the number of the encoding which is used, and the encodings. -/
def findEncoding (gs : List G) : ℕ → List (Enc G) → Option (ℕ × List (Enc G))
  | _, [] => none
  | n, e :: es =>
    if (gs.filter fun g => !e.has g).length + e.length < 256 then some (n, e.extend (gs.filter fun g => !e.has g) :: es)
    else (findEncoding gs (n + 1) es).map fun r => (r.1, e :: r.2)

/-- `getencodingname` (`font.py:489-510`) for the distinct glyphs `gs` of a text (in the order of the set): the number of the encoding, or `ValueError`. -/
def getEncoding (gs : List G) (es : List (Enc G)) : Option (ℕ × List (Enc G)) :=
  if 256 < gs.length then none else
    match findEncoding gs 0 es with
    | some r => some r
    | none => some (es.length, es ++ [(Enc.extend [] gs)])

/-- `getvector` (`font.py:289-295`; the same in `PSreencodefont.output`, `font.py:98-100`). An index out of range is an error. -/
def vectorLoop : Enc G → List (Option G) → Option (List (Option G))
  | [], v => some v
  | p :: e, v => if p.2 < v.length then vectorLoop e (v.set p.2 (some p.1)) else none

/-- `getvector`. -/
def getVector (e : Enc G) : Option (List (Option G)) := vectorLoop e (List.replicate e.length none)

/-! ## Construction -/

/-- `T1text_pt.__init__` (`font.py:449-472`) for texts with a dictionary `decoding` (a missing character is a `KeyError`) or without one: the glyphs or the codes. -/
inductive Content (C G : Type)
  | glyphs (l : List G)
  | codes (l : List C)

/-- `T1text_pt.__init__`; `none` is an error. -/
def create {C : Type} (m : Metric G K) (decoding : Option (C → Option G)) (kerning ligatures : Bool) (chars : List C) : Option (Content C G) :=
  match decoding with
  | none => if kerning || ligatures then none else some (.codes chars)
  | some d => (chars.mapM d).map fun gs => .glyphs (if ligatures then resolveLigatures m gs else gs)

/-! ## SVG -/

/-- The unicode characters of glyphs in an SVG font (`font.py:319-334`): the dictionary and the next private character. -/
structure Mapping (G : Type) where
  table : List (G × ℕ) := []
  next : ℕ

/-- The character of a glyph. -/
def Mapping.char (m : Mapping G) (g : G) : Option ℕ := (m.table.find? fun p => p.1 = g).map (·.2)

/-- One step of `merge_glyphnames` (`font.py:338-343`); `known` is the dictionary `_glyphnames`. -/
def Mapping.add (known : G → Option ℕ) (m : Mapping G) (g : G) : Mapping G :=
  if (m.char g).isSome then m else
    match known g with
    | some c => { m with table := m.table ++ [(g, c)] }
    | none => ⟨m.table ++ [(g, m.next)], m.next + 1⟩

/-- `merge_glyphnames` (`font.py:336-343`), and `merge_charcodes` (`font.py:345-352`) with another dictionary. -/
def Mapping.merge (known : G → Option ℕ) (m : Mapping G) (gs : List G) : Mapping G := gs.foldl (Mapping.add known) m

/-! ## The font descriptor -/

/-- `/Ascent` and `/Descent` in `AFMfile.writePDFfontinfo` (`afmfile.py:1428-1441`); the bounding box is a list of four numbers. -/
def ascentDescent [OfNat K 1000] [OfNat K 200] [Neg K] [OfNat K 0] (ascender descender : Option K) (fontbbox : Option (List K)) : K × K :=
  (match ascender, fontbbox with
    | some a, _ => a
    | none, some b => b.getD 3 0
    | none, none => 1000,
   match descender, fontbbox with
    | some a, _ => a
    | none, some b => b.getD 3 0
    | none, none => -200)

end PyX.T1Text
