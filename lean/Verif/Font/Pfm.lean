import Mathlib.Data.List.Basic
import Mathlib.Data.Int.Notation
import Mathlib.Algebra.Field.Defs

/-!
# C136: PFM files (`font/pfmfile.py`): model

A file is the list of its bytes. Exceptions are `none`.
-/

set_option linter.unusedSectionVars false
set_option linter.dupNamespace false

namespace PyX.Pfm

/-! ## `struct` -/

/-- The formats which are used, always with `<`. -/
inductive Fmt
  | B
  | H
  | h
  | L
  | s (n : ℕ)
  deriving DecidableEq

def Fmt.size : Fmt → ℕ
  | .B => 1
  | .H => 2
  | .h => 2
  | .L => 4
  | .s n => n

/-- Numbers and byte strings. -/
inductive Fld
  | num (i : ℤ)
  | str (b : List ℕ)
  deriving DecidableEq

/-- Little endian. -/
def le : List ℕ → ℕ
  | [] => 0
  | b :: t => b + 256 * le t

/-- Two's complement. -/
def signed (v : ℕ) : ℤ := if v < 32768 then v else (v : ℤ) - 65536

def decode (f : Fmt) (b : List ℕ) : Fld :=
  match f with
  | .h => .num (signed (le b))
  | .s _ => .str b
  | _ => .num (le b)

def unpackAll : List Fmt → List ℕ → List Fld
  | [], _ => []
  | f :: fs, b => decode f (b.take f.size) :: unpackAll fs (b.drop f.size)

/-- `struct.unpack(fmt, b)` -/
def unpack (fs : List Fmt) (b : List ℕ) : Option (List Fld) :=
  if b.length = (fs.map Fmt.size).sum then some (unpackAll fs b) else none

/-- `file.seek(off); file.read(n)` -/
def readAt (f : List ℕ) (off n : ℕ) : List ℕ := (f.drop off).take n

/-- `_readNullString` (`pfmfile.py:255-261`). -/
def nullString (f : List ℕ) (off : ℕ) : List ℕ := (f.drop off).takeWhile (· != 0)

/-! ## Records -/

/-- The first record (`pfmfile.py:268-276`). -/
def headFmt : List Fmt :=
  [.H, .L, .s 60] ++ List.replicate 7 .H ++ List.replicate 3 .B ++ [.H, .B] ++ List.replicate 2 .H ++ [.B] ++ List.replicate 2 .H ++ List.replicate 4 .B ++ [.H] ++ List.replicate 4 .L

def headNames : List String :=
  ["dfVersion", "dfSize", "dfCopyright", "dfType", "dfPoint", "dfVertRes", "dfHorizRes", "dfAscent", "dfInternalLeading", "dfExternalLeading", "dfItalic",
   "dfUnderline", "dfStrikeOut", "dfWeight", "dfCharSet", "dfPixWidth", "dfPixHeight", "dfPitchAndFamily", "dfAvgWidth", "dfMaxWidth", "dfFirstChar", "dfLastChar",
   "dfDefaultChar", "dfBreakChar", "dfWidthBytes", "dfDevice", "dfFace", "dfBitsPointer", "dfBitsOffset"]

/-- The second record (`pfmfile.py:278-280`). -/
def extFmt : List Fmt := .H :: List.replicate 7 .L

def extNames : List String :=
  ["dfSizeFields", "dfExtMetricsOffset", "dfExtentTable", "dfOriginTable", "dfPairKernTable", "dfTrackKernTable", "dfDriverInfo", "dfReserved"]

/-- The extended text metrics (`pfmfile.py:303-313`). -/
def etmFmt : List Fmt := List.replicate 24 .h ++ List.replicate 2 .H

def etmNames : List String :=
  ["etmSize", "etmPointSize", "etmOrientation", "etmMasterHeight", "etmMinScale", "etmMaxScale", "etmMasterUnits", "etmCapHeight", "etmXHeight", "etmLowerCaseAscent",
   "etmLowerCaseDescent", "etmSlant", "etmSuperScript", "etmSubScript", "etmSuperScriptSize", "etmSubScriptSize", "etmUnderlineOffset", "etmUnderlineWidth",
   "etmDoubleUpperUnderlineOffset", "etmDoubleLowerUnderlineOffset", "etmDoubleUpperUnderlineWidth", "etmDoubleLowerUnderlineWidth", "etmStrikeOutOffset",
   "etmStrikeOutWidth", "etmKernPairs", "etmKernTracks"]

/-- A number among the values by the name it is assigned to. -/
def num (names : List String) (vals : List Fld) (n : String) : ℤ :=
  match vals[names.idxOf n]? with
  | some (.num i) => i
  | _ => 0

/-- A byte string likewise. -/
def str (names : List String) (vals : List Fld) (n : String) : List ℕ :=
  match vals[names.idxOf n]? with
  | some (.str b) => b
  | _ => []

/-- The names of the glyphs of an encoding, in the order in which they are put into the dictionary. -/
abbrev Glyphs := List (String × ℕ)

/-- Looking up a dictionary made of these: the last one counts. -/
def Glyphs.code (g : Glyphs) (n : String) : Option ℕ := (g.reverse.find? fun p => p.1 = n).map (·.2)

/-- `ansiglyphs` (`pfmfile.py:26-249`). -/
def ansi : Glyphs :=
  [("space", 32), ("exclam", 33), ("quotedbl", 34), ("numbersign", 35), ("dollar", 36), ("percent", 37), ("ampersand", 38), ("quotesingle", 39),
   ("parenleft", 40), ("parenright", 41), ("asterisk", 42), ("plus", 43), ("comma", 44), ("hyphen", 45), ("period", 46), ("slash", 47), ("zero", 48),
   ("one", 49), ("two", 50), ("three", 51), ("four", 52), ("five", 53), ("six", 54), ("seven", 55), ("eight", 56), ("nine", 57), ("colon", 58),
   ("semicolon", 59), ("less", 60), ("equal", 61), ("greater", 62), ("question", 63), ("at", 64), ("A", 65), ("B", 66), ("C", 67), ("D", 68), ("E", 69),
   ("F", 70), ("G", 71), ("H", 72), ("I", 73), ("J", 74), ("K", 75), ("L", 76), ("M", 77), ("N", 78), ("O", 79), ("P", 80), ("Q", 81), ("R", 82),
   ("S", 83), ("T", 84), ("U", 85), ("V", 86), ("W", 87), ("X", 88), ("Y", 89), ("Z", 90), ("bracketleft", 91), ("backslash", 92), ("bracketright", 93),
   ("asciicircum", 94), ("underscore", 95), ("grave", 96), ("a", 97), ("b", 98), ("c", 99), ("d", 100), ("e", 101), ("f", 102), ("g", 103), ("h", 104),
   ("i", 105), ("j", 106), ("k", 107), ("l", 108), ("m", 109), ("n", 110), ("o", 111), ("p", 112), ("q", 113), ("r", 114), ("s", 115), ("t", 116),
   ("u", 117), ("v", 118), ("w", 119), ("x", 120), ("y", 121), ("z", 122), ("braceleft", 123), ("bar", 124), ("braceright", 125), ("asciitilde", 126),
   ("bullet", 127), ("Euro", 128), ("bullet", 129), ("quotesinglbase", 130), ("florin", 131), ("quotedblbase", 132), ("ellipsis", 133), ("dagger", 134),
   ("daggerdbl", 135), ("circumflex", 136), ("perthousand", 137), ("Scaron", 138), ("guilsinglleft", 139), ("OE", 140), ("bullet", 141), ("Zcaron", 142),
   ("bullet", 143), ("bullet", 144), ("quoteleft", 145), ("quoteright", 146), ("quotedblleft", 147), ("quotedblright", 148), ("bullet", 149),
   ("endash", 150), ("emdash", 151), ("tilde", 152), ("trademark", 153), ("scaron", 154), ("guilsinglright", 155), ("oe", 156), ("bullet", 157),
   ("zcaron", 158), ("Ydieresis", 159), ("space", 160), ("exclamdown", 161), ("cent", 162), ("sterling", 163), ("currency", 164), ("yen", 165),
   ("brokenbar", 166), ("section", 167), ("dieresis", 168), ("copyright", 169), ("ordfeminine", 170), ("guillemotleft", 171), ("logicalnot", 172),
   ("hyphen", 173), ("registered", 174), ("macron", 175), ("degree", 176), ("plusminus", 177), ("twosuperior", 178), ("threesuperior", 179),
   ("acute", 180), ("mu", 181), ("paragraph", 182), ("periodcentered", 183), ("cedilla", 184), ("onesuperior", 185), ("ordmasculine", 186),
   ("guillemotright", 187), ("onequarter", 188), ("onehalf", 189), ("threequarters", 190), ("questiondown", 191), ("Agrave", 192), ("Aacute", 193),
   ("Acircumflex", 194), ("Atilde", 195), ("Adieresis", 196), ("Aring", 197), ("AE", 198), ("Ccedilla", 199), ("Egrave", 200), ("Eacute", 201),
   ("Ecircumflex", 202), ("Edieresis", 203), ("Igrave", 204), ("Iacute", 205), ("Icircumflex", 206), ("Idieresis", 207), ("Eth", 208), ("Ntilde", 209),
   ("Ograve", 210), ("Oacute", 211), ("Ocircumflex", 212), ("Otilde", 213), ("Odieresis", 214), ("multiply", 215), ("Oslash", 216), ("Ugrave", 217),
   ("Uacute", 218), ("Ucircumflex", 219), ("Udieresis", 220), ("Yacute", 221), ("Thorn", 222), ("germandbls", 223), ("agrave", 224), ("aacute", 225),
   ("acircumflex", 226), ("atilde", 227), ("adieresis", 228), ("aring", 229), ("ae", 230), ("ccedilla", 231), ("egrave", 232), ("eacute", 233),
   ("ecircumflex", 234), ("edieresis", 235), ("igrave", 236), ("iacute", 237), ("icircumflex", 238), ("idieresis", 239), ("eth", 240), ("ntilde", 241),
   ("ograve", 242), ("oacute", 243), ("ocircumflex", 244), ("otilde", 245), ("odieresis", 246), ("divide", 247), ("oslash", 248), ("ugrave", 249),
   ("uacute", 250), ("ucircumflex", 251), ("udieresis", 252), ("yacute", 253), ("thorn", 254), ("ydieresis", 255)]

/-- `dict([(glyph, i) for i, glyph in enumerate(t1file.encoding) if glyph != None])` (`pfmfile.py:343`). -/
def encodingGlyphs (e : List (Option String)) : Glyphs := e.zipIdx.filterMap fun p => p.1.map fun g => (g, p.2)

/-- The attributes of `PFMfile` which are used. -/
structure Pfm where
  head : List Fld
  ext : List Fld
  etm : List Fld
  copyright : List ℕ
  device : List ℕ
  face : List ℕ
  driver : List ℕ
  widths : List ℕ
  kernpairs : List (ℕ × ℕ × ℤ)
  trackkerns : List (List ℤ)
  glyphs : Glyphs

/-- `bytes.lower()` -/
def lower (b : List ℕ) : List ℕ := b.map fun c => if 65 ≤ c ∧ c ≤ 90 then c + 32 else c

/-- `b"postscript"` -/
def postscript : List ℕ := "postscript".toList.map Char.toNat

/-- `n` numbers of two bytes. -/
def words16 : ℕ → List ℕ → List ℕ
  | 0, _ => []
  | n + 1, b => le (b.take 2) :: words16 n (b.drop 2)

/-- The widths (`pfmfile.py:317-319`); a negative count is an error of the format. -/
def readWidths (f : List ℕ) (off : ℕ) (count : ℤ) : Option (List ℕ) :=
  if count < 0 then none
  else if (readAt f off (2 * count.toNat)).length = 2 * count.toNat then some (words16 count.toNat (readAt f off (2 * count.toNat))) else none

/-- A pair, `<BBh`. -/
def pairFmt : List Fmt := [.B, .B, .h]

def pairOf : List Fld → Option (ℕ × ℕ × ℤ)
  | [.num a, .num b, .num c] => some (a.toNat, b.toNat, c)
  | _ => none

/-- The pairs one after the other (`pfmfile.py:327-330`). -/
def readPairs (f : List ℕ) : ℕ → ℕ → Option (List (ℕ × ℕ × ℤ))
  | 0, _ => some []
  | n + 1, off =>
    match (unpack pairFmt (readAt f off 4)).bind pairOf with
    | none => none
    | some p => (readPairs f n (off + 4)).map (p :: ·)

/-- A track, `<hhhhh`. -/
def trackFmt : List Fmt := List.replicate 5 .h

def Fld.int : Fld → ℤ
  | .num i => i
  | .str _ => 0

/-- The tracks one after the other (`pfmfile.py:336-339`). -/
def readTracks (f : List ℕ) : ℕ → ℕ → Option (List (List ℤ))
  | 0, _ => some []
  | n + 1, off =>
    match unpack trackFmt (readAt f off 10) with
    | none => none
    | some p => (readTracks f n (off + 10)).map (p.map Fld.int :: ·)

/-- A table which starts with the number of its rows (`pfmfile.py:322-326, 332-336`). -/
def readTable {α : Type} (f : List ℕ) (off : ℕ) (n : ℤ) (rows : ℕ → ℕ → Option (List α)) : Option (List α) :=
  if off = 0 then some []
  else
    match unpack [.H] (readAt f off 2) with
    | some [.num m] => if m ≠ n then none else rows n.toNat (off + 2)
    | _ => none

/-- The checks (`pfmfile.py:281-301`). -/
def checks (f : List ℕ) (head ext : List Fld) : Bool :=
  decide (num headNames head "dfDevice" ≠ 0) && decide (lower (nullString f (num headNames head "dfDevice").toNat) = postscript) &&
  decide (num headNames head "dfVersion" = 0x100) && decide (num headNames head "dfType" = 0x81) && decide (num headNames head "dfFace" ≠ 0) &&
  decide (num extNames ext "dfExtMetricsOffset" ≠ 0) && decide (num extNames ext "dfExtentTable" ≠ 0) && decide (num extNames ext "dfOriginTable" = 0) &&
  decide (num extNames ext "dfDriverInfo" ≠ 0)

/-- `PFMfile.__init__` (`pfmfile.py:266-346`). -/
def readPfm (f : List ℕ) (encoding : List (Option String)) : Option Pfm :=
  (unpack headFmt (readAt f 0 117)).bind fun head =>
  (unpack extFmt (readAt f 117 30)).bind fun ext =>
  if checks f head ext then
    (unpack etmFmt (readAt f (num extNames ext "dfExtMetricsOffset").toNat 52)).bind fun etm =>
    (readWidths f (num extNames ext "dfExtentTable").toNat (num headNames head "dfLastChar" - num headNames head "dfFirstChar" + 1)).bind fun widths =>
    (readTable f (num extNames ext "dfPairKernTable").toNat (num etmNames etm "etmKernPairs") (readPairs f)).bind fun pairs =>
    (readTable f (num extNames ext "dfTrackKernTable").toNat (num etmNames etm "etmKernTracks") (readTracks f)).bind fun tracks =>
    some { head := head, ext := ext, etm := etm, copyright := (str headNames head "dfCopyright").takeWhile (· != 0),
           device := nullString f (num headNames head "dfDevice").toNat, face := nullString f (num headNames head "dfFace").toNat,
           driver := nullString f (num extNames ext "dfDriverInfo").toNat, widths := widths, kernpairs := pairs, trackkerns := tracks,
           glyphs := if num headNames head "dfCharSet" ≠ 0 then encodingGlyphs encoding else ansi }
  else none

/-! ## Metrics -/

/-- `widths[i]` of a tuple, counted from the end if negative. -/
def pyIndex (l : List ℕ) (i : ℤ) : Option ℕ :=
  if 0 ≤ i then l[i.toNat]? else if -(l.length : ℤ) ≤ i then l[(l.length + i).toNat]? else none

/-- `width_ds` (`pfmfile.py:348-349`). -/
def widthDs (p : Pfm) (g : String) : Option ℕ :=
  (p.glyphs.code g).bind fun c => pyIndex p.widths (c - num headNames p.head "dfFirstChar")

/-- `kernpairsdict.get((a, b))`: the last pair counts (`pfmfile.py:330`). -/
def kern (p : Pfm) (a b : ℕ) : Option ℤ := (p.kernpairs.reverse.find? fun x => x.1 = a ∧ x.2.1 = b).map (·.2.2)

/-- Glyphs, and kernings between them. -/
inductive Item (K : Type)
  | glyph (g : String)
  | kern (k : Option K)
  deriving DecidableEq

variable {K : Type} [Field K]

/-- `width_pt` (`pfmfile.py:351-352`). -/
def widthPt (p : Pfm) (gs : List String) (size : K) : Option K := (gs.mapM (widthDs p)).map fun l => ((l.sum : ℕ) : K) * size / 1000

/-- The kerning between two glyphs (`pfmfile.py:371-376`); the outer `none` is a `KeyError`. -/
def between (p : Pfm) (size : Option K) (a b : String) : Option (Option K) :=
  (p.glyphs.code a).bind fun a => (p.glyphs.code b).map fun b =>
    match kern p a b with
    | none => none
    | some x => if x = 0 then none else some (match size with | some s => (x : K) * s / 1000 | none => (x : K))

/-- `resolvekernings` (the second one, `pfmfile.py:366-377`), after the first glyph. -/
def kernLoop (p : Pfm) (size : Option K) : String → List String → Option (List (Item K))
  | _, [] => some []
  | a, b :: gs =>
    (between p size a b).bind fun k => (kernLoop p size b gs).map fun l => .kern k :: .glyph b :: l

def resolveKernings (p : Pfm) (size : Option K) : List String → Option (List (Item K))
  | [] => some []
  | a :: gs => (kernLoop p size a gs).map fun l => .glyph a :: l

/-- `height_pt` and `depth_pt` (`pfmfile.py:354-358`). -/
def heightPt (p : Pfm) (size : K) : K := (num headNames p.head "dfAscent" : K) * size / 1000

def depthPt (p : Pfm) (size : K) : K := -(num etmNames p.etm "etmLowerCaseDescent" : K) * size / 1000

/-- The flags of `writePDFfontinfo` (`pfmfile.py:380-390`). -/
def flags (p : Pfm) (serif symbol : Bool) : ℕ :=
  (if num headNames p.head "dfMaxWidth" = num headNames p.head "dfAvgWidth" then 2 ^ 0 else 0) + (if serif then 2 ^ 1 else 0) +
  (if symbol then 2 ^ 2 else 2 ^ 5) + (if num headNames p.head "dfItalic" ≠ 0 then 2 ^ 6 else 0)

/-- The numbers of `writePDFfontinfo` (`pfmfile.py:391-401`) except the bounding box: italic angle (`%d` of a quotient cuts towards zero), ascent, descent, height of capitals and
width of stems. -/
def fontInfo (p : Pfm) : ℤ × ℤ × ℤ × ℤ × ℤ :=
  ((num etmNames p.etm "etmSlant").tdiv 10, num headNames p.head "dfAscent", -num etmNames p.etm "etmLowerCaseDescent", num etmNames p.etm "etmCapHeight",
   if 600 ≤ num headNames p.head "dfWeight" then 120 else 70)

end PyX.Pfm
