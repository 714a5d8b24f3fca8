import Verif.T1.Code
import Mathlib.Data.Rat.Defs

/-!
# Model of the font stripping of `pyx/font/t1file.py`

`T1File.gathercalls` and the `gathercalls` methods of the commands, `getdata2` (on the level of the
arrays and dictionaries it writes) and `getstrippedfont`. Python exceptions are `none`. The recursion depth
is bounded by a number `n` as it is in Python (`RecursionError`).

Not modelled: the concrete text of `data1`/`data2`/`data3` around the arrays (the removal of `/UniqueID`,
the normalisation of line ends); the `set` objects are lists, used for membership only.
-/

set_option linter.unusedSectionVars false

namespace PyX.T1

/-- `adobestandardencoding` (`pyx/font/t1file.py:41-72`). -/
def adobestandardencoding : List (Option String) := [
  none, none, none, none, none, none, none, none,
  none, none, none, none, none, none, none, none,
  none, none, none, none, none, none, none, none,
  none, none, none, none, none, none, none, none,
  some "space", some "exclam", some "quotedbl", some "numbersign", some "dollar", some "percent", some "ampersand", some "quoteright",
  some "parenleft", some "parenright", some "asterisk", some "plus", some "comma", some "hyphen", some "period", some "slash",
  some "zero", some "one", some "two", some "three", some "four", some "five", some "six", some "seven",
  some "eight", some "nine", some "colon", some "semicolon", some "less", some "equal", some "greater", some "question",
  some "at", some "A", some "B", some "C", some "D", some "E", some "F", some "G",
  some "H", some "I", some "J", some "K", some "L", some "M", some "N", some "O",
  some "P", some "Q", some "R", some "S", some "T", some "U", some "V", some "W",
  some "X", some "Y", some "Z", some "bracketleft", some "backslash", some "bracketright", some "asciicircum", some "underscore",
  some "quoteleft", some "a", some "b", some "c", some "d", some "e", some "f", some "g",
  some "h", some "i", some "j", some "k", some "l", some "m", some "n", some "o",
  some "p", some "q", some "r", some "s", some "t", some "u", some "v", some "w",
  some "x", some "y", some "z", some "braceleft", some "bar", some "braceright", some "asciitilde", none,
  none, none, none, none, none, none, none, none,
  none, none, none, none, none, none, none, none,
  none, none, none, none, none, none, none, none,
  none, none, none, none, none, none, none, none,
  none, some "exclamdown", some "cent", some "sterling", some "fraction", some "yen", some "florin", some "section",
  some "currency", some "quotesingle", some "quotedblleft", some "guillemotleft", some "guilsinglleft", some "guilsinglright", some "fi", some "fl",
  none, some "endash", some "dagger", some "daggerdbl", some "periodcentered", none, some "paragraph", some "bullet",
  some "quotesinglbase", some "quotedblbase", some "quotedblright", some "guillemotright", some "ellipsis", some "perthousand", none, some "questiondown",
  none, some "grave", some "acute", some "circumflex", some "tilde", some "macron", some "breve", some "dotaccent",
  some "dieresis", none, some "ring", some "cedilla", none, some "hungarumlaut", some "ogonek", some "caron",
  some "emdash", none, none, none, none, none, none, none,
  none, none, none, none, none, none, none, none,
  none, some "AE", none, some "ordfeminine", none, none, none, none,
  some "Lslash", some "Oslash", some "OE", some "ordmasculine", none, none, none, none,
  none, some "ae", none, none, none, some "dotlessi", none, none,
  some "lslash", some "oslash", some "oe", some "germandbls", none, none, none, none]

/-- Python list indexing, negative indices count from the end; out of range is an `IndexError`. -/
def pyIndex {α : Type} (l : List α) (i : Int) : Option α :=
  if 0 ≤ i then l[i.toNat]?
  else if 0 ≤ i + l.length then l[(i + l.length).toNat]? else none

/-- The decoded data of a `T1File` (`_data2decode`, `_encoding`; `pyx/font/t1file.py:684-792`): the encrypted
subroutines, the glyph names in file order, the dictionary of encrypted charstrings and the encoding;
`encoding = none` stands for `self.encoding is adobestandardencoding`. -/
structure Font where
  lenIV : Nat
  subrs : List (List Nat)
  glyphlist : List String
  glyphs : String → Option (List Nat)
  encoding : Option (List (Option String))

/-- `T1File._cmds` including the decryption (`pyx/font/t1file.py:794-816`). -/
def cmdsOf (F : Font) (code : List Nat) : Option (List Tok) := cmds (charstringDecode F.lenIV code)

/-- `T1File.getsubrcmds` (`pyx/font/t1file.py:850-854`). -/
def getsubrcmds (F : Font) (subr : Int) : Option (List Tok) := (pyIndex F.subrs subr).bind (cmdsOf F)

/-- `T1File.getglyphcmds` (`pyx/font/t1file.py:856-860`); a missing name is a `KeyError`. -/
def getglyphcmds (F : Font) (glyph : String) : Option (List Tok) := (F.glyphs glyph).bind (cmdsOf F)

/-- The parts of `T1context` used by `gathercalls` (`pyx/font/t1file.py:74-87`), together with the two sets
passed along. The stacks have their top at the head. -/
structure GCtx where
  t1 : List Int
  ps : List Int
  seac : List String
  subrs : List Int
deriving DecidableEq

/-- `adobestandardencoding[char]` followed by its use as a glyph name: `None` leads to a `KeyError` in
`getglyphcmds` (`pyx/font/t1file.py:193-198`). -/
def stdGlyph (char : Int) : Option String := (pyIndex adobestandardencoding char).bind id

/-- `_T1callsubr.gathercalls` (`pyx/font/t1file.py:578-581`). `rec` is `gathercalls` one level deeper. -/
def gatherCallsubr (F : Font) (rec : List Tok → GCtx → Option GCtx) (c : GCtx) : Option GCtx :=
  match c.t1 with
  | subr :: t1 => (getsubrcmds F subr).bind fun b => rec b { c with t1 := t1, subrs := subr :: c.subrs }
  | [] => none

/-- `_T1seac.gathercalls` (`pyx/font/t1file.py:190-198`). -/
def gatherSeac (F : Font) (rec : List Tok → GCtx → Option GCtx) (c : GCtx) : Option GCtx :=
  match c.t1 with
  | achar :: bchar :: t1 =>
    (stdGlyph achar).bind fun aglyph => (stdGlyph bchar).bind fun bglyph =>
    (getglyphcmds F bglyph).bind fun b =>
    (rec b { c with t1 := t1, seac := bglyph :: aglyph :: c.seac }).bind fun c =>
    (getglyphcmds F aglyph).bind fun a => rec a c
  | _ => none

/-- `_T1div.gathercalls` (`pyx/font/t1file.py:512-515`): floor division, `ZeroDivisionError`. -/
def gatherDiv (c : GCtx) : Option GCtx :=
  match c.t1 with
  | num2 :: num1 :: t1 => if num2 = 0 then none else some { c with t1 := num1.fdiv num2 :: t1 }
  | _ => none

/-- `_T1callothersubr.gathercalls` (`pyx/font/t1file.py:558-561`); `range(n)` is empty for negative `n`. -/
def gatherOther (c : GCtx) : Option GCtx :=
  match c.t1 with
  | _ :: n :: t1 =>
    if t1.length < n.toNat then none
    else some { c with t1 := t1.drop n.toNat, ps := t1.take n.toNat ++ c.ps }
  | _ => none

/-- `_T1pop.gathercalls` (`pyx/font/t1file.py:597-598`). -/
def gatherPop (c : GCtx) : Option GCtx :=
  match c.ps with
  | v :: ps => some { c with t1 := v :: c.t1, ps := ps }
  | [] => none

/-- One pass of the loop of `T1File.gathercalls` (`pyx/font/t1file.py:890-894`); all other commands inherit
the empty `T1cmd.gathercalls` (l. 117-131). -/
def gatherStep (F : Font) (rec : List Tok → GCtx → Option GCtx) (t : Tok) (c : GCtx) : Option GCtx :=
  match t with
  | .num z => some { c with t1 := z :: c.t1 }
  | .cmd k => if k = 10 then gatherCallsubr F rec c else some c
  | .esc k =>
    if k = 6 then gatherSeac F rec c
    else if k = 12 then gatherDiv c
    else if k = 16 then gatherOther c
    else if k = 17 then gatherPop c
    else some c

/-- The loop itself. -/
def gatherLoop (step : Tok → GCtx → Option GCtx) : List Tok → GCtx → Option GCtx
  | [], c => some c
  | t :: ts, c => (step t c).bind (gatherLoop step ts)

/-- `T1File.gathercalls` (`pyx/font/t1file.py:889-894`) with recursion depth at most `n`. -/
def gathercalls (F : Font) : (n : Nat) → List Tok → GCtx → Option GCtx
  | 0, _, _ => none
  | n + 1, ts, c => gatherLoop (gatherStep F (gathercalls F n)) ts c

/-- `T1File.gatherglyphcalls` on a fresh `T1context` (`pyx/font/t1file.py:899-900,1019`), returning the two
updated sets. -/
def gatherglyphcalls (F : Font) (n : Nat) (glyph : String) (sets : List String × List Int) :
    Option (List String × List Int) :=
  (getglyphcmds F glyph).bind fun b =>
  (gathercalls F n b ⟨[], [], sets.1, sets.2⟩).map fun c => (c.seac, c.subrs)

/-- The loop over the requested glyphs (`pyx/font/t1file.py:1016-1019`). -/
def gatherAll (F : Font) (n : Nat) : List String → List String × List Int → Option (List String × List Int)
  | [], sets => some sets
  | g :: gs, sets => (gatherglyphcalls F n g sets).bind (gatherAll F n gs)

/-- `T1File.flexhintsubrs` (`pyx/font/t1file.py:710-713`). -/
def flexhintsubrs : List (List Tok) :=
  [[.num 3, .num 0, .esc 16, .esc 17, .esc 17, .esc 33, .cmd 11],
   [.num 0, .num 1, .esc 16, .cmd 11],
   [.num 0, .num 2, .esc 16, .cmd 11],
   [.cmd 11]]

/-- `hasflexhintsubrs` (`pyx/font/t1file.py:760-762`). -/
def hasflexhintsubrs (F : Font) : Bool :=
  decide (4 ≤ F.subrs.length) &&
    decide ((List.range 4).map (fun (i : Nat) => getsubrcmds F i) = flexhintsubrs.map some)

/-- The adjustment of the set of subroutines (`pyx/font/t1file.py:936-944`). -/
def adjustSubrs (F : Font) (subrs : List Int) : List Int :=
  if hasflexhintsubrs F ∧ ∃ s ∈ subrs, s < 4 then [0, 1, 2, 3] ++ subrs else subrs

/-- `max(subrs)` or `-1` for the empty set (`pyx/font/t1file.py:938,944,946`). -/
def subrsmax : List Int → Int
  | [] => -1
  | s :: [] => s
  | s :: subrs => max s (subrsmax subrs)

/-- `emptysubr` (`pyx/font/t1file.py:729`). -/
def emptysubr (F : Font) : List Nat := charstringEncode F.lenIV [11]

/-- The array written by `addsubrs` (`pyx/font/t1file.py:952-965`). -/
def writtenSubrs (F : Font) (subrs : List Int) : Option (List (List Nat)) :=
  (List.range (subrsmax subrs + 1).toNat).mapM fun (i : Nat) =>
    if (i : Int) ∈ subrs then pyIndex F.subrs i else some (emptysubr F)

/-- `self.encoding` as a list (`pyx/font/t1file.py:690-701`). -/
def encodingList (F : Font) : List (Option String) := F.encoding.getD adobestandardencoding

/-- The stripped encoding (`pyx/font/t1file.py:1026-1033`): the standard encoding is kept; otherwise only the
entries of kept glyphs are written. -/
def strippedEncoding (F : Font) (glyphs : List String) : Option (List (Option String)) :=
  F.encoding.map fun e => e.map fun g => g.filter (· ∈ glyphs)

/-- The glyphs asked for by their codes (`pyx/font/t1file.py:1012-1013`); `None` (an unused code) leads to a
`KeyError` in the loop after it. -/
def codeGlyphs (F : Font) : List Int → Option (List String)
  | [] => some []
  | k :: ks => (pyIndex (encodingList F) k).bind fun g => g.bind fun g => (codeGlyphs F ks).map (g :: ·)

/-- `T1File.getstrippedfont` (`pyx/font/t1file.py:1005-1044`), as the decoded data of the new font. -/
def getstrippedfont (F : Font) (n : Nat) (glyphs : List String) (charcodes : List Int) : Option Font :=
  (codeGlyphs F charcodes).bind fun cg =>
  (gatherAll F n (glyphs ++ cg) ([], [])).bind fun sets =>
  let kept := ".notdef" :: (sets.1 ++ (glyphs ++ cg))
  (writtenSubrs F (adjustSubrs F sets.2)).map fun subrs =>
    { lenIV := F.lenIV
      subrs := subrs
      glyphlist := F.glyphlist.filter (· ∈ kept)
      glyphs := fun g => if g ∈ kept then F.glyphs g else none
      encoding := strippedEncoding F kept }

end PyX.T1
