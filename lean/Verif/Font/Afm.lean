import Mathlib.Logic.Function.Basic
import Mathlib.Data.List.Basic
import Mathlib.Data.Int.Notation
import Mathlib.Algebra.Notation.Defs

/-!
# C135: reading AFM files (`font/afmfile.py:868-1374`): model

Exceptions are `none`, whichever they are. White space is ASCII white space.
-/

set_option linter.unusedSectionVars false
set_option linter.dupNamespace false

namespace PyX.Afm

/-- String literals. -/
def lit (s : String) : List Char := s.toList

/-! ## Python strings -/

/-- White space of `strip` and `split`. -/
def ws (c : Char) : Bool := c == ' ' || c == '\t' || c == '\n' || c == '\r' || c == '\x0b' || c == '\x0c'

/-- `s.strip()` -/
def strip (s : List Char) : List Char := ((s.dropWhile ws).reverse.dropWhile ws).reverse

/-- `s.rstrip()` -/
def rstrip (s : List Char) : List Char := (s.reverse.dropWhile ws).reverse

/-- `key, args = s.split(None, 1)`; `none`: `ValueError`. -/
def split1 (s : List Char) : Option (List Char × List Char) :=
  let s := s.dropWhile ws
  let key := s.takeWhile fun c => !ws c
  let args := (s.dropWhile fun c => !ws c).dropWhile ws
  if args = [] then none else some (key, args)

/-- `s.split()`, where `word` are the last characters of the current word, reversed. -/
def wordsLoop : List Char → List Char → List (List Char)
  | [], word => if word = [] then [] else [word.reverse]
  | c :: s, word => if ws c then (if word = [] then wordsLoop s [] else word.reverse :: wordsLoop s []) else wordsLoop s (c :: word)

def words (s : List Char) : List (List Char) := wordsLoop s []

variable {K : Type}

/-- The conversions of Python: `float(s)`, `int(s)` and `int(s, 16)`. -/
structure Num (K : Type) where
  flt : List Char → Option K
  int : List Char → Option ℤ
  hex : List Char → Option ℤ

/-- `s.replace(",", ".")` -/
def comma (s : List Char) : List Char := s.map fun c => if c = ',' then '.' else c

/-- `_parsefloat` (`afmfile.py:898-905`). -/
def parseFloat (n : Num K) (s : List Char) : Option K := n.flt (comma s)

/-- `_parsefloats` (`afmfile.py:907-917`). -/
def parseFloats (n : Num K) (s : List Char) (nos : ℕ) : Option (List K) :=
  ((words (comma s)).mapM n.flt).bind fun l => if l.length = nos then some l else none

/-- `_parsehex` (`afmfile.py:890-896`). -/
def parseHex (n : Num K) (s : List Char) : Option ℤ :=
  if s.head? = some '<' ∧ s.getLast? = some '>' then n.hex (s.tail.dropLast) else none

/-- `_parsebool` (`afmfile.py:923-930`). -/
def parseBool (s : List Char) : Option Bool :=
  if rstrip s = lit "true" then some true else if rstrip s = lit "false" then some false else none

/-! ## Data -/

/-- `AFMcharmetrics` (`afmfile.py:933-946`). -/
structure Glyph (K : Type) where
  code : ℤ
  w0 : Option (List K) := none
  w1 : Option (List K) := none
  vvector : Option (List K) := none
  name : Option (List Char) := none
  bbox : Option (List K) := none
  ligatures : List (List Char × List Char) := []
  deriving DecidableEq

/-- The names of a kerning pair: glyph names or codes. -/
inductive Name
  | name (s : List Char)
  | code (i : ℤ)
  deriving DecidableEq

/-- `AFMkernpair` (`afmfile.py:958-963`). -/
structure Pair (K : Type) where
  name1 : Name
  name2 : Name
  x : K
  y : K
  deriving DecidableEq

/-- `AFMtrackkern` (`afmfile.py:949-955`). -/
structure Track (K : Type) where
  degree : ℤ
  values : List K
  deriving DecidableEq

/-- Values of the header. -/
inductive Val (K : Type)
  | str (s : List Char)
  | int (i : ℤ)
  | flt (x : K)
  | flts (l : List K)
  | bool (b : Bool)
  deriving DecidableEq

/-- The attributes of `AFMfile` (`afmfile.py:974-1016`); those of the header are kept by the key in the file, and those of the two directions likewise. -/
structure Afm (K : Type) where
  version : List ℤ := []
  header : List Char → Option (Val K) := fun _ => none
  dir0 : List Char → Option (Val K) := fun _ => none
  dir1 : List Char → Option (Val K) := fun _ => none
  expected : Option ℤ := none
  chars : Option (List (Glyph K)) := none
  dict : List Char → Option (Glyph K) := fun _ => none
  tracks : Option (List (Option (Track K))) := none
  pairs0 : Option (List (Pair K)) := none
  pairs1 : Option (List (Pair K)) := none
  pdict0 : Name × Name → Option (Pair K) := fun _ => none
  pdict1 : Name × Name → Option (Pair K) := fun _ => none
  composites : Option (List (List Char)) := none

/-- The states of the reader (`afmfile.py:873-881`) with their parameters. -/
inductive Mode
  | start
  | main
  | direction (d : ℤ)
  | chars (i : ℕ)
  | kern
  | track (i : ℕ)
  | pairs (second : Bool) (i : ℕ)
  | composites (i : ℕ)
  | finished
  deriving DecidableEq

/-! ## Header -/

/-- How the value of a key is read. -/
inductive Kind
  | str
  | int
  | flt
  | flts (n : ℕ)
  | bool
  deriving DecidableEq

/-- What a line of the header is. -/
inductive Key
  | comment
  | metricssets
  | value (k : Kind)
  | version
  | startdirection
  | dir (k : Kind)
  | startchars
  | startkern
  | startcomposites
  | endfont
  | other
  deriving DecidableEq

/-- The keys of the header (`afmfile.py:1031-1117`). -/
def keys : List (List Char × Key) :=
  [(lit "Comment", .comment), (lit "MetricsSets", .metricssets), (lit "FontName", .value .str), (lit "FullName", .value .str),
   (lit "FamilyName", .value .str), (lit "Weight", .value .str), (lit "FontBBox", .value (.flts 4)), (lit "Version", .version),
   (lit "Notice", .value .str), (lit "EncodingScheme", .value .str), (lit "MappingScheme", .value .int), (lit "EscChar", .value .int),
   (lit "CharacterSet", .value .str), (lit "Characters", .value .int), (lit "IsBaseFont", .value .bool), (lit "VVector", .value (.flts 2)),
   (lit "IsFixedV", .value .bool), (lit "CapHeight", .value .flt), (lit "XHeight", .value .flt), (lit "Ascender", .value .flt),
   (lit "Descender", .value .flt), (lit "StdHW", .value .flt), (lit "StdVW", .value .flt), (lit "StartDirection", .startdirection),
   (lit "UnderlinePosition", .dir .flt), (lit "UnderlineThickness", .dir .flt), (lit "ItalicAngle", .dir .flt), (lit "Charwidth", .dir (.flts 2)),
   (lit "IsFixedPitch", .dir .bool), (lit "StartCharMetrics", .startchars), (lit "StartKernData", .startkern),
   (lit "StartComposites", .startcomposites), (lit "EndFontMetrics", .endfont)]

def keyOf (s : List Char) : Key := (keys.lookup s).getD .other

/-- The value of a key; without a value (`args` is `None`) strings become `None` and everything else fails. -/
def value (n : Num K) (k : Kind) (args : List Char) : Option (Val K) :=
  match k with
  | .str => some (.str args)
  | .int => (n.int args).map .int
  | .flt => (parseFloat n args).map .flt
  | .flts m => (parseFloats n args m).map .flts
  | .bool => (parseBool args).map .bool

/-- `tuple >= (2, 0)` -/
def geTwo : List ℤ → Bool
  | [] => false
  | [_a] => decide (2 < _a)
  | a :: b :: _ => decide (2 < a) || (decide (a = 2) && decide (0 ≤ b))

/-- The key and the arguments of a line (`afmfile.py:1026-1030`): a line without arguments is its own key. -/
def keyArgs (line : List Char) : List Char × Option (List Char) :=
  match split1 line with
  | some (k, a) => (k, some a)
  | none => (line, none)

/-- A line of a direction (`afmfile.py:1125-1134`); there are two directions only (`IndexError`), and `args` must be there (`UnboundLocalError`). -/
def dirLine (n : Num K) (a : Afm K) (d : ℤ) (key : List Char) (k : Kind) (args : Option (List Char)) : Option (Afm K × Mode) :=
  match args with
  | none => none
  | some args =>
    match value n k args with
    | none => none
    | some v =>
      if d = 0 then some ({ a with dir0 := Function.update a.dir0 key (some v) }, .direction d)
      else if d = 1 then some ({ a with dir1 := Function.update a.dir1 key (some v) }, .direction d)
      else none

/-- `_parseint(args)` where `args` may be `None`. -/
def optInt (n : Num K) (args : Option (List Char)) : Option ℤ := args.bind n.int

/-- `_processline_main` (`afmfile.py:1025-1118`). `MetricsSets` reads the local variable `direction` before it is set: `UnboundLocalError`. -/
def mainLine (n : Num K) (a : Afm K) (line : List Char) : Option (Afm K × Mode) :=
  let key := (keyArgs line).1
  let args := (keyArgs line).2
  match keyOf key with
  | .comment => some (a, .main)
  | .metricssets => none
  | .value k =>
    match args with
    | none => if k = .str then some ({ a with header := Function.update a.header key none }, .main) else none
    | some s => (value n k s).map fun v => ({ a with header := Function.update a.header key (some v) }, .main)
  | .version =>
    match args with
    | none => some (a, .main)
    | some s => some ({ a with header := Function.update a.header key (some (.str s)) }, .main)
  | .startdirection =>
    match optInt n args with
    | none => none
    | some d => if 0 ≤ d ∧ d ≤ 2 then some (a, .direction d) else none
  | .dir k => dirLine n a 0 key k args
  | .startchars =>
    if a.chars.isSome then none
    else if geTwo a.version then (optInt n args).map fun e => ({ a with expected := some e, chars := some [] }, .chars 0)
    else some ({ a with expected := none, chars := some [] }, .chars 0)
  | .startkern => some (a, .kern)
  | .startcomposites =>
    if a.composites.isSome then none
    else
      match args with
      | some s => (n.int s).map fun e => ({ a with expected := some e, composites := some [] }, .composites 0)
      | none => some ({ a with expected := none, composites := some [] }, .composites 0)
  | .endfont => some (a, .finished)
  | .other => some (a, .main)

/-- `_processline_direction` (`afmfile.py:1120-1141`). -/
def directionLine (n : Num K) (a : Afm K) (d : ℤ) (line : List Char) : Option (Afm K × Mode) :=
  match keyOf (keyArgs line).1 with
  | .dir k => dirLine n a d (keyArgs line).1 k (keyArgs line).2
  | _ => if (keyArgs line).1 = lit "EndDirection" then some (a, .main) else mainLine n a line

/-! ## Character metrics -/

/-- One entry of a line of character metrics (`afmfile.py:1156-1189`). Without a code before, `char` is `None` (`AttributeError`). -/
def entry [Zero K] (n : Num K) (key args : List Char) (g : Option (Glyph K)) : Option (Glyph K) :=
  match g with
  | none =>
    if key = lit "C" then (n.int args).map fun c => { code := c }
    else if key = lit "CH" then (parseHex n args).map fun c => { code := c }
    else none
  | some g =>
    if key = lit "C" ∨ key = lit "CH" then none
    else if key = lit "WX" ∨ key = lit "W0X" then (parseFloat n args).map fun x => { g with w0 := some [x, 0] }
    else if key = lit "W1X" then (parseFloat n args).map fun x => { g with w1 := some [x, 0] }
    else if key = lit "WY" ∨ key = lit "W0Y" then (parseFloat n args).map fun x => { g with w0 := some [0, x] }
    else if key = lit "W1Y" then (parseFloat n args).map fun x => { g with w1 := some [0, x] }
    else if key = lit "W" ∨ key = lit "W0" then (parseFloats n args 2).map fun l => { g with w0 := some l }
    else if key = lit "W1" then (parseFloats n args 2).map fun l => { g with w1 := some l }
    else if key = lit "VV" then (parseFloats n args 2).map fun l => { g with vvector := some l }
    else if key = lit "N" then some { g with name := some args }
    else if key = lit "B" then (parseFloats n args 4).map fun l => { g with bbox := some l }
    else if key = lit "L" then (split1 args).map fun p => { g with ligatures := g.ligatures ++ [p] }
    else none

/-- The loop over the entries (`afmfile.py:1150-1190`). -/
def entries [Zero K] (n : Num K) : List (List Char) → Option (Glyph K) → Option (Option (Glyph K))
  | [], g => some g
  | s :: l, g =>
    if strip s = [] then entries n l g
    else
      match split1 (strip s) with
      | none => none
      | some (k, a) =>
        match entry n k a g with
        | none => none
        | some g' => entries n l (some g')

/-- A line of character metrics (`afmfile.py:1143-1198`). -/
def charLine [Zero K] (n : Num K) (a : Afm K) (i : ℕ) (line : List Char) : Option (Afm K × Mode) :=
  if rstrip line = lit "EndCharMetrics" then some (a, .main)
  else
    match entries n (line.splitOn ';') none with
    | some (some g) => some ({ a with
        chars := a.chars.map (· ++ [g])
        dict := match g.name with | some nm => Function.update a.dict nm (some g) | none => a.dict }, .chars (i + 1))
    | _ => none

/-! ## Kerning -/

/-- `_processline_kerndata` (`afmfile.py:1200-1231`). -/
def kernLine (n : Num K) (a : Afm K) (line : List Char) : Option (Afm K × Mode) :=
  let key := (keyArgs line).1
  let args := (keyArgs line).2
  if key = lit "Comment" then some (a, .kern)
  else if key = lit "StartTrackKern" then
    if a.tracks.isSome then none else (optInt n args).map fun c => ({ a with tracks := some (List.replicate c.toNat none) }, .track 0)
  else if key = lit "StartKernPairs" ∨ key = lit "StartKernPairs0" then
    if a.pairs0.isSome then none
    else
      match args with
      | some s => (n.int s).map fun e => ({ a with expected := some e, pairs0 := some [] }, .pairs false 0)
      | none => some ({ a with expected := none, pairs0 := some [] }, .pairs false 0)
  else if key = lit "StartKernPairs1" then
    if a.pairs1.isSome then none else (optInt n args).map fun e => ({ a with expected := some e, pairs1 := some [] }, .pairs true 0)
  else if key = lit "EndKernData" then some (a, .main)
  else none

/-- `_processline_trackkern` (`afmfile.py:1233-1251`). -/
def trackLine (n : Num K) (a : Afm K) (i : ℕ) (line : List Char) : Option (Afm K × Mode) :=
  let key := (keyArgs line).1
  let args := (keyArgs line).2
  if key = lit "Comment" then some (a, .track i)
  else if key = lit "TrackKern" then
    match a.tracks, args with
    | some l, some s =>
      if l.length ≤ i then none
      else
        match split1 s with
        | none => none
        | some (d, r) => (n.int d).bind fun d => (parseFloats n r 4).map fun v => ({ a with tracks := some (l.set i (some ⟨d, v⟩)) }, .track (i + 1))
    | _, _ => none
  else if key = lit "EndTrackKern" then
    match a.tracks with
    | some l => if i < l.length then none else some (a, .kern)
    | none => none
  else none

/-- The pair of a line (`afmfile.py:1267-1298`). -/
def pairOf [Zero K] (n : Num K) (key : List Char) (args : List Char) : Option (Pair K) :=
  match words args with
  | [a, b, x, y] =>
    if key = lit "KP" then (parseFloat n x).bind fun x => (parseFloat n y).map fun y => ⟨.name a, .name b, x, y⟩
    else if key = lit "KPH" then (parseHex n a).bind fun a => (parseHex n b).bind fun b => (parseFloat n x).bind fun x => (parseFloat n y).map fun y => ⟨.code a, .code b, x, y⟩
    else none
  | [a, b, v] =>
    if key = lit "KPX" then (parseFloat n v).map fun v => ⟨.name a, .name b, v, 0⟩
    else if key = lit "KPY" then (parseFloat n v).map fun v => ⟨.name a, .name b, 0, v⟩
    else none
  | _ => none

/-- `_processline_kernpairs` (`afmfile.py:1253-1307`). -/
def pairLine [Zero K] (n : Num K) (a : Afm K) (second : Bool) (i : ℕ) (line : List Char) : Option (Afm K × Mode) :=
  let key := (keyArgs line).1
  let args := (keyArgs line).2
  if key = lit "Comment" then some (a, .pairs second i)
  else if key = lit "EndKernPairs" then some (a, .kern)
  else
    (args.bind (pairOf n key)).map fun p =>
      (if second then { a with pairs1 := a.pairs1.map (· ++ [p]), pdict1 := Function.update a.pdict1 (p.name1, p.name2) (some p) }
       else { a with pairs0 := a.pairs0.map (· ++ [p]), pdict0 := Function.update a.pdict0 (p.name1, p.name2) (some p) }, .pairs second (i + 1))

/-! ## Composites -/

/-- The entries of a composite (`afmfile.py:1315-1337`): the number of parts announced, and the number of parts. -/
def compEntries (n : Num K) : List (List Char) → Option ℤ → ℕ → Option (Option ℤ × ℕ)
  | [], no, parts => some (no, parts)
  | s :: l, no, parts =>
    if strip s = [] then compEntries n l no parts
    else
      match split1 (strip s) with
      | none => none
      | some (k, a) =>
        if k = lit "CC" then
          match words a with
          | [_, c] => (n.int c).bind fun c => compEntries n l (some c) parts
          | _ => none
        else if k = lit "PCC" then
          match words a with
          | [_, x, y] => (parseFloat n x).bind fun _ => (parseFloat n y).bind fun _ => compEntries n l no (parts + 1)
          | _ => none
        else none

/-- `_processline_composites` (`afmfile.py:1309-1339`): what is read is checked but not kept. -/
def compLine (n : Num K) (a : Afm K) (i : ℕ) (line : List Char) : Option (Afm K × Mode) :=
  if line = lit "EndComposites" then (if a.expected.isSome ∧ a.expected ≠ some (i : ℤ) then none else some (a, .main))
  else
    match compEntries n (line.splitOn ';') none 0 with
    | some (some c, parts) => if (parts : ℤ) = c then some (a, .composites (i + 1)) else none
    | _ => none

/-! ## Files -/

/-- `_processline_start` (`afmfile.py:1018-1023`). -/
def startLine (n : Num K) (a : Afm K) (line : List Char) : Option (Afm K × Mode) :=
  match split1 line with
  | none => none
  | some (k, args) =>
    if k = lit "StartFontMetrics" then ((args.splitOn '.').mapM n.int).map fun v => ({ a with version := v }, .main) else none

/-- A stripped line in a state (`afmfile.py:1352-1374`). -/
def line [Zero K] (n : Num K) (s : Afm K × Mode) (l : List Char) : Option (Afm K × Mode) :=
  match s.2 with
  | .start => startLine n s.1 l
  | m =>
    if l = [] then some s
    else
      match m with
      | .main => mainLine n s.1 l
      | .direction d => directionLine n s.1 d l
      | .chars i => charLine n s.1 i l
      | .kern => kernLine n s.1 l
      | .track i => trackLine n s.1 i l
      | .pairs b i => pairLine n s.1 b i l
      | .composites i => compLine n s.1 i l
      | _ => none

/-- `for line in f` (`afmfile.py:1349-1351`); each line ends with its newline (except perhaps the last one), of which one character is removed. -/
def run [Zero K] (n : Num K) : List (List Char) → Afm K × Mode → Option (Afm K × Mode)
  | [], s => some s
  | l :: ls, s => (line n s (strip l.dropLast)).bind fun s => run n ls s

/-- `AFMfile.parse` (`afmfile.py:1341-1374`). -/
def parse [Zero K] (n : Num K) (ls : List (List Char)) : Option (Afm K) := (run n ls ({}, .start)).map (·.1)

end PyX.Afm
