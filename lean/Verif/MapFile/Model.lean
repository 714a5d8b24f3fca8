import Mathlib.Data.List.Basic

/-!
# Font map files (`pyx/dvi/mapfile.py`)

Strings are lists of characters.  The predicate `sp` tells the white space characters (`\s` of the regular expression and `str.split`), the
function `parseFloat` is `float()` with `none` for `ValueError`.  Files are given by their lines; opening them (`config.open`) is in
`Verif.Config`.
-/

set_option linter.unusedSectionVars false

namespace PyX.MapFile

abbrev Str := List Char

/-- The exceptions of `MAPline.__init__` (`mapfile.py:30-37`, and `ValueError` of `float`). -/
inductive Err where
  | unsupportedFormat
  | unsupportedPS
  | valueError
deriving DecidableEq, Repr

/-- The attributes of `MAPline` (`mapfile.py:47-54`). -/
structure MAPline (F : Type) where
  texname : Option Str := none
  basepsname : Option Str := none
  fontfilename : Option Str := none
  encodingfilename : Option Str := none
  reencodefont : Option Str := none
  extendfont : Option Str := none
  slant : Option F := none
deriving DecidableEq, Repr

variable {F : Type} (sp : Char → Bool) (parseFloat : Str → Option F)

/-- The part `(.*?)("\s+|"$|$)` of the regular expression (`mapfile.py:43`) after the opening quote: the text up to the first quote that is
followed by white space or the end, and the string after this quote and the white space. -/
def scanQuoted : Str → Str × Str
  | [] => ([], [])
  | c :: rest =>
    if c = '"' ∧ (rest.head?.map sp).getD true then ([], rest.dropWhile sp)
    else (c :: (scanQuoted rest).1, (scanQuoted rest).2)

/-- The part `(.*?)(\s+|$)` of the regular expression. -/
def scanWord (s : Str) : Str × Str := (s.takeWhile fun c => !sp c, (s.dropWhile fun c => !sp c).dropWhile sp)

/-- The loop `mapfile.py:60-70`; every step consumes a character. -/
def tokensF : ℕ → Str → List Str
  | 0, _ => []
  | _, [] => []
  | n + 1, c :: rest =>
    if c = '"' then ('"' :: (scanQuoted sp rest).1 ++ ['"']) :: tokensF n (scanQuoted sp rest).2
    else (scanWord sp (c :: rest)).1 :: tokensF n (scanWord sp (c :: rest)).2

/-- The tokens of a line. -/
def tokens (s : Str) : List Str := tokensF sp s.length s

/-- `str.split()`. -/
def splitF : ℕ → Str → List Str
  | 0, _ => []
  | n + 1, s =>
    let s' := s.dropWhile sp
    if s' = [] then [] else (s'.takeWhile fun c => !sp c) :: splitF n (s'.dropWhile fun c => !sp c)

/-- `str.split()`. -/
def split (s : Str) : List Str := splitF sp (s.length + 1) s

/-- The loop over PostScript fragments (`mapfile.py:101-114`). -/
def psLoop : List Str → MAPline F → Except Err (MAPline F)
  | [], m => .ok m
  | [_], _ => .error .unsupportedPS
  | arg :: cmd :: rest, m =>
    if cmd = "ReEncodeFont".toList then psLoop rest { m with reencodefont := some arg }
    else if cmd = "ExtendFont".toList then psLoop rest { m with extendfont := some arg }
    else if cmd = "SlantFont".toList then
      match parseFloat arg with
      | none => .error .valueError
      | some x => psLoop rest { m with slant := some x }
    else .error .unsupportedPS

/-- `str.endswith`. -/
def endsWith (s : Str) (suffix : String) : Bool := suffix.toList.isSuffixOf s

/-- `str.startswith`. -/
def startsWith (s : Str) (pre : String) : Bool := pre.toList.isPrefixOf s

/-- The body of the loop over the tokens (`mapfile.py:73-119`); the state is the line and `next_token_is_encfile`. -/
def step (st : MAPline F × Bool) (token : Str) : Except Err (MAPline F × Bool) :=
  let m := st.1
  if st.2 then .ok ({ m with encodingfilename := some token }, false)
  else if startsWith token "<" then
    if token = ['<'] then .ok (m, true)
    else if startsWith token "<<" then .ok ({ m with fontfilename := some (token.drop 2) }, false)
    else if startsWith token "<[" then .ok ({ m with encodingfilename := some (token.drop 2) }, false)
    else if endsWith token ".pfa" || endsWith token ".pfb" then .ok ({ m with fontfilename := some (token.drop 1) }, false)
    else if endsWith token ".enc" then .ok ({ m with encodingfilename := some (token.drop 1) }, false)
    else if endsWith token ".ttf" then .error .unsupportedFormat
    else if endsWith token ".t42" then .error .unsupportedFormat
    else .ok ({ m with fontfilename := some (token.drop 1) }, false)
  else if startsWith token "\"" then
    match psLoop parseFloat (split sp ((token.drop 1).dropLast)) m with
    | .error e => .error e
    | .ok m => .ok (m, false)
  else if m.texname = none then .ok ({ m with texname := some token }, false)
  else .ok ({ m with basepsname := some token }, false)

/-- The loop over the tokens. -/
def loop : List Str → MAPline F × Bool → Except Err (MAPline F × Bool)
  | [], st => .ok st
  | t :: ts, st =>
    match step sp parseFloat st t with
    | .error e => .error e
    | .ok st => loop ts st

/-- `mapfile.py:120-121`. -/
def finish (m : MAPline F) : MAPline F := if m.basepsname = none then { m with basepsname := m.texname } else m

/-- `MAPline.__init__` (`mapfile.py:45-121`). -/
def parse (s : Str) : Except Err (MAPline F) :=
  match loop sp parseFloat (tokens sp s) ({}, false) with
  | .error e => .error e
  | .ok st => .ok (finish st.1)

/-- `str.rstrip()`. -/
def rstrip (s : Str) : Str := (s.reverse.dropWhile sp).reverse

/-- The test for lines that are not read (`mapfile.py:178`). -/
def skipped (s : Str) : Bool :=
  match s with
  | [] => true
  | c :: _ => c ∈ [' ', '%', '*', ';', '#']

/-- The font map: a dictionary of lines. -/
abbrev FontMap (F : Type) := Option Str → Option (MAPline F)

/-- `fontmap[name] = m`. -/
def assign (fm : FontMap F) (n : Option Str) (m : MAPline F) : FontMap F := fun k => if k = n then some m else fm k

/-- The loop over the lines of a file (`mapfile.py:175-186`). -/
def readLines : List Str → FontMap F → Except Err (FontMap F)
  | [], fm => .ok fm
  | l :: ls, fm =>
    let line := rstrip sp l
    if skipped line then readLines ls fm
    else
      match parse sp parseFloat line with
      | .error .unsupportedPS => readLines ls fm
      | .error .unsupportedFormat => readLines ls fm
      | .error .valueError => .error .valueError
      | .ok m => readLines ls (assign fm m.texname m)

/-- The loop over the files (`mapfile.py:172`). -/
def readFiles : List (List Str) → FontMap F → Except Err (FontMap F)
  | [], fm => .ok fm
  | f :: fs, fm =>
    match readLines sp parseFloat f fm with
    | .error e => .error e
    | .ok fm => readFiles fs fm

/-- `readfontmap` (`mapfile.py:169-187`). -/
def readfontmap (files : List (List Str)) : Except Err (FontMap F) := readFiles sp parseFloat files fun _ => none

end PyX.MapFile
