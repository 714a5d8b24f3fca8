import Mathlib.Data.Int.Notation
import Mathlib.Data.List.Basic

set_option linter.unusedSectionVars false

/-!
# Encoding vectors: `PStokenizer`, `ENCfile` and `T1File._encoding`

Model of `pyx/reader.py:98-152` (the tokenizer on strings), `pyx/dvi/encfile.py:29-51` (the encoding
vectors of `.enc` files), `pyx/font/t1file.py:684-706` (the encoding inside a Type 1 font) and of
`pyx/font/t1file.py:1000-1003,1024-1035` (what `getstrippedfont` makes of it).

A tokenizer `(data, pos)` is represented by the data behind the position; positions are recovered as
the number of characters in front of it.  Running over the end of the data is the `IndexError` of
`self.data[self.pos]`.
-/

namespace PyX.Encoding

/-- The characters of a string. -/
def lit (s : String) : List Char := s.toList

/-- The exceptions which end the functions of this file. -/
inductive Err
  | index | value | name | assertion
  deriving DecidableEq, Repr

/-- `tokenseps` (`pyx/reader.py:102`). -/
def isSep (c : Char) : Bool := c == ' ' || c == '\t' || c == '\r' || c == '\n'

/-- `newlinechars` (`pyx/reader.py:103`). -/
def isNl (c : Char) : Bool := c == '\r' || c == '\n'

/-- `tokenstarts` (`pyx/reader.py:102`). -/
def isStart (c : Char) : Bool := (lit "()<>[]{}/%").contains c

/-- The loops over separators and comments in front of a token (`pyx/reader.py:135-142`); the flag is
set inside a comment, where everything up to the next newline character is skipped. -/
def lead : Bool → List Char → List Char
  | _, [] => []
  | true, c :: cs => if isNl c then lead false cs else lead true cs
  | false, c :: cs => if isSep c then lead false cs else if c = '%' then lead true cs else c :: cs

/-- The loop over the characters of a token after the first one, and the consumption of one separator
(`pyx/reader.py:144-151`). -/
def tokRest : List Char → Except Err (List Char × List Char)
  | [] => .error .index
  | c :: cs =>
    if isSep c then .ok ([], cs)
    else if isStart c then .ok ([], c :: cs)
    else match tokRest cs with
      | .error e => .error e
      | .ok r => .ok (c :: r.1, r.2)

/-- `PStokenizer.gettoken` (`pyx/reader.py:130-152`): the token and the data behind it. -/
def gettoken (s : List Char) : Except Err (List Char × List Char) :=
  match lead false s with
  | [] => .error .index
  | c :: cs => match tokRest cs with
    | .error e => .error e
    | .ok r => .ok (c :: r.1, r.2)

/-- The value of a string of decimal digits. -/
def digits (s : List Char) : Option ℕ :=
  if s ≠ [] ∧ s.all Char.isDigit = true then some (Nat.ofDigitChars 10 s 0) else none

/-- `int(token)` as called by `getint` (`pyx/reader.py:154-156`).  Simplified: the underscores and the
non-ASCII digits Python also allows are not. -/
def int : List Char → Option ℤ
  | '-' :: s => (digits s).map fun n : ℕ => -(n : ℤ)
  | '+' :: s => (digits s).map fun n : ℕ => (n : ℤ)
  | s => (digits s).map fun n : ℕ => (n : ℤ)

/-- `self.data.index(startstring) + len(startstring)` (`pyx/reader.py:117`): the data behind the first
occurrence; a missing one is a `ValueError`. -/
def after (w : List Char) : List Char → Except Err (List Char)
  | [] => if w = [] then .ok [] else .error .value
  | c :: cs => if w <+: c :: cs then .ok ((c :: cs).drop w.length) else after w cs

/-- The end of `PStokenizer.__init__`, with `eattokensep` (`pyx/reader.py:124-128`). -/
def eatSep : List Char → Except Err (List Char)
  | [] => .error .index
  | c :: cs => if isStart c then .ok (c :: cs) else if isSep c then .ok cs else .error .value

/-- `PStokenizer(data, startstring)` (`pyx/reader.py:101-128`). -/
def tokenizer (w data : List Char) : Except Err (List Char) :=
  match after w data with
  | .error e => .error e
  | .ok s => eatSep s

/-! ### `.enc` files -/

/-- The entries of the vector, `for i in range(256)` (`pyx/dvi/encfile.py:40-46`).  The class
`ENCfileError` raised there does not exist (it is called `ENFfileError`, and `filename` is not defined
either), so that what is raised is a `NameError`. -/
def entries : ℕ → List Char → Except Err (List (List Char) × List Char)
  | 0, s => .ok ([], s)
  | n + 1, s => match gettoken s with
    | .error e => .error e
    | .ok (t, s') =>
      if t = lit "]" then .error .name
      else if t.head? ≠ some '/' then .error .name
      else match entries n s' with
        | .error e => .error e
        | .ok (v, r) => .ok (t.tail :: v, r)

/-- A token which has to be the given one (`pyx/dvi/encfile.py:36-38,47-51`). -/
def expect (w s : List Char) : Except Err (List Char) :=
  match gettoken s with
  | .error e => .error e
  | .ok (t, s') => if t ≠ w then .error .name else .ok s'

/-- `ENCfile.__init__` (`pyx/dvi/encfile.py:31-51`): the name and the vector. -/
def encfile (data : List Char) : Except Err (List Char × List (List Char)) := do
  let s0 ← tokenizer [] data
  let (name, s1) ← gettoken s0
  let s2 ← expect (lit "[") s1
  let (v, s3) ← entries 256 s2
  let s4 ← expect (lit "]") s3
  let _ ← expect (lit "def") s4
  return (name, v)

/-! ### Type 1 fonts -/

/-- The search for the first `dup` (`pyx/font/t1file.py:693-696`): the data from `encodingstart` on, and
behind the `dup`.  Every token takes at least one character, so that the length of the data bounds the
number of rounds. -/
def findDup : ℕ → List Char → Except Err (List Char × List Char)
  | 0, _ => .error .index
  | n + 1, s => match gettoken s with
    | .error e => .error e
    | .ok (t, s') => if t = lit "dup" then .ok (s, s') else findDup n s'

/-- `self.encoding[i] = glyph[1:]` for `0 <= i < 256` (`pyx/font/t1file.py:700-701`). -/
def assign (v : List (Option (List Char))) (i : ℤ) (glyph : List Char) : List (Option (List Char)) :=
  if 0 ≤ i ∧ i < 256 then v.set i.toNat (some glyph.tail) else v

/-- The loop over the entries (`pyx/font/t1file.py:697-706`): the vector and the data from
`encodingend` on. -/
def puts : ℕ → List (Option (List Char)) → List Char →
    Except Err (List (Option (List Char)) × List Char)
  | 0, _, _ => .error .index
  | n + 1, v, s => match gettoken s with
    | .error e => .error e
    | .ok (ti, s1) => match int ti with
      | none => .error .value
      | some i => match gettoken s1 with
        | .error e => .error e
        | .ok (glyph, s2) => match gettoken s2 with
          | .error e => .error e
          | .ok (tp, s3) =>
            if tp ≠ lit "put" then .error .assertion
            else match gettoken s3 with
              | .error e => .error e
              | .ok (t, s4) =>
                if t = lit "readonly" ∨ t = lit "def" then .ok (assign v i glyph, s3)
                else if t ≠ lit "dup" then .error .assertion
                else puts n (assign v i glyph) s4

/-- What `_encoding` stores: the standard encoding, or a vector of its own with the number of
characters up to `encodingstart`, and the data from `encodingend` on. -/
inductive Enc
  | standard
  | own (vector : List (Option (List Char))) (start : ℕ) (rest : List Char)
  deriving DecidableEq, Repr

/-- `T1File._encoding` (`pyx/font/t1file.py:684-706`). -/
def encoding (data : List Char) : Except Err Enc := do
  let s0 ← tokenizer (lit "/Encoding") data
  let (t1, s1) ← gettoken s0
  let (t2, s2) ← gettoken s1
  if t1 = lit "StandardEncoding" ∧ t2 = lit "def" then return .standard
  let (st, s3) ← findDup data.length s2
  let (v, r) ← puts data.length (List.replicate 256 none) s3
  return .own v (data.length - st.length) r

/-! ### `getstrippedfont` -/

/-- `"dup %i /%s put\n" % (char, glyph)` (`pyx/font/t1file.py:1032`). -/
def dupLine (i : ℕ) (g : List Char) : List Char :=
  lit "dup " ++ Nat.toDigits 10 i ++ lit " /" ++ g ++ lit " put\n"

/-- The entries for the wanted glyphs (`pyx/font/t1file.py:1029-1032`), from the given code on. -/
def dupLines (wanted : List Char → Bool) : ℕ → List (Option (List Char)) → List Char
  | _, [] => []
  | i, none :: v => dupLines wanted (i + 1) v
  | i, some g :: v => if wanted g then dupLine i g ++ dupLines wanted (i + 1) v else dupLines wanted (i + 1) v

/-- The clear text part of the stripped font before whitespace is unified
(`pyx/font/t1file.py:1025-1033`). -/
def stripEncoding (wanted : List Char → Bool) (data : List Char) : Enc → List Char
  | .standard => data
  | .own v start rest => data.take start ++ '\n' :: dupLines wanted 0 v ++ rest

/-- `\s` of regular expressions.  Simplified: the ASCII whitespace characters. -/
def isWs (c : Char) : Bool := isSep c || c == '\x0b' || c == '\x0c'

/-- What a run of whitespace becomes: a newline, if there is one in it. -/
def flush (run : List Char) : List Char := if run.any isNl then ['\n'] else run

/-- `newlinepattern.subn("\n", data)` with the pattern `\s*[\r\n]\s*` (`pyx/font/t1file.py:1000,1034`); `run` is
the whitespace directly in front of the rest. -/
def unify : List Char → List Char → List Char
  | run, [] => flush run
  | run, c :: cs => if isWs c then unify (run ++ [c]) cs else flush run ++ c :: unify [] cs

/-- One or more characters of a class (`x+`): what is behind them. -/
def some1 (f : Char → Bool) : List Char → Option (List Char)
  | [] => none
  | c :: cs => if f c then some (cs.dropWhile f) else none

/-- A literal at the beginning: what is behind it. -/
def pre (w s : List Char) : Option (List Char) := if w <+: s then some (s.drop w.length) else none

/-- `/UniqueID\s+\d+\s+def\s+` at the beginning (`pyx/font/t1file.py:1001`). -/
def uid0 (s : List Char) : Option (List Char) :=
  (((((pre (lit "/UniqueID") s).bind (some1 isWs)).bind (some1 Char.isDigit)).bind (some1 isWs)).bind
    (pre (lit "def"))).bind (some1 isWs)

/-- `%?/UniqueID\s+\d+\s+def\s+` at the beginning. -/
def uidMatch : List Char → Option (List Char)
  | '%' :: s => (uid0 s)
  | s => uid0 s

/-- `uniqueidstrpattern.subn("", data)` (`pyx/font/t1file.py:1035`); a match takes at least one character,
so that the length of the data bounds the number of rounds. -/
def dropUid : ℕ → List Char → List Char
  | 0, s => s
  | _ + 1, [] => []
  | n + 1, c :: cs => match uidMatch (c :: cs) with
    | some r => dropUid n r
    | none => c :: dropUid n cs

end PyX.Encoding
