import Verif.T1.Strip
import Mathlib.Data.Nat.Digits.Defs

/-!
# Model of `pyx/reader.py` (`PSbytes_tokenizer`) and of reading and writing the private part of a Type 1 font

`T1File._data2decode` and `T1File.getdata2` on the level of bytes. A tokenizer is represented by the bytes
behind its position; running off the end is an `IndexError`, a failed `assert` an `AssertionError`; all
exceptions are `none`.

`PStokenizer.gettoken` skips comments, but in the bytes version the comparison
`self.data[self.pos] == self.commentchar` is between an `int` and a `bytes` object and never true
(`pyx/reader.py:138`), so comments are not skipped and `%` starts a token.

Simplified: `int(token)` accepts digits only (Python also takes signs and underscores).
-/

set_option linter.unusedSectionVars false

namespace PyX.T1

/-- ASCII bytes of a literal. -/
def asc (s : String) : List Nat := s.toList.map Char.toNat

/-- `tokenseps` (`pyx/reader.py:169`). -/
def isSep (c : Nat) : Bool := c = 32 || c = 9 || c = 13 || c = 10
/-- `tokenstarts`: `()<>[]{}/%` (`pyx/reader.py:169`). -/
def isStart (c : Nat) : Bool :=
  c = 40 || c = 41 || c = 60 || c = 62 || c = 91 || c = 93 || c = 123 || c = 125 || c = 47 || c = 37

/-- `self.data.index(startstring) + len(startstring)` (`pyx/reader.py:117`): the data up to and including
the first occurrence, and the rest. -/
def findAfter (w : List Nat) : List Nat → Option (List Nat × List Nat)
  | [] => if w = [] then some ([], []) else none
  | x :: xs =>
    if w <+: x :: xs then some (w, (x :: xs).drop w.length)
    else (findAfter w xs).map fun r => (x :: r.1, r.2)

/-- The end of `PStokenizer.__init__` with `eattokensep` (`pyx/reader.py:124-128`): the separator eaten, and
the rest. -/
def eatSep : List Nat → Option (List Nat × List Nat)
  | [] => none
  | x :: xs => if isStart x then some ([], x :: xs) else if isSep x then some ([x], xs) else none

/-- `PSbytes_tokenizer(data, startstring)` (`pyx/reader.py:101-128,168-173`): the data before the position and
behind it. -/
def tokenizer (w data : List Nat) : Option (List Nat × List Nat) :=
  (findAfter w data).bind fun r => (eatSep r.2).map fun e => (r.1 ++ e.1, e.2)

/-- The first loop of `gettoken` (`pyx/reader.py:135-136`). -/
def skipSeps : List Nat → List Nat
  | [] => []
  | x :: xs => if isSep x then skipSeps xs else x :: xs

/-- The loop over the characters of a token after the first one, and the consumption of one separator
(`pyx/reader.py:144-151`). -/
def tokRest : List Nat → Option (List Nat × List Nat)
  | [] => none
  | x :: xs =>
    if isSep x then some ([], xs)
    else if isStart x then some ([], x :: xs)
    else (tokRest xs).map fun r => (x :: r.1, r.2)

/-- `PSbytes_tokenizer.gettoken` (`pyx/reader.py:130-152`). -/
def gettoken (s : List Nat) : Option (List Nat × List Nat) :=
  match skipSeps s with
  | [] => none
  | x :: xs => (tokRest xs).map fun r => (x :: r.1, r.2)

/-- `"%d" % n` for natural numbers. -/
def dec (n : Nat) : List Nat := if n = 0 then [48] else (Nat.digits 10 n).reverse.map (· + 48)

/-- `int(token)` for a string of digits. -/
def parseInt (t : List Nat) : Option Nat :=
  if t ≠ [] ∧ t.all (fun c => decide (48 ≤ c ∧ c < 58)) = true then
    some (Nat.ofDigits 10 (t.reverse.map (· - 48)))
  else none

/-- `getint` (`pyx/reader.py:154-156`). -/
def getint (s : List Nat) : Option (Nat × List Nat) :=
  (gettoken s).bind fun r => (parseInt r.1).map fun n => (n, r.2)

/-- `token = c.gettoken(); assert token == t`. -/
def expect (t s : List Nat) : Option (List Nat) :=
  (gettoken s).bind fun r => if r.1 = t then some r.2 else none

/-- A token that is remembered the first time and has to be the same afterwards
(`pyx/font/t1file.py:741-744,749-752,780-783,786-789`). -/
def same (known : Option (List Nat)) (t : List Nat) : Option (Option (List Nat)) :=
  match known with
  | none => some (some t)
  | some k => if t = k then some (some k) else none

/-- The token after a subroutine, with `noaccess put` joined (`pyx/font/t1file.py:746-748`). -/
def npToken (s : List Nat) : Option (List Nat × List Nat) :=
  (gettoken s).bind fun r =>
    if r.1 = asc "noaccess" then (gettoken r.2).map fun q => (r.1 ++ 32 :: q.1, q.2) else some r

/-- State of the loops: the two remembered tokens and the remaining data. -/
structure Cur where
  rd : Option (List Nat)
  np : Option (List Nat)
  rest : List Nat
deriving DecidableEq

/-- One pass of the loop over the subroutines (`pyx/font/t1file.py:738-752`). -/
def readSubr (i : Nat) (c : Cur) : Option (List Nat × Cur) :=
  (expect (asc "dup") c.rest).bind fun s =>
  (getint s).bind fun j => if j.1 = i then
    (getint j.2).bind fun size =>
    (gettoken size.2).bind fun t => (same c.rd t.1).bind fun rd =>
    (npToken (t.2.drop size.1)).bind fun q => (same c.np q.1).map fun np =>
      (t.2.take size.1, ⟨rd, np, q.2⟩)
  else none

/-- The loop `for i in range(arraycount)` (`pyx/font/t1file.py:737-752`); `k` passes starting with `i`. -/
def readSubrs : (k i : Nat) → Cur → Option (List (List Nat) × Cur)
  | 0, _, c => some ([], c)
  | k + 1, i, c =>
    (readSubr i c).bind fun r => (readSubrs k (i + 1) r.2).map fun q => (r.1 :: q.1, q.2)

/-- Reading the `Subrs` array (`pyx/font/t1file.py:734-753`). -/
def readSubrArray (s : List Nat) : Option (List (List Nat) × Cur) :=
  (getint s).bind fun n => (expect (asc "array") n.2).bind fun s => readSubrs n.1 0 ⟨none, none, s⟩

/-- One pass of the loop over the charstrings for the token `chartoken` (`pyx/font/t1file.py:778-790`): the
name without its slash and the code. -/
def readChar (chartoken : List Nat) (c : Cur) : Option ((List Nat × List Nat) × Cur) :=
  match chartoken with
  | 47 :: name =>
    (getint c.rest).bind fun size =>
    (gettoken size.2).bind fun t => (same c.rd t.1).bind fun rd =>
    (gettoken (t.2.drop size.1)).bind fun q => (same c.np q.1).map fun np =>
      ((name, t.2.take size.1), ⟨rd, np, q.2⟩)
  | _ => none

/-- The loop `while True` (`pyx/font/t1file.py:774-790`) up to the token `end`; names have to be ASCII
(`decode("ascii")`). `fuel` bounds the number of passes. -/
def readChars : (fuel : Nat) → Cur → Option (List (List Nat × List Nat) × Cur)
  | 0, _ => none
  | fuel + 1, c =>
    (gettoken c.rest).bind fun r =>
      if r.1.all (· < 128) = true then
        if r.1 = asc "end" then some ([], { c with rest := r.2 })
        else (readChar r.1 { c with rest := r.2 }).bind fun g =>
          (readChars fuel g.2).map fun q => (g.1 :: q.1, q.2)
      else none

/-- Reading the `CharStrings` dictionary (`pyx/font/t1file.py:769-791`). Each pass consumes data, so that the
length of the data is enough fuel. -/
def readCharDict (s : List Nat) : Option (List (List Nat × List Nat) × Cur) :=
  (getint s).bind fun n => (expect (asc "dict") n.2).bind fun s => (expect (asc "dup") s).bind fun s =>
  (expect (asc "begin") s).bind fun s => readChars (s.length + 1) ⟨none, none, s⟩

/-- What `_data2decode` keeps: the arrays (the glyphs in file order, `self.glyphs[name] = code` executed for
each entry), the tokens and the data around the two arrays (`pyx/font/t1file.py:731-791`). -/
structure Data2 where
  subrs : List (List Nat)
  subrrd : Option (List Nat)
  subrnp : Option (List Nat)
  chars : List (List Nat × List Nat)
  glyphrd : Option (List Nat)
  glyphnd : Option (List Nat)
  /-- `data2[:subrsstart]`, `data2[subrsend:]`, `data2[:charstringsstart]`, `data2[charstringsend:]` -/
  subrsPre : List Nat
  subrsPost : List Nat
  charsPre : List Nat
  charsPost : List Nat
deriving DecidableEq

/-- `T1File._data2decode` on the decrypted data (`pyx/font/t1file.py:731-792`), including the last assertion. -/
def data2decode (data : List Nat) : Option Data2 :=
  (tokenizer (asc "/Subrs") data).bind fun a =>
  (readSubrArray a.2).bind fun S =>
  (tokenizer (asc "/CharStrings") data).bind fun b =>
  (readCharDict b.2).bind fun C =>
  if S.1 = [] ∨ S.2.rd = C.2.rd then
    some ⟨S.1, S.2.rd, S.2.np, C.1, C.2.rd, C.2.np, a.1, S.2.rest, b.1, C.2.rest⟩
  else none

/-- One entry written by `addsubrs` (`pyx/font/t1file.py:959-965`). -/
def subrText (rd np : List Nat) (i : Nat) (code : List Nat) : List Nat :=
  asc "dup " ++ (dec i ++ (32 :: (dec code.length ++ (32 :: (rd ++ (32 :: (code ++ (32 :: (np ++ [10])))))))))

/-- The loop of `addsubrs` (`pyx/font/t1file.py:954-965`). -/
def subrTexts (rd np : List Nat) : Nat → List (List Nat) → List Nat
  | _, [] => []
  | i, code :: codes => subrText rd np i code ++ subrTexts rd np (i + 1) codes

/-- `addsubrs` for the array `codes` (`pyx/font/t1file.py:953-965`). A missing token would be an
`AttributeError`; it is only used if there are subroutines. -/
def addsubrs (D : Data2) (codes : List (List Nat)) : List Nat :=
  dec codes.length ++ (asc " array\n" ++ subrTexts (D.subrrd.getD []) (D.subrnp.getD []) 0 codes)

/-- One entry written by `addcharstrings` (`pyx/font/t1file.py:971-977`). -/
def charText (rd nd : List Nat) (g : List Nat × List Nat) : List Nat :=
  47 :: (g.1 ++ (32 :: (dec g.2.length ++ (32 :: (rd ++ (32 :: (g.2 ++ (32 :: (nd ++ [10])))))))))

/-- `addcharstrings` for the entries `chars`, with the number `count` (`pyx/font/t1file.py:968-978`). -/
def addcharstrings (D : Data2) (count : Nat) (chars : List (List Nat × List Nat)) : List Nat :=
  dec count ++ (asc " dict dup begin\n" ++
    ((chars.map (charText (D.glyphrd.getD []) (D.glyphnd.getD []))).flatten ++ asc "end\n"))

/-- `T1File.getdata2` (`pyx/font/t1file.py:980-992`); `data` is `self._data2`. -/
def getdata2 (data : List Nat) (D : Data2) (codes : List (List Nat)) (count : Nat)
    (chars : List (List Nat × List Nat)) : List Nat :=
  if D.subrsPre.length < D.charsPre.length then
    D.subrsPre ++ (addsubrs D codes ++
      ((data.take D.charsPre.length).drop (data.length - D.subrsPost.length) ++
        (addcharstrings D count chars ++ D.charsPost)))
  else
    D.charsPre ++ (addcharstrings D count chars ++
      ((data.take D.subrsPre.length).drop (data.length - D.charsPost.length) ++
        (addsubrs D codes ++ D.subrsPost)))

end PyX.T1
