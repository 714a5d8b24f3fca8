/-!
# Model of the Type 1 font containers (`pyx/font/t1file.py:1090-1129,1184-1224`)

Bytes and characters are natural numbers. Byte strings and character strings are both lists.
`none` stands for an exception (`FontFormatError`, `ValueError`, `UnicodeEncodeError`, `TypeError`).
-/

namespace PyX.Pfb

/-- `consumer.__call__` (`pyx/font/t1file.py:1198-1201`): fewer bytes at the end of the data. -/
def consume (n : Nat) (s : List Nat) : List Nat × List Nat := (s.take n, s.drop n)

/-- `pfblength` of the reader (`pyx/font/t1file.py:1187-1193`). -/
def pfblength : List Nat → Option Nat
  | [a, b, c, d] => some (a + b*256 + c*256*256 + d*256*256*256)
  | _ => none

/-- `bytes.decode("ascii", errors="surrogateescape")`: bytes above 127 become U+DC80..U+DCFF. -/
def sdecode (bs : List Nat) : List Nat := bs.map fun b => if b < 128 then b else 0xDC00 + b

/-- `str.encode("ascii", errors="surrogateescape")`, as used by `writer.write` (`pyx/writer.py:30-31`). -/
def sencode1 (c : Nat) : Option Nat :=
  if c < 128 then some c else if 0xDC80 ≤ c ∧ c ≤ 0xDCFF then some (c - 0xDC00) else none

def sencode (s : List Nat) : Option (List Nat) := s.mapM sencode1

/-- `consume(pfblength(consume(4)))`: one length-prefixed block. -/
def block (s : List Nat) : Option (List Nat × List Nat) :=
  let (l4, s) := consume 4 s
  match pfblength l4 with
  | none => none
  | some n => some (consume n s)

theorem block_length {s d r : List Nat} (h : block s = some (d, r)) : r.length < s.length := by
  simp only [block, consume] at h
  split at h
  · cases h
  · rename_i n hn
    have h4 : 4 ≤ s.length := by
      by_cases h4 : 4 ≤ s.length
      · exact h4
      · match s, hn with
        | [], hn => simp [pfblength] at hn
        | [_], hn => simp [pfblength] at hn
        | [_, _], hn => simp [pfblength] at hn
        | [_, _, _], hn => simp [pfblength] at hn
        | _ :: _ :: _ :: _ :: _, _ => simp at h4
    simp only [Option.some.injEq, Prod.mk.injEq] at h
    rw [← h.2]; simp; omega

/-- The `while mark == b"\200\2"` loop (`pyx/font/t1file.py:1212-1214`); entered with the mark already read. -/
def binLoop (acc s : List Nat) : Option (List Nat × List Nat × List Nat) :=
  match _h : block s with
  | none => none
  | some (d, r) =>
    if (consume 2 r).1 = [128, 2] then binLoop (acc ++ d) (consume 2 r).2
    else some (acc ++ d, (consume 2 r).1, (consume 2 r).2)
termination_by s.length
decreasing_by
  have := block_length _h
  simp [consume]; omega

/-- `from_PFB_bytes` (`pyx/font/t1file.py:1184-1224`): the three arguments handed to the constructor. -/
def fromPFB (s : List Nat) : Option (List Nat × List Nat × List Nat) :=
  let (mark, s) := consume 2 s
  if mark ≠ [128, 1] then none else
  match block s with
  | none => none
  | some (data1, s) =>
    let (mark, s) := consume 2 s
    if mark ≠ [128, 2] then none else
    match binLoop [] s with
    | none => none
    | some (data2, mark, s) =>
      if mark ≠ [128, 1] then none else
      match block s with
      | none => none
      | some (data3, s) =>
        let (mark, s) := consume 2 s
        if mark ≠ [128, 3] then none
        else if (consume 1 s).1 ≠ [] then none
        else some (sdecode data1, data2, sdecode data3)

/-- What is passed to `file.write`: a `str` or `bytes`. -/
inductive Wr
  | str (s : List Nat)
  | byt (b : List Nat)

/-- `pfblength` of `outputPFB` (`pyx/font/t1file.py:1114-1119`): a `str` of four characters (`chr` accepts
every `x4` up to `0x10ffff`). -/
def pfblengthStr (n : Nat) : List Nat :=
  let x1 := n % 256
  let l := n / 256
  let x2 := l % 256
  let l := l / 256
  let x3 := l % 256
  let x4 := l / 256
  [x1, x2, x3, x4]

/-- The sequence of `file.write` calls of `outputPFB` (`pyx/font/t1file.py:1111-1129`). `data1`, `data3` are
character strings, `data2eexec` is a byte string. -/
def outputPFB (data1 data2eexec data3 : List Nat) : List Wr :=
  [.str [128, 1], .str (pfblengthStr data1.length), .str data1,
   .str [128, 2], .str (pfblengthStr data2eexec.length), .byt data2eexec,
   .str [128, 1], .str (pfblengthStr data3.length), .str data3, .str [128, 3]]

/-- `writer.write` (`pyx/writer.py:30-31`): bytes have no `encode` method. -/
def writerWrite : Wr → Option (List Nat)
  | .str s => sencode s
  | .byt _ => none

/-- A plain binary file accepts only bytes. -/
def binaryWrite : Wr → Option (List Nat)
  | .str _ => none
  | .byt b => some b

/-- Running the calls on a file, collecting what is written. -/
def runWrites (w : Wr → Option (List Nat)) (l : List Wr) : Option (List Nat) :=
  (l.mapM w).map List.flatten

/-- `binascii.b2a_hex`. -/
def hexDigit (n : Nat) : Nat := if n < 10 then 48 + n else 87 + n

def b2aHex : List Nat → List Nat
  | [] => []
  | b :: bs => hexDigit (b / 16) :: hexDigit (b % 16) :: b2aHex bs

/-- The `for` loop of `outputPFA` (`pyx/font/t1file.py:1105-1108`); `n` is the number of lines still to
write. -/
def hexLines : (n : Nat) → List Nat → List Nat
  | 0, _ => []
  | n + 1, s => s.take 64 ++ [10] ++ hexLines n (s.drop 64)

/-- Number of lines: `(len(data2eexechex)-1)//linelength + 1` with Python's floor division. -/
def nLines (len : Nat) : Nat := (((len : Int) - 1) / 64 + 1).toNat

/-- Bytes of the encrypted part as written by `outputPFA`. -/
def pfaBody (data2eexec : List Nat) : List Nat :=
  let h := b2aHex data2eexec
  hexLines (nLines h.length) h

end PyX.Pfb
