/-!
# Model of `pyx/reader.py` (binary reader)

The file is the list of bytes not yet read. Each method returns the value and the remaining bytes;
`none` stands for an exception (`struct.error`, `TypeError` of `ord(b"")`, `AssertionError`).
-/

namespace PyX.Reader

/-- A reading action. -/
abbrev Rd (α : Type) := List Nat → Option (α × List Nat)

/-- `reader.read(n)` (`pyx/reader.py:38-39`): returns fewer bytes at the end of the file. -/
def read (n : Nat) (s : List Nat) : List Nat × List Nat := (s.take n, s.drop n)

/-- The loop of `reader.readint` (`pyx/reader.py:41-51`). -/
def readintLoop (signed : Bool) : (bytes : Nat) → (first : Bool) → (result : Int) → Rd Int
  | 0, _, result, s => some (result, s)
  | n + 1, first, result, s =>
    match s with
    | [] => none
    | b :: s =>
      let value : Int := if first && signed && decide (b > 127) then (b : Int) - 256 else b
      readintLoop signed n false (256 * result + value) s

/-- `reader.readint(bytes, signed)`. -/
def readint (bytes : Nat) (signed : Bool) : Rd Int := readintLoop signed bytes true 0

/-- `struct.unpack(">B/H/L", ...)`: big-endian unsigned value of all bytes. -/
def unpackU (bs : List Nat) : Nat := bs.foldl (fun a b => 256 * a + b) 0

/-- `struct.unpack(">b/h/l", ...)`: two's complement value of `k` bytes. -/
def unpackS (k : Nat) (bs : List Nat) : Int :=
  let u := unpackU bs
  if u < 2 ^ (8 * k - 1) then (u : Int) else (u : Int) - 2 ^ (8 * k)

/-- Read exactly `k` bytes and unpack them unsigned; `struct.error` if bytes are missing
(`readuint32`, `readuint16`, `readuchar`, `pyx/reader.py:56,68,74`; `readuint24`, l. 62, prepends a zero
byte to three bytes, which does not change the unsigned value). -/
def readU (k : Nat) : Rd Nat := fun s =>
  let (b, r) := read k s
  if b.length = k then some (unpackU b, r) else none

/-- `readint32`, `readint16`, `readchar` (`pyx/reader.py:53,65,71`). -/
def readS (k : Nat) : Rd Int := fun s =>
  let (b, r) := read k s
  if b.length = k then some (unpackS k b, r) else none

/-- `readint24` (`pyx/reader.py:59-60`): a zero byte is put in front of three bytes and the four bytes are
unpacked as a signed 32 bit number. -/
def readint24 : Rd Int := fun s =>
  let (b, r) := read 3 s
  if b.length = 3 then some (unpackS 4 (0 :: b), r) else none

/-- `readstring(bytes)` (`pyx/reader.py:77-80`). -/
def readstring (bytes : Nat) : Rd (List Nat) := fun s =>
  match readU 1 s with
  | none => none
  | some (l, s) =>
    if l ≤ bytes - 1 then
      let (b, r) := read (bytes - 1) s
      some (b.take l, r)
    else none

end PyX.Reader
