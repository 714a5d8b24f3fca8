/-!
# Model of `pyx/font/t1code.py` and the charstring coding of `pyx/font/t1file.py`

Bytes are natural numbers; byte strings are lists. `array("B").append(v)` raises `OverflowError` for
`v > 255`; the encryption never does so (theorem `encoder_bytes`).
-/

namespace PyX.T1

/-- Byte strings: every entry is below 256. -/
def Bytes (l : List Nat) : Prop := ∀ b ∈ l, b < 256

/-- The key update used in both directions (`pyx/font/t1code.py:33,41`), with
`c1_16, c1_8 = divmod(52845, 256)` and `c2 = 22719` (l. 24-26). -/
def nextKey (x r : Nat) : Nat :=
  ((((x + r) * (52845 / 256)) &&& 0xff) * 0x100 + (x + r) * (52845 % 256) + 22719) &&& 0xffff

/-- The loop of `decoder` (`pyx/font/t1code.py:28-33`). -/
def decodeLoop : List Nat → Nat → List Nat
  | [], _ => []
  | x :: code, r => (x ^^^ (r >>> 8)) :: decodeLoop code (nextKey x r)

/-- `decoder(code, r, n)` (`pyx/font/t1code.py:28-34`). -/
def decoder (code : List Nat) (r n : Nat) : List Nat := (decodeLoop code r).drop n

/-- The loop of `encoder` (`pyx/font/t1code.py:36-41`). -/
def encodeLoop : List Nat → Nat → List Nat
  | [], _ => []
  | x :: data, r =>
    let c := x ^^^ (r >>> 8)
    c :: encodeLoop data (nextKey c r)

/-- `encoder(data, r, random)` (`pyx/font/t1code.py:36-42`). -/
def encoder (data : List Nat) (r : Nat) (random : List Nat) : List Nat := encodeLoop (random ++ data) r

/-- The random prefix `b"PyX!"` (`pyx/font/t1file.py:678,682`). -/
def prefixBytes : List Nat := [0x50, 0x79, 0x58, 0x21]

/-- `T1File._eexecencode` (`pyx/font/t1file.py:676-678`), key `eexecr = 55665` (l. 639). -/
def eexecEncode (data : List Nat) : List Nat := encoder data 55665 prefixBytes
/-- `T1File._eexecdecode` (`pyx/font/t1file.py:668-670`). -/
def eexecDecode (code : List Nat) : List Nat := decoder code 55665 4
/-- `T1File._charstringencode` (`pyx/font/t1file.py:680-682`), key `charstringr = 4330` (l. 640). -/
def charstringEncode (lenIV : Nat) (data : List Nat) : List Nat :=
  encoder data 4330 (prefixBytes.take lenIV)
/-- `T1File._charstringdecode` (`pyx/font/t1file.py:672-674`). -/
def charstringDecode (lenIV : Nat) (code : List Nat) : List Nat := decoder code 4330 lenIV

/-! ## Charstring commands -/

/-- An entry of a charstring command list: an integer, a command or an escaped command (identified by
their byte codes, `T1cmd.__init__`, `pyx/font/t1file.py:100-115`). -/
inductive Tok where
  | num (n : Int)
  | cmd (c : Nat)
  | esc (c : Nat)
deriving DecidableEq, Repr

/-- Keys of the dictionary `T1cmds`, from the `T1cmd.__init__(self, code)` calls
(`pyx/font/t1file.py:139,153,230,248,264,280,302,320,338,362,378,394,432,466,569,606`). -/
def t1cmds : List Nat := [14, 13, 9, 6, 22, 31, 5, 21, 8, 7, 4, 30, 1, 3, 10, 11]
/-- Keys of the dictionary `T1subcmds`, from the `T1cmd.__init__(self, code, subcmd=1)` calls
(`pyx/font/t1file.py:173,206,418,447,481,502,525,589,620`). -/
def t1subcmds : List Nat := [6, 7, 0, 2, 1, 12, 16, 17, 33]

/-- The loop of `T1File._cmds` on decrypted data (`pyx/font/t1file.py:794-816`). An unknown command is a
`KeyError`, missing bytes an `IndexError`: both `none`. -/
def cmds : List Nat → Option (List Tok)
  | [] => some []
  | x :: code =>
    if x = 12 then
      match code with
      | s :: code => if s ∈ t1subcmds then (cmds code).map (.esc s :: ·) else none
      | [] => none
    else if x < 32 then
      if x ∈ t1cmds then (cmds code).map (.cmd x :: ·) else none
    else if x ≤ 246 then
      (cmds code).map (.num ((x : Int) - 139) :: ·)
    else if x ≤ 250 then
      match code with
      | b :: code => (cmds code).map (.num (((x : Int) - 247) * 256 + b + 108) :: ·)
      | [] => none
    else if x ≤ 254 then
      match code with
      | b :: code => (cmds code).map (.num (-(((x : Int) - 251) * 256) - b - 108) :: ·)
      | [] => none
    else
      match code with
      | a :: b :: c :: d :: code =>
        let y : Int := ((a * 256 + b) * 256 + c) * 256 + d
        if y > 2 ^ 31 then (cmds code).map (.num (y - 2 ^ 32) :: ·)
        else (cmds code).map (.num y :: ·)
      | _ => none

/-- One step of the loop of `T1File._code` (`pyx/font/t1file.py:821-847`): the bytes appended for one
entry; a value that does not fit into a byte raises `OverflowError` (`none`). -/
def code1 : Tok → Option (List Nat)
  | .esc c => if c < 256 then some [12, c] else none
  | .cmd c => if c < 256 then some [c] else none
  | .num n =>
    if -107 ≤ n ∧ n ≤ 107 then some [(n + 139).toNat]
    else if 108 ≤ n ∧ n ≤ 1131 then some [((n - 108) / 256 + 247).toNat, ((n - 108) % 256).toNat]
    else if -1131 ≤ n ∧ n ≤ -108 then some [((-n - 108) / 256 + 251).toNat, ((-n - 108) % 256).toNat]
    else
      let m := if n < 0 then n + 2 ^ 32 else n
      let x4 := m % 256
      let m := m / 256
      let x3 := m % 256
      let m := m / 256
      let x1 := m / 256
      let x2 := m % 256
      if 0 ≤ x1 ∧ x1 < 256 then some [255, x1.toNat, x2.toNat, x3.toNat, x4.toNat] else none

/-- `T1File._code` before encryption (`pyx/font/t1file.py:818-848`). -/
def code : List Tok → Option (List Nat)
  | [] => some []
  | t :: ts => do
    let h ← code1 t
    let r ← code ts
    some (h ++ r)

/-- `setglyphcmds` followed by `getglyphcmds` (`pyx/font/t1file.py:856-874`): encode, encrypt, decrypt,
decode. -/
def setGet (lenIV : Nat) (ts : List Tok) : Option (List Tok) := do
  let c ← code ts
  cmds (charstringDecode lenIV (charstringEncode lenIV c))

end PyX.T1
