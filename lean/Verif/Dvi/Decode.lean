import Verif.Dvi.Model

/-!
# Model of the command decoder of `DVIfile.readpage` (`pyx/dvi/dvifile.py:438-616`)

The code decodes and executes in one loop. Here the decoding is separate: `decode` reads
one command, `decodePage` all commands up to `eop`. (Executing a command does not change what is decoded next, besides the
packets of virtual fonts, which are decoded from their own byte string by `decodeAll`.)
-/

namespace PyX.Dvi
open PyX.Reader

/-- `.decode("ascii")`: `UnicodeDecodeError` if a byte is above 127. -/
def ascii (s : List Nat) : Option (List Nat) := if s.all (· < 128) then some s else none

/-- `afile.read(n).decode("ascii")` -/
def readAscii (n : Nat) : Rd (List Nat) := fun s => (ascii (read n s).1).map fun a => (a, (read n s).2)

/-- The font number of a font definition (`pyx/dvi/dvifile.py:600-608`), for `k = cmd - 243 + 1`. -/
def readFntNum (k : Nat) : Rd Int := fun s =>
  if k = 4 then readS 4 s else (readU k s).map fun (n, s) => ((n : Int), s)

/-- A decoded command or the end of the page. -/
inductive Item
  | cmd (c : Cmd)
  | eop
deriving DecidableEq, Repr

def rmap {α β : Type} (f : α → β) : Option (α × List Nat) → Option (β × List Nat) :=
  Option.map fun p => (f p.1, p.2)

/-- Two 32 bit numbers (the parameters of rules). -/
def read2 (f : Int → Int → Cmd) : Rd Item := fun s => do
  let (a, s) ← readS 4 s
  let (b, s) ← readS 4 s
  some (.cmd (f a b), s)

/-- The parameters of a special (`pyx/dvi/dvifile.py:598`). -/
def readSpecial (k : Nat) : Rd Item := fun s => do
  let (n, s) ← readint k false s
  let (t, s) ← readAscii n.toNat s
  some (.cmd (.special t), s)

/-- The parameters of a font definition (`pyx/dvi/dvifile.py:600-614`). -/
def readFntDef (k : Nat) : Rd Item := fun s => do
  let (num, s) ← readFntNum k s
  let (c, s) ← readS 4 s
  let (q, s) ← readS 4 s
  let (d, s) ← readS 4 s
  let (a, s) ← readU 1 s
  let (l, s) ← readU 1 s
  let (name, s) ← readAscii (a + l) s
  some (.cmd (.fntdef num c q d name), s)

/-- The `if`/`elif` chain (`pyx/dvi/dvifile.py:448-616`) for command byte `b`. (The error for `nop` is
modelled in `step`.) -/
def decodeOp (b : Nat) : Rd Item := fun s =>
  if b = 138 then some (.cmd .nop, s)
  else if b ≤ 127 then some (.cmd (.setChar b), s)
  else if 128 ≤ b ∧ b < 132 then rmap (fun n => .cmd (.setChar n.toNat)) (readint (b - 128 + 1) false s)
  else if b = 132 then read2 .setRule s
  else if 133 ≤ b ∧ b < 137 then rmap (fun n => .cmd (.putChar n.toNat)) (readint (b - 133 + 1) false s)
  else if b = 137 then read2 .putRule s
  else if b = 140 then some (.eop, s)
  else if b = 141 then some (.cmd .push, s)
  else if b = 142 then some (.cmd .pop, s)
  else if 143 ≤ b ∧ b < 147 then rmap (fun n => .cmd (.right n)) (readint (b - 143 + 1) true s)
  else if b = 147 then some (.cmd .w0, s)
  else if 148 ≤ b ∧ b < 152 then rmap (fun n => .cmd (.w n)) (readint (b - 148 + 1) true s)
  else if b = 152 then some (.cmd .x0, s)
  else if 153 ≤ b ∧ b < 157 then rmap (fun n => .cmd (.x n)) (readint (b - 153 + 1) true s)
  else if 157 ≤ b ∧ b < 161 then rmap (fun n => .cmd (.down n)) (readint (b - 157 + 1) true s)
  else if b = 161 then some (.cmd .y0, s)
  else if 162 ≤ b ∧ b < 166 then rmap (fun n => .cmd (.y n)) (readint (b - 162 + 1) true s)
  else if b = 166 then some (.cmd .z0, s)
  else if 167 ≤ b ∧ b < 171 then rmap (fun n => .cmd (.z n)) (readint (b - 167 + 1) true s)
  else if 171 ≤ b ∧ b ≤ 234 then some (.cmd (.fnt ((b - 171 : Nat) : Int)), s)
  else if 235 ≤ b ∧ b < 239 then rmap (fun n => .cmd (.fnt n)) (readint (b - 235 + 1) (decide (b = 238)) s)
  else if 239 ≤ b ∧ b < 243 then readSpecial (b - 239 + 1) s
  else if 243 ≤ b ∧ b < 247 then readFntDef (b - 243 + 1) s
  else none

/-- One command; `none` at the end of the input or for an error. -/
def decode : Rd Item
  | [] => none
  | b :: s => decodeOp b s

/-- The commands up to `eop`, and the rest of the file. `fuel` bounds the number of commands; the length of the input is always
enough. -/
def decodeLoop : Nat → Rd (List Cmd)
  | 0, _ => none
  | fuel + 1, s =>
    match decode s with
    | none => none
    | some (.eop, s) => some ([], s)
    | some (.cmd c, s) => rmap (c :: ·) (decodeLoop fuel s)

def decodePage : Rd (List Cmd) := fun s => decodeLoop s.length s

/-- The commands of a packet: until the byte string ends (`struct.error` of `readuchar`, `pyx/dvi/dvifile.py:443-447`). -/
def decodeAllLoop : Nat → List Nat → Option (List Cmd)
  | _, [] => some []
  | 0, _ :: _ => none
  | fuel + 1, b :: s =>
    match decodeOp b s with
    | some (.cmd c, s) => (decodeAllLoop fuel s).map (c :: ·)
    | _ => none

def decodeAll (s : List Nat) : Option (List Cmd) := decodeAllLoop s.length s

end PyX.Dvi
