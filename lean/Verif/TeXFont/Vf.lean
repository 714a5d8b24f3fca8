import Verif.Reader.Model

/-!
# Model of the virtual font parser (`pyx/dvi/vffile.py:35-114`)

The parser fills the dictionaries `fonts`, `widths` and `chardefs`. The model records the assignments in the order in
which they happen; `lookupWidth`/`lookupDef` are the dictionary lookups (last assignment wins).
Loading of the referenced fonts (`pyx/dvi/vffile.py:76-88`) is not modelled: a font definition is recorded by the numbers read from
the file.
-/

namespace PyX.Vf

open PyX.Reader

/-- One assignment made by the parser. -/
inductive Event
  /-- `self.fonts[num] = ...` with checksum, scale, design size, name. -/
  | font (num c s d : Int) (name : List Nat)
  /-- `self.widths[cc] = tfm; self.chardefs[cc] = dvi`. -/
  | char (cc tfm : Nat) (dvi : List Nat)
deriving DecidableEq, Repr

/-- The font number read by the font definition commands (`pyx/dvi/vffile.py:59-66`). -/
def readNum (cmd : Nat) : Rd Int := fun s =>
  if cmd = 243 then (readU 1 s).map fun (v, s) => ((v : Int), s)
  else if cmd = 244 then (readU 2 s).map fun (v, s) => ((v : Int), s)
  else if cmd = 245 then (readU 3 s).map fun (v, s) => ((v : Int), s)
  else readS 4 s

/-- `pyx/dvi/vffile.py:67-70`: the rest of a font definition. The name must be ASCII. -/
def readFontDef (cmd : Nat) : Rd Event := fun s => do
  let (num, s) ← readNum cmd s
  let (c, s) ← readS 4 s
  let (sc, s) ← readS 4 s
  let (d, s) ← readS 4 s
  let (a, s) ← readU 1 s
  let (l, s) ← readU 1 s
  let (name, s) := read (a + l) s
  if name.all (· < 128) then some (.font num c sc d name, s) else none

/-- `pyx/dvi/vffile.py:89-96`: long character packet. The width is read with three bytes. -/
def readLong : Rd Event := fun s => do
  let (pl, s) ← readU 4 s
  let (cc, s) ← readU 4 s
  let (tfm, s) ← readU 3 s
  let (dvi, s) := read pl s
  some (.char cc tfm dvi, s)

/-- `pyx/dvi/vffile.py:97-103`: short character packet; the command is the packet length. -/
def readShort (cmd : Nat) : Rd Event := fun s => do
  let (cc, s) ← readU 1 s
  let (tfm, s) ← readU 3 s
  let (dvi, s) := read cmd s
  some (.char cc tfm dvi, s)

/-- The main loop (`pyx/dvi/vffile.py:55-107`). `fuel` bounds the number of commands; each command takes
at least one byte, so the file length is enough (with less fuel the model fails, it never invents a result). -/
def loop : (fuel : Nat) → List Nat → Option (List Event)
  | 0, _ => none
  | fuel + 1, s =>
    match readU 1 s with
    | none => none
    | some (cmd, s) =>
      let continue_ (r : Option (Event × List Nat)) : Option (List Event) :=
        match r with
        | none => none
        | some (e, s) => (loop fuel s).map (e :: ·)
      if 243 ≤ cmd ∧ cmd < 247 then continue_ (readFontDef cmd s)
      else if cmd = 242 then continue_ (readLong s)
      else if cmd < 242 then continue_ (readShort cmd s)
      else if cmd = 248 then some []
      else none

/-- Result: checksum, design size and the assignments. -/
def parse (s : List Nat) : Option (Nat × Nat × List Event) := do
  let (cmd, s) ← readU 1 s
  if cmd ≠ 247 then none else
  let (id, s) ← readU 1 s
  if id ≠ 202 then none else
  let (k, s) ← readU 1 s
  let (_, s) := read k s
  let (cs, s) ← readU 4 s
  let (ds, s) ← readU 4 s
  let evs ← loop (s.length + 1) s
  some (cs, ds, evs)

/-- `getchar(cc)` (`pyx/dvi/vffile.py:112-113`): a dictionary lookup, `none` is `KeyError`. -/
def getchar (cc : Nat) : List Event → Option (List Nat)
  | [] => none
  | .char c _ dvi :: r => (getchar cc r).orElse fun _ => if c = cc then some dvi else none
  | .font .. :: r => getchar cc r

end PyX.Vf
