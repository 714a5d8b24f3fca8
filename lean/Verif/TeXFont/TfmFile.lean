import Verif.Reader.Model
import Verif.TeXFont.Tfm

/-!
# Reading TFM files (`pyx/dvi/tfmfile.py:37-210`), and fonts using them (`pyx/dvi/texfont.py:30-62, 98-125, 160-176`)

Readers are functions on the bytes which are left (`Verif/Reader/Model.lean`); exceptions are `none`.

Simplifications:
* The twelve numbers at the beginning are read with their signs; the format says that none is negative.  Files where one is negative are
  not modelled (`none`), the code would accept some of them.
* Debug output is left out.
-/

namespace PyX.Tfm

open PyX.Reader (Rd readS readU readstring)

/-- One reader after the other. -/
def andThen {α β : Type} (r : Rd α) (k : α → Rd β) : Rd β := fun s =>
  match r s with
  | none => none
  | some (v, s) => k v s

def ret {α : Type} (v : α) : Rd α := fun s => some (v, s)

/-- An exception. -/
def fail {α : Type} : Rd α := fun _ => none

/-- The loops: `n` times the same. -/
def many {α : Type} (r : Rd α) : Nat → Rd (List α)
  | 0 => ret []
  | n + 1 => andThen r fun v => andThen (many r n) fun l => ret (v :: l)

/-- The numbers at the beginning (`tfmfile.py:46-57`). -/
structure Pre where
  lf : Nat
  lh : Nat
  bc : Nat
  ec : Nat
  nw : Nat
  nh : Nat
  nd : Nat
  ni : Nat
  nl : Nat
  nk : Nat
  ne : Nat
  np : Nat
deriving DecidableEq, Repr

/-- The test of the beginning (`tfmfile.py:59-63`). -/
def Pre.ok (p : Pre) : Bool :=
  decide (p.bc ≤ p.ec + 1) && decide (p.ec ≤ 255) && decide (p.ne ≤ 256) &&
    decide (p.lf = 6 + p.lh + (p.ec + 1 - p.bc) + p.nw + p.nh + p.nd + p.ni + p.nl + p.nk + p.ne + p.np)

/-- The pre header (`tfmfile.py:46-63`). -/
def pre : Rd Pre := andThen (many (readS 2) 12) fun l =>
  if l.all (fun x => decide (0 ≤ x)) then
    match l.map Int.toNat with
    | [lf, lh, bc, ec, nw, nh, nd, ni, nl, nk, ne, np] =>
      let p : Pre := ⟨lf, lh, bc, ec, nw, nh, nd, ni, nl, nk, ne, np⟩
      if p.ok then ret p else fail
    | _ => fail
  else fail

/-- The first letter of a face, with what is left of the number (`tfmfile.py:101-108`). -/
def faceExpansion (f : Nat) : Char × Nat := if 12 ≤ f then ('E', f - 12) else if 6 ≤ f then ('C', f - 6) else ('R', f)

/-- The next one (`tfmfile.py:110-117`). -/
def faceWeight (f : Nat) : Char × Nat := if 4 ≤ f then ('L', f - 4) else if 2 ≤ f then ('B', f - 2) else ('M', f)

/-- The last one (`tfmfile.py:119-122`). -/
def faceSlope (f : Nat) : Char := if f = 1 then 'I' else 'R'

/-- The face (`tfmfile.py:99-125`). -/
def face (f : Nat) : Option (List Char) :=
  if f < 18 then
    some [(faceWeight (faceExpansion f).2).1, faceSlope (faceWeight (faceExpansion f).2).2, (faceExpansion f).1]
  else none

/-- The header; `printed`: what is printed while it is read. -/
structure Header where
  checksum : Int
  designsize : Int
  charcoding : Option (List Nat)
  fontfamily : Option (List Nat)
  sevenbitsave : Option Nat
  face : Option (List Char)
  printed : Option (List Nat)
deriving DecidableEq, Repr

/-- A string which is there if the header is long enough (`tfmfile.py:75-85`). -/
def field (lh low high n : Nat) : Rd (Option (List Nat)) :=
  if lh > low then (if lh > high then andThen (readstring n) fun v => ret (some v) else fail) else ret none

/-- `tfmfile.py:92-125` -/
def faceWord (lh : Nat) : Rd (Option Nat × Option (List Char)) :=
  if lh > 17 then andThen (readU 1) fun s => andThen (readS 2) fun _ => andThen (readU 1) fun f => ret (some s, face f) else ret (none, none)

/-- `print(file.read((self.lh-18)*4))` (`tfmfile.py:127-129`). -/
def more (lh : Nat) : Rd (Option (List Nat)) :=
  if lh > 18 then fun s => some (some (Reader.read ((lh - 18) * 4) s).1, (Reader.read ((lh - 18) * 4) s).2) else ret none

/-- The header (`tfmfile.py:72-129`). -/
def header (lh : Nat) : Rd Header :=
  andThen (readS 4) fun checksum => andThen (readS 4) fun designsize =>
  if designsize > 0 then
    andThen (field lh 2 11 40) fun c => andThen (field lh 12 16 20) fun f => andThen (faceWord lh) fun sf => andThen (more lh) fun m =>
    ret ⟨checksum, designsize, c, f, sf.1, sf.2, m⟩
  else fail

/-- A TFM file. -/
structure TFM where
  pre : Pre
  header : Header
  chars : List (Option CharInfo)
  width : List Int
  height : List Int
  depth : List Int
  italic : List Int
  ligKern : List Int
  kern : List Int
  exten : List Int
  param : List Int
deriving DecidableEq, Repr

/-- Characters without a width are disabled (`tfmfile.py:137-140`). -/
def enabled (w : Int) : Option CharInfo := if (charInfo w).width = 0 then none else some (charInfo w)

/-- The tables (`tfmfile.py:135-210`). -/
def tables (p : Pre) (h : Header) : Rd TFM :=
  andThen (many (readS 4) (p.ec + 1 - p.bc)) fun infos => andThen (many (readS 4) p.nw) fun w => andThen (many (readS 4) p.nh) fun hh =>
  andThen (many (readS 4) p.nd) fun d => andThen (many (readS 4) p.ni) fun i => andThen (many (readS 4) p.nl) fun l =>
  andThen (many (readS 4) p.nk) fun k => andThen (many (readS 4) p.ne) fun e => andThen (many (readS 4) p.np) fun q =>
  ret ⟨p, h, List.replicate p.bc none ++ infos.map enabled, w, hh, d, i, l, k, e, q⟩

/-- `TFMfile.__init__` -/
def tfmfile : Rd TFM := andThen pre fun p => andThen (header p.lh) fun h => tables p h

/-! ## Using it -/

/-- A dimension of a character: `self.TFMfile.width[self.TFMfile.char_info[charcode].width_index]` (`texfont.py:103-125`). -/
def dim (t : TFM) (tab : TFM → List Int) (idx : CharInfo → Int) (c : Nat) : Option Int :=
  match t.chars[c]? with
  | some (some i) => (tab t)[(idx i).toNat]?
  | _ => none

/-- `getwidth_dvi` and so on (`texfont.py:103-113`); `z` as for `convertTfmToDvi`. -/
def dimDvi (z : Nat) (t : TFM) (tab : TFM → List Int) (idx : CharInfo → Int) (c : Nat) : Option Int := (dim t tab idx c).bind (convertTfmToDvi z)

/-- The tests when a font is used (`texfont.py:44-54`). -/
def agrees (t : TFM) (c d : Int) : Bool :=
  !(decide (t.header.checksum ≠ c) && decide (t.header.checksum > 0) && decide (c > 0)) && decide ((t.header.designsize - d).natAbs ≤ 4) && !(decide (d < 0) || decide (d > 134217728))

end PyX.Tfm
