import Verif.Data.Text
import Verif.BBox.Model

/-!
# Model of `pyx/epsfile.py`

Bytes are shown as characters.  A file object opened for reading is the list of the bytes not yet read; `file.read(n)` returns `n` bytes or, at the end of
the file, all that are left.
-/

set_option linter.unusedSectionVars false

namespace PyX.Eps

abbrev Bytes := List Char

/-! ## The line reader -/

/-- `linefilereader` (`epsfile.py:57-82`): the buffer and the rest of the file. -/
@[ext]
structure Rd where
  buffer : Bytes
  file : Bytes
deriving DecidableEq

/-- What has not been given away yet. -/
def Rd.left (r : Rd) : Bytes := r.buffer ++ r.file

/-- `bytes.find` for a single byte; `none` is `-1`. -/
def find (c : Char) (l : Bytes) : Option ℕ := l.findIdx? (· == c)

/-- The end of the line in the buffer (`epsfile.py:129-135`). -/
def eol (buffer : Bytes) : ℕ :=
  match find '\r' buffer, find '\n' buffer with
  | none, none => buffer.length
  | none, some nl => nl + 1
  | some cr, none => cr + 1
  | some cr, some nl => if cr + 1 < nl then cr + 1 else nl + 1

/-- Whether more has to be read (`epsfile.py:124`): no newline, and no carriage return but possibly as the last byte. -/
def wantsMore (buffer : Bytes) : Bool :=
  (find '\n' buffer).isNone && match find '\r' buffer with
    | none => true
    | some cr => cr + 1 == buffer.length

/-- The loop of `linefilereader.readline` (`epsfile.py:120-138`) with `typicallinelen = t`: the line and the new state.  At the end of the file nothing is
read, which sets `EOF`, and the next pass takes the line from the same buffer. -/
def readlineLoop (t : ℕ) (r : Rd) : Bytes × Rd :=
  if wantsMore r.buffer then
    if _h : r.file.take t = [] then (r.buffer.take (eol r.buffer), ⟨r.buffer.drop (eol r.buffer), r.file⟩)
    else readlineLoop t ⟨r.buffer ++ r.file.take t, r.file.drop t⟩
  else (r.buffer.take (eol r.buffer), ⟨r.buffer.drop (eol r.buffer), r.file⟩)
termination_by r.file.length
decreasing_by
  have h1 : t ≠ 0 := by rintro rfl; exact _h (by simp)
  have h2 : r.file ≠ [] := by rintro h; exact _h (by simp [h])
  have := List.length_pos_iff.2 h2
  simp only [List.length_drop]; omega

/-- Exceptions. -/
inductive Err
  | eof -- IOError "unexpected end of file"
  | header -- IOError "file doesn't start with a '%!' header comment"
  | count -- IOError "invalid number of bounding box values"
  | value -- ValueError of int
  | missing -- IOError "no bounding box information found"
deriving DecidableEq

/-- `linefilereader.readline` with a message for the end of the file (`epsfile.py:111-138`). -/
def readline (t : ℕ) (r : Rd) : Except Err (Bytes × Rd) :=
  let s := readlineLoop t r
  if s.1 = [] then .error .eof else .ok s

/-- `linefilereader.read(count)` with a message for the end of the file (`epsfile.py:93-100`). -/
def read (count : ℕ) (r : Rd) : Except Err (Bytes × Rd) :=
  let r' : Rd := if count > r.buffer.length then ⟨r.buffer ++ r.file.take (count - r.buffer.length), r.file.drop (count - r.buffer.length)⟩ else r
  if r'.buffer.length < count then .error .eof else .ok (r'.buffer.take count, ⟨r'.buffer.drop count, r'.file⟩)

/-! ## The bounding box of a file -/

/-- The white space of `bytes.split`, `bytes.rstrip` and `string.whitespace`. -/
def ws (c : Char) : Bool := c == ' ' || c == '\t' || c == '\n' || c == '\r' || c == '\x0b' || c == '\x0c'

/-- `bytes.rstrip()`. -/
def rstrip (l : Bytes) : Bytes := (l.reverse.dropWhile ws).reverse

/-- `line.split(b":", 1)[1]`, given that the line contains a colon (`epsfile.py:159`). -/
def afterColon (l : Bytes) : Bytes := (l.dropWhile (· != ':')).drop 1

/-- The digits of an integer: single underscores are allowed between digits; `acc` is the value so far. -/
def intDigits (acc : ℕ) : Bytes → Option ℕ
  | [] => some acc
  | [c] => if c.isDigit then some (10 * acc + (c.toNat - 48)) else none
  | c :: d :: cs =>
    if c.isDigit then intDigits (10 * acc + (c.toNat - 48)) (d :: cs)
    else if c = '_' ∧ d.isDigit then intDigits acc (d :: cs)
    else none

/-- A number beginning with a digit. -/
def intBody : Bytes → Option ℕ
  | [] => none
  | c :: cs => if c.isDigit then intDigits 0 (c :: cs) else none

/-- `int` of bytes without white space. -/
def pyInt : Bytes → Option ℤ
  | '-' :: cs => (intBody cs).map fun n => -(n : ℤ)
  | '+' :: cs => (intBody cs).map fun n => (n : ℤ)
  | cs => (intBody cs).map fun n => (n : ℤ)

def bboxKey : Bytes := "%%BoundingBox:".toList

/-- The end of the header comments (`epsfile.py:167-168`). -/
def endsHeader (line : Bytes) : Bool :=
  rstrip line == "%%EndComments".toList ||
    match line with
    | a :: b :: _ => a != '%' && !ws b
    | _ => false

/-- The box of a line with the key (`epsfile.py:159-165`).  The comparison of `values` (bytes) with `["(atend)"]` (a string) in line 160 is always false. -/
def bboxOf (line : Bytes) : Except Err (ℤ × ℤ × ℤ × ℤ) :=
  match Data.split ws (afterColon line) with
  | [a, b, c, d] =>
    match pyInt a, pyInt b, pyInt c, pyInt d with
    | some a, some b, some c, some d => .ok (a, b, c, d)
    | _, _, _, _ => .error .value
  | _ => .error .count

theorem readlineLoop_left (t : ℕ) (r : Rd) : (readlineLoop t r).1 ++ (readlineLoop t r).2.left = r.left := by
  induction r using readlineLoop.induct t with
  | case1 r h1 h2 =>
    rw [readlineLoop, if_pos h1, dif_pos h2]
    simp [Rd.left, ← List.append_assoc]
  | case2 r h1 h2 ih =>
    rw [readlineLoop, if_pos h1, dif_neg h2, ih]
    simp [Rd.left]
  | case3 r h1 =>
    rw [readlineLoop, if_neg h1]
    simp [Rd.left, ← List.append_assoc]

theorem readline_shorter (t : ℕ) (r : Rd) (s : Bytes × Rd) (h : readline t r = .ok s) : s.2.left.length < r.left.length := by
  unfold readline at h
  simp only at h
  split_ifs at h with h0
  injection h with h
  subst h
  have h1 := congrArg List.length (readlineLoop_left t r)
  have h2 := List.length_pos_iff.2 h0
  simp only [List.length_append] at h1
  omega

/-- The loop over the header comments (`epsfile.py:154-172`).  `bboxatend` stays zero (see `bboxOf`), so the end of the loop by `break` leads to the error of
line 172, and the code behind it (`epsfile.py:174-225`) is never reached. -/
def headerLoop (t : ℕ) (r : Rd) : Except Err (ℤ × ℤ × ℤ × ℤ) :=
  match _h : readline t r with
  | .error e => .error e
  | .ok s =>
    if bboxKey.isPrefixOf s.1 then bboxOf s.1
    else if endsHeader s.1 then .error .missing
    else headerLoop t s.2
termination_by r.left.length
decreasing_by exact readline_shorter t r s _h

/-- `_readbbox` (`epsfile.py:141-225`); `t` is the size of the parts in which the file is read, 257 in the code. -/
def readbbox (t : ℕ) (content : Bytes) : Except Err (ℤ × ℤ × ℤ × ℤ) :=
  match readline t ⟨[], content⟩ with
  | .error e => .error e
  | .ok s => if "%!".toList.isPrefixOf s.1 then headerLoop t s.2 else .error .header

/-! ## Placement -/

section Place

variable {K : Type*} [Field K] [LinearOrder K]

inductive VAlign | b | c | t
deriving DecidableEq

inductive HAlign | l | c | r
deriving DecidableEq

/-- The arguments of `epsfile`, lengths in points (`epsfile.py:232-252`). -/
structure Args (K : Type*) where
  x : K
  y : K
  width : Option K
  height : Option K
  scale : Option K
  valign : VAlign
  halign : HAlign
  translatebbox : Bool

/-- Exceptions: `ValueError` for a scale next to a width or height, `ZeroDivisionError`. -/
inductive PlaceErr | both | zeroDivision
deriving DecidableEq

/-- `scalex`, `scaley` (`epsfile.py:261-276`). -/
def scales (a : Args K) (q : Quad K) : Except PlaceErr (Option K × Option K) :=
  if a.width.isSome || a.height.isSome then
    if a.scale.isSome then .error .both
    else if a.height.isSome && decide (q.ury - q.lly = 0) then .error .zeroDivision
    else if a.width.isSome && decide (q.urx - q.llx = 0) then .error .zeroDivision
    else
      let sy := a.height.map fun h => h / (q.ury - q.lly)
      let sx := a.width.map fun w => w / (q.urx - q.llx)
      .ok (sx.orElse fun _ => sy, sy.orElse fun _ => sx)
  else .ok (a.scale, a.scale)

/-- The size multiplied by the scale if it is neither `None` nor zero (`epsfile.py:280-286`). -/
def sized (size : K) : Option K → K
  | none => size
  | some s => if s = 0 then size else size * s

/-- An `epsfile` (`epsfile.py:288-320`): its size, position and transformation. -/
structure Placed (K : Type*) where
  width : K
  height : K
  x : K
  y : K
  trafo : Trafo K
deriving DecidableEq

def vshift (h : K) : VAlign → K
  | .b => 0
  | .c => h / 2
  | .t => h

def hshift (w : K) : HAlign → K
  | .l => 0
  | .c => w / 2
  | .r => w

/-- The scaling part of the transformation (`epsfile.py:316-317`); `scalex` is `None` exactly if `scaley` is. -/
def scaleTrafo (s : Option K × Option K) : Trafo K :=
  match s.1, s.2 with
  | some sx, some sy => ⟨sx, 0, 0, sy, 0, 0⟩
  | _, _ => Trafo.one

/-- `epsfile.__init__` (`epsfile.py:232-320`). -/
def place (a : Args K) (q : Quad K) : Except PlaceErr (Placed K) :=
  (scales a q).map fun s =>
    let w := sized (q.urx - q.llx) s.1
    let h := sized (q.ury - q.lly) s.2
    let x := a.x - hshift w a.halign
    let y := a.y - vshift h a.valign
    let t := Trafo.mul (Trafo.translate x y) (scaleTrafo s)
    ⟨w, h, x, y, if a.translatebbox then Trafo.mul t (Trafo.translate (-q.llx) (-q.lly)) else t⟩

/-- `epsfile.bbox` (`epsfile.py:328-329`). -/
def Placed.bbox (p : Placed K) (q : Quad K) : BBox K := BBox.transformed (some q) p.trafo

/-- The operands of `rectclip` (`epsfile.py:338-340`): corner, width and height. -/
def Placed.rectclip (p : Placed K) (q : Quad K) : Option (K × K × K × K) :=
  (p.bbox q).map fun b => (b.llx, b.lly, b.urx - b.llx, b.ury - b.lly)

end Place

end PyX.Eps
