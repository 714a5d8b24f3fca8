import Mathlib.Algebra.Order.Floor.Ring
import Mathlib.Algebra.Order.Field.Basic
import Mathlib.Data.Rat.Floor

/-!
# Mesh data (`pyx/mesh.py:62-63, 96-106`)

Numbers are elements of an ordered field with floor.  Colours are their bytes (`to8bitbytes`, see C37).
-/

namespace PyX.Mesh

variable {K : Type*} [Field K] [LinearOrder K] [IsStrictOrderedRing K] [FloorRing K]

inductive Err
  | zeroDivision
  | structError
  | value
  deriving DecidableEq

/-- `int()`: truncation. -/
def trunc (x : K) : ℤ := if x < 0 then -⌊-x⌋ else ⌊x⌋

/-- `struct.pack(">I", n)`. -/
def pack32 (n : ℤ) : Except Err (List ℕ) :=
  if 0 ≤ n ∧ n < 4294967296 then .ok [n.toNat / 16777216 % 256, n.toNat / 65536 % 256, n.toNat / 256 % 256, n.toNat % 256] else .error .structError

/-- `coords24bit_pt` (`mesh.py:62-63`). -/
def coords24 (x lo hi : K) : Except Err (List ℕ) :=
  if hi - lo = 0 then .error .zeroDivision
  else
    match pack32 (trunc ((x - lo) * 16777215 / (hi - lo))) with
    | .error e => .error e
    | .ok bytes => .ok (bytes.drop 1)

/-- A node with its colour bytes (`mesh.py:40-53`). -/
structure Node (K : Type*) where
  x : K
  y : K
  colour : List ℕ

/-- A bounding box. -/
structure Box (K : Type*) where
  llx : K
  lly : K
  urx : K
  ury : K

/-- `mesh.bbox` (`mesh.py:96-100`); `min` of an empty list raises `ValueError`. -/
def bbox : List (Node K) → Except Err (Box K)
  | [] => .error .value
  | n :: ns => .ok (ns.foldl (fun b m => ⟨min b.llx m.x, min b.lly m.y, max b.urx m.x, max b.ury m.y⟩) ⟨n.x, n.y, n.x, n.y⟩)

/-- The bytes of a node (`mesh.py:103-105`). -/
def nodeData (b : Box K) (n : Node K) : Except Err (List ℕ) :=
  match coords24 n.x b.llx b.urx with
  | .error e => .error e
  | .ok xs =>
    match coords24 n.y b.lly b.ury with
    | .error e => .error e
    | .ok ys => .ok (0 :: xs ++ ys ++ n.colour)

/-- `mesh.data` (`mesh.py:102-106`); `nodes` are the nodes of all elements. -/
def data (b : Box K) : List (Node K) → Except Err (List ℕ)
  | [] => .ok []
  | n :: ns =>
    match nodeData b n with
    | .error e => .error e
    | .ok bytes =>
      match data b ns with
      | .error e => .error e
      | .ok rest => .ok (bytes ++ rest)

/-! ## Specification: reading a shading of type 4

8 bits per flag, 24 bits per coordinate, 8 bits per component; `Decode` maps the coordinates linearly: 0 to the lower and 2²⁴ - 1 to the upper bound. -/

/-- A decoded coordinate. -/
def decodeCoord (lo hi : K) (a b c : ℕ) : K := lo + (((a * 65536 + b * 256 + c : ℕ) : K)) * (hi - lo) / 16777215

/-- Reading vertices with `k` colour components: flag, coordinates and colour. -/
def decode (box : Box K) (k : ℕ) : ℕ → List ℕ → Option (List (ℕ × Node K))
  | _, [] => some []
  | 0, _ => none
  | fuel + 1, flag :: a :: b :: c :: d :: e :: f :: rest =>
    if rest.length < k then none
    else (decode box k fuel (rest.drop k)).map fun l =>
      (flag, ⟨decodeCoord box.llx box.urx a b c, decodeCoord box.lly box.ury d e f, rest.take k⟩) :: l
  | _, _ => none

end PyX.Mesh
