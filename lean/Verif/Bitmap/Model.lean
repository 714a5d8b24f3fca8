import Mathlib.Data.List.Basic

/-!
# Bands of image data (`pyx/bitmap.py:107-125, 359-404`)

Bytes are elements of an arbitrary type; modes are lists of characters.  The images of the Python Imaging Library, whose `split` and `tobytes` are
not part of the repository, are not modelled.
-/

namespace PyX.Bitmap

variable {α : Type*}

/-- The slice `l[s::k]`. -/
def stride (k : ℕ) : ℕ → List α → List α
  | _, [] => []
  | 0, a :: l => a :: stride k (k - 1) l
  | s + 1, _ :: l => stride k s l

/-- `image` (`bitmap.py:107-119`), without compression and palette. -/
structure Image (α : Type*) where
  width : ℕ
  height : ℕ
  mode : List Char
  data : List α

/-- The constructor accepts data of the right size only (`bitmap.py:109-114`). -/
def Image.Valid (i : Image α) : Prop := 0 < i.width ∧ 0 < i.height ∧ i.mode ≠ [] ∧ i.data.length = i.mode.length * i.width * i.height

/-- `image.split` (`bitmap.py:121-126`): the data of the bands. -/
def Image.split (i : Image α) : List (List α) := (List.range i.mode.length).map fun b => stride i.mode.length b i.data

/-- The heads and tails of the lists, `none` if one is empty. -/
def heads : List (List α) → Option (List α × List (List α))
  | [] => some ([], [])
  | [] :: _ => none
  | (a :: l) :: ls =>
    match heads ls with
    | some (hs, ts) => some (a :: hs, l :: ts)
    | none => none

/-- `zip(l, *ls)`. -/
def zipAll : List α → List (List α) → List (List α)
  | [], _ => []
  | a :: l, ls =>
    match heads ls with
    | some (hs, ts) => (a :: hs) :: zipAll l ts
    | none => []

/-- `b"".join([bytes(values) for values in zip(*bands)])`. -/
def interleave : List (List α) → List α
  | [] => []
  | b :: bs => (zipAll b bs).flatten

/-- The alpha channel returned: none, in front of each pixel (`True`), or a band of its own. -/
inductive Alpha (α : Type*)
  | none
  | front
  | band (b : List α)

/-- The first part of `imagedata` (`bitmap.py:369-404`): the mode without alpha channel, the data and the alpha channel. -/
def imagedata (i : Image α) (interleavealpha : Bool) : List Char × List α × Alpha α :=
  if i.mode.head? = some 'A' then
    if interleavealpha then (i.mode.tail, i.data, .front)
    else (i.mode.tail, interleave i.split.tail, .band (i.split.headD []))
  else if i.mode.getLast? = some 'A' then
    if interleavealpha then (i.mode.dropLast, interleave (i.split.getLastD [] :: i.split.dropLast), .front)
    else (i.mode.dropLast, interleave i.split.dropLast, .band (i.split.getLastD []))
  else (i.mode, i.data, .none)

end PyX.Bitmap
