import Mathlib.Data.List.Basic
import Mathlib.Algebra.Field.Basic
import Verif.Bitmap.Model
import Verif.Trafo.Model
import Verif.Pdf.Model

/-!
# Output of bitmaps (`pyx/bitmap.py`): PNG files, placement, resource names, JPEG files

Bytes are natural numbers.  `crc` is `zlib.crc32`, `compress` is `zlib.compress(·, 9)`; both are parameters.  Exceptions are `none`.
-/

set_option linter.unusedSectionVars false

namespace PyX.Bitmap

/-- `struct.pack("!I", n)`. -/
def packI (n : ℕ) : Option (List ℕ) :=
  if n < 2 ^ 32 then some [n / 2 ^ 24, n / 2 ^ 16 % 256, n / 2 ^ 8 % 256, n % 256] else none

section Png

variable (crc : List ℕ → ℕ) (compress : List ℕ → List ℕ)

/-- The function `chunk` (`bitmap.py:149`); `0xFFFFFFFF & x` is the remainder modulo `2^32`. -/
def chunk (name data : List ℕ) : Option (List ℕ) :=
  match packI data.length, packI (crc (name ++ data) % 2 ^ 32) with
  | some l, some c => some (l ++ name ++ data ++ c)
  | _, _ => none

/-- The dictionary of the PNG colour types with the bytes per pixel (`bitmap.py:142`). -/
def pngMode (mode : List Char) : Option (ℕ × ℕ) :=
  if mode = "L".toList then some (0, 1)
  else if mode = "LA".toList then some (4, 2)
  else if mode = "RGB".toList then some (2, 3)
  else if mode = "RGBA".toList then some (6, 4)
  else if mode = "P".toList then some (3, 1)
  else none

/-- A zero byte in front of each scan line (`bitmap.py:148`). -/
def scanlines (k width height : ℕ) (data : List ℕ) : List ℕ :=
  (List.range height).flatMap fun pos => 0 :: (data.take (k * width * (pos + 1))).drop (k * width * pos)

/-- The palette as RGB values (`bitmap.py:153-158`). -/
def rgbPalette (mode : List Char) (data : List ℕ) : Option (List ℕ) :=
  if mode = "L".toList then some (data.flatMap fun x => [x, x, x])
  else if mode = "RGB".toList then some data
  else none

/-- ASCII text as bytes. -/
def ascii (s : String) : List ℕ := s.toList.map Char.toNat

/-- The signature (`bitmap.py:150`). -/
def signature : List ℕ := [0x89, 80, 78, 71, 13, 10, 0x1a, 10]

/-- `image.save` for PNG (`bitmap.py:136-161`); the palette is its mode and data. -/
def save (i : Image ℕ) (palette : Option (List Char × List ℕ)) : Option (List ℕ) := do
  let (pngmode, k) ← pngMode i.mode
  if i.data.length ≠ i.width * i.height * k then none
  else
    let w ← packI i.width
    let h ← packI i.height
    let ihdr ← chunk crc (ascii "IHDR") (w ++ h ++ [8, pngmode, 0, 0, 0])
    let plte ← if i.mode = "P".toList then
        match palette with
        | none => none
        | some (m, d) => (rgbPalette m d).bind (chunk crc (ascii "PLTE"))
      else some []
    let idat ← chunk crc (ascii "IDAT") (compress (scanlines k i.width i.height i.data))
    let iend ← chunk crc (ascii "IEND") []
    some (signature ++ ihdr ++ plte ++ idat ++ iend)

end Png

section Placement

variable {K : Type*} [Field K] [DecidableEq K]

/-- The transformation written as `/ImageMatrix` in PostScript (`bitmap.py:447`): `translate_pt(0, -1).scaled(w, -h) * pdftrafo.inverse()`; `t.scaled(..)` is `scale(..) * t`
(`trafo.py:148`). -/
def pstrafo (w h : K) (pdftrafo : Trafo K) : Option (Trafo K) :=
  match Trafo.scale w (some (-h)) none none, pdftrafo.inverse with
  | some s, some i => some ((s.mul (Trafo.translate 0 (-1))).mul i)
  | _, _ => none

/-- The arguments of `bitmap_pt` (`bitmap.py:579-599`): width and height; `dpi` is `image.info["dpi"]`.  Exceptions are `none`. -/
def bitmapSize (w h : K) (width height ratio : Option K) (dpi : Option (K × K)) : Option (K × K) :=
  match width, height, ratio with
  | none, some hp, none => some (hp * w / h, hp)
  | none, some hp, some r => some (r * hp, hp)
  | some wp, none, none => some (wp, wp * h / w)
  | some wp, none, some r => if r = 0 then none else some (wp, (1 / r) * wp)
  | some _, some _, some _ => none
  | some wp, some hp, none => some (wp, hp)
  | none, none, some _ => none
  | none, none, none =>
    match dpi with
    | none => none
    | some (dx, dy) => if dx = 0 ∨ dy = 0 then none else some (72 * w / dx, 72 * h / dy)

/-- `bitmap_pt` (`bitmap.py:579-601`): the transformation of the unit square. -/
def bitmapTrafo (x y w h : K) (width height ratio : Option K) (dpi : Option (K × K)) : Option (Trafo K) :=
  (bitmapSize w h width height ratio dpi).map fun s => ⟨s.1, 0, 0, s.2, x, y⟩

end Placement

section Names

/-- What a bitmap contributes to a PDF file: the arguments of `PDFimage` (`bitmap.py:540-551`). -/
structure PdfImage where
  width : ℕ
  height : ℕ
  mode : List Char
  data : List ℕ
  alpha : Option (List ℕ)
  compress : List Char
deriving DecidableEq, Repr

/-- The name `"image-%s-%s" % (imagehash, compressmode)` (`bitmap.py:543`), the hash being that of the data alone (`bitmap.py:433`).  The name of the
alpha channel is the same with the suffix `-smask` (`bitmap.py:545`). -/
def PdfImage.name (hash : List ℕ → List Char) (i : PdfImage) : List Char := "image-".toList ++ hash i.data ++ '-' :: i.compress

/-- The objects registered by `processPDF` (`bitmap.py:544-551`): the alpha channel and the image; the contents are kept. -/
def PdfImage.objects (hash : List ℕ → List Char) (i : PdfImage) : List (List Char × PdfImage) :=
  (match i.alpha with
    | none => []
    | some a => [(i.name hash ++ "-smask".toList, ⟨i.width, i.height, "L".toList, a, none, i.compress⟩)]) ++ [(i.name hash, i)]

/-- `PDFregistry.add` for image objects (`pdfwriter.py:52-59`): an object with a known name is dropped (`PDFobject.merge`, line 137). -/
def addImage (objects : List (List Char × PdfImage)) (o : List Char × PdfImage) : List (List Char × PdfImage) :=
  if o.1 ∈ objects.map (·.1) then objects else objects ++ [o]

/-- All the bitmaps of a document. -/
def addBitmaps (hash : List ℕ → List Char) (is : List PdfImage) : List (List Char × PdfImage) := (is.flatMap (PdfImage.objects hash)).foldl addImage []

/-- What `/name Do` (`bitmap.py:557`) paints: the object of this name, with the alpha channel found under the name of its soft mask. -/
def painted (hash : List ℕ → List Char) (objects : List (List Char × PdfImage)) (i : PdfImage) : Option PdfImage :=
  match objects.find? fun o => o.1 = i.name hash with
  | none => none
  | some (_, j) =>
    match j.alpha with
    | none => some { j with alpha := none }
    | some _ => (objects.find? fun o => o.1 = i.name hash ++ "-smask".toList).map fun m => { j with alpha := some m.2.data }

end Names

section Jpeg

/-- The data collected from a JPEG file: mode letter count, width and height, and the number of bytes `begin`, `end`. -/
structure JpegInfo where
  frame : Option (ℕ × ℕ × ℕ) := none
  dpi : Option (ℕ × ℕ × ℕ) := none
  start : ℕ := 0
deriving DecidableEq, Repr

/-- `data[pos]`. -/
def byte (data : List ℕ) (pos : ℕ) : Option ℕ := data[pos]?

/-- `struct.unpack(">H", ..)` at a position. -/
def word (data : List ℕ) (pos : ℕ) : Option ℕ := do
  let a ← byte data pos
  let b ← byte data (pos + 1)
  return 256 * a + b

/-- The loop of `jpegimage.__init__` (`bitmap.py:175-206`) with fuel; the arguments are the position, the nesting level and what has been found.
`none` is any exception. -/
def jpegLoop (data : List ℕ) : ℕ → ℕ → ℕ → JpegInfo → Option (JpegInfo × ℕ)
  | 0, _, _, _ => none
  | fuel + 1, pos, nest, s =>
    match byte data pos with
    | none => none
    | some b =>
      if b ≠ 0o377 then jpegLoop data fuel (pos + 1) nest s
      else
        match byte data (pos + 1) with
        | none => none
        | some m =>
          if m = 0 ∨ m = 0o377 then jpegLoop data fuel (pos + 1) nest s
          else if m = 0o330 then jpegLoop data fuel (pos + 1) (nest + 1) (if nest = 0 then { s with start := pos } else s)
          else if nest = 0 then none
          else if m = 0o331 then
            if nest = 1 then some (s, pos + 2) else jpegLoop data fuel (pos + 1) (nest - 1) s
          else if m = 0o300 ∨ m = 0o302 then
            match word data (pos + 2), byte data (pos + 4), word data (pos + 5), word data (pos + 7), byte data (pos + 9) with
            | some l, some bits, some height, some width, some comps =>
              if bits ≠ 8 then none
              else if comps = 1 ∨ comps = 3 ∨ comps = 4 then
                jpegLoop data fuel (pos + (l + 1) + 1) nest { s with frame := some (width, height, comps) }
              else none
            | _, _, _, _, _ => none
          else if m = 0o340 then
            match word data (pos + 2), byte data (pos + 11), word data (pos + 12), word data (pos + 14) with
            | some l, some kind, some xdpi, some ydpi =>
              jpegLoop data fuel (pos + (l + 1) + 1) nest (if kind = 1 ∨ kind = 2 then { s with dpi := some (kind, xdpi, ydpi) } else s)
            | _, _, _, _ => none
          else jpegLoop data fuel (pos + 1) nest s

/-- `jpegimage.__init__` (`bitmap.py:166-209`): width, height, components, data and the resolution. -/
def jpeg (data : List ℕ) : Option (ℕ × ℕ × ℕ × List ℕ × Option (ℕ × ℕ × ℕ)) :=
  match jpegLoop data (data.length + 1) 0 0 {} with
  | none => none
  | some (s, stop) =>
    match s.frame with
    | none => none
    | some (w, h, c) => if w = 0 ∨ h = 0 then none else some (w, h, c, (data.take stop).drop s.start, s.dpi)

end Jpeg

end PyX.Bitmap
