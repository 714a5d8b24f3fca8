import Mathlib.Algebra.Order.Floor.Ring
import Mathlib.Data.Rat.Floor
import Mathlib.Tactic.Ring
import Mathlib.Tactic.Linarith
import Mathlib.Tactic.NormNum
import Verif.Ascii85.Props
import Verif.Bitmap.Props

/-!
# C160: the colors of bitmaps in PostScript and PDF (`pyx/bitmap.py:34-41, 85-94, 269-322, 359-435, 445-558`)

Images are those of `bitmap.image` and `bitmap.jpegimage`. The dictionaries are records instead of text.
-/

set_option linter.unusedSectionVars false
set_option linter.unusedSimpArgs false

namespace PyX.Bitmap.Colors

open PyX.Bitmap PyX.Ascii85

inductive Filter
  | flate
  | dct
  | ascii85
deriving DecidableEq, Repr

/-- A color space: a device color space with some components, or one with a table of colors of a device color space. -/
inductive Space
  | device (n : ℕ)
  | indexed (n : ℕ) (hival : ℤ) (table : List ℕ)
deriving DecidableEq, Repr

/-- How the opacity is given. -/
inductive Opacity
  | none
  | interleaved (decode : ℕ × ℕ)
  | smask (filters : List Filter) (data : List ℕ)
deriving DecidableEq, Repr

/-- What an image dictionary tells (8 bits per component); `filters` in the order of decoding. -/
structure Dict where
  space : Space
  decode : List (ℕ × ℕ)
  filters : List Filter
  source : List ℕ
  opacity : Opacity
deriving DecidableEq, Repr

/-- A bitmap: an image with its `compressed` and `palette`, and the `compressmode`. -/
structure Bmp where
  image : Image ℕ
  compressed : Option Filter
  palette : Option (List Char × List ℕ)
  compressmode : Option Filter

/-- `devicenames` (`bitmap.py:34-36`): the number of components. -/
def device (mode : List Char) : Option ℕ :=
  if mode = ['L'] then some 1 else if mode = ['R', 'G', 'B'] then some 3 else if mode = ['C', 'M', 'Y', 'K'] then some 4 else none

/-- `decodestrings` (`bitmap.py:37-41`). -/
def decodestring (mode : List Char) : List (ℕ × ℕ) :=
  if mode = ['P'] then [(0, 255)] else List.replicate ((device mode).getD 0) (0, 1)

/-- There is an alpha channel. -/
def hasAlpha (mode : List Char) : Bool := mode.head? = some 'A' || mode.getLast? = some 'A'

/-- Compressing data (`bitmap.py:418-431`); `jpeg` is not supported by `image.tobytes` (`bitmap.py:128-131`). -/
def compressed (flate : List ℕ → List ℕ) (m : Option Filter) (data : List ℕ) : Option (List ℕ) :=
  match m with
  | none => some data
  | some .flate => some (flate data)
  | _ => none

/-- Compressing the alpha channel. -/
def compressedAlpha (flate : List ℕ → List ℕ) (m : Option Filter) : Alpha ℕ → Option (Alpha ℕ)
  | .band b => (compressed flate m b).map .band
  | a => some a

/-- The palette (`bitmap.py:404-417`); `convert` of `image` raises an exception. -/
def paletteOf (b : Bmp) (mode : List Char) : Option (Option (List Char × List ℕ)) :=
  if mode = ['P'] then
    match b.palette with
    | none => none
    | some p => if (device p.1).isSome then some (some p) else none
  else if (device mode).isSome then some none else none

/-- `imagedata` (`bitmap.py:359-435`), with the tests of the constructor (`bitmap.py:347-352`). Compressed images with alpha channel, which only can be made by hand, are taken as refused, which
holds unless the alpha channel comes first in PostScript. -/
def fullData (flate : List ℕ → List ℕ) (b : Bmp) (inter : Bool) : Option (List Char × List ℕ × Alpha ℕ × Option (List Char × List ℕ)) :=
  if b.compressed.isSome && (b.compressmode.isSome || hasAlpha b.image.mode) then none
  else
    match paletteOf b (imagedata b.image inter).1, compressed flate b.compressmode (imagedata b.image inter).2.1, compressedAlpha flate b.compressmode (imagedata b.image inter).2.2 with
    | some p, some d, some a => some ((imagedata b.image inter).1, d, a, p)
    | _, _, _ => none

/-- `"%i" % (len(palettedata)/3-1)` (`bitmap.py:307, 466`). -/
def hival (len : ℕ) : ℤ := if len = 0 then -1 else if len < 3 then 0 else (len / 3 : ℕ) - 1

/-- The color space (`bitmap.py:306-311, 465-474`). -/
def spaceOf (mode : List Char) (palette : Option (List Char × List ℕ)) : Space :=
  match palette with
  | some (pm, pd) => .indexed ((device pm).getD 0) (hival pd.length) pd
  | none => .device ((device mode).getD 0)

/-- The `/Filter` of a compression. -/
def asList : Option Filter → List Filter
  | some f => [f]
  | none => []

/-- `/Filter` (`bitmap.py:316-319, 522-525`): that of `compressmode`, or that of the image. -/
def filtersOf (b : Bmp) : List Filter := if b.compressmode.isSome then asList b.compressmode else asList b.compressed

/-- `processPDF` and `PDFimage` (`bitmap.py:269-322, 540-558`); there is no `Decode`, so the default applies: from 0 to 1, or the sample itself for tables. -/
def pdfDict (flate : List ℕ → List ℕ) (b : Bmp) : Option Dict :=
  match fullData flate b false with
  | none => none
  | some (mode, data, alpha, palette) =>
    some ⟨spaceOf mode palette, if palette.isSome then [(0, 255)] else List.replicate ((device mode).getD 0) (0, 1),
      filtersOf b, data,
      match alpha with
      | .band a => .smask (asList b.compressmode) a
      | _ => .none⟩

/-- `processPS` (`bitmap.py:445-538`). Stored data is what C88 shows to be read; for data in the file itself, `asciihexstream` raises a `TypeError` (`range` of a float, `bitmap.py:91`). -/
def psDict (flate : List ℕ → List ℕ) (storeimage : Bool) (binexpand : ℕ) (b : Bmp) : Option Dict :=
  match fullData flate b true with
  | none => none
  | some (mode, data, alpha, palette) =>
    if !storeimage && binexpand = 2 then none
    else
      some ⟨spaceOf mode palette, decodestring mode,
        (if storeimage then [] else [.ascii85]) ++ filtersOf b,
        if storeimage then data else ascii85stream data,
        match alpha with
        | .none => .none
        | _ => .interleaved (1, 0)⟩

/-! ## What a reader shows -/

/-- Some samples, if all are there. -/
def tuple : ℕ → (ℕ → Option ℕ) → Option (List ℕ)
  | 0, _ => some []
  | k + 1, f =>
    match tuple k f, f k with
    | some l, some a => some (l ++ [a])
    | _, _ => none

/-- Decoding a sample (PLRM 4.10.5, ISO 32000-1 8.9.5.2). -/
def decodeSample (d : ℕ × ℕ) (v : ℕ) : ℚ := d.1 + v * ((d.2 : ℚ) - d.1) / 255

/-- The components of a color; an index is rounded and moved into the range, and a table which is too short is an error (PLRM 4.8.4, ISO 32000-1 8.6.6.3). -/
def color : Space → List ℚ → Option (List ℚ)
  | .device n, c => if c.length = n then some c else none
  | .indexed n hival table, [x] =>
    if (table.length : ℤ) < n * (hival + 1) then none
    else (tuple n fun c => table[n * (max 0 (min ⌊x + 1 / 2⌋ hival)).toNat + c]?).map fun l => l.map fun v : ℕ => (v : ℚ) / 255
  | _, _ => none

/-- The filters, given what they do. -/
def unfilter (undo : Filter → List ℕ → Option (List ℕ)) : List Filter → List ℕ → Option (List ℕ)
  | [], d => some d
  | f :: fs, d => (undo f d).bind (unfilter undo fs)

/-- A mask sample of 0 paints the pixel, one of 1 does not; other ones have no meaning (PLRM 4.10.6). -/
def maskOpacity (x : ℚ) : Option ℚ := if x = 0 then some 1 else if x = 1 then some 0 else none

/-- The color and the opacity of a pixel. -/
def pixel (undo : Filter → List ℕ → Option (List ℕ)) (d : Dict) (p : ℕ) : Option (List ℚ × ℚ) :=
  match unfilter undo d.filters d.source with
  | none => none
  | some data =>
    match d.opacity with
    | .none => ((tuple d.decode.length fun c => data[p * d.decode.length + c]?).bind fun l => color d.space (List.zipWith decodeSample d.decode l)).map fun c => (c, 1)
    | .smask fs a =>
      (((tuple d.decode.length fun c => data[p * d.decode.length + c]?).bind fun l => color d.space (List.zipWith decodeSample d.decode l)).bind fun c =>
        ((unfilter undo fs a).bind fun a => a[p]?).map fun v : ℕ => (c, (v : ℚ) / 255))
    | .interleaved dec =>
      (((tuple d.decode.length fun c => data[p * (d.decode.length + 1) + (c + 1)]?).bind fun l => color d.space (List.zipWith decodeSample d.decode l)).bind fun c =>
        (data[p * (d.decode.length + 1)]?.bind fun v => maskOpacity (decodeSample dec v)).map fun o => (c, o))

/-! ## What is expected -/

/-- Where the alpha channel and the colors are in a pixel. -/
def alphaAt (mode : List Char) : ℕ := if mode.head? = some 'A' then 0 else mode.length - 1

def colorAt (mode : List Char) (c : ℕ) : ℕ := if mode.head? = some 'A' then c + 1 else c

/-- The number of color samples of a pixel. -/
def colors (mode : List Char) : ℕ := if hasAlpha mode then mode.length - 1 else mode.length

/-- The color samples of a pixel of the (not compressed) data of an image. -/
def samples (mode : List Char) (data : List ℕ) (p : ℕ) : Option (List ℕ) := tuple (colors mode) fun c => data[p * mode.length + colorAt mode c]?

/-- The opacity sample. -/
def alpha (mode : List Char) (data : List ℕ) (p : ℕ) : Option ℕ := if hasAlpha mode then data[p * mode.length + alphaAt mode]? else some 255

/-- 255 is a full component. -/
def parts (l : List ℕ) : List ℚ := l.map fun v : ℕ => (v : ℚ) / 255

/-- An entry of a palette. -/
def entry (n : ℕ) (table : List ℕ) (v : ℕ) : Option (List ℕ) := tuple n fun c => table[n * v + c]?

/-- The filters undo what the functions do. -/
structure Undoes (flate : List ℕ → List ℕ) (undo : Filter → List ℕ → Option (List ℕ)) : Prop where
  inflate : ∀ d, undo .flate (flate d) = some d
  ascii85 : ∀ d, (∀ v ∈ d, v < 256) → undo .ascii85 (ascii85stream d) = some d
  bytes : ∀ d, (∀ v ∈ d, v < 256) → ∀ v ∈ flate d, v < 256

/-- The data of the image, not compressed. -/
def plain (undo : Filter → List ℕ → Option (List ℕ)) (b : Bmp) : Option (List ℕ) :=
  match b.compressed with
  | none => some b.image.data
  | some f => undo f b.image.data

/-! ## Proofs -/

theorem tuple_congr (k : ℕ) (f g : ℕ → Option ℕ) (h : ∀ c < k, f c = g c) : tuple k f = tuple k g := by
  induction k with
  | zero => rfl
  | succ k ih => rw [tuple, tuple, ih fun c hc => h c (by omega), h k (by omega)]

theorem tuple_length (k : ℕ) (f : ℕ → Option ℕ) (l : List ℕ) (h : tuple k f = some l) : l.length = k := by
  induction k generalizing l with
  | zero => rw [tuple] at h; simp at h; rw [h]; rfl
  | succ k ih =>
    rw [tuple] at h
    cases h1 : tuple k f with
    | none => rw [h1] at h; simp at h
    | some l' =>
      cases h2 : f k with
      | none => rw [h1, h2] at h; simp at h
      | some a =>
        rw [h1, h2] at h
        simp only [Option.some.injEq] at h
        rw [← h]
        simp [ih l' h1]

theorem zip_device (k : ℕ) (l : List ℕ) (h : l.length = k) : List.zipWith decodeSample (List.replicate k (0, 1)) l = parts l := by
  induction l generalizing k with
  | nil => cases k <;> simp [parts]
  | cons a l ih =>
    cases k with
    | zero => simp at h
    | succ k =>
      rw [List.replicate_succ, List.zipWith_cons_cons, ih k (by simpa using h)]
      simp [parts, decodeSample]

theorem device_color (k : ℕ) (f : ℕ → Option ℕ) :
    ((tuple k f).bind fun l => color (.device k) (List.zipWith decodeSample (List.replicate k (0, 1)) l)) = (tuple k f).map parts := by
  cases h : tuple k f with
  | none => rfl
  | some l =>
    have hl := tuple_length k f l h
    rw [Option.bind_some, zip_device k l hl, color, if_pos (by simp [parts, hl])]
    rfl

theorem decode_index (v : ℕ) : decodeSample (0, 255) v = v := by
  unfold decodeSample
  push_cast
  ring

theorem floor_index (v : ℕ) : ⌊((v : ℚ) + 1 / 2)⌋ = (v : ℤ) := by
  rw [Int.floor_eq_iff]
  constructor
  · push_cast; linarith
  · push_cast; linarith

/-- A table with `N` entries, and an index in it. -/
theorem indexed_color (table : List ℕ) (N : ℕ) (hN : table.length = 3 * N) (v : ℕ) (hv : v < N) :
    color (.indexed 3 (hival table.length) table) (List.zipWith decodeSample [(0, 255)] [v]) = (entry 3 table v).map parts := by
  have hh : hival table.length = (N : ℤ) - 1 := by
    unfold hival
    rw [if_neg (by omega), if_neg (by omega), hN, Nat.mul_div_cancel_left _ (by decide)]
  rw [List.zipWith_cons_cons, List.zipWith_nil_left, color, decode_index, floor_index, hh, if_neg (by rw [hN]; push_cast; omega)]
  have : (max 0 (min (v : ℤ) ((N : ℤ) - 1))).toNat = v := by omega
  rw [this]
  rfl

theorem alpha_positions (mode : List Char) (h : hasAlpha mode = true) :
    (mode.head? = some 'A' ∧ alphaAt mode = 0 ∧ ∀ c, colorAt mode c = c + 1) ∨
      (mode.head? ≠ some 'A' ∧ mode.getLast? = some 'A' ∧ alphaAt mode = mode.length - 1 ∧ ∀ c, colorAt mode c = c) := by
  unfold alphaAt colorAt
  by_cases h1 : mode.head? = some 'A'
  · left
    exact ⟨h1, by rw [if_pos h1], fun c => by rw [if_pos h1]⟩
  · right
    refine ⟨h1, ?_, by rw [if_neg h1], fun c => by rw [if_neg h1]⟩
    unfold hasAlpha at h
    simpa [h1] using h

theorem imagedata_opaque (i : Image ℕ) (inter : Bool) (h : hasAlpha i.mode = false) : imagedata i inter = (i.mode, i.data, .none) := by
  unfold hasAlpha at h
  rw [Bool.or_eq_false_iff] at h
  unfold imagedata
  rw [if_neg (by simpa using h.1), if_neg (by simpa using h.2)]

theorem device_length {mode : List Char} {n : ℕ} (h : device mode = some n) : n = mode.length := by
  unfold device at h
  by_cases h1 : mode = ['L']
  · rw [if_pos h1] at h; simp at h; rw [h1, ← h]; rfl
  · rw [if_neg h1] at h
    by_cases h2 : mode = ['R', 'G', 'B']
    · rw [if_pos h2] at h; simp at h; rw [h2, ← h]; rfl
    · rw [if_neg h2] at h
      by_cases h3 : mode = ['C', 'M', 'Y', 'K']
      · rw [if_pos h3] at h; simp at h; rw [h3, ← h]; rfl
      · rw [if_neg h3] at h; cases h

theorem imagedata_mode_eq (i : Image ℕ) (a b : Bool) : (imagedata i a).1 = (imagedata i b).1 := by
  unfold imagedata
  split
  · cases a <;> cases b <;> rfl
  · split
    · cases a <;> cases b <;> rfl
    · rfl

/-- The mode without alpha channel. -/
def base (mode : List Char) : List Char := (imagedata ⟨1, 1, mode, ([] : List ℕ)⟩ true).1

theorem imagedata_base (i : Image ℕ) (inter : Bool) : (imagedata i inter).1 = base i.mode := by
  rw [imagedata_mode_eq i inter true]
  unfold base imagedata
  dsimp only
  split
  · rfl
  · split <;> rfl

/-- What is written as image data, and what is expected of it: the alpha channel in front, or taken out. -/
theorem fullData_ok {flate : List ℕ → List ℕ} {b : Bmp} {inter : Bool} {mode : List Char} {data : List ℕ} {a : Alpha ℕ} {pal : Option (List Char × List ℕ)}
    (h : fullData flate b inter = some (mode, data, a, pal)) :
    (b.compressed.isSome = true → b.compressmode = none ∧ hasAlpha b.image.mode = false) ∧ mode = base b.image.mode ∧ paletteOf b mode = some pal ∧
      compressed flate b.compressmode (imagedata b.image inter).2.1 = some data ∧ compressedAlpha flate b.compressmode (imagedata b.image inter).2.2 = some a := by
  unfold fullData at h
  by_cases hc : (b.compressed.isSome && (b.compressmode.isSome || hasAlpha b.image.mode)) = true
  · rw [if_pos hc] at h; cases h
  rw [if_neg hc] at h
  rw [imagedata_base] at h
  cases h1 : paletteOf b (base b.image.mode) with
  | none => rw [h1] at h; cases h
  | some p =>
    cases h2 : compressed flate b.compressmode (imagedata b.image inter).2.1 with
    | none => rw [h1, h2] at h; cases h
    | some d =>
      cases h3 : compressedAlpha flate b.compressmode (imagedata b.image inter).2.2 with
      | none => rw [h1, h2, h3] at h; cases h
      | some a' =>
        rw [h1, h2, h3] at h
        simp only [Option.some.injEq, Prod.mk.injEq] at h
        obtain ⟨rfl, rfl, rfl, rfl⟩ := h
        refine ⟨fun hs => ?_, rfl, h1, rfl, rfl⟩
        rw [hs] at hc
        cases hm : b.compressmode with
        | none => exact ⟨rfl, by rw [hm] at hc; simpa using hc⟩
        | some f => rw [hm] at hc; simp at hc

theorem unfilter_compressed {flate : List ℕ → List ℕ} {undo : Filter → List ℕ → Option (List ℕ)} (hu : Undoes flate undo) (m : Option Filter) (d e : List ℕ)
    (h : compressed flate m d = some e) : unfilter undo (asList m) e = some d := by
  unfold compressed at h
  cases m with
  | none => simp only [Option.some.injEq] at h; rw [h]; rfl
  | some f =>
    cases f with
    | flate =>
      simp only [Option.some.injEq] at h
      rw [← h]
      simp only [asList, unfilter, hu.inflate, Option.bind_some]
    | dct => simp at h
    | ascii85 => simp at h

/-- The filters give back the (not compressed) data. -/
theorem unfilter_data {flate : List ℕ → List ℕ} {undo : Filter → List ℕ → Option (List ℕ)} (hu : Undoes flate undo) {b : Bmp} {inter : Bool} {data : List ℕ}
    (h1 : b.compressed.isSome = true → b.compressmode = none ∧ hasAlpha b.image.mode = false) (h2 : compressed flate b.compressmode (imagedata b.image inter).2.1 = some data) :
    unfilter undo (filtersOf b) data = if b.compressed.isSome then plain undo b else some (imagedata b.image inter).2.1 := by
  unfold filtersOf
  cases hc : b.compressed with
  | none =>
    simp only [Option.isSome_none, Bool.false_eq_true, if_false]
    have := unfilter_compressed hu b.compressmode _ _ h2
    cases hm : b.compressmode with
    | none => rw [hm] at this; exact this
    | some f => rw [hm] at this; exact this
  | some f =>
    obtain ⟨e1, e2⟩ := h1 (by rw [hc]; rfl)
    rw [if_neg (by rw [e1]; simp), if_pos (by simp)]
    unfold plain
    rw [hc]
    dsimp only
    rw [e1] at h2
    simp only [compressed, Option.some.injEq] at h2
    rw [← h2, imagedata_opaque _ _ e2]
    dsimp only
    cases hf : undo f b.image.data with
    | none => simp [unfilter, asList, hf]
    | some d => simp [unfilter, asList, hf]

/-- A bitmap whose image has the right amount of data, if it is not compressed. -/
def Valid (b : Bmp) : Prop := b.compressed = none → b.image.Valid

theorem base_length {mode : List Char} (h : hasAlpha mode = true) : (base mode).length = mode.length - 1 := by
  unfold base imagedata
  dsimp only
  by_cases h1 : mode.head? = some 'A'
  · rw [if_pos h1]; simp
  · have h3 : mode.getLast? = some 'A' := by unfold hasAlpha at h; simpa [h1] using h
    rw [if_neg h1, if_pos h3]; simp

theorem base_opaque {mode : List Char} (h : hasAlpha mode = false) : base mode = mode := by
  unfold base
  rw [imagedata_opaque _ _ h]

theorem colors_base (mode : List Char) : colors mode = (base mode).length := by
  unfold colors
  cases h : hasAlpha mode with
  | true => rw [if_pos rfl, base_length h]
  | false => rw [if_neg (by simp), base_opaque h]

theorem samples_opaque {mode : List Char} (h : hasAlpha mode = false) (d : List ℕ) (p : ℕ) :
    samples mode d p = tuple mode.length fun c => d[p * mode.length + c]? := by
  unfold samples
  rw [colors_base, base_opaque h]
  refine tuple_congr _ _ _ fun c _ => ?_
  unfold colorAt
  rw [if_neg]
  intro he
  unfold hasAlpha at h
  simp [he] at h

/-- The samples of the separated data. -/
theorem samples_separate (i : Image ℕ) (hi : i.Valid) (h : hasAlpha i.mode = true) (h2 : 2 ≤ i.mode.length) (p : ℕ) :
    ∃ band, (imagedata i false).2.2 = .band band ∧ (∀ p, band[p]? = alpha i.mode i.data p) ∧
    samples i.mode i.data p = tuple (base i.mode).length fun c => (imagedata i false).2.1[p * (base i.mode).length + c]? := by
  obtain ⟨band, g1, _, g3, _, g5⟩ := imagedata_separate i hi (alphaAt i.mode) (colorAt i.mode) (alpha_positions _ h) h2
  refine ⟨band, g1, fun p => by rw [g3, alpha, if_pos h], ?_⟩
  unfold samples
  rw [colors_base, base_length h]
  exact tuple_congr _ _ _ fun c hc => (g5 p c hc).symm

theorem samples_interleaved (i : Image ℕ) (hi : i.Valid) (h : hasAlpha i.mode = true) (h2 : 2 ≤ i.mode.length) (p : ℕ) :
    (imagedata i true).2.2 = .front ∧ (imagedata i true).2.1[p * ((base i.mode).length + 1)]? = alpha i.mode i.data p ∧
    samples i.mode i.data p = tuple (base i.mode).length fun c => (imagedata i true).2.1[p * ((base i.mode).length + 1) + (c + 1)]? := by
  obtain ⟨g1, _, g3, g5⟩ := imagedata_interleaved i hi (alphaAt i.mode) (colorAt i.mode) (alpha_positions _ h) h2
  have e : (base i.mode).length + 1 = i.mode.length := by rw [base_length h]; omega
  rw [e]
  refine ⟨g1, by rw [g3, alpha, if_pos h], ?_⟩
  unfold samples
  rw [colors_base]
  exact tuple_congr _ _ _ fun c hc => (g5 p c (by omega)).symm

/-- The color expected. -/
def expected (b : Bmp) (s : List ℕ) : Option (List ℚ) :=
  if base b.image.mode = ['P'] then
    match b.palette, s with
    | some (pm, pd), [v] => ((device pm).bind fun n => entry n pd v).map parts
    | _, _ => none
  else some (parts s)

/-- The palette (if any) has colors of three components, and all indices are in it. -/
def GoodPalette (b : Bmp) (data : List ℕ) : Prop :=
  base b.image.mode = ['P'] → ∃ pd N, b.palette = some (['R', 'G', 'B'], pd) ∧ pd.length = 3 * N ∧ ∀ p l, samples b.image.mode data p = some l → ∀ v ∈ l, v < N

theorem space_color {b : Bmp} {mode : List Char} {pal : Option (List Char × List ℕ)} {data : List ℕ} (hm : mode = base b.image.mode) (hp : paletteOf b mode = some pal)
    (hg : GoodPalette b data) (p : ℕ) :
    ((samples b.image.mode data p).bind fun l => color (spaceOf mode pal) (List.zipWith decodeSample (decodestring mode) l)) = (samples b.image.mode data p).bind (expected b) ∧
    (decodestring mode).length = mode.length ∧ (if pal.isSome then [(0, 255)] else List.replicate ((device mode).getD 0) (0, 1)) = decodestring mode := by
  unfold paletteOf at hp
  unfold decodestring expected
  rw [← hm]
  by_cases hP : mode = ['P']
  · rw [if_pos hP] at hp
    obtain ⟨pd, N, e1, e2, e3⟩ := hg (by rw [← hm, hP])
    rw [e1] at hp
    dsimp only at hp
    have hd3 : device ['R', 'G', 'B'] = some 3 := by decide
    rw [hd3] at hp
    simp only [Option.isSome_some, if_true, Option.some.injEq] at hp
    subst hp
    rw [if_pos hP, e1]
    refine ⟨?_, by rw [hP]; rfl, rfl⟩
    cases hs : samples b.image.mode data p with
    | none => rfl
    | some l =>
      have hl : l.length = 1 := by
        have := tuple_length _ _ _ hs
        rw [colors_base, ← hm, hP] at this
        exact this
      match l, hl with
      | [v], _ =>
        rw [Option.bind_some, Option.bind_some]
        unfold spaceOf
        dsimp only
        rw [hd3, Option.getD_some, indexed_color pd N e2 v (e3 p [v] hs v (by simp)), if_pos hP]
        rfl
  · rw [if_neg hP] at hp
    cases hd : device mode with
    | none => rw [hd] at hp; simp at hp
    | some n =>
      rw [hd] at hp
      simp only [Option.isSome_some, if_true, Option.some.injEq] at hp
      subst hp
      rw [if_neg hP]
      have hn := device_length hd
      have hsp : spaceOf mode none = .device n := by unfold spaceOf; rw [hd]; rfl
      rw [hsp, Option.getD_some]
      refine ⟨?_, by rw [List.length_replicate, hn], rfl⟩
      have hs : samples b.image.mode data p = tuple n fun c => data[p * b.image.mode.length + colorAt b.image.mode c]? := by
        unfold samples
        rw [colors_base, ← hm, hn]
      rw [hs, device_color]
      simp only [if_neg hP]
      cases tuple n fun c => data[p * b.image.mode.length + colorAt b.image.mode c]? with
      | none => rfl
      | some l => rfl

/-- **C160.** PDF: each pixel of an image is shown in its color, that of its palette if it has one, and with its opacity. Missing: palettes of gray values and CMYK colors, where it does not hold (`gray_palette_wrong`, `cmyk_palette_wrong`). -/
theorem pdf_colors_partial {flate : List ℕ → List ℕ} {undo : Filter → List ℕ → Option (List ℕ)} (hu : Undoes flate undo) {b : Bmp} (hv : Valid b)
    (h2 : hasAlpha b.image.mode = true → 2 ≤ b.image.mode.length) {data : List ℕ} (hd : plain undo b = some data) (hg : GoodPalette b data) {d : Dict} (h : pdfDict flate b = some d) (p : ℕ) :
    pixel undo d p = ((samples b.image.mode data p).bind (expected b)).bind fun c => (alpha b.image.mode data p).map fun a : ℕ => (c, (a : ℚ) / 255) := by
  unfold pdfDict at h
  cases hf : fullData flate b false with
  | none => rw [hf] at h; cases h
  | some r =>
    obtain ⟨mode, dat, a, pal⟩ := r
    rw [hf] at h
    simp only [Option.some.injEq] at h
    obtain ⟨f1, f2, f3, f4, f5⟩ := fullData_ok hf
    obtain ⟨s1, s2, s3⟩ := space_color f2 f3 hg p
    have hun := unfilter_data hu f1 f4
    rw [← h]
    unfold pixel
    dsimp only
    change (match unfilter undo (filtersOf b) dat with
      | none => none
      | some data => _) = _
    rw [hun, s3, s2]
    cases ha : hasAlpha b.image.mode with
    | false =>
      have hb : base b.image.mode = b.image.mode := base_opaque ha
      have hdat : (if b.compressed.isSome = true then plain undo b else some (imagedata b.image false).2.1) = some data := by
        split
        · exact hd
        · rename_i hc
          unfold plain at hd
          cases hc' : b.compressed with
          | some f => rw [hc'] at hc; simp at hc
          | none => rw [hc'] at hd; rw [imagedata_opaque _ _ ha]; exact hd
      rw [hdat]
      rw [imagedata_opaque _ _ ha] at f5
      simp only [compressedAlpha, Option.some.injEq] at f5
      rw [← f5]
      dsimp only
      rw [f2, hb, ← samples_opaque ha data p]
      rw [f2, hb] at s1
      rw [s1, alpha, if_neg (by rw [ha]; simp)]
      cases (samples b.image.mode data p).bind (expected b) with
      | none => rfl
      | some c => simp
    | true =>
      have hc : b.compressed = none := by
        cases hc' : b.compressed with
        | none => rfl
        | some f => exact absurd (f1 (by rw [hc']; rfl)).2 (by rw [ha]; simp)
      unfold plain at hd
      rw [hc] at hd
      simp only [Option.some.injEq] at hd
      subst hd
      obtain ⟨band, g1, g2, g3⟩ := samples_separate b.image (hv hc) ha (h2 ha) p
      rw [hc, if_neg (by simp)]
      rw [g1] at f5
      simp only [compressedAlpha] at f5
      cases hcb : compressed flate b.compressmode band with
      | none => rw [hcb] at f5; cases f5
      | some e =>
        rw [hcb] at f5
        simp only [Option.map_some, Option.some.injEq] at f5
        rw [← f5]
        dsimp only
        rw [unfilter_compressed hu _ _ _ hcb, Option.bind_some, g2]
        rw [f2] at s1 ⊢
        rw [← g3, s1]

/-- The samples of the image data are bytes. -/
def Bytes (flate : List ℕ → List ℕ) (b : Bmp) : Prop := ∀ mode data a pal, fullData flate b true = some (mode, data, a, pal) → ∀ v ∈ data, v < 256

/-- **C160.** PostScript: each pixel of an image is shown in its color, that of its palette if it has one; it is shown if its opacity is full, and is not shown if it is zero. PostScript has nothing between, and
the data written for such an opacity has no meaning. Missing: as in `pdf_colors_partial`, and hexadecimal data (`ps_hex_fails`). -/
theorem ps_colors_partial {flate : List ℕ → List ℕ} {undo : Filter → List ℕ → Option (List ℕ)} (hu : Undoes flate undo) {b : Bmp} (hv : Valid b) (hb : Bytes flate b)
    (h2 : hasAlpha b.image.mode = true → 2 ≤ b.image.mode.length) {data : List ℕ} (hd : plain undo b = some data) (hg : GoodPalette b data) {store : Bool} {ex : ℕ} {d : Dict}
    (h : psDict flate store ex b = some d) (p : ℕ) :
    pixel undo d p = ((samples b.image.mode data p).bind (expected b)).bind fun c => (alpha b.image.mode data p).bind fun a =>
      if a = 255 then some (c, 1) else if a = 0 then some (c, 0) else none := by
  unfold psDict at h
  cases hf : fullData flate b true with
  | none => rw [hf] at h; cases h
  | some r =>
    obtain ⟨mode, dat, a, pal⟩ := r
    rw [hf] at h
    dsimp only at h
    by_cases hex : (!store && decide (ex = 2)) = true
    · rw [if_pos hex] at h; cases h
    rw [if_neg hex] at h
    simp only [Option.some.injEq] at h
    obtain ⟨f1, f2, f3, f4, f5⟩ := fullData_ok hf
    obtain ⟨s1, s2, s3⟩ := space_color f2 f3 hg p
    have hun := unfilter_data hu f1 f4
    have hun' : unfilter undo ((if store then [] else [.ascii85]) ++ filtersOf b) (if store then dat else ascii85stream dat) = unfilter undo (filtersOf b) dat := by
      cases store with
      | true => rfl
      | false =>
        simp only [Bool.false_eq_true, if_false, List.cons_append, List.nil_append, unfilter]
        rw [hu.ascii85 dat (hb _ _ _ _ hf), Option.bind_some]
    rw [← h]
    unfold pixel
    dsimp only
    change (match unfilter undo ((if store then [] else [.ascii85]) ++ filtersOf b) (if store then dat else ascii85stream dat) with
      | none => none
      | some data => _) = _
    rw [hun', hun, s2]
    cases ha : hasAlpha b.image.mode with
    | false =>
      have hb' : base b.image.mode = b.image.mode := base_opaque ha
      have hdat : (if b.compressed.isSome = true then plain undo b else some (imagedata b.image true).2.1) = some data := by
        split
        · exact hd
        · rename_i hc
          unfold plain at hd
          cases hc' : b.compressed with
          | some f => rw [hc'] at hc; simp at hc
          | none => rw [hc'] at hd; rw [imagedata_opaque _ _ ha]; exact hd
      rw [hdat]
      rw [imagedata_opaque _ _ ha] at f5
      simp only [compressedAlpha, Option.some.injEq] at f5
      rw [← f5]
      dsimp only
      rw [f2, hb', ← samples_opaque ha data p]
      rw [f2, hb'] at s1
      rw [s1, alpha, if_neg (by rw [ha]; simp)]
      cases (samples b.image.mode data p).bind (expected b) with
      | none => rfl
      | some c => simp
    | true =>
      have hc : b.compressed = none := by
        cases hc' : b.compressed with
        | none => rfl
        | some f => exact absurd (f1 (by rw [hc']; rfl)).2 (by rw [ha]; simp)
      unfold plain at hd
      rw [hc] at hd
      simp only [Option.some.injEq] at hd
      subst hd
      obtain ⟨g1, g2, g3⟩ := samples_interleaved b.image (hv hc) ha (h2 ha) p
      rw [hc, if_neg (by simp)]
      rw [g1] at f5
      simp only [compressedAlpha, Option.some.injEq] at f5
      rw [← f5]
      dsimp only
      rw [f2] at s1 ⊢
      rw [← g3, s1, g2]
      cases (samples b.image.mode b.image.data p).bind (expected b) with
      | none => rfl
      | some c =>
        rw [Option.bind_some, Option.bind_some]
        cases alpha b.image.mode b.image.data p with
        | none => rfl
        | some v =>
          rw [Option.bind_some, Option.bind_some]
          have hdv : decodeSample (1, 0) v = 1 - (v : ℚ) / 255 := by unfold decodeSample; push_cast; ring
          rw [hdv]
          unfold maskOpacity
          by_cases h1 : v = 255
          · subst h1; norm_num
          · by_cases h0 : v = 0
            · subst h0; norm_num
            · have e1 : ¬ ((1 : ℚ) - (v : ℚ) / 255 = 0) := by
                intro he
                have : (v : ℚ) = 255 := by linarith
                exact h1 (by exact_mod_cast this)
              have e2 : ¬ ((1 : ℚ) - (v : ℚ) / 255 = 1) := by
                intro he
                have : (v : ℚ) = 0 := by linarith
                exact h0 (by exact_mod_cast this)
              rw [if_neg e1, if_neg e2, if_neg h1, if_neg h0]
              rfl

/-- Filters which undo: data which is not changed, and the ASCII 85 decoder of C22. -/
def exUndo (f : Filter) (d : List ℕ) : Option (List ℕ) := if f = .ascii85 then decode [] d else some d

theorem ex_undoes : Undoes id exUndo where
  inflate := fun _ => rfl
  ascii85 := fun d h => by
    unfold exUndo
    rw [if_pos rfl]
    exact ascii85_roundtrip d h
  bytes := fun _ h => h

/-- **C160, violated.** A palette of gray values: only the first third of it is used, both in PDF and in PostScript. Here pixel 0 has the color 5 of the palette, but is shown with color 1. -/
theorem gray_palette_wrong :
    (pdfDict id ⟨⟨1, 1, ['P'], [5]⟩, none, some (['L'], [0, 51, 102, 153, 204, 255]), none⟩).bind (fun d => pixel exUndo d 0) = some ([1 / 5], 1) ∧
    (psDict id true 1 ⟨⟨1, 1, ['P'], [5]⟩, none, some (['L'], [0, 51, 102, 153, 204, 255]), none⟩).bind (fun d => pixel exUndo d 0) = some ([1 / 5], 1) ∧
    expected ⟨⟨1, 1, ['P'], [5]⟩, none, some (['L'], [0, 51, 102, 153, 204, 255]), none⟩ [5] = some [1] := by
  refine ⟨?_, ?_, ?_⟩
  · decide +kernel
  · decide +kernel
  · decide +kernel

/-- **C160, violated.** A palette of CMYK colors with three or more entries: its size is announced too large, which is an error for a reader. -/
theorem cmyk_palette_wrong (N : ℕ) (hN : 3 ≤ N) (table : List ℕ) (h : table.length = 4 * N) (x : ℚ) : color (.indexed 4 (hival table.length) table) [x] = none := by
  rw [color, if_pos]
  unfold hival
  rw [if_neg (by omega), if_neg (by omega), h]
  have : 4 * N < 4 * (4 * N / 3) := by omega
  push_cast
  have h2 : (4 * N : ℤ) < 4 * ((4 * N / 3 : ℕ) : ℤ) := by exact_mod_cast this
  push_cast at h2
  linarith

/-- **C160, violated.** Data in hexadecimal digits cannot be written. -/
theorem ps_hex_fails (flate : List ℕ → List ℕ) (b : Bmp) : psDict flate false 2 b = none := by
  unfold psDict
  cases fullData flate b true with
  | none => rfl
  | some r => rfl

/-- An image with two pixels, red and half-transparent, and green and opaque; one with a palette. -/
theorem ex_pixels :
    (pdfDict id ⟨⟨2, 1, ['R', 'G', 'B', 'A'], [255, 0, 0, 51, 0, 255, 0, 255]⟩, none, none, none⟩).map (fun d => (pixel exUndo d 0, pixel exUndo d 1)) =
      some (some ([1, 0, 0], 1 / 5), some ([0, 1, 0], 1)) ∧
    (psDict id true 1 ⟨⟨2, 1, ['R', 'G', 'B', 'A'], [255, 0, 0, 51, 0, 255, 0, 255]⟩, none, none, none⟩).map (fun d => (pixel exUndo d 0, pixel exUndo d 1)) =
      some (none, some ([0, 1, 0], 1)) ∧
    (psDict id false 1 ⟨⟨2, 1, ['P'], [1, 0]⟩, none, some (['R', 'G', 'B'], [0, 51, 102, 255, 255, 0]), none⟩).map (fun d => (pixel exUndo d 0, pixel exUndo d 1)) =
      some (some ([1, 1, 0], 1), some ([0, 1 / 5, 2 / 5], 1)) := by
  refine ⟨?_, ?_, ?_⟩ <;> decide +kernel

end PyX.Bitmap.Colors
