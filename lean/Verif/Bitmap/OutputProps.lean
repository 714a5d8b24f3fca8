import Mathlib.Data.List.Basic
import Mathlib.Algebra.Field.Rat
import Mathlib.Tactic.FieldSimp
import Mathlib.Tactic.Ring
import Mathlib.Tactic.Linarith
import Mathlib.Tactic.LinearCombination
import Mathlib.Tactic.Push
import Mathlib.Tactic.SplitIfs
import Mathlib.Tactic.Tauto
import Verif.Bitmap.Output
import Verif.Ascii85.Props

/-!
# C86: bitmaps are placed alike in all output formats
# C87: different images are different resources
# C88: PostScript image data read back as the image data
# C89: JPEG files
-/

set_option linter.unusedSectionVars false

namespace PyX.Bitmap

section Placement

variable {K : Type*} [Field K] [DecidableEq K]

/-- Where the corner `(i, j)` of the pixel grid (columns from the left, rows from the top) has to be: the image fills the unit square, which is mapped by the transformation. -/
def corner (w h : K) (t : Trafo K) (i j : K) : K × K := t.apply (i / w, 1 - j / h)

/-- **C86 (PostScript)** The image matrix maps the position of every corner of the pixel grid in user space to its coordinates in image space, as required for `/ImageMatrix`. -/
theorem ps_placement (w h : K) (hw : w ≠ 0) (hh : h ≠ 0) (t m : Trafo K) (hm : pstrafo w h t = some m) (i j : K) :
    m.apply (corner w h t i j) = (i, j) := by
  unfold pstrafo at hm
  simp only [Trafo.scale, Option.getD_some] at hm
  unfold Trafo.inverse at hm
  simp only at hm
  by_cases hdet : t.det = 0
  · simp [hdet] at hm
  · simp only [hdet, if_false, Option.some.injEq] at hm
    subst hm
    unfold corner Trafo.det at *
    simp only [Trafo.mul, Trafo.translate, Trafo.apply, Prod.mk.injEq]
    generalize hD : t.a * t.d - t.b * t.c = D at hdet
    constructor
    · field_simp
      subst hD
      ring
    · field_simp
      subst hD
      ring

/-- It exists for every invertible transformation. -/
theorem ps_placement_total (w h : K) (t : Trafo K) (ht : t.det ≠ 0) : (pstrafo w h t).isSome := by
  unfold pstrafo Trafo.scale Trafo.inverse
  simp [ht]

/-- **C86 (PDF)** PDF paints an image into the unit square of the user space, first row at the top; with the six numbers written by the transformation, read as a PDF matrix, the corner is at the right place. -/
theorem pdf_placement (w h : K) (t : Trafo K) (i j : K) :
    (match t.psNumbers with
      | [A, B, C, D, E, F] => (A * (i / w) + C * (1 - j / h) + E, B * (i / w) + D * (1 - j / h) + F)
      | _ => (0, 0)) = corner w h t i j := by
  simp only [Trafo.psNumbers, corner, Trafo.apply]

/-- **C86 (SVG)** SVG paints the image into the rectangle at `(0, -1)` of size `1 x 1` with the `y` axis pointing down; with the `transform` attribute the corner appears at the right place (with `y` reversed, as everything in SVG). -/
theorem svg_placement (w h : K) (t : Trafo K) (i j : K) :
    t.svgAttr.apply (0 + 1 * (i / w), -1 + 1 * (j / h)) = ((corner w h t i j).1, -(corner w h t i j).2) := by
  simp only [Trafo.svgAttr, corner, Trafo.apply, Prod.mk.injEq]
  constructor <;> ring

/-- **C86 (`bitmap`)** The corners of a `bitmap_pt` are at the positions expected from its arguments: the lower left corner at `(x, y)` and the size as returned by `bitmapSize`. -/
theorem bitmap_placement (x y w h : K) (width height ratio : Option K) (dpi : Option (K × K)) (t : Trafo K) (hw : w ≠ 0) (hh : h ≠ 0)
    (ht : bitmapTrafo x y w h width height ratio dpi = some t) :
    corner w h t 0 h = (x, y) ∧ ∃ wp hp, bitmapSize w h width height ratio dpi = some (wp, hp) ∧ corner w h t w 0 = (x + wp, y + hp) := by
  unfold bitmapTrafo at ht
  cases e : bitmapSize w h width height ratio dpi with
  | none => simp [e] at ht
  | some s =>
    simp only [e, Option.map_some, Option.some.injEq] at ht
    subst ht
    refine ⟨?_, s.1, s.2, rfl, ?_⟩
    · simp [corner, Trafo.apply, hh]
    · simp only [corner, Trafo.apply, div_self hw, zero_div, Prod.mk.injEq]
      constructor <;> ring

/-- **C86 (aspect ratio)** A given width or height is used; the aspect ratio of the pixels is kept if only one is given without a ratio, else it is the given ratio; without both the resolution counts. -/
theorem bitmap_size (w h : K) (hw : w ≠ 0) (hh : h ≠ 0) (width height ratio : Option K) (dpi : Option (K × K)) (wp hp : K)
    (hs : bitmapSize w h width height ratio dpi = some (wp, hp)) :
    (∀ a, width = some a → wp = a) ∧ (∀ a, height = some a → hp = a) ∧
      (∀ r, ratio = some r → wp = r * hp ∧ (width = none ∨ height = none) ∧ ¬ (width = none ∧ height = none)) ∧
      (ratio = none → (width = none ∨ height = none) → ¬ (width = none ∧ height = none) → wp * h = hp * w) ∧
      (width = none → height = none → ∃ dx dy, dpi = some (dx, dy) ∧ wp * dx = 72 * w ∧ hp * dy = 72 * h) := by
  rcases width with _ | a <;> rcases height with _ | b <;> rcases ratio with _ | r <;> simp only [bitmapSize] at hs
  · rcases dpi with _ | ⟨dx, dy⟩
    · simp at hs
    · simp only at hs
      split_ifs at hs with hd
      push Not at hd
      simp only [Option.some.injEq, Prod.mk.injEq] at hs
      refine ⟨by simp, by simp, by simp, by simp, fun _ _ => ⟨dx, dy, rfl, ?_, ?_⟩⟩
      · rw [← hs.1, div_mul_cancel₀ _ hd.1]
      · rw [← hs.2, div_mul_cancel₀ _ hd.2]
  · simp at hs
  · simp only [Option.some.injEq, Prod.mk.injEq] at hs
    obtain ⟨h1, h2⟩ := hs
    refine ⟨by simp, by simp [h2], by simp, ?_, by simp⟩
    intro _ _ _
    rw [← h1, ← h2, div_mul_cancel₀ _ hh]
  · simp only [Option.some.injEq, Prod.mk.injEq] at hs
    obtain ⟨h1, h2⟩ := hs
    refine ⟨by simp, by simp [h2], ?_, by simp, by simp⟩
    intro r' hr'
    cases hr'
    exact ⟨by rw [← h1, ← h2], by simp, by simp⟩
  · simp only [Option.some.injEq, Prod.mk.injEq] at hs
    obtain ⟨h1, h2⟩ := hs
    refine ⟨by simp [h1], by simp, by simp, ?_, by simp⟩
    intro _ _ _
    rw [← h1, ← h2, div_mul_cancel₀ _ hw]
  · split_ifs at hs with hr
    simp only [Option.some.injEq, Prod.mk.injEq] at hs
    obtain ⟨h1, h2⟩ := hs
    refine ⟨by simp [h1], by simp, ?_, by simp, by simp⟩
    intro r' hr'
    cases hr'
    refine ⟨?_, by simp, by simp⟩
    rw [← h1, ← h2]
    field_simp
  · simp only [Option.some.injEq, Prod.mk.injEq] at hs
    obtain ⟨h1, h2⟩ := hs
    exact ⟨by simp [h1], by simp [h2], by simp, by simp, by simp⟩
  · simp at hs

example : bitmapSize (200 : ℚ) 100 (some 50) none none none = some (50, 25) := by norm_num [bitmapSize]
example : (pstrafo (200 : ℚ) 100 ⟨50, 0, 0, 25, 10, 20⟩).map (fun m => m.apply (10, 20)) = some (0, 100) := by
  norm_num [pstrafo, Trafo.scale, Trafo.inverse, Trafo.mul, Trafo.det, Trafo.translate, Trafo.apply]

end Placement

/-! ## C87 -/

section Names

/-- The claim: in a document with the bitmaps `is` each of them is painted as itself. -/
def EachPainted (hash : List ℕ → List Char) (is : List PdfImage) : Prop := ∀ i ∈ is, painted hash (addBitmaps hash is) i = some i

/-- **C87 is false.** Two images with the same bytes but different width and height share one object, as the name is made from the bytes only: the second one is
painted with the size of the first one. -/
theorem same_bytes_wrong (hash : List ℕ → List Char) (c : List Char) :
    painted hash (addBitmaps hash [⟨2, 1, "L".toList, [0, 255], none, c⟩, ⟨1, 2, "L".toList, [0, 255], none, c⟩])
      ⟨1, 2, "L".toList, [0, 255], none, c⟩ = some ⟨2, 1, "L".toList, [0, 255], none, c⟩ := by
  simp [painted, addBitmaps, PdfImage.objects, addImage, PdfImage.name]

/-- So the claim fails for every hash function. -/
theorem each_painted_wrong (hash : List ℕ → List Char) : ∃ is, ¬ EachPainted hash is := by
  refine ⟨[⟨2, 1, "L".toList, [0, 255], none, "Flate".toList⟩, ⟨1, 2, "L".toList, [0, 255], none, "Flate".toList⟩], fun h => ?_⟩
  have := h ⟨1, 2, "L".toList, [0, 255], none, "Flate".toList⟩ (by simp)
  rw [same_bytes_wrong] at this
  simp at this

/-- **C87 (alpha)** The same happens to images that differ in the alpha channel only. -/
theorem same_colours_wrong (hash : List ℕ → List Char) (c : List Char) :
    painted hash (addBitmaps hash [⟨1, 1, "L".toList, [7], some [0], c⟩, ⟨1, 1, "L".toList, [7], some [255], c⟩])
      ⟨1, 1, "L".toList, [7], some [255], c⟩ = some ⟨1, 1, "L".toList, [7], some [0], c⟩ := by
  simp [painted, addBitmaps, PdfImage.objects, addImage, PdfImage.name]

theorem addImage_find (objects : List (List Char × PdfImage)) (o : List Char × PdfImage) (n : List Char) :
    (addImage objects o).find? (fun p => p.1 = n) = ((objects.find? fun p => p.1 = n).or (if o.1 = n then some o else none)) := by
  unfold addImage
  split_ifs with h1 h2 h2
  · rw [List.mem_map] at h1
    obtain ⟨p, hp, hpo⟩ := h1
    cases e : objects.find? (fun p => p.1 = n) with
    | none =>
      have := List.find?_eq_none.mp e p hp
      rw [hpo, h2] at this
      simp at this
    | some q => rfl
  · cases objects.find? (fun p => p.1 = n) <;> rfl
  · rw [List.find?_append]
    simp [h2]
  · rw [List.find?_append]
    simp [h2]

theorem foldl_find (l : List (List Char × PdfImage)) (n : List Char) : ∀ objects,
    (l.foldl addImage objects).find? (fun p => p.1 = n) = (objects.find? fun p => p.1 = n).or (l.find? fun p => p.1 = n) := by
  induction l with
  | nil => intro objects; simp
  | cons o l ih =>
    intro objects
    rw [List.foldl_cons, ih, addImage_find, List.find?_cons]
    by_cases h : o.1 = n
    · simp [h, Option.or_assoc]
    · simp [h]

theorem find_unique {l : List (List Char × PdfImage)} {n : List Char} {o : PdfImage} (hmem : (n, o) ∈ l) (hu : ∀ p ∈ l, p.1 = n → p.2 = o) :
    l.find? (fun p => p.1 = n) = some (n, o) := by
  cases e : l.find? (fun p => p.1 = n) with
  | none =>
    have := List.find?_eq_none.mp e _ hmem
    simp at this
  | some q =>
    have h1 := List.mem_of_find?_eq_some e
    have h2 := List.find?_some e
    simp only [decide_eq_true_eq] at h2
    have h3 := hu q h1 h2
    obtain ⟨q1, q2⟩ := q
    simp only at h2 h3
    rw [h2, h3]

/-- **C87, partial.** If different bitmaps of the document have different colour data or compression, and the hash is injective with results of one length containing no `-`, then each bitmap is painted as itself. -/
theorem each_painted_partial (hash : List ℕ → List Char) (hinj : Function.Injective hash) (len : ℕ) (hlen : ∀ d, (hash d).length = len)
    (is : List PdfImage) (hcomp : ∀ i ∈ is, '-' ∉ i.compress)
    (hdiff : ∀ i ∈ is, ∀ j ∈ is, i.data = j.data → i.compress = j.compress → i = j) : EachPainted hash is := by
  have name_inj : ∀ i j : PdfImage, i.name hash = j.name hash → i.data = j.data ∧ i.compress = j.compress := by
    intro i j h
    unfold PdfImage.name at h
    rw [List.append_assoc, List.append_assoc, List.append_cancel_left_eq] at h
    obtain ⟨h1, h2⟩ := List.append_inj h (by rw [hlen, hlen])
    exact ⟨hinj h1, List.tail_eq_of_cons_eq h2⟩
  have name_mask : ∀ i ∈ is, ∀ j ∈ is, i.name hash ≠ j.name hash ++ "-smask".toList := by
    intro i hi j hj h
    unfold PdfImage.name at h
    rw [List.append_assoc, List.append_assoc, List.append_assoc, List.append_cancel_left_eq] at h
    obtain ⟨h1, h2⟩ := List.append_inj h (by rw [hlen, hlen])
    have h3 := List.tail_eq_of_cons_eq h2
    apply hcomp i hi
    rw [h3]
    simp
  intro i hi
  have hmem : ∀ p, p ∈ is.flatMap (PdfImage.objects hash) ↔ ∃ j ∈ is, p ∈ PdfImage.objects hash j := by
    intro p; rw [List.mem_flatMap]
  have himg : (is.flatMap (PdfImage.objects hash)).find? (fun p => p.1 = i.name hash) = some (i.name hash, i) := by
    apply find_unique
    · exact (hmem _).mpr ⟨i, hi, by unfold PdfImage.objects; simp⟩
    · intro p hp hpn
      obtain ⟨j, hj, hpj⟩ := (hmem p).mp hp
      unfold PdfImage.objects at hpj
      rcases List.mem_append.mp hpj with h | h
      · cases ha : j.alpha with
        | none => simp [ha] at h
        | some a =>
          simp only [ha, List.mem_singleton] at h
          rw [h] at hpn
          exact absurd hpn.symm (name_mask i hi j hj)
      · rw [List.mem_singleton] at h
        rw [h] at hpn
        obtain ⟨e1, e2⟩ := name_inj j i hpn
        rw [h]
        exact hdiff j hj i hi e1 e2
  unfold painted addBitmaps
  rw [foldl_find]
  simp only [List.find?_nil, Option.none_or, himg]
  cases ha : i.alpha with
  | none =>
    simp only [Option.some.injEq]
    obtain ⟨⟩ := i
    simp_all
  | some a =>
    have hmask : (is.flatMap (PdfImage.objects hash)).find? (fun p => p.1 = i.name hash ++ "-smask".toList) =
        some (i.name hash ++ "-smask".toList, ⟨i.width, i.height, "L".toList, a, none, i.compress⟩) := by
      apply find_unique
      · exact (hmem _).mpr ⟨i, hi, by unfold PdfImage.objects; simp [ha]⟩
      · intro p hp hpn
        obtain ⟨j, hj, hpj⟩ := (hmem p).mp hp
        unfold PdfImage.objects at hpj
        rcases List.mem_append.mp hpj with h | h
        · cases hb : j.alpha with
          | none => simp [hb] at h
          | some b =>
            simp only [hb, List.mem_singleton] at h
            rw [h] at hpn
            have hn : j.name hash = i.name hash := List.append_cancel_right hpn
            obtain ⟨e1, e2⟩ := name_inj j i hn
            have hji := hdiff j hj i hi e1 e2
            subst hji
            rw [ha] at hb
            cases hb
            rw [h]
        · rw [List.mem_singleton] at h
          rw [h] at hpn
          exact absurd hpn (name_mask j hj i hi)
    simp only
    rw [foldl_find]
    simp only [List.find?_nil, Option.none_or, hmask, Option.map_some, Option.some.injEq]
    obtain ⟨⟩ := i
    simp_all

end Names

/-! ## C88 -/

section PSData

open PyX.Ascii85

/-- A PostScript scanner for the strings `<~ … ~>` of an array: the decoded strings.  White space between strings is skipped; `]` ends the array. -/
def readStrings : ℕ → List ℕ → Option (List (List ℕ))
  | 0, _ => none
  | n + 1, cs =>
    match cs with
    | 93 :: _ => some []
    | 10 :: r => readStrings n r
    | 32 :: r => readStrings n r
    | 60 :: 126 :: r =>
      match decode [] (r.takeWhile (· ≠ 126)), r.dropWhile (· ≠ 126) with
      | some s, 126 :: 62 :: r' => (readStrings n r').map (s :: ·)
      | _, _ => none
    | _ => none

theorem takeWhile_stream (s r : List ℕ) (h : 126 ∉ s) : (s ++ 126 :: r).takeWhile (· ≠ 126) = s ∧ (s ++ 126 :: r).dropWhile (· ≠ 126) = 126 :: r := by
  induction s with
  | nil => simp
  | cons a s ih =>
    have ha : a ≠ 126 := fun e => h (by simp [e])
    have ih := ih fun e => h (List.mem_cons_of_mem _ e)
    simp [ha] at ih ⊢
    exact ih

theorem no_tilde (data : List ℕ) (h : ∀ b ∈ data, b < 256) : 126 ∉ ascii85stream data := by
  intro e
  rcases ascii85_legal data h 126 e with h | h <;> omega

theorem readStrings_string (n : ℕ) (data r : List ℕ) (h : ∀ b ∈ data, b < 256) :
    readStrings (n + 1) ([60, 126] ++ ascii85stream data ++ 126 :: 62 :: r) = (readStrings n r).map (data :: ·) := by
  obtain ⟨h1, h2⟩ := takeWhile_stream (ascii85stream data) (62 :: r) (no_tilde data h)
  simp only [List.cons_append, List.nil_append, readStrings]
  simp only [h1, h2, ascii85_roundtrip data h]

theorem readStrings_chunks (m : ℕ) (hm : 0 < m) (n : ℕ) : ∀ (data r : List ℕ) (fuel : ℕ), data.length / m = n → (∀ b ∈ data, b < 256) → 2 * n + 2 ≤ fuel →
    ∃ L, readStrings fuel (chunks m n data ++ 93 :: r) = some L ∧ L.flatten = data ∧ (∀ s ∈ L, s.length ≤ m) ∧ (∀ s ∈ L, s ≠ []) := by
  induction n with
  | zero =>
    intro data r fuel hn hb hf
    obtain ⟨fuel, rfl⟩ : ∃ k, fuel = k + 2 := ⟨fuel - 2, by omega⟩
    rw [chunks]
    split_ifs with hd
    · subst hd
      exact ⟨[], rfl, rfl, by simp, by simp⟩
    · refine ⟨[data], ?_, by simp, ?_, by simpa using hd⟩
      · rw [show [60, 126] ++ ascii85stream data ++ [126, 62] ++ 93 :: r = [60, 126] ++ ascii85stream data ++ 126 :: 62 :: (93 :: r) from by simp,
          readStrings_string _ _ _ hb]
        simp [readStrings]
      · intro s hs
        rw [List.mem_singleton.mp hs]
        have := (Nat.div_eq_zero_iff_lt hm).mp hn
        omega
  | succ n ih =>
    intro data r fuel hn hb hf
    obtain ⟨fuel, rfl⟩ : ∃ k, fuel = k + 2 := ⟨fuel - 2, by omega⟩
    have hle : m ≤ data.length := by
      by_contra hlt
      rw [Nat.div_eq_of_lt (by omega)] at hn
      omega
    have hdrop : (data.drop m).length / m = n := by
      rw [List.length_drop]
      have : data.length = (data.length - m) + m := by omega
      rw [this, Nat.add_div_right _ hm] at hn
      omega
    obtain ⟨L, h1, h2, h3, h4⟩ := ih (data.drop m) r fuel hdrop (fun b hb' => hb b (List.mem_of_mem_drop hb')) (by omega)
    have hne : data.take m ≠ [] := by
      intro e
      have := congrArg List.length e
      rw [List.length_take, List.length_nil] at this
      omega
    refine ⟨data.take m :: L, ?_, by rw [List.flatten_cons, h2, List.take_append_drop], ?_, ?_⟩
    · rw [chunks, show [60, 126] ++ ascii85stream (data.take m) ++ [126, 62, 10] ++ chunks m n (data.drop m) ++ 93 :: r =
          [60, 126] ++ ascii85stream (data.take m) ++ 126 :: 62 :: (10 :: (chunks m n (data.drop m) ++ 93 :: r)) from by simp,
        readStrings_string _ _ _ (fun b hb' => hb b (List.mem_of_mem_take hb')), readStrings, h1]
      rfl
    · intro s hs
      rcases List.mem_cons.mp hs with rfl | hs
      · simp
      · exact h3 s hs
    · intro s hs
      rcases List.mem_cons.mp hs with rfl | hs
      · exact hne
      · exact h4 s hs

/-- **C88** The array of strings written for stored image data is read by a PostScript scanner as a sequence of strings, none of them empty or longer than the limit, that together are the image data. -/
theorem stringarray (maxstrlen : ℕ) (hm : 0 < maxstrlen) (data : List ℕ) (hb : ∀ b ∈ data, b < 256) :
    ∃ body L fuel, outputChunked maxstrlen data = 91 :: body ∧ readStrings fuel body = some L ∧ L.flatten = data ∧ (∀ s ∈ L, s.length ≤ maxstrlen) ∧ (∀ s ∈ L, s ≠ []) := by
  obtain ⟨L, h1, h2, h3, h4⟩ := readStrings_chunks maxstrlen hm _ data [10] (2 * (data.length / maxstrlen) + 2) rfl hb le_rfl
  refine ⟨32 :: (chunks maxstrlen (data.length / maxstrlen) data ++ [93, 10]), L, 2 * (data.length / maxstrlen) + 3, by simp [outputChunked], ?_, h2, h3, h4⟩
  rw [readStrings]
  exact h1

example : (readStrings 20 (outputChunked 4 [1, 2, 3, 4, 5, 6]).tail) = some [[1, 2, 3, 4], [5, 6]] := by decide +kernel

end PSData

/-! ## C89 -/

section Jpeg

/-- The parts of a JPEG file. -/
inductive Item where
  /-- a byte of entropy-coded data or of a segment, other than 255 -/
  | plain (b : ℕ)
  /-- the byte 255 in entropy-coded data -/
  | stuffed
  /-- a marker without meaning for the size -/
  | marker (m : ℕ)
  /-- a frame header (baseline or progressive) -/
  | frame (progressive : Bool) (height width comps : ℕ) (rest : List ℕ)
  /-- the JFIF header -/
  | jfif (id : List ℕ) (version : ℕ × ℕ) (kind xdpi ydpi : ℕ) (rest : List ℕ)

/-- Two bytes. -/
def be (n : ℕ) : List ℕ := [n / 256, n % 256]

/-- The bytes of a part. -/
def Item.bytes : Item → List ℕ
  | .plain b => [b]
  | .stuffed => [255, 0]
  | .marker m => [255, m]
  | .frame p h w c rest => [255, if p then 0xc2 else 0xc0] ++ be (8 + rest.length) ++ [8] ++ be h ++ be w ++ [c] ++ rest
  | .jfif id v k x y rest => [255, 0xe0] ++ be (14 + rest.length) ++ id ++ [v.1, v.2, k] ++ be x ++ be y ++ rest

/-- The parts are as the specification of JPEG requires. -/
def Item.Ok : Item → Prop
  | .plain b => b ≠ 255
  | .stuffed => True
  | .marker m => m ∉ [0, 255, 0xd8, 0xd9, 0xc0, 0xc2, 0xe0]
  | .frame _ _ _ c _ => c = 1 ∨ c = 3 ∨ c = 4
  | .jfif id _ _ _ _ _ => id.length = 5

/-- What a part tells about the image. -/
def Item.info (s : JpegInfo) : Item → JpegInfo
  | .frame _ h w c _ => { s with frame := some (w, h, c) }
  | .jfif _ _ k x y _ => if k = 1 ∨ k = 2 then { s with dpi := some (k, x, y) } else s
  | _ => s

theorem byte_at (a b : List ℕ) (k : ℕ) : byte (a ++ b) (a.length + k) = b[k]? := by
  unfold byte
  rw [List.getElem?_append_right (by omega)]
  congr 1
  omega

theorem be_word (n : ℕ) : 256 * (n / 256) + n % 256 = n := by omega

/-- The loop skips a part. -/
theorem jpegLoop_item (it : Item) (hit : it.Ok) (a b : List ℕ) (nest fuel : ℕ) (s : JpegInfo) (hn : 0 < nest) (hf : (it.bytes ++ b).length < fuel) :
    ∃ fuel', b.length < fuel' ∧ jpegLoop (a ++ (it.bytes ++ b)) fuel a.length nest s =
      jpegLoop (a ++ (it.bytes ++ b)) fuel' (a ++ it.bytes).length nest (it.info s) := by
  obtain ⟨fuel, rfl⟩ : ∃ k, fuel = k + 1 := ⟨fuel - 1, by omega⟩
  have at' := fun k => byte_at a (it.bytes ++ b) k
  have at0 := at' 0
  rw [Nat.add_zero] at at0
  cases it with
  | plain c =>
    refine ⟨fuel, by simp [Item.bytes] at hf; omega, ?_⟩
    simp only [Item.Ok] at hit
    simp only [Item.bytes, Item.info] at at0 ⊢
    rw [jpegLoop, at0]
    simp [hit]
  | stuffed =>
    obtain ⟨fuel, rfl⟩ : ∃ k, fuel = k + 1 := ⟨fuel - 1, by simp [Item.bytes] at hf; omega⟩
    refine ⟨fuel, by simp [Item.bytes] at hf; omega, ?_⟩
    have at1 := at' 1
    simp only [Item.bytes, Item.info] at at0 at1 ⊢
    rw [jpegLoop, at0]
    simp only [List.cons_append, List.nil_append, List.getElem?_cons_zero]
    rw [if_neg (by simp)]
    simp only [List.cons_append, List.nil_append] at at1
    rw [at1]
    simp only [List.getElem?_cons_succ, List.getElem?_cons_zero, true_or, if_true]
    rw [jpegLoop, at1]
    simp
  | marker m =>
    obtain ⟨fuel, rfl⟩ : ∃ k, fuel = k + 1 := ⟨fuel - 1, by simp [Item.bytes] at hf; omega⟩
    refine ⟨fuel, by simp [Item.bytes] at hf; omega, ?_⟩
    have at1 := at' 1
    simp only [Item.Ok, List.mem_cons, List.not_mem_nil, or_false, not_or] at hit
    obtain ⟨i1, i2, i3, i4, i5, i6, i7⟩ := hit
    simp only [Item.bytes, Item.info, List.cons_append, List.nil_append] at at0 at1 ⊢
    rw [jpegLoop, at0]
    simp only [List.getElem?_cons_zero]
    rw [if_neg (by simp), at1]
    simp only [List.getElem?_cons_succ, List.getElem?_cons_zero]
    rw [if_neg (by tauto), if_neg (by exact i3), if_neg (by omega), if_neg (by exact i4), if_neg (by tauto), if_neg (by exact i7)]
    rw [jpegLoop, at1]
    simp only [List.getElem?_cons_succ, List.getElem?_cons_zero]
    rw [if_pos i2]
    simp
  | frame p h w c rest =>
    simp only [Item.Ok] at hit
    refine ⟨fuel, ?_, ?_⟩
    · simp only [Item.bytes, be, List.length_append, List.length_cons, List.length_nil] at hf
      omega
    have a1 := at' 1
    have a2 := at' 2
    have a3 := at' 3
    have a4 := at' 4
    have a5 := at' 5
    have a6 := at' 6
    have a7 := at' 7
    have a8 := at' 8
    have a9 := at' 9
    have hlen : (a ++ (Item.frame p h w c rest).bytes).length = a.length + (8 + rest.length + 1) + 1 := by
      simp only [Item.bytes, be, List.length_append, List.length_cons, List.length_nil]
      omega
    rw [hlen]
    simp only [Item.info]
    generalize hD : a ++ ((Item.frame p h w c rest).bytes ++ b) = D at *
    simp only [Item.bytes, be, List.cons_append, List.nil_append, List.append_assoc, List.getElem?_cons_succ, List.getElem?_cons_zero] at *
    rw [jpegLoop, at0]
    simp only
    rw [if_neg (by simp), a1]
    simp only
    have hm : (if p = true then 0xc2 else 0xc0) = 0o300 ∨ (if p = true then 0xc2 else 0xc0) = 0o302 := by cases p <;> simp
    have w2 : word D (a.length + 2) = some (8 + rest.length) := by
      unfold word
      rw [a2, show a.length + 2 + 1 = a.length + 3 from rfl, a3]
      simp only [Option.bind_eq_bind, Option.bind_some]
      rw [be_word]; rfl
    have w5 : word D (a.length + 5) = some h := by
      unfold word
      rw [a5, show a.length + 5 + 1 = a.length + 6 from rfl, a6]
      simp only [Option.bind_eq_bind, Option.bind_some]
      rw [be_word]; rfl
    have w7 : word D (a.length + 7) = some w := by
      unfold word
      rw [a7, show a.length + 7 + 1 = a.length + 8 from rfl, a8]
      simp only [Option.bind_eq_bind, Option.bind_some]
      rw [be_word]; rfl
    rw [if_neg (by cases p <;> simp), if_neg (by cases p <;> simp), if_neg (by omega), if_neg (by cases p <;> simp), if_pos hm, w2, a4, w5, w7, a9]
    simp only
    rw [if_neg (by simp), if_pos hit]
  | jfif id v k x y rest =>
    simp only [Item.Ok] at hit
    refine ⟨fuel, ?_, ?_⟩
    · simp only [Item.bytes, be, List.length_append, List.length_cons, List.length_nil] at hf
      omega
    obtain ⟨i0, i1, i2, i3, i4, rfl⟩ : ∃ i0 i1 i2 i3 i4, id = [i0, i1, i2, i3, i4] := by
      match id, hit with
      | [i0, i1, i2, i3, i4], _ => exact ⟨i0, i1, i2, i3, i4, rfl⟩
    have a1 := at' 1
    have a2 := at' 2
    have a3 := at' 3
    have a11 := at' 11
    have a12 := at' 12
    have a13 := at' 13
    have a14 := at' 14
    have a15 := at' 15
    have hlen : (a ++ (Item.jfif [i0, i1, i2, i3, i4] v k x y rest).bytes).length = a.length + (14 + rest.length + 1) + 1 := by
      simp only [Item.bytes, be, List.length_append, List.length_cons, List.length_nil]
      omega
    rw [hlen]
    simp only [Item.info]
    generalize hD : a ++ ((Item.jfif [i0, i1, i2, i3, i4] v k x y rest).bytes ++ b) = D at *
    simp only [Item.bytes, be, List.cons_append, List.nil_append, List.append_assoc, List.getElem?_cons_succ, List.getElem?_cons_zero] at *
    rw [jpegLoop, at0]
    simp only
    rw [if_neg (by simp), a1]
    simp only
    have w2 : word D (a.length + 2) = some (14 + rest.length) := by
      unfold word
      rw [a2, show a.length + 2 + 1 = a.length + 3 from rfl, a3]
      simp only [Option.bind_eq_bind, Option.bind_some]
      rw [be_word]; rfl
    have w12 : word D (a.length + 12) = some x := by
      unfold word
      rw [a12, show a.length + 12 + 1 = a.length + 13 from rfl, a13]
      simp only [Option.bind_eq_bind, Option.bind_some]
      rw [be_word]; rfl
    have w14 : word D (a.length + 14) = some y := by
      unfold word
      rw [a14, show a.length + 14 + 1 = a.length + 15 from rfl, a15]
      simp only [Option.bind_eq_bind, Option.bind_some]
      rw [be_word]; rfl
    rw [if_neg (by simp), if_neg (by simp), if_neg (by omega), if_neg (by simp), if_neg (by simp), if_pos (by simp), w2, a11, w12, w14]

theorem jpegLoop_items (items : List Item) (hok : ∀ i ∈ items, i.Ok) : ∀ (a b : List ℕ) (nest fuel : ℕ) (s : JpegInfo), 0 < nest →
    ((items.flatMap Item.bytes) ++ b).length < fuel →
    ∃ fuel', b.length < fuel' ∧ jpegLoop (a ++ (items.flatMap Item.bytes ++ b)) fuel a.length nest s =
      jpegLoop (a ++ (items.flatMap Item.bytes ++ b)) fuel' (a ++ items.flatMap Item.bytes).length nest (items.foldl Item.info s) := by
  induction items with
  | nil =>
    intro a b nest fuel s hn hf
    exact ⟨fuel, by simpa using hf, by simp⟩
  | cons it items ih =>
    intro a b nest fuel s hn hf
    have hf' : (it.bytes ++ (items.flatMap Item.bytes ++ b)).length < fuel := by
      simpa [List.flatMap_cons] using hf
    obtain ⟨f1, h1, h2⟩ := jpegLoop_item it (hok it (by simp)) a (items.flatMap Item.bytes ++ b) nest fuel s hn hf'
    obtain ⟨f2, h3, h4⟩ := ih (fun i hi => hok i (List.mem_cons_of_mem _ hi)) (a ++ it.bytes) b nest f1 (it.info s) hn h1
    refine ⟨f2, h3, ?_⟩
    have e : a ++ ((it :: items).flatMap Item.bytes ++ b) = a ++ (it.bytes ++ (items.flatMap Item.bytes ++ b)) := by
      simp [List.flatMap_cons]
    have e' : a ++ it.bytes ++ (items.flatMap Item.bytes ++ b) = a ++ (it.bytes ++ (items.flatMap Item.bytes ++ b)) := by simp
    rw [e, h2]
    rw [e'] at h4
    rw [h4]
    congr 1
    simp [List.flatMap_cons]

/-- **C89** A JPEG file consisting of the start marker, parts as above with a frame header among them, the end marker and anything behind is accepted: the data are exactly the bytes from
the start marker to the end marker, and width, height and number of components are those of the (last) frame header. -/
theorem jpeg_accepts (items : List Item) (hok : ∀ i ∈ items, i.Ok) (after : List ℕ) (w h c : ℕ) (hw : 0 < w) (hh : 0 < h)
    (hframe : (items.foldl Item.info {}).frame = some (w, h, c)) :
    jpeg ([255, 0xd8] ++ items.flatMap Item.bytes ++ [255, 0xd9] ++ after) =
      some (w, h, c, [255, 0xd8] ++ items.flatMap Item.bytes ++ [255, 0xd9], (items.foldl Item.info {}).dpi) := by
  have hstart : ∀ l : List Item, ∀ s, (l.foldl Item.info s).start = s.start := by
    intro l
    induction l with
    | nil => intro s; rfl
    | cons i l ih =>
      intro s
      rw [List.foldl_cons, ih]
      cases i <;> simp only [Item.info]
      split_ifs <;> rfl
  have hD : [255, 0xd8] ++ items.flatMap Item.bytes ++ [255, 0xd9] ++ after = [255, 0xd8] ++ (items.flatMap Item.bytes ++ (255 :: 0xd9 :: after)) := by simp
  have hlen : ([255, 0xd8] ++ items.flatMap Item.bytes ++ [255, 0xd9] ++ after).length = (items.flatMap Item.bytes ++ (255 :: 0xd9 :: after)).length + 2 := by
    rw [hD, List.length_append]; simp; omega
  obtain ⟨f, h1, h2⟩ := jpegLoop_items items hok [255, 0xd8] (255 :: 0xd9 :: after) 1 ((items.flatMap Item.bytes ++ (255 :: 0xd9 :: after)).length + 1) {} (by omega) (by omega)
  obtain ⟨f, rfl⟩ : ∃ k, f = k + 1 := ⟨f - 1, by omega⟩
  have hloop : jpegLoop ([255, 0xd8] ++ items.flatMap Item.bytes ++ [255, 0xd9] ++ after)
      (([255, 0xd8] ++ items.flatMap Item.bytes ++ [255, 0xd9] ++ after).length + 1) 0 0 {} =
      some (items.foldl Item.info {}, ([255, 0xd8] ++ items.flatMap Item.bytes).length + 2) := by
    rw [hlen, hD, jpegLoop]
    have b0 : byte ([255, 0xd8] ++ (items.flatMap Item.bytes ++ (255 :: 0xd9 :: after))) 0 = some 255 := rfl
    have b1 : byte ([255, 0xd8] ++ (items.flatMap Item.bytes ++ (255 :: 0xd9 :: after))) (0 + 1) = some 0xd8 := rfl
    rw [b0]
    simp only
    rw [if_neg (by simp), b1]
    simp only
    rw [if_neg (by simp), if_pos (by simp), ite_self, jpegLoop, b1]
    simp only
    rw [if_pos (by simp)]
    have h2' := h2
    simp only [List.length_cons, List.length_nil] at h2'
    simp only [Nat.zero_add] at h2' ⊢
    rw [show (1 + 1 : ℕ) = 2 from rfl] at *
    refine h2'.trans ?_
    rw [jpegLoop]
    have c0 := byte_at ([255, 0xd8] ++ items.flatMap Item.bytes) (255 :: 0xd9 :: after) 0
    have c1 := byte_at ([255, 0xd8] ++ items.flatMap Item.bytes) (255 :: 0xd9 :: after) 1
    rw [Nat.add_zero] at c0
    rw [List.append_assoc] at c0 c1
    rw [c0]
    simp only [List.getElem?_cons_zero]
    rw [if_neg (by simp), c1]
    simp only [List.getElem?_cons_succ, List.getElem?_cons_zero]
    rw [if_neg (by simp), if_neg (by simp), if_neg (by omega), if_pos (by simp), if_pos trivial]
  unfold jpeg
  rw [hloop]
  simp only [hframe]
  rw [if_neg (by omega), hstart]
  simp only [Option.some.injEq, Prod.mk.injEq, true_and, and_true, List.drop_zero]
  have : ([255, 0xd8] ++ items.flatMap Item.bytes).length + 2 = ([255, 0xd8] ++ items.flatMap Item.bytes ++ [255, 0xd9]).length := by simp
  rw [this, List.take_left']
  rfl

/-- A small file: JFIF header with 72 dpi, frame header of a 3 x 2 gray image, a scan. -/
example : jpeg ([255, 0xd8] ++ [Item.jfif [74, 70, 73, 70, 0] (1, 1) 1 72 72 [0, 0], .frame false 2 3 1 [1, 17, 0], .marker 0xda, .plain 5, .stuffed].flatMap Item.bytes ++ [255, 0xd9] ++ [1]) =
    some (3, 2, 1, [255, 0xd8] ++ [Item.jfif [74, 70, 73, 70, 0] (1, 1) 1 72 72 [0, 0], .frame false 2 3 1 [1, 17, 0], .marker 0xda, .plain 5, .stuffed].flatMap Item.bytes ++ [255, 0xd9],
      some (1, 72, 72)) := by rfl

/-- **C89 (segments are not skipped)** The contents of other segments are searched for markers, too: a comment with the bytes 255, 217 ends the image early. -/
theorem comment_ends_image :
    jpeg ([255, 0xd8] ++ (Item.frame false 2 3 1 [1, 17, 0]).bytes ++ [255, 0xfe, 0, 4, 255, 0xd9] ++ [255, 0xda, 1, 2] ++ [255, 0xd9]) =
      some (3, 2, 1, [255, 0xd8] ++ (Item.frame false 2 3 1 [1, 17, 0]).bytes ++ [255, 0xfe, 0, 4, 255, 0xd9], none) := by rfl

/-- **C89 (extended sequential frames)** A frame header with the marker 0xc1 (extended sequential) is not recognised. -/
theorem extended_rejected :
    jpeg ([255, 0xd8] ++ ([255, 0xc1] ++ be 11 ++ [8] ++ be 2 ++ be 3 ++ [1] ++ [1, 17, 0]) ++ [255, 0xd9]) = none := by decide +kernel

end Jpeg

end PyX.Bitmap
