import Verif.BBox.Props

/-!
# C180 – boxes collected while writing bitmaps, meshes and included SVG files

`baseclasses.canvasitem` asks of the methods writing an item that "bbox has to be updated to include the
bounding box of the canvasitem" (`pyx/baseclasses.py:49,67`).  This file models what bitmaps, meshes and
SVG files do to that box in the three output formats, alone, inside of nested canvases, on pages and in
patterns.

Simplifications: an item without line width (a filled path, a text) is its box; a mesh written as a vector
shading (the default) is modelled, the rasterised mesh of PS and PDF (`pyx/mesh.py:111-123,141-153`) is
not; a parsed SVG file is the canvas it contains.
-/

set_option linter.unusedSectionVars false

namespace PyX.BoxUpdate

/-- The output format. -/
inductive Fmt | ps | pdf | svg
deriving DecidableEq

/-- What an item is: something filling its box; a bitmap, with whether its data is compressed; a mesh;
an SVG file included without parsing it. -/
inductive Kind | plain | bitmap (compressed : Bool) | mesh | rawsvg
deriving DecidableEq

/-- The `ValueError`s. -/
inductive Err | uncompressed | unparsed | emptyBox
deriving DecidableEq, Repr

/-- The items of a canvas, in order; a canvas among them has a transformation, a box of its clipping path
and its own items (`pyx/canvas.py:140-175`). -/
inductive Pic (K : Type*)
  | nil
  | leaf (k : Kind) (box : BBox K) (rest : Pic K)
  | group (t : Trafo K) (clip : Option (BBox K)) (inner rest : Pic K)

variable {K : Type*} [Field K] [LinearOrder K] [IsStrictOrderedRing K]

/-- Transforming and clipping the box of the items (`pyx/canvas.py:189-191,209-211,242-244,278-280`). -/
def frame (t : Trafo K) (clip : Option (BBox K)) (b : BBox K) : BBox K :=
  match clip with
  | none => BBox.transformed b t
  | some c => BBox.imul (BBox.transformed b t) c

/-- The loop of `canvas.bbox` (`pyx/canvas.py:182-192`), from the box collected so far. -/
def bbox : Pic K → BBox K → BBox K
  | .nil, b => b
  | .leaf _ q r, b => bbox r (BBox.iadd b q)
  | .group t c i r, b => bbox r (BBox.iadd b (frame t c (bbox i none)))

/-- The change of `bbox` by writing one item: `bitmap_trafo.processPS/PDF/SVG`
(`pyx/bitmap.py:445-465,540-553,560-574`), `mesh.processPS/PDF/SVG` (`pyx/mesh.py:125-126,155-156,182-194`:
for SVG, a PNG image, hence compressed), `svgfile_pt.processPS/PDF/SVG` (`pyx/svgfile.py:570-597`). -/
def update (f : Fmt) (k : Kind) (q b : BBox K) : Except Err (BBox K) :=
  match f, k with
  | .svg, .bitmap true => .ok b
  | .svg, .bitmap false => .error .uncompressed
  | .svg, .mesh => .ok b
  | .svg, .rawsvg => .ok b
  | _, .rawsvg => .error .unparsed
  | _, _ => .ok (BBox.iadd b q)

/-- The loop of `canvas.processPS/PDF/SVG` over the items (`pyx/canvas.py:206-212,223-245,274-281`);
a canvas without items is skipped (`if self.items`). -/
def write (f : Fmt) : Pic K → BBox K → Except Err (BBox K)
  | .nil, b => .ok b
  | .leaf k q r, b =>
    match update f k q b with
    | .ok b' => write f r b'
    | .error e => .error e
  | .group _ _ .nil r, b => write f r b
  | .group t c i r, b =>
    match write f i none with
    | .ok n => write f r (BBox.iadd b (frame t c n))
    | .error e => .error e

/-- The box of a page without paper format (`pyx/document.py:75-79,118-127`). -/
def pageBox (f : Fmt) (enlarge : K) (p : Pic K) : Except Err (BBox K) :=
  write f p (BBox.enlarged (bbox p none) enlarge none none none none)

/-- The box of a pattern not given by the user: collected from an empty one, its coordinates are written
by `highrestuple_pt` (`pyx/pattern.py:76-103,121-148,365-376`, `pyx/bbox.py:110-113`); without
`bboxenlarge`. -/
def patternBox (f : Fmt) (p : Pic K) : Except Err (Quad K) :=
  match write f p none with
  | .error e => .error e
  | .ok none => .error .emptyBox
  | .ok (some q) => .ok q

/-! ## Specification -/

/-- The picture without bitmaps, meshes and raw SVG files. -/
def plainPart : Pic K → Pic K
  | .nil => .nil
  | .leaf .plain q r => .leaf .plain q (plainPart r)
  | .leaf _ _ r => plainPart r
  | .group t c i r => .group t c (plainPart i) (plainPart r)

/-- All boxes are proper and nothing is clipped. -/
def Fine : Pic K → Prop
  | .nil => True
  | .leaf _ q r => BBox.Proper q ∧ Fine r
  | .group _ c i r => c = none ∧ Fine i ∧ Fine r

/-! ## Lemmas -/

theorem frame_none (t : Trafo K) (c : Option (BBox K)) : frame t c none = none := by
  cases c with
  | none => rfl
  | some c => cases c <;> rfl

/-- The loop adds to what was collected before. -/
theorem bbox_from (p : Pic K) (b : BBox K) : bbox p b = BBox.add b (bbox p none) := by
  induction p generalizing b with
  | nil => exact ((BBox.add_empty b).2.1).symm
  | leaf k q r ih =>
    simp only [bbox, BBox.iadd_eq_add]
    rw [ih, ih (BBox.add none q), (BBox.add_empty q).1, BBox.add_assoc]
  | group t c i r _ ih =>
    simp only [bbox, BBox.iadd_eq_add]
    rw [ih, ih (BBox.add none _), (BBox.add_empty _).1, BBox.add_assoc]

theorem group_write (f : Fmt) (t : Trafo K) (c : Option (BBox K)) (i r : Pic K) (b : BBox K) :
    write f (.group t c i r) b = match write f i none with
      | .ok n => write f r (BBox.iadd b (frame t c n))
      | .error e => .error e := by
  cases i with
  | nil => simp only [write, frame_none]; cases b <;> rfl
  | leaf => rfl
  | group => rfl

theorem bbox_proper (p : Pic K) (h : Fine p) (b : BBox K) (hb : BBox.Proper b) : BBox.Proper (bbox p b) := by
  induction p generalizing b with
  | nil => exact hb
  | leaf k q r ih =>
    simp only [bbox, BBox.iadd_eq_add]
    exact ih h.2 _ (BBox.add_proper _ _ hb h.1)
  | group t c i r _ ih =>
    obtain ⟨rfl, _, hr⟩ := h
    simp only [bbox, BBox.iadd_eq_add]
    exact ih hr _ (BBox.add_proper _ _ hb (BBox.transformed_proper _ t).1)

theorem proper_none : BBox.Proper (none : BBox K) := fun _ h => by cases h

theorem plainPart_fine (p : Pic K) (h : Fine p) : Fine (plainPart p) := by
  induction p with
  | nil => trivial
  | leaf k q r ih => cases k <;> simp only [plainPart] <;> first | exact ⟨h.1, ih h.2⟩ | exact ih h.2
  | group t c i r ih1 ih2 => exact ⟨h.1, ih1 h.2.1, ih2 h.2.2⟩

theorem add_mono {a b a' b' : BBox K} (ha : BBox.Proper a) (hb : BBox.Proper b) (h : BBox.Sub a a')
    (h' : BBox.Sub b b') : BBox.Sub (BBox.add a b) (BBox.add a' b') :=
  BBox.add_least _ _ _ ha hb (fun x y m => (BBox.add_upper a' b').1 x y (h x y m))
    (fun x y m => (BBox.add_upper a' b').2 x y (h' x y m))

theorem plainPart_within (p : Pic K) (h : Fine p) : BBox.Sub (bbox (plainPart p) none) (bbox p none) := by
  induction p with
  | nil => exact fun _ _ m => m
  | leaf k q r ih =>
    have hp : BBox.Proper (bbox (plainPart r) none) :=
      bbox_proper _ (plainPart_fine r h.2) none proper_none
    have hall : BBox.Sub (bbox (plainPart r) none) (bbox (.leaf k q r) none) := by
      simp only [bbox]
      rw [bbox_from r (BBox.iadd none q)]
      exact fun x y m => (BBox.add_upper _ _).2 x y (ih h.2 x y m)
    cases k with
    | plain =>
      simp only [plainPart, bbox]
      rw [bbox_from, bbox_from r]
      refine add_mono ?_ hp (fun _ _ m => m) (ih h.2)
      rw [BBox.iadd_eq_add, (BBox.add_empty q).1]; exact h.1
    | bitmap => exact hall
    | mesh => exact hall
    | rawsvg => exact hall
  | group t c i r ih1 ih2 =>
    obtain ⟨rfl, hi, hr⟩ := h
    simp only [plainPart, bbox, BBox.iadd_eq_add, frame]
    rw [bbox_from, bbox_from r, (BBox.add_empty _).1, (BBox.add_empty _).1]
    refine add_mono (BBox.transformed_proper _ t).1 (bbox_proper _ (plainPart_fine r hr) none proper_none)
      ?_ (ih2 hr)
    exact BBox.transformed_least _ (bbox_proper _ (plainPart_fine i hi) none proper_none) t _
      fun x y m => BBox.transformed_contains _ t x y (ih1 hi x y m)

/-! ## Theorems -/

/-- C180: in PostScript and PDF, writing any picture adds exactly the box of the picture. -/
theorem ps_pdf_update (f : Fmt) (hf : f ≠ .svg) (p : Pic K) (b b' : BBox K) (h : write f p b = .ok b') :
    b' = BBox.add b (bbox p none) := by
  rw [← bbox_from]
  induction p generalizing b b' with
  | nil => cases h; rfl
  | leaf k q r ih =>
    cases f with
    | svg => exact absurd rfl hf
    | ps => cases k <;> simp only [write, update, reduceCtorEq] at h <;> exact ih _ _ h
    | pdf => cases k <;> simp only [write, update, reduceCtorEq] at h <;> exact ih _ _ h
  | group t c i r ih1 ih2 =>
    rw [group_write] at h
    cases hi : write f i none with
    | error e => rw [hi] at h; cases h
    | ok n =>
      rw [hi] at h
      rw [ih1 _ _ hi] at h
      exact ih2 _ _ h

/-- C180: in SVG, writing a picture adds the box of the picture without its bitmaps, meshes and raw SVG
files only. -/
theorem svg_update (p : Pic K) (b b' : BBox K) (h : write .svg p b = .ok b') :
    b' = BBox.add b (bbox (plainPart p) none) := by
  rw [← bbox_from]
  induction p generalizing b b' with
  | nil => cases h; rfl
  | leaf k q r ih =>
    cases k with
    | plain => exact ih _ _ h
    | bitmap c => cases c with
      | true => exact ih _ _ h
      | false => simp [write, update] at h
    | mesh => exact ih _ _ h
    | rawsvg => exact ih _ _ h
  | group t c i r ih1 ih2 =>
    rw [group_write] at h
    cases hi : write .svg i none with
    | error e => rw [hi] at h; cases h
    | ok n =>
      rw [hi] at h
      rw [ih1 _ _ hi] at h
      exact ih2 _ _ h

/-- C180: the box of a page is the box of its canvas, enlarged, in all output formats which can write the
canvas: pages do not suffer from the missing updates. -/
theorem page_box (f : Fmt) (e : K) (he : 0 ≤ e) (p : Pic K) (hp : Fine p) (b : BBox K)
    (h : pageBox f e p = .ok b) : b = BBox.enlarged (bbox p none) e none none none none := by
  have hB : BBox.Proper (bbox p none) := bbox_proper p hp none proper_none
  have absorb : ∀ c : BBox K, BBox.Proper c → BBox.Sub c (bbox p none) →
      BBox.add (BBox.enlarged (bbox p none) e none none none none) c =
        BBox.enlarged (bbox p none) e none none none none := by
    intro c hc hs
    cases c with
    | none => exact (BBox.add_empty _).2.1
    | some q =>
      cases hb : bbox p none with
      | none =>
        rw [hb] at hs
        exact (hs q.llx q.lly ⟨le_rfl, (hc q rfl).1, le_rfl, (hc q rfl).2⟩).elim
      | some B =>
        rw [hb] at hs
        obtain ⟨h1, _, h3, _⟩ := hs q.llx q.lly ⟨le_rfl, (hc q rfl).1, le_rfl, (hc q rfl).2⟩
        obtain ⟨_, h2, _, h4⟩ := hs q.urx q.ury ⟨(hc q rfl).1, le_rfl, (hc q rfl).2, le_rfl⟩
        simp only [BBox.enlarged, BBox.add, Option.getD_none, Option.some.injEq, Quad.mk.injEq,
          min_eq_left_iff, max_eq_left_iff]
        exact ⟨by linarith, by linarith, by linarith, by linarith⟩
  cases f with
  | ps => rw [ps_pdf_update .ps (by decide) p _ b h]; exact absorb _ hB fun _ _ m => m
  | pdf => rw [ps_pdf_update .pdf (by decide) p _ b h]; exact absorb _ hB fun _ _ m => m
  | svg =>
    rw [svg_update p _ b h]
    exact absorb _ (bbox_proper _ (plainPart_fine p hp) none proper_none) (plainPart_within p hp)

/-- C180: with clipping, the box of a page depends on the format: here a clipped, mirrored canvas with a
bitmap within the clipping path and a plain item outside of it. -/
theorem page_box_clipped : ∃ p : Pic ℚ, pageBox .pdf 0 p = .ok (some ⟨-3, 0, -2, 1⟩) ∧
    pageBox .svg 0 p = .ok (some ⟨-3, 0, -1, 1⟩) :=
  ⟨.group ⟨-1, 0, 0, 1, 0, 0⟩ none (.group Trafo.one (some (some ⟨2, 0, 3, 1⟩))
    (.leaf .plain (some ⟨0, 0, 1, 1⟩) (.leaf (.bitmap true) (some ⟨2, 0, 3, 1⟩) .nil)) .nil) .nil,
    by decide +kernel, by decide +kernel⟩

/-- C180: the intended contract of the writing methods. -/
def Includes (K : Type*) [Field K] [LinearOrder K] [IsStrictOrderedRing K] (f : Fmt) : Prop :=
  ∀ (p : Pic K) (b b' : BBox K), write f p b = .ok b' → BBox.Sub (bbox p none) b'

/-- C180: PostScript and PDF meet the contract. -/
theorem ps_pdf_includes (f : Fmt) (hf : f ≠ .svg) : Includes K f := by
  intro p b b' h
  rw [ps_pdf_update f hf p b b' h]
  exact (BBox.add_upper _ _).2

/-- C180: SVG does not: a bitmap leaves the box as it was. -/
theorem svg_not_includes : ¬ Includes ℚ .svg := by
  intro h
  exact h (.leaf (.bitmap true) (some ⟨0, 0, 1, 1⟩) .nil) none none rfl 0 0
    ⟨le_rfl, zero_le_one, le_rfl, zero_le_one⟩

/-- C180: pictures of plain items meet the contract in SVG, too. -/
theorem svg_includes_partial (p : Pic K) (hp : plainPart p = p) (b b' : BBox K)
    (h : write .svg p b = .ok b') : BBox.Sub (bbox p none) b' := by
  rw [svg_update p b b' h, hp]
  exact (BBox.add_upper _ _).2

/-- C180: a pattern can be written as SVG exactly if its data can be written and there is a box left
without bitmaps, meshes and raw SVG files. -/
theorem svg_pattern_iff (p : Pic K) (q : Quad K) :
    patternBox .svg p = .ok q ↔ (∃ b, write .svg p none = .ok b) ∧ bbox (plainPart p) none = some q := by
  unfold patternBox
  cases h : write .svg p none with
  | error e => simp
  | ok b =>
    have := svg_update p none b h
    rw [(BBox.add_empty _).1] at this
    subst this
    cases bbox (plainPart p) none <;> simp

/-- C180: the box of a pattern in PostScript and PDF is the box of its canvas. -/
theorem ps_pdf_pattern (f : Fmt) (hf : f ≠ .svg) (p : Pic K) (q : Quad K) (h : patternBox f p = .ok q) :
    bbox p none = some q := by
  unfold patternBox at h
  cases hw : write f p none with
  | error e => rw [hw] at h; cases h
  | ok b =>
    have := ps_pdf_update f hf p none b hw
    rw [(BBox.add_empty _).1] at this
    subst this
    rw [hw] at h
    cases hb : bbox p none with
    | none => rw [hb] at h; cases h
    | some q' => rw [hb] at h; cases h; rfl

/-- C180: a pattern of one bitmap can be written as PDF, but not as SVG. -/
theorem bitmap_pattern_fails (c : Bool) (q : Quad K) :
    patternBox .pdf (.leaf (.bitmap c) (some q) .nil) = .ok q ∧
    ∀ q', patternBox .svg (.leaf (.bitmap c) (some q) .nil) ≠ .ok q' := by
  refine ⟨rfl, fun q' h => ?_⟩
  have := ((svg_pattern_iff _ _).1 h).2
  simp [plainPart, bbox] at this

/-- C180: a pattern of a bitmap and something else silently becomes the tile of the rest. -/
example : ∃ p : Pic ℚ, patternBox .pdf p = .ok ⟨0, 0, 10, 10⟩ ∧ patternBox .svg p = .ok ⟨4, 4, 5, 5⟩ :=
  ⟨.leaf (.bitmap true) (some ⟨0, 0, 10, 10⟩) (.group Trafo.one none (.leaf .plain (some ⟨4, 4, 5, 5⟩) .nil)
    .nil), by decide +kernel, by decide +kernel⟩

/-- The hypotheses of `page_box` are met by a picture with a bitmap in a scaled canvas. -/
example : Fine (.group ⟨2, 0, 0, 2, 1, 1⟩ none (.leaf (.bitmap true) (some ⟨0, 0, 10, 10⟩) .nil)
      (.leaf .plain (some ⟨4, 4, 5, 5⟩) .nil) : Pic ℚ) ∧
    pageBox .svg 1 (.group ⟨2, 0, 0, 2, 1, 1⟩ none (.leaf (.bitmap true) (some ⟨0, 0, 10, 10⟩) .nil)
      (.leaf .plain (some ⟨4, 4, 5, 5⟩) .nil) : Pic ℚ) = .ok (some ⟨0, 0, 22, 22⟩) := by
  refine ⟨⟨rfl, ⟨?_, trivial⟩, ?_, trivial⟩, by decide +kernel⟩ <;>
  · intro q h
    cases h
    norm_num

end PyX.BoxUpdate
