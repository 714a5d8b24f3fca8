import Verif.Deco.Arrow
import Verif.NormPath.ItemProps
import Verif.Box.Lists

/-!
# C122: texts along paths and hatchings (`pyx/deco.py:588-687, 740-797`)

Paths are given by their points (`Track`) and tangents at arc lengths.  Text boxes are the boxes of C52.

Not modelled: typesetting of the texts, merging of the text attributes (C09), units.
-/

set_option linter.unusedSectionVars false

namespace PyX.Deco

noncomputable section

open Real PyX.Trafo PyX.NormPath
open PyX.Box (Pt Polygon)

/-- A path with its tangents by arc length. -/
structure Road extends Track where
  tan : ℝ → ℝ × ℝ

/-- `path.trafo` (`normpath.py:345-348, 662-666`) at an arc length. -/
def Road.trafo (p : Road) (s : ℝ) : Trafo ℝ :=
  Trafo.mul (Trafo.translate (p.pt s).1 (p.pt s).2)
    ((Trafo.rotate (degrees (NormPath.atan2 (p.tan s).2 (p.tan s).1)) none none).getD Trafo.one)

/-- The position arguments of `text` and `curvedtext` (`deco.py:591-602, 643-656`). -/
structure TextPos where
  relarclenpos : ℝ
  arclenfrombegin : Option ℝ
  arclenfromend : Option ℝ

/-- `ValueError` of `__init__`, and the position (`deco.py:613-619, 666-672`) as an arc length. -/
def TextPos.pos (t : TextPos) (p : Track) : Option ℝ :=
  match t.arclenfrombegin, t.arclenfromend with
  | some _, some _ => none
  | some b, none => some (0 + b)
  | none, some e => some (p.len - e)
  | none, none => some (t.relarclenpos * p.len)

/-- The box of a text at `(x, y)` (`text.py:841-845`). -/
def textRect (q : ℝ × ℝ) (left right height depth : ℝ) : Polygon :=
  Box.rect (q.1 - left) (q.2 - depth) (left + right) (depth + height) (0, 0) (left, depth)

/-- `math.radians` as in the code: `angle*math.pi/180`. -/
def radians (a : ℝ) : ℝ := a * π / 180

/-- The angle of the direction in which the text is moved (`deco.py:622-627`). -/
def textAngle (p : Road) (s : ℝ) (angle : ℝ) (relangle : Option ℝ) : ℝ :=
  match relangle with
  | some r =>
    let a := (p.trafo s).apply (cos (radians r), sin (radians r))
    let b := (p.trafo s).apply (0, 0)
    NormPath.atan2 (a.2 - b.2) (a.1 - b.1)
  | none => radians angle

/-- `text.decorate` (`deco.py:605-630`): the box of the text; `none` is the `ValueError` of `__init__`. -/
def textDecorate (p : Road) (t : TextPos) (angle : ℝ) (relangle : Option ℝ) (textdist left right height depth : ℝ) :
    Option (Except Box.Err Polygon) :=
  (t.pos p.toTrack).map fun s =>
    Box.linealign (textRect (p.pt s) left right height depth) textdist
      (cos (textAngle p s angle relangle), sin (textAngle p s angle relangle))

/-- One item of the text (`deco.py:681-682`): the transformation with which it is inserted; `x` is the middle of its box.  The
transformations of a canvas are applied from left to right (`canvas.py:141-145`). -/
def itemTrafo (p : Road) (textpos : ℝ) (texttrafo : Trafo ℝ) (x : ℝ) : Trafo ℝ :=
  Trafo.mul (Trafo.mul (p.trafo (textpos + x)) (Trafo.translate (-x) 0)) texttrafo

/-- `curvedtext.decorate` (`deco.py:676-685`): transformations of the items and excluded ranges, for items given by the left and
right ends of their boxes. -/
def curvedText (p : Road) (textpos : ℝ) (texttrafo : Trafo ℝ) (exclude : Option ℝ) (items : List (ℝ × ℝ)) :
    List (Trafo ℝ) × List (ℝ × ℝ) :=
  (items.map fun i => itemTrafo p textpos texttrafo ((i.1 + i.2) / 2),
   match exclude with
   | some e => items.foldl (fun rs i => excluderange rs (textpos + i.1 - e) (textpos + i.2 + e)) []
   | none => [])

/-! ## Specification -/

/-- The unit tangent. -/
def Road.dir (p : Road) (s : ℝ) : ℝ × ℝ := (p.tan s).1 / NormPath.hypot (p.tan s).1 (p.tan s).2 |> fun x =>
  (x, (p.tan s).2 / NormPath.hypot (p.tan s).1 (p.tan s).2)

/-- The point `x` along and `y` to the left of a direction at a point. -/
def along (o d : ℝ × ℝ) (q : ℝ × ℝ) : ℝ × ℝ := (o.1 + q.1 * d.1 - q.2 * d.2, o.2 + q.1 * d.2 + q.2 * d.1)

/-! ## Proofs -/

variable (p : Road)

theorem road_dir_sq (s : ℝ) (h : p.tan s ≠ (0, 0)) : (p.dir s).1 ^ 2 + (p.dir s).2 ^ 2 = 1 := by
  have hp : NormPath.hypot (p.tan s).1 (p.tan s).2 ≠ 0 := by
    rw [hypot_eq_abs]
    intro e
    rw [norm_eq_zero, Complex.ext_iff] at e
    exact h (Prod.ext e.1 e.2)
  have hsq : NormPath.hypot (p.tan s).1 (p.tan s).2 ^ 2 = (p.tan s).1 ^ 2 + (p.tan s).2 ^ 2 := Real.sq_sqrt (by positivity)
  simp only [Road.dir]
  field_simp
  exact hsq.symm

theorem road_trafo (s : ℝ) (h : p.tan s ≠ (0, 0)) (q : ℝ × ℝ) : (p.trafo s).apply q = along (p.pt s) (p.dir s) q := by
  obtain ⟨r, h1, h2⟩ := rotate_atan2 (p.tan s).1 (p.tan s).2 h
  unfold Road.trafo
  rw [h1, h2]
  simp only [Option.getD_some, Trafo.apply, Trafo.mul, Trafo.translate, along, Road.dir]
  ext <;> simp <;> ring

/-- **C122.**  The direction in which a text is put: the tangent turned by `relangle`, or the direction of `angle`. -/
theorem text_direction (s : ℝ) (h : p.tan s ≠ (0, 0)) (angle : ℝ) (relangle : Option ℝ) :
    (cos (textAngle p s angle relangle), sin (textAngle p s angle relangle)) =
      match relangle with
      | some r => along (0, 0) (p.dir s) (cos (radians r), sin (radians r))
      | none => (cos (radians angle), sin (radians angle)) := by
  cases relangle with
  | none => rfl
  | some r =>
    have hu := road_dir_sq p s h
    simp only [textAngle, road_trafo p s h, along]
    set c := cos (radians r)
    set t := sin (radians r)
    have hct : c ^ 2 + t ^ 2 = 1 := cos_sq_add_sin_sq _
    set a := (p.dir s).1
    set b := (p.dir s).2
    have e1 : (p.pt s).1 + c * a - t * b - ((p.pt s).1 + 0 * a - 0 * b) = c * a - t * b := by ring
    have e2 : (p.pt s).2 + c * b + t * a - ((p.pt s).2 + 0 * b + 0 * a) = c * b + t * a := by ring
    rw [e1, e2]
    have hn : (c * a - t * b) ^ 2 + (c * b + t * a) ^ 2 = 1 := by
      have : (c * a - t * b) ^ 2 + (c * b + t * a) ^ 2 = (c ^ 2 + t ^ 2) * (a ^ 2 + b ^ 2) := by ring
      rw [this, hct, hu, one_mul]
    have h0 : (⟨c * a - t * b, c * b + t * a⟩ : ℂ) ≠ 0 := by
      intro e
      rw [Complex.ext_iff] at e
      simp only [Complex.zero_re, Complex.zero_im] at e
      rw [e.1, e.2] at hn
      norm_num at hn
    have hh : ‖(⟨c * a - t * b, c * b + t * a⟩ : ℂ)‖ = 1 := by
      rw [← hypot_eq_abs, NormPath.hypot, hn, Real.sqrt_one]
    unfold NormPath.atan2
    rw [Complex.cos_arg h0, Complex.sin_arg, hh]
    ext <;> simp

/-- **C122.**  The text is put beside the path: measured from the position on the path in the direction asked for, the whole box of the text is at
least `textdist` away, and one corner exactly. -/
theorem text_beside (s : ℝ) (t : TextPos) (angle : ℝ) (relangle : Option ℝ) (textdist left right height depth : ℝ)
    (hs : t.pos p.toTrack = some s) (d : Pt)
    (hd : d = (cos (textAngle p s angle relangle), sin (textAngle p s angle relangle)))
    (hc : Box.Convex (textRect (p.pt s) left right height depth)) (hl : Box.Long (textRect (p.pt s) left right height depth))
    (hcl : Box.ClearLine (textRect (p.pt s) left right height depth) d) :
    ∃ b, textDecorate p t angle relangle textdist left right height depth = some (.ok b) ∧
      (∀ x ∈ convexHull ℝ {q | q ∈ b.corners}, textdist ≤ (x.1 - (p.pt s).1) * d.1 + (x.2 - (p.pt s).2) * d.2) ∧
      ∃ x ∈ b.corners, (x.1 - (p.pt s).1) * d.1 + (x.2 - (p.pt s).2) * d.2 = textdist := by
  have h1 : d.1 ^ 2 + d.2 ^ 2 = 1 := by rw [hd]; exact cos_sq_add_sin_sq _
  have hu : Box.unitOf d = d := by
    rw [Box.unitOf, h1]; simp
  have h0 : d ≠ 0 := by
    rintro rfl
    simp at h1
  obtain ⟨u, e1, e2, e3⟩ := Box.linealign_partial hc hl textdist d h0 (by rw [hu]; exact hcl)
  rw [hu] at e2 e3
  have hcen : (textRect (p.pt s) left right height depth).center = p.pt s := by
    ext <;> simp [textRect, Box.rect]
  rw [hcen] at e2 e3
  refine ⟨_, ?_, e2, e3⟩
  unfold textDecorate
  rw [hs, Option.map_some, ← hd, e1]

/-- **C122.**  The position: from the begin, from the end, or relative to the length; relative positions between 0 and 1 are on the path. -/
theorem text_pos (t : TextPos) (q : Track) :
    (∀ b, t.arclenfrombegin = some b → t.arclenfromend = none → t.pos q = some b) ∧
    (∀ e, t.arclenfrombegin = none → t.arclenfromend = some e → ∃ s, t.pos q = some s ∧ q.len - s = e) ∧
    (t.arclenfrombegin = none → t.arclenfromend = none → 0 ≤ t.relarclenpos → t.relarclenpos ≤ 1 → 0 ≤ q.len →
      ∃ s, t.pos q = some s ∧ 0 ≤ s ∧ s ≤ q.len ∧ s = t.relarclenpos * q.len) ∧
    (t.pos q = none ↔ t.arclenfrombegin ≠ none ∧ t.arclenfromend ≠ none) := by
  refine ⟨fun b h1 h2 => by simp [TextPos.pos, h1, h2], fun e h1 h2 => ⟨q.len - e, by simp only [TextPos.pos, h1, h2], by ring⟩,
    fun h1 h2 h3 h4 h5 => ⟨t.relarclenpos * q.len, by simp only [TextPos.pos, h1, h2], by positivity, by nlinarith, rfl⟩, ?_⟩
  unfold TextPos.pos
  cases t.arclenfrombegin <;> cases t.arclenfromend <;> simp

/-- **C122.**  Each item of a curved text is turned to the direction of the path at its middle: the middle of its base line is exactly
on the path, at the arc length it has in the straight text, and nothing is distorted. -/
theorem curved_items (textpos : ℝ) (tt : Trafo ℝ) (ex : Option ℝ) (items : List (ℝ × ℝ)) (n : ℕ) (i : ℝ × ℝ) (hi : items[n]? = some i)
    (h : p.tan (textpos + (i.1 + i.2) / 2) ≠ (0, 0)) :
    ∃ m, (curvedText p textpos tt ex items).1[n]? = some m ∧
      (∀ q, tt.apply q = ((i.1 + i.2) / 2, 0) → m.apply q = p.pt (textpos + (i.1 + i.2) / 2)) ∧
      (∀ q, m.apply q = along (p.pt (textpos + (i.1 + i.2) / 2)) (p.dir (textpos + (i.1 + i.2) / 2))
        ((tt.apply q).1 - (i.1 + i.2) / 2, (tt.apply q).2)) ∧
      ∀ q r, distSq (m.apply q) (m.apply r) = distSq (tt.apply q) (tt.apply r) := by
  have key : ∀ q, (itemTrafo p textpos tt ((i.1 + i.2) / 2)).apply q =
      along (p.pt (textpos + (i.1 + i.2) / 2)) (p.dir (textpos + (i.1 + i.2) / 2)) ((tt.apply q).1 - (i.1 + i.2) / 2, (tt.apply q).2) := by
    intro q
    unfold itemTrafo
    rw [mul_apply, mul_apply, road_trafo p _ h]
    congr 1
    ext <;> simp [Trafo.apply, Trafo.translate]
    ring
  refine ⟨itemTrafo p textpos tt ((i.1 + i.2) / 2), by simp [curvedText, hi], ?_, key, ?_⟩
  · intro q hq
    rw [key, hq]
    ext <;> simp [along]
  · intro q r
    rw [key, key]
    have hu := road_dir_sq p _ h
    simp only [distSq, along]
    linear_combination (((tt.apply q).1 - (tt.apply r).1) ^ 2 + ((tt.apply q).2 - (tt.apply r).2) ^ 2) * hu

/-- **C122.**  On a straight path a curved text is the ordinary text: all items get the same transformation. -/
theorem curved_straight (o d : ℝ × ℝ) (hp : Straight p.toTrack o d) (ht : ∀ s, p.tan s = d) (textpos : ℝ) (tt : Trafo ℝ) (ex : Option ℝ)
    (items : List (ℝ × ℝ)) (m : Trafo ℝ) (hm : m ∈ (curvedText p textpos tt ex items).1) (q : ℝ × ℝ) :
    m.apply q = along (p.pt textpos) d (tt.apply q) := by
  obtain ⟨hd, hs⟩ := hp
  obtain ⟨n, hn⟩ := List.mem_iff_getElem?.1 hm
  have hd0 : d ≠ (0, 0) := by rintro rfl; norm_num at hd
  have hdir : ∀ s, p.dir s = d := by
    intro s
    simp only [Road.dir, ht, NormPath.hypot, hd, Real.sqrt_one, div_one]
  simp only [curvedText, List.getElem?_map, Option.map_eq_some_iff] at hn
  obtain ⟨i, hi, rfl⟩ := hn
  obtain ⟨m', h1, -, h2, -⟩ := curved_items p textpos tt ex items n i hi (by rw [ht]; exact hd0)
  simp only [curvedText, List.getElem?_map, hi, Option.map_some, Option.some.injEq] at h1
  rw [h1, h2, hdir, hs, hs]
  simp only [along]
  ext <;> simp <;> ring

/-- **C122.**  With `exclude`, exactly the parts of the path below the items, enlarged by `exclude` to both sides, are left out of the
stroke. -/
theorem curved_excluded (textpos : ℝ) (tt : Trafo ℝ) (e : ℝ) (items : List (ℝ × ℝ)) (he : ∀ i ∈ items, i.1 - e ≤ i.2 + e) :
    Sorted (curvedText p textpos tt (some e) items).2 ∧
    ∀ s, Covered (curvedText p textpos tt (some e) items).2 s ↔ ∃ i ∈ items, textpos + i.1 - e ≤ s ∧ s ≤ textpos + i.2 + e := by
  have h := excluderanges (items.map fun i => (textpos + i.1 - e, textpos + i.2 + e)) (by
    intro r hr
    simp only [List.mem_map] at hr
    obtain ⟨i, hi, rfl⟩ := hr
    have := he i hi
    simp only
    linarith)
  rw [List.foldl_map] at h
  refine ⟨h.1, fun s => ?_⟩
  have h2 := h.2 s
  simp only [List.mem_map] at h2
  refine h2.trans ?_
  constructor
  · rintro ⟨r, ⟨i, hi, rfl⟩, h1, h2⟩; exact ⟨i, hi, h1, h2⟩
  · rintro ⟨i, hi, h1, h2⟩; exact ⟨_, ⟨i, hi, rfl⟩, h1, h2⟩

/-! ## Hatching -/

/-- The lines of `linehatched._decocanvas` (`deco.py:768-783`) for a bounding box and a positive distance, as pairs of end points.  For the
distance 0 the code raises `ZeroDivisionError`. -/
def hatchLines (llx lly urx ury dist angle : ℝ) : List ((ℝ × ℝ) × (ℝ × ℝ)) :=
  let c := (1 / 2 * (llx + urx), 1 / 2 * (lly + ury))
  let r := 1 / 2 * NormPath.hypot (urx - llx) (ury - lly) + dist
  (List.range (⌊2 * r / dist⌋₊ + 1)).map fun i : ℕ =>
    (rotPt angle c (c.1 - r + i * dist, c.2 - r), rotPt angle c (c.1 - r + i * dist, c.2 + r))

/-- `decorate` (`deco.py:785-788`). -/
def hatchAll (llx lly urx ury dist angle : ℝ) (cross : Bool) : List ((ℝ × ℝ) × (ℝ × ℝ)) :=
  hatchLines llx lly urx ury dist angle ++ if cross then hatchLines llx lly urx ury dist (angle + 90) else []

/-- **C122.**  The hatching covers the whole path without gaps: every point of the bounding box is between two neighbouring lines of the
hatching, whose distance is the one asked for; the perpendicular through the point meets both lines (they are long enough). -/
theorem hatch_covers (llx lly urx ury dist angle : ℝ) (hd : 0 < dist) (q : ℝ × ℝ) (h1 : llx ≤ q.1) (h2 : q.1 ≤ urx) (h3 : lly ≤ q.2)
    (h4 : q.2 ≤ ury) :
    ∃ (i : ℕ) (a b : (ℝ × ℝ) × (ℝ × ℝ)) (s u : ℝ), (hatchLines llx lly urx ury dist angle)[i]? = some a ∧
      (hatchLines llx lly urx ury dist angle)[i + 1]? = some b ∧ 0 ≤ s ∧ s ≤ 1 ∧ 0 ≤ u ∧ u ≤ 1 ∧
      q = lineC (lineC a.1 a.2 s) (lineC b.1 b.2 s) u ∧ distSq (lineC a.1 a.2 s) (lineC b.1 b.2 s) = dist ^ 2 ∧
      (a.2.1 - a.1.1) * ((lineC b.1 b.2 s).1 - (lineC a.1 a.2 s).1) + (a.2.2 - a.1.2) * ((lineC b.1 b.2 s).2 - (lineC a.1 a.2 s).2) = 0 := by
  unfold hatchLines
  set r0 := 1 / 2 * NormPath.hypot (urx - llx) (ury - lly) with hr0
  set cx := 1 / 2 * (llx + urx) with hcx
  set cy := 1 / 2 * (lly + ury) with hcy
  set C := cos (phi angle) with hC
  set S := sin (phi angle) with hS
  have hcs : C ^ 2 + S ^ 2 = 1 := cos_sq_add_sin_sq _
  -- the coordinates of the point turned back
  set X := C * (q.1 - cx) + S * (q.2 - cy) with hX
  set Y := -S * (q.1 - cx) + C * (q.2 - cy) with hY
  have r0n : 0 ≤ r0 := by rw [hr0]; exact mul_nonneg (by norm_num) (Real.sqrt_nonneg _)
  have hr2 : r0 ^ 2 = ((urx - llx) ^ 2 + (ury - lly) ^ 2) / 4 := by
    rw [hr0, mul_pow, NormPath.hypot, Real.sq_sqrt (by positivity)]; ring
  have hq2 : (q.1 - cx) ^ 2 + (q.2 - cy) ^ 2 ≤ r0 ^ 2 := by
    rw [hr2, hcx, hcy]
    nlinarith [mul_nonneg (sub_nonneg.2 h1) (sub_nonneg.2 h2), mul_nonneg (sub_nonneg.2 h3) (sub_nonneg.2 h4)]
  have hxy : X ^ 2 + Y ^ 2 ≤ r0 ^ 2 := by
    have : X ^ 2 + Y ^ 2 = (C ^ 2 + S ^ 2) * ((q.1 - cx) ^ 2 + (q.2 - cy) ^ 2) := by rw [hX, hY]; ring
    rw [this, hcs, one_mul]; exact hq2
  have hXa : |X| ≤ r0 := abs_le_of_sq_le_sq (by nlinarith [sq_nonneg Y]) r0n
  have hYa : |Y| ≤ r0 := abs_le_of_sq_le_sq (by nlinarith [sq_nonneg X]) r0n
  obtain ⟨x1, x2⟩ := abs_le.1 hXa
  obtain ⟨y1, y2⟩ := abs_le.1 hYa
  set r := r0 + dist with hr
  have hrp : 0 < r := by linarith
  set w := (X + r) / dist with hw
  have w0 : 0 ≤ w := div_nonneg (by linarith) hd.le
  have hwd : w * dist = X + r := by rw [hw, div_mul_cancel₀ _ hd.ne']
  have f1 := Nat.floor_le w0
  have f2 := Nat.lt_floor_add_one w
  have hn : ⌊w⌋₊ + 1 ≤ ⌊2 * r / dist⌋₊ := by
    apply Nat.le_floor
    rw [le_div_iff₀ hd]
    push_cast
    have k : ((⌊w⌋₊ : ℝ) + 1) * dist ≤ (w + 1) * dist := mul_le_mul_of_nonneg_right (by linarith) hd.le
    have k' : (w + 1) * dist = X + r + dist := by rw [add_mul, hwd, one_mul]
    linarith
  refine ⟨⌊w⌋₊, (rotPt angle (cx, cy) (cx - r + ⌊w⌋₊ * dist, cy - r), rotPt angle (cx, cy) (cx - r + ⌊w⌋₊ * dist, cy + r)),
    (rotPt angle (cx, cy) (cx - r + (⌊w⌋₊ + 1 : ℕ) * dist, cy - r), rotPt angle (cx, cy) (cx - r + (⌊w⌋₊ + 1 : ℕ) * dist, cy + r)),
    (Y + r) / (2 * r), w - ⌊w⌋₊, ?_, ?_, by apply div_nonneg <;> linarith, by rw [div_le_one (by linarith)]; linarith,
    by linarith, by linarith, ?_, ?_, ?_⟩
  · simp only [List.getElem?_map]
    rw [List.getElem?_range (by omega)]; rfl
  · simp only [List.getElem?_map]
    rw [List.getElem?_range (by omega)]; rfl
  · have hs : (Y + r) / (2 * r) * (2 * r) = Y + r := div_mul_cancel₀ _ (by linarith)
    generalize (Y + r) / (2 * r) = s at hs
    have k1 : C * X - S * Y = q.1 - cx := by rw [hX, hY]; linear_combination (q.1 - cx) * hcs
    have k2 : S * X + C * Y = q.2 - cy := by rw [hX, hY]; linear_combination (q.2 - cy) * hcs
    simp only [rotPt_eq, lineC, ← hC, ← hS]
    push_cast
    ext
    · simp only
      linear_combination -k1 - C * hwd + S * hs
    · simp only
      linear_combination -k2 - S * hwd - C * hs
  · simp only [rotPt_eq, lineC, distSq, ← hC, ← hS]
    push_cast
    linear_combination dist ^ 2 * hcs
  · simp only [rotPt_eq, lineC, ← hC, ← hS]
    push_cast
    ring

/-- The attributes as seen by `linehatched.merge`. -/
inductive HatchAttr
  | hatched (n : ℕ)
  | filled (n : ℕ)
  | other (n : ℕ)
deriving DecidableEq

/-- `isinstance`. -/
def HatchAttr.isHatched : HatchAttr → Bool
  | .hatched _ => true
  | _ => false
def HatchAttr.isFilled : HatchAttr → Bool
  | .filled _ => true
  | _ => false

/-- `linehatched.merge` (`deco.py:790-793`) with `exclusiveattr.merge` and `clearclass.merge` (`attr.py:96-99, 156-157`). -/
def hatchMerge (self : ℕ) (attrs : List HatchAttr) : List HatchAttr :=
  ((attrs.filter fun a => !a.isHatched) ++ [HatchAttr.hatched self]).filter fun a => !a.isFilled

/-- **C122.**  A hatching replaces former hatchings and fillings and leaves everything else in place. -/
theorem hatch_merge (self : ℕ) (attrs : List HatchAttr) :
    (∀ n, HatchAttr.filled n ∉ hatchMerge self attrs) ∧ (∀ n, HatchAttr.hatched n ∈ hatchMerge self attrs ↔ n = self) ∧
    (hatchMerge self attrs).getLast? = some (.hatched self) ∧
    ∀ n, (hatchMerge self attrs).count (.other n) = attrs.count (.other n) := by
  unfold hatchMerge
  refine ⟨fun n => by simp [HatchAttr.isFilled], fun n => by simp [HatchAttr.isHatched, HatchAttr.isFilled], ?_, fun n => ?_⟩
  · rw [List.filter_append]
    simp [HatchAttr.isFilled]
  · rw [List.count_filter (by rfl), List.count_append, List.count_filter (by rfl)]
    simp

/-! ## Examples -/

/-- A road along a straight line. -/
def exRoad : Road := ⟨exTrack, fun _ => (1, 0)⟩

example : exRoad.tan 3 ≠ (0, 0) := by simp [exRoad]

/-- A text of width 2 and height 1 put above the middle of the line (`relangle` 90). -/
example : ∃ b, textDecorate exRoad ⟨1 / 2, none, none⟩ 0 (some 90) 5 1 1 1 0 = some (.ok b) ∧ ∃ x ∈ b.corners, x.2 = 5 := by
  have hdir : (cos (textAngle exRoad 50 0 (some 90)), sin (textAngle exRoad 50 0 (some 90))) = ((0, 1) : Pt) := by
    rw [text_direction exRoad 50 (by simp [exRoad])]
    have e : radians 90 = π / 2 := by unfold radians; ring
    simp [along, Road.dir, exRoad, NormPath.hypot, e]
  have hs : (⟨1 / 2, none, none⟩ : TextPos).pos exRoad.toTrack = some 50 := by simp [TextPos.pos, exRoad, exTrack]; norm_num
  obtain ⟨b, h1, -, x, hx, h2⟩ := text_beside exRoad 50 ⟨1 / 2, none, none⟩ 0 (some 90) 5 1 1 1 0 hs (0, 1) hdir.symm
    (Box.rect_convex _ _ _ _ _ _ (by norm_num) (by norm_num)) (Box.rect_long _ _ _ _ _ _ (by norm_num [Box.epsilon]) (by norm_num [Box.epsilon]))
    (Box.rect_clear _ _ _ _ _ _ _ (by norm_num [Box.epsilon]) (by norm_num [Box.epsilon]) (by norm_num))
  refine ⟨b, h1, x, hx, ?_⟩
  simp [exRoad, exTrack] at h2
  exact h2

example : (hatchLines 0 0 3 4 1 30).length = 8 := by
  have : NormPath.hypot (3 - 0) (4 - 0) = 5 := by
    rw [NormPath.hypot, show ((3 - 0 : ℝ) ^ 2 + (4 - 0) ^ 2) = 5 ^ 2 by norm_num, Real.sqrt_sq (by norm_num)]
  simp only [hatchLines, List.length_map, List.length_range, this]
  norm_num

end

end PyX.Deco
