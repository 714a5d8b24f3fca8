import Verif.Trafo.Props
import Mathlib.Algebra.Order.Field.Basic
import Mathlib.Tactic.FieldSimp
import Mathlib.Tactic.Linarith

/-!
# Placement of SVG files (`svgfile.py:390-415, 483-500, 533-568`): model and C100

Lengths are in points; `ratio` is the quotient of width and height.
-/

set_option linter.unusedSectionVars false

namespace PyX.Svg

open Trafo

variable {K : Type*} [Field K] [LinearOrder K] [IsStrictOrderedRing K]

/-- A length of an attribute: absolute or a percentage (`toFloat`, `svgfile.py:105-125`). -/
inductive Len (K : Type*)
  | abs (v : K)
  | percent (v : K)

/-- A rectangle by its corners (`bbox_pt`). -/
@[ext]
structure Box (K : Type*) where
  llx : K
  lly : K
  urx : K
  ury : K

/-- The attributes of the root element: `x`, `y` (0 when missing), `viewBox`, `width`, `height` (`none` when missing), and whether `clip` is `auto`. -/
structure Root (K : Type*) where
  x : K
  y : K
  viewBox : Option (K × K × K × K)
  width : Option (Len K)
  height : Option (Len K)
  clip : Bool

/-- What is made of the root element: bounding box, transformation of the canvas and the corners of the clip rectangle (transformed). -/
structure Elem (K : Type*) where
  box : Box K
  trafo : Trafo K
  clip : Option ((K × K) × (K × K))

/-! ## Model -/

/-- `toFloat(…, relative=relative)`; `none`: `svgValueError` (`svgfile.py:112-117`). -/
def Len.toPt (relative : Option K) : Len K → Option K
  | .abs v => some v
  | .percent v => relative.map fun r => v * ((1 / 100) * r)

/-- `trafo.mirror(0)` (`trafo.py:41-47, 178-180`, see `mirror0_eq`). -/
def mirror0 : Trafo K := ⟨1, 0, 0, -1, 0, 0⟩

theorem mirror0_eq : Trafo.mirror 0 = mirror0 := by
  ext <;> simp [Trafo.mirror, mirror0, phi]

/-- The total transformation of a canvas (`canvas.py:141-150`): the attributes are taken in reversed order. -/
def total (l : List (Trafo K)) : Trafo K := l.reverse.foldl mul one

/-- The corners of `path.rect(…)`, with user units converted to points by the factor `u`, transformed (`path.py:1393-1399`, `canvas.py:150`). -/
def clipRect (u : K) (t : Trafo K) (v : K × K × K × K) : (K × K) × (K × K) :=
  (t.apply (u * v.1, u * v.2.1), t.apply (u * v.1 + u * v.2.2.1, u * v.2.1 + u * v.2.2.2))

/-- The branch with a `viewBox` (`svgfile.py:396-406`); `none`: a division by zero or a length that cannot be read. -/
def withViewBox (u : K) (r : Root K) (v : K × K × K × K) : Option (Elem K) :=
  ((r.width.getD (.percent 100)).toPt (some v.2.2.1)).bind fun w => ((r.height.getD (.percent 100)).toPt (some v.2.2.2)).bind fun h =>
    if v.2.2.1 = 0 ∨ v.2.2.2 = 0 then none
    else
      let t := total [translate (-v.1) (-v.2.1), ⟨w / v.2.2.1, 0, 0, h / v.2.2.2, 0, 0⟩, translate r.x r.y, translate 0 (-h), mirror0]
      some ⟨⟨r.x, -r.y, r.x + w, -r.y + h⟩, t, if r.clip then some (clipRect u t v) else none⟩

/-- The branch without (`svgfile.py:407-412`). -/
def withoutViewBox (r : Root K) (w h : Len K) : Option (Elem K) :=
  (w.toPt none).bind fun w => (h.toPt none).bind fun h =>
    some ⟨⟨r.x, -r.y, r.x + w, -r.y + h⟩, total [translate r.x r.y, translate 0 (-h), mirror0], none⟩

/-- The `svg` element (`svgfile.py:391-417`); `none`: an exception. -/
def svgElement (u : K) (r : Root K) : Option (Elem K) :=
  match r.viewBox, r.width, r.height with
  | some v, _, _ => withViewBox u r v
  | none, some w, some h => withoutViewBox r w h
  | none, _, _ => none

/-- Width and height of the result (`svgfile.py:543-556`); `none`: an exception (`ValueError`, or division by zero). -/
def finalSize (b : Box K) (width height ratio : Option K) : Option (K × K) :=
  match width, height, ratio with
  | none, some h, none => if b.ury - b.lly = 0 then none else some (h * (b.urx - b.llx) / (b.ury - b.lly), h)
  | none, some h, some r => some (r * h, h)
  | some w, none, none => if b.urx - b.llx = 0 then none else some (w, w * (b.ury - b.lly) / (b.urx - b.llx))
  | some w, none, some r => if r = 0 then none else some (w, (1 / r) * w)
  | some w, some h, none => some (w, h)
  | some _, some _, some _ => none
  | none, none, _ => none

/-- `self.trafo` of the file (`svgfile.py:541-562`). -/
def fileTrafo (x y : K) (b : Box K) (width height ratio : Option K) : Option (Trafo K) :=
  if width.isSome || height.isSome then
    (finalSize b width height ratio).bind fun s =>
      if b.urx - b.llx = 0 ∨ b.ury - b.lly = 0 then none
      else some (mul (mul (translate x y) ⟨s.1 / (b.urx - b.llx), 0, 0, s.2 / (b.ury - b.lly), 0, 0⟩) (translate (-b.llx) (-b.lly)))
  else if ratio.isSome then none
  else some (mul (translate x y) (translate (-b.llx) (-b.lly)))

/-- `svgBboxHandler`: bounding box and transformation of an unparsed file with absolute width and height (`svgfile.py:483-500`); `k` is `72/resolution`. -/
def bboxElement (k : K) (r : Root K) : Option (Box K × Trafo K) :=
  match r.width, r.height with
  | some (.abs w), some (.abs h) => some (⟨r.x, -r.y, r.x + w, -r.y + h⟩, mul (translate 0 h) ⟨k, 0, 0, k, 0, 0⟩)
  | _, _ => none

/-! ## Specification -/

/-- SVG 1.1, 7.8: the `viewBox` is put in the middle of the viewport and as large as it fits, keeping its shape (`preserveAspectRatio` is `xMidYMid meet`). -/
def viewport (x y w h : K) (v : K × K × K × K) (p : K × K) : K × K :=
  let s := min (w / v.2.2.1) (h / v.2.2.2)
  (x + (w - s * v.2.2.1) / 2 + s * (p.1 - v.1), y + (h - s * v.2.2.2) / 2 + s * (p.2 - v.2.1))

/-- The size asked for. -/
def Sized (bw bh : K) (width height ratio : Option K) (W H : K) : Prop :=
  (∀ w, width = some w → W = w) ∧ (∀ h, height = some h → H = h) ∧ (∀ r, ratio = some r → W = r * H) ∧
    (ratio = none → width = none ∨ height = none → W * bh = H * bw) ∧ (width = none → height = none → W = bw ∧ H = bh)

/-! ## Proof -/

theorem total_apply (a b c d e : Trafo K) (p : K × K) : (total [a, b, c, d, e]).apply p = e.apply (d.apply (c.apply (b.apply (a.apply p)))) := by
  simp only [total, List.reverse_cons, List.reverse_nil, List.nil_append, List.cons_append, List.foldl_cons, List.foldl_nil, mul_apply]
  simp [Trafo.apply, one]

theorem total_apply3 (c d e : Trafo K) (p : K × K) : (total [c, d, e]).apply p = e.apply (d.apply (c.apply p)) := by
  simp only [total, List.reverse_cons, List.reverse_nil, List.nil_append, List.cons_append, List.foldl_cons, List.foldl_nil, mul_apply]
  simp [Trafo.apply, one]

/-- Where the canvas of a root element with `viewBox` puts a point. -/
theorem withViewBox_apply (u : K) (r : Root K) (v : K × K × K × K) (el : Elem K) (h : withViewBox u r v = some el) :
    ∃ w hh, (r.width.getD (.percent 100)).toPt (some v.2.2.1) = some w ∧ (r.height.getD (.percent 100)).toPt (some v.2.2.2) = some hh ∧ v.2.2.1 ≠ 0 ∧ v.2.2.2 ≠ 0 ∧
      el.box = ⟨r.x, -r.y, r.x + w, -r.y + hh⟩ ∧
      (∀ p, el.trafo.apply p = (r.x + w / v.2.2.1 * (p.1 - v.1), hh - (r.y + hh / v.2.2.2 * (p.2 - v.2.1)))) ∧
      el.clip = if r.clip then some (clipRect u el.trafo v) else none := by
  unfold withViewBox at h
  cases hw : (r.width.getD (.percent 100)).toPt (some v.2.2.1) with
  | none => rw [hw] at h; cases h
  | some w =>
    rw [hw, Option.bind_some] at h
    cases hh : (r.height.getD (.percent 100)).toPt (some v.2.2.2) with
    | none => rw [hh] at h; cases h
    | some hg =>
      rw [hh, Option.bind_some] at h
      by_cases hz : v.2.2.1 = 0 ∨ v.2.2.2 = 0
      · rw [if_pos hz] at h; cases h
      · rw [if_neg hz] at h
        obtain rfl := Option.some.inj h
        push Not at hz
        refine ⟨w, hg, rfl, rfl, hz.1, hz.2, rfl, fun p => ?_, rfl⟩
        rw [total_apply]
        generalize w / v.2.2.1 = a
        generalize hg / v.2.2.2 = b
        simp only [Trafo.apply, translate, mirror0, Prod.mk.injEq]
        constructor <;> ring

/-- C100: the root element of a file with a `viewBox` of the shape of the width and height maps every point as the standard says, in a coordinate system whose y axis points
up from the lower border; the bounding box is the viewport.  (The size defaults to the one of the `viewBox`.) -/
theorem viewBox_partial (u : K) (r : Root K) (v : K × K × K × K) (hv : r.viewBox = some v) (el : Elem K) (h : svgElement u r = some el) (p : K × K)
    (hs : (el.box.urx - el.box.llx) * v.2.2.2 = (el.box.ury - el.box.lly) * v.2.2.1) :
    el.trafo.apply p =
      ((viewport r.x r.y (el.box.urx - el.box.llx) (el.box.ury - el.box.lly) v p).1,
       (el.box.ury - el.box.lly) - (viewport r.x r.y (el.box.urx - el.box.llx) (el.box.ury - el.box.lly) v p).2) ∧
    el.box.llx = r.x ∧ el.box.ury = (el.box.ury - el.box.lly) - r.y ∧
    (∀ w, r.width = some (.abs w) → el.box.urx - el.box.llx = w) ∧ (∀ w, r.height = some (.abs w) → el.box.ury - el.box.lly = w) ∧
    (r.width = none → el.box.urx - el.box.llx = v.2.2.1) ∧ (r.height = none → el.box.ury - el.box.lly = v.2.2.2) := by
  have h : withViewBox u r v = some el := by
    unfold svgElement at h
    rw [hv] at h
    exact h
  obtain ⟨w, hh, e1, e2, z1, z2, hb, ht, -⟩ := withViewBox_apply u r v el h
  have hw : el.box.urx - el.box.llx = w := by rw [hb]; simp
  have hhh : el.box.ury - el.box.lly = hh := by rw [hb]; simp
  rw [hw, hhh] at hs ⊢
  have hq : w / v.2.2.1 = hh / v.2.2.2 := by field_simp; linear_combination hs
  refine ⟨?_, by rw [hb], by rw [hb]; ring, fun w' e => ?_, fun w' e => ?_, fun e => ?_, fun e => ?_⟩
  · rw [ht]
    have hm : min (w / v.2.2.1) (hh / v.2.2.2) = w / v.2.2.1 := by rw [hq, min_self]
    simp only [viewport, hm]
    have a1 : w / v.2.2.1 * v.2.2.1 = w := div_mul_cancel₀ _ z1
    have a2 : w / v.2.2.1 * v.2.2.2 = hh := by rw [hq]; exact div_mul_cancel₀ _ z2
    rw [a1, a2, ← hq]
    simp only [sub_self, zero_div, add_zero]
  · rw [e] at e1
    exact (Option.some.inj e1).symm
  · rw [e] at e2
    exact (Option.some.inj e2).symm
  · rw [e] at e1
    have := Option.some.inj e1
    rw [← this]; ring
  · rw [e] at e2
    have := Option.some.inj e2
    rw [← this]; ring

/-- C100 does not hold for other shapes: the picture is stretched to the size asked for. -/
theorem aspect_ignored : ∃ (r : Root ℚ) (v : ℚ × ℚ × ℚ × ℚ) (el : Elem ℚ), r.viewBox = some v ∧ svgElement 1 r = some el ∧
    el.trafo.apply (1, 0) ≠ ((viewport r.x r.y (el.box.urx - el.box.llx) (el.box.ury - el.box.lly) v (1, 0)).1,
       (el.box.ury - el.box.lly) - (viewport r.x r.y (el.box.urx - el.box.llx) (el.box.ury - el.box.lly) v (1, 0)).2) := by
  refine ⟨⟨0, 0, some (0, 0, 1, 1), some (.abs 4), some (.abs 2), false⟩, (0, 0, 1, 1), _, rfl, rfl, ?_⟩
  rw [show total [translate (-0) (-0), ⟨4 / 1, 0, 0, 2 / 1, 0, 0⟩, translate 0 0, translate 0 (-2), mirror0] = (⟨4, 0, 0, -2, 0, 2⟩ : Trafo ℚ) by decide +kernel]
  simp only [Trafo.apply, viewport]
  norm_num

/-- C100 does not hold for the clip: it is the rectangle with the numbers of the `viewBox` taken as user units, which have `u` points each (by default a centimetre), so it is
the border of the picture only if `u` is one. -/
theorem clip_scaled (u : K) (r : Root K) (v : K × K × K × K) (hv : r.viewBox = some v) (hc : r.clip = true) (el : Elem K) (h : svgElement u r = some el)
    (hw : 0 < v.2.2.1) (hp : el.box.llx < el.box.urx) :
    ∃ c, el.clip = some c ∧ (c = (el.trafo.apply (v.1, v.2.1), el.trafo.apply (v.1 + v.2.2.1, v.2.1 + v.2.2.2)) → u = 1) ∧
      (c.2.1 - c.1.1 = u * (el.box.urx - el.box.llx)) ∧ (0 < v.1 → v.1 + v.2.2.1 < u * v.1 → el.box.urx < c.1.1) := by
  have h : withViewBox u r v = some el := by
    unfold svgElement at h
    rw [hv] at h
    exact h
  obtain ⟨w, hh, e1, e2, z1, z2, hb, ht, hcl⟩ := withViewBox_apply u r v el h
  rw [hc, if_pos rfl] at hcl
  have hwp : 0 < w := by rw [hb] at hp; simpa using hp
  have hs : 0 < w / v.2.2.1 := div_pos hwp hw
  have hk : w / v.2.2.1 * v.2.2.1 = w := div_mul_cancel₀ _ z1
  refine ⟨_, hcl, fun e => ?_, ?_, fun _ hl => ?_⟩
  · simp only [clipRect, ht, Prod.mk.injEq] at e
    have e3 := e.1.1
    have e4 := e.2.1
    have e5 : w / v.2.2.1 * (u * v.2.2.1 - v.2.2.1) = 0 := by linear_combination e4 - e3
    have e6 := (mul_eq_zero.mp e5).resolve_left hs.ne'
    have e7 : (u - 1) * v.2.2.1 = 0 := by linear_combination e6
    exact sub_eq_zero.mp ((mul_eq_zero.mp e7).resolve_right z1)
  · simp only [clipRect, ht, hb]
    linear_combination u * hk
  · simp only [clipRect, ht, hb]
    have := mul_lt_mul_of_pos_left (show v.2.2.1 < u * v.1 - v.1 by linarith) hs
    linarith

/-- Without a `viewBox` the coordinates are used as they are. -/
theorem noViewBox (u : K) (r : Root K) (w h : K) (hv : r.viewBox = none) (hw : r.width = some (.abs w)) (hh : r.height = some (.abs h)) :
    ∃ el, svgElement u r = some el ∧ el.box = ⟨r.x, -r.y, r.x + w, -r.y + h⟩ ∧ ∀ p, el.trafo.apply p = (r.x + p.1, h - (r.y + p.2)) := by
  refine ⟨⟨⟨r.x, -r.y, r.x + w, -r.y + h⟩, total [translate r.x r.y, translate 0 (-h), mirror0], none⟩, ?_, rfl, fun p => ?_⟩
  · unfold svgElement
    rw [hv, hw, hh]
    rfl
  · rw [total_apply3]
    simp only [Trafo.apply, translate, mirror0, Prod.mk.injEq]
    constructor <;> ring

/-- A file that states neither `viewBox` nor size is refused. -/
theorem no_size (u : K) (r : Root K) (hv : r.viewBox = none) (hw : r.width = none ∨ r.height = none) : svgElement u r = none := by
  unfold svgElement
  rw [hv]
  rcases hw with e | e <;> rw [e]
  cases r.width <;> rfl

theorem finalSize_sized (b : Box K) (hb : b.llx ≠ b.urx ∧ b.lly ≠ b.ury) (width height ratio : Option K) (hr : ratio ≠ some 0) (s : K × K)
    (h : finalSize b width height ratio = some s) : Sized (b.urx - b.llx) (b.ury - b.lly) width height ratio s.1 s.2 := by
  have hw : b.urx - b.llx ≠ 0 := sub_ne_zero.mpr hb.1.symm
  have hh : b.ury - b.lly ≠ 0 := sub_ne_zero.mpr hb.2.symm
  unfold Sized
  cases width with
  | none =>
    cases height with
    | none => cases h
    | some y =>
      cases ratio with
      | none =>
        simp only [finalSize, if_neg hh] at h
        obtain rfl := Option.some.inj h
        refine ⟨by simp, by simp, by simp, fun _ _ => ?_, by simp⟩
        field_simp
      | some q =>
        obtain rfl := Option.some.inj h
        exact ⟨by simp, by simp, by simp, by simp, by simp⟩
  | some x =>
    cases height with
    | none =>
      cases ratio with
      | none =>
        simp only [finalSize, if_neg hw] at h
        obtain rfl := Option.some.inj h
        refine ⟨by simp, by simp, by simp, fun _ _ => ?_, by simp⟩
        field_simp
      | some q =>
        have hq : q ≠ 0 := fun e => hr (by rw [e])
        simp only [finalSize, if_neg hq] at h
        obtain rfl := Option.some.inj h
        refine ⟨by simp, by simp, fun r hr => ?_, by simp, by simp⟩
        obtain rfl := Option.some.inj hr
        field_simp
    | some y =>
      cases ratio with
      | none =>
        obtain rfl := Option.some.inj h
        exact ⟨by simp, by simp, by simp, by simp, by simp⟩
      | some q => cases h

/-- C100: an inserted file has the size asked for, its lower left corner at the position asked for, and every point keeps its position relative to the borders. -/
theorem fileTrafo_place (x y : K) (b : Box K) (hb : b.llx ≠ b.urx ∧ b.lly ≠ b.ury) (width height ratio : Option K) (hr : ratio ≠ some 0) (t : Trafo K)
    (h : fileTrafo x y b width height ratio = some t) :
    ∃ W H, Sized (b.urx - b.llx) (b.ury - b.lly) width height ratio W H ∧ t.apply (b.llx, b.lly) = (x, y) ∧ t.apply (b.urx, b.ury) = (x + W, y + H) ∧
      ∀ a c, t.apply (b.llx + a * (b.urx - b.llx), b.lly + c * (b.ury - b.lly)) = (x + a * W, y + c * H) := by
  have hw : b.urx - b.llx ≠ 0 := sub_ne_zero.mpr hb.1.symm
  have hh : b.ury - b.lly ≠ 0 := sub_ne_zero.mpr hb.2.symm
  suffices hmain : ∃ W H, Sized (b.urx - b.llx) (b.ury - b.lly) width height ratio W H ∧
      ∀ a c, t.apply (b.llx + a * (b.urx - b.llx), b.lly + c * (b.ury - b.lly)) = (x + a * W, y + c * H) by
    obtain ⟨W, H, hs, hp⟩ := hmain
    refine ⟨W, H, hs, ?_, ?_, hp⟩
    · simpa using hp 0 0
    · simpa using hp 1 1
  unfold fileTrafo at h
  by_cases hc : (width.isSome || height.isSome) = true
  · rw [if_pos hc] at h
    cases hf : finalSize b width height ratio with
    | none => rw [hf] at h; cases h
    | some s =>
      rw [hf, Option.bind_some, if_neg (by push Not; exact ⟨hw, hh⟩)] at h
      obtain rfl := Option.some.inj h
      refine ⟨s.1, s.2, finalSize_sized b hb width height ratio hr s hf, fun a c => ?_⟩
      rw [mul_apply, mul_apply]
      simp only [Trafo.apply, translate, Prod.mk.injEq]
      have a1 : s.1 / (b.urx - b.llx) * (b.urx - b.llx) = s.1 := div_mul_cancel₀ _ hw
      have a2 : s.2 / (b.ury - b.lly) * (b.ury - b.lly) = s.2 := div_mul_cancel₀ _ hh
      constructor
      · linear_combination a * a1
      · linear_combination c * a2
  · rw [if_neg hc] at h
    cases ratio with
    | some q => cases h
    | none =>
      simp only [Option.isSome_none, Bool.false_eq_true, if_false] at h
      obtain rfl := Option.some.inj h
      simp only [Bool.not_eq_true, Bool.or_eq_false_iff, Option.isSome_eq_false_iff, Option.isNone_iff_eq_none] at hc
      refine ⟨b.urx - b.llx, b.ury - b.lly, ⟨by simp [hc.1], by simp [hc.2], by simp, fun _ _ => by ring, fun _ _ => ⟨rfl, rfl⟩⟩, fun a c => ?_⟩
      rw [mul_apply]
      simp only [Trafo.apply, translate, Prod.mk.injEq]
      constructor <;> ring

/-- The combinations that are refused: a ratio together with both sizes or with none. -/
theorem fileTrafo_refused (x y : K) (b : Box K) (hb : b.llx ≠ b.urx ∧ b.lly ≠ b.ury) (width height ratio : Option K) (hr : ratio ≠ some 0) :
    fileTrafo x y b width height ratio = none ↔ ratio.isSome = true ∧ width.isSome = height.isSome := by
  have hw : b.urx - b.llx ≠ 0 := sub_ne_zero.mpr hb.1.symm
  have hh : b.ury - b.lly ≠ 0 := sub_ne_zero.mpr hb.2.symm
  have hn : ¬ (b.urx - b.llx = 0 ∨ b.ury - b.lly = 0) := by push Not; exact ⟨hw, hh⟩
  have hr' : ∀ q, ratio = some q → q ≠ 0 := fun q e e' => hr (by rw [e, e'])
  cases width <;> cases height <;> cases ratio <;> simp_all [fileTrafo, finalSize]

/-- C100: a file included without being parsed shows every point where the parsed file shows it: a point at `P` pixels of a file without `viewBox` is put at the place given by
`t` (times the transformation of the inclusion) by the SVG viewer, whose y axis points down, when the root element moves it by its `x` and `y`. -/
theorem unparsed_same (u k : K) (hk : k ≠ 0) (r : Root K) (w h : K) (hv : r.viewBox = none) (hw : r.width = some (.abs w)) (hh : r.height = some (.abs h)) :
    ∃ el b t, svgElement u r = some el ∧ bboxElement k r = some (b, t) ∧ el.box = b ∧
      ∀ (s : Trafo K) (P : K × K),
        (svgAttr (mul s t)).apply (P.1 + r.x / k, P.2 + r.y / k) = ((s.apply (el.trafo.apply (k * P.1, k * P.2))).1, -(s.apply (el.trafo.apply (k * P.1, k * P.2))).2) := by
  obtain ⟨el, h1, h2, h3⟩ := noViewBox u r w h hv hw hh
  refine ⟨el, ⟨r.x, -r.y, r.x + w, -r.y + h⟩, mul (translate 0 h) ⟨k, 0, 0, k, 0, 0⟩, h1, ?_, h2, fun s P => ?_⟩
  · unfold bboxElement
    rw [hw, hh]
  · rw [h3]
    have a1 : k * (P.1 + r.x / k) = k * P.1 + r.x := by field_simp
    have a2 : k * (P.2 + r.y / k) = k * P.2 + r.y := by field_simp
    simp only [svgAttr, mul, translate, Trafo.apply, Prod.mk.injEq]
    generalize P.1 + r.x / k = q1 at *
    generalize P.2 + r.y / k = q2 at *
    constructor
    · linear_combination s.a * a1 - s.b * a2
    · linear_combination -s.c * a1 + s.d * a2

/-! ## Examples -/

/-- A `viewBox` from (10, 20) of size 30 × 40 in a viewport of 60 × 80: its upper left corner is the upper left corner of the picture. -/
example : ∃ el : Elem ℚ, svgElement 1 ⟨0, 0, some (10, 20, 30, 40), some (.abs 60), none, false⟩ = some el ∧ el.trafo.apply (10, 20) = (0, 40) :=
  ⟨_, rfl, by decide +kernel⟩

/-- Width 10 with ratio 2. -/
example : ∃ t : Trafo ℚ, fileTrafo 1 2 ⟨0, 0, 30, 40⟩ (some 10) none (some 2) = some t ∧ t.apply (30, 40) = (11, 7) :=
  ⟨⟨1 / 3, 0, 0, 1 / 8, 1, 2⟩, by decide +kernel, by decide +kernel⟩

/-- With a user unit of 28 points a `viewBox` which starts at 10 and is 20 wide is not shown at all: the clip starts behind its right border. -/
example : ∃ (el : Elem ℚ) (c : _), svgElement 28 ⟨0, 0, some (10, 10, 20, 20), none, none, true⟩ = some el ∧ el.clip = some c ∧ el.box.urx < c.1.1 :=
  ⟨_, _, rfl, rfl, by decide +kernel⟩

end PyX.Svg
