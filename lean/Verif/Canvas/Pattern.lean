import Mathlib.Analysis.SpecialFunctions.Trigonometric.Basic
import Mathlib.Algebra.Order.Floor.Ring
import Mathlib.Tactic.LinearCombination
import Mathlib.Analysis.Real.Sqrt
import Verif.Attr.Props

/-!
# Fill patterns (`pattern.py`): model and C143

Lengths are real numbers in points.  What is painted by the canvas of a pattern is a set of points.
-/

set_option linter.unusedSectionVars false

namespace PyX.Pattern

open Real

/-! ## Model -/

/-- A bounding box which is not empty. -/
structure Box where
  llx : ℝ
  lly : ℝ
  urx : ℝ
  ury : ℝ

/-- The content of the canvas: the points painted and the bounding box, which is none if it is empty. -/
structure Content where
  paint : ℝ × ℝ → Prop
  box : Option Box

/-- A pattern (`pattern.py:36-53`).  A `bbox` argument which is empty is treated as none by the code. -/
structure Pat where
  painttype : ℤ
  tilingtype : ℤ
  xstep : Option ℝ
  ystep : Option ℝ
  box : Option Box
  trafo : Option (ℝ × ℝ → ℝ × ℝ)
  enlarge : Option ℝ
  content : Content

/-- Exceptions: wrong types, steps which are zero, empty boxes, no support by SVG. -/
inductive Err
  | painttype | tilingtype | xzero | yzero | empty | gray | modified
deriving DecidableEq

/-- What is written for a pattern: the box to which a cell is clipped, the distances of cells, and the matrix. -/
structure Dict where
  box : Box
  xstep : ℝ
  ystep : ℝ
  matrix : ℝ × ℝ → ℝ × ℝ

/-- `enlarge` (`bbox.py:206-226`). -/
def Box.enlarged (b : Box) (e : ℝ) : Box := ⟨b.llx - e, b.lly - e, b.urx + e, b.ury + e⟩

/-- `lowrestuple_pt` (`bbox.py:104-108`). -/
noncomputable def Box.lowres (b : Box) : Box := ⟨⌊b.llx⌋, ⌊b.lly⌋, ⌈b.urx⌉, ⌈b.ury⌉⟩

/-- The steps (`pattern.py:80-87, 127-134`). -/
def stepOf (given : Option ℝ) (size : Option ℝ) : Except Err ℝ :=
  match given, size with
  | some s, _ => .ok s
  | none, some s => .ok s
  | none, none => .error .empty

/-- The box (`pattern.py:92-97, 139-144`). -/
def boxOf (p : Pat) : Except Err Box :=
  match p.box with
  | some b => .ok b
  | none =>
    match p.content.box with
    | none => .error .empty
    | some b =>
      match p.enlarge with
      | none => .ok b
      | some e => .ok (b.enlarged e)

open Classical in
/-- `processPS` (`pattern.py:73-113`).  A value of zero for `bboxenlarge` has no effect. -/
noncomputable def psDict (p : Pat) : Except Err Dict :=
  (stepOf p.xstep (p.content.box.map fun b => b.urx - b.llx)).bind fun xs =>
  (stepOf p.ystep (p.content.box.map fun b => b.ury - b.lly)).bind fun ys =>
  if xs = 0 then .error .xzero
  else if ys = 0 then .error .yzero
  else (boxOf p).map fun b => ⟨b, xs, ys, p.trafo.getD id⟩

/-- `processPDF` (`pattern.py:115-160`) and `PDFpattern.write` (`pattern.py:331-340`): the same with a rounded box. -/
noncomputable def pdfDict (p : Pat) : Except Err Dict := (psDict p).map fun d => { d with box := d.box.lowres }

/-- `processSVGattrs` and `SVGpattern.output` (`pattern.py:162-175, 365-387`). -/
def svgDict (p : Pat) : Except Err Dict :=
  if p.painttype ≠ 1 then .error .gray
  else if p.xstep.isSome ∨ p.ystep.isSome ∨ p.enlarge.isSome then .error .modified
  else
    match p.box.orElse fun _ => p.content.box with
    | none => .error .empty
    | some b => .ok ⟨b, b.urx - b.llx, b.ury - b.lly, p.trafo.getD id⟩

/-- The checks of the constructor (`pattern.py:43-47`). -/
def make (p : Pat) : Except Err Pat :=
  if p.painttype ≠ 1 ∧ p.painttype ≠ 2 then .error .painttype
  else if p.tilingtype ≠ 1 ∧ p.tilingtype ≠ 2 ∧ p.tilingtype ≠ 3 then .error .tilingtype
  else .ok p

/-- `rotate(angle)` (`trafo.py`, see C07), in radians. -/
noncomputable def rot (a : ℝ) (p : ℝ × ℝ) : ℝ × ℝ := (cos a * p.1 - sin a * p.2, sin a * p.1 + cos a * p.2)

/-- A line of width `w` along an axis, with ends which add at most half of the width (`butt`, `round` or `square`): `along` and `across` are
the coordinates of a point. -/
def Stroked (S : ℝ → ℝ → Prop) (w a b : ℝ) : Prop :=
  (∀ along across, a ≤ along → along ≤ b → |across| ≤ w / 2 → S along across) ∧
  (∀ along across, S along across → a - w / 2 ≤ along ∧ along ≤ b + w / 2 ∧ |across| ≤ w / 2)

/-- `hatched` (`pattern.py:183-190`): one line, in steps of `dist` and 100; the box is the one of the line enlarged by half of the width (`deco.py:165-166`). -/
noncomputable def hatched (S : ℝ → ℝ → Prop) (w dist angle : ℝ) : Pat where
  painttype := 1
  tilingtype := 1
  xstep := some dist
  ystep := some 100
  box := none
  trafo := some (rot angle)
  enlarge := none
  content := { paint := fun q => S q.2 q.1, box := some (Box.enlarged ⟨0, -50, 0, 50⟩ (w / 2)) }

/-- `crosshatched` (`pattern.py:263-271`): two lines; the box is the one of both. -/
noncomputable def crosshatched (S : ℝ → ℝ → Prop) (w dist angle : ℝ) : Pat where
  painttype := 1
  tilingtype := 1
  xstep := some dist
  ystep := some dist
  box := none
  trafo := some (rot angle)
  enlarge := none
  content := { paint := fun q => S q.2 q.1 ∨ S q.1 q.2, box := some (Box.enlarged ⟨0, 0, dist, dist⟩ (w / 2)) }

/-- The distances of the named sizes of all hatched patterns (`pattern.py:201-310`): `SMALL`, `SMALl`, …, `normal`, …, `LARGE`. -/
noncomputable def sizes (base : ℝ) : List ℝ :=
  [base / √64, base / √32, base / √16, base / √8, base / √4, base / √2, base, base * √2, base * √4, base * √8, base * √16, base * √32, base * √64]

/-! ### Changing a pattern -/

/-- An argument: a value or the marker. -/
inductive Arg (α : Type)
  | marker
  | val (a : α)

/-- `if x is not _marker: x = self.x` (`pattern.py:57-70`). -/
def Arg.keep {α : Type} (own : α) : Arg α → Arg α
  | .marker => .marker
  | .val _ => .val own

/-- `pattern.__call__` (`pattern.py:55-71`): the types of the new pattern, which has no content and whose steps may be markers.  The marker is not one of the
allowed values. -/
def call (p : Pat) (painttype tilingtype : Arg ℤ) (xstep ystep : Arg (Option ℝ)) : Except Err (ℤ × ℤ × Arg (Option ℝ) × Arg (Option ℝ)) :=
  match painttype.keep p.painttype with
  | .marker => .error .painttype
  | .val t =>
    if t ≠ 1 ∧ t ≠ 2 then .error .painttype
    else
      match tilingtype.keep p.tilingtype with
      | .marker => .error .tilingtype
      | .val u => if u ≠ 1 ∧ u ≠ 2 ∧ u ≠ 3 then .error .tilingtype else .ok (t, u, xstep.keep p.xstep, ystep.keep p.ystep)

/-- Arguments of `hatched` and `crosshatched`. -/
structure Hatch (A : Type) where
  dist : ℝ
  angle : ℝ
  styles : List A

/-- A system of attributes which exclude others of their class (`linewidth`, `linecap`, `dash`, colors, …). -/
def exclusive {A C : Type} [DecidableEq C] (cls : A → C) : Attr.Sys A C := ⟨fun a c => cls a = c, fun a => .excl (cls a)⟩

/-- The constructor (`pattern.py:186, 266`). -/
def Hatch.make {A C : Type} [DecidableEq C] (cls : A → C) (thin : A) (dist angle : ℝ) (styles : List A) : Hatch A :=
  ⟨dist, angle, Attr.mergeattrs (exclusive cls) (thin :: styles)⟩

/-- `hatched.__call__` (`pattern.py:192-199, 273-280`). -/
def Hatch.call {A C : Type} [DecidableEq C] (cls : A → C) (thin : A) (h : Hatch A) (dist angle : Option ℝ) (styles : Option (List A)) : Hatch A :=
  Hatch.make cls thin (dist.getD h.dist) (angle.getD h.angle) (styles.getD h.styles)

/-! ## Specification -/

/-- Points of a box. -/
def Box.In (b : Box) (q : ℝ × ℝ) : Prop := b.llx ≤ q.1 ∧ q.1 ≤ b.urx ∧ b.lly ≤ q.2 ∧ q.2 ≤ b.ury

/-- What PostScript and PDF paint for a pattern: the content, clipped to the box, in cells at all multiples of the steps, transformed. -/
def Painted (d : Dict) (paint : ℝ × ℝ → Prop) (p : ℝ × ℝ) : Prop :=
  ∃ i j : ℤ, ∃ q, paint q ∧ d.box.In q ∧ p = d.matrix (q.1 + i * d.xstep, q.2 + j * d.ystep)

/-- What SVG paints: the upper left corner of the box is at the origin (and at the corners of all cells). -/
def SvgPainted (d : Dict) (paint : ℝ × ℝ → Prop) (p : ℝ × ℝ) : Prop :=
  ∃ i j : ℤ, ∃ q, paint q ∧ d.box.In q ∧ p = d.matrix (q.1 - d.box.llx + i * d.xstep, q.2 - d.box.ury + j * d.ystep)

/-! ## Theorems -/

theorem rot_dot (a : ℝ) (q : ℝ × ℝ) : (rot a q).1 * cos a + (rot a q).2 * sin a = q.1 ∧ (rot a q).2 * cos a - (rot a q).1 * sin a = q.2 := by
  have h := sin_sq_add_cos_sq a
  unfold rot
  constructor
  · linear_combination q.1 * h
  · linear_combination q.2 * h

theorem rot_of (a : ℝ) (p : ℝ × ℝ) : p = rot a (p.1 * cos a + p.2 * sin a, p.2 * cos a - p.1 * sin a) := by
  have h := sin_sq_add_cos_sq a
  unfold rot
  apply Prod.ext
  · show p.1 = _
    linear_combination (-p.1) * h
  · show p.2 = _
    linear_combination (-p.2) * h

theorem lowres_in {b : Box} {q : ℝ × ℝ} (h : b.In q) : b.lowres.In q := by
  obtain ⟨h1, h2, h3, h4⟩ := h
  exact ⟨(Int.floor_le _).trans h1, h2.trans (Int.le_ceil _), (Int.floor_le _).trans h3, h4.trans (Int.le_ceil _)⟩

/-- Every number is in one of the intervals of length `s` which begin at `a`. -/
theorem cell (a s v : ℝ) (hs : 0 < s) : ∃ j : ℤ, a ≤ v - j * s ∧ v - j * s < a + s := by
  refine ⟨⌊(v - a) / s⌋, ?_, ?_⟩
  · have := Int.floor_le ((v - a) / s)
    have := (le_div_iff₀ hs).mp this
    linarith
  · have := Int.lt_floor_add_one ((v - a) / s)
    have := (div_lt_iff₀ hs).mp this
    linarith

/-- What `processPS` writes for the two patterns. -/
theorem hatched_dict (S : ℝ → ℝ → Prop) (w dist angle : ℝ) (hd : dist ≠ 0) :
    psDict (hatched S w dist angle) = .ok ⟨Box.enlarged ⟨0, -50, 0, 50⟩ (w / 2), dist, 100, rot angle⟩ := by
  unfold psDict hatched stepOf boxOf
  simp only [Except.bind]
  rw [if_neg hd, if_neg (by norm_num)]
  rfl

theorem cross_dict (S : ℝ → ℝ → Prop) (w dist angle : ℝ) (hd : dist ≠ 0) :
    psDict (crosshatched S w dist angle) = .ok ⟨Box.enlarged ⟨0, 0, dist, dist⟩ (w / 2), dist, dist, rot angle⟩ := by
  unfold psDict crosshatched stepOf boxOf
  simp only [Except.bind]
  rw [if_neg hd, if_neg hd]
  rfl

theorem strips (S : ℝ → ℝ → Prop) (w dist angle : ℝ) (hS : Stroked S w (-50) 50) (b : Box)
    (hb : ∀ q, (Box.enlarged ⟨0, -50, 0, 50⟩ (w / 2)).In q → b.In q) (p : ℝ × ℝ) :
    Painted ⟨b, dist, 100, rot angle⟩ (hatched S w dist angle).content.paint p ↔ ∃ i : ℤ, |p.1 * cos angle + p.2 * sin angle - i * dist| ≤ w / 2 := by
  constructor
  · rintro ⟨i, j, q, hq, -, rfl⟩
    refine ⟨i, ?_⟩
    show |(rot angle _).1 * _ + (rot angle _).2 * _ - _| ≤ _
    rw [(rot_dot angle _).1]
    simp only
    rw [add_sub_cancel_right]
    exact (hS.2 _ _ hq).2.2
  · rintro ⟨i, hi⟩
    obtain ⟨j, hj1, hj2⟩ := cell (-50) 100 (p.2 * cos angle - p.1 * sin angle) (by norm_num)
    refine ⟨i, j, (p.1 * cos angle + p.2 * sin angle - i * dist, p.2 * cos angle - p.1 * sin angle - j * 100), ?_, ?_, ?_⟩
    · exact hS.1 _ _ hj1 (by simp only; linarith) hi
    · apply hb
      obtain ⟨k1, k2⟩ := abs_le.mp hi
      have := abs_nonneg (p.1 * cos angle + p.2 * sin angle - i * dist)
      refine ⟨?_, ?_, ?_, ?_⟩ <;> simp only [Box.enlarged] <;> linarith
    · show p = rot angle _
      simp only [sub_add_cancel]
      exact rot_of angle p

/-- **C143 (hatched).** A hatched pattern paints strips of the width of the line around all lines of the direction, at distances `dist`, in PostScript and in PDF,
whatever the ends of the line are. -/
theorem hatched_strips (S : ℝ → ℝ → Prop) (w dist angle : ℝ) (hd : dist ≠ 0) (hS : Stroked S w (-50) 50) (p : ℝ × ℝ) :
    (∃ d, psDict (hatched S w dist angle) = .ok d ∧ (Painted d (hatched S w dist angle).content.paint p ↔ ∃ i : ℤ, |p.1 * cos angle + p.2 * sin angle - i * dist| ≤ w / 2)) ∧
    (∃ d, pdfDict (hatched S w dist angle) = .ok d ∧ (Painted d (hatched S w dist angle).content.paint p ↔ ∃ i : ℤ, |p.1 * cos angle + p.2 * sin angle - i * dist| ≤ w / 2)) := by
  refine ⟨⟨_, hatched_dict S w dist angle hd, strips S w dist angle hS _ (fun q h => h) p⟩, ⟨_, ?_, strips S w dist angle hS _ (fun q h => lowres_in h) p⟩⟩
  unfold pdfDict
  rw [hatched_dict S w dist angle hd]
  rfl

theorem grid (S : ℝ → ℝ → Prop) (w dist angle : ℝ) (hd : 0 < dist) (hS : Stroked S w 0 dist) (b : Box)
    (hb : ∀ q, (Box.enlarged ⟨0, 0, dist, dist⟩ (w / 2)).In q → b.In q) (p : ℝ × ℝ) :
    Painted ⟨b, dist, dist, rot angle⟩ (crosshatched S w dist angle).content.paint p ↔
      ∃ i : ℤ, |p.1 * cos angle + p.2 * sin angle - i * dist| ≤ w / 2 ∨ |p.2 * cos angle - p.1 * sin angle - i * dist| ≤ w / 2 := by
  constructor
  · rintro ⟨i, j, q, hq, -, rfl⟩
    rcases hq with hq | hq
    · refine ⟨i, .inl ?_⟩
      show |(rot angle _).1 * _ + (rot angle _).2 * _ - _| ≤ _
      rw [(rot_dot angle _).1]
      simp only
      rw [add_sub_cancel_right]
      exact (hS.2 _ _ hq).2.2
    · refine ⟨j, .inr ?_⟩
      show |(rot angle _).2 * _ - (rot angle _).1 * _ - _| ≤ _
      rw [(rot_dot angle _).2]
      simp only
      rw [add_sub_cancel_right]
      exact (hS.2 _ _ hq).2.2
  · rintro ⟨i, hi | hi⟩
    · obtain ⟨j, hj1, hj2⟩ := cell 0 dist (p.2 * cos angle - p.1 * sin angle) hd
      refine ⟨i, j, (p.1 * cos angle + p.2 * sin angle - i * dist, p.2 * cos angle - p.1 * sin angle - j * dist), ?_, ?_, ?_⟩
      · exact .inl (hS.1 _ _ hj1 (by simp only; linarith) hi)
      · apply hb
        obtain ⟨k1, k2⟩ := abs_le.mp hi
        have := abs_nonneg (p.1 * cos angle + p.2 * sin angle - i * dist)
        refine ⟨?_, ?_, ?_, ?_⟩ <;> simp only [Box.enlarged] <;> linarith
      · show p = rot angle _
        simp only [sub_add_cancel]
        exact rot_of angle p
    · obtain ⟨j, hj1, hj2⟩ := cell 0 dist (p.1 * cos angle + p.2 * sin angle) hd
      refine ⟨j, i, (p.1 * cos angle + p.2 * sin angle - j * dist, p.2 * cos angle - p.1 * sin angle - i * dist), ?_, ?_, ?_⟩
      · exact .inr (hS.1 _ _ hj1 (by simp only; linarith) hi)
      · apply hb
        obtain ⟨k1, k2⟩ := abs_le.mp hi
        have := abs_nonneg (p.2 * cos angle - p.1 * sin angle - i * dist)
        refine ⟨?_, ?_, ?_, ?_⟩ <;> simp only [Box.enlarged] <;> linarith
      · show p = rot angle _
        simp only [sub_add_cancel]
        exact rot_of angle p

/-- **C143 (crosshatched).** A crosshatched pattern paints the strips of both directions. -/
theorem crosshatched_grid (S : ℝ → ℝ → Prop) (w dist angle : ℝ) (hd : 0 < dist) (hS : Stroked S w 0 dist) (p : ℝ × ℝ) :
    (∃ d, psDict (crosshatched S w dist angle) = .ok d ∧ (Painted d (crosshatched S w dist angle).content.paint p ↔
      ∃ i : ℤ, |p.1 * cos angle + p.2 * sin angle - i * dist| ≤ w / 2 ∨ |p.2 * cos angle - p.1 * sin angle - i * dist| ≤ w / 2)) ∧
    (∃ d, pdfDict (crosshatched S w dist angle) = .ok d ∧ (Painted d (crosshatched S w dist angle).content.paint p ↔
      ∃ i : ℤ, |p.1 * cos angle + p.2 * sin angle - i * dist| ≤ w / 2 ∨ |p.2 * cos angle - p.1 * sin angle - i * dist| ≤ w / 2)) := by
  refine ⟨⟨_, cross_dict S w dist angle hd.ne', grid S w dist angle hd hS _ (fun q h => h) p⟩, ⟨_, ?_, grid S w dist angle hd hS _ (fun q h => lowres_in h) p⟩⟩
  unfold pdfDict
  rw [cross_dict S w dist angle hd.ne']
  rfl

/-- Lines with butt and with square ends. -/
theorem stroked_butt (w a b : ℝ) : Stroked (fun l c => a ≤ l ∧ l ≤ b ∧ |c| ≤ w / 2) w a b := by
  refine ⟨fun l c h1 h2 h3 => ⟨h1, h2, h3⟩, fun l c h => ?_⟩
  obtain ⟨h1, h2, h3⟩ := h
  have := abs_nonneg c
  exact ⟨by linarith, by linarith, h3⟩

theorem stroked_square (w a b : ℝ) : Stroked (fun l c => a - w / 2 ≤ l ∧ l ≤ b + w / 2 ∧ |c| ≤ w / 2) w a b := by
  refine ⟨fun l c h1 h2 h3 => ?_, fun l c h => h⟩
  have := abs_nonneg c
  exact ⟨by linarith, by linarith, h3⟩

/-- Lines of width 1 at distances 3: a point 0.4 from the third line is painted. -/
example : ∃ d, psDict (hatched (fun l c => -50 ≤ l ∧ l ≤ 50 ∧ |c| ≤ 1 / 2) 1 3 0) = .ok d ∧
    Painted d (hatched (fun l c => -50 ≤ l ∧ l ≤ 50 ∧ |c| ≤ 1 / 2) 1 3 0).content.paint (6.4, 1234) := by
  obtain ⟨d, h1, h2⟩ := (hatched_strips _ 1 3 0 (by norm_num) (stroked_butt 1 (-50) 50) (6.4, 1234)).1
  refine ⟨d, h1, h2.mpr ⟨2, ?_⟩⟩
  rw [cos_zero, sin_zero, abs_le]
  constructor <;> norm_num

/-! ### Cells -/

/-- A pattern as it is made from a canvas. -/
def simple (c : Content) : Pat := ⟨1, 1, none, none, none, none, none, c⟩

theorem simple_dict (c : Content) (b : Box) (hb : c.box = some b) (hx : b.llx < b.urx) (hy : b.lly < b.ury) :
    psDict (simple c) = .ok ⟨b, b.urx - b.llx, b.ury - b.lly, id⟩ := by
  unfold psDict simple stepOf boxOf
  simp only [hb, Option.map_some, Except.bind]
  rw [if_neg (by linarith), if_neg (by linarith)]
  rfl

theorem cell_unique (a s v : ℝ) (hs : 0 < s) : ∃! j : ℤ, a + j * s ≤ v ∧ v < a + s + j * s := by
  obtain ⟨j, h1, h2⟩ := cell a s v hs
  refine ⟨j, ⟨by linarith, by linarith⟩, ?_⟩
  rintro k ⟨k1, k2⟩
  have g1 : (k : ℝ) * s < (j + 1) * s := by nlinarith
  have g2 : (j : ℝ) * s < (k + 1) * s := by nlinarith
  have g1 := lt_of_mul_lt_mul_right g1 hs.le
  have g2 := lt_of_mul_lt_mul_right g2 hs.le
  have : k < j + 1 := by exact_mod_cast g1
  have : j < k + 1 := by exact_mod_cast g2
  omega

/-- **C143 (cells).** Without steps the cells are the bounding box of the content, edge to edge: each point of the plane is in exactly one of them. -/
theorem cells (c : Content) (b : Box) (hb : c.box = some b) (hx : b.llx < b.urx) (hy : b.lly < b.ury) (p : ℝ × ℝ) :
    ∃ d, psDict (simple c) = .ok d ∧ (∃! i : ℤ, b.llx + i * d.xstep ≤ p.1 ∧ p.1 < b.urx + i * d.xstep) ∧ ∃! j : ℤ, b.lly + j * d.ystep ≤ p.2 ∧ p.2 < b.ury + j * d.ystep := by
  refine ⟨_, simple_dict c b hb hx hy, ?_, ?_⟩
  · have := cell_unique b.llx (b.urx - b.llx) p.1 (by linarith)
    simpa using this
  · have := cell_unique b.lly (b.ury - b.lly) p.2 (by linarith)
    simpa using this

/-- **C143 (PostScript and PDF).** For a pattern without a box of its own PostScript and PDF paint the same points, although the box is rounded in PDF. -/
theorem ps_pdf (p : Pat) (hb : p.box = none) (he : ∀ e, p.enlarge = some e → 0 ≤ e) (hc : ∀ b, p.content.box = some b → ∀ q, p.content.paint q → b.In q) (d : Dict)
    (hd : psDict p = .ok d) : ∃ d', pdfDict p = .ok d' ∧ ∀ z, Painted d' p.content.paint z ↔ Painted d p.content.paint z := by
  have hin : ∀ q, p.content.paint q → d.box.In q := by
    intro q hq
    unfold psDict at hd
    cases hx : stepOf p.xstep (p.content.box.map fun b => b.urx - b.llx) with
    | error e => rw [hx] at hd; cases hd
    | ok xs =>
      rw [hx] at hd
      simp only [Except.bind] at hd
      cases hy : stepOf p.ystep (p.content.box.map fun b => b.ury - b.lly) with
      | error e => rw [hy] at hd; cases hd
      | ok ys =>
        rw [hy] at hd
        simp only at hd
        split_ifs at hd
        unfold boxOf at hd
        rw [hb] at hd
        cases hcb : p.content.box with
        | none => rw [hcb] at hd; cases hd
        | some b =>
          rw [hcb] at hd
          have := hc b hcb q hq
          cases hen : p.enlarge with
          | none => rw [hen] at hd; cases hd; exact this
          | some e =>
            rw [hen] at hd; cases hd
            have := he e hen
            obtain ⟨h1, h2, h3, h4⟩ := hc b hcb q hq
            refine ⟨?_, ?_, ?_, ?_⟩ <;> simp only [Box.enlarged] <;> linarith
  refine ⟨{ d with box := d.box.lowres }, by unfold pdfDict; rw [hd]; rfl, fun z => ⟨?_, ?_⟩⟩
  · rintro ⟨i, j, q, h1, _, h3⟩
    exact ⟨i, j, q, h1, hin q h1, h3⟩
  · rintro ⟨i, j, q, h1, h2, h3⟩
    exact ⟨i, j, q, h1, lowres_in h2, h3⟩

/-- With a box of its own this is false: the box clips the cell at 2.5 in PostScript and at 3 in PDF. -/
theorem ps_pdf_differ : ∃ (p : Pat) (d d' : Dict) (z : ℝ × ℝ), psDict p = .ok d ∧ pdfDict p = .ok d' ∧ Painted d' p.content.paint z ∧ ¬ Painted d p.content.paint z := by
  refine ⟨⟨1, 1, some 10, some 10, some ⟨0, 0, 2.5, 2.5⟩, none, none, ⟨fun q => (Box.mk 0 0 10 10).In q, some ⟨0, 0, 10, 10⟩⟩⟩, ⟨⟨0, 0, 2.5, 2.5⟩, 10, 10, id⟩,
    ⟨(Box.mk 0 0 2.5 2.5).lowres, 10, 10, id⟩, (2.75, 1), ?_, ?_, ?_, ?_⟩
  · unfold psDict stepOf boxOf
    simp only [Except.bind]
    rw [if_neg (by norm_num), if_neg (by norm_num)]
    rfl
  · unfold pdfDict psDict stepOf boxOf
    simp only [Except.bind]
    rw [if_neg (by norm_num), if_neg (by norm_num)]
    rfl
  · refine ⟨0, 0, (2.75, 1), ?_, ?_, by simp⟩
    · refine ⟨?_, ?_, ?_, ?_⟩ <;> norm_num
    · have h : ⌈(2.5 : ℝ)⌉ = 3 := by rw [Int.ceil_eq_iff]; norm_num
      refine ⟨?_, ?_, ?_, ?_⟩ <;> simp only [Box.lowres, h] <;> norm_num
  · rintro ⟨i, j, q, _, ⟨h1, h2, _⟩, h3⟩
    have h4 := congrArg Prod.fst h3
    simp only [id] at h4 h1 h2
    have g1 : (i : ℝ) * 10 < 1 * 10 := by linarith
    have g2 : (0 : ℝ) * 10 < i * 10 := by linarith
    have g1 := lt_of_mul_lt_mul_right g1 (by norm_num)
    have g2 := lt_of_mul_lt_mul_right g2 (by norm_num)
    have : i < 1 := by exact_mod_cast g1
    have : 0 < i := by exact_mod_cast g2
    omega

/-- **C143 (steps).** A step which is zero is an exception. -/
theorem zero_step (p : Pat) (h : p.xstep = some 0) : ∃ e, psDict p = .error e ∧ pdfDict p = .error e := by
  unfold pdfDict psDict stepOf
  rw [h]
  simp only [Except.bind]
  split
  · exact ⟨_, rfl, rfl⟩
  · rw [if_pos trivial]
    exact ⟨_, rfl, rfl⟩

/-! ### SVG -/

/-- **C143 (SVG).** SVG paints the pattern of PostScript shifted: the upper left corner of the box is at the origin. -/
theorem svg_shift (c : Content) (b : Box) (hb : c.box = some b) (hx : b.llx < b.urx) (hy : b.lly < b.ury) :
    ∃ d d', psDict (simple c) = .ok d ∧ svgDict (simple c) = .ok d' ∧ ∀ z : ℝ × ℝ, SvgPainted d' c.paint z ↔ Painted d c.paint (z.1 + b.llx, z.2 + b.ury) := by
  refine ⟨_, ⟨b, b.urx - b.llx, b.ury - b.lly, id⟩, simple_dict c b hb hx hy, ?_, fun z => ⟨?_, ?_⟩⟩
  · unfold svgDict simple
    simp [hb]
  · rintro ⟨i, j, q, h1, h2, h3⟩
    refine ⟨i, j, q, h1, h2, ?_⟩
    rw [h3]
    simp only [id]
    apply Prod.ext <;> simp only <;> ring
  · rintro ⟨i, j, q, h1, h2, h3⟩
    refine ⟨i, j, q, h1, h2, ?_⟩
    have e1 := congrArg Prod.fst h3
    have e2 := congrArg Prod.snd h3
    simp only [id] at e1 e2 ⊢
    apply Prod.ext <;> simp only <;> linarith

/-- So it is the same if the corner is at a multiple of the size of the box. -/
theorem svg_same (c : Content) (b : Box) (hb : c.box = some b) (hx : b.llx < b.urx) (hy : b.lly < b.ury) (k l : ℤ) (hk : b.llx = k * (b.urx - b.llx))
    (hl : b.ury = l * (b.ury - b.lly)) :
    ∃ d d', psDict (simple c) = .ok d ∧ svgDict (simple c) = .ok d' ∧ ∀ z : ℝ × ℝ, SvgPainted d' c.paint z ↔ Painted d c.paint z := by
  refine ⟨_, ⟨b, b.urx - b.llx, b.ury - b.lly, id⟩, simple_dict c b hb hx hy, ?_, fun z => ⟨?_, ?_⟩⟩
  · unfold svgDict simple
    simp [hb]
  · rintro ⟨i, j, q, h1, h2, h3⟩
    refine ⟨i - k, j - l, q, h1, h2, ?_⟩
    rw [h3]
    simp only [id]
    push_cast
    apply Prod.ext <;> simp only
    · linear_combination (-1) * hk
    · linear_combination (-1) * hl
  · rintro ⟨i, j, q, h1, h2, h3⟩
    refine ⟨i + k, j + l, q, h1, h2, ?_⟩
    rw [h3]
    simp only [id]
    push_cast
    apply Prod.ext <;> simp only
    · linear_combination hk
    · linear_combination hl

/-- In general it is not: a pattern with a strip at 1 to 2 and a box from 1 to 3 is inverted in SVG. -/
theorem svg_differs : ∃ (c : Content) (d d' : Dict) (z : ℝ × ℝ), psDict (simple c) = .ok d ∧ svgDict (simple c) = .ok d' ∧ SvgPainted d' c.paint z ∧ ¬ Painted d c.paint z := by
  refine ⟨⟨fun q => q.1 ≤ 2, some ⟨1, 0, 3, 3⟩⟩, _, ⟨⟨1, 0, 3, 3⟩, 3 - 1, 3 - 0, id⟩, (0.5, -1), simple_dict _ ⟨1, 0, 3, 3⟩ rfl (by norm_num) (by norm_num), ?_, ?_, ?_⟩
  · unfold svgDict simple
    simp
  · refine ⟨0, 0, (1.5, 2), ?_, ?_, ?_⟩
    · norm_num
    · refine ⟨?_, ?_, ?_, ?_⟩ <;> norm_num
    · simp only [id]
      apply Prod.ext <;> norm_num
  · rintro ⟨i, j, q, h0, ⟨h1, h2, _⟩, h3⟩
    have h4 := congrArg Prod.fst h3
    simp only [id] at h4 h1 h2 h0
    have g1 : (i : ℝ) * 2 < 0 * 2 := by linarith
    have g2 : (-1 : ℝ) * 2 < i * 2 := by linarith
    have g1 := lt_of_mul_lt_mul_right g1 (by norm_num)
    have g2 := lt_of_mul_lt_mul_right g2 (by norm_num)
    have : i < 0 := by exact_mod_cast g1
    have : -1 < i := by exact_mod_cast g2
    omega

/-- Hatched patterns are refused by SVG. -/
theorem svg_hatched (S : ℝ → ℝ → Prop) (w dist angle : ℝ) : svgDict (hatched S w dist angle) = .error .modified ∧ svgDict (crosshatched S w dist angle) = .error .modified := by
  unfold svgDict hatched crosshatched
  simp

/-! ### Sizes and changes -/

/-- **C143 (sizes).** Each size is `√2` times the one before, and `normal` is the base. -/
theorem sizes_ratio (base : ℝ) : (sizes base).IsChain (fun a b => b = √2 * a) ∧ (sizes base)[6]? = some base := by
  have e4 : √(4 : ℝ) = 2 := by rw [show (4 : ℝ) = 2 ^ 2 by norm_num]; exact Real.sqrt_sq (by norm_num)
  have e16 : √(16 : ℝ) = 4 := by rw [show (16 : ℝ) = 4 ^ 2 by norm_num]; exact Real.sqrt_sq (by norm_num)
  have e64 : √(64 : ℝ) = 8 := by rw [show (64 : ℝ) = 8 ^ 2 by norm_num]; exact Real.sqrt_sq (by norm_num)
  have e8 : √(8 : ℝ) = 2 * √2 := by rw [show (8 : ℝ) = 2 ^ 2 * 2 by norm_num, Real.sqrt_mul (by norm_num), Real.sqrt_sq (by norm_num)]
  have e32 : √(32 : ℝ) = 4 * √2 := by rw [show (32 : ℝ) = 4 ^ 2 * 2 by norm_num, Real.sqrt_mul (by norm_num), Real.sqrt_sq (by norm_num)]
  have h2 : √(2 : ℝ) * √2 = 2 := Real.mul_self_sqrt (by norm_num)
  have hne : √(2 : ℝ) ≠ 0 := by intro h; rw [h] at h2; norm_num at h2
  refine ⟨?_, rfl⟩
  unfold sizes
  rw [e4, e16, e64, e8, e32]
  simp only [List.isChain_cons_cons, List.isChain_singleton, and_true]
  have hsq : √(2 : ℝ) ^ 2 = 2 := Real.sq_sqrt (by norm_num)
  refine ⟨?_, ?_, ?_, ?_, ?_, ?_, ?_, ?_, ?_, ?_, ?_, ?_⟩ <;> field_simp <;> rw [hsq] <;> ring

/-- Calling a pattern does not make a changed copy: without both types it is an exception, and otherwise the new types and steps are ignored. -/
theorem call_useless (p : Pat) (t u : Arg ℤ) (xs ys : Arg (Option ℝ)) :
    (∃ e, call p t u xs ys = .error e) ∨ call p t u xs ys = .ok (p.painttype, p.tilingtype, xs.keep p.xstep, ys.keep p.ystep) := by
  unfold call
  cases t with
  | marker => exact .inl ⟨_, rfl⟩
  | val a =>
    simp only [Arg.keep]
    split_ifs
    · exact .inl ⟨_, rfl⟩
    · cases u with
      | marker => exact .inl ⟨_, rfl⟩
      | val b =>
        simp only
        split_ifs
        · exact .inl ⟨_, rfl⟩
        · exact .inr rfl

/-- In particular a call which changes the distance only is an exception. -/
theorem call_fails (p : Pat) (xs ys : Arg (Option ℝ)) : call p .marker .marker xs ys = .error .painttype := rfl

section Styles

variable {A C : Type} [DecidableEq C] (cls : A → C)

theorem merge_exclusive (a : A) (l : List A) : Attr.merge (exclusive cls) a l = l.filter (fun x => cls x ≠ cls a) ++ [a] := by
  unfold Attr.merge exclusive
  simp

theorem merge_fold (acc l : List A) (hl : (l.map cls).Nodup) :
    l.foldl (fun new a => Attr.merge (exclusive cls) a new) acc = acc.filter (fun x => cls x ∉ l.map cls) ++ l := by
  induction l using List.reverseRecOn with
  | nil => simp
  | append_singleton l a ih =>
    rw [List.map_append, List.nodup_append] at hl
    obtain ⟨h1, -, h3⟩ := hl
    rw [List.foldl_append, ih h1, List.foldl_cons, List.foldl_nil, merge_exclusive, List.filter_append, List.filter_filter]
    have e1 : l.filter (fun x => cls x ≠ cls a) = l := by
      rw [List.filter_eq_self]
      intro x hx
      have := h3 (cls x) (List.mem_map_of_mem hx) (cls a) (by simp)
      simpa using this
    rw [e1, List.append_assoc]
    congr 1
    apply List.filter_congr
    intro x hx
    simp only [List.map_append, List.map_cons, List.map_nil, List.mem_append, List.mem_singleton, not_or]
    by_cases h1 : cls x ∈ l.map cls <;> by_cases h2 : cls x = cls a <;> simp [h1, h2]

theorem merge_nodup (l : List A) : ((Attr.mergeattrs (exclusive cls) l).map cls).Nodup ∧ ∀ a ∈ l, cls a ∈ (Attr.mergeattrs (exclusive cls) l).map cls := by
  induction l using List.reverseRecOn with
  | nil => simp [Attr.mergeattrs]
  | append_singleton l a ih =>
    rw [Attr.mergeattrs_snoc, merge_exclusive]
    obtain ⟨h1, h2⟩ := ih
    constructor
    · rw [List.map_append, List.nodup_append]
      refine ⟨?_, by simp, ?_⟩
      · exact List.Nodup.sublist (List.Sublist.map _ List.filter_sublist) h1
      · intro x hx y hy
        simp only [List.mem_map, List.mem_filter] at hx
        obtain ⟨z, ⟨_, hz⟩, rfl⟩ := hx
        simp only [List.map_cons, List.map_nil, List.mem_singleton] at hy
        rw [hy]
        simpa using hz
    · intro x hx
      simp only [List.mem_append, List.mem_singleton] at hx
      rw [List.map_append, List.mem_append]
      by_cases hxa : cls x = cls a
      · right; simp [hxa]
      · rcases hx with hx | hx
        · left
          obtain ⟨z, hz1, hz2⟩ := List.mem_map.mp (h2 x hx)
          rw [← hz2]
          refine List.mem_map_of_mem (List.mem_filter.mpr ⟨hz1, ?_⟩)
          simp [hz2, hxa]
        · exact absurd (congrArg cls hx) hxa

/-- **C143 (changes).** Calling a hatched pattern changes what is given and keeps the rest, for distance, angle and styles. -/
theorem hatch_call (thin : A) (d a : ℝ) (s : List A) (d' a' : Option ℝ) (s' : Option (List A)) :
    (Hatch.make cls thin d a s).call cls thin d' a' s' = Hatch.make cls thin (d'.getD d) (a'.getD a) (s'.getD s) := by
  unfold Hatch.call
  cases s' with
  | some t => rfl
  | none =>
    show Hatch.make cls thin _ _ (Hatch.make cls thin d a s).styles = _
    unfold Hatch.make
    congr 1
    simp only [Option.getD_none]
    obtain ⟨h1, h2⟩ := merge_nodup cls (thin :: s)
    have h3 := h2 thin (by simp)
    generalize Attr.mergeattrs (exclusive cls) (thin :: s) = r at h1 h3
    have : Attr.mergeattrs (exclusive cls) (thin :: r) = r.foldl (fun new a => Attr.merge (exclusive cls) a new) [thin] := rfl
    rw [this, merge_fold cls [thin] r h1, List.filter_cons_of_neg (by simpa using h3)]
    rfl

/-- Styles which are given replace the thin line of the same class. -/
example : (Hatch.make (fun n : ℕ × ℕ => n.1) (0, 1) 10 45 [(1, 5), (0, 7)]).styles = [(1, 5), (0, 7)] := by
  decide

end Styles

end PyX.Pattern
