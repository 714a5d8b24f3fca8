import Verif.Page.Model
import Verif.BBox.Props
import Mathlib.Algebra.Order.Field.Basic
import Mathlib.Tactic.Linarith
import Mathlib.Tactic.FieldSimp
import Mathlib.Tactic.LinearCombination

/-!
# C36: a page places its content centred and fitted within the margins
-/

set_option linter.unusedSectionVars false

namespace PyX.Page

theorem rotate_quarter : Trafo.rotate 90 none none = some (quarter : Trafo ℝ) := by
  unfold Trafo.rotate Trafo.phi quarter
  have : Real.pi * 90 / 180 = Real.pi / 2 := by ring
  simp [this]

variable {K : Type*} [Field K] [LinearOrder K] [IsStrictOrderedRing K]

theorem scale_at (s x y : K) : Trafo.scale s (some s) (some x) (some y) = some (scaleAt s x y) := rfl

/-! ## Specification -/

/-- `r` is the image of the box `b` (its bounding box is exact: quarter turns and scalings). -/
def Image (t : Trafo K) (b r : Quad K) : Prop :=
  (∀ p : K × K, (b.llx ≤ p.1 ∧ p.1 ≤ b.urx ∧ b.lly ≤ p.2 ∧ p.2 ≤ b.ury) →
    r.llx ≤ (t.apply p).1 ∧ (t.apply p).1 ≤ r.urx ∧ r.lly ≤ (t.apply p).2 ∧ (t.apply p).2 ≤ r.ury) ∧
  (∀ q : K × K, (q = (r.llx, r.lly) ∨ q = (r.urx, r.ury)) → ∃ p : K × K,
    (b.llx ≤ p.1 ∧ p.1 ≤ b.urx ∧ b.lly ≤ p.2 ∧ p.2 ≤ b.ury) ∧ t.apply p = q)

/-- Equal space left and right, top and bottom. -/
def Centred (pw ph : K) (r : Quad K) : Prop := r.llx - 0 = pw - r.urx ∧ r.lly - 0 = ph - r.ury

/-- Within the margins. -/
def Within (pw ph m : K) (r : Quad K) : Prop := m ≤ r.llx ∧ r.urx ≤ pw - m ∧ m ≤ r.lly ∧ r.ury ≤ ph - m

/-- Touching both margins in at least one direction. -/
def Touches (pw ph m : K) (r : Quad K) : Prop :=
  (r.llx = m ∧ r.urx = pw - m) ∨ (r.lly = m ∧ r.ury = ph - m)

/-- No distortion: all distances are multiplied by the same factor. -/
def Similar (t : Trafo K) (s : K) : Prop := ∀ p q : K × K,
  ((t.apply p).1 - (t.apply q).1) ^ 2 + ((t.apply p).2 - (t.apply q).2) ^ 2 =
    s ^ 2 * ((p.1 - q.1) ^ 2 + (p.2 - q.2) ^ 2)

/-- Turned by a quarter counter-clockwise, or not: the direction of the image of the horizontal. -/
def Turned (rotated : Bool) (t : Trafo K) (s : K) : Prop := ∀ x y : K,
  (t.apply (x + 1, y)).1 - (t.apply (x, y)).1 = (if rotated then 0 else s) ∧
  (t.apply (x + 1, y)).2 - (t.apply (x, y)).2 = (if rotated then s else 0) ∧
  (t.apply (x, y + 1)).1 - (t.apply (x, y)).1 = (if rotated then -s else 0) ∧
  (t.apply (x, y + 1)).2 - (t.apply (x, y)).2 = (if rotated then 0 else s)

/-! ## The transformation -/

/-- The form of all page transformations. -/
def form (rotated : Bool) (s e f : K) : Trafo K := if rotated then ⟨0, -s, s, 0, e, f⟩ else ⟨s, 0, 0, s, e, f⟩

theorem form_similar (rotated : Bool) (s e f : K) : Similar (form rotated s e f) s := by
  intro p q
  cases rotated <;> simp only [form, Trafo.apply, if_true, Bool.false_eq_true, if_false] <;> ring

theorem form_turned (rotated : Bool) (s e f : K) : Turned rotated (form rotated s e f) s := by
  intro x y
  cases rotated <;> simp only [form, Trafo.apply, if_true, Bool.false_eq_true, if_false] <;>
    refine ⟨?_, ?_, ?_, ?_⟩ <;> ring

/-- The transformed box of such a transformation. -/
def formBox (rotated : Bool) (s e f : K) (b : Quad K) : Quad K :=
  if rotated then ⟨-s * b.ury + e, s * b.llx + f, -s * b.lly + e, s * b.urx + f⟩
  else ⟨s * b.llx + e, s * b.lly + f, s * b.urx + e, s * b.ury + f⟩

theorem form_image (rotated : Bool) (s e f : K) (hs : 0 ≤ s) (b : Quad K) (hx : b.llx ≤ b.urx) (hy : b.lly ≤ b.ury) :
    Image (form rotated s e f) b (formBox rotated s e f b) := by
  constructor
  · rintro ⟨x, y⟩ ⟨h1, h2, h3, h4⟩
    have a1 := mul_le_mul_of_nonneg_left h1 hs
    have a2 := mul_le_mul_of_nonneg_left h2 hs
    have a3 := mul_le_mul_of_nonneg_left h3 hs
    have a4 := mul_le_mul_of_nonneg_left h4 hs
    simp only at a1 a2 a3 a4
    cases rotated <;> simp only [form, formBox, Trafo.apply, if_true, Bool.false_eq_true, if_false] <;>
      refine ⟨?_, ?_, ?_, ?_⟩ <;> linarith
  · rintro q (rfl | rfl) <;> cases rotated <;>
      simp only [form, formBox, Trafo.apply, if_true, Bool.false_eq_true, if_false]
    · exact ⟨(b.llx, b.lly), ⟨le_rfl, hx, le_rfl, hy⟩, by ext <;> simp⟩
    · exact ⟨(b.llx, b.ury), ⟨le_rfl, hx, hy, le_rfl⟩, by ext <;> simp⟩
    · exact ⟨(b.urx, b.ury), ⟨hx, le_rfl, hy, le_rfl⟩, by ext <;> simp⟩
    · exact ⟨(b.urx, b.lly), ⟨hx, le_rfl, le_rfl, hy⟩, by ext <;> simp⟩

theorem form_transformed (rotated : Bool) (s e f : K) (hs : 0 ≤ s) (b : Quad K) (hx : b.llx ≤ b.urx)
    (hy : b.lly ≤ b.ury) : BBox.transformed (some b) (form rotated s e f) = some (formBox rotated s e f b) := by
  have a1 := mul_le_mul_of_nonneg_left hx hs
  have a2 := mul_le_mul_of_nonneg_left hy hs
  cases rotated
  · simp only [BBox.transformed, form, formBox, Trafo.apply, Bool.false_eq_true, if_false, Option.some.injEq,
      Quad.mk.injEq, zero_mul, add_zero, zero_add]
    refine ⟨?_, ?_, ?_, ?_⟩
    · rw [min_eq_left, min_eq_left, min_eq_left] <;> simp [a1]
    · rw [min_eq_left, min_eq_left, min_eq_left] <;> simp [a2]
    · rw [max_eq_left, max_eq_left, max_eq_right] <;> simp [a1]
    · rw [max_eq_left, max_eq_right] <;> simp [a2]
  · simp only [BBox.transformed, form, formBox, Trafo.apply, if_true, Option.some.injEq,
      Quad.mk.injEq, zero_mul, add_zero, zero_add, neg_mul]
    refine ⟨?_, ?_, ?_, ?_⟩
    · rw [min_eq_right]; simp; linarith
    · rw [min_eq_left, min_eq_left, min_eq_left] <;> simp [a1]
    · rw [max_eq_left, max_eq_left, max_eq_left] <;> simp <;> linarith
    · rw [max_eq_left, max_eq_left, max_eq_right] <;> simp [a1]

theorem place_form (pw ph : K) (rotated : Bool) (b : Quad K) : ∃ e f, place pw ph rotated true b = form rotated 1 e f ∧
    Centred pw ph (formBox rotated 1 e f b) := by
  cases rotated
  · refine ⟨1 / 2 * (pw - (b.urx - b.llx)) - b.llx, 1 / 2 * (ph - (b.ury - b.lly)) - b.lly, rfl, ?_, ?_⟩ <;>
      simp only [formBox, Bool.false_eq_true, if_false] <;> ring
  · refine ⟨pw + (-(1 / 2) * (pw - (b.ury - b.lly)) + b.lly), 1 / 2 * (ph - (b.urx - b.llx)) - b.llx, ?_, ?_, ?_⟩
    · simp only [place, if_true, form, Trafo.mul, Trafo.translate, quarter, Trafo.mk.injEq]
      refine ⟨?_, ?_, ?_, ?_, ?_, ?_⟩ <;> ring
    · simp only [formBox, if_true]; ring
    · simp only [formBox, if_true]; ring

theorem scale_form (rotated : Bool) (s e f x y : K) : Trafo.mul (scaleAt s x y) (form rotated 1 e f) =
    form rotated s (s * e + (1 - s) * x) (s * f + (1 - s) * y) := by
  cases rotated <;> simp only [form, scaleAt, Trafo.mul, if_true, Bool.false_eq_true, if_false, Trafo.mk.injEq] <;>
    refine ⟨?_, ?_, ?_, ?_, ?_, ?_⟩ <;> ring

theorem sfactor_spec (pw ph s : K) (rotated : Bool) (b : Quad K) (hw : 0 ≤ pw) (hh : 0 ≤ ph)
    (hx : b.llx ≤ b.urx) (hy : b.lly ≤ b.ury) (h : sfactor pw ph rotated b = .ok s) :
    0 ≤ s ∧ (rotated = false → s * (b.urx - b.llx) ≤ pw ∧ s * (b.ury - b.lly) ≤ ph ∧
      (s * (b.urx - b.llx) = pw ∨ s * (b.ury - b.lly) = ph)) ∧
    (rotated = true → s * (b.ury - b.lly) ≤ pw ∧ s * (b.urx - b.llx) ≤ ph ∧
      (s * (b.ury - b.lly) = pw ∨ s * (b.urx - b.llx) = ph)) := by
  unfold sfactor at h
  split at h
  · simp at h
  · rename_i hne
    push Not at hne
    have px : 0 < b.urx - b.llx := lt_of_le_of_ne (by linarith) (Ne.symm hne.1)
    have py : 0 < b.ury - b.lly := lt_of_le_of_ne (by linarith) (Ne.symm hne.2)
    have key : ∀ v w : K, 0 ≤ v → 0 ≤ w → ∀ a c : K, 0 < a → 0 < c → 0 ≤ min (v / a) (w / c) ∧
        min (v / a) (w / c) * a ≤ v ∧ min (v / a) (w / c) * c ≤ w ∧
        (min (v / a) (w / c) * a = v ∨ min (v / a) (w / c) * c = w) := by
      intro v w hv hw a c ha hc
      refine ⟨le_min (div_nonneg hv ha.le) (div_nonneg hw hc.le), ?_, ?_, ?_⟩
      · exact (le_div_iff₀ ha).mp (min_le_left _ _)
      · exact (le_div_iff₀ hc).mp (min_le_right _ _)
      · rcases min_choice (v / a) (w / c) with e | e
        · left; rw [e]; field_simp
        · right; rw [e]; field_simp
    cases rotated with
    | true =>
      simp only [if_true, Except.ok.injEq] at h
      subst h
      obtain ⟨k1, k2, k3, k4⟩ := key ph pw hh hw _ _ px py
      exact ⟨k1, fun e => by simp at e, fun _ => ⟨k3, k2, k4.symm⟩⟩
    | false =>
      simp only [Bool.false_eq_true, if_false, Except.ok.injEq] at h
      subst h
      obtain ⟨k1, k2, k3, k4⟩ := key pw ph hw hh _ _ px py
      exact ⟨k1, fun _ => ⟨k2, k3, k4⟩, fun e => by simp at e⟩

/-- **C36.**  Centred content, not fitted: the transformation moves (and for a rotated page turns) the content
without scaling, its box has equal space left and right and at top and bottom. -/
theorem centred (o : Opts K) (canvas : BBox K) (pw ph : K) (b : Quad K) (hp : o.paper = some (pw, ph))
    (hb : contentBox o canvas = some b) (hx : b.llx ≤ b.urx) (hy : b.lly ≤ b.ury) (hc : o.centered = true)
    (hf : o.fittosize = false) :
    ∃ t r, process o canvas = .ok (some t, some r) ∧ Image t b r ∧ Centred pw ph r ∧ Similar t 1 ∧
      Turned o.rotated t 1 := by
  obtain ⟨e, f, h1, h2⟩ := place_form pw ph o.rotated b
  refine ⟨form o.rotated 1 e f, formBox o.rotated 1 e f b, ?_, form_image _ _ _ _ zero_le_one _ hx hy, h2,
    form_similar _ _ _ _, form_turned _ _ _ _⟩
  unfold process
  rw [hp, hb]
  simp only [hc, hf, Bool.or_true, Bool.or_false, if_true, Bool.false_eq_true, if_false, h1,
    form_transformed _ _ _ _ zero_le_one _ hx hy]

/-- **C36.**  Fitted content of positive size: if the margins leave space, the call succeeds, the content is
centred, within the margins, touches both of them in one direction and is not distorted; rotated
pages are turned. -/
theorem fitted (o : Opts K) (canvas : BBox K) (pw ph : K) (b : Quad K) (hp : o.paper = some (pw, ph))
    (hb : contentBox o canvas = some b) (hx : b.llx < b.urx) (hy : b.lly < b.ury) (hf : o.fittosize = true)
    (hm : 2 * o.margin ≤ pw ∧ 2 * o.margin ≤ ph) :
    ∃ t r s, process o canvas = .ok (some t, some r) ∧ 0 ≤ s ∧ Image t b r ∧ Centred pw ph r ∧
      Within pw ph o.margin r ∧ Touches pw ph o.margin r ∧ Similar t s ∧ Turned o.rotated t s := by
  obtain ⟨e, f, h1, h2⟩ := place_form pw ph o.rotated b
  obtain ⟨s, hs⟩ : ∃ s, sfactor (pw - 2 * o.margin) (ph - 2 * o.margin) o.rotated b = .ok s := by
    unfold sfactor
    rw [if_neg (by push Not; exact ⟨by linarith, by linarith⟩)]
    split <;> exact ⟨_, rfl⟩
  obtain ⟨s0, s1, s2⟩ := sfactor_spec _ _ s _ b (by linarith) (by linarith) hx.le hy.le hs
  obtain ⟨m, hm'⟩ : ∃ m, m = o.margin := ⟨_, rfl⟩
  have hx' : o.margin + 1 / 2 * (pw - 2 * o.margin) = 1 / 2 * pw := by ring
  have hy' : o.margin + 1 / 2 * (ph - 2 * o.margin) = 1 / 2 * ph := by ring
  refine ⟨form o.rotated s (s * e + (1 - s) * (1 / 2 * pw)) (s * f + (1 - s) * (1 / 2 * ph)), formBox o.rotated s _ _ b,
    s, ?_, s0, form_image _ _ _ _ s0 _ hx.le hy.le, ?_, ?_, ?_, form_similar _ _ _ _, form_turned _ _ _ _⟩
  · unfold process
    rw [hp, hb]
    have hfit : fit pw ph o.margin o.rotated b (place pw ph o.rotated true b) =
        .ok (form o.rotated s (s * e + (1 - s) * (1 / 2 * pw)) (s * f + (1 - s) * (1 / 2 * ph))) := by
      unfold fit
      rw [if_neg (by push Not; exact hm), hs]
      simp only [hx', hy', h1, scale_form]
    simp only [hf, Bool.or_true, if_true, hfit, form_transformed _ _ _ _ s0 _ hx.le hy.le]
  all_goals
    rw [← hm'] at s1 s2
    try rw [← hm']
    clear hs hm hp hb hx' hy' hm' h1
    cases hr : o.rotated with
    | true =>
      obtain ⟨t1, t2, t3⟩ := s2 hr
      clear s1 s2
      rw [hr] at h2
      simp only [Centred, formBox, if_true] at h2
      obtain ⟨c1, c2⟩ := h2
      simp only [Centred, Within, Touches, formBox, if_true]
      have d1 : s * (2 * e) = s * (pw + (b.ury + b.lly)) := by congr 1; linarith
      have d2 : s * (2 * f) = s * (ph - (b.urx + b.llx)) := by congr 1; linarith
      first
        | (constructor <;> linarith)
        | (refine ⟨?_, ?_, ?_, ?_⟩ <;> linarith)
        | (rcases t3 with t3 | t3
           · left; constructor <;> linarith
           · right; constructor <;> linarith)
    | false =>
      obtain ⟨t1, t2, t3⟩ := s1 hr
      clear s1 s2
      rw [hr] at h2
      simp only [Centred, formBox, Bool.false_eq_true, if_false] at h2
      obtain ⟨c1, c2⟩ := h2
      simp only [Centred, Within, Touches, formBox, Bool.false_eq_true, if_false]
      have d1 : s * (2 * e) = s * (pw - (b.urx + b.llx)) := by congr 1; linarith
      have d2 : s * (2 * f) = s * (ph - (b.ury + b.lly)) := by congr 1; linarith
      first
        | (constructor <;> linarith)
        | (refine ⟨?_, ?_, ?_, ?_⟩ <;> linarith)
        | (rcases t3 with t3 | t3
           · left; constructor <;> linarith
           · right; constructor <;> linarith)

/-- Margins that leave no space are rejected. -/
theorem margins_rejected (o : Opts K) (canvas : BBox K) (pw ph : K) (b : Quad K) (hp : o.paper = some (pw, ph))
    (hb : contentBox o canvas = some b) (hf : o.fittosize = true) (hm : pw < 2 * o.margin ∨ ph < 2 * o.margin) :
    process o canvas = .error .value := by
  unfold process
  rw [hp, hb]
  simp only [hf, Bool.or_true, if_true, fit, gt_iff_lt, hm]

/-- The points of the content which the canvas box contains are placed as well: the box of the content contains
the box of the canvas unless another one is given, for a non-negative enlargement. -/
theorem contentBox_contains (o : Opts K) (canvas : BBox K) (hn : o.pagebbox = none) (he : 0 ≤ o.bboxenlarge) (c b : Quad K)
    (hc : canvas = some c) (hb : contentBox o canvas = some b) :
    b.llx ≤ c.llx ∧ c.urx ≤ b.urx ∧ b.lly ≤ c.lly ∧ c.ury ≤ b.ury := by
  unfold contentBox at hb
  rw [hn, hc] at hb
  simp only [BBox.enlarged, Option.getD_none, Option.some.injEq] at hb
  subst hb
  simp only
  refine ⟨?_, ?_, ?_, ?_⟩ <;> linarith

/-! ## Without a paper format, or without anything asked for, the content stays where it is -/

theorem not_placed (o : Opts K) (canvas : BBox K)
    (h : o.paper = none ∨ (o.rotated || o.centered || o.fittosize) = false) :
    process o canvas = .ok (none, contentBox o canvas) := by
  unfold process
  rcases h with h | h
  · rw [h]
  · cases ho : o.paper with
    | none => rfl
    | some p =>
      cases hc : contentBox o canvas with
      | none => rfl
      | some b => simp only [h, Bool.false_eq_true, if_false]

/-! ## Content without extent -/

/-- The full statement for fitted content, including degenerate boxes. -/
def FitsAll (K : Type*) [Field K] [LinearOrder K] : Prop := ∀ (o : Opts K) (canvas : BBox K) (pw ph : K) (b : Quad K),
  o.paper = some (pw, ph) → contentBox o canvas = some b → b.llx ≤ b.urx → b.lly ≤ b.ury → o.fittosize = true →
  2 * o.margin ≤ pw ∧ 2 * o.margin ≤ ph → ∃ t r, process o canvas = .ok (some t, some r)

/-- A horizontal line as content (given as page box, or with a `bboxenlarge` of zero) cannot be fitted: the code
divides by its height. -/
theorem flat_content_fails : ¬ FitsAll ℚ := by
  intro h
  obtain ⟨t, r, hr⟩ := h ⟨some (100, 100), false, true, true, 10, 0, none⟩ (some ⟨0, 0, 50, 0⟩) 100 100
    ⟨0, 0, 50, 0⟩ rfl (by decide +kernel) (by decide +kernel) (by decide +kernel) rfl (by decide +kernel)
  have : process (K := ℚ) ⟨some (100, 100), false, true, true, 10, 0, none⟩ (some ⟨0, 0, 50, 0⟩) =
      .error .zeroDivision := by
    simp [process, contentBox, BBox.enlarged, fit, sfactor]
    norm_num
  rw [this] at hr
  simp at hr

/-! ## Examples -/

example : ∃ t r, process (K := ℚ) ⟨some (100, 200), true, true, false, 10, 1, none⟩ (some ⟨0, 0, 50, 20⟩) =
    .ok (some t, some r) ∧ t.apply (0, 0) = (60, 75) ∧ r = ⟨39, 74, 61, 126⟩ := by
  refine ⟨⟨0, -1, 1, 0, 60, 75⟩, ⟨39, 74, 61, 126⟩, ?_, ?_, rfl⟩
  · simp [process, contentBox, BBox.enlarged, place, Trafo.mul, Trafo.translate, quarter, BBox.transformed, Trafo.apply]
    norm_num
  · simp [Trafo.apply]

example : (⟨some (100, 200), false, true, true, 10, 1, none⟩ : Opts ℚ).fittosize = true ∧
    contentBox (K := ℚ) ⟨some (100, 200), false, true, true, 10, 1, none⟩ (some ⟨0, 0, 50, 20⟩) =
      some ⟨-1, -1, 51, 21⟩ ∧ (-1 : ℚ) < 51 := by
  refine ⟨rfl, ?_, by norm_num⟩
  simp [contentBox, BBox.enlarged]
  norm_num

end PyX.Page
