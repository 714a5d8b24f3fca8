import Verif.Canvas.PdfProps
import Verif.BBox.Props

/-!
# C34: the bounding boxes of a canvas tree contain everything which can be seen of its picture

`canvas.bbox()` (`boxItem`) ignores line widths, the box computed while writing (`outBox`) takes them
into account.  Both are compared with the picture `pic` of the tree: a mark is seen at `z` if `z` belongs
to the (transformed) path, or to the stroke of it, and lies within all clip paths.
-/

set_option linter.unusedSectionVars false

namespace PyX.Canvas

open BBox (Mem)

variable {K P F : Type} [Field K] [LinearOrder K] [IsStrictOrderedRing K] [PathLike K P] [DecidableEq F]

/-- The point `x`, in the coordinates of the path, is painted: a point of the path for fillings and
texts, and at most half a line width away from one, in each coordinate, for strokes. -/
def Mark.paints (k : Mark K P F) (x : K × K) : Prop :=
  match k.ink with
  | .stroke _ _ lw _ _ => ∃ x', PathLike.inside k.path x' ∧ |x.1 - x'.1| ≤ lw / 2 ∧ |x.2 - x'.2| ≤ lw / 2
  | .fill _ _ _ => PathLike.inside k.path x
  | .text _ _ _ => PathLike.inside k.path x
  | .field => PathLike.inside k.path x

/-- The mark is seen at the point `z` of the page. -/
def Mark.seen (k : Mark K P F) (z : K × K) : Prop :=
  (∃ x, k.paints x ∧ k.T.apply x = z) ∧ ∀ p ∈ k.clips, PathLike.inside p z

/-- The path itself (disregarding the line width) is seen at `z`. -/
def Mark.pathSeen (k : Mark K P F) (z : K × K) : Prop :=
  (∃ x, PathLike.inside k.path x ∧ k.T.apply x = z) ∧ ∀ p ∈ k.clips, PathLike.inside p z

/-- A transformation attribute can be inverted. -/
def Attr.invertible : Attr K P → Prop
  | .trafo t => t.a * t.d - t.b * t.c ≠ 0
  | .clip _ => True
  | .style _ => True

/-- The line width, if the style is one, is not negative. -/
def Style.widthOK : Style K → Prop
  | .linewidth w => 0 ≤ w
  | _ => True

mutual
/-- Transformations can be inverted, line widths are not negative, what is stroked of a path is part of
the path. -/
def BoxOK : Item K P F → Prop
  | .text _ _ _ => True
  | .field _ => True
  | .dp path sp sty _ ss orn => (∀ q, sp = some q → ∀ x, PathLike.inside q x → PathLike.inside path x) ∧
      (∀ s ∈ sty, s.widthOK) ∧ (∀ l, ss = some l → ∀ s ∈ l, s.widthOK) ∧ BoxOKs orn
  | .cv attrs items => (∀ a ∈ attrs, a.invertible) ∧ (∀ s ∈ stylesOf attrs, s.widthOK) ∧ BoxOKs items
def BoxOKs : Items K P F → Prop
  | .nil => True
  | .cons i l => BoxOK i ∧ BoxOKs l
end

theorem apply_inj (t : Trafo K) (h : t.a * t.d - t.b * t.c ≠ 0) {x y : K × K} (e : t.apply x = t.apply y) :
    x = y := by
  obtain ⟨x1, x2⟩ := x
  obtain ⟨y1, y2⟩ := y
  simp only [Trafo.apply, Prod.mk.injEq] at e
  obtain ⟨e1, e2⟩ := e
  have h1 : (t.a * t.d - t.b * t.c) * (x1 - y1) = 0 := by linear_combination t.d * e1 - t.b * e2
  have h2 : (t.a * t.d - t.b * t.c) * (x2 - y2) = 0 := by linear_combination t.a * e2 - t.c * e1
  have h3 := (mul_eq_zero.mp h1).resolve_left h
  have h4 := (mul_eq_zero.mp h2).resolve_left h
  exact Prod.ext (sub_eq_zero.mp h3) (sub_eq_zero.mp h4)

theorem build_det (attrs : List (Attr K P)) (cv : CV K P) (h : build attrs = some cv)
    (hi : ∀ a ∈ attrs, a.invertible) : cv.trafo.a * cv.trafo.d - cv.trafo.b * cv.trafo.c ≠ 0 := by
  induction attrs generalizing cv with
  | nil =>
    simp only [build, Option.some.injEq] at h
    subst h
    simp [Trafo.one]
  | cons a l ih =>
    rw [build, Option.bind_eq_some_iff] at h
    obtain ⟨c, hc, ha⟩ := h
    have hd := ih c hc fun a ha => hi a (List.mem_cons_of_mem _ ha)
    cases a with
    | trafo t =>
      simp only [buildStep, Option.some.injEq] at ha
      subst ha
      have ht : t.a * t.d - t.b * t.c ≠ 0 := hi (.trafo t) (by simp)
      have := mul_ne_zero hd ht
      intro e
      refine this ?_
      rw [← e]
      simp only [Trafo.mul]
      ring
    | clip p =>
      simp only [buildStep] at ha
      split at ha
      · exact absurd ha (by simp)
      · simp only [Option.some.injEq] at ha
        subst ha
        exact hd
    | style s =>
      simp only [buildStep, Option.some.injEq] at ha
      subst ha
      exact hd

theorem inside_mem (p : P) (x : K × K) (h : PathLike.inside p x) : Mem x.1 x.2 (PathLike.bbox p) := by
  obtain ⟨q, hq, h1⟩ := PathLike.inside_bbox p x h
  rw [hq]
  exact h1

theorem paints_place (t : Trafo K) (cl : List P) (k : Mark K P F) (x : K × K) :
    (place t cl k).paints x ↔ k.paints x := Iff.rfl

/-- A mark seen through a canvas is seen in it, and within the clip. -/
theorem seen_place {t : Trafo K} (ht : t.a * t.d - t.b * t.c ≠ 0) (cl : List P) (k : Mark K P F) (z : K × K)
    (h : (place t cl k).seen z) : ∃ z', k.seen z' ∧ t.apply z' = z ∧ ∀ p ∈ cl, PathLike.inside p z := by
  obtain ⟨⟨x, hx, e⟩, hc⟩ := h
  have e' : t.apply (k.T.apply x) = z := by rw [← e]; show _ = (t.mul k.T).apply x; rw [Trafo.mul_apply]
  refine ⟨k.T.apply x, ⟨⟨x, hx, rfl⟩, fun p hp => ?_⟩, e', fun p hp => hc p (by simp [place, hp])⟩
  have := hc (PathLike.transformed p t) (by simp only [place, List.mem_append, List.mem_map]; exact Or.inl ⟨p, hp, rfl⟩)
  rw [PathLike.inside_transformed] at this
  obtain ⟨w, hw, ew⟩ := this
  rw [← e'] at ew
  rw [← apply_inj t ht ew]
  exact hw

theorem pathSeen_place {t : Trafo K} (ht : t.a * t.d - t.b * t.c ≠ 0) (cl : List P) (k : Mark K P F) (z : K × K)
    (h : (place t cl k).pathSeen z) : ∃ z', k.pathSeen z' ∧ t.apply z' = z ∧ ∀ p ∈ cl, PathLike.inside p z := by
  obtain ⟨⟨x, hx, e⟩, hc⟩ := h
  have e' : t.apply (k.T.apply x) = z := by rw [← e]; show _ = (t.mul k.T).apply x; rw [Trafo.mul_apply]
  refine ⟨k.T.apply x, ⟨⟨x, hx, rfl⟩, fun p hp => ?_⟩, e', fun p hp => hc p (by simp [place, hp])⟩
  have := hc (PathLike.transformed p t) (by simp only [place, List.mem_append, List.mem_map]; exact Or.inl ⟨p, hp, rfl⟩)
  rw [PathLike.inside_transformed] at this
  obtain ⟨w, hw, ew⟩ := this
  rw [← e'] at ew
  rw [← apply_inj t ht ew]
  exact hw

theorem mem_iadd {x y : K} {a b : BBox K} (h : Mem x y a ∨ Mem x y b) : Mem x y (BBox.iadd a b) := by
  rw [BBox.iadd_eq_add]
  rcases h with h | h
  · exact (BBox.add_upper a b).1 x y h
  · exact (BBox.add_upper a b).2 x y h

theorem mem_add {x y : K} {a b : BBox K} (h : Mem x y a ∨ Mem x y b) : Mem x y (BBox.add a b) := by
  rcases h with h | h
  · exact (BBox.add_upper a b).1 x y h
  · exact (BBox.add_upper a b).2 x y h

theorem one_apply (z : K × K) : (Trafo.one : Trafo K).apply z = z := by simp [Trafo.one, Trafo.apply]

theorem mem_one {b : BBox K} {z : K × K} (h : Mem z.1 z.2 b) : Mem z.1 z.2 (BBox.transformed b Trafo.one) := by
  have := BBox.transformed_contains b Trafo.one z.1 z.2 h
  rw [one_apply] at this
  exact this

/-! ## `canvas.bbox()` -/

mutual
theorem box_sound_item (w0 : K) (ps tap : Bool) (i : Item K P F) (y : Sty K) (hw : WF i) (hb : BoxOK i)
    (k : Mark K P F) (hk : k ∈ pic w0 ps tap y i) (z : K × K) (hz : k.pathSeen z) : Mem z.1 z.2 (boxItem i) := by
  cases i with
  | text f t1 s =>
    rw [pic] at hk
    rw [boxItem]
    have : PathLike.inside s z := by
      split at hk <;> (
        simp only [List.mem_singleton] at hk
        subst hk
        obtain ⟨⟨x, hx, e⟩, -⟩ := hz
        rw [← e]
        show PathLike.inside s ((Trafo.one : Trafo K).apply x)
        rw [one_apply]
        exact hx)
    exact inside_mem s z this
  | field r =>
    rw [pic] at hk
    rw [boxItem]
    split at hk
    · simp at hk
    · simp only [List.mem_singleton] at hk
      subst hk
      obtain ⟨⟨x, hx, e⟩, -⟩ := hz
      rw [← e]
      show Mem ((Trafo.one : Trafo K).apply x).1 ((Trafo.one : Trafo K).apply x).2 _
      rw [one_apply]
      exact inside_mem r x hx
  | dp path sp sty fs ss orn =>
    rw [WF] at hw
    rw [BoxOK] at hb
    rw [pic] at hk
    rw [boxItem]
    simp only [List.mem_append, List.mem_map, Option.mem_toList] at hk
    rcases hk with (⟨f, -, rfl⟩ | ⟨l, -, rfl⟩) | hk
    · obtain ⟨⟨x, hx, e⟩, -⟩ := hz
      have e : (Trafo.one : Trafo K).apply x = z := e
      rw [one_apply] at e
      subst e
      exact mem_add (Or.inr (inside_mem path x hx))
    · obtain ⟨⟨x, hx, e⟩, -⟩ := hz
      have e : (Trafo.one : Trafo K).apply x = z := e
      rw [one_apply] at e
      subst e
      refine mem_add (Or.inr (inside_mem path x ?_))
      cases sp with
      | none => exact hx
      | some q => exact hb.1 q rfl x hx
    · exact mem_add (Or.inl (mem_one (box_sound_items w0 ps tap orn _ none hw hb.2.2.2 z
        (Or.inr ⟨k, hk, hz⟩))))
  | cv attrs items =>
    rw [WF] at hw
    rw [BoxOK] at hb
    obtain ⟨cv, hcv⟩ := Option.isSome_iff_exists.mp hw.1
    have hof : cvOf attrs = cv := by rw [cvOf, hcv]; rfl
    rw [pic, List.mem_map] at hk
    obtain ⟨k', hk', rfl⟩ := hk
    rw [build_attr attrs cv hcv] at hz
    obtain ⟨z', hz', rfl, hcl⟩ := pathSeen_place (build_det attrs cv hcv hb.1) _ _ _ hz
    have h1 := BBox.transformed_contains _ cv.trafo _ _
      (box_sound_items w0 ps tap items _ none hw.2 hb.2.2 z' (Or.inr ⟨k', hk', hz'⟩))
    rw [boxItem, hof]
    cases hc : cv.clip with
    | none => exact h1
    | some p =>
      simp only
      rw [BBox.imul_eq_mul, BBox.mem_mul]
      exact ⟨h1, inside_mem p _ (hcl p (by rw [hc]; simp))⟩
theorem box_sound_items (w0 : K) (ps tap : Bool) (l : Items K P F) (y : Sty K) (b : BBox K) (hw : WFs l) (hb : BoxOKs l)
    (z : K × K) (hz : Mem z.1 z.2 b ∨ ∃ k ∈ pics w0 ps tap y l, k.pathSeen z) : Mem z.1 z.2 (boxItems l b) := by
  cases l with
  | nil =>
    rw [boxItems]
    rcases hz with h | ⟨k, hk, -⟩
    · exact h
    · rw [pics] at hk; simp at hk
  | cons i l =>
    rw [WFs] at hw
    rw [BoxOKs] at hb
    rw [boxItems]
    refine box_sound_items w0 ps tap l y _ hw.2 hb.2 z ?_
    rcases hz with h | ⟨k, hk, hz⟩
    · exact Or.inl (mem_iadd (Or.inl h))
    · rw [pics, List.mem_append] at hk
      rcases hk with hk | hk
      · exact Or.inl (mem_iadd (Or.inr (box_sound_item w0 ps tap i y hw.1 hb.1 k hk z hz)))
      · exact Or.inr ⟨k, hk, hz⟩
end

/-- **C34.**  `canvas.bbox()` contains every point at which a path, text or form field of the tree is
seen (line widths disregarded): transformations and clips of all levels are taken into account. -/
theorem bbox_contains (w0 : K) (ps tap : Bool) (i : Item K P F) (y : Sty K) (hw : WF i) (hb : BoxOK i)
    (k : Mark K P F) (hk : k ∈ pic w0 ps tap y i) (z : K × K) (hz : k.pathSeen z) : Mem z.1 z.2 (boxItem i) :=
  box_sound_item w0 ps tap i y hw hb k hk z hz

/-! ## The box computed while writing -/

theorem lw_applyAll (w0 : K) (ps : Bool) (y : Sty K) (l : List (Style K)) :
    (y.applyAll w0 ps l).lw = lwAfter y.lw l := by
  unfold Sty.applyAll
  induction l generalizing y with
  | nil => rfl
  | cons s l ih =>
    rw [List.foldl_cons, ih]
    cases s <;> rfl

theorem lwAfter_nonneg (lw : K) (l : List (Style K)) (h : 0 ≤ lw) (hl : ∀ s ∈ l, s.widthOK) : 0 ≤ lwAfter lw l := by
  induction l generalizing lw with
  | nil => exact h
  | cons s l ih =>
    have hl' := fun s hs => hl s (List.mem_cons_of_mem _ hs)
    have hs := hl s (by simp)
    cases s with
    | linewidth w => exact ih w hs hl'
    | _ => exact ih lw h hl'

theorem stroke_mem (p : P) (lw : K) (h : 0 ≤ lw) (x x' : K × K) (hx : PathLike.inside p x')
    (h1 : |x.1 - x'.1| ≤ lw / 2) (h2 : |x.2 - x'.2| ≤ lw / 2) : Mem x.1 x.2 (strokeBox lw p) := by
  unfold strokeBox
  have hm := inside_mem p x' hx
  rw [abs_le] at h1 h2
  cases hq : PathLike.bbox p with
  | none => rw [hq] at hm; exact hm.elim
  | some q =>
    rw [hq] at hm
    obtain ⟨g1, g2, g3, g4⟩ := hm
    simp only [BBox.enlarged, Option.getD_none]
    refine ⟨?_, ?_, ?_, ?_⟩ <;> simp only <;> linarith

/-- What a decorated path adds contains what was there and the strokes and fillings. -/
theorem dpBox_mem (w0 : K) (ps : Bool) (y : Sty K) (hy : 0 ≤ y.lw) (path : P) (sp : Option P) (fs ss : Option (List (Style K)))
    (hs : ∀ l, ss = some l → ∀ s ∈ l, s.widthOK) (b : BBox K) (z : K × K)
    (h : Mem z.1 z.2 b ∨ (∃ f, fs = some f ∧ PathLike.inside path z) ∨
      (∃ l, ss = some l ∧ ∃ x', PathLike.inside (sp.getD path) x' ∧
        |z.1 - x'.1| ≤ (y.applyAll w0 ps l).lw / 2 ∧ |z.2 - x'.2| ≤ (y.applyAll w0 ps l).lw / 2)) :
    Mem z.1 z.2 (dpBox y.lw path sp fs ss b) := by
  have hst : ∀ l, ss = some l → ∀ (p : P) x', PathLike.inside p x' →
      |z.1 - x'.1| ≤ (y.applyAll w0 ps l).lw / 2 → |z.2 - x'.2| ≤ (y.applyAll w0 ps l).lw / 2 →
      Mem z.1 z.2 (strokeBox (lwAfter y.lw l) p) := by
    intro l hl p x' hx h1 h2
    rw [lw_applyAll] at h1 h2
    exact stroke_mem p _ (lwAfter_nonneg _ _ hy (hs l hl)) z x' hx h1 h2
  have hfl : ∀ l, ss = some l → PathLike.inside path z → Mem z.1 z.2 (strokeBox (lwAfter y.lw l) path) := by
    intro l hl hx
    have h0 := lwAfter_nonneg _ _ hy (hs l hl)
    refine stroke_mem path _ h0 z z hx ?_ ?_ <;> rw [sub_self, abs_zero] <;> linarith
  unfold dpBox
  cases fs with
  | none =>
    cases ss with
    | none =>
      rcases h with h | ⟨f, hf, -⟩ | ⟨l, hl, -⟩
      · exact h
      · simp at hf
      · simp at hl
    | some l =>
      simp only [Option.isNone_none, Bool.or_true, if_true]
      refine mem_iadd ?_
      rcases h with h | ⟨f, hf, -⟩ | ⟨l', hl, x', hx, h1, h2⟩
      · exact Or.inl h
      · simp at hf
      · simp only [Option.some.injEq] at hl
        subst hl
        exact Or.inr (hst l rfl _ x' hx h1 h2)
  | some f =>
    cases ss with
    | none =>
      have hgoal : Mem z.1 z.2 (BBox.iadd b (PathLike.bbox path)) := by
        refine mem_iadd ?_
        rcases h with h | ⟨f', -, hx⟩ | ⟨l, hl, -⟩
        · exact Or.inl h
        · exact Or.inr (inside_mem path z hx)
        · simp at hl
      cases sp <;> exact hgoal
    | some l =>
      cases sp with
      | none =>
        simp only [Option.isSome_none, Option.isNone_some, Bool.or_false, Bool.false_eq_true, if_false]
        refine mem_iadd ?_
        rcases h with h | ⟨f', -, hx⟩ | ⟨l', hl, x', hx, h1, h2⟩
        · exact Or.inl h
        · exact Or.inr (hfl l rfl hx)
        · simp only [Option.some.injEq] at hl
          subst hl
          exact Or.inr (hst l rfl _ x' hx h1 h2)
      | some q =>
        simp only [Option.isSome_some, Bool.true_or, if_true]
        refine mem_iadd ?_
        rcases h with h | ⟨f', -, hx⟩ | ⟨l', hl, x', hx, h1, h2⟩
        · exact Or.inl (mem_iadd (Or.inl h))
        · exact Or.inl (mem_iadd (Or.inr (inside_mem path z hx)))
        · simp only [Option.some.injEq] at hl
          subst hl
          exact Or.inr (hst l rfl _ x' hx h1 h2)

mutual
theorem out_sound_item (w0 : K) (ps tap : Bool) (i : Item K P F) (y : Sty K) (hy : 0 ≤ y.lw) (b : BBox K) (hw : WF i)
    (hb : BoxOK i) (z : K × K) (hz : Mem z.1 z.2 b ∨ ∃ k ∈ pic w0 ps tap y i, k.seen z) :
    Mem z.1 z.2 (outBox y.lw i b) := by
  cases i with
  | text f t1 s =>
    rw [outBox]
    refine mem_iadd ?_
    rcases hz with h | ⟨k, hk, hz⟩
    · exact Or.inl h
    · rw [pic] at hk
      have : PathLike.inside s z := by
        split at hk <;> (
          simp only [List.mem_singleton] at hk
          subst hk
          obtain ⟨⟨x, hx, e⟩, -⟩ := hz
          rw [← e]
          show PathLike.inside s ((Trafo.one : Trafo K).apply x)
          rw [one_apply]
          exact hx)
      exact Or.inr (inside_mem s z this)
  | field r =>
    rw [outBox]
    refine mem_iadd ?_
    rcases hz with h | ⟨k, hk, hz⟩
    · exact Or.inl h
    · rw [pic] at hk
      split at hk
      · simp at hk
      · simp only [List.mem_singleton] at hk
        subst hk
        obtain ⟨⟨x, hx, e⟩, -⟩ := hz
        rw [← e]
        show _ ∨ Mem ((Trafo.one : Trafo K).apply x).1 ((Trafo.one : Trafo K).apply x).2 _
        rw [one_apply]
        exact Or.inr (inside_mem r x hx)
  | dp path sp sty fs ss orn =>
    rw [WF] at hw
    rw [BoxOK] at hb
    have hy' : 0 ≤ (y.applyAll w0 ps sty).lw := by rw [lw_applyAll]; exact lwAfter_nonneg _ _ hy hb.2.1
    have hdp : (Mem z.1 z.2 b ∨ ∃ k ∈ (fs.toList.map fun f => (fillMark ((y.applyAll w0 ps sty).applyAll w0 ps f) path : Mark K P F)) ++
        (ss.toList.map fun s => strokeMark ((y.applyAll w0 ps sty).applyAll w0 ps s) (sp.getD path)), k.seen z) →
        Mem z.1 z.2 (dpBox (lwAfter y.lw sty) path sp fs ss b) := by
      intro h
      rw [← lw_applyAll w0 ps]
      refine dpBox_mem w0 ps _ hy' path sp fs ss hb.2.2.1 b z ?_
      rcases h with h | ⟨k, hk, hz⟩
      · exact Or.inl h
      · right
        simp only [List.mem_append, List.mem_map, Option.mem_toList] at hk
        rcases hk with ⟨f, hf, rfl⟩ | ⟨l, hl, rfl⟩
        · left
          obtain ⟨⟨x, hx, e⟩, -⟩ := hz
          have e : (Trafo.one : Trafo K).apply x = z := e
          rw [one_apply] at e
          subst e
          exact ⟨f, hf, hx⟩
        · right
          obtain ⟨⟨x, hx, e⟩, -⟩ := hz
          have e : (Trafo.one : Trafo K).apply x = z := e
          rw [one_apply] at e
          subst e
          exact ⟨l, hl, hx⟩
    rw [outBox]
    rw [pic] at hz
    cases ho : orn.isEmpty with
    | true =>
      rw [if_pos rfl]
      refine hdp ?_
      rcases hz with h | ⟨k, hk, hz⟩
      · exact Or.inl h
      · rw [List.mem_append] at hk
        rcases hk with hk | hk
        · exact Or.inr ⟨k, hk, hz⟩
        · cases orn with
          | nil => rw [pics] at hk; simp at hk
          | cons i l => simp [Items.isEmpty] at ho
    | false =>
      rw [if_neg (by simp)]
      refine mem_iadd ?_
      rcases hz with h | ⟨k, hk, hz⟩
      · exact Or.inl (hdp (Or.inl h))
      · rw [List.mem_append] at hk
        rcases hk with hk | hk
        · exact Or.inl (hdp (Or.inr ⟨k, hk, hz⟩))
        · right
          have := out_sound_items w0 ps tap orn (y.applyAll w0 ps sty) hy' none hw hb.2.2.2 z (Or.inr ⟨k, hk, hz⟩)
          rw [lw_applyAll] at this
          exact mem_one this
  | cv attrs items =>
    rw [WF] at hw
    rw [BoxOK] at hb
    obtain ⟨cv, hcv⟩ := Option.isSome_iff_exists.mp hw.1
    have hof : cvOf attrs = cv := by rw [cvOf, hcv]; rfl
    have hy' : 0 ≤ (y.applyAll w0 ps (stylesOf attrs)).lw := by
      rw [lw_applyAll]; exact lwAfter_nonneg _ _ hy hb.2.1
    rw [outBox, hof]
    rw [pic] at hz
    cases ho : items.isEmpty with
    | true =>
      rw [if_pos rfl]
      rcases hz with h | ⟨k, hk, hz⟩
      · exact h
      · cases items with
        | nil => rw [pics] at hk; simp at hk
        | cons i l => simp [Items.isEmpty] at ho
    | false =>
      rw [if_neg (by simp)]
      have key : (∃ k ∈ (pics w0 ps tap (y.applyAll w0 ps (stylesOf attrs)) items).map
            (fun k => attrs.foldl Mark.attr k), k.seen z) →
          Mem z.1 z.2 (BBox.transformed (outBoxes (lwAfter y.lw (stylesOf attrs)) items none) cv.trafo) ∧
          ∀ p ∈ cv.clip.toList, PathLike.inside p z := by
        rintro ⟨k, hk, hz⟩
        rw [List.mem_map] at hk
        obtain ⟨k', hk', rfl⟩ := hk
        rw [build_attr attrs cv hcv] at hz
        obtain ⟨z', hz', rfl, hcl⟩ := seen_place (build_det attrs cv hcv hb.1) _ _ _ hz
        have := out_sound_items w0 ps tap items (y.applyAll w0 ps (stylesOf attrs)) hy' none hw.2 hb.2.2 z'
          (Or.inr ⟨k', hk', hz'⟩)
        rw [lw_applyAll] at this
        exact ⟨BBox.transformed_contains _ cv.trafo _ _ this, hcl⟩
      unfold cvBox
      cases hc : cv.clip with
      | none => exact mem_iadd (hz.imp id fun h => (key h).1)
      | some p =>
        refine mem_iadd (hz.imp id fun h => ?_)
        rw [BBox.imul_eq_mul, BBox.mem_mul]
        exact ⟨(key h).1, inside_mem p z ((key h).2 p (by rw [hc]; simp))⟩
theorem out_sound_items (w0 : K) (ps tap : Bool) (l : Items K P F) (y : Sty K) (hy : 0 ≤ y.lw) (b : BBox K) (hw : WFs l)
    (hb : BoxOKs l) (z : K × K) (hz : Mem z.1 z.2 b ∨ ∃ k ∈ pics w0 ps tap y l, k.seen z) :
    Mem z.1 z.2 (outBoxes y.lw l b) := by
  cases l with
  | nil =>
    rw [outBoxes]
    rcases hz with h | ⟨k, hk, -⟩
    · exact h
    · rw [pics] at hk; simp at hk
  | cons i l =>
    rw [WFs] at hw
    rw [BoxOKs] at hb
    rw [outBoxes]
    refine out_sound_items w0 ps tap l y hy _ hw.2 hb.2 z ?_
    rcases hz with h | ⟨k, hk, hz⟩
    · exact Or.inl (out_sound_item w0 ps tap i y hy b hw.1 hb.1 z (Or.inl h))
    · rw [pics, List.mem_append] at hk
      rcases hk with hk | hk
      · exact Or.inl (out_sound_item w0 ps tap i y hy b hw.1 hb.1 z (Or.inr ⟨k, hk, hz⟩))
      · exact Or.inr ⟨k, hk, hz⟩
end

/-- **C34.**  The bounding box computed while writing a tree (the `%%BoundingBox` and `MediaBox`)
contains every point at which something of the tree is seen, strokes with their line width. -/
theorem output_bbox_contains (w0 : K) (ps tap : Bool) (i : Item K P F) (y : Sty K) (hy : 0 ≤ y.lw) (b : BBox K)
    (hw : WF i) (hb : BoxOK i) (k : Mark K P F) (hk : k ∈ pic w0 ps tap y i) (z : K × K) (hz : k.seen z) :
    Mem z.1 z.2 (outBox y.lw i b) :=
  out_sound_item w0 ps tap i y hy b hw hb z (Or.inr ⟨k, hk, hz⟩)

/-- The example of `PsProps` meets the hypotheses. -/
example : WF (.cv [] demo : Item ℚ (List (ℚ × ℚ)) ℕ) ∧ BoxOK (.cv [] demo : Item ℚ (List (ℚ × ℚ)) ℕ) := by
  refine ⟨⟨rfl, ⟨trivial, ⟨rfl, trivial, trivial, trivial⟩, trivial, trivial⟩⟩,
    fun _ h => by simp at h, fun _ h => by simp [stylesOf] at h, trivial, ⟨?_, ?_, ?_⟩, trivial, trivial⟩
  · intro a ha
    simp at ha
    rcases ha with rfl | rfl | rfl | rfl <;> simp [Attr.invertible, Trafo.translate, Trafo.one]
  · intro s hs
    simp [stylesOf] at hs
    subst hs
    simp [Style.widthOK]
  · refine ⟨⟨fun _ h => by simp at h, ?_, ?_, trivial⟩, trivial, trivial⟩
    · intro s hs; simp at hs; subst hs; trivial
    · intro l hl s hs; simp at hl; subst hl; simp at hs; subst hs; trivial

/-- Its boxes: the stroke of the square (line width 3) is larger than the clip, except at the lower left,
where the picture has been moved to. -/
example : boxItem (.cv [] demo : Item ℚ (List (ℚ × ℚ)) ℕ) = some ⟨0, 0, 5, 5⟩ ∧
    outBox 1 (.cv [.trafo (Trafo.translate 1 2), .style (.linewidth 3)]
      (.cons (.dp sq none [] none (some []) .nil) .nil) : Item ℚ (List (ℚ × ℚ)) ℕ) none =
      some ⟨-1/2, 1/2, 9/2, 11/2⟩ := by
  decide +kernel

/-- **C34.**  Nesting an item in a canvas with a transformation `t` gives its box transformed. -/
theorem bbox_nested (t : Trafo K) (i : Item K P F) :
    boxItem (.cv [.trafo t] (.cons i .nil)) = BBox.transformed (boxItem i) t := by
  have e : cvOf ([.trafo t] : List (Attr K P)) = ⟨t, true, none⟩ := by
    show (⟨Trafo.one.mul t, true, none⟩ : CV K P) = _
    rw [one_mul]
  rw [boxItem, e, boxItems, boxItems, BBox.iadd_eq_add, (BBox.add_empty _).1]

end PyX.Canvas
