import Verif.Deform.ArmsProps

/-!
# C123: the smoothed path
-/

set_option linter.unusedSectionVars false

namespace PyX.Deform

noncomputable section

open PyX.NormPath PyX.NormPath.ByLength

/-! ## Specification -/

/-- The item begins in the direction `u` and ends in the direction `v`; or it is a point, and the two directions are the same. -/
def Runs (i : Item ℝ) (u v : Pt) : Prop :=
  ((∃ k > 0, i.tangent 0 = (k * u.1, k * u.2)) ∧ ∃ k > 0, i.tangent 1 = (k * v.1, k * v.2)) ∨
    (i.begin_ = i.end_ ∧ i.tangent 0 = (0, 0) ∧ i.tangent 1 = (0, 0) ∧ u = v)

/-- The items run from `p`, in the direction `u`, to `q`, in the direction `v`: every item begins at the end of the one before and in the direction the
one before ends. -/
def SmoothTo : List (Item ℝ) → Pt → Pt → Pt → Pt → Prop
  | [], p, u, q, v => p = q ∧ u = v
  | i :: l, p, u, q, v => i.begin_ = p ∧ ∃ w, Unit2 w ∧ Runs i u w ∧ SmoothTo l i.end_ w q v

/-- The direction of an item at a parameter. -/
def dirOf (i : Item ℝ) (t : ℝ) : Pt :=
  ((i.tangent t).1 / hypot (i.tangent t).1 (i.tangent t).2, (i.tangent t).2 / hypot (i.tangent t).1 (i.tangent t).2)

/-- The opposite direction. -/
def opp (u : Pt) : Pt := (-u.1, -u.2)

theorem SmoothTo.append {l l' : List (Item ℝ)} : ∀ {p u m w q v : Pt}, SmoothTo l p u m w → SmoothTo l' m w q v → SmoothTo (l ++ l') p u q v := by
  induction l with
  | nil =>
    intro p u m w q v h h'
    obtain ⟨rfl, rfl⟩ := h
    exact h'
  | cons i l ih =>
    intro p u m w q v h h'
    obtain ⟨h1, x, h2, h3, h4⟩ := h
    exact ⟨h1, x, h2, h3, ih h4 h'⟩

/-! ## Directions -/

theorem hypot_pos {u : Pt} (h : u ≠ (0, 0)) : 0 < hypot u.1 u.2 := by
  apply Real.sqrt_pos.2
  rcases eq_or_ne u.1 0 with e | e
  · have : u.2 ≠ 0 := fun e2 => h (Prod.ext e e2)
    positivity
  · positivity

theorem dirOf_unit {i : Item ℝ} {t : ℝ} (h : i.tangent t ≠ (0, 0)) : Unit2 (dirOf i t) := by
  have hp := hypot_pos h
  have hs : hypot (i.tangent t).1 (i.tangent t).2 ^ 2 = (i.tangent t).1 ^ 2 + (i.tangent t).2 ^ 2 := Real.sq_sqrt (by positivity)
  rw [Unit2, dirOf, div_pow, div_pow, ← add_div, hs, div_self]
  rw [← hs]
  positivity

theorem dirOf_tangent {i : Item ℝ} {t : ℝ} (h : i.tangent t ≠ (0, 0)) :
    i.tangent t = (hypot (i.tangent t).1 (i.tangent t).2 * (dirOf i t).1, hypot (i.tangent t).1 (i.tangent t).2 * (dirOf i t).2) := by
  have hp := (hypot_pos h).ne'
  ext
  · simp only [dirOf]; field_simp
  · simp only [dirOf]; field_simp

theorem direction_eq {i : Item ℝ} {t : ℝ} (h : i.tangent t ≠ (0, 0)) : direction i t = .ok (dirOf i t) := by
  have hr : i.rotation t = Trafo.rotate (degrees (atan2 (i.tangent t).2 (i.tangent t).1)) none none := by
    cases i <;> rfl
  obtain ⟨r, h1, h2⟩ := rotate_atan2 (i.tangent t).1 (i.tangent t).2 h
  rw [direction, hr, h1]
  simp only [Except.ok.injEq]
  subst h2
  ext <;> simp [Trafo.apply, dirOf]

/-! ## The middle segments -/

theorem middle_eq (c : Cut) : Traces c.middle c.item c.p1 c.p2 ∧ c.middle.tangent 0 = ((c.p2 - c.p1) * (c.item.tangent c.p1).1, (c.p2 - c.p1) * (c.item.tangent c.p1).2) ∧
    c.middle.tangent 1 = ((c.p2 - c.p1) * (c.item.tangent c.p2).1, (c.p2 - c.p1) * (c.item.tangent c.p2).2) := by
  have hsome : ∃ i, c.item.segments [c.p1, c.p2] = some [i] ∧ c.middle = i := by
    rw [Cut.middle]
    cases hc : c.item <;> exact ⟨_, rfl, rfl⟩
  obtain ⟨i, h1, h2⟩ := hsome
  have ht := (segments_traces c.item [c.p1, c.p2] [i] h1).2 0 (by simp) (by simp)
  simp only [List.getElem_cons_zero, List.getElem_cons_succ] at ht
  rw [h2]
  refine ⟨ht, ?_⟩
  cases hc : c.item with
  | line l =>
    rw [hc] at h1
    simp only [Item.segments, Line.segments, Line.segmentsFrom, Option.map_some, Option.some.injEq, List.map_cons, List.map_nil, List.cons.injEq, and_true] at h1
    rw [← h1]
    constructor <;> ext <;> simp only [Item.tangent, Line.at_] <;> ring
  | curve k =>
    rw [hc] at h1
    simp only [Item.segments, Curve.segments, Curve.segmentsFrom, Option.map_some, Option.some.injEq, List.map_cons, List.map_nil, List.cons.injEq, and_true] at h1
    rw [← h1]
    constructor <;> ext <;> simp only [Item.tangent, Curve.tangent, Curve.segment, Curve.segCoord] <;> ring

theorem middle_smooth (c : Cut) (hle : c.p1 ≤ c.p2) (h1 : c.item.tangent c.p1 ≠ (0, 0)) (h2 : c.item.tangent c.p2 ≠ (0, 0)) :
    SmoothTo [c.middle] (c.item.at_ c.p1) (dirOf c.item c.p1) (c.item.at_ c.p2) (dirOf c.item c.p2) := by
  obtain ⟨ht, e1, e2⟩ := middle_eq c
  refine ⟨ht.begin_, dirOf c.item c.p2, dirOf_unit h2, ?_, ht.end_, rfl⟩
  rcases hle.lt_or_eq with hlt | heq
  · left
    have hd : 0 < c.p2 - c.p1 := by linarith
    refine ⟨⟨(c.p2 - c.p1) * hypot (c.item.tangent c.p1).1 (c.item.tangent c.p1).2, mul_pos hd (hypot_pos h1), ?_⟩,
      ⟨(c.p2 - c.p1) * hypot (c.item.tangent c.p2).1 (c.item.tangent c.p2).2, mul_pos hd (hypot_pos h2), ?_⟩⟩
    · rw [e1]
      have := dirOf_tangent h1
      ext
      · exact (congrArg (fun q : Pt => (c.p2 - c.p1) * q.1) this).trans (mul_assoc _ _ _).symm
      · exact (congrArg (fun q : Pt => (c.p2 - c.p1) * q.2) this).trans (mul_assoc _ _ _).symm
    · rw [e2]
      have := dirOf_tangent h2
      ext
      · exact (congrArg (fun q : Pt => (c.p2 - c.p1) * q.1) this).trans (mul_assoc _ _ _).symm
      · exact (congrArg (fun q : Pt => (c.p2 - c.p1) * q.2) this).trans (mul_assoc _ _ _).symm
  · right
    refine ⟨?_, ?_, ?_, ?_⟩
    · rw [ht.begin_, ht.end_, heq]
    · rw [e1, heq]; simp
    · rw [e2, heq]; simp
    · rw [heq]

/-! ## The corners -/

theorem intersection_some {A D tA tD : Pt} {t s : ℝ} (h : intersection A D tA tD = some (t, s)) :
    off A tA t = off D tD s := by
  unfold intersection at h
  simp only at h
  split_ifs at h with hd
  simp only [Option.some.injEq, Prod.mk.injEq] at h
  obtain ⟨rfl, rfl⟩ := h
  have hi := mul_inv_cancel₀ hd
  simp only [off, div_eq_mul_inv]
  generalize (-tA.1 * tD.2 + tA.2 * tD.1)⁻¹ = w at hi ⊢
  refine Prod.ext ?_ ?_
  · linear_combination (D.1 - A.1) * hi
  · linear_combination (D.2 - A.2) * hi

theorem intersection_ne {A D tA tD' : Pt} {t s : ℝ} (h : intersection A D tA tD' = some (t, s)) (h1 : tD A D tA ≠ 0) (h2 : tE A D tD' ≠ 0) : t ≠ 0 ∧ s ≠ 0 := by
  unfold intersection at h
  simp only at h
  split_ifs at h with hd
  simp only [Option.some.injEq, Prod.mk.injEq] at h
  obtain ⟨rfl, rfl⟩ := h
  constructor
  · refine div_ne_zero (fun e => h2 ?_) hd
    rw [tE]; linarith
  · refine div_ne_zero (fun e => h1 ?_) hd
    rw [tD]; linarith

theorem arms_positive (obey : Bool) (eps : ℝ) (p1 p2 t1 t2 : Pt) (sols : List (ℝ × ℝ)) (he : 0 < eps) (hu1 : Unit2 t1) (hu2 : Unit2 t2)
    (h1 : tD p1 p2 t1 ≠ 0) (h2 : tE p1 p2 t2 ≠ 0) :
    0 < (chosenArms obey eps p1 p2 t1 t2 sols).1 ∧ 0 < (chosenArms obey eps p1 p2 t1 t2 sols).2 := by
  have hfb : 0 < (fallbackArms p1 p2 t1 t2).1 ∧ 0 < (fallbackArms p1 p2 t1 t2).2 := by
    unfold fallbackArms
    cases hi : intersection p1 p2 t1 t2 with
    | some ts =>
      obtain ⟨t, s⟩ := ts
      obtain ⟨ht, hs⟩ := intersection_ne hi h1 h2
      have := abs_pos.2 ht
      have := abs_pos.2 hs
      constructor <;> simp only <;> linarith
    | none =>
      have hne : ((p1.1 - p2.1, p1.2 - p2.2) : Pt) ≠ (0, 0) := by
        intro e
        rw [Prod.mk.injEq] at e
        apply h1
        rw [tD]
        have e1 : p2.1 - p1.1 = 0 := by linarith [e.1]
        have e2 : p2.2 - p1.2 = 0 := by linarith [e.2]
        rw [e1, e2]; ring
      have hp := hypot_pos hne
      simp only at hp
      rw [hypot_unit t1 hu1, hypot_unit t2 hu2]
      constructor <;> simp only <;> linarith
  have hlim : ∀ a d, 0 < a → 0 < d → 0 < (limited obey p1 p2 t1 t2 a d).1 ∧ 0 < (limited obey p1 p2 t1 t2 a d).2 := by
    intro a d ha hd
    unfold limited
    cases obey
    · simp only [Bool.false_eq_true, if_false]
      cases hi : intersection p1 p2 t1 t2 with
      | some ts =>
        obtain ⟨t, s⟩ := ts
        simp only
        by_cases hc : t > 0 ∧ s < 0
        · rw [if_pos hc]
          exact ⟨lt_min ha (abs_pos.2 hc.1.ne'), lt_min hd (abs_pos.2 hc.2.ne)⟩
        · rw [if_neg hc]; exact ⟨ha, hd⟩
      | none => exact ⟨ha, hd⟩
    · simp only [if_true]; exact ⟨ha, hd⟩
  cases sols with
  | nil => exact hfb
  | cons x rest =>
    obtain ⟨a, d⟩ := x
    rw [chosenArms]
    by_cases hc : a ≥ 0 ∧ d ≥ 0
    · rw [if_pos hc]
      exact hlim _ _ (lt_of_lt_of_le he (le_max_right _ _)) (lt_of_lt_of_le he (le_max_right _ _))
    · rw [if_neg hc]
      exact hfb

theorem armCurve_smooth (A B tA tB : Pt) (a b : ℝ) (ha : 0 < a) (hb : 0 < b) (hB : Unit2 tB) : SmoothTo [.curve (armCurve A B tA tB a b)] A tA B tB := by
  refine ⟨rfl, tB, hB, Or.inl ⟨⟨3 * a, by positivity, ?_⟩, ⟨3 * b, by positivity, ?_⟩⟩, rfl, rfl⟩
  · ext <;> simp only [Item.tangent, armCurve, bez, Curve.tangent] <;> ring
  · ext <;> simp only [Item.tangent, armCurve, bez, Curve.tangent] <;> ring

/-- What is asked of two items with a corner in between: the second one begins where the first one ends; between lines the path does not turn back, otherwise none of the two
points where the items are cut lies on the tangent at the other one. -/
def Fits (c d : Cut) : Prop :=
  c.item.end_ = d.item.begin_ ∧ c.item.tangent c.p2 ≠ (0, 0) ∧ d.item.tangent d.p1 ≠ (0, 0) ∧
    ((∃ l m, c.item = .line l ∧ d.item = .line m ∧ c.len = l.arclen ∧ d.len = m.arclen ∧ c.p2 < 1 ∧ 0 < d.p1 ∧ dirOf d.item d.p1 ≠ opp (dirOf c.item c.p2)) ∨
      (¬ (∃ l m, c.item = .line l ∧ d.item = .line m) ∧
        tD (c.item.at_ c.p2) (d.item.at_ d.p1) (dirOf c.item c.p2) ≠ 0 ∧ tE (c.item.at_ c.p2) (d.item.at_ d.p1) (dirOf d.item d.p1) ≠ 0))

theorem line_dir (l : Line ℝ) (t : ℝ) (h : (Item.line l).tangent t ≠ (0, 0)) :
    0 < l.arclen ∧ l.x1 - l.x0 = l.arclen * (dirOf (.line l) t).1 ∧ l.y1 - l.y0 = l.arclen * (dirOf (.line l) t).2 := by
  have e : hypot ((Item.line l).tangent t).1 ((Item.line l).tangent t).2 = l.arclen := by
    simp only [Item.tangent, Line.arclen, hypot]
    congr 1; ring
  have hd := dirOf_tangent h
  rw [e] at hd
  have hp := hypot_pos h
  rw [e] at hp
  exact ⟨hp, congrArg Prod.fst hd, congrArg Prod.snd hd⟩

theorem corner_smooth (roots : List ℝ → List ℝ) (s : Setting) (eps : ℝ) (he : 0 < eps) (hs0 : 0 < s.softness) (hs1 : s.softness ≤ 1) (c d : Cut) (h : Fits c d)
    (k : List (Item ℝ)) (hk : corner roots s eps c d = .ok k) :
    SmoothTo k (c.item.at_ c.p2) (dirOf c.item c.p2) (d.item.at_ d.p1) (dirOf d.item d.p1) := by
  obtain ⟨hjoin, ht1, ht2, hcase⟩ := h
  have hu1 := dirOf_unit ht1
  have hu2 := dirOf_unit ht2
  rw [corner, direction_eq ht1, direction_eq ht2] at hk
  simp only [Except.bind] at hk
  rcases hcase with ⟨l, m, el, em, ecl, eml, hp2, hp1, hopp⟩ | ⟨hnl, hD, hE⟩
  · simp only [el, em] at hk
    rw [el] at ht1 hjoin hu1 hopp ⊢
    rw [em] at ht2 hjoin hu2 hopp ⊢
    obtain ⟨hL, dx, dy⟩ := line_dir l c.p2 ht1
    obtain ⟨hM, ex, ey⟩ := line_dir m d.p1 ht2
    have hr1 : 0 < c.len * (1 - c.p2) := by rw [ecl]; exact mul_pos hL (by linarith)
    have hr2 : 0 < d.len * d.p1 := by rw [eml]; exact mul_pos hM hp1
    simp only [Except.ok.injEq] at hk
    subst hk
    generalize hu : dirOf (.line l) c.p2 = u at *
    generalize hv : dirOf (.line m) d.p1 = v at *
    obtain ⟨b1, b2, b3⟩ := corner_ends l.end_ u v (c.len * (1 - c.p2)) (d.len * d.p1) s.softness hu1 hu2
    obtain ⟨t1, t2, t3, t4⟩ := corner_tangents l.end_ u v (c.len * (1 - c.p2)) (d.len * d.p1) s.softness hu1 hu2 hs0 hs1 hr1 hr2
    generalize endlines l.end_ u v (c.len * (1 - c.p2)) (d.len * d.p1) s.softness = K at *
    have hmid : (Item.curve K.curves.1).tangent 1 ≠ (0, 0) := fun e => hopp (t4 e)
    have hmid' : (Item.curve K.curves.2).tangent 0 ≠ (0, 0) := by
      change K.curves.2.tangent 0 ≠ (0, 0)
      rw [← t3]; exact hmid
    refine ⟨?_, dirOf (.curve K.curves.1) 1, dirOf_unit hmid, Or.inl ⟨t1, ⟨_, hypot_pos hmid, dirOf_tangent hmid⟩⟩, ?_⟩
    · change K.curves.1.begin_ = _
      rw [b1]
      ext
      · simp only [off, Line.end_, Item.at_, Line.at_, ecl]; linear_combination (1 - c.p2) * dx
      · simp only [off, Line.end_, Item.at_, Line.at_, ecl]; linear_combination (1 - c.p2) * dy
    · refine ⟨b3.symm, v, hu2, Or.inl ⟨?_, t2⟩, ?_, rfl⟩
      · refine ⟨_, hypot_pos hmid', ?_⟩
        have : dirOf (.curve K.curves.1) 1 = dirOf (.curve K.curves.2) 0 := by
          rw [dirOf, dirOf]
          change ((K.curves.1.tangent 1).1 / hypot (K.curves.1.tangent 1).1 (K.curves.1.tangent 1).2, _) = _
          simp only [Item.tangent, t3]
        rw [this]
        exact dirOf_tangent hmid'
      · change K.curves.2.end_ = _
        rw [b2]
        have hj : l.end_ = m.begin_ := hjoin
        rw [hj]
        ext
        · simp only [off, Line.begin_, Item.at_, Line.at_, eml]; linear_combination (-d.p1) * ex
        · simp only [off, Line.begin_, Item.at_, Line.at_, eml]; linear_combination (-d.p1) * ey
  · have key : ∀ c1 c2, (genericCorner roots s.obeycurv eps (c.item.at_ c.p2) (d.item.at_ d.p1) (dirOf c.item c.p2) (dirOf d.item d.p1) c1 c2).map (fun k => [Item.curve k]) = .ok k →
        SmoothTo k (c.item.at_ c.p2) (dirOf c.item c.p2) (d.item.at_ d.p1) (dirOf d.item d.p1) := by
      intro c1 c2 hg
      unfold genericCorner at hg
      simp only at hg
      cases hcd : controldists roots (c.item.at_ c.p2) (d.item.at_ d.p1) (dirOf c.item c.p2) (dirOf d.item d.p1)
        (.fin (askedCurv s.obeycurv (c.item.at_ c.p2) (d.item.at_ d.p1) (dirOf c.item c.p2) (dirOf d.item d.p1) c1 c2).1)
        (.fin (askedCurv s.obeycurv (c.item.at_ c.p2) (d.item.at_ d.p1) (dirOf c.item c.p2) (dirOf d.item d.p1) c1 c2).2) false (1 / 10 ^ 8) with
      | error e => rw [hcd] at hg; simp [Except.map] at hg
      | ok sols =>
        rw [hcd] at hg
        simp only [Except.map, Except.ok.injEq] at hg
        obtain ⟨ha, hb⟩ := arms_positive s.obeycurv eps (c.item.at_ c.p2) (d.item.at_ d.p1) (dirOf c.item c.p2) (dirOf d.item d.p1) sols he hu1 hu2 hD hE
        rw [← hg]
        exact armCurve_smooth _ _ _ _ _ _ ha hb hu2
    have : ∃ c1 c2, (genericCorner roots s.obeycurv eps (c.item.at_ c.p2) (d.item.at_ d.p1) (dirOf c.item c.p2) (dirOf d.item d.p1) c1 c2).map (fun k => [Item.curve k]) = .ok k := by
      cases hc : c.item with
      | line l =>
        cases hd : d.item with
        | line m => exact absurd ⟨l, m, hc, hd⟩ hnl
        | curve m =>
          simp only [hc, hd] at hk
          cases h1 : curvatureAt (.line l) c.p2 with
          | error e => rw [h1] at hk; simp at hk
          | ok c1 =>
            cases h2 : curvatureAt (.curve m) d.p1 with
            | error e => rw [h1, h2] at hk; simp at hk
            | ok c2 => rw [h1, h2] at hk; exact ⟨c1, c2, hk⟩
      | curve l =>
        simp only [hc] at hk
        cases h1 : curvatureAt (.curve l) c.p2 with
        | error e => rw [h1] at hk; simp at hk
        | ok c1 =>
          cases h2 : curvatureAt d.item d.p1 with
          | error e => rw [h1, h2] at hk; simp at hk
          | ok c2 => rw [h1, h2] at hk; exact ⟨c1, c2, hk⟩
    obtain ⟨c1, c2, h⟩ := this
    exact key c1 c2 h

/-- What is asked of a single item: the cuts are in order, and its tangents there do not vanish. -/
def Regular (c : Cut) : Prop := c.p1 ≤ c.p2 ∧ c.item.tangent c.p1 ≠ (0, 0) ∧ c.item.tangent c.p2 ≠ (0, 0)

/-- **C123.**  The smoothed path has no corners: every item begins where and in the direction the one before ends.  An open path runs from the first cut of the first item
to the second cut of the last one, a closed one back to its beginning. -/
theorem path_smooth (roots : List ℝ → List ℝ) (s : Setting) (eps : ℝ) (he : 0 < eps) (hs0 : 0 < s.softness) (hs1 : s.softness ≤ 1) (closed : Bool) (first : Cut) :
    ∀ (cs : List Cut) (hne : cs ≠ []) (items : List (Item ℝ)), pieces roots s eps closed first cs = .ok items → (∀ c ∈ cs, Regular c) → cs.IsChain Fits →
      (closed = true → Fits (cs.getLast hne) first) →
      SmoothTo items ((cs.head hne).item.at_ (cs.head hne).p1) (dirOf (cs.head hne).item (cs.head hne).p1)
        (if closed then first.item.at_ first.p1 else (cs.getLast hne).item.at_ (cs.getLast hne).p2)
        (if closed then dirOf first.item first.p1 else dirOf (cs.getLast hne).item (cs.getLast hne).p2) := by
  intro cs
  induction cs with
  | nil => intro hne; exact absurd rfl hne
  | cons c rest ih =>
    intro hne items hp hreg hch hcl
    obtain ⟨r1, r2, r3⟩ := hreg c (by simp)
    have hm := middle_smooth c r1 r2 r3
    cases rest with
    | nil =>
      rw [pieces] at hp
      cases closed with
      | false =>
        simp only [Bool.false_eq_true, if_false, Except.ok.injEq] at hp ⊢
        rw [← hp]
        exact hm
      | true =>
        simp only [if_true] at hp ⊢
        cases hk : corner roots s eps c first with
        | error e => rw [hk] at hp; simp [Except.map] at hp
        | ok k =>
          rw [hk] at hp
          simp only [Except.map, Except.ok.injEq] at hp
          rw [← hp]
          exact hm.append (l' := k) (corner_smooth roots s eps he hs0 hs1 c first (hcl rfl) k hk)
    | cons d rest =>
      rw [pieces] at hp
      cases hk : corner roots s eps c d with
      | error e => rw [hk] at hp; simp [Except.bind] at hp
      | ok k =>
        cases hl : pieces roots s eps closed first (d :: rest) with
        | error e => rw [hk, hl] at hp; simp [Except.bind, Except.map] at hp
        | ok l =>
          rw [hk, hl] at hp
          simp only [Except.bind, Except.map, Except.ok.injEq] at hp
          rw [List.isChain_cons_cons] at hch
          have h1 := corner_smooth roots s eps he hs0 hs1 c d hch.1 k hk
          have h2 := ih (List.cons_ne_nil d rest) l hl (fun x hx => hreg x (by simp [hx])) hch.2 (fun h => by
            have := hcl h
            rwa [List.getLast_cons (List.cons_ne_nil d rest)] at this)
          rw [← hp]
          have h3 := (hm.append h1).append h2
          simp only [List.singleton_append, List.cons_append] at h3
          rw [List.getLast_cons (List.cons_ne_nil d rest)]
          exact h3

/-! ## Polygons -/

/-- The cuts of the lines of a polygon. -/
def lineMiddle (r : ℝ) (l : Line ℝ) : Cut := ⟨.line l, l.arclen, min r (1 / 2 * l.arclen) / l.arclen, max (1 / 2 * l.arclen) (l.arclen - r) / l.arclen⟩
def lineFirst (r : ℝ) (l : Line ℝ) : Cut := ⟨.line l, l.arclen, 0 / l.arclen, max 0 (l.arclen - r) / l.arclen⟩
def lineLast (r : ℝ) (l : Line ℝ) : Cut := ⟨.line l, l.arclen, min r l.arclen / l.arclen, l.arclen / l.arclen⟩

/-- The second line begins where the first one ends, and not in the opposite direction. -/
def Turn (l m : Line ℝ) : Prop := l.end_ = m.begin_ ∧ dirOf (.line m) 0 ≠ opp (dirOf (.line l) 0)

theorem mapM_ok {α β ε : Type} (f : α → Except ε β) (g : α → β) (l : List α) (h : ∀ a ∈ l, f a = .ok (g a)) : l.mapM f = .ok (l.map g) := by
  induction l with
  | nil => rfl
  | cons a l ih =>
    rw [List.mapM_cons, h a (by simp), ih fun x hx => h x (by simp [hx])]
    rfl

theorem cutMiddle_line (n : ℕ) (eps r : ℝ) (l : Line ℝ) (h : 0 < l.arclen) : cutMiddle n eps r (.line l) = .ok (lineMiddle r l) := by
  rw [cutMiddle, itemLen]
  simp only [paramsAt, itemParam, if_neg h.ne']
  rfl

theorem cutFirst_line (n : ℕ) (eps r : ℝ) (l : Line ℝ) (h : 0 < l.arclen) (p q : ℝ) : cutFirst n eps r ⟨.line l, l.arclen, p, q⟩ = .ok (lineFirst r l) := by
  simp only [cutFirst, paramsAt, itemParam, if_neg h.ne']
  rfl

theorem cutLast_line (n : ℕ) (eps r : ℝ) (l : Line ℝ) (h : 0 < l.arclen) (p q : ℝ) : cutLast n eps r ⟨.line l, l.arclen, p, q⟩ = .ok (lineLast r l) := by
  simp only [cutLast, paramsAt, itemParam, if_neg h.ne']
  rfl

theorem line_tangent_ne {l : Line ℝ} (h : 0 < l.arclen) (t : ℝ) : (Item.line l).tangent t ≠ (0, 0) := by
  intro e
  simp only [Item.tangent, Prod.mk.injEq] at e
  rw [Line.arclen, hypot] at h
  have : (l.x0 - l.x1) ^ 2 + (l.y0 - l.y1) ^ 2 = 0 := by
    rw [show l.x0 - l.x1 = -(l.x1 - l.x0) by ring, show l.y0 - l.y1 = -(l.y1 - l.y0) by ring, e.1, e.2]
    norm_num
  rw [this, Real.sqrt_zero] at h
  exact lt_irrefl _ h

theorem lineMiddle_range {r : ℝ} (hr : 0 < r) {l : Line ℝ} (h : 0 < l.arclen) :
    0 < (lineMiddle r l).p1 ∧ (lineMiddle r l).p1 ≤ (lineMiddle r l).p2 ∧ (lineMiddle r l).p2 < 1 := by
  refine ⟨?_, ?_, ?_⟩
  · exact div_pos (lt_min hr (by linarith)) h
  · exact div_le_div_of_nonneg_right ((min_le_right _ _).trans (le_max_left _ _)) h.le
  · simp only [lineMiddle]
    rw [div_lt_one h]
    exact max_lt (by linarith) (by linarith)

theorem lineFirst_range {r : ℝ} (hr : 0 < r) {l : Line ℝ} (h : 0 < l.arclen) :
    (lineFirst r l).p1 ≤ (lineFirst r l).p2 ∧ (lineFirst r l).p2 < 1 := by
  refine ⟨?_, ?_⟩
  · exact div_le_div_of_nonneg_right (le_max_left _ _) h.le
  · simp only [lineFirst]
    rw [div_lt_one h]
    exact max_lt h (by linarith)

theorem lineLast_range {r : ℝ} (hr : 0 < r) {l : Line ℝ} (h : 0 < l.arclen) :
    0 < (lineLast r l).p1 ∧ (lineLast r l).p1 ≤ (lineLast r l).p2 := by
  refine ⟨?_, ?_⟩
  · exact div_pos (lt_min hr h) h
  · exact div_le_div_of_nonneg_right (min_le_right _ _) h.le

theorem dirOf_line (l : Line ℝ) (t : ℝ) : dirOf (.line l) t = dirOf (.line l) 0 := rfl

theorem fits_lines {l m : Line ℝ} (hl : 0 < l.arclen) (hm : 0 < m.arclen) (h : Turn l m) (c d : Cut) (hc : c.item = .line l) (hcl : c.len = l.arclen)
    (hd : d.item = .line m) (hdl : d.len = m.arclen) (h2 : c.p2 < 1) (h1 : 0 < d.p1) : Fits c d := by
  refine ⟨by rw [hc, hd]; exact h.1, by rw [hc]; exact line_tangent_ne hl _, by rw [hd]; exact line_tangent_ne hm _,
    Or.inl ⟨l, m, hc, hd, hcl, hdl, h2, h1, ?_⟩⟩
  rw [hc, hd, dirOf_line m, dirOf_line l]
  exact h.2

theorem corner_lines (roots : List ℝ → List ℝ) (s : Setting) (eps : ℝ) (c d : Cut) (h : Fits c d) (hl : ∃ l m, c.item = .line l ∧ d.item = .line m) :
    ∃ k, corner roots s eps c d = .ok k := by
  obtain ⟨l, m, h1, h2⟩ := hl
  rw [corner, direction_eq h.2.1, direction_eq h.2.2.1]
  simp only [Except.bind, h1, h2]
  exact ⟨_, rfl⟩

theorem pieces_lines (roots : List ℝ → List ℝ) (s : Setting) (eps : ℝ) (closed : Bool) (first : Cut) (hf : ∃ l, first.item = .line l) :
    ∀ (cs : List Cut), (∀ c ∈ cs, ∃ l, c.item = .line l) → cs.IsChain Fits → (closed = true → ∀ hne : cs ≠ [], Fits (cs.getLast hne) first) →
      ∃ items, pieces roots s eps closed first cs = .ok items := by
  intro cs
  induction cs with
  | nil => intro _ _ _; exact ⟨[], rfl⟩
  | cons c rest ih =>
    intro hl hch hcl
    obtain ⟨l, hc⟩ := hl c (by simp)
    cases rest with
    | nil =>
      rw [pieces]
      cases closed with
      | false => exact ⟨_, rfl⟩
      | true =>
        obtain ⟨m, hm⟩ := hf
        obtain ⟨k, hk⟩ := corner_lines roots s eps c first (hcl rfl (List.cons_ne_nil _ _)) ⟨l, m, hc, hm⟩
        rw [hk]
        exact ⟨_, rfl⟩
    | cons d rest =>
      rw [List.isChain_cons_cons] at hch
      obtain ⟨m, hd⟩ := hl d (by simp)
      obtain ⟨k, hk⟩ := corner_lines roots s eps c d hch.1 ⟨l, m, hc, hd⟩
      obtain ⟨items, hi⟩ := ih (fun x hx => hl x (by simp [hx])) hch.2 (fun h hne => by
        have := hcl h (List.cons_ne_nil _ _)
        rwa [List.getLast_cons hne] at this)
      rw [pieces, hk, hi]
      exact ⟨_, rfl⟩

theorem lineFirst_at (r : ℝ) (l : Line ℝ) : (lineFirst r l).item.at_ (lineFirst r l).p1 = l.begin_ := by
  simp [lineFirst, Item.at_, Line.at_, Line.begin_]

theorem lineLast_at (r : ℝ) {l : Line ℝ} (h : 0 < l.arclen) : (lineLast r l).item.at_ (lineLast r l).p2 = l.end_ := by
  simp [lineLast, Item.at_, Line.at_, Line.end_, div_self h.ne']

theorem chain_open (r : ℝ) (hr : 0 < r) (z : Line ℝ) (hz : 0 < z.arclen) : ∀ (mid : List (Line ℝ)) (a : Line ℝ) (x : Cut), 0 < a.arclen → (∀ l ∈ mid, 0 < l.arclen) →
    (a :: (mid ++ [z])).IsChain Turn → x.item = .line a → x.len = a.arclen → x.p2 < 1 → (x :: (mid.map (lineMiddle r) ++ [lineLast r z])).IsChain Fits := by
  intro mid
  induction mid with
  | nil =>
    intro a x ha _ hch hx hxl hx2
    simp only [List.nil_append, List.map_nil, List.isChain_cons_cons, List.isChain_singleton, and_true] at hch ⊢
    exact fits_lines ha hz hch x _ hx hxl rfl rfl hx2 (lineLast_range hr hz).1
  | cons b mid ih =>
    intro a x ha hmid hch hx hxl hx2
    simp only [List.cons_append, List.map_cons, List.isChain_cons_cons] at hch ⊢
    have hb := hmid b (by simp)
    exact ⟨fits_lines ha hb hch.1 x _ hx hxl rfl rfl hx2 (lineMiddle_range hr hb).1,
      ih b (lineMiddle r b) hb (fun l hl => hmid l (by simp [hl])) hch.2 rfl rfl (lineMiddle_range hr hb).2.2⟩

/-- **C123.**  An open polygon of at least two lines is smoothed: the result runs from the beginning of the first line to the end of the last one without corners. -/
theorem polygon_open (roots : List ℝ → List ℝ) (n : ℕ) (s : Setting) (eps : ℝ) (he : 0 < eps) (hs0 : 0 < s.softness) (hs1 : s.softness ≤ 1) (hr : 0 < s.radius)
    (a z : Line ℝ) (mid : List (Line ℝ)) (hpos : ∀ l ∈ a :: (mid ++ [z]), 0 < l.arclen) (hch : (a :: (mid ++ [z])).IsChain Turn) :
    ∃ items, deformsubpath roots n s eps false ((a :: (mid ++ [z])).map .line) = .ok items ∧
      SmoothTo items a.begin_ (dirOf (.line a) 0) z.end_ (dirOf (.line z) 1) := by
  have ha := hpos a (by simp)
  have hz := hpos z (by simp)
  have hmid : ∀ l ∈ mid, 0 < l.arclen := fun l hl => hpos l (by simp [hl])
  have hm : ((a :: (mid ++ [z])).map Item.line).mapM (cutMiddle n eps s.radius) = .ok ((a :: (mid ++ [z])).map (lineMiddle s.radius)) := by
    rw [mapM_ok (cutMiddle n eps s.radius) (fun i => match i with | .line l => lineMiddle s.radius l | .curve _ => lineMiddle s.radius a)]
    · rw [List.map_map]; rfl
    · intro i hi
      obtain ⟨l, hl, rfl⟩ := List.mem_map.1 hi
      exact cutMiddle_line n eps s.radius l (hpos l hl)
  have hcuts : cuts n eps s.radius false ((a :: (mid ++ [z])).map .line) = .ok (lineFirst s.radius a :: (mid.map (lineMiddle s.radius) ++ [lineLast s.radius z])) := by
    rw [cuts, hm]
    simp only [Except.bind, Bool.false_eq_true, if_false, List.map_cons]
    rw [lineMiddle, cutFirst_line n eps s.radius a ha]
    simp only [List.map_append, List.map_cons, List.map_nil]
    have hlast : (lineFirst s.radius a :: (mid.map (lineMiddle s.radius) ++ [lineMiddle s.radius z])).getLast (List.cons_ne_nil _ _) = lineMiddle s.radius z := by
      rw [List.getLast_cons (by simp), List.getLast_append_singleton]
    have hdrop : (lineFirst s.radius a :: (mid.map (lineMiddle s.radius) ++ [lineMiddle s.radius z])).dropLast = lineFirst s.radius a :: mid.map (lineMiddle s.radius) := by
      rw [← List.cons_append, List.dropLast_concat]
    rw [hlast, lineMiddle, cutLast_line n eps s.radius z hz, ← lineMiddle, hdrop]
    rfl
  have hfits := chain_open s.radius hr z hz mid a (lineFirst s.radius a) ha hmid hch rfl rfl (lineFirst_range hr ha).2
  have hlines : ∀ c ∈ lineFirst s.radius a :: (mid.map (lineMiddle s.radius) ++ [lineLast s.radius z]), (∃ l, c.item = .line l) ∧ Regular c := by
    intro c hc
    simp only [List.mem_cons, List.mem_append, List.mem_map, List.not_mem_nil, or_false] at hc
    rcases hc with rfl | ⟨l, hl, rfl⟩ | rfl
    · exact ⟨⟨a, rfl⟩, (lineFirst_range hr ha).1, line_tangent_ne ha _, line_tangent_ne ha _⟩
    · exact ⟨⟨l, rfl⟩, (lineMiddle_range hr (hmid l hl)).2.1, line_tangent_ne (hmid l hl) _, line_tangent_ne (hmid l hl) _⟩
    · exact ⟨⟨z, rfl⟩, (lineLast_range hr hz).2, line_tangent_ne hz _, line_tangent_ne hz _⟩
  obtain ⟨items, hi⟩ := pieces_lines roots s eps false (lineFirst s.radius a) ⟨a, rfl⟩ _ (fun c hc => (hlines c hc).1) hfits (fun h => by simp at h)
  refine ⟨items, ?_, ?_⟩
  · rw [deformsubpath, hcuts]
    exact hi
  · have := path_smooth roots s eps he hs0 hs1 false (lineFirst s.radius a) _ (List.cons_ne_nil _ _) items hi (fun c hc => (hlines c hc).2) hfits (fun h => by simp at h)
    simp only [Bool.false_eq_true, if_false, List.head_cons, lineFirst_at] at this
    rw [List.getLast_cons (by simp), List.getLast_append_singleton, lineLast_at s.radius hz] at this
    exact this

/-- **C123.**  A closed polygon is smoothed: the result has no corners, also not where it is closed. -/
theorem polygon_closed (roots : List ℝ → List ℝ) (n : ℕ) (s : Setting) (eps : ℝ) (he : 0 < eps) (hs0 : 0 < s.softness) (hs1 : s.softness ≤ 1) (hr : 0 < s.radius)
    (a : Line ℝ) (rest : List (Line ℝ)) (hpos : ∀ l ∈ a :: rest, 0 < l.arclen) (hch : (a :: rest).IsChain Turn) (hlast : Turn ((a :: rest).getLast (List.cons_ne_nil _ _)) a) :
    ∃ items p u, deformsubpath roots n s eps true ((a :: rest).map .line) = .ok items ∧ items ≠ [] ∧ SmoothTo items p u p u := by
  have ha := hpos a (by simp)
  have hm : ((a :: rest).map Item.line).mapM (cutMiddle n eps s.radius) = .ok ((a :: rest).map (lineMiddle s.radius)) := by
    rw [mapM_ok (cutMiddle n eps s.radius) (fun i => match i with | .line l => lineMiddle s.radius l | .curve _ => lineMiddle s.radius a)]
    · rw [List.map_map]; rfl
    · intro i hi
      obtain ⟨l, hl, rfl⟩ := List.mem_map.1 hi
      exact cutMiddle_line n eps s.radius l (hpos l hl)
  have hcuts : cuts n eps s.radius true ((a :: rest).map .line) = .ok (lineMiddle s.radius a :: rest.map (lineMiddle s.radius)) := by
    rw [cuts, hm]
    rfl
  have hfits : (lineMiddle s.radius a :: rest.map (lineMiddle s.radius)).IsChain Fits := by
    rw [← List.map_cons, List.isChain_map]
    refine hch.imp_of_mem_imp ?_
    intro x y hx hy hxy
    exact fits_lines (hpos x hx) (hpos y hy) hxy _ _ rfl rfl rfl rfl (lineMiddle_range hr (hpos x hx)).2.2 (lineMiddle_range hr (hpos y hy)).1
  have hlines : ∀ c ∈ lineMiddle s.radius a :: rest.map (lineMiddle s.radius), (∃ l, c.item = .line l) ∧ Regular c := by
    intro c hc
    rw [← List.map_cons, List.mem_map] at hc
    obtain ⟨l, hl, rfl⟩ := hc
    exact ⟨⟨l, rfl⟩, (lineMiddle_range hr (hpos l hl)).2.1, line_tangent_ne (hpos l hl) _, line_tangent_ne (hpos l hl) _⟩
  have hend : Fits ((lineMiddle s.radius a :: rest.map (lineMiddle s.radius)).getLast (List.cons_ne_nil _ _)) (lineMiddle s.radius a) := by
    have e : (lineMiddle s.radius a :: rest.map (lineMiddle s.radius)).getLast (List.cons_ne_nil _ _) = lineMiddle s.radius ((a :: rest).getLast (List.cons_ne_nil _ _)) := by
      simp only [← List.map_cons, List.getLast_map]
    rw [e]
    have hz := hpos _ (List.getLast_mem (List.cons_ne_nil a rest))
    exact fits_lines hz ha hlast _ _ rfl rfl rfl rfl (lineMiddle_range hr hz).2.2 (lineMiddle_range hr ha).1
  obtain ⟨items, hi⟩ := pieces_lines roots s eps true (lineMiddle s.radius a) ⟨a, rfl⟩ _ (fun c hc => (hlines c hc).1) hfits (fun _ _ => hend)
  have := path_smooth roots s eps he hs0 hs1 true (lineMiddle s.radius a) _ (List.cons_ne_nil _ _) items hi (fun c hc => (hlines c hc).2) hfits (fun _ => hend)
  simp only [if_true, List.head_cons] at this
  refine ⟨items, _, _, ?_, ?_, this⟩
  · rw [deformsubpath, hcuts]
    exact hi
  · intro e
    rw [e] at hi
    cases hrest : rest.map (lineMiddle s.radius) with
    | nil =>
      rw [hrest, pieces] at hi
      simp only [if_true] at hi
      cases hk : corner roots s eps (lineMiddle s.radius a) (lineMiddle s.radius a) with
      | error e => rw [hk] at hi; simp [Except.map] at hi
      | ok k => rw [hk] at hi; simp [Except.map] at hi
    | cons d l =>
      rw [hrest, pieces] at hi
      cases hk : corner roots s eps (lineMiddle s.radius a) d with
      | error e => rw [hk] at hi; simp [Except.bind] at hi
      | ok k =>
        cases hl : pieces roots s eps true (lineMiddle s.radius a) (d :: l) with
        | error e => rw [hk, hl] at hi; simp [Except.bind, Except.map] at hi
        | ok k' => rw [hk, hl] at hi; simp [Except.bind, Except.map] at hi

/-- **C123.**  An open path of a single line loses the part of length `radius` at its beginning, although there is nothing to smooth. -/
theorem single_line_cut (roots : List ℝ → List ℝ) (n : ℕ) (s : Setting) (eps : ℝ) (l : Line ℝ) (hl : 0 < l.arclen) (hr : 0 < s.radius) (h : s.radius < l.arclen) :
    ∃ m : Item ℝ, deformsubpath roots n s eps false [.line l] = .ok [m] ∧ Traces m (.line l) (s.radius / l.arclen) 1 ∧ m.begin_ ≠ l.begin_ := by
  have hm : [Item.line l].mapM (cutMiddle n eps s.radius) = .ok [lineMiddle s.radius l] := by
    rw [List.mapM_cons, cutMiddle_line n eps s.radius l hl]
    rfl
  have hcuts : cuts n eps s.radius false [.line l] = .ok [lineLast s.radius l] := by
    rw [cuts, hm]
    simp only [Except.bind, Bool.false_eq_true, if_false]
    rw [lineMiddle, cutFirst_line n eps s.radius l hl]
    simp only [List.getLast_singleton]
    rw [lineFirst, cutLast_line n eps s.radius l hl]
    rfl
  refine ⟨(lineLast s.radius l).middle, ?_, ?_, ?_⟩
  · rw [deformsubpath, hcuts]
    rfl
  · have := (middle_eq (lineLast s.radius l)).1
    simp only [lineLast, min_eq_left h.le, div_self hl.ne'] at this
    simpa only [lineLast, min_eq_left h.le, div_self hl.ne'] using this
  · have := (middle_eq (lineLast s.radius l)).1.begin_
    simp only [lineLast, min_eq_left h.le, div_self hl.ne'] at this
    simp only [lineLast, min_eq_left h.le, div_self hl.ne']
    rw [this]
    intro e
    simp only [Item.at_, Line.at_, Line.begin_, Prod.mk.injEq] at e
    have hq : s.radius / l.arclen ≠ 0 := (div_pos hr hl).ne'
    have e1 : (l.x1 - l.x0) * (s.radius / l.arclen) = 0 := by linarith [e.1]
    have e2 : (l.y1 - l.y0) * (s.radius / l.arclen) = 0 := by linarith [e.2]
    have f1 := (mul_eq_zero.1 e1).resolve_right hq
    have f2 := (mul_eq_zero.1 e2).resolve_right hq
    exact line_tangent_ne hl 0 (by simp only [Item.tangent, f1, f2])

/-- A triangle with the legs 3 and 4. -/
def triangle : List (Line ℝ) := [⟨0, 0, 3, 0⟩, ⟨3, 0, 3, 4⟩, ⟨3, 4, 0, 0⟩]

theorem arclen_of (l : Line ℝ) (d : ℝ) (hd : 0 ≤ d) (h : (l.x0 - l.x1) ^ 2 + (l.y0 - l.y1) ^ 2 = d ^ 2) : l.arclen = d := by
  rw [Line.arclen, hypot, h, Real.sqrt_sq hd]

theorem triangle_turns : (∀ l ∈ triangle, 0 < l.arclen) ∧ triangle.IsChain Turn ∧ Turn ⟨3, 4, 0, 0⟩ ⟨0, 0, 3, 0⟩ := by
  have h3 : hypot (3 : ℝ) 0 = 3 := by rw [hypot, show (3 : ℝ) ^ 2 + 0 ^ 2 = 3 ^ 2 by norm_num, Real.sqrt_sq (by norm_num)]
  have h4 : hypot (0 : ℝ) 4 = 4 := by rw [hypot, show (0 : ℝ) ^ 2 + 4 ^ 2 = 4 ^ 2 by norm_num, Real.sqrt_sq (by norm_num)]
  have h5 : hypot (-3 : ℝ) (-4) = 5 := by rw [hypot, show (-3 : ℝ) ^ 2 + (-4) ^ 2 = 5 ^ 2 by norm_num, Real.sqrt_sq (by norm_num)]
  refine ⟨?_, ?_, ?_⟩
  · intro l hl
    simp only [triangle, List.mem_cons, List.not_mem_nil, or_false] at hl
    rcases hl with rfl | rfl | rfl
    · rw [arclen_of _ 3 (by norm_num) (by norm_num)]; norm_num
    · rw [arclen_of _ 4 (by norm_num) (by norm_num)]; norm_num
    · rw [arclen_of _ 5 (by norm_num) (by norm_num)]; norm_num
  · simp only [triangle, List.isChain_cons_cons, List.isChain_singleton, and_true]
    constructor
    · refine ⟨rfl, ?_⟩
      intro e
      have := congrArg Prod.fst e
      simp [dirOf, opp, Item.tangent, h3, h4] at this
    · refine ⟨rfl, ?_⟩
      intro e
      have := congrArg Prod.fst e
      norm_num [dirOf, opp, Item.tangent, h4, h5] at this
  · refine ⟨rfl, ?_⟩
    intro e
    have := congrArg Prod.snd e
    norm_num [dirOf, opp, Item.tangent, h3, h5] at this

example (roots : List ℝ → List ℝ) : ∃ items p u, deformsubpath roots 0 ⟨1, 1, false⟩ (1 / 10 ^ 5) true (triangle.map .line) = .ok items ∧ items ≠ [] ∧ SmoothTo items p u p u :=
  polygon_closed roots 0 ⟨1, 1, false⟩ (1 / 10 ^ 5) (by norm_num) (by norm_num) (by norm_num) (by norm_num) _ _ triangle_turns.1 triangle_turns.2.1 triangle_turns.2.2

example (roots : List ℝ → List ℝ) : ∃ items, deformsubpath roots 0 ⟨1, 1, false⟩ (1 / 10 ^ 5) false (triangle.map .line) = .ok items ∧
    SmoothTo items (0, 0) (dirOf (.line ⟨0, 0, 3, 0⟩) 0) (0, 0) (dirOf (.line ⟨3, 4, 0, 0⟩) 1) :=
  polygon_open roots 0 ⟨1, 1, false⟩ (1 / 10 ^ 5) (by norm_num) (by norm_num) (by norm_num) (by norm_num) ⟨0, 0, 3, 0⟩ ⟨3, 4, 0, 0⟩ [⟨3, 0, 3, 4⟩] triangle_turns.1 triangle_turns.2.1

end

end PyX.Deform
