import Verif.Deco.Brace

/-!
# C153: proofs
-/

set_option linter.unusedSectionVars false
set_option linter.unusedSimpArgs false

namespace PyX.Deco.Brace

noncomputable section

open PyX.NormPath PyX.Deform

theorem along_off (p v : Pt) (t : ℝ) : along p v t = off p v t := rfl

theorem bar_unit {length height il ol it : ℝ} {a : Angles} (h : barLen length height il ol it a ≠ 0) :
    (barDir length height il ol it a).1 ^ 2 + (barDir length height il ol it a).2 ^ 2 = 1 := by
  have e : barLen length height il ol it a ^ 2 = ((q5 length ol a).1 - (q2 height il it a).1) ^ 2 + ((q5 length ol a).2 - (q2 height il it a).2) ^ 2 := by
    unfold barLen hypot; rw [Real.sq_sqrt (by positivity)]
  simp only [barDir]
  rw [div_pow, div_pow, ← add_div, ← e]
  exact div_self (pow_ne_zero _ h)

theorem bar_between {length height il ol it : ℝ} {a : Angles} (h : barLen length height il ol it a ≠ 0) (i o : ℝ) :
    along (q5 length ol a) (barDir length height il ol it a) (-o) =
      along (along (q2 height il it a) (barDir length height il ol it a) i) (barDir length height il ol it a) (barLen length height il ol it a - i - o) := by
  have e1 : barLen length height il ol it a * (barDir length height il ol it a).1 = (q5 length ol a).1 - (q2 height il it a).1 := by
    simp only [barDir]; field_simp
  have e2 : barLen length height il ol it a * (barDir length height il ol it a).2 = (q5 length ol a).2 - (q2 height il it a).2 := by
    simp only [barDir]; field_simp
  ext <;> simp only [along]
  · linear_combination -e1
  · linear_combination -e2

/-- What is known of the points. -/
theorem half_points {length height il ol it ot bt : ℝ} {a : Angles} {ism osm : ℝ} {w : Half} (h : half length height il ol it ot bt a ism osm = some w) :
    ∃ u q3 q4 : Pt, ∃ s s1 s2 s3 s4 t t1 t2 t3 t4 : ℝ, u = barDir length height il ol it a ∧ u.1 ^ 2 + u.2 ^ 2 = 1 ∧ a.si ≠ 0 ∧
      q3 = along (q2 height il it a) u (smoothLens (barLen length height il ol it a) (il * ism) (ol * osm)).1 ∧
      q4 = along (q5 length ol a) u (-(smoothLens (barLen length height il ol it a) (il * ism) (ol * osm)).2) ∧
      q4 = along q3 u (barLen length height il ol it a - (smoothLens (barLen length height il ol it a) (il * ism) (ol * osm)).1 -
        (smoothLens (barLen length height il ol it a) (il * ism) (ol * osm)).2) ∧
      w.P = (0, height) ∧ w.A1 = (0, height - 3 / 2 * it) ∧ w.A2 = (it * a.ci, height - 3 / 2 * it + it * a.si) ∧
      w.D1 = (q3.1 + bt * u.2, q3.2 - bt * u.1) ∧ w.D2 = (q3.1 - bt * u.2, q3.2 + bt * u.1) ∧
      w.E1 = (q4.1 + bt * u.2, q4.2 - bt * u.1) ∧ w.E2 = (q4.1 - bt * u.2, q4.2 + bt * u.1) ∧
      w.I1 = (length - 1 / 2 * ot * a.co, -(1 / 2 * ot * a.so)) ∧ w.I2 = (length + 1 / 2 * ot * a.co, 1 / 2 * ot * a.so) ∧
      w.O = along w.P (a.cs, a.ss) s ∧ w.O = along w.A2 (a.si, -a.ci) t ∧
      w.B1 = along w.A1 (a.si, -a.ci) s1 ∧ w.B1 = along w.D1 u t1 ∧ w.B2 = along w.A2 (a.si, -a.ci) s2 ∧ w.B2 = along w.D2 u t2 ∧
      w.G1 = along w.E1 u s3 ∧ w.G1 = along w.I1 (-a.so, a.co) t3 ∧ w.G2 = along w.E2 u s4 ∧ w.G2 = along w.I2 (-a.so, a.co) t4 ∧
      w.F1 = along w.E1 u (3 / 5 * s3) ∧ w.F2 = along w.E2 u (3 / 5 * s4) ∧
      w.H1 = along w.I1 (-a.so, a.co) (5 / 2 * ot) ∧ w.H2 = along w.I2 (-a.so, a.co) (5 / 2 * ot) := by
  unfold half at h
  simp only at h
  split_ifs at h with hz
  simp only [ZeroDivision, not_or] at hz
  split at h
  case h_2 => simp at h
  case h_1 st st1 st2 st3 st4 h0 h1 h2 h3 h4 =>
    simp only [Option.some.injEq] at h
    subst h
    obtain ⟨s, t⟩ := st; obtain ⟨s1, t1⟩ := st1; obtain ⟨s2, t2⟩ := st2; obtain ⟨s3, t3⟩ := st3; obtain ⟨s4, t4⟩ := st4
    have e0 := intersection_some h0
    have e1 := intersection_some h1
    have e2 := intersection_some h2
    have e3 := intersection_some h3
    have e4 := intersection_some h4
    refine ⟨_, _, _, s, s1, s2, s3, s4, t, t1, t2, t3, t4, rfl, bar_unit hz.2.1, hz.1, rfl, rfl, bar_between hz.2.1 _ _, rfl, rfl, ?_, rfl, rfl, rfl, rfl, ?_, ?_, rfl, e0, e1.symm, rfl, e2.symm, rfl, rfl, e3, rfl, e4, ?_, ?_, rfl, rfl⟩
    · simp
    · simp
    · simp
    · ext <;> simp only [along] <;> ring
    · ext <;> simp only [along] <;> ring

theorem begin_curve (p q r s : Pt) : (curve p q r s).begin_ = p := rfl
theorem end_curve (p q r s : Pt) : (curve p q r s).end_ = s := rfl
theorem begin_line (p q : Pt) : (line p q).begin_ = p := rfl
theorem end_line (p q : Pt) : (line p q).end_ = q := rfl
theorem tan_zero (p q r s : Pt) : (curve p q r s).tangent 0 = (3 * (q.1 - p.1), 3 * (q.2 - p.2)) := by
  ext <;> simp only [curve, Item.tangent, Curve.tangent] <;> ring
theorem tan_one (p q r s : Pt) : (curve p q r s).tangent 1 = (3 * (s.1 - r.1), 3 * (s.2 - r.2)) := by
  ext <;> simp only [curve, Item.tangent, Curve.tangent] <;> ring
theorem tan_line (p q : Pt) (t : ℝ) : (line p q).tangent t = (q.1 - p.1, q.2 - p.2) := rfl
theorem at_half (p q r s : Pt) : (curve p q r s).at_ (1 / 2) = ((p.1 + 3 * q.1 + 3 * r.1 + s.1) / 8, (p.2 + 3 * q.2 + 3 * r.2 + s.2) / 8) := by
  ext <;> simp only [curve, Item.at_, Curve.at_] <;> ring

/-- A half brace where it is made: the cap above the origin. -/
theorem half_isHalf {p : Params} {length il ol : ℝ} {a : Angles} {w : Half} (ho : a.co ^ 2 + a.so ^ 2 = 1) (hi : a.ci ^ 2 + a.si ^ 2 = 1)
    (h : half length p.height il ol p.ithick p.othick p.bthick a p.ismooth p.osmooth = some w) :
    IsHalf p (0, p.height) (0, 1) (length, 0) (curve w.A1 w.B1 w.B1 w.D1) (line w.D1 w.E1) (curve w.E1 w.F1 w.G1 w.H1) (curve w.H1 w.I1 w.I2 w.H2)
      (curve w.H2 w.G2 w.F2 w.E2) (line w.E2 w.D2) (curve w.D2 w.B2 w.B2 w.A2) (curve w.A2 w.O w.O w.P) := by
  obtain ⟨u, q3, q4, s, s1, s2, s3, s4, t, t1, t2, t3, t4, -, hu, -, -, -, hq, hP, hA1, hA2, hD1, hD2, hE1, hE2, hI1, hI2, hO, hO', hB1, hB1', hB2, hB2', hG1, hG1', hG2, hG2', hF1, hF2, hH1, hH2⟩ :=
    half_points h
  generalize barLen length p.height il ol p.ithick a - (smoothLens (barLen length p.height il ol p.ithick a) (il * p.ismooth) (ol * p.osmooth)).1 -
        (smoothLens (barLen length p.height il ol p.ithick a) (il * p.ismooth) (ol * p.osmooth)).2 = k at hq
  refine ⟨⟨rfl, rfl, rfl, rfl, rfl, rfl, rfl⟩, ?_, ?_, ?_, ⟨?_, ?_, ?_⟩, ⟨?_, ?_, ?_⟩, ⟨?_, ?_, ?_⟩, ?_, ?_, ?_, ?_, ?_, ?_, ?_⟩
  · rw [begin_curve, hA1]; ext <;> simp only [along] <;> ring
  · rw [end_curve, hP]
  · rw [at_half, hH1, hH2, hI1, hI2]; simp only [dist2, along]
    linear_combination (5 / 8 * p.othick) ^ 2 * ho
  · rw [begin_curve, end_curve, hH1, hH2, hI1, hI2]; simp only [dist2, along]
    linear_combination p.othick ^ 2 * ho
  · rw [begin_curve, end_curve, tan_zero, hH1, hH2, hI1, hI2]; simp only [dot, minus, along]; ring
  · rw [begin_curve, end_curve, tan_one, hH1, hH2, hI1, hI2]; simp only [dot, minus, along]; ring
  · rw [begin_curve, begin_curve, hA1, hA2]; simp only [dist2]
    linear_combination p.ithick ^ 2 * hi
  · rw [begin_curve, begin_curve, tan_zero, hB1, hA1, hA2]; simp only [dot, minus, along]; ring
  · rw [begin_curve, begin_curve, tan_one, hB2, hA1, hA2]; simp only [dot, minus, along]; ring
  · rw [begin_line, end_line, hD1, hD2]; simp only [dist2]
    linear_combination 4 * p.bthick ^ 2 * hu
  · rw [begin_line, end_line, end_line, hD1, hD2, hE1, hq]; simp only [dot, minus, along]; ring
  · rw [begin_line, end_line, end_line, begin_line, hD1, hD2, hE1, hE2, hq]; simp only [minus, along]; ext <;> simp only <;> ring
  · rw [tan_one, tan_line, hB1', hD1, hE1, hq]; simp only [wedge, minus, along]; ring
  · rw [tan_zero, tan_line, hF1, hD1, hE1, hq]; simp only [wedge, minus, along]; ring
  · rw [tan_one, tan_zero, hG1', hH1]; simp only [wedge, minus, along]; ring
  · rw [tan_one, tan_zero, hG2', hH2]; simp only [wedge, minus, along]; ring
  · rw [tan_one, tan_line, hF2, hD2, hE2, hq]; simp only [wedge, minus, along]; ring
  · rw [tan_zero, tan_line, hB2', hD2, hE2, hq]; simp only [wedge, minus, along]; ring
  · rw [tan_one, tan_zero, hO', hB2]; simp only [wedge, minus, along]; ring

/-! ## Moving a half brace -/

/-- Turning, mirroring and moving. -/
def Rigid (T : Trafo ℝ) : Prop := T.a ^ 2 + T.c ^ 2 = 1 ∧ T.b ^ 2 + T.d ^ 2 = 1 ∧ T.a * T.b + T.c * T.d = 0

theorem dot_linear {T : Trafo ℝ} (h : Rigid T) (u v : Pt) : dot (linear T u) (linear T v) = dot u v := by
  obtain ⟨h1, h2, h3⟩ := h
  simp only [dot, linear]
  linear_combination u.1 * v.1 * h1 + u.2 * v.2 * h2 + (u.1 * v.2 + u.2 * v.1) * h3

theorem wedge_linear (T : Trafo ℝ) (u v : Pt) : wedge (linear T u) (linear T v) = (T.a * T.d - T.b * T.c) * wedge u v := by
  simp only [wedge, linear]; ring

theorem minus_apply (T : Trafo ℝ) (p q : Pt) : minus (T.apply p) (T.apply q) = linear T (minus p q) := by
  ext <;> simp only [minus, Trafo.apply, linear] <;> ring

theorem along_apply (T : Trafo ℝ) (p v : Pt) (t : ℝ) : T.apply (along p v t) = along (T.apply p) (linear T v) t := by
  ext <;> simp only [along, Trafo.apply, linear] <;> ring

theorem dist2_dot (p q : Pt) : dist2 p q = dot (minus p q) (minus p q) := by simp only [dist2, dot, minus]; ring

theorem dist2_apply {T : Trafo ℝ} (h : Rigid T) (p q : Pt) : dist2 (T.apply p) (T.apply q) = dist2 p q := by
  rw [dist2_dot, dist2_dot, minus_apply, dot_linear h]

theorem isHalf_transformed {p : Params} {cap up X : Pt} {i1 i2 i3 i4 i5 i6 i7 i8 : Item ℝ} (h : IsHalf p cap up X i1 i2 i3 i4 i5 i6 i7 i8) {T : Trafo ℝ} (hT : Rigid T) :
    IsHalf p (T.apply cap) (linear T up) (T.apply X) (i1.transformed T) (i2.transformed T) (i3.transformed T) (i4.transformed T) (i5.transformed T) (i6.transformed T)
      (i7.transformed T) (i8.transformed T) := by
  obtain ⟨⟨j1, j2, j3, j4, j5, j6, j7⟩, hb, he, ha, ⟨o1, o2, o3⟩, ⟨n1, n2, n3⟩, ⟨b1, b2, b3⟩, s1, s2, s3, s4, s5, s6, s7⟩ := h
  refine ⟨⟨?_, ?_, ?_, ?_, ?_, ?_, ?_⟩, ?_, ?_, ?_, ⟨?_, ?_, ?_⟩, ⟨?_, ?_, ?_⟩, ⟨?_, ?_, ?_⟩, ?_, ?_, ?_, ?_, ?_, ?_, ?_⟩ <;>
    simp only [(transformed_ends _ T).1, (transformed_ends _ T).2, (transformed_at _ T _).1, (transformed_at _ T _).2, minus_apply, dist2_apply hT, dot_linear hT, wedge_linear]
  · rw [j1]
  · rw [j2]
  · rw [j3]
  · rw [j4]
  · rw [j5]
  · rw [j6]
  · rw [j7]
  · rw [hb, along_apply]
  · rw [he]
  · exact ha
  · exact o1
  · exact o2
  · exact o3
  · exact n1
  · exact n2
  · exact n3
  · exact b1
  · exact b2
  · rw [b3]
  · rw [s1, mul_zero]
  · rw [s2, mul_zero]
  · rw [s3, mul_zero]
  · rw [s4, mul_zero]
  · rw [s5, mul_zero]
  · rw [s6, mul_zero]
  · rw [s7, mul_zero]

/-! ## Both halves -/

/-- The direction from one end point to the other one. -/
def dir (X0 X1 : Pt) : Pt := (Real.cos (atan2 (X1.2 - X0.2) (X1.1 - X0.1)), Real.sin (atan2 (X1.2 - X0.2) (X1.1 - X0.1)))

theorem dir_spec (X0 X1 : Pt) : (dir X0 X1).1 ^ 2 + (dir X0 X1).2 ^ 2 = 1 ∧
    X1 = along X0 (dir X0 X1) (hypot (X1.1 - X0.1) (X1.2 - X0.2)) := by
  refine ⟨Real.cos_sq_add_sin_sq _, ?_⟩
  obtain ⟨h1, h2⟩ := Connector.polar (X1.1 - X0.1) (X1.2 - X0.2)
  ext <;> simp only [along, dir]
  · linear_combination -h1
  · linear_combination -h2

theorem place_eq (p : Params) (X0 X1 : Pt) : place p X0 X1 =
    ⟨(dir X0 X1).1, -(dir X0 X1).2, (dir X0 X1).2, (dir X0 X1).1, X0.1 + leftLen p X0 X1 * (dir X0 X1).1, X0.2 + leftLen p X0 X1 * (dir X0 X1).2⟩ := by
  simp only [place, phi_degrees, rot, Trafo.mul, Trafo.translate, dir]
  ext <;> simp only [] <;> ring

theorem mirror90 : Trafo.mirror 90 = ⟨-1, 0, 0, 1, 0, 0⟩ := by
  have e : Trafo.phi 90 = Real.pi / 2 := by unfold Trafo.phi; ring
  simp only [Trafo.mirror, e, Real.cos_pi_div_two, Real.sin_pi_div_two]
  ext <;> norm_num

/-- Where the cap is. -/
def capPoint (p : Params) (X0 X1 : Pt) : Pt :=
  along (along X0 (dir X0 X1) (p.middle * hypot (X1.1 - X0.1) (X1.2 - X0.2))) (-(dir X0 X1).2, (dir X0 X1).1) p.height

theorem halfOf_isHalf {p : Params} {length : ℝ} {a : Angles} {w : Half} (ho : a.co ^ 2 + a.so ^ 2 = 1) (hi : a.ci ^ 2 + a.si ^ 2 = 1) (h : halfOf p a length = some w) :
    ∃ i1 i2 i3 i4 i5 i6 i7 i8, w.items = [i1, i2, i3, i4, i5, i6, i7, i8] ∧ IsHalf p (0, p.height) (0, 1) (length, 0) i1 i2 i3 i4 i5 i6 i7 i8 := by
  unfold halfOf at h
  split_ifs at h
  exact ⟨_, _, _, _, _, _, _, _, rfl, half_isHalf ho hi h⟩

/-- **C153.** The outline of a brace consists of two halves which begin below the cap and end at the cap; the cap is at the height asked for above the
point asked for of the line between the end points, to the left of the direction from the first one to the second one; the tips are at the end points. -/
theorem brace_halves {p : Params} {X0 X1 : Pt} {o : List (Item ℝ)} (h : bracepath p X0 X1 = some o) :
    ∃ l1 l2 l3 l4 l5 l6 l7 l8 r1 r2 r3 r4 r5 r6 r7 r8,
      o = [l8.reversed, l7.reversed, l6.reversed, l5.reversed, l4.reversed, l3.reversed, l2.reversed, l1.reversed, r1, r2, r3, r4, r5, r6, r7, r8] ∧
      IsHalf p (capPoint p X0 X1) (-(dir X0 X1).2, (dir X0 X1).1) X0 l1 l2 l3 l4 l5 l6 l7 l8 ∧
      IsHalf p (capPoint p X0 X1) (-(dir X0 X1).2, (dir X0 X1).1) X1 r1 r2 r3 r4 r5 r6 r7 r8 := by
  unfold bracepath at h
  cases hl : halfOf p (leftAngles p) (leftLen p X0 X1) with
  | none => simp [hl] at h
  | some l =>
    cases hr : halfOf p (rightAngles p) (rightLen p X0 X1) with
    | none => simp [hl, hr] at h
    | some r =>
      simp only [hl, hr, Option.some.injEq] at h
      obtain ⟨l1, l2, l3, l4, l5, l6, l7, l8, el, il⟩ := halfOf_isHalf (Real.cos_sq_add_sin_sq _) (Real.cos_sq_add_sin_sq _) hl
      obtain ⟨r1, r2, r3, r4, r5, r6, r7, r8, er, ir⟩ := halfOf_isHalf (Real.cos_sq_add_sin_sq _) (Real.cos_sq_add_sin_sq _) hr
      obtain ⟨hd, hX⟩ := dir_spec X0 X1
      have rM : Rigid (Trafo.mirror 90) := by rw [mirror90]; refine ⟨?_, ?_, ?_⟩ <;> norm_num
      have rW : Rigid (place p X0 X1) := by
        rw [place_eq]
        refine ⟨hd, ?_, ?_⟩ <;> simp only []
        · linear_combination hd
        · ring
      have il' := isHalf_transformed (isHalf_transformed il rM) rW
      have ir' := isHalf_transformed ir rW
      have c : (place p X0 X1).apply (0, p.height) = capPoint p X0 X1 := by
        rw [place_eq]; ext <;> simp only [Trafo.apply, capPoint, along, leftLen] <;> ring
      have c' : (place p X0 X1).apply ((Trafo.mirror 90).apply (0, p.height)) = capPoint p X0 X1 := by
        rw [← c, mirror90]; simp [Trafo.apply]
      have u : linear (place p X0 X1) (0, 1) = (-(dir X0 X1).2, (dir X0 X1).1) := by rw [place_eq]; simp [linear]
      have u' : linear (place p X0 X1) (linear (Trafo.mirror 90) (0, 1)) = (-(dir X0 X1).2, (dir X0 X1).1) := by rw [← u, mirror90]; simp [linear]
      have x0 : (place p X0 X1).apply ((Trafo.mirror 90).apply (leftLen p X0 X1, 0)) = X0 := by
        rw [mirror90, place_eq]; ext <;> simp only [Trafo.apply] <;> ring
      have x1 : (place p X0 X1).apply (rightLen p X0 X1, 0) = X1 := by
        rw [place_eq]; conv_rhs => rw [hX]
        ext <;> simp only [Trafo.apply, along, rightLen] <;> ring
      rw [c', u', x0] at il'
      rw [c, u, x1] at ir'
      refine ⟨_, _, _, _, _, _, _, _, _, _, _, _, _, _, _, _, ?_, il', ir'⟩
      rw [← h, el, er]
      simp [reversed_transformed]

/-- **C153.** The outline is closed. -/
theorem brace_closed {p : Params} {X0 X1 : Pt} {o : List (Item ℝ)} (h : bracepath p X0 X1 = some o) :
    o.IsChain (fun i j => i.end_ = j.begin_) ∧ (o.getLast?.map Item.end_) = (o.head?.map Item.begin_) ∧ o.length = 16 := by
  obtain ⟨l1, l2, l3, l4, l5, l6, l7, l8, r1, r2, r3, r4, r5, r6, r7, r8, rfl, hl, hr⟩ := brace_halves h
  obtain ⟨⟨j1, j2, j3, j4, j5, j6, j7⟩, hb, he, -⟩ := hl
  obtain ⟨⟨k1, k2, k3, k4, k5, k6, k7⟩, hb', he', -⟩ := hr
  refine ⟨?_, ?_, rfl⟩
  · simp only [List.isChain_cons_cons, List.isChain_singleton, and_true, (reversed_ends _).1, (reversed_ends _).2, k1, k2, k3, k4, k5, k6, k7, ← j1, ← j2, ← j3, ← j4, ← j5, ← j6, ← j7, true_and]
    rw [hb, hb']
  · simp [(reversed_ends _).1, he, he']

/-- **C153, violation.** The bars are twice as thick as asked for: the sides `o[9]` and `o[13]` of the right bar are this far apart. -/
theorem brace_bar_doubled {p : Params} {X0 X1 : Pt} {o : List (Item ℝ)} (h : bracepath p X0 X1 = some o) :
    ∃ i j, o[9]? = some i ∧ o[13]? = some j ∧ dist2 i.begin_ j.end_ = (2 * p.bthick) ^ 2 ∧ dot (minus j.end_ i.begin_) (minus i.end_ i.begin_) = 0 ∧
      (p.bthick ≠ 0 → dist2 i.begin_ j.end_ ≠ p.bthick ^ 2) := by
  obtain ⟨l1, l2, l3, l4, l5, l6, l7, l8, r1, r2, r3, r4, r5, r6, r7, r8, rfl, -, hr⟩ := brace_halves h
  refine ⟨r2, r6, rfl, rfl, hr.bar_width.1, hr.bar_width.2.1, fun h0 => ?_⟩
  rw [hr.bar_width.1]
  intro e
  apply h0
  have : p.bthick ^ 2 = 0 := by linarith
  exact pow_eq_zero_iff (two_ne_zero) |>.mp this

/-! ## Which way the bars run -/

theorem smooth_fits {b i o : ℝ} (h : i + o ≤ b) : (smoothLens b i o).1 + (smoothLens b i o).2 ≤ b := by
  unfold smoothLens; rw [if_neg (by linarith)]; exact h

theorem smooth_short {b i o : ℝ} (hb : 0 < b) (hi : 0 < i) (ho : 0 < o) (h : b < i + o) : b < (smoothLens b i o).1 + (smoothLens b i o).2 := by
  unfold smoothLens; rw [if_pos h]
  simp only
  have hs : 0 < i + o := by linarith
  have hi' : b * i / (i + o) < i := by
    rw [div_lt_iff₀ hs]; nlinarith
  have hp : 0 < b * i / (i + o) := by positivity
  have e : b = b * i / (i + o) + b * o / (i + o) := by field_simp
  have : b * o / (i + o) < b * o / (b * i / (i + o) + o) := by
    apply div_lt_div_of_pos_left (by positivity) (by linarith) (by linarith)
  linarith

/-- The lengths of the strokes. -/
def ilen (p : Params) (a : Angles) : ℝ := p.irel * p.height / a.ci
def olen (p : Params) (a : Angles) : ℝ := p.orel * p.height / a.co

/-- The distance between the ends of the two strokes next to the bar. -/
def gap (p : Params) (a : Angles) (length : ℝ) : ℝ := barLen length p.height (ilen p a) (olen p a) p.ithick a

theorem halfOf_bar {p : Params} {length : ℝ} {a : Angles} {w : Half} (h : halfOf p a length = some w) (hi : 0 < ilen p a * p.ismooth) (ho : 0 < olen p a * p.osmooth)
    (hr : ilen p a * a.si + olen p a * a.so < length) :
    0 ≤ (w.E1.1 - w.D1.1) ↔ ilen p a * p.ismooth + olen p a * p.osmooth ≤ gap p a length := by
  unfold halfOf at h
  split_ifs at h
  obtain ⟨u, q3, q4, s, s1, s2, s3, s4, t, t1, t2, t3, t4, hu', hu, -, -, -, hq, -, -, -, hD1, -, hE1, -⟩ := half_points h
  have hx : (q5 length (olen p a) a).1 - (q2 p.height (ilen p a) p.ithick a).1 = length - (ilen p a * a.si + olen p a * a.so) := by
    simp only [q5, q2]; ring
  have hb : 0 < gap p a length := by
    unfold gap barLen hypot
    apply Real.sqrt_pos.mpr
    have : 0 < ((q5 length (olen p a) a).1 - (q2 p.height (ilen p a) p.ithick a).1) := by rw [hx]; linarith
    positivity
  have hu1 : 0 < u.1 := by
    rw [hu']; simp only [barDir]
    apply div_pos
    · change 0 < (q5 length (olen p a) a).1 - (q2 p.height (ilen p a) p.ithick a).1
      rw [hx]; linarith
    · exact hb
  have e : w.E1.1 - w.D1.1 = (gap p a length - (smoothLens (gap p a length) (ilen p a * p.ismooth) (olen p a * p.osmooth)).1 -
      (smoothLens (gap p a length) (ilen p a * p.ismooth) (olen p a * p.osmooth)).2) * u.1 := by
    rw [hD1, hE1, hq]
    simp only [along, gap, ilen, olen]; ring
  rw [e]
  constructor
  · intro h0
    by_contra hn
    have := smooth_short hb hi ho (not_le.mp hn)
    nlinarith [nonneg_of_mul_nonneg_left h0 hu1]
  · intro h0
    have := smooth_fits h0
    exact mul_nonneg (by linarith) hu1.le

/-- **C153, violation.** When the strokes leave room for the bars, a bar runs from its inner stroke to its outer stroke if, and only if, there is room for both smoothing lengths: otherwise,
where they should be shortened to what is there, the outline turns back at both ends of the bar. -/
theorem brace_bars {p : Params} {X0 X1 : Pt} {o : List (Item ℝ)} (h : bracepath p X0 X1 = some o) :
    (0 < ilen p (rightAngles p) * p.ismooth → 0 < olen p (rightAngles p) * p.osmooth →
      ilen p (rightAngles p) * (rightAngles p).si + olen p (rightAngles p) * (rightAngles p).so < rightLen p X0 X1 →
      ∃ i, o[9]? = some i ∧ (0 ≤ dot (minus i.end_ i.begin_) (dir X0 X1) ↔
        ilen p (rightAngles p) * p.ismooth + olen p (rightAngles p) * p.osmooth ≤ gap p (rightAngles p) (rightLen p X0 X1))) ∧
    (0 < ilen p (leftAngles p) * p.ismooth → 0 < olen p (leftAngles p) * p.osmooth →
      ilen p (leftAngles p) * (leftAngles p).si + olen p (leftAngles p) * (leftAngles p).so < leftLen p X0 X1 →
      ∃ i, o[6]? = some i ∧ (0 ≤ dot (minus i.end_ i.begin_) (dir X0 X1) ↔
        ilen p (leftAngles p) * p.ismooth + olen p (leftAngles p) * p.osmooth ≤ gap p (leftAngles p) (leftLen p X0 X1))) := by
  unfold bracepath at h
  cases hl : halfOf p (leftAngles p) (leftLen p X0 X1) with
  | none => simp [hl] at h
  | some l =>
    cases hr : halfOf p (rightAngles p) (rightLen p X0 X1) with
    | none => simp [hl, hr] at h
    | some r =>
      simp only [hl, hr, Option.some.injEq] at h
      subst h
      obtain ⟨hd, -⟩ := dir_spec X0 X1
      refine ⟨fun h1 h2 h3 => ⟨_, rfl, ?_⟩, fun h1 h2 h3 => ⟨_, rfl, ?_⟩⟩
      · rw [← halfOf_bar hr h1 h2 h3]
        rw [(transformed_ends _ _).1, (transformed_ends _ _).2, minus_apply, begin_line, end_line]
        have : dot (linear (place p X0 X1) (minus r.E1 r.D1)) (dir X0 X1) = r.E1.1 - r.D1.1 := by
          rw [place_eq]; simp only [dot, linear, minus]
          linear_combination (r.E1.1 - r.D1.1) * hd
        rw [this]
      · rw [← halfOf_bar hl h1 h2 h3]
        rw [(transformed_ends _ _).1, (transformed_ends _ _).2, (transformed_ends _ _).1, (transformed_ends _ _).2, (reversed_ends _).1, (reversed_ends _).2, minus_apply, minus_apply, begin_line, end_line]
        have : dot (linear (place p X0 X1) (linear (Trafo.mirror 90) (minus l.D1 l.E1))) (dir X0 X1) = l.E1.1 - l.D1.1 := by
          rw [place_eq, mirror90]; simp only [dot, linear, minus]
          linear_combination (l.E1.1 - l.D1.1) * hd
        rw [this]

/-! ## The cap -/

theorem halfOf_nose {p : Params} {length : ℝ} {a : Angles} {w : Half} (h : halfOf p a length = some w) (hi : a.ci ^ 2 + a.si ^ 2 = 1) :
    ∃ s, w.O = along w.P (a.cs, a.ss) s ∧ (s = 0 ↔ p.ithick = 0 ∨ a.si = 2 / 3) := by
  unfold halfOf at h
  split_ifs at h
  obtain ⟨u, q3, q4, s, s1, s2, s3, s4, t, t1, t2, t3, t4, -, -, -, -, -, -, hP, -, hA2, -, -, -, -, -, -, hO, hO', -⟩ := half_points h
  refine ⟨s, hO, ?_⟩
  rw [hO, hP, hA2] at hO'
  have e1 : 0 + s * a.cs = p.ithick * a.ci + t * a.si := congrArg Prod.fst hO'
  have e2 : p.height + s * a.ss = p.height - 3 / 2 * p.ithick + p.ithick * a.si + t * -a.ci := congrArg Prod.snd hO'
  have e : s * (a.cs * a.ci + a.ss * a.si) = p.ithick * (1 - 3 / 2 * a.si) := by linear_combination a.ci * e1 + a.si * e2 + p.ithick * hi
  have hdet : a.cs * a.ci + a.ss * a.si ≠ 0 := by
    intro h0
    unfold half at h
    simp only at h
    split_ifs at h
    have : intersection ((0, p.height) : Pt) ((0 : ℝ) + p.ithick * a.ci, p.height - 3 / 2 * p.ithick + p.ithick * a.si) (a.cs, a.ss) (a.si, -a.ci) = none := by
      unfold intersection; simp only; rw [if_pos]; linear_combination h0
    rw [this] at h
    simp at h
  constructor
  · rintro rfl
    rw [zero_mul] at e
    rcases mul_eq_zero.mp e.symm with h | h
    · exact Or.inl h
    · right; linarith
  · rintro (h | h)
    · rw [h, zero_mul] at e; exact (mul_eq_zero.mp e).resolve_right hdet
    · have : s * (a.cs * a.ci + a.ss * a.si) = 0 := by rw [e, h]; ring
      exact (mul_eq_zero.mp this).resolve_right hdet

/-- **C153, violation.** With slanted strokes, the outline has a corner at the cap: the left half is slanted as the right one although it is mirrored. -/
theorem brace_cap {p : Params} {X0 X1 : Pt} {o : List (Item ℝ)} (h : bracepath p X0 X1 = some o) :
    ∃ i j, o.getLast? = some i ∧ o.head? = some j ∧ (wedge (i.tangent 1) (j.tangent 0) = 0 ↔
      p.ithick = 0 ∨ (leftAngles p).si = 2 / 3 ∨ (rightAngles p).si = 2 / 3 ∨ Real.sin (Trafo.phi (2 * p.slant)) = 0) := by
  unfold bracepath at h
  cases hl : halfOf p (leftAngles p) (leftLen p X0 X1) with
  | none => simp [hl] at h
  | some l =>
    cases hr : halfOf p (rightAngles p) (rightLen p X0 X1) with
    | none => simp [hl, hr] at h
    | some r =>
      simp only [hl, hr, Option.some.injEq] at h
      subst h
      obtain ⟨hd, -⟩ := dir_spec X0 X1
      refine ⟨(curve r.A2 r.O r.O r.P).transformed (place p X0 X1), ((curve l.A2 l.O l.O l.P).reversed.transformed (Trafo.mirror 90)).transformed (place p X0 X1), rfl, rfl, ?_⟩
      obtain ⟨sl, ol, zl⟩ := halfOf_nose hl (Real.cos_sq_add_sin_sq _)
      obtain ⟨sr, or', zr⟩ := halfOf_nose hr (Real.cos_sq_add_sin_sq _)
      rw [(transformed_at _ _ _).2, (transformed_at _ _ _).2, (transformed_at _ _ _).2, (reversed_at _ _).2, sub_zero, tan_one, tan_one, wedge_linear, ol, or', place_eq, mirror90]
      have e : ((dir X0 X1).1 * (dir X0 X1).1 - -(dir X0 X1).2 * (dir X0 X1).2) = 1 := by linear_combination hd
      have e2 : Real.sin (Trafo.phi (2 * p.slant)) = -2 * ((leftAngles p).ss * (leftAngles p).cs) := by
        simp only [leftAngles]
        have : Trafo.phi (2 * p.slant) = 2 * Trafo.phi p.slant := by unfold Trafo.phi; ring
        have e' : Trafo.phi (-p.slant) = -Trafo.phi p.slant := by unfold Trafo.phi; ring
        rw [this, e', Real.sin_two_mul, Real.sin_neg, Real.cos_neg]; ring
      have e3 : (rightAngles p).cs = (leftAngles p).cs ∧ (rightAngles p).ss = (leftAngles p).ss := ⟨rfl, rfl⟩
      simp only [e, one_mul]
      rw [e3.1, e3.2]
      have e4 : wedge (3 * (r.P.1 - (along r.P ((leftAngles p).cs, (leftAngles p).ss) sr).1), 3 * (r.P.2 - (along r.P ((leftAngles p).cs, (leftAngles p).ss) sr).2))
          (linear (⟨-1, 0, 0, 1, 0, 0⟩ : Trafo ℝ) (-(3 * (l.P.1 - (along l.P ((leftAngles p).cs, (leftAngles p).ss) sl).1)), -(3 * (l.P.2 - (along l.P ((leftAngles p).cs, (leftAngles p).ss) sl).2)))) =
          9 * (sr * sl) * Real.sin (Trafo.phi (2 * p.slant)) := by
        rw [e2]; simp only [wedge, linear, along]; ring
      rw [e4]
      simp only [mul_eq_zero, zl, zr]
      norm_num
      tauto

/-! ## Where the brace is put -/

/-- A point moved away from the middle of `b` and `e`, and then by `dist` along `n`. -/
def moved (p : Params) (b e : Pt) (x n : Pt) : Pt :=
  let m : Pt := (1 / 2 * (b.1 + e.1), 1 / 2 * (b.2 + e.2))
  let y : Pt := match p.stretch with
    | none => x
    | some s => along m (minus x m) s
  match p.dist with
  | none => y
  | some d => along y n d

/-- **C153.** The brace is put between begin and end of the path (or, reversed, between end and begin), stretched around the middle, and moved by the distance to the left of the path at these points;
for reversed braces with a distance this holds when both directions are the same. -/
theorem brace_ends_partial (p : Params) (b e nb ne : Pt) (h : p.reverse = false ∨ p.dist = none ∨ nb = ne) :
    ends p b e nb ne = if p.reverse then (moved p b e e ne, moved p b e b nb) else (moved p b e b nb, moved p b e e ne) := by
  obtain ⟨b1, b2⟩ := b
  obtain ⟨e1, e2⟩ := e
  unfold ends moved
  rcases h with h | h | h
  · rw [h]; cases p.stretch <;> cases p.dist <;> simp [along, minus]
  · rw [h]; cases p.reverse <;> cases p.stretch <;> simp [along, minus] <;> ring_nf <;> simp
  · rw [h]; cases p.reverse <;> cases p.stretch <;> cases p.dist <;> simp [along, minus] <;> ring_nf <;> simp

/-- **C153, violation.** The ends of a reversed brace are moved in the direction of the other end of the path. -/
theorem brace_dist_reversed (p : Params) (d : ℝ) (hr : p.reverse = true) (hd : p.dist = some d) (hd0 : d ≠ 0) (b e nb ne : Pt) (h : nb ≠ ne) :
    (ends p b e nb ne).1 = moved p b e e nb ∧ (ends p b e nb ne).1 ≠ moved p b e e ne := by
  have e1 : (ends p b e nb ne).1 = moved p b e e nb := by
    unfold ends moved
    rw [hr, hd]
    cases p.stretch <;> simp [along, minus] <;> ring_nf <;> simp
  refine ⟨e1, ?_⟩
  rw [e1]
  intro h'
  apply h
  unfold moved at h'
  rw [hd] at h'
  simp only [along, Prod.mk.injEq, add_right_inj, mul_eq_mul_left_iff, hd0, or_false] at h'
  exact Prod.ext h'.1 h'.2

/-! ## When there is a brace, and an example -/

theorem half_drawn {length height il ol it ot bt : ℝ} {a : Angles} {ism osm : ℝ} (hz : ¬ ZeroDivision length height il ol it a (il * ism) (ol * osm))
    (h1 : a.cs * a.ci + a.ss * a.si ≠ 0) (h2 : (barDir length height il ol it a).1 * a.ci + (barDir length height il ol it a).2 * a.si ≠ 0)
    (h3 : (barDir length height il ol it a).1 * a.co + (barDir length height il ol it a).2 * a.so ≠ 0) :
    ∃ w, half length height il ol it ot bt a ism osm = some w := by
  have key : ∀ (A D tA tD : Pt), -tA.1 * tD.2 + tA.2 * tD.1 ≠ 0 → ∃ x, intersection A D tA tD = some x := by
    intro A D tA tD h; unfold intersection; simp only; rw [if_neg h]; exact ⟨_, rfl⟩
  unfold half
  simp only
  rw [if_neg hz]
  generalize barDir length height il ol it a = u at *
  obtain ⟨x0, e0⟩ := key (0, height) ((0 : ℝ) + it * a.ci, height - 3 / 2 * it + it * a.si) (a.cs, a.ss) (a.si, -a.ci) (by simpa using h1)
  rw [e0]
  have g1 : ∀ A D : Pt, ∃ x, intersection A D (a.si, -a.ci) u = some x := fun A D => key A D _ _ (by
    simp only; intro h; apply h2; linear_combination -h)
  have g2 : ∀ A D : Pt, ∃ x, intersection A D u (-a.so, a.co) = some x := fun A D => key A D _ _ (by
    simp only; intro h; apply h3; linear_combination -h)
  generalize along (q2 height il it a) u (smoothLens (barLen length height il ol it a) (il * ism) (ol * osm)).1 = q3
  generalize along (q5 length ol a) u (-(smoothLens (barLen length height il ol it a) (il * ism) (ol * osm)).2) = q4
  obtain ⟨x1, e1⟩ := g1 (0, height - 3 / 2 * it) (q3.1 + bt * u.2, q3.2 - bt * u.1)
  obtain ⟨x2, e2⟩ := g1 ((0 : ℝ) + it * a.ci, height - 3 / 2 * it + it * a.si) (q3.1 - bt * u.2, q3.2 + bt * u.1)
  obtain ⟨x3, e3⟩ := g2 (q4.1 + bt * u.2, q4.2 - bt * u.1) (length - 1 / 2 * ot * a.co, 0 - 1 / 2 * ot * a.so)
  obtain ⟨x4, e4⟩ := g2 (q4.1 - bt * u.2, q4.2 + bt * u.1) (length + 1 / 2 * ot * a.co, 0 + 1 / 2 * ot * a.so)
  rw [e1, e2, e3, e4]
  exact ⟨_, rfl⟩

/-- A brace of 12 points with inner strokes at 60 degrees to each other and outer strokes at 30 degrees. -/
def exBrace : Params := ⟨false, none, none, 12, 1 / 2, 1 / 4, 1 / 4, 1 / 2, 47 / 96, 60, 30, 0, 1, 1, 1 / 2⟩

theorem ex_angles : leftAngles exBrace = ⟨Real.sqrt 3 / 2, 1 / 2, Real.sqrt 3 / 2, 1 / 2, 1, 0⟩ ∧ rightAngles exBrace = ⟨Real.sqrt 3 / 2, 1 / 2, Real.sqrt 3 / 2, 1 / 2, 1, 0⟩ := by
  have e : Trafo.phi 30 = Real.pi / 6 := by unfold Trafo.phi; ring
  have e0 : Trafo.phi 0 = 0 := by unfold Trafo.phi; ring
  have e1 : (1 / 2 : ℝ) * 60 = 30 := by norm_num
  constructor <;> simp only [leftAngles, rightAngles, exBrace, e1, sub_zero, add_zero, neg_zero, e, e0, Real.cos_pi_div_six, Real.sin_pi_div_six, Real.cos_zero, Real.sin_zero]

def exAngles : Angles := ⟨Real.sqrt 3 / 2, 1 / 2, Real.sqrt 3 / 2, 1 / 2, 1, 0⟩

theorem ex_lens : ilen exBrace exAngles = 4 * Real.sqrt 3 ∧ olen exBrace exAngles = 47 / 12 * Real.sqrt 3 := by
  have h3 : Real.sqrt 3 ≠ 0 := by positivity
  have h3' : Real.sqrt 3 * Real.sqrt 3 = 3 := Real.mul_self_sqrt (by norm_num)
  constructor <;> simp only [ilen, olen, exBrace, exAngles] <;> field_simp <;> nlinarith

theorem ex_gap {ℓ : ℝ} (h : 95 / 24 * Real.sqrt 3 < ℓ) : gap exBrace exAngles ℓ = ℓ - 95 / 24 * Real.sqrt 3 ∧
    barDir ℓ exBrace.height (ilen exBrace exAngles) (olen exBrace exAngles) exBrace.ithick exAngles = (1, 0) := by
  have h3' : Real.sqrt 3 * Real.sqrt 3 = 3 := Real.mul_self_sqrt (by norm_num)
  have y : (q5 ℓ (olen exBrace exAngles) exAngles).2 - (q2 exBrace.height (ilen exBrace exAngles) exBrace.ithick exAngles).2 = 0 := by
    rw [ex_lens.1, ex_lens.2]; simp only [q5, q2, exBrace, exAngles]; nlinarith
  have x : (q5 ℓ (olen exBrace exAngles) exAngles).1 - (q2 exBrace.height (ilen exBrace exAngles) exBrace.ithick exAngles).1 = ℓ - 95 / 24 * Real.sqrt 3 := by
    rw [ex_lens.1, ex_lens.2]; simp only [q5, q2, exBrace, exAngles]; ring
  have g : gap exBrace exAngles ℓ = ℓ - 95 / 24 * Real.sqrt 3 := by
    unfold gap barLen hypot
    rw [x, y]
    simp only [ne_eq, OfNat.ofNat_ne_zero, not_false_eq_true, zero_pow, add_zero]
    exact Real.sqrt_sq (by linarith)
  refine ⟨g, ?_⟩
  unfold barDir
  rw [x, y]
  unfold gap at g
  rw [g]
  ext
  · exact div_self (by linarith)
  · simp

theorem ex_half {ℓ : ℝ} (h : 95 / 24 * Real.sqrt 3 < ℓ) : ∃ w, halfOf exBrace exAngles ℓ = some w := by
  have h3 : 0 < Real.sqrt 3 := by positivity
  obtain ⟨g, u⟩ := ex_gap h
  unfold halfOf
  rw [if_neg (by simp [exAngles])]
  apply half_drawn
  · unfold ZeroDivision
    change ¬ (_ ∨ gap exBrace exAngles ℓ = 0 ∨ (gap exBrace exAngles ℓ < _ ∧ gap exBrace exAngles ℓ * (ilen exBrace exAngles * exBrace.ismooth) /
      ((ilen exBrace exAngles * exBrace.ismooth) + (olen exBrace exAngles * exBrace.osmooth)) + olen exBrace exAngles * exBrace.osmooth = 0))
    rw [g, ex_lens.1, ex_lens.2]
    rintro (hh | hh | ⟨-, hh⟩)
    · simp [exAngles] at hh
    · linarith
    · simp only [exBrace] at hh
      have : 0 < (ℓ - 95 / 24 * Real.sqrt 3) := by linarith
      have : 0 < (ℓ - 95 / 24 * √3) * (4 * √3 * 1) / (4 * √3 * 1 + 47 / 12 * √3 * 1) + 47 / 12 * √3 * 1 := by positivity
      linarith
  · simp [exAngles]
  · change (barDir ℓ exBrace.height (ilen exBrace exAngles) (olen exBrace exAngles) exBrace.ithick exAngles).1 * _ + (barDir ℓ exBrace.height (ilen exBrace exAngles) (olen exBrace exAngles) exBrace.ithick exAngles).2 * _ ≠ 0
    rw [u]; simp [exAngles]
  · change (barDir ℓ exBrace.height (ilen exBrace exAngles) (olen exBrace exAngles) exBrace.ithick exAngles).1 * _ + (barDir ℓ exBrace.height (ilen exBrace exAngles) (olen exBrace exAngles) exBrace.ithick exAngles).2 * _ ≠ 0
    rw [u]; simp [exAngles]

/-- Braces of this kind between points on a horizontal line are drawn when the points are more than 14 points apart; they turn back between 14 and 41 points
and not beyond 42 points. -/
theorem ex_brace {L : ℝ} (h : 14 < L) : ∃ o, bracepath exBrace (0, 0) (L, 0) = some o ∧
    ∃ i, o[9]? = some i ∧ (L < 41 → dot (minus i.end_ i.begin_) (dir (0, 0) (L, 0)) < 0) ∧ (42 < L → 0 ≤ dot (minus i.end_ i.begin_) (dir (0, 0) (L, 0))) := by
  have hs1 : Real.sqrt 3 < 174 / 100 := by rw [Real.sqrt_lt' (by norm_num)]; norm_num
  have hs2 : 173 / 100 < Real.sqrt 3 := by rw [Real.lt_sqrt (by norm_num)]; norm_num
  have hL : hypot (L - 0) (0 - 0) = L := by unfold hypot; simp only [sub_zero]; rw [zero_pow (by norm_num), add_zero]; exact Real.sqrt_sq (by linarith)
  have el : leftLen exBrace (0, 0) (L, 0) = 1 / 2 * L := by unfold leftLen; rw [hL]; rfl
  have er : rightLen exBrace (0, 0) (L, 0) = 1 / 2 * L := by unfold rightLen; rw [hL, el]; ring
  have hl : 95 / 24 * Real.sqrt 3 < 1 / 2 * L := by nlinarith
  obtain ⟨w, hw⟩ := ex_half hl
  have ho : ∃ o, bracepath exBrace (0, 0) (L, 0) = some o := by
    unfold bracepath
    rw [el, er, ex_angles.1, ex_angles.2]
    change ∃ o, (match halfOf exBrace exAngles (1 / 2 * L), halfOf exBrace exAngles (1 / 2 * L) with | some l, some r => _ | _, _ => _) = some o
    rw [hw]
    exact ⟨_, rfl⟩
  obtain ⟨o, ho⟩ := ho
  have ha : rightAngles exBrace = exAngles := ex_angles.2
  obtain ⟨hb, -⟩ := brace_bars ho
  rw [ha, er, ex_lens.1, ex_lens.2, (ex_gap hl).1] at hb
  obtain ⟨i, hi, hb⟩ := hb (by simp only [exBrace]; positivity) (by simp only [exBrace]; positivity) (by simp only [exAngles]; linarith)
  refine ⟨o, ho, i, hi, fun h1 => ?_, fun h1 => ?_⟩
  · by_contra hn
    have := hb.mp (not_lt.mp hn)
    simp only [exBrace] at this
    linarith
  · apply hb.mpr
    simp only [exBrace]
    linarith

example : ∃ i, (∃ o, bracepath exBrace (0, 0) (20, 0) = some o ∧ o[9]? = some i) ∧ dot (minus i.end_ i.begin_) (dir (0, 0) (20, 0)) < 0 := by
  obtain ⟨o, ho, i, hi, h, -⟩ := ex_brace (L := 20) (by norm_num)
  exact ⟨i, ⟨o, ho, hi⟩, h (by norm_num)⟩

/-! ## A condition for braces -/

/-- The strokes go outwards and leave room for the bar, and the bar does not come closer to the line between the end points. -/
structure Fine (p : Params) (a : Angles) (length : ℝ) : Prop where
  ci : 0 < a.ci
  si : 0 < a.si
  co : 0 < a.co
  so : 0 < a.so
  nose : 0 < a.cs * a.ci + a.ss * a.si
  inner : 0 ≤ ilen p a * p.ismooth
  outer : 0 ≤ olen p a * p.osmooth
  room : ilen p a * a.si + olen p a * a.so < length
  rise : p.height - 3 / 2 * p.ithick + 1 / 2 * p.ithick / a.si - ilen p a * a.ci ≤ olen p a * a.co

theorem halfOf_drawn {p : Params} {a : Angles} {length : ℝ} (h : Fine p a length) : ∃ w, halfOf p a length = some w := by
  obtain ⟨ci, si, co, so, nose, inner, outer, room, rise⟩ := h
  unfold halfOf
  rw [if_neg (by rintro (h | h) <;> linarith)]
  change ∃ w, half length p.height (ilen p a) (olen p a) p.ithick p.othick p.bthick a p.ismooth p.osmooth = some w
  have x : 0 < (q5 length (olen p a) a).1 - (q2 p.height (ilen p a) p.ithick a).1 := by simp only [q5, q2]; linarith
  have y : 0 ≤ (q5 length (olen p a) a).2 - (q2 p.height (ilen p a) p.ithick a).2 := by simp only [q5, q2]; linarith
  have b : 0 < barLen length p.height (ilen p a) (olen p a) p.ithick a := by
    unfold barLen hypot; apply Real.sqrt_pos.mpr; positivity
  have u1 : 0 < (barDir length p.height (ilen p a) (olen p a) p.ithick a).1 := div_pos x b
  have u2 : 0 ≤ (barDir length p.height (ilen p a) (olen p a) p.ithick a).2 := div_nonneg y b.le
  apply half_drawn
  · rintro (h | h | ⟨h, h'⟩)
    · linarith
    · linarith
    · have hs : 0 < ilen p a * p.ismooth + olen p a * p.osmooth := by linarith
      have t1 : 0 ≤ barLen length p.height (ilen p a) (olen p a) p.ithick a * (ilen p a * p.ismooth) / (ilen p a * p.ismooth + olen p a * p.osmooth) := by positivity
      have ho : olen p a * p.osmooth = 0 := by linarith
      rw [ho] at h' hs
      rw [add_zero] at h' hs
      rw [add_zero, mul_div_assoc, div_self hs.ne', mul_one] at h'
      linarith
  · exact nose.ne'
  · have := mul_pos u1 ci
    have := mul_nonneg u2 si.le
    linarith
  · have := mul_pos u1 co
    have := mul_nonneg u2 so.le
    linarith

/-- **C153.** There is a brace if both halves are fine. -/
theorem brace_drawn {p : Params} {X0 X1 : Pt} (hl : Fine p (leftAngles p) (leftLen p X0 X1)) (hr : Fine p (rightAngles p) (rightLen p X0 X1)) :
    ∃ o, bracepath p X0 X1 = some o := by
  obtain ⟨l, hl⟩ := halfOf_drawn hl
  obtain ⟨r, hr⟩ := halfOf_drawn hr
  unfold bracepath
  rw [hl, hr]
  exact ⟨_, rfl⟩

/-- A slanted brace. -/
def exSlanted : Params := ⟨false, none, none, 12, 1 / 2, 1 / 4, 1 / 4, 1 / 2, 1 / 2, 90, 45, 15, 1, 1, 1 / 2⟩

/-- It is drawn and has a corner at its cap. -/
theorem ex_slanted : ∃ o i j, bracepath exSlanted (0, 0) (200, 0) = some o ∧ o.getLast? = some i ∧ o.head? = some j ∧ wedge (i.tangent 1) (j.tangent 0) ≠ 0 := by
  have e1 : Trafo.phi 30 = Real.pi / 6 := by unfold Trafo.phi; ring
  have e2 : Trafo.phi 60 = Real.pi / 3 := by unfold Trafo.phi; ring
  have e3 : Trafo.phi (-15) = -(Real.pi / 12) := by unfold Trafo.phi; ring
  have hp := Real.pi_pos
  have al : leftAngles exSlanted = ⟨Real.sqrt 3 / 2, 1 / 2, Real.sqrt 3 / 2, 1 / 2, Real.cos (Real.pi / 12), -Real.sin (Real.pi / 12)⟩ := by
    simp only [leftAngles, exSlanted]
    rw [show (1 / 2 * 90 - 15 : ℝ) = 30 by norm_num, show (45 - 15 : ℝ) = 30 by norm_num, e1, e3, Real.cos_pi_div_six, Real.sin_pi_div_six, Real.cos_neg, Real.sin_neg]
  have ar : rightAngles exSlanted = ⟨1 / 2, Real.sqrt 3 / 2, 1 / 2, Real.sqrt 3 / 2, Real.cos (Real.pi / 12), -Real.sin (Real.pi / 12)⟩ := by
    simp only [rightAngles, exSlanted]
    rw [show (1 / 2 * 90 + 15 : ℝ) = 60 by norm_num, show (45 + 15 : ℝ) = 60 by norm_num, e2, e3, Real.cos_pi_div_three, Real.sin_pi_div_three, Real.cos_neg, Real.sin_neg]
  have hs1 : Real.sqrt 3 < 174 / 100 := by rw [Real.sqrt_lt' (by norm_num)]; norm_num
  have hs2 : 173 / 100 < Real.sqrt 3 := by rw [Real.lt_sqrt (by norm_num)]; norm_num
  have h3' : Real.sqrt 3 * Real.sqrt 3 = 3 := Real.mul_self_sqrt (by norm_num)
  have hL : hypot ((200 : ℝ) - 0) (0 - 0) = 200 := by unfold hypot; simp only [sub_zero]; rw [zero_pow (by norm_num), add_zero]; exact Real.sqrt_sq (by norm_num)
  have el : leftLen exSlanted (0, 0) (200, 0) = 100 := by unfold leftLen; rw [hL]; norm_num [exSlanted]
  have er : rightLen exSlanted (0, 0) (200, 0) = 100 := by unfold rightLen; rw [hL, el]; norm_num
  have i1 : ilen exSlanted (leftAngles exSlanted) = 4 * Real.sqrt 3 ∧ olen exSlanted (leftAngles exSlanted) = 4 * Real.sqrt 3 := by
    rw [al]; constructor <;> simp only [ilen, olen, exSlanted] <;> field_simp <;> nlinarith
  have i2 : ilen exSlanted (rightAngles exSlanted) = 12 ∧ olen exSlanted (rightAngles exSlanted) = 12 := by
    rw [ar]; constructor <;> norm_num [ilen, olen, exSlanted]
  have c1 : 0 < Real.cos (Real.pi / 12 + Real.pi / 6) := Real.cos_pos_of_mem_Ioo ⟨by linarith, by linarith⟩
  have c2 : 0 < Real.cos (Real.pi / 12 + Real.pi / 3) := Real.cos_pos_of_mem_Ioo ⟨by linarith, by linarith⟩
  rw [Real.cos_add, Real.cos_pi_div_six, Real.sin_pi_div_six] at c1
  rw [Real.cos_add, Real.cos_pi_div_three, Real.sin_pi_div_three] at c2
  have fl : Fine exSlanted (leftAngles exSlanted) (leftLen exSlanted (0, 0) (200, 0)) := by
    refine ⟨?_, ?_, ?_, ?_, ?_, ?_, ?_, ?_, ?_⟩
    · rw [al]; simp
    · rw [al]; simp
    · rw [al]; simp
    · rw [al]; simp
    · rw [al]; simp only; linarith
    · rw [i1.1]; simp [exSlanted]
    · rw [i1.2]; simp [exSlanted]
    · rw [i1.1, i1.2, el, al]; simp only; linarith
    · rw [i1.1, i1.2, al]; simp only [exSlanted]; linarith
  have fr : Fine exSlanted (rightAngles exSlanted) (rightLen exSlanted (0, 0) (200, 0)) := by
    refine ⟨?_, ?_, ?_, ?_, ?_, ?_, ?_, ?_, ?_⟩
    · rw [ar]; simp
    · rw [ar]; simp
    · rw [ar]; simp
    · rw [ar]; simp
    · rw [ar]; simp only; linarith
    · rw [i2.1]; simp [exSlanted]
    · rw [i2.2]; simp [exSlanted]
    · rw [i2.1, i2.2, er, ar]; simp only; linarith
    · rw [i2.1, i2.2, ar]; simp only [exSlanted]
      have : (1 / 2 * (1 / 4) / (Real.sqrt 3 / 2) : ℝ) ≤ 3 / 2 * (1 / 4) := by
        rw [div_le_iff₀ (by positivity)]; linarith
      linarith
  obtain ⟨o, ho⟩ := brace_drawn fl fr
  obtain ⟨i, j, hi, hj, h⟩ := brace_cap ho
  refine ⟨o, i, j, ho, hi, hj, fun h0 => ?_⟩
  rcases h.mp h0 with h | h | h | h
  · norm_num [exSlanted] at h
  · rw [al] at h; norm_num at h
  · rw [ar] at h; simp only at h; linarith
  · simp only [exSlanted] at h
    rw [show (2 * 15 : ℝ) = 30 by norm_num, e1, Real.sin_pi_div_six] at h
    norm_num at h

end

end PyX.Deco.Brace
