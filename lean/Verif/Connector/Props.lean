import Verif.Connector.ArcProps

/-!
# C51: the curve connector and the connector of two lines
-/

set_option linter.unusedSectionVars false

namespace PyX.Connector

open Real PyX.NormPath PyX.Path

noncomputable section

/-! ## The curve -/

/-- The direction from the first to the second point. -/
theorem dangle_spec {a b : ℝ × ℝ} (hab : a ≠ b) (x : ℝ) :
    turned a b x = (cos (atan2 (b.2 - a.2) (b.1 - a.1) + x), sin (atan2 (b.2 - a.2) (b.1 - a.1) + x)) := by
  have hd := dist_pos hab
  obtain ⟨q1, q2⟩ := polar (b.1 - a.1) (b.2 - a.2)
  rw [hypot_dist] at q1 q2
  generalize atan2 (b.2 - a.2) (b.1 - a.1) = δ at *
  unfold turned
  rw [cos_add, sin_add]
  apply Prod.ext
  · show _ / _ = _
    rw [div_eq_iff hd.ne', ← q1, ← q2]
    ring
  · show _ / _ = _
    rw [div_eq_iff hd.ne', ← q1, ← q2]
    ring

/-- The direction of the curve at a center: an absolute one, or relative to the straight line. -/
def curveDir (a b : ℝ × ℝ) (relangle : ℝ) : Option ℝ → ℝ × ℝ
  | some x => (cos (radians x), sin (radians x))
  | none => turned a b (radians relangle)

/-- **C51.**  The curve connector leads from the first to the second center; it leaves the first one and reaches the second one in the
given directions, absolute ones having priority over relative ones, and the control points are at the distance
`|distance * relbulge + absbulge|` from the centers. -/
theorem curve_spec (a b : ℝ × ℝ) (hab : a ≠ b) (relangle1 relangle2 : ℝ) (absangle1 absangle2 : Option ℝ) (absbulge relbulge : ℝ) :
    let c := curve a b relangle1 relangle2 absangle1 absangle2 absbulge relbulge
    let l := |dist a b * relbulge + absbulge|
    c.at_ 0 = a ∧ c.at_ 1 = b ∧
    (c.x1, c.y1) = (a.1 + l * (curveDir a b relangle1 absangle1).1, a.2 + l * (curveDir a b relangle1 absangle1).2) ∧
    (c.x2, c.y2) = (b.1 - l * (curveDir a b relangle2 absangle2).1, b.2 - l * (curveDir a b relangle2 absangle2).2) ∧
    c.tangent 0 = (3 * l * (curveDir a b relangle1 absangle1).1, 3 * l * (curveDir a b relangle1 absangle1).2) ∧
    c.tangent 1 = (3 * l * (curveDir a b relangle2 absangle2).1, 3 * l * (curveDir a b relangle2 absangle2).2) := by
  have h := dangle_spec hab
  intro c l
  have hc1 : c.x0 = a.1 ∧ c.y0 = a.2 ∧ c.x3 = b.1 ∧ c.y3 = b.2 := ⟨rfl, rfl, rfl, rfl⟩
  have hc2 : c.x1 = a.1 + l * (curveDir a b relangle1 absangle1).1 ∧ c.y1 = a.2 + l * (curveDir a b relangle1 absangle1).2 := by
    rcases absangle1 with _ | x
    · simp only [curveDir, h, c, l, curve, hypot_dist]
      constructor <;> ring
    · simp only [curveDir, c, l, curve, hypot_dist]
      constructor <;> ring
  have hc3 : c.x2 = b.1 - l * (curveDir a b relangle2 absangle2).1 ∧ c.y2 = b.2 - l * (curveDir a b relangle2 absangle2).2 := by
    rcases absangle2 with _ | x
    · simp only [curveDir, h, c, l, curve, hypot_dist]
      constructor <;> ring
    · simp only [curveDir, c, l, curve, hypot_dist]
      constructor <;> ring
  obtain ⟨x0, y0, x3, y3⟩ := hc1
  obtain ⟨x1, y1⟩ := hc2
  obtain ⟨x2, y2⟩ := hc3
  clear_value c l
  refine ⟨?_, ?_, Prod.ext x1 y1, Prod.ext x2 y2, ?_, ?_⟩
  · unfold Curve.at_
    apply Prod.ext <;> simp only [x0, y0, x1, y1, x2, y2, x3, y3] <;> ring
  · unfold Curve.at_
    apply Prod.ext <;> simp only [x0, y0, x1, y1, x2, y2, x3, y3] <;> ring
  · unfold Curve.tangent
    apply Prod.ext <;> simp only [x0, y0, x1, y1, x2, y2, x3, y3] <;> ring
  · unfold Curve.tangent
    apply Prod.ext <;> simp only [x0, y0, x1, y1, x2, y2, x3, y3] <;> ring

/-- The curve with the default angles of 45 degrees crosses the straight line in its middle, whatever the bulge is: it is not "similar to
the arc with angle 45" as the comment (`connector.py:169-170`) and the manual say. -/
theorem curve_default_wrong (a b : ℝ × ℝ) (absbulge relbulge : ℝ) :
    (curve a b 45 45 none none absbulge relbulge).at_ (1 / 2) = ((a.1 + b.1) / 2, (a.2 + b.2) / 2) := by
  unfold curve Curve.at_
  apply Prod.ext
  · show _ = (a.1 + b.1) / 2
    ring
  · show _ = (a.2 + b.2) / 2
    ring

/-- With opposite angles the middle of the curve deviates from the line to the side of the first angle, as for an arc. -/
theorem curve_opposite (a b : ℝ × ℝ) (hab : a ≠ b) (x absbulge relbulge : ℝ) :
    left a b ((curve a b x (-x) none none absbulge relbulge).at_ (1 / 2)) =
      3 / 4 * |dist a b * relbulge + absbulge| * sin (radians x) := by
  have hd := dist_pos hab
  obtain ⟨q1, q2⟩ := polar (b.1 - a.1) (b.2 - a.2)
  rw [hypot_dist] at q1 q2
  unfold left curve Curve.at_
  simp only [hypot_dist]
  rw [div_eq_iff hd.ne', show radians (-x) = -radians x by unfold radians; ring, cos_add, sin_add, cos_add, sin_add, cos_neg, sin_neg]
  have e := sin_sq_add_cos_sq (atan2 (b.2 - a.2) (b.1 - a.1))
  have h1 : b.1 = a.1 + dist a b * cos (atan2 (b.2 - a.2) (b.1 - a.1)) := by linarith
  have h2 : b.2 = a.2 + dist a b * sin (atan2 (b.2 - a.2) (b.1 - a.1)) := by linarith
  generalize atan2 (b.2 - a.2) (b.1 - a.1) = δ at *
  generalize dist a b = d at *
  rw [h1, h2]
  linear_combination (3 / 4 * |d * relbulge + absbulge| * sin (radians x) * d) * e

/-! ## Two lines -/

theorem dist_middleA (a : ℝ × ℝ) (δ l x : ℝ) : dist a (middleA a δ l x) = |l| := by
  unfold dist middleA
  simp only
  rw [show (a.1 + l * cos (δ - x) - a.1) ^ 2 + (a.2 + l * sin (δ - x) - a.2) ^ 2 = l ^ 2 * (sin (δ - x) ^ 2 + cos (δ - x) ^ 2) by ring,
    sin_sq_add_cos_sq, mul_one, sqrt_sq_eq_abs]

theorem dist_sq (a b : ℝ × ℝ) : dist a b ^ 2 = (b.1 - a.1) ^ 2 + (b.2 - a.2) ^ 2 := hypot_sq _ _

theorem dist_nonneg (a b : ℝ × ℝ) : 0 ≤ dist a b := sqrt_nonneg _

theorem dist_of_sq {a b : ℝ × ℝ} {l : ℝ} (h : dist a b ^ 2 = l ^ 2) : dist a b = |l| := by
  rw [← abs_of_nonneg (dist_nonneg a b)]
  exact (sq_eq_sq_iff_abs_eq_abs _ _).mp h

/-- The cosine theorem. -/
theorem cosine_A (a b : ℝ × ℝ) (l x : ℝ) :
    dist b (middleA a (atan2 (b.2 - a.2) (b.1 - a.1)) l x) ^ 2 = dist a b ^ 2 + l ^ 2 - 2 * dist a b * l * cos x := by
  obtain ⟨q1, q2⟩ := polar (b.1 - a.1) (b.2 - a.2)
  rw [hypot_dist] at q1 q2
  rw [dist_sq b]
  unfold middleA
  simp only
  have h1 : b.1 = a.1 + dist a b * cos (atan2 (b.2 - a.2) (b.1 - a.1)) := by linarith
  have h2 : b.2 = a.2 + dist a b * sin (atan2 (b.2 - a.2) (b.1 - a.1)) := by linarith
  generalize atan2 (b.2 - a.2) (b.1 - a.1) = δ at *
  generalize dist a b = d at *
  rw [h1, h2, cos_sub, sin_sub]
  have e := sin_sq_add_cos_sq δ
  have e' := sin_sq_add_cos_sq x
  linear_combination (d ^ 2 - 2 * d * l * cos x + l ^ 2 * (sin x ^ 2 + cos x ^ 2)) * e + l ^ 2 * e'

theorem cosine_B (a b : ℝ × ℝ) (l x : ℝ) :
    dist a (middleB b (atan2 (b.2 - a.2) (b.1 - a.1)) l x) ^ 2 = dist a b ^ 2 + l ^ 2 - 2 * dist a b * l * cos x := by
  obtain ⟨q1, q2⟩ := polar (b.1 - a.1) (b.2 - a.2)
  rw [hypot_dist] at q1 q2
  rw [dist_sq a]
  unfold middleB middleA
  simp only
  have h1 : b.1 = a.1 + dist a b * cos (atan2 (b.2 - a.2) (b.1 - a.1)) := by linarith
  have h2 : b.2 = a.2 + dist a b * sin (atan2 (b.2 - a.2) (b.1 - a.1)) := by linarith
  generalize atan2 (b.2 - a.2) (b.1 - a.1) = δ at *
  generalize dist a b = d at *
  rw [h1, h2, show -π + δ - -x = δ + x - π by ring, cos_sub_pi, sin_sub_pi, cos_add, sin_add]
  have e := sin_sq_add_cos_sq δ
  have e' := sin_sq_add_cos_sq x
  linear_combination (d ^ 2 - 2 * d * l * cos x + l ^ 2 * (sin x ^ 2 + cos x ^ 2)) * e + l ^ 2 * e'

theorem dist_middleB (b : ℝ × ℝ) (δ l x : ℝ) : dist b (middleB b δ l x) = |l| := dist_middleA _ _ _ _

theorem missinglength_spec {A B x C : ℝ} (h : missinglength A B x = .ok C) : A ^ 2 = B ^ 2 + C ^ 2 - 2 * B * C * cos x := by
  unfold missinglength at h
  simp only at h
  split_ifs at h with h1 h2
  · cases h
    have := sq_sqrt (not_lt.mp h1)
    linear_combination -this
  · cases h
    have := sq_sqrt (not_lt.mp h1)
    linear_combination -this

theorem cosineAngle_spec {d l1 l2 x : ℝ} (h : cosineAngle d l1 l2 = .ok x) :
    2 * d * l1 * cos x = d ^ 2 + l1 ^ 2 - l2 ^ 2 ∧ 0 ≤ x ∧ x ≤ π := by
  unfold cosineAngle at h
  simp only at h
  split_ifs at h with h1 h2
  cases h
  push Not at h2
  rw [cos_arccos h2.1 h2.2]
  exact ⟨mul_div_cancel₀ _ h1, arccos_nonneg _, arccos_le_pi _⟩

/-- What `twolines` computes: all cases that succeed. -/
theorem twolines_ok {a b : ℝ × ℝ} {A : TwoArgs} {m : ℝ × ℝ} (h : twolines a b A = .ok m) :
    let d := dist a b
    let δ := atan2 (b.2 - a.2) (b.1 - a.1)
    (∃ x1 x2 xM, x1 + x2 + xM = π ∧ A.length1 = none ∧ A.length2 = none ∧ sin xM ≠ 0 ∧
      (A.ra1 δ = some x1 ∨ A.ra1 δ = none) ∧ (A.ra2 δ = some x2 ∨ A.ra2 δ = none) ∧
      (A.relangleM.map radians = some xM ∨ A.relangleM = none) ∧ m = middleA a δ (d * |sin x2 / sin xM|) x1) ∨
    (∃ l1 x1, (A.ra1 δ = some x1 ∨ A.ra1 δ = none) ∧ A.ra2 δ = none ∧ (A.length1 = some l1 ∨ A.length1 = none) ∧
      (∀ l2, A.length2 = some l2 → l2 ^ 2 = d ^ 2 + l1 ^ 2 - 2 * d * l1 * cos x1) ∧ m = middleA a δ l1 x1 ∧
      (∀ xM, A.relangleM.map radians = some xM → ∃ l2, (A.length2 = some l2 ∨ A.length2 = none) ∧
        l2 ^ 2 = d ^ 2 + l1 ^ 2 - 2 * d * l1 * cos x1 ∧ d ^ 2 = l1 ^ 2 + l2 ^ 2 - 2 * l1 * l2 * cos xM) ∧
      (A.ra1 δ = none → 0 ≤ x1 ∧ x1 ≤ π) ∧ (A.length1 = none → A.length2 ≠ none)) ∨
    (∃ l2 x2, A.ra1 δ = none ∧ A.ra2 δ = some x2 ∧ A.relangleM = none ∧ (A.length2 = some l2 ∨ A.length2 = none) ∧
      (∀ l1, A.length1 = some l1 → l1 ^ 2 = d ^ 2 + l2 ^ 2 - 2 * d * l2 * cos x2) ∧ m = middleB b δ l2 x2) := by
  intro d δ
  have hd : hypot (b.1 - a.1) (b.2 - a.2) = d := rfl
  have hδ : atan2 (b.2 - a.2) (b.1 - a.1) = δ := rfl
  unfold twolines at h
  simp only [hd, hδ] at h
  clear_value d δ
  rcases e1 : A.ra1 δ with _ | x1 <;> rcases e2 : A.ra2 δ with _ | x2 <;> rcases hM : A.relangleM with _ | xM <;>
    rcases e3 : A.length1 with _ | l1 <;> rcases e4 : A.length2 with _ | l2 <;>
    simp only [e1, e2, hM, e3, e4, Option.map_none, Option.map_some, reduceCtorEq] at h
  · -- two lengths
    rcases hc : cosineAngle d l1 l2 with e | x1
    · rw [hc] at h; cases h
    · rw [hc] at h
      obtain ⟨k1, k2, k3⟩ := cosineAngle_spec hc
      have hm : middleA a δ l1 x1 = m := by cases h; rfl
      right; left
      exact ⟨l1, x1, Or.inr rfl, rfl, Or.inl rfl, (fun l hl => by cases hl; linarith), hm.symm, (fun _ hx => by cases hx),
        (fun _ => ⟨k2, k3⟩), (by simp)⟩
  · -- angle in the middle, second length
    rcases hl : missinglength d l2 (radians xM) with e | l1
    · rw [hl] at h; cases h
    · rw [hl] at h
      replace h : (do let a1 ← cosineAngle d l1 l2; pure (middleA a δ l1 a1) : Except Err (ℝ × ℝ)) = .ok m := h
      rcases hc : cosineAngle d l1 l2 with e | x1
      · rw [hc] at h; cases h
      · rw [hc] at h
        obtain ⟨k1, k2, k3⟩ := cosineAngle_spec hc
        have k4 := missinglength_spec hl
        have hm : middleA a δ l1 x1 = m := by cases h; rfl
        right; left
        exact ⟨l1, x1, Or.inr rfl, rfl, Or.inr rfl, (fun l hl => by cases hl; linarith), hm.symm,
          (fun _ hx => by cases hx; exact ⟨l2, Or.inl rfl, by linarith, by linarith⟩), (fun _ => ⟨k2, k3⟩), (by simp)⟩
  · -- angle in the middle, first length
    rcases hl : missinglength d l1 (radians xM) with e | l2
    · rw [hl] at h; cases h
    · rw [hl] at h
      replace h : (do let a1 ← cosineAngle d l1 l2; pure (middleA a δ l1 a1) : Except Err (ℝ × ℝ)) = .ok m := h
      rcases hc : cosineAngle d l1 l2 with e | x1
      · rw [hc] at h; cases h
      · rw [hc] at h
        obtain ⟨k1, k2, k3⟩ := cosineAngle_spec hc
        have k4 := missinglength_spec hl
        have hm : middleA a δ l1 x1 = m := by cases h; rfl
        right; left
        exact ⟨l1, x1, Or.inr rfl, rfl, Or.inl rfl, (fun l hl => by cases hl), hm.symm,
          (fun _ hx => by cases hx; exact ⟨l2, Or.inr rfl, by linarith, by linarith⟩), (fun _ => ⟨k2, k3⟩), (by simp)⟩
  · -- second angle, second length
    right; right
    cases h
    exact ⟨l2, x2, rfl, rfl, rfl, Or.inl rfl, (fun _ hl => by cases hl), rfl⟩
  · -- second angle, first length
    rcases hl : missinglength l1 d x2 with e | l2
    · rw [hl] at h; cases h
    · rw [hl] at h
      have hm : middleB b δ l2 x2 = m := by cases h; rfl
      right; right
      exact ⟨l2, x2, rfl, rfl, rfl, Or.inr rfl, (fun l hl' => by cases hl'; exact missinglength_spec hl), hm.symm⟩
  · -- second and middle angle
    left
    unfold twoAngles at h
    split_ifs at h with hs
    cases h
    exact ⟨π - x2 - radians xM, x2, radians xM, by ring, rfl, rfl, hs, Or.inr rfl, Or.inl rfl, Or.inl rfl, rfl⟩
  · -- first angle, second length
    rcases hl : missinglength l2 d x1 with e | l1
    · rw [hl] at h; cases h
    · rw [hl] at h
      have hm : middleA a δ l1 x1 = m := by cases h; rfl
      right; left
      exact ⟨l1, x1, Or.inl rfl, rfl, Or.inr rfl, (fun l hl' => by cases hl'; exact missinglength_spec hl), hm.symm,
        (fun _ hx => by cases hx), (fun hx => by cases hx), (by simp)⟩
  · -- first angle, first length
    right; left
    cases h
    exact ⟨l1, x1, Or.inl rfl, rfl, Or.inl rfl, (fun _ hl => by cases hl), rfl, (fun _ hx => by cases hx), (fun hx => by cases hx), (by simp)⟩
  · -- first and middle angle
    left
    unfold twoAngles at h
    split_ifs at h with hs
    cases h
    exact ⟨x1, π - x1 - radians xM, radians xM, by ring, rfl, rfl, hs, Or.inl rfl, Or.inr rfl, Or.inl rfl, rfl⟩
  · -- first and second angle
    left
    unfold twoAngles at h
    split_ifs at h with hs
    cases h
    exact ⟨x1, x2, π - x1 - x2, by ring, rfl, rfl, hs, Or.inl rfl, Or.inl rfl, Or.inr rfl, rfl⟩

/-- **C51.**  Whatever the two arguments are: the arms of the connector of two lines have the requested lengths. -/
theorem twolines_lengths (a b : ℝ × ℝ) (A : TwoArgs) (m : ℝ × ℝ) (h : twolines a b A = .ok m) :
    (∀ l, A.length1 = some l → dist a m = |l|) ∧ (∀ l, A.length2 = some l → dist b m = |l|) := by
  rcases twolines_ok h with ⟨x1, x2, xM, _, e1, e2, _⟩ | ⟨l1, x1, _, _, h1, h2, rfl, _⟩ | ⟨l2, x2, _, _, _, h1, h2, rfl⟩
  · rw [e1, e2]
    exact ⟨(fun _ hl => by cases hl), fun _ hl => by cases hl⟩
  · constructor
    · intro l hl
      rcases h1 with h1 | h1
      · rw [hl] at h1
        cases h1
        exact dist_middleA _ _ _ _
      · rw [hl] at h1
        cases h1
    · intro l hl
      apply dist_of_sq
      rw [cosine_A, h2 l hl]
  · constructor
    · intro l hl
      apply dist_of_sq
      rw [cosine_B, h2 l hl]
    · intro l hl
      rcases h1 with h1 | h1
      · rw [hl] at h1
        cases h1
        exact dist_middleB _ _ _ _
      · rw [hl] at h1
        cases h1

/-- The middle lies to the right of the straight line for angles between 0 and 180 degrees. -/
theorem right_side (a b : ℝ × ℝ) (l x : ℝ) (m : ℝ × ℝ) (h0 : 0 ≤ l) (h1 : 0 ≤ x) (h2 : x ≤ π)
    (hm : m = middleA a (atan2 (b.2 - a.2) (b.1 - a.1)) l x) : left a b m ≤ 0 := by
  obtain ⟨q1, q2⟩ := polar (b.1 - a.1) (b.2 - a.2)
  rw [hypot_dist] at q1 q2
  generalize atan2 (b.2 - a.2) (b.1 - a.1) = δ at *
  have hs := sin_nonneg_of_nonneg_of_le_pi h1 h2
  unfold left
  apply div_nonpos_of_nonpos_of_nonneg _ (dist_nonneg a b)
  rw [hm, ← q1, ← q2]
  unfold middleA
  simp only
  have e : dist a b * cos δ * (a.2 + l * sin (δ - x) - a.2) - dist a b * sin δ * (a.1 + l * cos (δ - x) - a.1) =
      -(dist a b * l * sin x) := by
    rw [sin_sub, cos_sub]
    linear_combination -(dist a b * l * sin x) * sin_sq_add_cos_sq δ
  rw [e]
  have := mul_nonneg (mul_nonneg (dist_nonneg a b) h0) hs
  linarith

/-- The direction in which the first arm leaves the first center: an absolute angle, or an angle measured clockwise from the straight
line to the second center. -/
def Dir1 (a b : ℝ × ℝ) (A : TwoArgs) (v : ℝ × ℝ) : Prop :=
  (∃ x, A.absangle1 = some x ∧ v = (cos (radians x), sin (radians x))) ∨
  (A.absangle1 = none ∧ ∃ x, A.relangle1 = some x ∧ v = turned a b (-radians x))

/-- The direction in which the second arm leaves the second center: an absolute angle, or an angle measured counterclockwise from the
straight line to the first center. -/
def Dir2 (a b : ℝ × ℝ) (A : TwoArgs) (v : ℝ × ℝ) : Prop :=
  (∃ x, A.absangle2 = some x ∧ v = (cos (radians x), sin (radians x))) ∨
  (A.absangle2 = none ∧ ∃ x, A.relangle2 = some x ∧ v = (-(turned a b (radians x)).1, -(turned a b (radians x)).2))

theorem Dir1.ra {a b : ℝ × ℝ} (hab : a ≠ b) {A : TwoArgs} {v : ℝ × ℝ} (h : Dir1 a b A v) :
    ∃ x1, A.ra1 (atan2 (b.2 - a.2) (b.1 - a.1)) = some x1 ∧
      v = (cos (atan2 (b.2 - a.2) (b.1 - a.1) - x1), sin (atan2 (b.2 - a.2) (b.1 - a.1) - x1)) := by
  rcases h with ⟨x, h1, h2⟩ | ⟨h0, x, h1, h2⟩
  · refine ⟨_, by unfold TwoArgs.ra1; rw [h1], ?_⟩
    rw [h2, show ∀ y z : ℝ, y - (y - z) = z by intros; ring]
  · refine ⟨radians x, by unfold TwoArgs.ra1; rw [h0, h1]; rfl, ?_⟩
    rw [h2, dangle_spec hab]
    rfl

theorem Dir2.ra {a b : ℝ × ℝ} (hab : a ≠ b) {A : TwoArgs} {v : ℝ × ℝ} (h : Dir2 a b A v) :
    ∃ x2, A.ra2 (atan2 (b.2 - a.2) (b.1 - a.1)) = some x2 ∧
      v = (-cos (atan2 (b.2 - a.2) (b.1 - a.1) + x2), -sin (atan2 (b.2 - a.2) (b.1 - a.1) + x2)) := by
  rcases h with ⟨x, h1, h2⟩ | ⟨h0, x, h1, h2⟩
  · refine ⟨_, by unfold TwoArgs.ra2; rw [h1], ?_⟩
    rw [h2, show ∀ y z : ℝ, y + (π - y + z) = z + π by intros; ring, cos_add_pi, sin_add_pi, neg_neg, neg_neg]
  · refine ⟨radians x, by unfold TwoArgs.ra2; rw [h0, h1]; rfl, ?_⟩
    rw [h2, dangle_spec hab]

/-- **C51.**  Whatever the two arguments are: the first arm lies on the line through the first center in the direction requested for it,
and points in this direction unless its length had to be computed from the second length. -/
theorem twolines_direction1 (a b : ℝ × ℝ) (hab : a ≠ b) (A : TwoArgs) (m v : ℝ × ℝ) (h : twolines a b A = .ok m) (hv : Dir1 a b A v) :
    ∃ s : ℝ, m = (a.1 + s * v.1, a.2 + s * v.2) ∧ (A.length1 = none → A.length2 = none → 0 ≤ s) ∧
      (∀ l, A.length1 = some l → s = l) := by
  obtain ⟨y, hy1, hy2⟩ := hv.ra hab
  rcases twolines_ok h with ⟨x1, x2, xM, _, e1, e2, _, h1, _, _, rfl⟩ | ⟨l1, x1, h1, _, hl, h2, rfl, _, _, hex⟩ | ⟨l2, x2, h1, _⟩
  · rcases h1 with h1 | h1
    · rw [hy1] at h1
      cases h1
      refine ⟨dist a b * |sin x2 / sin xM|, by rw [hy2]; rfl, fun _ _ => mul_nonneg (dist_nonneg a b) (abs_nonneg _), ?_⟩
      intro l hl
      rw [e1] at hl
      cases hl
    · rw [hy1] at h1; cases h1
  · rcases h1 with h1 | h1
    · rw [hy1] at h1
      cases h1
      refine ⟨l1, by rw [hy2]; rfl, ?_, ?_⟩
      · intro k1 k2
        exact absurd k2 (hex k1)
      · intro l hl'
        rcases hl with hl | hl
        · rw [hl] at hl'
          cases hl'
          rfl
        · rw [hl] at hl'; cases hl'
    · rw [hy1] at h1; cases h1
  · rw [hy1] at h1; cases h1

/-- Two lines given by the angles `x1` and `x2` of a triangle with the third angle `xM`: the sine theorem. -/
theorem sine_theorem (a b : ℝ × ℝ) (x1 x2 xM : ℝ) (hsum : x1 + x2 + xM = π) (hM : sin xM ≠ 0) :
    let δ := atan2 (b.2 - a.2) (b.1 - a.1)
    middleA a δ (dist a b * (sin x2 / sin xM)) x1 = middleB b δ (dist a b * (sin x1 / sin xM)) x2 := by
  intro δ
  obtain ⟨q1, q2⟩ := polar (b.1 - a.1) (b.2 - a.2)
  rw [hypot_dist] at q1 q2
  have hδ : atan2 (b.2 - a.2) (b.1 - a.1) = δ := rfl
  rw [hδ] at q1 q2
  clear_value δ
  have h1 : b.1 = a.1 + dist a b * cos δ := by linarith
  have h2 : b.2 = a.2 + dist a b * sin δ := by linarith
  generalize dist a b = d at *
  have hs : sin xM = sin x1 * cos x2 + cos x1 * sin x2 := by
    rw [← sin_add, show x1 + x2 = π - xM by linarith, sin_pi_sub]
  have k2 : d * (sin x2 / sin xM) * sin xM = d * sin x2 := by field_simp
  have k1 : d * (sin x1 / sin xM) * sin xM = d * sin x1 := by field_simp
  generalize d * (sin x2 / sin xM) = L1 at *
  generalize d * (sin x1 / sin xM) = L2 at *
  have hcos : L1 * cos x1 + L2 * cos x2 = d := by
    apply mul_right_cancel₀ hM
    rw [hs] at k1 k2 ⊢
    linear_combination cos x1 * k2 + cos x2 * k1
  have hsin : L1 * sin x1 = L2 * sin x2 := by
    apply mul_right_cancel₀ hM
    linear_combination sin x1 * k2 - sin x2 * k1
  unfold middleB middleA
  simp only
  rw [h1, h2, show -π + δ - -x2 = δ + x2 - π by ring, cos_sub_pi, sin_sub_pi, cos_add, sin_add, cos_sub, sin_sub]
  apply Prod.ext
  · show _ = _
    linear_combination cos δ * hcos + sin δ * hsin
  · show _ = _
    linear_combination sin δ * hcos - cos δ * hsin

/-- **C51.**  The second arm lies on the line through the second center in the direction requested for it, if a length is given, or if
the lines given by the two angles meet in front of the first center. -/
theorem twolines_direction2_partial (a b : ℝ × ℝ) (hab : a ≠ b) (A : TwoArgs) (m v : ℝ × ℝ) (h : twolines a b A = .ok m)
    (hv : Dir2 a b A v)
    (hmeet : A.length1 = none → A.length2 = none →
      (∀ u, Dir1 a b A u → ∃ s t : ℝ, 0 ≤ s ∧ (a.1 + s * u.1, a.2 + s * u.2) = (b.1 + t * v.1, b.2 + t * v.2)) ∧
      (∀ x y, A.relangleM = some x → A.absangle2 = none → A.relangle2 = some y → 0 ≤ sin (radians x) * sin (radians y)) ∧
      (A.relangleM ≠ none → A.absangle2 = none)) :
    ∃ s : ℝ, m = (b.1 + s * v.1, b.2 + s * v.2) ∧ (∀ l, A.length2 = some l → s = l) := by
  obtain ⟨y, hy1, hy2⟩ := hv.ra hab
  have hB : ∀ l, middleB b (atan2 (b.2 - a.2) (b.1 - a.1)) l y = (b.1 + l * v.1, b.2 + l * v.2) := by
    intro l
    unfold middleB middleA
    simp only
    rw [hy2, show ∀ z : ℝ, -π + z - -y = z + y - π by intro z; ring, cos_sub_pi, sin_sub_pi]
  rcases twolines_ok h with ⟨x1, x2, xM, hsum, e1, e2, hM, h1, h2, h3, hm⟩ | ⟨l1, x1, h1, h2, _⟩ | ⟨l2, x2, _, h1, _, hl, h2, hm⟩
  · rcases h2 with h2 | h2
    · rw [hy1] at h2
      cases h2
      obtain ⟨g1, g2, g3⟩ := hmeet e1 e2
      have hpos : 0 ≤ sin y / sin xM := by
        rcases hMM : A.relangleM with _ | xm
        · -- both directions are given
          have hx1 : A.ra1 (atan2 (b.2 - a.2) (b.1 - a.1)) = some x1 := by
            rcases h1 with h1 | h1
            · exact h1
            · exfalso
              unfold twolines at h
              simp only [hy1, h1, hMM, e1, e2, Option.map_none, reduceCtorEq] at h
          have hu : ∃ u, Dir1 a b A u ∧ u = (cos (atan2 (b.2 - a.2) (b.1 - a.1) - x1), sin (atan2 (b.2 - a.2) (b.1 - a.1) - x1)) := by
            unfold TwoArgs.ra1 at hx1
            rcases ha : A.absangle1 with _ | z
            · rw [ha] at hx1
              rcases hr : A.relangle1 with _ | z
              · rw [hr] at hx1; cases hx1
              · rw [hr] at hx1
                cases hx1
                refine ⟨_, Or.inr ⟨ha, z, hr, rfl⟩, ?_⟩
                rw [dangle_spec hab]
                rfl
            · rw [ha] at hx1
              cases hx1
              refine ⟨_, Or.inl ⟨z, ha, rfl⟩, ?_⟩
              rw [show ∀ y z : ℝ, y - (y - z) = z by intros; ring]
          obtain ⟨u, hu1, hu2⟩ := hu
          obtain ⟨s, t, hs, hst⟩ := g1 u hu1
          have hsine := sine_theorem a b x1 y xM hsum hM
          simp only at hsine
          rw [hB] at hsine
          unfold middleA at hsine
          have hd := dist_pos hab
          rw [Prod.ext_iff] at hst hsine
          obtain ⟨s1, s2⟩ := hst
          obtain ⟨s3, s4⟩ := hsine
          simp only at s1 s2 s3 s4
          rw [hu2] at s1 s2
          simp only at s1 s2
          have hcross : cos (atan2 (b.2 - a.2) (b.1 - a.1) - x1) * v.2 - sin (atan2 (b.2 - a.2) (b.1 - a.1) - x1) * v.1 = -sin xM := by
            rw [hy2]
            simp only
            have hh := sin_sub (atan2 (b.2 - a.2) (b.1 - a.1) + y) (atan2 (b.2 - a.2) (b.1 - a.1) - x1)
            rw [show ∀ z : ℝ, z + y - (z - x1) = π - xM by intro z; linarith, sin_pi_sub] at hh
            linarith
          generalize cos (atan2 (b.2 - a.2) (b.1 - a.1) - x1) = C at *
          generalize sin (atan2 (b.2 - a.2) (b.1 - a.1) - x1) = S at *
          have key : (s - dist a b * (sin y / sin xM)) * (C * v.2 - S * v.1) = 0 := by
            linear_combination (s1 - s3) * v.2 - (s2 - s4) * v.1
          rw [hcross] at key
          have : s - dist a b * (sin y / sin xM) = 0 := by
            rcases mul_eq_zero.mp key with k | k
            · exact k
            · exact absurd (neg_eq_zero.mp k) hM
          have h5 : 0 ≤ dist a b * (sin y / sin xM) := by linarith
          exact (mul_nonneg_iff_of_pos_left hd).mp h5
        · have hx : xM = radians xm := by
            rcases h3 with h3 | h3
            · rw [hMM] at h3
              cases h3
              rfl
            · rw [hMM] at h3; cases h3
          have ha2 : A.absangle2 = none := g3 (by rw [hMM]; simp)
          rcases hv with ⟨z, hz, _⟩ | ⟨_, z, hz, _⟩
          · rw [ha2] at hz; cases hz
          · have hyz : y = radians z := by
              unfold TwoArgs.ra2 at hy1
              rw [ha2, hz] at hy1
              cases hy1
              rfl
            have := g2 xm z hMM ha2 hz
            rw [← hx, ← hyz] at this
            rw [div_eq_mul_inv]
            have h6 : sin y * (sin xM)⁻¹ = (sin xM * sin y) * ((sin xM)⁻¹) ^ 2 := by
              field_simp
            rw [h6]
            exact mul_nonneg this (sq_nonneg _)
      rw [abs_of_nonneg hpos] at hm
      have := sine_theorem a b x1 y xM hsum hM
      simp only at this
      rw [this, hB] at hm
      refine ⟨_, hm, ?_⟩
      intro l hl
      rw [e2] at hl
      cases hl
    · rw [hy1] at h2; cases h2
  · rw [hy1] at h2; cases h2
  · rw [hy1] at h1
    cases h1
    rw [hB] at hm
    refine ⟨l2, hm, ?_⟩
    intro l hl'
    rcases hl with hl | hl
    · rw [hl'] at hl
      cases hl
      rfl
    · rw [hl'] at hl; cases hl

/-- **C51.**  An angle requested between the arms: the cosine theorem holds for the arms with this angle, where their lengths are taken
with a sign (the sign is positive for given positive lengths). -/
theorem twolines_middle_partial (a b : ℝ × ℝ) (A : TwoArgs) (m : ℝ × ℝ) (x : ℝ) (h : twolines a b A = .ok m)
    (hx : A.relangleM = some x) (hlen : A.length1 ≠ none ∨ A.length2 ≠ none) :
    ∃ l1 l2 : ℝ, |l1| = dist a m ∧ |l2| = dist b m ∧ dist a b ^ 2 = l1 ^ 2 + l2 ^ 2 - 2 * l1 * l2 * cos (radians x) ∧
      (∀ l, A.length1 = some l → l1 = l) ∧ (∀ l, A.length2 = some l → l2 = l) ∧ (0 ≤ l1 → left a b m ≤ 0) := by
  rcases twolines_ok h with ⟨_, _, _, _, e1, e2, _⟩ | ⟨l1, x1, h1, h2, hl, h3, hm, h4, h5, h6⟩ | ⟨_, _, _, _, e, _⟩
  · rw [e1, e2] at hlen
    simp at hlen
  · obtain ⟨l2, k1, k2, k3⟩ := h4 (radians x) (by rw [hx]; rfl)
    have hr1 : A.ra1 (atan2 (b.2 - a.2) (b.1 - a.1)) = none := by
      rcases hr : A.ra1 (atan2 (b.2 - a.2) (b.1 - a.1)) with _ | z
      · rfl
      · exfalso
        unfold twolines at h
        rcases e1 : A.length1 with _ | q1 <;> rcases e2 : A.length2 with _ | q2
        · simp [e1, e2] at hlen
        · simp only [hr, h2, hx, e1, e2, Option.map_some, reduceCtorEq] at h
        · simp only [hr, h2, hx, e1, e2, Option.map_some, reduceCtorEq] at h
        · simp only [hr, h2, hx, e1, e2, Option.map_some, reduceCtorEq] at h
    refine ⟨l1, l2, ?_, ?_, k3, ?_, ?_, ?_⟩
    · rw [hm, dist_middleA]
    · symm
      apply dist_of_sq
      rw [hm, cosine_A, k2]
    · intro l hl'
      rcases hl with hl | hl
      · rw [hl] at hl'; cases hl'; rfl
      · rw [hl] at hl'; cases hl'
    · intro l hl'
      rcases k1 with k1 | k1
      · rw [k1] at hl'; cases hl'; rfl
      · rw [k1] at hl'; cases hl'
    · intro h0
      obtain ⟨g1, g2⟩ := h5 hr1
      exact right_side a b l1 x1 m h0 g1 g2 hm
  · rw [hx] at e; cases e

/-- **C51.**  Two lengths: the connector exists exactly if they satisfy the triangle inequalities, and bends to the right. -/
theorem twolines_two_lengths (a b : ℝ × ℝ) (hab : a ≠ b) (l1 l2 : ℝ) (h1 : 0 < l1) (h2 : 0 ≤ l2) :
    ((∃ m, twolines a b { length1 := some l1, length2 := some l2 } = .ok m) ↔ |dist a b - l1| ≤ l2 ∧ l2 ≤ dist a b + l1) ∧
    (∀ m, twolines a b { length1 := some l1, length2 := some l2 } = .ok m → dist a m = l1 ∧ dist b m = l2 ∧ left a b m ≤ 0) := by
  have hd := dist_pos hab
  constructor
  · have e : twolines a b { length1 := some l1, length2 := some l2 } =
        (do let a1 ← cosineAngle (dist a b) l1 l2; return middleA a (atan2 (b.2 - a.2) (b.1 - a.1)) l1 a1) := rfl
    rw [e]
    have hp : 0 < 2 * dist a b * l1 := by positivity
    have hiff : ((∃ x, cosineAngle (dist a b) l1 l2 = .ok x) ↔ |dist a b - l1| ≤ l2 ∧ l2 ≤ dist a b + l1) := by
      unfold cosineAngle
      simp only
      rw [if_neg hp.ne']
      have k1 : |dist a b - l1| ≤ l2 ↔ (dist a b - l1) ^ 2 ≤ l2 ^ 2 := by
        constructor
        · intro h
          exact sq_le_sq' (by linarith [(abs_le.mp h).1]) (abs_le.mp h).2
        · intro h
          exact abs_le_of_sq_le_sq h h2
      have k2 : l2 ≤ dist a b + l1 ↔ l2 ^ 2 ≤ (dist a b + l1) ^ 2 := by
        constructor
        · intro h
          exact pow_le_pow_left₀ h2 h 2
        · intro h
          exact (abs_le_of_sq_le_sq' h (by linarith)).2
      rw [k1, k2]
      have k3 : (dist a b ^ 2 + l1 ^ 2 - l2 ^ 2) / (2 * dist a b * l1) < -1 ↔ (dist a b + l1) ^ 2 < l2 ^ 2 := by
        rw [div_lt_iff₀ hp]
        constructor <;> intro h <;> linarith
      have k4 : 1 < (dist a b ^ 2 + l1 ^ 2 - l2 ^ 2) / (2 * dist a b * l1) ↔ l2 ^ 2 < (dist a b - l1) ^ 2 := by
        rw [lt_div_iff₀ hp]
        constructor <;> intro h <;> linarith
      split_ifs with hc <;> rw [k3, k4] at hc
      · constructor
        · rintro ⟨_, h⟩
          cases h
        · rintro ⟨h, h'⟩
          rcases hc with hc | hc <;> linarith
      · push Not at hc
        exact ⟨fun _ => ⟨hc.2, hc.1⟩, fun _ => ⟨_, rfl⟩⟩
    rw [← hiff]
    constructor
    · rintro ⟨m, h⟩
      rcases hc : cosineAngle (dist a b) l1 l2 with e | x
      · rw [hc] at h; cases h
      · exact ⟨x, rfl⟩
    · rintro ⟨x, h⟩
      exact ⟨_, by rw [h]; rfl⟩
  · intro m h
    obtain ⟨k1, k2⟩ := twolines_lengths a b _ m h
    refine ⟨by rw [k1 l1 rfl, abs_of_pos h1], by rw [k2 l2 rfl, abs_of_nonneg h2], ?_⟩
    rcases twolines_ok h with ⟨_, _, _, _, e1, _⟩ | ⟨l, x1, g1, g2, hl, _, hm, _, g5, _⟩ | ⟨_, _, _, e, _⟩
    · cases e1
    · rcases hl with hl | hl
      · cases hl
        obtain ⟨q1, q2⟩ := g5 rfl
        exact right_side a b l1 x1 m h1.le q1 q2 hm
      · cases hl
    · cases e

/-- **C51.**  Two angles of a triangle: both arms have the requested directions and point to the middle, and the angle between them is
the third angle. -/
theorem twolines_angles_partial (a b : ℝ × ℝ) (hab : a ≠ b) (x1 x2 xM : ℝ) (hsum : x1 + x2 + xM = 180)
    (h1 : 0 < x1) (h2 : 0 < x2) (hM : 0 < xM) (A : TwoArgs)
    (hA : A = { relangle1 := some x1, relangle2 := some x2 } ∨ A = { relangle1 := some x1, relangleM := some xM } ∨
      A = { relangle2 := some x2, relangleM := some xM }) :
    ∃ m l1 l2, twolines a b A = .ok m ∧ 0 < l1 ∧ 0 < l2 ∧
      m = (a.1 + l1 * (turned a b (-radians x1)).1, a.2 + l1 * (turned a b (-radians x1)).2) ∧
      m = (b.1 - l2 * (turned a b (radians x2)).1, b.2 - l2 * (turned a b (radians x2)).2) := by
  have hpi := pi_pos
  have hd := dist_pos hab
  have hr : radians x1 + radians x2 + radians xM = π := by
    unfold radians
    rw [← add_div, ← add_div, ← add_mul, ← add_mul, hsum]
    field_simp
  have hs : ∀ x, 0 < x → x < 180 → 0 < sin (radians x) := by
    intro x h h'
    apply sin_pos_of_pos_of_lt_pi
    · unfold radians; positivity
    · unfold radians
      have := mul_lt_mul_of_pos_right h' hpi
      linarith
  have s1 := hs x1 h1 (by linarith)
  have s2 := hs x2 h2 (by linarith)
  have sM := hs xM hM (by linarith)
  have e : twolines a b A = twoAngles a (dist a b) (atan2 (b.2 - a.2) (b.1 - a.1)) (radians x1) (radians x2) (radians xM) := by
    rcases hA with rfl | rfl | rfl
    · show twoAngles _ _ _ _ _ (π - radians x1 - radians x2) = _
      rw [show π - radians x1 - radians x2 = radians xM by linarith]
      rfl
    · show twoAngles _ _ _ _ (π - radians x1 - radians xM) _ = _
      rw [show π - radians x1 - radians xM = radians x2 by linarith]
      rfl
    · show twoAngles _ _ _ (π - radians x2 - radians xM) _ _ = _
      rw [show π - radians x2 - radians xM = radians x1 by linarith]
      rfl
  refine ⟨_, dist a b * (sin (radians x2) / sin (radians xM)), dist a b * (sin (radians x1) / sin (radians xM)), ?_, by positivity,
    by positivity, rfl, ?_⟩
  · rw [e]
    unfold twoAngles
    rw [if_neg sM.ne', abs_of_pos (by positivity), dangle_spec hab]
    rfl
  · have hsine := sine_theorem a b _ _ _ hr sM.ne'
    simp only at hsine
    unfold middleB middleA at hsine
    rw [dangle_spec hab, dangle_spec hab]
    simp only at hsine ⊢
    rw [show ∀ z : ℝ, -π + z - -radians x2 = z + radians x2 - π by intro z; ring, cos_sub_pi, sin_sub_pi] at hsine
    rw [← sub_eq_add_neg, hsine]
    apply Prod.ext
    · show _ + _ * -_ = _ - _
      ring
    · show _ + _ * -_ = _ - _
      ring

/-- **C51.**  Any number of lengths and angles other than two is rejected. -/
theorem twolines_count (a b : ℝ × ℝ) (A : TwoArgs)
    (h : (if A.absangle1 = none ∧ A.relangle1 = none then 0 else 1) + (if A.absangle2 = none ∧ A.relangle2 = none then 0 else 1) +
      (if A.relangleM = none then 0 else 1) + (if A.length1 = none then 0 else 1) + (if A.length2 = none then 0 else 1) ≠ 2) :
    twolines a b A = .error .notImplemented := by
  have e1 : ∀ δ, A.ra1 δ = none ↔ A.absangle1 = none ∧ A.relangle1 = none := by
    intro δ
    unfold TwoArgs.ra1
    rcases A.absangle1 with _ | x <;> simp
  have e2 : ∀ δ, A.ra2 δ = none ↔ A.absangle2 = none ∧ A.relangle2 = none := by
    intro δ
    unfold TwoArgs.ra2
    rcases A.absangle2 with _ | x <;> simp
  unfold twolines
  simp only
  simp only [← e1 (atan2 (b.2 - a.2) (b.1 - a.1)), ← e2 (atan2 (b.2 - a.2) (b.1 - a.1))] at h
  clear e1 e2
  revert h
  rcases A.ra1 (atan2 (b.2 - a.2) (b.1 - a.1)) with _ | x1 <;> rcases A.ra2 (atan2 (b.2 - a.2) (b.1 - a.1)) with _ | x2 <;>
    rcases A.relangleM with _ | xM <;> rcases A.length1 with _ | l1 <;> rcases A.length2 with _ | l2 <;>
    intro h <;>
    first
    | rfl
    | (exfalso; revert h; simp)

/-- Two angles whose lines meet behind the first center (`connector.py:267` takes the absolute value of the length): the second arm has not
the requested direction. -/
theorem twolines_angles_wrong :
    ∃ m, twolines (0, 0) (1, 0) { absangle1 := some (-90), absangle2 := some 135 } = .ok m ∧
      ¬ ∃ s : ℝ, m = (1 + s * cos (radians 135), 0 + s * sin (radians 135)) := by
  have hat : atan2 ((0 : ℝ) - 0) (1 - 0) = 0 := by
    unfold atan2
    have : (⟨1 - 0, 0 - 0⟩ : ℂ) = 1 := by
      apply Complex.ext <;> simp
    rw [this, Complex.arg_one]
  have hd : hypot ((1 : ℝ) - 0) (0 - 0) = 1 := by
    unfold hypot
    norm_num
  have hr1 : radians (-90) = -(π / 2) := by unfold radians; ring
  have hr2 : radians 135 = π - π / 4 := by unfold radians; ring
  have e : twolines (0, 0) (1, 0) { absangle1 := some (-90), absangle2 := some 135 } = twoAngles (0, 0) (hypot ((1 : ℝ) - 0) (0 - 0))
      (atan2 ((0 : ℝ) - 0) (1 - 0)) (atan2 ((0 : ℝ) - 0) (1 - 0) - radians (-90)) (π - atan2 ((0 : ℝ) - 0) (1 - 0) + radians 135)
      (π - (atan2 ((0 : ℝ) - 0) (1 - 0) - radians (-90)) - (π - atan2 ((0 : ℝ) - 0) (1 - 0) + radians 135)) := rfl
  rw [e, hat, hd, hr1, hr2]
  have q : sin (π / 4) = cos (π / 4) := by rw [sin_pi_div_four, cos_pi_div_four]
  have qp : 0 < cos (π / 4) := by rw [cos_pi_div_four]; positivity
  have hM : sin (π - (0 - -(π / 2)) - (π - 0 + (π - π / 4))) = cos (π / 4) := by
    rw [show π - (0 - -(π / 2)) - (π - 0 + (π - π / 4)) = π / 4 - π / 2 - π by ring, sin_sub_pi, sin_sub_pi_div_two, neg_neg]
  have h2 : sin (π - 0 + (π - π / 4)) = -cos (π / 4) := by
    rw [show π - 0 + (π - π / 4) = 2 * π - π / 4 by ring, sin_two_pi_sub, q]
  unfold twoAngles
  rw [if_neg (by rw [hM]; exact qp.ne'), hM, h2, neg_div, div_self qp.ne', abs_neg, abs_one]
  refine ⟨_, rfl, ?_⟩
  rintro ⟨s, hs⟩
  unfold middleA at hs
  rw [Prod.ext_iff] at hs
  obtain ⟨s1, s2⟩ := hs
  simp only at s1 s2
  rw [show (0 : ℝ) - (0 - -(π / 2)) = -(π / 2) by ring] at s1 s2
  rw [cos_neg, cos_pi_div_two, cos_pi_sub] at s1
  rw [sin_neg, sin_pi_div_two, sin_pi_sub, q] at s2
  have : s * cos (π / 4) = 1 := by linarith
  have : s * cos (π / 4) = -1 := by linarith
  linarith

/-- A first angle and a second length that cannot be met: instead of raising an exception, the first arm points in the opposite of the
requested direction (`connector.py:317-322` returns a negative length). -/
theorem twolines_opposite_wrong :
    ∃ m, twolines (0, 0) (2, 0) { relangle1 := some 180, length2 := some 1 } = .ok m ∧ m = (1, 0) ∧
      turned (0, 0) (2, 0) (-radians 180) = (-1, 0) := by
  have hat : atan2 ((0 : ℝ) - 0) (2 - 0) = 0 := by
    unfold atan2
    have : (⟨2 - 0, 0 - 0⟩ : ℂ) = ((2 : ℝ) : ℂ) := by
      apply Complex.ext <;> simp
    rw [this, Complex.arg_ofReal_of_nonneg (by norm_num)]
  have hh : hypot ((2 : ℝ) - 0) (0 - 0) = 2 := by
    unfold hypot
    rw [show ((2 : ℝ) - 0) ^ 2 + (0 - 0) ^ 2 = 2 ^ 2 by norm_num, sqrt_sq (by norm_num)]
  have hr : radians 180 = π := by unfold radians; ring
  have e : twolines (0, 0) (2, 0) { relangle1 := some 180, length2 := some 1 } =
      (do let l1 ← missinglength 1 (hypot ((2 : ℝ) - 0) (0 - 0)) (radians 180)
          return middleA (0, 0) (atan2 ((0 : ℝ) - 0) (2 - 0)) l1 (radians 180)) := rfl
  have hl : missinglength 1 2 π = .ok (-1) := by
    unfold missinglength
    simp only [cos_pi]
    rw [if_neg (by norm_num), show ((2 : ℝ) * -1) ^ 2 - 2 ^ 2 + 1 ^ 2 = 1 by norm_num, sqrt_one, if_neg (by norm_num)]
    norm_num
  refine ⟨(1, 0), ?_, rfl, ?_⟩
  · rw [e, hat, hh, hr, hl]
    show Except.ok _ = _
    unfold middleA
    simp only [zero_sub, cos_neg, cos_pi, sin_neg, sin_pi]
    norm_num
  · unfold turned
    have hd : dist (0, 0) (2, 0) = 2 := hh
    rw [hd, hr, cos_neg, cos_pi, sin_neg, sin_pi]
    norm_num

/-- The hypotheses can be met: the triangle with the sides 3, 4 and 5. -/
example : ∃ m, twolines (0, 0) (5, 0) { length1 := some 3, length2 := some 4 } = .ok m ∧ dist (0, 0) m = 3 ∧ dist (5, 0) m = 4 := by
  have hd : dist (0, 0) (5, 0) = 5 := by
    unfold dist
    rw [show ((5 : ℝ) - 0) ^ 2 + (0 - 0) ^ 2 = 5 ^ 2 by norm_num, sqrt_sq (by norm_num)]
  have h := twolines_two_lengths (0, 0) (5, 0) (by simp) 3 4 (by norm_num) (by norm_num)
  obtain ⟨m, hm⟩ := h.1.mpr (by rw [hd]; norm_num [abs_le])
  exact ⟨m, hm, (h.2 m hm).1, (h.2 m hm).2.1⟩

/-- The hypotheses of `twolines_angles_partial` can be met: two sides of an equilateral triangle. -/
example : ∃ m l1 l2, twolines (0, 0) (1, 0) { relangle1 := some 60, relangleM := some 60 } = .ok m ∧ 0 < l1 ∧ 0 < l2 ∧
    m = (0 + l1 * (turned (0, 0) (1, 0) (-radians 60)).1, 0 + l1 * (turned (0, 0) (1, 0) (-radians 60)).2) ∧
    m = (1 - l2 * (turned (0, 0) (1, 0) (radians 60)).1, 0 - l2 * (turned (0, 0) (1, 0) (radians 60)).2) :=
  twolines_angles_partial (0, 0) (1, 0) (by simp) 60 60 60 (by norm_num) (by norm_num) (by norm_num) (by norm_num) _ (Or.inr (Or.inl rfl))

end

end PyX.Connector
