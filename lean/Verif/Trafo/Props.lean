import Verif.Trafo.Model

/-!
# Properties of transformations (C05, C06, C07)
-/

namespace PyX.Trafo
open Real

/-! ## C05 – product is composition -/

section
variable {K : Type*} [CommRing K]

/-- C05: applying a product is applying the right factor first, then the left factor. -/
theorem mul_apply (s t : Trafo K) (p : K × K) : (mul s t).apply p = s.apply (t.apply p) := by
  simp only [mul, apply, Prod.mk.injEq]; constructor <;> ring

/-- C05: the product is associative. -/
theorem mul_assoc (s t u : Trafo K) : mul (mul s t) u = mul s (mul t u) := by
  ext <;> simp only [mul] <;> ring

/-- C05: the identity is a two-sided unit, and leaves every point alone. -/
theorem one_unit (t : Trafo K) (p : K × K) :
    mul one t = t ∧ mul t one = t ∧ (one : Trafo K).apply p = p := by
  refine ⟨?_, ?_, ?_⟩
  · ext <;> simp [mul, one]
  · ext <;> simp [mul, one]
  · simp [one, apply]

/-- What the user means by one step of a chain, independent of matrices. -/
def stepSpec (s : Step K) (p : K × K) : K × K :=
  match s with
  | .scaled sx sy => (sx * p.1, sy * p.2)
  | .translated x y => (p.1 + x, p.2 + y)
  | .by t => t.apply p

/-- C05: a chain `t.scaled(..).translated(..)...` of any length acts on each point as `t` followed by
the steps in the written order. -/
theorem chain_apply (t : Trafo K) (steps : List (Step K)) (p : K × K) :
    (steps.foldl step t).apply p = steps.foldl (fun q s => stepSpec s q) (t.apply p) := by
  induction steps generalizing t with
  | nil => rfl
  | cons s l ih =>
    simp only [List.foldl_cons, ih, step, mul_apply]
    congr 1
    cases s <;> simp [Step.trafo, stepSpec, apply, translate]

/-- C05: a transformation is determined by its action on points (so the product is the only
transformation acting as the composition). -/
theorem ext_of_apply (s t : Trafo K) (h : ∀ p, s.apply p = t.apply p) : s = t := by
  have h0 := h (0, 0)
  have h1 := h (1, 0)
  have h2 := h (0, 1)
  simp only [apply, Prod.mk.injEq, mul_zero, mul_one, zero_add, add_zero] at h0 h1 h2
  obtain ⟨he, hf⟩ := h0
  obtain ⟨ha, hc⟩ := h1
  obtain ⟨hb, hd⟩ := h2
  rw [he] at ha hb; rw [hf] at hc hd
  ext
  · exact add_right_cancel ha
  · exact add_right_cancel hb
  · exact add_right_cancel hc
  · exact add_right_cancel hd
  · exact he
  · exact hf

/-- C05/C07: the six numbers written to PS/PDF, read by the PostScript matrix convention, are the
transformation itself. -/
theorem ps_matrix_correct (t : Trafo K) (x y : K) :
    ∃ A B C D E F, t.psNumbers = [A, B, C, D, E, F] ∧
      (A * x + C * y + E, B * x + D * y + F) = t.apply (x, y) :=
  ⟨_, _, _, _, _, _, rfl, rfl⟩
end

-- non-trivial instance: a chain whose steps do not commute
example : (([Step.scaled 2 3, .translated 1 0, .by ⟨0, -1, 1, 0, 0, 0⟩] : List (Step ℤ)).foldl step one).apply
    (1, 1) = (-3, 3) := by decide
example : (([Step.translated 1 0, .scaled 2 3, .by ⟨0, -1, 1, 0, 0, 0⟩] : List (Step ℤ)).foldl step one).apply
    (1, 1) = (-3, 4) := by decide

/-! ## C06 – inverse -/

section
variable {K : Type*} [Field K] [DecidableEq K]

/-- C06: the inverse exists exactly for non-singular transformations (otherwise an exception). -/
theorem inverse_isSome (t : Trafo K) : t.inverse.isSome ↔ t.a * t.d - t.b * t.c ≠ 0 := by
  unfold inverse det
  by_cases h : t.a * t.d - t.b * t.c = 0 <;> simp [h]

/-- C06: the inverse undoes the transformation on both sides. -/
theorem inverse_apply (t i : Trafo K) (h : t.inverse = some i) (p : K × K) :
    i.apply (t.apply p) = p ∧ t.apply (i.apply p) = p := by
  unfold inverse det at h
  by_cases hd : t.a * t.d - t.b * t.c = 0
  · simp [hd] at h
  · simp only [hd, if_false, Option.some.injEq] at h
    subst h
    have key : ∀ x y D : K, D ≠ 0 → x * D = y * D → x = y := fun x y D h0 h => mul_right_cancel₀ h0 h
    simp only [apply, mul, translate]
    generalize hD : t.a * t.d - t.b * t.c = D at hd
    have hi : D⁻¹ * D = 1 := inv_mul_cancel₀ hd
    simp only [div_eq_mul_inv]
    constructor <;> ext <;> simp only
    · linear_combination p.1 * D⁻¹ * hD + p.1 * hi
    · linear_combination p.2 * D⁻¹ * hD + p.2 * hi
    · linear_combination (p.1 - t.e) * D⁻¹ * hD + (p.1 - t.e) * hi
    · linear_combination (p.2 - t.f) * D⁻¹ * hD + (p.2 - t.f) * hi

/-- C06: inverting a product reverses the order. -/
theorem inverse_mul (s t i j : Trafo K) (hs : s.inverse = some i) (ht : t.inverse = some j) :
    (mul s t).inverse = some (mul j i) := by
  have hd1 : s.a * s.d - s.b * s.c ≠ 0 := (inverse_isSome s).1 (by simp [hs])
  have hd2 : t.a * t.d - t.b * t.c ≠ 0 := (inverse_isSome t).1 (by simp [ht])
  have hd : (mul s t).a * (mul s t).d - (mul s t).b * (mul s t).c ≠ 0 := by
    have : (mul s t).a * (mul s t).d - (mul s t).b * (mul s t).c
        = (s.a * s.d - s.b * s.c) * (t.a * t.d - t.b * t.c) := by simp only [mul]; ring
    rw [this]; exact mul_ne_zero hd1 hd2
  obtain ⟨k, hk⟩ := Option.isSome_iff_exists.1 ((inverse_isSome _).2 hd)
  rw [hk]
  congr 1
  apply ext_of_apply
  intro p
  have e1 : p = (mul s t).apply ((mul j i).apply p) := by
    rw [mul_apply, mul_apply, (inverse_apply t j ht _).2, (inverse_apply s i hs _).2]
  conv_lhs => rw [e1]
  rw [(inverse_apply _ k hk _).1]

/-- C06: the inverse of the inverse is the transformation. -/
theorem inverse_inverse (t i : Trafo K) (h : t.inverse = some i) : i.inverse = some t := by
  have hd : t.a * t.d - t.b * t.c ≠ 0 := (inverse_isSome t).1 (by simp [h])
  have h1 : mul i t = one := ext_of_apply _ _ fun p => by
    rw [mul_apply, (inverse_apply t i h p).1, (one_unit t p).2.2]
  have hi : i.a * i.d - i.b * i.c ≠ 0 := by
    intro h0
    have e : (mul i t).a * (mul i t).d - (mul i t).b * (mul i t).c
        = (i.a * i.d - i.b * i.c) * (t.a * t.d - t.b * t.c) := by simp only [mul]; ring
    rw [h0, h1] at e
    simp [one] at e
  obtain ⟨k, hk⟩ := Option.isSome_iff_exists.1 ((inverse_isSome _).2 hi)
  rw [hk]
  congr 1
  apply ext_of_apply
  intro p
  have e := (inverse_apply i k hk (t.apply p)).1
  rw [(inverse_apply t i h p).1] at e
  exact e
end

example : (⟨2, 1, 1, 1, 5, 7⟩ : Trafo ℚ).inverse = some ⟨1, -1, -1, 2, 2, -9⟩ := by decide +kernel
example : (⟨2, 1, 4, 2, 5, 7⟩ : Trafo ℚ).inverse = none := by decide +kernel

/-! ## C07 – geometry of the constructors -/

/-- Squared Euclidean distance (specification). -/
def distSq (p q : ℝ × ℝ) : ℝ := (p.1 - q.1) ^ 2 + (p.2 - q.2) ^ 2

/-- C07: a rotation about a point keeps that point. -/
theorem rotate_fixes_center (angle x y : ℝ) (t : Trafo ℝ) (h : rotate angle (some x) (some y) = some t) :
    t.apply (x, y) = (x, y) := by
  simp only [rotate, Option.some.injEq] at h
  subst h
  simp only [apply, Prod.mk.injEq]; constructor <;> ring

/-- C07: rotations (about any centre) keep distances. -/
theorem rotate_distSq (angle : ℝ) (x y : Option ℝ) (t : Trafo ℝ) (h : rotate angle x y = some t)
    (p q : ℝ × ℝ) : distSq (t.apply p) (t.apply q) = distSq p q := by
  have hc := sin_sq_add_cos_sq (phi angle)
  have key : t.a = cos (phi angle) ∧ t.b = -sin (phi angle) ∧ t.c = sin (phi angle) ∧
      t.d = cos (phi angle) := by
    unfold rotate at h
    split at h <;> simp only [Option.some.injEq, reduceCtorEq] at h <;> subst h <;> simp
  obtain ⟨ha, hb, hc', hd⟩ := key
  simp only [distSq, apply, ha, hb, hc', hd]
  linear_combination ((p.1 - q.1) ^ 2 + (p.2 - q.2) ^ 2) * hc

/-- C07: rotating counterclockwise by `angle` degrees: `(1,0)` goes to `(cos, sin)`, and rotations
compose by adding angles (about the origin). -/
theorem rotate_add (α β : ℝ) (s t u : Trafo ℝ) (hs : rotate α none none = some s)
    (ht : rotate β none none = some t) (hu : rotate (α + β) none none = some u) : mul s t = u := by
  simp only [rotate, Option.some.injEq] at hs ht hu
  subst hs ht hu
  have hp : phi (α + β) = phi α + phi β := by unfold phi; ring
  ext <;> simp [mul, hp, cos_add, sin_add] <;> ring

theorem rotate_unit (angle : ℝ) (t : Trafo ℝ) (ht : rotate angle none none = some t) :
    t.apply (1, 0) = (cos (π * angle / 180), sin (π * angle / 180)) := by
  simp only [rotate, Option.some.injEq] at ht
  subst ht; simp [apply, phi]

/-- C07: rotating about `(x, y)` is translating the centre to the origin, rotating, translating back. -/
theorem rotate_about (angle x y : ℝ) (s t : Trafo ℝ) (hs : rotate angle none none = some s)
    (ht : rotate angle (some x) (some y) = some t) :
    t = mul (translate x y) (mul s (translate (-x) (-y))) := by
  simp only [rotate, Option.some.injEq] at hs ht
  subst hs ht
  ext <;> simp [mul, translate] <;> ring

/-- C07: a rotation is accepted iff the centre is given completely or not at all. -/
theorem rotate_isSome (angle : ℝ) (x y : Option ℝ) :
    (rotate angle x y).isSome ↔ (x.isSome ↔ y.isSome) := by
  cases x <;> cases y <;> simp [rotate]

/-- C07: mirroring twice is the identity. -/
theorem mirror_involutive (angle : ℝ) : mul (mirror angle) (mirror angle) = one := by
  have hc := sin_sq_add_cos_sq (phi angle)
  ext <;> simp only [mul, mirror, one]
  · linear_combination (sin (phi angle) ^ 2 + cos (phi angle) ^ 2 + 1) * hc
  · ring
  · ring
  · linear_combination (sin (phi angle) ^ 2 + cos (phi angle) ^ 2 + 1) * hc
  · ring
  · ring

/-- C07: mirrors keep distances. -/
theorem mirror_distSq (angle : ℝ) (p q : ℝ × ℝ) :
    distSq ((mirror angle).apply p) ((mirror angle).apply q) = distSq p q := by
  have hc := sin_sq_add_cos_sq (phi angle)
  simp only [distSq, apply, mirror]
  linear_combination ((p.1 - q.1) ^ 2 + (p.2 - q.2) ^ 2) * (sin (phi angle) ^ 2 + cos (phi angle) ^ 2 + 1) * hc

/-- The map the manual promises for `mirror(angle)` (`manual/trafo.rst:86-88`): mirroring at the line
through the origin with direction `angle`; points of this line are kept. -/
def KeepsLine (t : Trafo ℝ) (angle : ℝ) : Prop :=
  ∀ r : ℝ, t.apply (r * cos (phi angle), r * sin (phi angle)) = (r * cos (phi angle), r * sin (phi angle))

/-- C07, what holds: `mirror(angle)` keeps the line with direction `-angle` point-wise. -/
theorem mirror_keeps_negative_line_partial (angle : ℝ) : KeepsLine (mirror angle) (-angle) := by
  intro r
  have hp : phi (-angle) = -phi angle := by unfold phi; ring
  have hc := sin_sq_add_cos_sq (phi angle)
  simp only [apply, mirror, hp, cos_neg, sin_neg, Prod.mk.injEq]
  constructor
  · linear_combination r * cos (phi angle) * hc
  · linear_combination -(r * sin (phi angle)) * hc

/-- C07, the code violates the manual: `mirror(45)` does not keep the 45 degree line. -/
theorem mirror_not_keeps_line : ¬ ∀ angle, KeepsLine (mirror angle) angle := by
  intro h
  have h1 := h 45 1
  have hp : phi 45 = π / 4 := by unfold phi; ring
  simp only [apply, mirror, hp, cos_pi_div_four, sin_pi_div_four, Prod.mk.injEq] at h1
  have h2 : (√2 : ℝ) ^ 2 = 2 := Real.sq_sqrt (by norm_num)
  have h3 : (√2 : ℝ) > 0 := by positivity
  nlinarith [h1.1]

/-- C07: scaling about a point fixes it and scales the offsets. -/
theorem scale_about {K : Type*} [CommRing K] (sx x y : K) (sy : Option K) (t : Trafo K)
    (h : scale sx sy (some x) (some y) = some t) (u v : K) :
    t.apply (x + u, y + v) = (x + sx * u, y + sy.getD sx * v) := by
  simp only [scale, Option.some.injEq] at h
  subst h
  simp only [apply, Prod.mk.injEq]; constructor <;> ring

/-- C07: scaling without a centre scales the coordinates; giving only one coordinate of the centre is an error. -/
theorem scale_origin {K : Type*} [CommRing K] (sx : K) (sy x y : Option K) :
    ((scale sx sy x y).isSome ↔ (x.isSome ↔ y.isSome)) ∧
    ∀ t, scale sx sy none none = some t → ∀ u v, t.apply (u, v) = (sx * u, sy.getD sx * v) := by
  refine ⟨by cases x <;> cases y <;> simp [scale], fun t h u v => ?_⟩
  simp only [scale, Option.some.injEq] at h
  subst h
  simp only [apply, Prod.mk.injEq]; constructor <;> ring

/-- The vertical flip relating PostScript and SVG coordinates. -/
def flip (p : ℝ × ℝ) : ℝ × ℝ := (p.1, -p.2)

/-- C07: the matrix written to SVG is the transformation seen through the vertical flip. -/
theorem svg_conjugate (t : Trafo ℝ) (p : ℝ × ℝ) : t.svgAttr.apply (flip p) = flip (t.apply p) := by
  simp only [svgAttr, apply, flip, Prod.mk.injEq]; constructor <;> ring

/-- C07: nested SVG groups act like the product of the transformations. -/
theorem svg_mul (s t : Trafo ℝ) : (mul s t).svgAttr = mul s.svgAttr t.svgAttr := by
  ext <;> simp only [mul, svgAttr] <;> ring

/-- C07, slant: area preserving whatever the centre. -/
theorem slantPt_det (s angle : ℝ) (x y : Option ℝ) (t : Trafo ℝ)
    (h : slantPt s angle x y = some t) : t.det = 1 := by
  have hp : phi (-angle) = -phi angle := by unfold phi; ring
  have hc := sin_sq_add_cos_sq (phi angle)
  unfold slantPt rotate at h
  split at h <;> simp [hp] at h <;> subst h <;> simp only [mul, det] <;>
  linear_combination (cos (phi angle) ^ 2 + sin (phi angle) ^ 2 + 1) * hc

/-- What the manual promises for a slant around `(x, y)` (`manual/trafo.rst:107-110`, stated for points as
unit): the centre is kept. -/
def SlantKeepsCenter : Prop :=
  ∀ s angle x y t, slantPt s angle (some x) (some y) = some t → t.apply (x, y) = (x, y)

/-- C07, partial: without centre the origin is kept, and the line with direction `-angle` is kept
point-wise. -/
theorem slantPt_origin_partial (s angle : ℝ) (t : Trafo ℝ) (h : slantPt s angle none none = some t) :
    t.apply (0, 0) = (0, 0) ∧ KeepsLine t (-angle) := by
  have hp : phi (-angle) = -phi angle := by unfold phi; ring
  have hc := sin_sq_add_cos_sq (phi angle)
  simp [slantPt, rotate, hp] at h
  subst h
  constructor
  · simp [mul, apply]
  · intro r
    simp only [mul, apply, hp, cos_neg, sin_neg, Prod.mk.injEq]
    constructor
    · linear_combination r * cos (phi angle) * hc
    · linear_combination -(r * sin (phi angle)) * hc

/-- C07, finding: `slant_pt` around a point does not keep this point (the shear is about the origin). -/
theorem slantPt_moves_center : ¬ SlantKeepsCenter := by
  intro h
  have h1 := h 1 0 0 1 _ (by simp [slantPt, rotate, phi]; rfl)
  simp [mul, apply] at h1

/-- C07, finding: the slant direction is `-angle`, not `angle`: `slant(1, 45)` does not keep the 45 degree
line. -/
theorem slantPt_wrong_direction :
    ¬ ∀ s angle t, slantPt s angle none none = some t → KeepsLine t angle := by
  intro h
  have h1 := h 1 45 _ rfl 1
  have hp : phi 45 = π / 4 := by unfold phi; ring
  have hn : phi (-45) = -(π / 4) := by unfold phi; ring
  simp only [apply, mul, hp, hn, cos_neg, sin_neg, cos_pi_div_four, sin_pi_div_four, Prod.mk.injEq] at h1
  have h2 : (√2 : ℝ) ^ 2 = 2 := Real.sq_sqrt (by norm_num)
  have h3 : (√2 : ℝ) > 0 := by positivity
  nlinarith [h1.1]

/-- C07, finding: the non-`_pt` variant `slant` converts its vector to points twice; it agrees with
`slant_pt` (at the converted centre) for all arguments only if the conversion is the identity on
every offset that occurs. Witness with 28 points per user unit. -/
theorem slant_double_conversion :
    ∃ s angle x y t t', slant (fun u => 28 * u) s angle (some x) (some y) = some t ∧
      slantPt s angle (some (28 * x)) (some (28 * y)) = some t' ∧ t ≠ t' := by
  have h90 : phi 90 = π / 2 := by unfold phi; ring
  have hn90 : phi (-90) = -(π / 2) := by unfold phi; ring
  refine ⟨1, 90, 1, 0, _, _, rfl, rfl, ?_⟩
  intro h
  have he := congrArg Trafo.f h
  simp [mul, h90, hn90] at he

-- concrete: quarter turn about (1, 2)
example : ∃ t, rotate 90 (some 1) (some 2) = some t ∧ t.apply (2, 2) = (1, 3) := by
  refine ⟨_, rfl, ?_⟩
  have hp : phi 90 = π / 2 := by unfold phi; ring
  simp [apply, hp]; norm_num

end PyX.Trafo
