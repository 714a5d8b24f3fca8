import Verif.Deform.Corner
import Mathlib.Analysis.SpecialFunctions.Sqrt
import Mathlib.Analysis.Calculus.Deriv.Inv

/-!
# C123: corners between lines

The two curves which replace the corner between two lines.
-/

set_option linter.unusedSectionVars false

namespace PyX.Deform

noncomputable section

open PyX.NormPath

/-! ## Specification -/

/-- The length of the vector is one. -/
def Unit2 (u : Pt) : Prop := u.1 ^ 2 + u.2 ^ 2 = 1

/-- `B + x u`. -/
def off (B u : Pt) (x : ℝ) : Pt := (B.1 + x * u.1, B.2 + x * u.2)

/-- The closed triangle with the corners `B`, `p` and `q`. -/
def InTriangle (B p q x : Pt) : Prop :=
  ∃ a b : ℝ, 0 ≤ a ∧ 0 ≤ b ∧ a + b ≤ 1 ∧ x = (B.1 + a * (p.1 - B.1) + b * (q.1 - B.1), B.2 + a * (p.2 - B.2) + b * (q.2 - B.2))

/-- The curvature as a function of the parameter. -/
def kappa (c : Curve ℝ) (t : ℝ) : ℝ := ((Item.curve c).curvature t).getD 0

/-! ## The numbers `f` and `g` -/

theorem softG_eq (f : ℝ) (h0 : 0 ≤ f) (h1 : f ≤ 8 / 5) : 6 * softG f ^ 2 - 15 * f * softG f + 10 * f ^ 2 - f = 0 := by
  have hs : Real.sqrt (-15 * f * f + 24 * f) ^ 2 = -15 * f * f + 24 * f := Real.sq_sqrt (by nlinarith)
  rw [softG]
  linear_combination (1 / 24) * hs

theorem softG_pos (f : ℝ) (h0 : 0 < f) : f < softG f := by
  rw [softG]
  by_cases h : f ≤ 3 / 5
  · have hs : 0 < Real.sqrt (-15 * f * f + 24 * f) := Real.sqrt_pos.2 (by nlinarith)
    linarith
  · have hs : 0 ≤ Real.sqrt (-15 * f * f + 24 * f) := Real.sqrt_nonneg _
    linarith

theorem softG_nonneg (f : ℝ) (h0 : 0 ≤ f) : 0 ≤ softG f := by
  rw [softG]
  have hs : 0 ≤ Real.sqrt (-15 * f * f + 24 * f) := Real.sqrt_nonneg _
  linarith

theorem softG_lt (f : ℝ) (h0 : 0 ≤ f) (h1 : f < 3 / 5) : softG f < 1 := by
  rw [softG, div_lt_one (by norm_num)]
  have : Real.sqrt (-15 * f * f + 24 * f) < 12 - 15 * f := by
    rw [Real.sqrt_lt' (by linarith)]
    nlinarith
  linarith

theorem softF_range (s : ℝ) (h0 : 0 < s) (h1 : s ≤ 1) : 0 < softF s ∧ softF s < 3 / 5 := by
  rw [softF]
  constructor <;> linarith

/-! ## The points -/

theorem hypot_unit (u : Pt) (h : Unit2 u) : hypot u.1 u.2 = 1 := by
  rw [hypot, h, Real.sqrt_one]

theorem endlines_unit (B t1 t2 : Pt) (r1 r2 s : ℝ) (h1 : Unit2 t1) (h2 : Unit2 t2) :
    endlines B t1 t2 r1 r2 s =
      ⟨off B t1 (-r1), off B t1 (-(softG (softF s) * r1)), off B t1 (-(softF s * r1)),
        (B.1 + 1 / 2 * softF s * (r2 * t2.1 - r1 * t1.1), B.2 + 1 / 2 * softF s * (r2 * t2.2 - r1 * t1.2)),
        off B t2 (softF s * r2), off B t2 (softG (softF s) * r2), off B t2 r2⟩ := by
  rw [endlines, hypot_unit t1 h1, hypot_unit t2 h2]
  simp only [off, Seven.mk.injEq, Prod.mk.injEq]
  refine ⟨⟨?_, ?_⟩, ⟨?_, ?_⟩, ⟨?_, ?_⟩, ⟨?_, ?_⟩, ⟨?_, ?_⟩, ⟨?_, ?_⟩, ⟨?_, ?_⟩⟩ <;> ring

/-- **C123.**  The first curve begins on the line into the corner at the distance `r1` from the corner, the second one ends on the line out of the
corner at the distance `r2`; the second one begins where the first one ends. -/
theorem corner_ends (B t1 t2 : Pt) (r1 r2 s : ℝ) (h1 : Unit2 t1) (h2 : Unit2 t2) :
    (endlines B t1 t2 r1 r2 s).curves.1.begin_ = off B t1 (-r1) ∧ (endlines B t1 t2 r1 r2 s).curves.2.end_ = off B t2 r2 ∧
      (endlines B t1 t2 r1 r2 s).curves.1.end_ = (endlines B t1 t2 r1 r2 s).curves.2.begin_ := by
  rw [endlines_unit B t1 t2 r1 r2 s h1 h2]
  exact ⟨rfl, rfl, rfl⟩

/-- **C123.**  The tangents: at the outer ends along the lines (with a positive factor), in the middle the same one for both curves; it does not vanish unless
the lines lie on top of each other. -/
theorem corner_tangents (B t1 t2 : Pt) (r1 r2 s : ℝ) (h1 : Unit2 t1) (h2 : Unit2 t2) (hs0 : 0 < s) (hs1 : s ≤ 1) (hr1 : 0 < r1) (hr2 : 0 < r2) :
    (∃ k > 0, (endlines B t1 t2 r1 r2 s).curves.1.tangent 0 = (k * t1.1, k * t1.2)) ∧
    (∃ k > 0, (endlines B t1 t2 r1 r2 s).curves.2.tangent 1 = (k * t2.1, k * t2.2)) ∧
    (endlines B t1 t2 r1 r2 s).curves.1.tangent 1 = (endlines B t1 t2 r1 r2 s).curves.2.tangent 0 ∧
    ((endlines B t1 t2 r1 r2 s).curves.1.tangent 1 = (0, 0) → t2 = (-t1.1, -t1.2)) := by
  obtain ⟨hf0, hf1⟩ := softF_range s hs0 hs1
  have hg := softG_lt (softF s) hf0.le hf1
  rw [endlines_unit B t1 t2 r1 r2 s h1 h2]
  refine ⟨⟨3 * (1 - softG (softF s)) * r1, by have : 0 < 1 - softG (softF s) := by linarith
                                              positivity, ?_⟩,
    ⟨3 * (1 - softG (softF s)) * r2, by have : 0 < 1 - softG (softF s) := by linarith
                                        positivity, ?_⟩, ?_, ?_⟩
  · ext <;> simp only [Seven.curves, bez, Curve.tangent, off] <;> ring
  · ext <;> simp only [Seven.curves, bez, Curve.tangent, off] <;> ring
  · ext <;> simp only [Seven.curves, bez, Curve.tangent, off] <;> ring
  · intro h
    simp only [Seven.curves, bez, Curve.tangent, off, Prod.mk.injEq] at h
    obtain ⟨ha, hb⟩ := h
    have ha' : softF s * (r1 * t1.1 + r2 * t2.1) = 0 := by linarith
    have hb' : softF s * (r1 * t1.2 + r2 * t2.2) = 0 := by linarith
    have ea : r2 * t2.1 = -(r1 * t1.1) := by rcases mul_eq_zero.1 ha' with h | h <;> linarith
    have eb : r2 * t2.2 = -(r1 * t1.2) := by rcases mul_eq_zero.1 hb' with h | h <;> linarith
    have er : r1 ^ 2 = r2 ^ 2 := by
      have e1 : r2 ^ 2 * (t2.1 ^ 2 + t2.2 ^ 2) = r1 ^ 2 * (t1.1 ^ 2 + t1.2 ^ 2) := by
        linear_combination (r2 * t2.1 - r1 * t1.1) * ea + (r2 * t2.2 - r1 * t1.2) * eb
      rw [h1, h2] at e1
      linarith
    have er' : r1 = r2 := by
      rcases sq_eq_sq_iff_eq_or_eq_neg.1 er with h | h <;> linarith
    subst er'
    ext
    · have : r1 * (t2.1 + t1.1) = 0 := by linarith
      rcases mul_eq_zero.1 this with h | h <;> simp only <;> linarith
    · have : r1 * (t2.2 + t1.2) = 0 := by linarith
      rcases mul_eq_zero.1 this with h | h <;> simp only <;> linarith

/-- **C123.**  Every point of the two curves lies in the triangle of the corner and the two points where the lines are cut. -/
theorem corner_inside (B t1 t2 : Pt) (r1 r2 s : ℝ) (h1 : Unit2 t1) (h2 : Unit2 t2) (hs0 : 0 < s) (hs1 : s ≤ 1) (t : ℝ) (ht0 : 0 ≤ t) (ht1 : t ≤ 1) :
    InTriangle B (off B t1 (-r1)) (off B t2 r2) ((endlines B t1 t2 r1 r2 s).curves.1.at_ t) ∧
    InTriangle B (off B t1 (-r1)) (off B t2 r2) ((endlines B t1 t2 r1 r2 s).curves.2.at_ t) := by
  obtain ⟨hf0, hf1⟩ := softF_range s hs0 hs1
  have hg1 := softG_lt (softF s) hf0.le hf1
  have hg0 := softG_pos (softF s) hf0
  rw [endlines_unit B t1 t2 r1 r2 s h1 h2]
  generalize softF s = f at *
  generalize softG f = g at *
  have hu : 0 ≤ 1 - t := by linarith
  have hg00 : 0 ≤ g := by linarith
  have b0 : 0 ≤ (1 - t) ^ 3 := by positivity
  have b1 : 0 ≤ 3 * (1 - t) ^ 2 * t := by positivity
  have b2 : 0 ≤ 3 * (1 - t) * t ^ 2 := by positivity
  have b3 : 0 ≤ t ^ 3 := by positivity
  have hsum : (1 - t) ^ 3 + 3 * (1 - t) ^ 2 * t + 3 * (1 - t) * t ^ 2 + t ^ 3 = 1 := by ring
  constructor
  · refine ⟨(1 - t) ^ 3 + 3 * (1 - t) ^ 2 * t * g + 3 * (1 - t) * t ^ 2 * f + t ^ 3 * (f / 2), t ^ 3 * (f / 2), by positivity, by positivity, ?_, ?_⟩
    · nlinarith
    · ext <;> simp only [Seven.curves, bez, Curve.at_, off] <;> ring
  · refine ⟨(1 - t) ^ 3 * (f / 2), (1 - t) ^ 3 * (f / 2) + 3 * (1 - t) ^ 2 * t * f + 3 * (1 - t) * t ^ 2 * g + t ^ 3, by positivity, by positivity, ?_, ?_⟩
    · nlinarith
    · ext <;> simp only [Seven.curves, bez, Curve.at_, off] <;> ring

/-! ## The curvature -/

theorem kappa_eq (c : Curve ℝ) (t : ℝ) : kappa c t = wedge (c.dot t) (c.ddot t) / hypot (c.dot t).1 (c.dot t).2 ^ 3 := by
  rw [kappa, Item.curvature]
  split_ifs with h
  · rw [h]; simp
  · rfl

/-- **C123.**  The curvature vanishes at the outer ends and is the same one on both sides of the middle. -/
theorem corner_curvature (B t1 t2 : Pt) (r1 r2 s : ℝ) (h1 : Unit2 t1) (h2 : Unit2 t2) :
    kappa (endlines B t1 t2 r1 r2 s).curves.1 0 = 0 ∧ kappa (endlines B t1 t2 r1 r2 s).curves.2 1 = 0 ∧
    kappa (endlines B t1 t2 r1 r2 s).curves.1 1 = kappa (endlines B t1 t2 r1 r2 s).curves.2 0 := by
  rw [endlines_unit B t1 t2 r1 r2 s h1 h2]
  simp only [kappa_eq]
  refine ⟨?_, ?_, ?_⟩
  · rw [div_eq_zero_iff]
    left
    simp only [Seven.curves, bez, Curve.dot, Curve.ddot, off, wedge]
    ring
  · rw [div_eq_zero_iff]
    left
    simp only [Seven.curves, bez, Curve.dot, Curve.ddot, off, wedge]
    ring
  · congr 1
    · simp only [Seven.curves, bez, Curve.dot, Curve.ddot, off, wedge]
      ring
    · congr 2 <;> simp only [Seven.curves, bez, Curve.dot, off] <;> ring

/-- The derivative of the curvature. -/
theorem kappa_deriv (c : Curve ℝ) (t : ℝ) (d3 : Pt) (h3 : d3 = (6 * (c.x3 - 3 * c.x2 + 3 * c.x1 - c.x0), 6 * (c.y3 - 3 * c.y2 + 3 * c.y1 - c.y0)))
    (h : c.dot t ≠ (0, 0)) :
    HasDerivAt (kappa c) ((wedge (c.dot t) d3 * ((c.dot t).1 ^ 2 + (c.dot t).2 ^ 2) -
      3 * wedge (c.dot t) (c.ddot t) * ((c.dot t).1 * (c.ddot t).1 + (c.dot t).2 * (c.ddot t).2)) / hypot (c.dot t).1 (c.dot t).2 ^ 5) t := by
  have hx : HasDerivAt (fun t => (c.dot t).1) (c.ddot t).1 t := by
    have e : c.dot = c.tangent := funext fun u => (xy_eq c u).2.2.1
    rw [e]
    exact (ddot_deriv c t).1
  have hy : HasDerivAt (fun t => (c.dot t).2) (c.ddot t).2 t := by
    have e : c.dot = c.tangent := funext fun u => (xy_eq c u).2.2.1
    rw [e]
    exact (ddot_deriv c t).2
  have hxx : HasDerivAt (fun t => (c.ddot t).1) d3.1 t := by
    have := (((hasDerivAt_id t).const_sub 1).const_mul (6 * (c.x0 - 2 * c.x1 + c.x2))).add ((hasDerivAt_id t).const_mul (6 * (c.x1 - 2 * c.x2 + c.x3)))
    refine this.congr_deriv ?_ |>.congr_of_eventuallyEq ?_
    · rw [h3]; simp only; ring
    · exact Filter.Eventually.of_forall fun u => by simp only [Curve.ddot, id, Pi.add_apply]; ring
  have hyy : HasDerivAt (fun t => (c.ddot t).2) d3.2 t := by
    have := (((hasDerivAt_id t).const_sub 1).const_mul (6 * (c.y0 - 2 * c.y1 + c.y2))).add ((hasDerivAt_id t).const_mul (6 * (c.y1 - 2 * c.y2 + c.y3)))
    refine this.congr_deriv ?_ |>.congr_of_eventuallyEq ?_
    · rw [h3]; simp only; ring
    · exact Filter.Eventually.of_forall fun u => by simp only [Curve.ddot, id, Pi.add_apply]; ring
  have hS : 0 < (c.dot t).1 ^ 2 + (c.dot t).2 ^ 2 := by
    rcases eq_or_ne (c.dot t).1 0 with e | e
    · have : (c.dot t).2 ≠ 0 := fun e2 => h (Prod.ext e e2)
      positivity
    · positivity
  have hN := (hx.mul hyy).sub (hy.mul hxx)
  have hR := ((((hx.pow 2).add (hy.pow 2)).sqrt hS.ne').pow 3)
  have hne : hypot (c.dot t).1 (c.dot t).2 ≠ 0 := (Real.sqrt_pos.2 hS).ne'
  have hsq : hypot (c.dot t).1 (c.dot t).2 ^ 2 = (c.dot t).1 ^ 2 + (c.dot t).2 ^ 2 := Real.sq_sqrt hS.le
  have hq := hN.div hR (pow_ne_zero 3 hne)
  refine (hq.congr_deriv ?_).congr_of_eventuallyEq (Filter.Eventually.of_forall fun u => ?_)
  · simp only [Pi.add_apply, Pi.pow_apply, Pi.sub_apply, Pi.mul_apply]
    have e : Real.sqrt ((c.dot t).1 ^ 2 + (c.dot t).2 ^ 2) = hypot (c.dot t).1 (c.dot t).2 := rfl
    rw [e]
    set r := hypot (c.dot t).1 (c.dot t).2
    simp only [wedge]
    rw [← hsq]
    field_simp
    ring
  · rw [kappa_eq]
    rfl

/-- **C123.**  If the corner is cut at the same distance on both sides, the derivative of the curvature vanishes in the middle. -/
theorem corner_stationary (B t1 t2 : Pt) (r s : ℝ) (h1 : Unit2 t1) (h2 : Unit2 t2) (hs0 : 0 < s) (hs1 : s ≤ 1) (hr : 0 < r) (hne : t2 ≠ (-t1.1, -t1.2)) :
    HasDerivAt (kappa (endlines B t1 t2 r r s).curves.1) 0 1 ∧ HasDerivAt (kappa (endlines B t1 t2 r r s).curves.2) 0 0 := by
  have ht := corner_tangents B t1 t2 r r s h1 h2 hs0 hs1 hr hr
  have hd1 : (endlines B t1 t2 r r s).curves.1.dot 1 ≠ (0, 0) := by
    rw [(xy_eq _ 1).2.2.1]
    exact fun e => hne (ht.2.2.2 e)
  have hd2 : (endlines B t1 t2 r r s).curves.2.dot 0 ≠ (0, 0) := by
    rw [(xy_eq _ 0).2.2.1, ← ht.2.2.1]
    exact fun e => hne (ht.2.2.2 e)
  obtain ⟨hf0, hf1⟩ := softF_range s hs0 hs1
  have hg := softG_eq (softF s) hf0.le (by linarith)
  rw [Unit2] at h1 h2
  constructor
  · refine (kappa_deriv _ 1 _ rfl hd1).congr_deriv ?_
    rw [div_eq_zero_iff]
    left
    rw [endlines_unit B t1 t2 r r s h1 h2]
    generalize softF s = f at *
    generalize softG f = g at *
    simp only [Seven.curves, bez, Curve.dot, Curve.ddot, off, wedge]
    linear_combination (81 / 2 * f ^ 2 * r ^ 4 * (t1.1 * t2.2 - t1.2 * t2.1) * (1 + t1.1 * t2.1 + t1.2 * t2.2)) * hg +
      (9 * f * r ^ 2 * (t1.1 * t2.2 - t1.2 * t2.1) * ((-2 * f + 3 * g - 1) * (9 / 4) * f ^ 2 * r ^ 2 + 27 * (g - f) * f * r ^ 2 * (g - 3 / 2 * f))) * h1 +
      (9 * f * r ^ 2 * (t1.1 * t2.2 - t1.2 * t2.1) * ((-2 * f + 3 * g - 1) * (9 / 4) * f ^ 2 * r ^ 2 - 27 * (g - f) * f * r ^ 2 * (f / 2))) * h2
  · refine (kappa_deriv _ 0 _ rfl hd2).congr_deriv ?_
    rw [div_eq_zero_iff]
    left
    rw [endlines_unit B t1 t2 r r s h1 h2]
    generalize softF s = f at *
    generalize softG f = g at *
    simp only [Seven.curves, bez, Curve.dot, Curve.ddot, off, wedge]
    linear_combination (-81 / 2 * f ^ 2 * r ^ 4 * (t1.1 * t2.2 - t1.2 * t2.1) * (1 + t1.1 * t2.1 + t1.2 * t2.2)) * hg +
      (9 * f * r ^ 2 * (t1.1 * t2.2 - t1.2 * t2.1) * ((1 - 3 * g + 2 * f) * (9 / 4) * f ^ 2 * r ^ 2 + 27 * (g - f) * f * r ^ 2 * (f / 2))) * h1 +
      (9 * f * r ^ 2 * (t1.1 * t2.2 - t1.2 * t2.1) * ((1 - 3 * g + 2 * f) * (9 / 4) * f ^ 2 * r ^ 2 - 27 * (g - f) * f * r ^ 2 * (g - 3 / 2 * f))) * h2

/-- The softness for which `f` and `g` are rational. -/
def exSoft : ℝ := 24 / 79 / (3192 / 10000)

theorem exSoft_f : softF exSoft = 24 / 79 := by norm_num [softF, exSoft]

theorem exSoft_g : softG (softF exSoft) = 46 / 79 := by
  rw [exSoft_f, softG]
  have : (-15 * (24 / 79) * (24 / 79) + 24 * (24 / 79) : ℝ) = (192 / 79) ^ 2 := by norm_num
  rw [this, Real.sqrt_sq (by norm_num)]
  norm_num

/-- **C123.**  If the distances differ, the derivative of the curvature does not vanish in the middle, although the documentation of the deformer says so
(`deformer.py:515-518`). -/
theorem corner_not_stationary : ¬ HasDerivAt (kappa (endlines (0, 0) (1, 0) (0, 1) 1 2 exSoft).curves.1) 0 1 := by
  intro h0
  have h1 : Unit2 (1, 0) := by norm_num [Unit2]
  have h2 : Unit2 (0, 1) := by norm_num [Unit2]
  have hs : exSoft ≤ 1 := by norm_num [exSoft]
  have hs' : 0 < exSoft := by norm_num [exSoft]
  have ht := (corner_tangents (0, 0) (1, 0) (0, 1) 1 2 exSoft h1 h2 hs' hs one_pos two_pos).2.2.2
  have hd : (endlines (0, 0) (1, 0) (0, 1) 1 2 exSoft).curves.1.dot 1 ≠ (0, 0) := by
    rw [(xy_eq _ 1).2.2.1]
    intro e
    have := congrArg Prod.snd (ht e)
    norm_num at this
  have hu := h0.unique (kappa_deriv _ 1 _ rfl hd)
  rw [eq_comm, div_eq_zero_iff] at hu
  have hne : hypot ((endlines (0, 0) (1, 0) (0, 1) 1 2 exSoft).curves.1.dot 1).1 ((endlines (0, 0) (1, 0) (0, 1) 1 2 exSoft).curves.1.dot 1).2 ^ 5 ≠ 0 := by
    apply pow_ne_zero
    rw [hypot_eq_abs]
    intro e
    rw [norm_eq_zero, Complex.ext_iff] at e
    exact hd (Prod.ext e.1 e.2)
  have hn := hu.resolve_right hne
  rw [endlines_unit _ _ _ _ _ _ h1 h2, exSoft_g, exSoft_f] at hn
  norm_num [Seven.curves, bez, Curve.dot, Curve.ddot, off, wedge] at hn

/-- A right angle, cut at the distances 1 and 2. -/
example : (endlines (0, 0) (1, 0) (0, 1) 1 2 exSoft).curves.1 = ⟨-1, 0, -46 / 79, 0, -24 / 79, 0, -12 / 79, 24 / 79⟩ := by
  rw [endlines_unit _ _ _ _ _ _ (by norm_num [Unit2]) (by norm_num [Unit2]), exSoft_g, exSoft_f]
  norm_num [Seven.curves, bez, off]

end

end PyX.Deform
