import Verif.Connector.Model
import Mathlib.Analysis.SpecialFunctions.Trigonometric.Angle
import Mathlib.Analysis.SpecialFunctions.Trigonometric.Arctan

/-!
# The arc connector

Specification: the points of an arc path, the signed distance of a point from the line through two points.
-/

set_option linter.unusedSectionVars false

namespace PyX.Connector

open Real PyX.NormPath PyX.Path

noncomputable section

/-! ## Specification -/

/-- The distance of two points. -/
def dist (p q : ℝ × ℝ) : ℝ := sqrt ((q.1 - p.1) ^ 2 + (q.2 - p.2) ^ 2)

/-- The signed distance of `p` from the line from `a` to `b`: positive on the left. -/
def left (a b p : ℝ × ℝ) : ℝ := ((b.1 - a.1) * (p.2 - a.2) - (b.2 - a.2) * (p.1 - a.1)) / dist a b

/-- The points of the counterclockwise arc from `angle1` to `angle2` (in degrees). -/
def OnCcw (center : ℝ × ℝ) (r angle1 angle2 : ℝ) (p : ℝ × ℝ) : Prop :=
  ∃ b φ, ArcEnd angle1 angle2 b ∧ radians angle1 ≤ φ ∧ φ ≤ b ∧ p = circlePoint center.1 center.2 r φ

/-- The points of the path of a connector. -/
def Conn.On : Conn → ℝ × ℝ → Prop
  | .line a b, p => ∃ t, 0 ≤ t ∧ t ≤ 1 ∧ p = (a.1 + t * (b.1 - a.1), a.2 + t * (b.2 - a.2))
  | .arc false _ c r a1 a2, p => OnCcw c r a1 a2 p
  | .arc true _ c r a1 a2, p => OnCcw c r a2 a1 p

/-! ## Lemmas -/

theorem radians_degrees (x : ℝ) : radians (degrees x) = x := by
  unfold radians degrees
  field_simp

theorem hypot_sq (x y : ℝ) : hypot x y ^ 2 = x ^ 2 + y ^ 2 := by
  unfold hypot
  exact sq_sqrt (by positivity)

/-- Polar coordinates. -/
theorem polar (x y : ℝ) : hypot x y * cos (atan2 y x) = x ∧ hypot x y * sin (atan2 y x) = y := by
  rw [hypot_eq_abs]
  unfold atan2
  exact ⟨Complex.norm_mul_cos_arg ⟨x, y⟩, Complex.norm_mul_sin_arg ⟨x, y⟩⟩

theorem atan2_range (x y : ℝ) : -π < atan2 y x ∧ atan2 y x ≤ π := by
  unfold atan2
  exact ⟨Complex.neg_pi_lt_arg _, Complex.arg_le_pi _⟩

/-- Two angles with the same direction. -/
theorem angle_eq {α β : ℝ} (hc : cos α = cos β) (hs : sin α = sin β) : ∃ k : ℤ, α = β + 2 * π * k := by
  have : (α : Real.Angle) = β := Real.Angle.cos_sin_inj (by simpa using hc) (by simpa using hs)
  obtain ⟨k, hk⟩ := Real.Angle.angle_eq_iff_two_pi_dvd_sub.mp this
  exact ⟨k, by linarith⟩

theorem cos_add_int (x : ℝ) (k : ℤ) : cos (x + 2 * π * k) = cos x := by
  rw [show x + 2 * π * k = x + k * (2 * π) by ring]
  exact Real.cos_add_int_mul_two_pi x k

theorem sin_add_int (x : ℝ) (k : ℤ) : sin (x + 2 * π * k) = sin x := by
  rw [show x + 2 * π * k = x + k * (2 * π) by ring]
  exact Real.sin_add_int_mul_two_pi x k

/-- The arc between two directions lying symmetrically to the direction `ψ`. -/
theorem ccw_iff (c : ℝ × ℝ) (r ψ θ α β : ℝ) (hr : 0 < r) (h0 : 0 < θ) (hθ : θ < π)
    (hα : -π < α ∧ α ≤ π) (hβ : -π < β ∧ β ≤ π)
    (ha : cos α = cos (ψ - θ) ∧ sin α = sin (ψ - θ)) (hb : cos β = cos (ψ + θ) ∧ sin β = sin (ψ + θ)) (p : ℝ × ℝ) :
    OnCcw c r (degrees α) (degrees β) p ↔
      dist c p = r ∧ r * cos θ ≤ (p.1 - c.1) * cos ψ + (p.2 - c.2) * sin ψ := by
  have hpi := pi_pos
  obtain ⟨k, hk⟩ := angle_eq ha.1 ha.2
  obtain ⟨m, hm⟩ := angle_eq hb.1 hb.2
  -- the end of the arc
  have key : ∀ b, ArcEnd (degrees α) (degrees β) b → b = α + 2 * θ := by
    intro b hb'
    have hj : ∃ j : ℤ, b = α + 2 * θ + 2 * π * j ∧ α ≤ b ∧ b ≤ α + 2 * π ∧ (b = α → False) := by
      rcases hb' with ⟨h1, h2⟩ | ⟨h1, h2, h3, i, h4⟩
      · rw [radians_degrees] at h2
        have h1' : ¬ radians (degrees β) < radians (degrees α) := fun h => absurd (radians_lt.mp h) (not_lt.mpr h1)
        rw [radians_degrees, radians_degrees] at h1'
        push Not at h1'
        refine ⟨m - k, by push_cast; linarith, by linarith, by linarith, ?_⟩
        intro h
        have he : (ψ + θ) + 2 * π * m = (ψ - θ) + 2 * π * k := by linarith
        have h2 : 2 * θ = 2 * π * (k - m : ℤ) := by push_cast; linarith
        have h3 : (0 : ℝ) < (k - m : ℤ) := by
          by_contra hc
          push Not at hc
          have := mul_nonneg hpi.le (neg_nonneg.mpr hc)
          linarith
        have h4 : ((k - m : ℤ) : ℝ) < 1 := by
          by_contra hc
          push Not at hc
          have := mul_nonneg hpi.le (sub_nonneg.mpr hc)
          linarith
        have h5 : 0 < k - m := by exact_mod_cast h3
        have h6 : k - m < 1 := by exact_mod_cast h4
        omega
      · rw [radians_degrees] at h2 h3 h4
        exact ⟨m - k + i, by push_cast; linarith, h2.le, h3, fun h => by linarith⟩
    obtain ⟨j, h1, h2, h3, _⟩ := hj
    have h4 : j < 1 := by
      by_contra hc
      push Not at hc
      have : (1 : ℝ) ≤ j := by exact_mod_cast hc
      have := mul_nonneg hpi.le (sub_nonneg.mpr this)
      linarith
    have h5 : -1 < j := by
      by_contra hc
      push Not at hc
      have : (j : ℝ) ≤ -1 := by exact_mod_cast hc
      have := mul_nonneg hpi.le (sub_nonneg.mpr this)
      linarith
    have h6 : j = 0 := by omega
    subst h6
    simpa using h1
  have hend : ArcEnd (degrees α) (degrees β) (α + 2 * θ) := by
    have h := endAngle_spec (degrees α) (degrees β)
    rwa [key _ h] at h
  constructor
  · rintro ⟨b, φ, h1, h2, h3, h4⟩
    rw [radians_degrees] at h2
    rw [key b h1] at h3
    obtain ⟨s, hs⟩ : ∃ s, φ = ψ + s + 2 * π * k := ⟨φ - ψ - 2 * π * k, by ring⟩
    have hs1 : -θ ≤ s := by linarith
    have hs2 : s ≤ θ := by linarith
    subst h4
    rw [hs]
    unfold circlePoint
    rw [cos_add_int, sin_add_int]
    constructor
    · unfold dist
      rw [show (c.1 + r * cos (ψ + s) - c.1) ^ 2 + (c.2 + r * sin (ψ + s) - c.2) ^ 2 = r ^ 2 * (sin (ψ + s) ^ 2 + cos (ψ + s) ^ 2) by
        ring, sin_sq_add_cos_sq, mul_one, sqrt_sq hr.le]
    · have h5 : (c.1 + r * cos (ψ + s) - c.1) * cos ψ + (c.2 + r * sin (ψ + s) - c.2) * sin ψ = r * cos s := by
        have := cos_sub (ψ + s) ψ
        rw [show ψ + s - ψ = s by ring] at this
        rw [this]
        ring
      have h6 : cos θ ≤ cos s := by
        rw [← cos_abs s]
        exact cos_le_cos_of_nonneg_of_le_pi (abs_nonneg s) hθ.le (abs_le.mpr ⟨hs1, hs2⟩)
      rw [h5]
      exact mul_le_mul_of_nonneg_left h6 hr.le
  · rintro ⟨h1, h2⟩
    set x := (p.1 - c.1) * cos ψ + (p.2 - c.2) * sin ψ with hx
    set y := -(p.1 - c.1) * sin ψ + (p.2 - c.2) * cos ψ with hy
    have hn : hypot x y = r := by
      rw [← h1]
      unfold hypot dist
      congr 1
      rw [hx, hy]
      linear_combination ((p.1 - c.1) ^ 2 + (p.2 - c.2) ^ 2) * (sin_sq_add_cos_sq ψ)
    obtain ⟨p1, p2⟩ := polar x y
    obtain ⟨r1, r2⟩ := atan2_range x y
    rw [hn] at p1 p2
    set s := atan2 y x
    have h3 : cos θ ≤ cos s := by
      rw [← p1] at h2
      exact le_of_mul_le_mul_left h2 hr
    have h4 : |s| ≤ θ := by
      by_contra hc
      push Not at hc
      have h5 : |s| ≤ π := abs_le.mpr ⟨r1.le, r2⟩
      have := cos_lt_cos_of_nonneg_of_le_pi h0.le h5 hc
      rw [cos_abs] at this
      linarith
    obtain ⟨h5, h6⟩ := abs_le.mp h4
    refine ⟨_, ψ + s + 2 * π * k, hend, by rw [radians_degrees]; linarith, by linarith, ?_⟩
    unfold circlePoint
    rw [cos_add_int, sin_add_int, cos_add, sin_add]
    have e := sin_sq_add_cos_sq ψ
    apply Prod.ext
    · show p.1 = c.1 + r * (cos ψ * cos s - sin ψ * sin s)
      have : r * (cos ψ * cos s - sin ψ * sin s) = (r * cos s) * cos ψ - (r * sin s) * sin ψ := by ring
      rw [this, p1, p2, hx, hy]
      linear_combination -(p.1 - c.1) * e
    · show p.2 = c.2 + r * (sin ψ * cos s + cos ψ * sin s)
      have : r * (sin ψ * cos s + cos ψ * sin s) = (r * cos s) * sin ψ + (r * sin s) * cos ψ := by ring
      rw [this, p1, p2, hx, hy]
      linear_combination -(p.2 - c.2) * e

end

end PyX.Connector
