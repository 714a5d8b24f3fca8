import Verif.Roots.Model
import Mathlib.Tactic.LinearCombination
import Mathlib.Tactic.NormNum
import Mathlib.Tactic.Positivity
import Mathlib.Tactic.FieldSimp

/-!
# C62: the roots returned are exactly the real roots

False for cubic polynomials with a double root less than the other one, and for quartic polynomials with such a resolvent.
-/

set_option linter.unusedSectionVars false

namespace PyX.Roots

noncomputable section

/-! ## Quadratic polynomials -/

/-- **C62**, degree two. -/
theorem quadratic_roots (a1 a0 x : ℝ) : x ∈ quadratic a1 a0 ↔ x ^ 2 + a1 * x + a0 = 0 := by
  unfold quadratic
  by_cases h : a1 * a1 - 4 * a0 < 0
  · rw [if_pos h]
    simp only [List.not_mem_nil, false_iff]
    intro hx
    nlinarith [sq_nonneg (2 * x + a1)]
  · rw [if_neg h]
    push Not at h
    have hs := Real.mul_self_sqrt h
    simp only [List.mem_cons, List.not_mem_nil, or_false]
    have hf : x ^ 2 + a1 * x + a0 = (x - 1 / 2 * (-a1 + √(a1 * a1 - 4 * a0))) * (x - 1 / 2 * (-a1 - √(a1 * a1 - 4 * a0))) := by
      linear_combination (1 / 4) * hs
    rw [hf, mul_eq_zero, sub_eq_zero, sub_eq_zero]

/-! ## Cubic polynomials -/

theorem cbrt_cube (x : ℝ) : cbrt x ^ 3 = x := by
  unfold cbrt
  by_cases h : 0 ≤ x
  · rw [if_pos h, ← Real.rpow_natCast, ← Real.rpow_mul h]
    norm_num
  · rw [if_neg h]
    push Not at h
    have : ((-x) ^ (1 / 3 : ℝ)) ^ 3 = -x := by
      rw [← Real.rpow_natCast, ← Real.rpow_mul (by linarith)]
      norm_num
    have e : (-(-x) ^ (1 / 3 : ℝ)) ^ 3 = -((-x) ^ (1 / 3 : ℝ)) ^ 3 := by ring
    rw [e, this]; ring

theorem cube_injective {a b : ℝ} (h : a ^ 3 = b ^ 3) : a = b := by
  have hf : (a - b) * (a ^ 2 + a * b + b ^ 2) = 0 := by linear_combination h
  rcases mul_eq_zero.mp hf with h1 | h1
  · linarith
  · have ha : a = 0 := by nlinarith [sq_nonneg (a + b), sq_nonneg a, sq_nonneg b]
    have hb : b = 0 := by nlinarith [sq_nonneg (a + b), sq_nonneg a, sq_nonneg b]
    rw [ha, hb]

/-- The polynomial in terms of `Q` and `R`. -/
theorem cubic_depressed (a2 a1 a0 x : ℝ) : x ^ 3 + a2 * x ^ 2 + a1 * x + a0 =
    (x + a2 / 3) ^ 3 + 3 * cubicQ a2 a1 * (x + a2 / 3) - 2 * cubicR a2 a1 a0 := by
  unfold cubicQ cubicR
  ring

theorem cubic_one (Q R z : ℝ) (hD : 0 < Q * Q * Q + R * R) :
    z ^ 3 + 3 * Q * z - 2 * R = 0 ↔ z = cbrt (R + √(Q * Q * Q + R * R)) + cbrt (R - √(Q * Q * Q + R * R)) := by
  set d := √(Q * Q * Q + R * R) with hd
  have hdd : d * d = Q * Q * Q + R * R := Real.mul_self_sqrt hD.le
  have hdpos : 0 < d := Real.sqrt_pos.mpr hD
  set S := cbrt (R + d) with hS
  set T := cbrt (R - d) with hT
  have hS3 : S ^ 3 = R + d := cbrt_cube _
  have hT3 : T ^ 3 = R - d := cbrt_cube _
  have hST : S * T = -Q := by
    apply cube_injective
    have : (S * T) ^ 3 = S ^ 3 * T ^ 3 := by ring
    rw [this, hS3, hT3]
    linear_combination -hdd
  have hne : S ≠ T := by
    intro h
    rw [h, hT3] at hS3
    linarith
  have hf : z ^ 3 + 3 * Q * z - 2 * R = (z - (S + T)) * (z ^ 2 + (S + T) * z + (S ^ 2 - S * T + T ^ 2)) := by
    have : 2 * R = S ^ 3 + T ^ 3 := by rw [hS3, hT3]; ring
    rw [this, show Q = -(S * T) by rw [hST]; ring]
    ring
  rw [hf, mul_eq_zero, sub_eq_zero]
  constructor
  · rintro (h | h)
    · exact h
    · exfalso
      have h1 : (2 * z + (S + T)) ^ 2 + 3 * (S - T) ^ 2 = 0 := by linear_combination 4 * h
      have h2 : 0 < (S - T) ^ 2 := by
        have := sub_ne_zero.mpr hne
        positivity
      nlinarith [sq_nonneg (2 * z + (S + T))]
  · exact fun h => Or.inl h

theorem cubic_two (S z : ℝ) : z ^ 3 + 3 * (-S ^ 2) * z - 2 * S ^ 3 = 0 ↔ z = 2 * S ∨ z = -S := by
  have hf : z ^ 3 + 3 * (-S ^ 2) * z - 2 * S ^ 3 = (z - 2 * S) * (z + S) ^ 2 := by ring
  rw [hf, mul_eq_zero, sub_eq_zero, sq_eq_zero_iff]
  constructor
  · rintro (h | h)
    · exact Or.inl h
    · right; linarith
  · rintro (h | h)
    · exact Or.inl h
    · right; linarith

theorem cubic_three (Q R z : ℝ) (hD : Q * Q * Q + R * R < 0) : z ^ 3 + 3 * Q * z - 2 * R = 0 ↔
    ∃ i ∈ ([0, 1, 2] : List ℝ), z = 2 * √(-Q) * Real.cos ((theta (R / √(-Q) ^ 3) + 2 * 2 * i * Real.pi) / 3) := by
  have hQ : Q < 0 := by
    by_contra h
    push Not at h
    have h1 : 0 ≤ Q * Q * Q := by positivity
    nlinarith [mul_self_nonneg R]
  set s := √(-Q) with hs
  have hss : s * s = -Q := Real.mul_self_sqrt (by linarith)
  have hspos : 0 < s := Real.sqrt_pos.mpr (by linarith)
  have hs3 : 0 < s ^ 3 := by positivity
  have hlt : R ^ 2 < (s ^ 3) ^ 2 := by
    have : (s ^ 3) ^ 2 = (s * s) ^ 3 := by ring
    rw [this, hss]
    nlinarith
  have habs : |R| < s ^ 3 := by
    have := abs_lt_of_sq_lt_sq hlt hs3.le
    exact this
  obtain ⟨hR1, hR2⟩ := abs_lt.mp habs
  have ht : theta (R / s ^ 3) = Real.arccos (R / s ^ 3) := by
    unfold theta
    rw [if_neg, if_neg]
    · rw [not_le, lt_div_iff₀ hs3]; linarith
    · rw [not_le, div_lt_one hs3]; exact hR2
  rw [ht]
  set φ := Real.arccos (R / s ^ 3) / 3 with hφ
  have hcos : Real.cos (3 * φ) = R / s ^ 3 := by
    have : 3 * φ = Real.arccos (R / s ^ 3) := by rw [hφ]; ring
    rw [this, Real.cos_arccos]
    · rw [le_div_iff₀ hs3]; linarith
    · rw [div_le_one hs3]; exact hR2.le
  -- the cosines in terms of that and the sine of `φ`
  have h43 : Real.cos (4 * Real.pi / 3) = -1 / 2 ∧ Real.sin (4 * Real.pi / 3) = -(√3 / 2) := by
    have : 4 * Real.pi / 3 = Real.pi / 3 + Real.pi := by ring
    rw [this, Real.cos_add_pi, Real.sin_add_pi, Real.cos_pi_div_three, Real.sin_pi_div_three]
    constructor <;> ring
  have h83 : Real.cos (8 * Real.pi / 3) = -1 / 2 ∧ Real.sin (8 * Real.pi / 3) = √3 / 2 := by
    have : 8 * Real.pi / 3 = (Real.pi - Real.pi / 3) + 2 * Real.pi := by ring
    rw [this, Real.cos_add_two_pi, Real.sin_add_two_pi, Real.cos_pi_sub, Real.sin_pi_sub, Real.cos_pi_div_three, Real.sin_pi_div_three]
    constructor <;> ring
  have e0 : Real.cos ((Real.arccos (R / s ^ 3) + 2 * 2 * 0 * Real.pi) / 3) = Real.cos φ := by
    congr 1; rw [hφ]; ring
  have e1 : Real.cos ((Real.arccos (R / s ^ 3) + 2 * 2 * 1 * Real.pi) / 3) = -1 / 2 * Real.cos φ + √3 / 2 * Real.sin φ := by
    have : (Real.arccos (R / s ^ 3) + 2 * 2 * 1 * Real.pi) / 3 = φ + 4 * Real.pi / 3 := by rw [hφ]; ring
    rw [this, Real.cos_add, h43.1, h43.2]; ring
  have e2 : Real.cos ((Real.arccos (R / s ^ 3) + 2 * 2 * 2 * Real.pi) / 3) = -1 / 2 * Real.cos φ - √3 / 2 * Real.sin φ := by
    have : (Real.arccos (R / s ^ 3) + 2 * 2 * 2 * Real.pi) / 3 = φ + 8 * Real.pi / 3 := by rw [hφ]; ring
    rw [this, Real.cos_add, h83.1, h83.2]; ring
  simp only [List.mem_cons, List.not_mem_nil, or_false, exists_eq_or_imp, exists_eq_left, e0, e1, e2]
  have h3 : √3 * √3 = 3 := Real.mul_self_sqrt (by norm_num)
  have hsc := Real.sin_sq_add_cos_sq φ
  have hR : R = s ^ 3 * (4 * Real.cos φ ^ 3 - 3 * Real.cos φ) := by
    rw [← Real.cos_three_mul, hcos]
    field_simp
  have hf : z ^ 3 + 3 * Q * z - 2 * R = (z - 2 * s * Real.cos φ) *
      ((z - 2 * s * (-1 / 2 * Real.cos φ + √3 / 2 * Real.sin φ)) * (z - 2 * s * (-1 / 2 * Real.cos φ - √3 / 2 * Real.sin φ))) := by
    rw [hR, show Q = -(s * s) by linarith]
    linear_combination (z - 2 * s * Real.cos φ) * s ^ 2 * Real.sin φ ^ 2 * h3 + 3 * s ^ 2 * (z - 2 * s * Real.cos φ) * hsc
  rw [hf, mul_eq_zero, mul_eq_zero, sub_eq_zero, sub_eq_zero, sub_eq_zero]

/-- **C62_partial**, degree three: exactly the real roots, unless the discriminant vanishes and `R` is positive (that is a double root less than the
other root). -/
theorem cubic_roots_partial (a2 a1 a0 : ℝ) (hgood : ¬ (cubicD a2 a1 a0 = 0 ∧ 0 < cubicR a2 a1 a0)) (x : ℝ) :
    x ∈ cubic a2 a1 a0 ↔ x ^ 3 + a2 * x ^ 2 + a1 * x + a0 = 0 := by
  rw [cubic_depressed]
  unfold cubic
  set Q := cubicQ a2 a1
  set R := cubicR a2 a1 a0
  have hDdef : cubicD a2 a1 a0 = Q * Q * Q + R * R := rfl
  rw [hDdef] at hgood ⊢
  by_cases h1 : 0 < Q * Q * Q + R * R
  · rw [if_pos h1, cubic_one Q R _ h1]
    simp only [List.mem_singleton]
    constructor <;> intro h <;> linarith
  · rw [if_neg h1]
    by_cases h2 : Q * Q * Q + R * R = 0
    · rw [if_pos h2]
      have hRle : R ≤ 0 := by
        by_contra h
        exact hgood ⟨h2, not_le.mp h⟩
      by_cases h3 : Q = 0
      · rw [if_pos h3]
        rw [h3] at h2 ⊢
        have hR : R = 0 := by
          have : R * R = 0 := by linarith
          exact mul_self_eq_zero.mp this
        rw [hR]
        simp only [List.mem_singleton]
        constructor
        · intro h; rw [h]; ring
        · intro h
          have : (x + a2 / 3) ^ 3 = 0 := by linarith
          have := pow_eq_zero_iff (n := 3) (by norm_num) |>.mp this
          linarith
      · rw [if_neg h3]
        have hQ : Q < 0 := by
          by_contra h
          have hQpos : 0 < Q := lt_of_le_of_ne (not_lt.mp h) (Ne.symm h3)
          have : 0 < Q * Q * Q := by positivity
          nlinarith [mul_self_nonneg R]
        have hss : √(-Q) * √(-Q) = -Q := Real.mul_self_sqrt (by linarith)
        have hspos : 0 < √(-Q) := Real.sqrt_pos.mpr (by linarith)
        have hSR : (-√(-Q)) ^ 3 = R := by
          have hsq : (√(-Q) ^ 3) ^ 2 = (-R) ^ 2 := by
            have : (√(-Q) ^ 3) ^ 2 = (√(-Q) * √(-Q)) ^ 3 := by ring
            rw [this, hss]
            linear_combination -h2
          have hp : 0 ≤ √(-Q) ^ 3 := by positivity
          have := (sq_eq_sq₀ hp (by linarith)).mp hsq
          linear_combination -this
        have hcub := cubic_two (-√(-Q)) (x + a2 / 3)
        rw [hSR, show -(-√(-Q)) ^ 2 = Q by linear_combination -hss] at hcub
        rw [hcub]
        simp only [List.mem_cons, List.not_mem_nil, or_false]
        constructor
        · rintro (h | h)
          · left; linarith
          · right; linarith
        · rintro (h | h)
          · left; linarith
          · right; linarith
    · rw [if_neg h2]
      have h3 : Q * Q * Q + R * R < 0 := lt_of_le_of_ne (not_lt.mp h1) h2
      rw [cubic_three Q R _ h3]
      simp only [List.mem_map]
      constructor
      · rintro ⟨i, hi, rfl⟩
        exact ⟨i, hi, by ring⟩
      · rintro ⟨i, hi, h⟩
        exact ⟨i, hi, by rw [← h]; ring⟩

/-- In the remaining case, every number returned is wrong. -/
theorem cubic_wrong (a2 a1 a0 : ℝ) (hD : cubicD a2 a1 a0 = 0) (hR : 0 < cubicR a2 a1 a0) :
    (cubic a2 a1 a0).length = 2 ∧ ∀ x ∈ cubic a2 a1 a0, x ^ 3 + a2 * x ^ 2 + a1 * x + a0 ≠ 0 := by
  unfold cubic
  rw [if_neg (by rw [hD]; exact lt_irrefl 0), if_pos hD]
  have hdep := cubic_depressed a2 a1 a0
  have hDdef : cubicQ a2 a1 * cubicQ a2 a1 * cubicQ a2 a1 + cubicR a2 a1 a0 * cubicR a2 a1 a0 = 0 := hD
  generalize cubicQ a2 a1 = Q at *
  generalize cubicR a2 a1 a0 = R at *
  have h3 : Q ≠ 0 := by
    intro h
    rw [h] at hDdef
    nlinarith
  rw [if_neg h3]
  have hQ : Q < 0 := by
    by_contra h
    have hQpos : 0 < Q := lt_of_le_of_ne (not_lt.mp h) (Ne.symm h3)
    have : 0 < Q * Q * Q := by positivity
    nlinarith [mul_self_nonneg R]
  have hss : √(-Q) * √(-Q) = -Q := Real.mul_self_sqrt (by linarith)
  have hspos : 0 < √(-Q) := Real.sqrt_pos.mpr (by linarith)
  have hs3 : 0 < √(-Q) ^ 3 := by positivity
  refine ⟨rfl, fun x hx => ?_⟩
  rw [hdep]
  simp only [List.mem_cons, List.not_mem_nil, or_false] at hx
  have hQs : Q = -(√(-Q) * √(-Q)) := by linarith
  generalize √(-Q) = s at *
  subst hQs
  rcases hx with rfl | rfl
  · have : (2 * -s - a2 / 3 + a2 / 3) ^ 3 + 3 * -(s * s) * (2 * -s - a2 / 3 + a2 / 3) - 2 * R = -(2 * s ^ 3) - 2 * R := by ring
    rw [this]
    intro h
    linarith
  · have : (- -s - a2 / 3 + a2 / 3) ^ 3 + 3 * -(s * s) * (- -s - a2 / 3 + a2 / 3) - 2 * R = -(2 * s ^ 3) - 2 * R := by ring
    rw [this]
    intro h
    linarith

/-- **C62 is false**: `x³ - 3x - 2 = (x - 2) (x + 1)²` has the roots 2 and -1, but -2 and 1 are returned. -/
theorem cubic_false : cubic 0 (-3) (-2) = [-2, 1] ∧ (2 : ℝ) ^ 3 + 0 * 2 ^ 2 + -3 * 2 + -2 = 0 ∧ (-2 : ℝ) ^ 3 + 0 * (-2) ^ 2 + -3 * (-2) + -2 ≠ 0 := by
  refine ⟨?_, by norm_num, by norm_num⟩
  have hQ : cubicQ 0 (-3) = -1 := by unfold cubicQ; norm_num
  have hD : cubicD 0 (-3) (-2) = 0 := by unfold cubicD cubicQ cubicR; norm_num
  unfold cubic
  rw [hD, hQ, if_neg (lt_irrefl 0), if_pos rfl, if_neg (by norm_num)]
  simp

theorem cubic_exists (a2 a1 a0 : ℝ) : ∃ x : ℝ, x ^ 3 + a2 * x ^ 2 + a1 * x + a0 = 0 := by
  have gen : ∀ a2 a1 a0 : ℝ, ¬ (cubicD a2 a1 a0 = 0 ∧ 0 < cubicR a2 a1 a0) → ∃ x : ℝ, x ^ 3 + a2 * x ^ 2 + a1 * x + a0 = 0 := by
    intro a2 a1 a0 h
    have hr := cubic_roots_partial a2 a1 a0 h
    have hne : ∃ x, x ∈ cubic a2 a1 a0 := by
      unfold cubic
      split
      · exact ⟨_, List.mem_cons_self⟩
      · split
        · split
          · exact ⟨_, List.mem_cons_self⟩
          · exact ⟨_, List.mem_cons_self⟩
        · exact ⟨_, List.mem_cons_self⟩
    obtain ⟨x, hx⟩ := hne
    exact ⟨x, (hr x).mp hx⟩
  by_cases h : cubicD a2 a1 a0 = 0 ∧ 0 < cubicR a2 a1 a0
  · obtain ⟨x, hx⟩ := gen (-a2) a1 (-a0) (by
      rintro ⟨_, hr⟩
      have : cubicR (-a2) a1 (-a0) = -cubicR a2 a1 a0 := by unfold cubicR; ring
      rw [this] at hr
      linarith [h.2])
    exact ⟨-x, by linear_combination -hx⟩
  · exact gen a2 a1 a0 h

/-! ## Quartic polynomials -/

/-- The resolvent has a root at which `cubic` goes wrong. -/
def ResolventBad (a3 a2 a1 a0 : ℝ) : Prop :=
  cubicD (-a2) (a1 * a3 - 4 * a0) (4 * a0 * a2 - a1 * a1 - a0 * a3 * a3) = 0 ∧
    0 < cubicR (-a2) (a1 * a3 - 4 * a0) (4 * a0 * a2 - a1 * a1 - a0 * a3 * a3)

theorem factors_roots (a3 a2 a1 a0 y x : ℝ)
    (hy : y ^ 3 + -a2 * y ^ 2 + (a1 * a3 - 4 * a0) * y + (4 * a0 * a2 - a1 * a1 - a0 * a3 * a3) = 0)
    (hA : 0 ≤ a3 * a3 - 4 * a2 + 4 * y) (hB : 0 ≤ y * y - 4 * a0) :
    x ∈ factors a3 a2 a1 a0 y ↔ x ^ 4 + a3 * x ^ 3 + a2 * x ^ 2 + a1 * x + a0 = 0 := by
  have hAA := Real.mul_self_sqrt hA
  have hBB := Real.mul_self_sqrt hB
  have hA0 := Real.sqrt_nonneg (a3 * a3 - 4 * a2 + 4 * y)
  have hB0 := Real.sqrt_nonneg (y * y - 4 * a0)
  have hsq : (√(a3 * a3 - 4 * a2 + 4 * y) * √(y * y - 4 * a0)) ^ 2 = (2 * a1 - a3 * y) ^ 2 := by
    have : (√(a3 * a3 - 4 * a2 + 4 * y) * √(y * y - 4 * a0)) ^ 2 =
        (√(a3 * a3 - 4 * a2 + 4 * y) * √(a3 * a3 - 4 * a2 + 4 * y)) * (√(y * y - 4 * a0) * √(y * y - 4 * a0)) := by ring
    rw [this, hAA, hBB]
    linear_combination 4 * hy
  unfold factors
  generalize √(a3 * a3 - 4 * a2 + 4 * y) = A at *
  generalize √(y * y - 4 * a0) = B at *
  have hAB : 0 ≤ A * B := mul_nonneg hA0 hB0
  by_cases h : a3 * y - 2 * a1 < 0
  · rw [if_pos h]
    have hab := (sq_eq_sq₀ hAB (by linarith : (0 : ℝ) ≤ 2 * a1 - a3 * y)).mp hsq
    rw [List.mem_append, quadratic_roots, quadratic_roots, ← mul_eq_zero]
    have : (x ^ 2 + 1 / 2 * (a3 + A) * x + 1 / 2 * (y - B)) * (x ^ 2 + 1 / 2 * (a3 - A) * x + 1 / 2 * (y + B)) =
        x ^ 4 + a3 * x ^ 3 + a2 * x ^ 2 + a1 * x + a0 := by
      linear_combination (-x ^ 2 / 4) * hAA + (x / 2) * hab - (1 / 4) * hBB
    rw [this]
  · rw [if_neg h]
    have hsq' : (A * B) ^ 2 = (a3 * y - 2 * a1) ^ 2 := by rw [hsq]; ring
    have hab := (sq_eq_sq₀ hAB (by linarith : (0 : ℝ) ≤ a3 * y - 2 * a1)).mp hsq'
    rw [List.mem_append, quadratic_roots, quadratic_roots, ← mul_eq_zero]
    have : (x ^ 2 + 1 / 2 * (a3 + A) * x + 1 / 2 * (y + B)) * (x ^ 2 + 1 / 2 * (a3 - A) * x + 1 / 2 * (y - B)) =
        x ^ 4 + a3 * x ^ 3 + a2 * x ^ 2 + a1 * x + a0 := by
      linear_combination (-x ^ 2 / 4) * hAA - (x / 2) * hab - (1 / 4) * hBB
    rw [this]

theorem leastOf_mem (ys : List ℝ) : ∀ y, leastOf y ys ∈ y :: ys := by
  unfold leastOf
  induction ys with
  | nil => intro y; simp
  | cons z ys ih =>
    intro y
    rw [List.foldl_cons]
    have := ih (min y z)
    simp only [List.mem_cons] at this ⊢
    rcases this with h | h
    · rw [h]
      rcases min_choice y z with h' | h'
      · left; exact h'
      · right; left; exact h'
    · right; right; exact h

/-- **C62_partial**, degree four: exactly the real roots, unless the resolvent is one of the cubic polynomials with wrong roots. -/
theorem quartic_roots_partial (a3 a2 a1 a0 : ℝ) (hgood : ¬ ResolventBad a3 a2 a1 a0) (x : ℝ) :
    x ∈ quartic a3 a2 a1 a0 ↔ x ^ 4 + a3 * x ^ 3 + a2 * x ^ 2 + a1 * x + a0 = 0 := by
  have hcub := cubic_roots_partial (-a2) (a1 * a3 - 4 * a0) (4 * a0 * a2 - a1 * a1 - a0 * a3 * a3) hgood
  have hmem : ∀ y, y ∈ resolvents a3 a2 a1 a0 ↔
      y ^ 3 + -a2 * y ^ 2 + (a1 * a3 - 4 * a0) * y + (4 * a0 * a2 - a1 * a1 - a0 * a3 * a3) = 0 ∧
        0 ≤ a3 * a3 - 4 * a2 + 4 * y ∧ 0 ≤ y * y - 4 * a0 := by
    intro y
    unfold resolvents
    rw [List.mem_filter, hcub, decide_eq_true_iff]
  unfold quartic
  cases hr : resolvents a3 a2 a1 a0 with
  | nil =>
    simp only [List.not_mem_nil, false_iff]
    intro hx
    -- a second root
    obtain ⟨w, hw⟩ := cubic_exists (a3 + x) (a2 + (a3 + x) * x) (a1 + (a2 + (a3 + x) * x) * x)
    -- the quadratic factors are (t - x) (t - w) and the rest
    have := (hmem (x * w + (a2 + (a3 + x) * x + (a3 + x + w) * w))).mpr ⟨?_, ?_, ?_⟩
    · rw [hr] at this; simp at this
    · -- a1 and a0 from the roots
      have h0 : a0 = -(x ^ 4 + a3 * x ^ 3 + a2 * x ^ 2 + a1 * x) := by linarith
      have h1 : a1 = -((a2 + (a3 + x) * x) * x + w ^ 3 + (a3 + x) * w ^ 2 + (a2 + (a3 + x) * x) * w) := by linarith
      rw [h0, h1]
      ring
    · have : a3 * a3 - 4 * a2 + 4 * (x * w + (a2 + (a3 + x) * x + (a3 + x + w) * w)) = (a3 + 2 * x + 2 * w) ^ 2 := by ring
      rw [this]; positivity
    · have h0 : a0 = -(x ^ 4 + a3 * x ^ 3 + a2 * x ^ 2 + a1 * x) := by linarith
      have h1 : a1 = -((a2 + (a3 + x) * x) * x + w ^ 3 + (a3 + x) * w ^ 2 + (a2 + (a3 + x) * x) * w) := by linarith
      have : (x * w + (a2 + (a3 + x) * x + (a3 + x + w) * w)) * (x * w + (a2 + (a3 + x) * x + (a3 + x + w) * w)) - 4 * a0 =
          (x * w - (a2 + (a3 + x) * x + (a3 + x + w) * w)) ^ 2 := by
        rw [h0, h1]
        ring
      rw [this]; positivity
  | cons y ys =>
    have := leastOf_mem ys y
    rw [← hr, hmem] at this
    exact factors_roots a3 a2 a1 a0 _ x this.1 this.2.1 this.2.2

/-- **C62 is false**: `x⁴ + 4x + 3 = (x + 1)² (x² - 2x + 3)` has the root -1, but no root is returned. -/
theorem quartic_false : quartic 0 0 4 3 = [] ∧ (-1 : ℝ) ^ 4 + 0 * (-1) ^ 3 + 0 * (-1) ^ 2 + 4 * (-1) + 3 = 0 := by
  refine ⟨?_, by norm_num⟩
  have hQ : cubicQ (-0) (4 * 0 - 4 * 3) = -4 := by unfold cubicQ; norm_num
  have hD : cubicD (-0) (4 * 0 - 4 * 3) (4 * 3 * 0 - 4 * 4 - 3 * 0 * 0) = 0 := by unfold cubicD cubicQ cubicR; norm_num
  have h4 : √(4 : ℝ) = 2 := by
    rw [show (4 : ℝ) = 2 ^ 2 by norm_num, Real.sqrt_sq (by norm_num)]
  have hr : resolvents 0 0 4 3 = [] := by
    unfold resolvents cubic
    rw [hD, hQ, if_neg (lt_irrefl 0), if_pos rfl, if_neg (by norm_num)]
    rw [List.filter_eq_nil_iff]
    intro y hy
    simp only [neg_neg, h4, List.mem_cons, List.not_mem_nil, or_false] at hy
    rw [decide_eq_true_iff]
    rintro ⟨h1, h2⟩
    rcases hy with rfl | rfl
    · norm_num at h1
    · norm_num at h2
  unfold quartic
  rw [hr]

/-! ## All polynomials -/

/-- The polynomials for which the roots are wrong: the coefficients are those after the leading one, which is one. -/
def Bad : List ℝ → Prop
  | [a2, a1, a0] => cubicD a2 a1 a0 = 0 ∧ 0 < cubicR a2 a1 a0
  | [a3, a2, a1, a0] => ResolventBad a3 a2 a1 a0
  | _ => False

theorem monic_roots_partial (cs : List ℝ) (hgood : ¬ Bad cs) (roots : List ℝ) (h : monic cs = some roots) (x : ℝ) :
    x ∈ roots ↔ eval (1 :: cs) x = 0 := by
  match cs, h, hgood with
  | [], h, _ =>
    simp only [monic, Option.some.injEq] at h
    subst h
    simp [eval]
  | [a0], h, _ =>
    simp only [monic, Option.some.injEq] at h
    subst h
    simp only [eval, List.mem_singleton, List.length_cons, List.length_nil]
    constructor
    · rintro rfl; ring
    · intro h; ring_nf at h; linarith
  | [a1, a0], h, _ =>
    simp only [monic, Option.some.injEq] at h
    subst h
    rw [quadratic_roots]
    simp [eval]
    ring_nf
  | [a2, a1, a0], h, hg =>
    simp only [monic, Option.some.injEq] at h
    subst h
    rw [cubic_roots_partial a2 a1 a0 hg]
    simp [eval]
    ring_nf
  | [a3, a2, a1, a0], h, hg =>
    simp only [monic, Option.some.injEq] at h
    subst h
    rw [quartic_roots_partial a3 a2 a1 a0 hg]
    simp [eval]
    ring_nf
  | _ :: _ :: _ :: _ :: _ :: _, h, _ => simp [monic] at h

theorem eval_scale (f : ℝ) (cs : List ℝ) (x : ℝ) : eval (cs.map fun a => f * a) x = f * eval cs x := by
  induction cs with
  | nil => simp [eval]
  | cons c cs ih => simp only [List.map_cons, eval, List.length_map, ih]; ring

/-- The coefficients from the first one other than zero. -/
def lead : List ℝ → List ℝ
  | [] => []
  | c :: cs => open Classical in if c = 0 then lead cs else c :: cs

theorem eval_lead (cs : List ℝ) (x : ℝ) : eval (lead cs) x = eval cs x := by
  induction cs with
  | nil => rfl
  | cons c cs ih =>
    unfold lead
    by_cases h : c = 0
    · rw [if_pos h, ih, eval, h]; ring
    · rw [if_neg h]

theorem realpolyroots_lead (cs : List ℝ) : realpolyroots (lead cs) = realpolyroots cs := by
  induction cs with
  | nil => rfl
  | cons c cs ih =>
    unfold lead
    by_cases h : c = 0
    · rw [if_pos h, ih]
      conv_rhs => unfold realpolyroots
      rw [if_pos h]
    · rw [if_neg h]

/-- **C62_partial**: for any polynomial of degree up to four, other than zero, the numbers returned are exactly its real roots, unless it is one of the cubic or quartic
polynomials of `Bad`.  Leading zeros do not matter. -/
theorem realpolyroots_partial (cs : List ℝ) (c : ℝ) (rest : List ℝ) (hl : lead cs = c :: rest) (hdeg : rest.length ≤ 4)
    (hgood : ¬ Bad (rest.map fun a => 1 / c * a)) :
    ∃ roots, realpolyroots cs = some roots ∧ ∀ x, x ∈ roots ↔ eval cs x = 0 := by
  have hc : c ≠ 0 := by
    clear hgood hdeg
    induction cs with
    | nil => simp [lead] at hl
    | cons d cs ih =>
      unfold lead at hl
      by_cases h : d = 0
      · rw [if_pos h] at hl; exact ih hl
      · rw [if_neg h] at hl; cases hl; exact h
  rw [← realpolyroots_lead, hl]
  unfold realpolyroots
  rw [if_neg hc]
  obtain ⟨roots, hr⟩ : ∃ roots, monic (rest.map fun a => 1 / c * a) = some roots := by
    match rest, hdeg with
    | [], _ => exact ⟨_, rfl⟩
    | [_], _ => exact ⟨_, rfl⟩
    | [_, _], _ => exact ⟨_, rfl⟩
    | [_, _, _], _ => exact ⟨_, rfl⟩
    | [_, _, _, _], _ => exact ⟨_, rfl⟩
    | _ :: _ :: _ :: _ :: _ :: _, h => simp only [List.length_cons] at h; omega
  refine ⟨roots, hr, fun x => ?_⟩
  rw [monic_roots_partial _ hgood roots hr x, ← eval_lead cs, hl]
  have := eval_scale (1 / c) (c :: rest) x
  rw [List.map_cons, one_div_mul_cancel hc] at this
  rw [this, mul_eq_zero]
  simp [hc]

/-- **C62**: for a polynomial of degree up to two, the numbers returned are exactly its real roots. -/
theorem realpolyroots_quadratic (a b c : ℝ) (h : ¬ (a = 0 ∧ b = 0 ∧ c = 0)) :
    ∃ roots, realpolyroots [a, b, c] = some roots ∧ ∀ x, x ∈ roots ↔ a * x ^ 2 + b * x + c = 0 := by
  have heval : ∀ x, eval [a, b, c] x = a * x ^ 2 + b * x + c := by
    intro x
    simp [eval]
    ring
  have hex : ∃ d rest, lead [a, b, c] = d :: rest ∧ rest.length ≤ 2 := by
    by_cases ha : a = 0
    · by_cases hb : b = 0
      · by_cases hc : c = 0
        · exact absurd ⟨ha, hb, hc⟩ h
        · exact ⟨c, [], by simp [lead, ha, hb, hc], by simp⟩
      · exact ⟨b, [c], by simp [lead, ha, hb], by simp⟩
    · exact ⟨a, [b, c], by simp [lead, ha], by simp⟩
  obtain ⟨d, rest, hl, hlen⟩ := hex
  obtain ⟨roots, h1, h2⟩ := realpolyroots_partial [a, b, c] d rest hl (by omega) (by
    match rest, hlen with
    | [], _ => exact id
    | [_], _ => exact id
    | [_, _], _ => exact id
    | _ :: _ :: _ :: _, h => simp at h)
  exact ⟨roots, h1, fun x => by rw [h2, heval]⟩

/-- A quartic polynomial with leading zero, in fact a cubic one with three roots. -/
example : ∃ roots, realpolyroots [0, 2, 0, -8, 0] = some roots ∧ 2 ∈ roots ∧ -2 ∈ roots ∧ 0 ∈ roots ∧ 1 ∉ roots := by
  obtain ⟨roots, h1, h2⟩ := realpolyroots_partial [0, 2, 0, -8, 0] 2 [0, -8, 0] (by simp [lead]) (by simp) (by
    simp only [List.map_cons, List.map_nil, Bad]
    rintro ⟨_, h⟩
    unfold cubicR at h
    norm_num at h)
  refine ⟨roots, h1, ?_, ?_, ?_, ?_⟩ <;> rw [h2] <;> norm_num [eval]

end

end PyX.Roots
