import Verif.Graph.Projector
import Mathlib.Tactic.LinearCombination
import Mathlib.Tactic.FieldSimp

/-!
# C106: three-dimensional graphs are projected correctly
-/

set_option linter.unusedSectionVars false

namespace PyX.Graph

/-! ## Specification -/

/-- The direction to the viewer. -/
noncomputable def toViewer (phi theta : ℝ) : V3 := ⟨Real.cos phi * Real.cos theta, Real.sin phi * Real.cos theta, Real.sin theta⟩

def dot (a b : V3) : ℝ := a.x * b.x + a.y * b.y + a.z * b.z
def add (a b : V3) : V3 := ⟨a.x + b.x, a.y + b.y, a.z + b.z⟩
def sub (a b : V3) : V3 := ⟨a.x - b.x, a.y - b.y, a.z - b.z⟩
def smul (t : ℝ) (a : V3) : V3 := ⟨t * a.x, t * a.y, t * a.z⟩
def lerp (t : ℝ) (p q : V3) : V3 := add (smul (1 - t) p) (smul t q)
def lerp2 (t : ℝ) (p q : ℝ × ℝ) : ℝ × ℝ := ((1 - t) * p.1 + t * q.1, (1 - t) * p.2 + t * q.2)

/-- Twice the signed area of a triangle in the plane: negative if the points are in clockwise order. -/
def area2 (p q r : ℝ × ℝ) : ℝ := (q.1 - p.1) * (r.2 - p.2) - (q.2 - p.2) * (r.1 - p.1)

/-- In front of the eye of a central projection. -/
def InFront (D phi theta : ℝ) (p : V3) : Prop := dot (toViewer phi theta) p < D

/-! ## The axes of the picture -/

section

variable (D phi theta : ℝ)

/-- C106: the axes of the picture and the direction to the viewer are orthogonal unit vectors, and the eye is in that direction at the distance. -/
theorem axes_orthonormal :
    dot (vecA phi) (vecA phi) = 1 ∧ dot (vecB phi theta) (vecB phi theta) = 1 ∧ dot (toViewer phi theta) (toViewer phi theta) = 1 ∧
    dot (vecA phi) (vecB phi theta) = 0 ∧ dot (vecA phi) (toViewer phi theta) = 0 ∧ dot (vecB phi theta) (toViewer phi theta) = 0 ∧
    vecEye D phi theta = smul D (toViewer phi theta) ∧ vecC phi theta = smul (-1) (toViewer phi theta) := by
  have h1 := Real.sin_sq_add_cos_sq phi
  have h2 := Real.sin_sq_add_cos_sq theta
  refine ⟨?_, ?_, ?_, ?_, ?_, ?_, ?_, ?_⟩
  · simp only [dot, vecA]; linear_combination h1
  · simp only [dot, vecB]; linear_combination (Real.sin theta) ^ 2 * h1 + h2
  · simp only [dot, toViewer]; linear_combination (Real.cos theta) ^ 2 * h1 + h2
  · simp only [dot, vecA, vecB]; ring
  · simp only [dot, vecA, toViewer]; ring
  · simp only [dot, vecB, toViewer]; linear_combination -Real.sin theta * Real.cos theta * h1
  · ext <;> simp only [vecEye, smul, toViewer] <;> ring
  · ext <;> simp only [vecC, smul, toViewer] <;> ring

/-- Every vector is the sum of its components along the three axes. -/
theorem decompose (p : V3) :
    p = add (add (smul (dot (vecA phi) p) (vecA phi)) (smul (dot (vecB phi theta) p) (vecB phi theta))) (smul (dot (toViewer phi theta) p) (toViewer phi theta)) := by
  have h1 := Real.sin_sq_add_cos_sq phi
  have h2 := Real.sin_sq_add_cos_sq theta
  ext <;> simp only [add, smul, dot, vecA, vecB, toViewer]
  · linear_combination (-p.x) * h1 + (-(Real.cos phi) ^ 2 * p.x - Real.cos phi * Real.sin phi * p.y) * h2
  · linear_combination (-p.y) * h1 + (-(Real.sin phi) ^ 2 * p.y - Real.cos phi * Real.sin phi * p.x) * h2
  · linear_combination (-p.z) * h2

/-- The determinant of three vectors. -/
def det (u v w : V3) : ℝ := u.x * (v.y * w.z - v.z * w.y) + u.y * (v.z * w.x - v.x * w.z) + u.z * (v.x * w.y - v.y * w.x)

/-- The axes form a right-handed system: right, up, to the viewer. -/
theorem axes_righthanded : det (vecA phi) (vecB phi theta) (toViewer phi theta) = 1 := by
  have h1 := Real.sin_sq_add_cos_sq phi
  have h2 := Real.sin_sq_add_cos_sq theta
  simp only [det, vecA, vecB, toViewer]
  linear_combination ((Real.sin theta) ^ 2 + (Real.cos theta) ^ 2) * h1 + h2

end

theorem det_comb (a b c : V3) (l l' l'' m m' m'' n n' n'' : ℝ) :
    det (add (add (smul l a) (smul l' b)) (smul l'' c)) (add (add (smul m a) (smul m' b)) (smul m'' c)) (add (add (smul n a) (smul n' b)) (smul n'' c)) =
      det ⟨l, l', l''⟩ ⟨m, m', m''⟩ ⟨n, n', n''⟩ * det a b c := by
  simp only [det, add, smul]; ring

/-- A determinant in the coordinates of the picture. -/
theorem det_coords (phi theta : ℝ) (u v w : V3) :
    det u v w = det ⟨dot (vecA phi) u, dot (vecB phi theta) u, dot (toViewer phi theta) u⟩ ⟨dot (vecA phi) v, dot (vecB phi theta) v, dot (toViewer phi theta) v⟩
      ⟨dot (vecA phi) w, dot (vecB phi theta) w, dot (toViewer phi theta) w⟩ := by
  have h := det_comb (vecA phi) (vecB phi theta) (toViewer phi theta)
    (dot (vecA phi) u) (dot (vecB phi theta) u) (dot (toViewer phi theta) u) (dot (vecA phi) v) (dot (vecB phi theta) v) (dot (toViewer phi theta) v)
    (dot (vecA phi) w) (dot (vecB phi theta) w) (dot (toViewer phi theta) w)
  rw [axes_righthanded, mul_one, ← decompose, ← decompose, ← decompose] at h
  exact h

/-! ## The central projection -/

section

variable (D phi theta : ℝ)

/-- How far a point is in front of the eye, along the direction of view. -/
noncomputable def depth (p : V3) : ℝ := D - dot (toViewer phi theta) p

theorem det0 (p : V3) : det3 (vecA phi) (vecB phi theta) p (vecEye D phi theta) = -depth D phi theta p := by
  have h1 := Real.sin_sq_add_cos_sq phi
  have h2 := Real.sin_sq_add_cos_sq theta
  simp only [det3, depth, dot, vecA, vecB, vecEye, toViewer]
  linear_combination (Real.sin theta * p.z - D * (Real.sin theta)^2 - D * (Real.cos theta)^2) * h1 - D * h2

theorem detA (p : V3) : det3 (vecEye D phi theta) (vecB phi theta) p (vecEye D phi theta) = -(D * dot (vecA phi) p) := by
  have h1 := Real.sin_sq_add_cos_sq phi
  have h2 := Real.sin_sq_add_cos_sq theta
  simp only [det3, dot, vecA, vecB, vecEye]
  linear_combination (D * Real.sin phi * p.x - D * Real.cos phi * p.y) * h2

theorem detB (p : V3) : det3 (vecA phi) (vecEye D phi theta) p (vecEye D phi theta) = -(D * dot (vecB phi theta) p) := by
  have h1 := Real.sin_sq_add_cos_sq phi
  have h2 := Real.sin_sq_add_cos_sq theta
  simp only [det3, dot, vecA, vecB, vecEye]
  linear_combination (-D * Real.cos theta * p.z) * h1

/-- The projected point in closed form. -/
theorem central_point (f : ℝ) (p : V3) (h : depth D (phi * f) (theta * f) p ≠ 0) :
    (central D phi theta f).point p = some (D * dot (vecA (phi * f)) p / depth D (phi * f) (theta * f) p, D * dot (vecB (phi * f) (theta * f)) p / depth D (phi * f) (theta * f) p) := by
  simp only [central, det0, detA, detB, divide]
  rw [if_neg (neg_ne_zero.mpr h)]
  simp [neg_div_neg_eq, if_neg h]

theorem dot_lin (u a b : V3) (s t : ℝ) : dot u (add (smul s a) (smul t b)) = s * dot u a + t * dot u b := by
  simp only [dot, add, smul]; ring

/-- C106: the projected point of a point in front of the eye is the only one where the line from the eye through the point meets the plane of the picture, and it is met in the direction of the point. -/
theorem central_is_projection (f : ℝ) (hD : 0 < D) (p : V3) (h : InFront D (phi * f) (theta * f) p) (u v : ℝ) :
    (central D phi theta f).point p = some (u, v) ↔
      ∃ t, 0 < t ∧ add (smul u (vecA (phi * f))) (smul v (vecB (phi * f) (theta * f))) = add (vecEye D (phi * f) (theta * f)) (smul t (sub p (vecEye D (phi * f) (theta * f)))) := by
  have hd : 0 < depth D (phi * f) (theta * f) p := by simp only [depth]; simp only [InFront] at h; linarith
  rw [central_point D phi theta f p hd.ne']
  generalize phi * f = ph at *
  generalize theta * f = th at *
  obtain ⟨haa, hbb, hcc, hab, hac, hbc, hE, -⟩ := axes_orthonormal D ph th
  have hdec := decompose ph th p
  constructor
  · intro he
    obtain ⟨rfl, rfl⟩ := Prod.mk.inj (Option.some.inj he)
    refine ⟨D / depth D ph th p, div_pos hD hd, ?_⟩
    rw [hE]
    have e : ∀ a b c q : ℝ, q = dot (vecA ph) p * a + dot (vecB ph th) p * b + dot (toViewer ph th) p * c →
        D * dot (vecA ph) p / depth D ph th p * a + D * dot (vecB ph th) p / depth D ph th p * b = D * c + D / depth D ph th p * (q - D * c) := by
      intro a b c q hq
      rw [hq]
      field_simp
      simp only [depth]; ring
    ext <;> simp only [add, smul, sub]
    · exact e _ _ _ _ (congrArg V3.x hdec)
    · exact e _ _ _ _ (congrArg V3.y hdec)
    · exact e _ _ _ _ (congrArg V3.z hdec)
  · rintro ⟨t, -, he⟩
    have hx := congrArg V3.x he
    have hy := congrArg V3.y he
    have hz := congrArg V3.z he
    rw [hE] at hx hy hz
    have key : ∀ w : V3, u * dot w (vecA ph) + v * dot w (vecB ph th) = D * dot w (toViewer ph th) + t * (dot w p - D * dot w (toViewer ph th)) := by
      intro w
      simp only [add, smul, sub] at hx hy hz
      simp only [dot]
      linear_combination w.x * hx + w.y * hy + w.z * hz
    have k1 := key (toViewer ph th)
    have k2 := key (vecA ph)
    have k3 := key (vecB ph th)
    have comm : ∀ a b : V3, dot a b = dot b a := fun a b => by simp only [dot]; ring
    rw [comm _ (vecA ph), comm _ (vecB ph th), hac, hbc, hcc] at k1
    rw [haa, hab, hac] at k2
    rw [comm _ (vecA ph), hab, hbb, hbc] at k3
    have ht : t = D / depth D ph th p := by
      rw [eq_div_iff hd.ne']; simp only [depth]; linarith
    congr 1
    ext <;> simp only
    · rw [ht] at k2; rw [mul_div_right_comm]; linarith
    · rw [ht] at k3; rw [mul_div_right_comm]; linarith

theorem seg1 (D a b P Q t : ℝ) (hP : 0 < P) (hQ : 0 < Q) (hm : 0 < (1 - t) * P + t * Q) :
    D * ((1 - t) * a + t * b) / ((1 - t) * P + t * Q) = (1 - t * Q / ((1 - t) * P + t * Q)) * (D * a / P) + t * Q / ((1 - t) * P + t * Q) * (D * b / Q) := by
  have e : 1 - t * Q / ((1 - t) * P + t * Q) = (1 - t) * P / ((1 - t) * P + t * Q) := by rw [eq_div_iff hm.ne', sub_mul, div_mul_cancel₀ _ hm.ne']; ring
  rw [e]
  generalize (1 - t) * P + t * Q = m at *
  field_simp

theorem seg2 (D a b P Q s : ℝ) (hP : 0 < P) (hQ : 0 < Q) (hm : 0 < (1 - s) * Q + s * P) :
    D * ((1 - s * P / ((1 - s) * Q + s * P)) * a + s * P / ((1 - s) * Q + s * P) * b) / (P * Q / ((1 - s) * Q + s * P)) = (1 - s) * (D * a / P) + s * (D * b / Q) := by
  have e : 1 - s * P / ((1 - s) * Q + s * P) = (1 - s) * Q / ((1 - s) * Q + s * P) := by rw [eq_div_iff hm.ne', sub_mul, div_mul_cancel₀ _ hm.ne']; ring
  rw [e]
  generalize (1 - s) * Q + s * P = m at *
  field_simp

/-- C106: the central projection takes the segment between two points in front of the eye onto the segment between their images (so drawing a straight line for `vgeodesic` is exact). -/
theorem central_segment (f : ℝ) (p q : V3) (hp : InFront D (phi * f) (theta * f) p) (hq : InFront D (phi * f) (theta * f) q) :
    ∃ P Q, (central D phi theta f).point p = some P ∧ (central D phi theta f).point q = some Q ∧
      (∀ t, 0 ≤ t → t ≤ 1 → ∃ s, 0 ≤ s ∧ s ≤ 1 ∧ (central D phi theta f).point (lerp t p q) = some (lerp2 s P Q)) ∧
      (∀ s, 0 ≤ s → s ≤ 1 → ∃ t, 0 ≤ t ∧ t ≤ 1 ∧ (central D phi theta f).point (lerp t p q) = some (lerp2 s P Q)) := by
  have hp' : 0 < depth D (phi * f) (theta * f) p := by simp only [depth]; simp only [InFront] at hp; linarith
  have hq' : 0 < depth D (phi * f) (theta * f) q := by simp only [depth]; simp only [InFront] at hq; linarith
  have hl : ∀ t, depth D (phi * f) (theta * f) (lerp t p q) = (1 - t) * depth D (phi * f) (theta * f) p + t * depth D (phi * f) (theta * f) q := by
    intro t; simp only [depth, lerp, dot_lin]; ring
  refine ⟨_, _, central_point D phi theta f p hp'.ne', central_point D phi theta f q hq'.ne', ?_, ?_⟩
  · intro t h0 h1
    have hm : 0 < (1 - t) * depth D (phi * f) (theta * f) p + t * depth D (phi * f) (theta * f) q := by
      rcases h0.eq_or_lt with rfl | h0
      · simpa using hp'
      · have := mul_pos h0 hq'; have := mul_nonneg (sub_nonneg.mpr h1) hp'.le; linarith
    refine ⟨t * depth D (phi * f) (theta * f) q / ((1 - t) * depth D (phi * f) (theta * f) p + t * depth D (phi * f) (theta * f) q), by positivity, ?_, ?_⟩
    · rw [div_le_one hm]; have := mul_nonneg (sub_nonneg.mpr h1) hp'.le; linarith
    · rw [central_point D phi theta f _ (by rw [hl]; exact hm.ne'), hl]
      simp only [lerp, lerp2, dot_lin]
      congr 1
      ext
      · exact seg1 _ _ _ _ _ _ hp' hq' hm
      · exact seg1 _ _ _ _ _ _ hp' hq' hm
  · intro s h0 h1
    have hm : 0 < (1 - s) * depth D (phi * f) (theta * f) q + s * depth D (phi * f) (theta * f) p := by
      rcases h0.eq_or_lt with rfl | h0
      · simpa using hq'
      · have := mul_pos h0 hp'; have := mul_nonneg (sub_nonneg.mpr h1) hq'.le; linarith
    have hm2 : (1 - s * depth D (phi * f) (theta * f) p / ((1 - s) * depth D (phi * f) (theta * f) q + s * depth D (phi * f) (theta * f) p)) * depth D (phi * f) (theta * f) p +
        s * depth D (phi * f) (theta * f) p / ((1 - s) * depth D (phi * f) (theta * f) q + s * depth D (phi * f) (theta * f) p) * depth D (phi * f) (theta * f) q =
        depth D (phi * f) (theta * f) p * depth D (phi * f) (theta * f) q / ((1 - s) * depth D (phi * f) (theta * f) q + s * depth D (phi * f) (theta * f) p) := by
      have e : ∀ P Q : ℝ, 0 < (1 - s) * Q + s * P → (1 - s * P / ((1 - s) * Q + s * P)) * P + s * P / ((1 - s) * Q + s * P) * Q = P * Q / ((1 - s) * Q + s * P) := by
        intro P Q hm
        have e : 1 - s * P / ((1 - s) * Q + s * P) = (1 - s) * Q / ((1 - s) * Q + s * P) := by rw [eq_div_iff hm.ne', sub_mul, div_mul_cancel₀ _ hm.ne']; ring
        rw [e]
        field_simp
        ring
      exact e _ _ hm
    refine ⟨s * depth D (phi * f) (theta * f) p / ((1 - s) * depth D (phi * f) (theta * f) q + s * depth D (phi * f) (theta * f) p), by positivity, ?_, ?_⟩
    · rw [div_le_one hm]; have := mul_nonneg (sub_nonneg.mpr h1) hq'.le; linarith
    · rw [central_point D phi theta f _ (by rw [hl, hm2]; positivity), hl, hm2]
      simp only [lerp, lerp2, dot_lin]
      congr 1
      ext
      · exact seg2 _ _ _ _ _ _ hp' hq' hm
      · exact seg2 _ _ _ _ _ _ hp' hq' hm

/-- C106: of two points in front of the eye with the same image, the nearer one has the smaller `zindex`. -/
theorem central_zindex (f : ℝ) (hD : 0 < D) (p q : V3) (hp : InFront D (phi * f) (theta * f) p) (hq : InFront D (phi * f) (theta * f) q)
    (he : (central D phi theta f).point p = (central D phi theta f).point q) :
    (central D phi theta f).zindex p < (central D phi theta f).zindex q ↔ dot (toViewer (phi * f) (theta * f)) q < dot (toViewer (phi * f) (theta * f)) p := by
  have hp' : 0 < depth D (phi * f) (theta * f) p := by simp only [depth]; simp only [InFront] at hp; linarith
  have hq' : 0 < depth D (phi * f) (theta * f) q := by simp only [depth]; simp only [InFront] at hq; linarith
  rw [central_point D phi theta f p hp'.ne', central_point D phi theta f q hq'.ne'] at he
  simp only [central]
  generalize phi * f = ph at *
  generalize theta * f = th at *
  obtain ⟨e1, e2⟩ := Prod.mk.inj (Option.some.inj he)
  obtain ⟨haa, hbb, hcc, hab, hac, hbc, hE, -⟩ := axes_orthonormal D ph th
  have len : ∀ r : V3, (r.x - (vecEye D ph th).x) * (r.x - (vecEye D ph th).x) + (r.y - (vecEye D ph th).y) * (r.y - (vecEye D ph th).y) + (r.z - (vecEye D ph th).z) * (r.z - (vecEye D ph th).z) =
      dot (vecA ph) r ^ 2 + dot (vecB ph th) r ^ 2 + depth D ph th r ^ 2 := by
    intro r
    have hd := decompose ph th r
    have hx := congrArg V3.x hd
    have hy := congrArg V3.y hd
    have hz := congrArg V3.z hd
    rw [hE]
    simp only [add, smul] at hx hy hz ⊢
    simp only [depth]
    generalize dot (vecA ph) r = al at *
    generalize dot (vecB ph th) r = be at *
    generalize dot (toViewer ph th) r = ga at *
    rw [hx, hy, hz]
    simp only [dot] at haa hbb hcc hab hac hbc
    linear_combination al ^ 2 * haa + be ^ 2 * hbb + (ga - D) ^ 2 * hcc + 2 * al * be * hab + 2 * al * (ga - D) * hac + 2 * be * (ga - D) * hbc
  simp only [norm3, sub_lt_sub_iff_right]
  rw [Real.sqrt_lt_sqrt_iff (by rw [len]; positivity), len, len]
  have k1 : dot (vecA ph) p * depth D ph th q = dot (vecA ph) q * depth D ph th p := by
    rw [div_eq_div_iff hp'.ne' hq'.ne'] at e1
    have := mul_left_cancel₀ hD.ne' (by linear_combination e1 : D * (dot (vecA ph) p * depth D ph th q) = D * (dot (vecA ph) q * depth D ph th p)); exact this
  have k2 : dot (vecB ph th) p * depth D ph th q = dot (vecB ph th) q * depth D ph th p := by
    rw [div_eq_div_iff hp'.ne' hq'.ne'] at e2
    have := mul_left_cancel₀ hD.ne' (by linear_combination e2 : D * (dot (vecB ph th) p * depth D ph th q) = D * (dot (vecB ph th) q * depth D ph th p)); exact this
  have hdd : dot (toViewer ph th) q < dot (toViewer ph th) p ↔ depth D ph th p < depth D ph th q := by
    simp only [depth]; constructor <;> intro h <;> linarith
  rw [hdd]
  generalize depth D ph th p = dp at *
  generalize depth D ph th q = dq at *
  have e : (dot (vecA ph) p ^ 2 + dot (vecB ph th) p ^ 2 + dp ^ 2) * dq ^ 2 = (dot (vecA ph) q ^ 2 + dot (vecB ph th) q ^ 2 + dq ^ 2) * dp ^ 2 := by
    linear_combination (dot (vecA ph) p * dq + dot (vecA ph) q * dp) * k1 + (dot (vecB ph th) p * dq + dot (vecB ph th) q * dp) * k2
  have hQ : 0 < dot (vecA ph) q ^ 2 + dot (vecB ph th) q ^ 2 + dq ^ 2 := by positivity
  generalize dot (vecA ph) p ^ 2 + dot (vecB ph th) p ^ 2 + dp ^ 2 = P at *
  generalize dot (vecA ph) q ^ 2 + dot (vecB ph th) q ^ 2 + dq ^ 2 = Q at *
  have hP : P = Q * dp ^ 2 / dq ^ 2 := by rw [eq_div_iff (by positivity)]; exact e
  rw [hP, div_lt_iff₀ (by positivity), mul_lt_mul_iff_right₀ hQ, sq_lt_sq₀ hp'.le hq'.le]

end

/-! ## Signs of angles -/

theorem positive_divide (w n : ℝ) (hn : 0 ≤ n) (h : n = 0 → w ≤ 0) : positive (divide w n) ↔ 0 < w := by
  simp only [positive, divide]
  split_ifs with h0
  · constructor
    · rintro ⟨x, hx, -⟩; cases hx
    · intro hw; exact absurd (h h0) (not_le.mpr hw)
  · have hn' : 0 < n := lt_of_le_of_ne hn (Ne.symm h0)
    constructor
    · rintro ⟨x, hx, h⟩
      obtain rfl := Option.some.inj hx
      exact (div_pos_iff_of_pos_right hn').mp h
    · intro hw; exact ⟨_, rfl, div_pos hw hn'⟩

theorem positive_divide2 (w n m : ℝ) (hn : 0 ≤ n) (h : n = 0 → w ≤ 0) (hm : 0 ≤ m) (h' : m = 0 → w ≤ 0) : positive ((divide w n).bind fun w => divide w m) ↔ 0 < w := by
  by_cases h0 : n = 0
  · have : divide w n = none := by simp [divide, h0]
    rw [this]
    constructor
    · rintro ⟨x, hx, -⟩; cases hx
    · intro hw; exact absurd (h h0) (not_le.mpr hw)
  · have hn' : 0 < n := lt_of_le_of_ne hn (Ne.symm h0)
    have : divide w n = some (w / n) := by simp [divide, h0]
    rw [this]
    simp only [Option.bind_some]
    rw [positive_divide _ _ hm]
    · exact div_pos_iff_of_pos_right hn'
    · intro hm0; exact div_nonpos_of_nonpos_of_nonneg (h' hm0) hn

theorem norm3_nonneg (v : V3) : 0 ≤ norm3 v := Real.sqrt_nonneg _

theorem norm3_zero (v : V3) (h : norm3 v = 0) : v.x = 0 ∧ v.y = 0 ∧ v.z = 0 := by
  simp only [norm3] at h
  rw [Real.sqrt_eq_zero (by nlinarith [mul_self_nonneg v.x, mul_self_nonneg v.y, mul_self_nonneg v.z])] at h
  have hx := mul_self_nonneg v.x
  have hy := mul_self_nonneg v.y
  have hz := mul_self_nonneg v.z
  exact ⟨mul_self_eq_zero.mp (by linarith), mul_self_eq_zero.mp (by linarith), mul_self_eq_zero.mp (by linarith)⟩

/-- The angle of the central projection is positive if and only if the eye is behind the plane, seen along its normal. -/
theorem central_angle_pos (D phi theta f : ℝ) (p q r : V3) :
    positive ((central D phi theta f).angle p q r) ↔ 0 < det (sub p (vecEye D (phi * f) (theta * f))) (sub q p) (sub r p) := by
  simp only [central]
  have e : (p.x - (vecEye D (phi * f) (theta * f)).x) * (normal p q r).x + (p.y - (vecEye D (phi * f) (theta * f)).y) * (normal p q r).y + (p.z - (vecEye D (phi * f) (theta * f)).z) * (normal p q r).z =
      det (sub p (vecEye D (phi * f) (theta * f))) (sub q p) (sub r p) := by
    simp only [det, sub, normal]
  rw [e, positive_divide2 _ _ _ (norm3_nonneg _) _ (norm3_nonneg _)]
  · intro h
    obtain ⟨h1, h2, h3⟩ := norm3_zero _ h
    simp only at h1 h2 h3
    simp only [det, sub, h1, h2, h3]; simp
  · intro h
    obtain ⟨h1, h2, h3⟩ := norm3_zero _ h
    simp only [normal] at h1 h2 h3
    simp only [det, sub, h1, h2, h3]; simp

theorem parallel_angle_pos (phi theta f : ℝ) (p q r : V3) :
    positive ((parallel phi theta f).angle p q r) ↔ det (toViewer (phi * f) (theta * f)) (sub q p) (sub r p) < 0 := by
  simp only [parallel]
  have e : (vecC (phi * f) (theta * f)).x * (normal p q r).x + (vecC (phi * f) (theta * f)).y * (normal p q r).y + (vecC (phi * f) (theta * f)).z * (normal p q r).z =
      -det (toViewer (phi * f) (theta * f)) (sub q p) (sub r p) := by
    simp only [det, sub, normal, vecC, toViewer]; ring
  rw [e, positive_divide _ _ (norm3_nonneg _)]
  · exact neg_pos
  · intro h
    obtain ⟨h1, h2, h3⟩ := norm3_zero _ h
    simp only [normal] at h1 h2 h3
    simp only [det, sub, h1, h2, h3]; simp

/-- C106: three points in front of the eye have a positive angle if and only if their images are in clockwise order. -/
theorem central_angle (D phi theta f : ℝ) (hD : 0 < D) (p q r : V3) (hp : InFront D (phi * f) (theta * f) p) (hq : InFront D (phi * f) (theta * f) q) (hr : InFront D (phi * f) (theta * f) r) :
    ∃ P Q R, (central D phi theta f).point p = some P ∧ (central D phi theta f).point q = some Q ∧ (central D phi theta f).point r = some R ∧
      (positive ((central D phi theta f).angle p q r) ↔ area2 P Q R < 0) := by
  have hp' : 0 < depth D (phi * f) (theta * f) p := by simp only [depth]; simp only [InFront] at hp; linarith
  have hq' : 0 < depth D (phi * f) (theta * f) q := by simp only [depth]; simp only [InFront] at hq; linarith
  have hr' : 0 < depth D (phi * f) (theta * f) r := by simp only [depth]; simp only [InFront] at hr; linarith
  refine ⟨_, _, _, central_point D phi theta f p hp'.ne', central_point D phi theta f q hq'.ne', central_point D phi theta f r hr'.ne', ?_⟩
  rw [central_angle_pos]
  generalize phi * f = ph at *
  generalize theta * f = th at *
  obtain ⟨haa, hbb, hcc, hab, hac, hbc, hE, -⟩ := axes_orthonormal D ph th
  have dsub : ∀ u a b : V3, dot u (sub a b) = dot u a - dot u b := fun u a b => by simp only [dot, sub]; ring
  have dsm : ∀ (u a : V3) t, dot u (smul t a) = t * dot u a := fun u a t => by simp only [dot, smul]; ring
  rw [det_coords ph th, hE]
  simp only [dsub, dsm, hac, hbc, hcc]
  have ep : dot (toViewer ph th) p = D - depth D ph th p := by simp [depth]
  have eq : dot (toViewer ph th) q = D - depth D ph th q := by simp [depth]
  have er : dot (toViewer ph th) r = D - depth D ph th r := by simp [depth]
  rw [ep, eq, er]
  generalize depth D ph th p = hp at *
  generalize depth D ph th q = hq at *
  generalize depth D ph th r = hr at *
  generalize dot (vecA ph) p = a1 at *
  generalize dot (vecA ph) q = a2 at *
  generalize dot (vecA ph) r = a3 at *
  generalize dot (vecB ph th) p = b1 at *
  generalize dot (vecB ph th) q = b2 at *
  generalize dot (vecB ph th) r = b3 at *
  have e : area2 (D * a1 / hp, D * b1 / hp) (D * a2 / hq, D * b2 / hq) (D * a3 / hr, D * b3 / hr) =
      -(D ^ 2 / (hp * hq * hr)) * det ⟨a1 - D * 0, b1 - D * 0, D - hp - D * 1⟩ ⟨a2 - a1, b2 - b1, D - hq - (D - hp)⟩ ⟨a3 - a1, b3 - b1, D - hr - (D - hp)⟩ := by
    simp only [area2, det]
    field_simp
    ring
  rw [e]
  have hc : 0 < D ^ 2 / (hp * hq * hr) := by positivity
  constructor
  · intro h; have := mul_pos hc h; linarith
  · intro h
    by_contra hn
    have := mul_nonneg hc.le (neg_nonneg.mpr (not_lt.mp hn))
    linarith

/-- C106: the same for the parallel projection. -/
theorem parallel_angle (phi theta f : ℝ) (p q r : V3) :
    ∃ P Q R, (parallel phi theta f).point p = some P ∧ (parallel phi theta f).point q = some Q ∧ (parallel phi theta f).point r = some R ∧
      (positive ((parallel phi theta f).angle p q r) ↔ area2 P Q R < 0) := by
  refine ⟨_, _, _, rfl, rfl, rfl, ?_⟩
  rw [parallel_angle_pos]
  obtain ⟨haa, hbb, hcc, hab, hac, hbc, hE, -⟩ := axes_orthonormal 1 (phi * f) (theta * f)
  have dsub : ∀ u a b : V3, dot u (sub a b) = dot u a - dot u b := fun u a b => by simp only [dot, sub]; ring
  rw [det_coords (phi * f) (theta * f)]
  simp only [dsub, hac, hbc, hcc]
  simp only [det, area2, dot]
  constructor <;> intro h <;> linarith

/-- C106: the parallel projection shows the components of a point along the axes of the picture, and `zindex` is the depth behind the picture. -/
theorem parallel_is_projection (phi theta f : ℝ) (p : V3) (u v : ℝ) :
    (parallel phi theta f).point p = some (u, v) ↔
      add (smul u (vecA (phi * f))) (smul v (vecB (phi * f) (theta * f))) = add p (smul ((parallel phi theta f).zindex p) (toViewer (phi * f) (theta * f))) := by
  have hz : (parallel phi theta f).zindex p = -dot (toViewer (phi * f) (theta * f)) p := by simp only [parallel, vecC, dot, toViewer]; ring
  rw [hz]
  have hpt : (parallel phi theta f).point p = some (dot (vecA (phi * f)) p, dot (vecB (phi * f) (theta * f)) p) := rfl
  rw [hpt]
  generalize phi * f = ph at *
  generalize theta * f = th at *
  obtain ⟨haa, hbb, hcc, hab, hac, hbc, hE, -⟩ := axes_orthonormal 1 ph th
  have hdec := decompose ph th p
  constructor
  · intro he
    obtain ⟨rfl, rfl⟩ := Prod.mk.inj (Option.some.inj he)
    have hx := congrArg V3.x hdec
    have hy := congrArg V3.y hdec
    have hz := congrArg V3.z hdec
    ext <;> simp only [add, smul] at hx hy hz ⊢ <;> linarith
  · intro he
    have hx := congrArg V3.x he
    have hy := congrArg V3.y he
    have hz := congrArg V3.z he
    have key : ∀ w : V3, u * dot w (vecA ph) + v * dot w (vecB ph th) = dot w p - dot (toViewer ph th) p * dot w (toViewer ph th) := by
      intro w
      generalize dot (toViewer ph th) p = g at *
      simp only [add, smul] at hx hy hz
      simp only [dot]
      linear_combination w.x * hx + w.y * hy + w.z * hz
    have k2 := key (vecA ph)
    have k3 := key (vecB ph th)
    have comm : ∀ a b : V3, dot a b = dot b a := fun a b => by simp only [dot]; ring
    rw [haa, hab, hac] at k2
    rw [comm _ (vecA ph), hab, hbb, hbc] at k3
    congr 1
    ext <;> simp only <;> linarith

/-! ## The box of the graph -/

/-- A graph with a central projection in which the eye is outside of the ball around the box has everything in front of the eye. -/
theorem box_in_front (D phi theta : ℝ) (g : Graph3) (hx : 0 ≤ g.xscale) (hy : 0 ≤ g.yscale) (hz : 0 ≤ g.zscale) (hD : 0 ≤ D)
    (h : g.xscale ^ 2 + g.yscale ^ 2 + g.zscale ^ 2 < D ^ 2) (v : V3) (hv : 0 ≤ v.x ∧ v.x ≤ 1 ∧ 0 ≤ v.y ∧ v.y ≤ 1 ∧ 0 ≤ v.z ∧ v.z ≤ 1) :
    InFront D phi theta (g.space v) := by
  obtain ⟨-, -, hcc, -⟩ := axes_orthonormal D phi theta
  obtain ⟨a1, a2, a3, a4, a5, a6⟩ := hv
  have sq : ∀ s w : ℝ, 0 ≤ s → 0 ≤ w → w ≤ 1 → (2 * s * (w - 1 / 2)) ^ 2 ≤ s ^ 2 := by
    intro s w hs h0 h1
    have : (2 * (w - 1 / 2)) ^ 2 ≤ 1 := by nlinarith
    nlinarith [mul_le_mul_of_nonneg_left this (sq_nonneg s)]
  have b1 := sq _ _ hx a1 a2
  have b2 := sq _ _ hy a3 a4
  have b3 := sq _ _ hz a5 a6
  simp only [InFront, dot, Graph3.space] at *
  generalize 2 * g.xscale * (v.x - 1 / 2) = X at *
  generalize 2 * g.yscale * (v.y - 1 / 2) = Y at *
  generalize 2 * g.zscale * (v.z - 1 / 2) = Z at *
  generalize (toViewer phi theta).x = a at *
  generalize (toViewer phi theta).y = b at *
  generalize (toViewer phi theta).z = c at *
  refine lt_of_pow_lt_pow_left₀ 2 hD ?_
  have cs : (a * X + b * Y + c * Z) ^ 2 ≤ (a * a + b * b + c * c) * (X ^ 2 + Y ^ 2 + Z ^ 2) := by
    nlinarith [sq_nonneg (a * Y - b * X), sq_nonneg (a * Z - c * X), sq_nonneg (b * Z - c * Y)]
  rw [hcc] at cs
  linarith

theorem space_lerp (g : Graph3) (t : ℝ) (p q : V3) : g.space (lerp t p q) = lerp t (g.space p) (g.space q) := by
  ext <;> simp only [Graph3.space, lerp, add, smul] <;> ring

/-- C106: in such a graph every straight line between two points is drawn as the straight line between their images. -/
theorem geodesic (D phi theta f : ℝ) (g : Graph3) (hg : g.projector = central D phi theta f) (hx : 0 ≤ g.xscale) (hy : 0 ≤ g.yscale) (hz : 0 ≤ g.zscale) (hD : 0 ≤ D)
    (h : g.xscale ^ 2 + g.yscale ^ 2 + g.zscale ^ 2 < D ^ 2) (p q : V3)
    (hp : 0 ≤ p.x ∧ p.x ≤ 1 ∧ 0 ≤ p.y ∧ p.y ≤ 1 ∧ 0 ≤ p.z ∧ p.z ≤ 1) (hq : 0 ≤ q.x ∧ q.x ≤ 1 ∧ 0 ≤ q.y ∧ q.y ≤ 1 ∧ 0 ≤ q.z ∧ q.z ≤ 1) :
    ∃ P Q, g.vpos p = some P ∧ g.vpos q = some Q ∧
      (∀ t, 0 ≤ t → t ≤ 1 → ∃ s, 0 ≤ s ∧ s ≤ 1 ∧ g.vpos (lerp t p q) = some (lerp2 s P Q)) ∧
      (∀ s, 0 ≤ s → s ≤ 1 → ∃ t, 0 ≤ t ∧ t ≤ 1 ∧ g.vpos (lerp t p q) = some (lerp2 s P Q)) := by
  obtain ⟨P, Q, e1, e2, h1, h2⟩ := central_segment D phi theta f (g.space p) (g.space q) (box_in_front D _ _ g hx hy hz hD h p hp) (box_in_front D _ _ g hx hy hz hD h q hq)
  have hl : ∀ s, (g.xpos + (lerp2 s P Q).1 * g.size, g.ypos + (lerp2 s P Q).2 * g.size) = lerp2 s (g.xpos + P.1 * g.size, g.ypos + P.2 * g.size) (g.xpos + Q.1 * g.size, g.ypos + Q.2 * g.size) := by
    intro s; ext <;> simp only [lerp2] <;> ring
  refine ⟨_, _, by simp only [Graph3.vpos, hg, e1, Option.map_some]; rfl, by simp only [Graph3.vpos, hg, e2, Option.map_some]; rfl, ?_, ?_⟩
  · intro t h0 h1'
    obtain ⟨s, a, b, c⟩ := h1 t h0 h1'
    refine ⟨s, a, b, ?_⟩
    simp only [Graph3.vpos, hg, space_lerp, c, Option.map_some]
    exact congrArg some (hl s)
  · intro s h0 h1'
    obtain ⟨t, a, b, c⟩ := h2 s h0 h1'
    refine ⟨t, a, b, ?_⟩
    simp only [Graph3.vpos, hg, space_lerp, c, Option.map_some]
    exact congrArg some (hl s)

/-- The six faces of the box. -/
inductive Face where
  | x0 | x1 | y0 | y1 | z0 | z1

/-- The points of the plane of a face. -/
def Face.On : Face → V3 → Prop
  | .x0, v => v.x = 0
  | .x1, v => v.x = 1
  | .y0, v => v.y = 0
  | .y1, v => v.y = 1
  | .z0, v => v.z = 0
  | .z1, v => v.z = 1

def shown (g : Graph3) : Face → Prop
  | .x0 => g.px0show
  | .x1 => g.px1show
  | .y0 => g.py0show
  | .y1 => g.py1show
  | .z0 => g.pz0show
  | .z1 => g.pz1show

/-- A place in space is on the outer side of a face of the box. -/
def Beyond (g : Graph3) (e : V3) : Face → Prop
  | .x0 => e.x < -g.xscale
  | .x1 => g.xscale < e.x
  | .y0 => e.y < -g.yscale
  | .y1 => g.yscale < e.y
  | .z0 => e.z < -g.zscale
  | .z1 => g.zscale < e.z

/-- A direction leads away from a face of the box on its outer side. -/
def Outwards (e : V3) : Face → Prop
  | .x0 => e.x < 0
  | .x1 => 0 < e.x
  | .y0 => e.y < 0
  | .y1 => 0 < e.y
  | .z0 => e.z < 0
  | .z1 => 0 < e.z

theorem pos_mul_iff {k x y : ℝ} (hk : 0 < k) (h : x = k * y) : 0 < x ↔ 0 < y := by rw [h, mul_pos_iff_of_pos_left hk]

/-- C106: a face of the box is taken as visible if and only if the eye is on its outer side. -/
theorem faces_central (D phi theta f : ℝ) (g : Graph3) (hg : g.projector = central D phi theta f) (hx : 0 < g.xscale) (hy : 0 < g.yscale) (hz : 0 < g.zscale) (F : Face) :
    shown g F ↔ Beyond g (vecEye D (phi * f) (theta * f)) F := by
  have hxy : 0 < 4 * g.xscale * g.yscale := by positivity
  have hxz : 0 < 4 * g.xscale * g.zscale := by positivity
  have hyz : 0 < 4 * g.yscale * g.zscale := by positivity
  cases F <;> simp only [shown, Beyond, Graph3.px0show, Graph3.px1show, Graph3.py0show, Graph3.py1show, Graph3.pz0show, Graph3.pz1show, Graph3.vangle, hg, central_angle_pos]
  · rw [pos_mul_iff hyz (y := -g.xscale - (vecEye D (phi * f) (theta * f)).x) (by simp only [det, sub, Graph3.space]; ring)]; exact sub_pos
  · rw [pos_mul_iff hyz (y := (vecEye D (phi * f) (theta * f)).x - g.xscale) (by simp only [det, sub, Graph3.space]; ring)]; exact sub_pos
  · rw [pos_mul_iff hxz (y := -g.yscale - (vecEye D (phi * f) (theta * f)).y) (by simp only [det, sub, Graph3.space]; ring)]; exact sub_pos
  · rw [pos_mul_iff hxz (y := (vecEye D (phi * f) (theta * f)).y - g.yscale) (by simp only [det, sub, Graph3.space]; ring)]; exact sub_pos
  · rw [pos_mul_iff hxy (y := -g.zscale - (vecEye D (phi * f) (theta * f)).z) (by simp only [det, sub, Graph3.space]; ring)]; exact sub_pos
  · rw [pos_mul_iff hxy (y := (vecEye D (phi * f) (theta * f)).z - g.zscale) (by simp only [det, sub, Graph3.space]; ring)]; exact sub_pos

/-- C106: in the parallel projection, if and only if the direction to the viewer leads outwards. -/
theorem faces_parallel (phi theta f : ℝ) (g : Graph3) (hg : g.projector = parallel phi theta f) (hx : 0 < g.xscale) (hy : 0 < g.yscale) (hz : 0 < g.zscale) (F : Face) :
    shown g F ↔ Outwards (toViewer (phi * f) (theta * f)) F := by
  have hxy : 0 < 4 * g.xscale * g.yscale := by positivity
  have hxz : 0 < 4 * g.xscale * g.zscale := by positivity
  have hyz : 0 < 4 * g.yscale * g.zscale := by positivity
  cases F <;> simp only [shown, Outwards, Graph3.px0show, Graph3.px1show, Graph3.py0show, Graph3.py1show, Graph3.pz0show, Graph3.pz1show, Graph3.vangle, hg, parallel_angle_pos] <;> rw [← neg_pos]
  · rw [pos_mul_iff hyz (y := -(toViewer (phi * f) (theta * f)).x) (by simp only [det, sub, Graph3.space]; ring)]; exact neg_pos
  · rw [pos_mul_iff hyz (y := (toViewer (phi * f) (theta * f)).x) (by simp only [det, sub, Graph3.space]; ring)]
  · rw [pos_mul_iff hxz (y := -(toViewer (phi * f) (theta * f)).y) (by simp only [det, sub, Graph3.space]; ring)]; exact neg_pos
  · rw [pos_mul_iff hxz (y := (toViewer (phi * f) (theta * f)).y) (by simp only [det, sub, Graph3.space]; ring)]
  · rw [pos_mul_iff hxy (y := -(toViewer (phi * f) (theta * f)).z) (by simp only [det, sub, Graph3.space]; ring)]; exact neg_pos
  · rw [pos_mul_iff hxy (y := (toViewer (phi * f) (theta * f)).z) (by simp only [det, sub, Graph3.space]; ring)]

theorem xorder_cases (g : Graph3) : g.xorder = 0 ∨ g.xorder = 1 := by simp only [Graph3.xorder]; split_ifs <;> simp
theorem yorder_cases (g : Graph3) : g.yorder = 0 ∨ g.yorder = 1 := by simp only [Graph3.yorder]; split_ifs <;> simp

/-- C106: the first x-axis and the first y-axis are at the side of the viewer. -/
theorem front_axes (D phi theta f : ℝ) (hD : 0 < D) (g : Graph3) (hg : g.projector = central D phi theta f ∨ g.projector = parallel phi theta f) (at' v : ℝ) :
    ((g.axisPoint at' .x v).y = 1 ↔ 0 < (toViewer (phi * f) (theta * f)).y) ∧ ((g.axisPoint at' .y v).x = 1 ↔ 0 < (toViewer (phi * f) (theta * f)).x) := by
  have hE := (axes_orthonormal D (phi * f) (theta * f)).2.2.2.2.2.2.1
  simp only [Graph3.axisPoint, Graph3.xorder, Graph3.yorder]
  rcases hg with hg | hg <;> rw [hg]
  · have n : ∀ a b : V3, norm3 a < norm3 b ↔ a.x * a.x + a.y * a.y + a.z * a.z < b.x * b.x + b.y * b.y + b.z * b.z := by
      intro a b
      simp only [norm3]
      exact Real.sqrt_lt_sqrt_iff (by nlinarith [mul_self_nonneg a.x, mul_self_nonneg a.y, mul_self_nonneg a.z])
    simp only [central, sub_lt_sub_iff_right, n, hE]
    generalize toViewer (phi * f) (theta * f) = w
    simp only [smul]
    constructor
    · split_ifs with h
      · refine iff_of_true (if_pos h) ?_; by_contra hn; have := mul_nonneg hD.le (neg_nonneg.mpr (not_lt.mp hn)); nlinarith
      · refine iff_of_false (fun e => zero_ne_one ((if_neg h).symm.trans e)) ?_; intro hn; have := mul_pos hD hn; apply h; nlinarith
    · split_ifs with h
      · refine iff_of_true (if_pos h) ?_; by_contra hn; have := mul_nonneg hD.le (neg_nonneg.mpr (not_lt.mp hn)); nlinarith
      · refine iff_of_false (fun e => zero_ne_one ((if_neg h).symm.trans e)) ?_; intro hn; have := mul_pos hD hn; apply h; nlinarith
  · have hC := (axes_orthonormal D (phi * f) (theta * f)).2.2.2.2.2.2.2
    simp only [parallel, hC]
    generalize toViewer (phi * f) (theta * f) = w
    simp only [smul]
    constructor
    · split_ifs with h
      · refine iff_of_true (if_pos h) ?_; linarith
      · refine iff_of_false (fun e => zero_ne_one ((if_neg h).symm.trans e)) ?_; intro hn; apply h; linarith
    · split_ifs with h
      · refine iff_of_true (if_pos h) ?_; linarith
      · refine iff_of_false (fun e => zero_ne_one ((if_neg h).symm.trans e)) ?_; intro hn; apply h; linarith

/-- C106: an axis is put into the hidden layer if and only if none of the faces it is part of is visible. -/
theorem axes_hidden (g : Graph3) (n : AxisName) :
    g.hidden n ↔ ∀ F : Face, (∀ v, F.On (g.axisPoint 0 n v)) → ¬ shown g F := by
  have ne : ∀ c : ℝ, ¬ ∀ v : ℝ, v = c := fun c h => by have := h (c + 1); simp at this
  have key : ∀ A B : Prop, ∀ F1 F2 : Face, (shown g F1 ↔ A) → (shown g F2 ↔ B) → (∀ F : Face, (∀ v, F.On (g.axisPoint 0 n v)) ↔ F = F1 ∨ F = F2) →
      ((¬ A ∧ ¬ B) ↔ ∀ F : Face, (∀ v, F.On (g.axisPoint 0 n v)) → ¬ shown g F) := by
    intro A B F1 F2 h1 h2 h
    rw [← h1, ← h2]
    constructor
    · rintro ⟨a, b⟩ F hF
      rcases (h F).mp hF with rfl | rfl
      · exact a
      · exact b
    · intro hF
      exact ⟨hF _ ((h _).mpr (Or.inl rfl)), hF _ ((h _).mpr (Or.inr rfl))⟩
  cases n <;> simp only [Graph3.hidden]
  case x =>
    rcases xorder_cases g with h | h
    · rw [if_neg (by rw [h]; norm_num)]
      exact key _ _ .y0 .z0 Iff.rfl Iff.rfl (by intro F; cases F <;> simp [Face.On, Graph3.axisPoint, h, ne])
    · rw [if_pos h]
      exact key _ _ .y1 .z0 Iff.rfl Iff.rfl (by intro F; cases F <;> simp [Face.On, Graph3.axisPoint, h, ne])
  case x2 =>
    rcases xorder_cases g with h | h
    · rw [if_neg (by rw [h]; norm_num)]
      exact key _ _ .y1 .z0 Iff.rfl Iff.rfl (by intro F; cases F <;> simp [Face.On, Graph3.axisPoint, h, ne])
    · rw [if_pos h]
      exact key _ _ .y0 .z0 Iff.rfl Iff.rfl (by intro F; cases F <;> simp [Face.On, Graph3.axisPoint, h, ne])
  case x3 =>
    rcases xorder_cases g with h | h
    · rw [if_neg (by rw [h]; norm_num)]
      exact key _ _ .y0 .z1 Iff.rfl Iff.rfl (by intro F; cases F <;> simp [Face.On, Graph3.axisPoint, h, ne])
    · rw [if_pos h]
      exact key _ _ .y1 .z1 Iff.rfl Iff.rfl (by intro F; cases F <;> simp [Face.On, Graph3.axisPoint, h, ne])
  case x4 =>
    rcases xorder_cases g with h | h
    · rw [if_neg (by rw [h]; norm_num)]
      exact key _ _ .y1 .z1 Iff.rfl Iff.rfl (by intro F; cases F <;> simp [Face.On, Graph3.axisPoint, h, ne])
    · rw [if_pos h]
      exact key _ _ .y0 .z1 Iff.rfl Iff.rfl (by intro F; cases F <;> simp [Face.On, Graph3.axisPoint, h, ne])
  case y =>
    rcases yorder_cases g with h | h
    · rw [if_neg (by rw [h]; norm_num)]
      exact key _ _ .x0 .z0 Iff.rfl Iff.rfl (by intro F; cases F <;> simp [Face.On, Graph3.axisPoint, h, ne])
    · rw [if_pos h]
      exact key _ _ .x1 .z0 Iff.rfl Iff.rfl (by intro F; cases F <;> simp [Face.On, Graph3.axisPoint, h, ne])
  case y2 =>
    rcases yorder_cases g with h | h
    · rw [if_neg (by rw [h]; norm_num)]
      exact key _ _ .x1 .z0 Iff.rfl Iff.rfl (by intro F; cases F <;> simp [Face.On, Graph3.axisPoint, h, ne])
    · rw [if_pos h]
      exact key _ _ .x0 .z0 Iff.rfl Iff.rfl (by intro F; cases F <;> simp [Face.On, Graph3.axisPoint, h, ne])
  case y3 =>
    rcases yorder_cases g with h | h
    · rw [if_neg (by rw [h]; norm_num)]
      exact key _ _ .x0 .z1 Iff.rfl Iff.rfl (by intro F; cases F <;> simp [Face.On, Graph3.axisPoint, h, ne])
    · rw [if_pos h]
      exact key _ _ .x1 .z1 Iff.rfl Iff.rfl (by intro F; cases F <;> simp [Face.On, Graph3.axisPoint, h, ne])
  case y4 =>
    rcases yorder_cases g with h | h
    · rw [if_neg (by rw [h]; norm_num)]
      exact key _ _ .x1 .z1 Iff.rfl Iff.rfl (by intro F; cases F <;> simp [Face.On, Graph3.axisPoint, h, ne])
    · rw [if_pos h]
      exact key _ _ .x0 .z1 Iff.rfl Iff.rfl (by intro F; cases F <;> simp [Face.On, Graph3.axisPoint, h, ne])
  case z => exact key _ _ .x0 .y0 Iff.rfl Iff.rfl (by intro F; cases F <;> simp [Face.On, Graph3.axisPoint, ne])
  case z2 => exact key _ _ .x1 .y0 Iff.rfl Iff.rfl (by intro F; cases F <;> simp [Face.On, Graph3.axisPoint, ne])
  case z3 => exact key _ _ .x0 .y1 Iff.rfl Iff.rfl (by intro F; cases F <;> simp [Face.On, Graph3.axisPoint, ne])
  case z4 => exact key _ _ .x1 .y1 Iff.rfl Iff.rfl (by intro F; cases F <;> simp [Face.On, Graph3.axisPoint, ne])

/-- C106: the twelve axes are on twelve different edges of the box. -/
theorem axes_edges (g : Graph3) (n m : AxisName) (h : ∀ v, g.axisPoint 0 n v = g.axisPoint 0 m v) : n = m := by
  have h2 := h 2
  rcases xorder_cases g with hx | hx <;> rcases yorder_cases g with hy | hy <;> cases n <;> cases m <;>
    first
    | rfl
    | (exfalso; simp [Graph3.axisPoint, hx, hy] at h2)

/-- The opposite of an edge: ticks of the x-axes and y-axes point across the top or the bottom of the box, those of the z-axes to the opposite corner. -/
def across (n : AxisName) (v : V3) : V3 :=
  match n with
  | .x | .x2 | .x3 | .x4 => ⟨v.x, 1 - v.y, v.z⟩
  | .y | .y2 | .y3 | .y4 => ⟨1 - v.x, v.y, v.z⟩
  | _ => ⟨1 - v.x, 1 - v.y, v.z⟩

/-- C106: a tick points from its place on the axis across the box (axes on the edges of the box). -/
theorem ticks_partial (g : Graph3) (n : AxisName) (v : ℝ) : g.tickdirection 0 n v = g.vtickdirection (g.axisPoint 0 n v) (across n (g.axisPoint 0 n v)) := by
  cases n <;> simp [Graph3.tickdirection, Graph3.tickPoints, Graph3.axisPoint, across]

/-- A tick direction is a unit vector. -/
theorem tick_unit (g : Graph3) (p q : V3) (d : ℝ × ℝ) (h : g.vtickdirection p q = some d) : d.1 ^ 2 + d.2 ^ 2 = 1 := by
  simp only [Graph3.vtickdirection] at h
  cases hp : g.vpos p with
  | none => rw [hp] at h; cases h
  | some P =>
    cases hq : g.vpos q with
    | none => rw [hp, hq] at h; cases h
    | some Q =>
      rw [hp, hq] at h
      simp only [Option.bind_some, divide] at h
      split_ifs at h with h0
      · simp at h
      · simp only [Option.bind_some, Option.map_some, Option.some.injEq] at h
        subst h
        simp only [div_pow]
        rw [Real.sq_sqrt (by nlinarith [mul_self_nonneg (Q.1 - P.1), mul_self_nonneg (Q.2 - P.2)])]
        rw [Real.sqrt_eq_zero (by nlinarith [mul_self_nonneg (Q.1 - P.1), mul_self_nonneg (Q.2 - P.2)])] at h0
        rw [← add_div, div_eq_one_iff_eq h0]
        ring

/-- A graph seen along the x-axis. -/
noncomputable def sideView : Graph3 := ⟨0, 0, 1, 1, 1, 1, parallel 0 0 1⟩

theorem sideView_vpos (v : V3) : sideView.vpos v = some (2 * (v.y - 1 / 2), 2 * (v.z - 1 / 2)) := by
  simp [sideView, Graph3.vpos, Graph3.space, parallel, vecA, vecB]

/-- The claim about ticks fails for axes elsewhere (`xy12axesat`): the tick direction starts at height 0 and is skewed (`graph.py:1030, 1039, 1066, 1075`). -/
theorem ticks_skewed : ∃ g : Graph3, ∃ at' v : ℝ, ∃ d e : ℝ × ℝ,
    g.tickdirection at' .x v = some d ∧ g.vtickdirection (g.axisPoint at' .x v) (across .x (g.axisPoint at' .x v)) = some e ∧ e.2 = 0 ∧ 0 < d.2 := by
  have hx : sideView.xorder = 0 := by
    simp [Graph3.xorder, sideView, parallel, vecC]
  have hs : Real.sqrt 5 ≠ 0 := by rw [Ne, Real.sqrt_eq_zero (by norm_num)]; norm_num
  have hs4 : Real.sqrt 4 ≠ 0 := by rw [Ne, Real.sqrt_eq_zero (by norm_num)]; norm_num
  refine ⟨sideView, 1 / 2, 0, (2 / Real.sqrt 5, 1 / Real.sqrt 5), (2 / Real.sqrt 4, 0), ?_, ?_, rfl, ?_⟩
  · simp only [Graph3.tickdirection, Graph3.tickPoints, Graph3.vtickdirection, sideView_vpos, hx, Option.bind_some]
    norm_num [divide, hs]
  · simp only [Graph3.axisPoint, across, Graph3.vtickdirection, sideView_vpos, hx, Option.bind_some]
    norm_num [divide]
  · simp only; positivity

/-- Caps of error bars are not of the length asked for: seen from the side, the cap in a graph of the default scale is twice as long (`graph.py:945-956`; compare the two-dimensional `graph.py:489-501`). -/
theorem cap_too_long (length : ℝ) (v : V3) : ∃ P Q, sideView.vcap 1 length v = (some P, some Q) ∧ Q.1 - P.1 = 2 * length ∧ Q.2 = P.2 := by
  refine ⟨(2 * (v.y - 1 / 2 * length / 1 - 1 / 2), 2 * (v.z - 1 / 2)), (2 * (v.y + 1 / 2 * length / 1 - 1 / 2), 2 * (v.z - 1 / 2)), ?_, ?_, rfl⟩
  · simp only [Graph3.vcap, sideView_vpos]; rfl
  · simp only; ring

/-! ## Examples -/

/-- A graph of the default shape, seen from the default distance. -/
example : ∃ P, (central 10 (-30) 30 (Real.pi / 180)).point ⟨1, 1, -1 / 2⟩ = some P := by
  have h := box_in_front 10 (-30 * (Real.pi / 180)) (30 * (Real.pi / 180)) ⟨0, 0, 1, 1, 1, 1 / 2, central 10 (-30) 30 (Real.pi / 180)⟩ (by norm_num) (by norm_num) (by norm_num) (by norm_num)
    (by norm_num) ⟨1, 1, 0⟩ (by norm_num)
  have h' : InFront 10 (-30 * (Real.pi / 180)) (30 * (Real.pi / 180)) ⟨1, 1, -1 / 2⟩ := by
    convert h using 1
    simp only [Graph3.space]
    norm_num
  obtain ⟨P, -, e, -⟩ := central_segment 10 (-30) 30 (Real.pi / 180) _ _ h' h'
  exact ⟨P, e⟩

/-- Seen along the x-axis from the positive side, the face at `x = 1` is visible and the one at `x = 0` is not. -/
example : shown sideView .x1 ∧ ¬ shown sideView .x0 := by
  have h := fun F => faces_parallel 0 0 1 sideView rfl (by norm_num [sideView]) (by norm_num [sideView]) (by norm_num [sideView]) F
  rw [h, h]
  simp [Outwards, toViewer]

end PyX.Graph
