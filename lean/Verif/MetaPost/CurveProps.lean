import Verif.MetaPost.Curve
import Verif.MetaPost.Props
import Mathlib.Analysis.SpecialFunctions.Trigonometric.Bounds

/-!
# C61: tangents of MetaPost-like paths
-/

set_option linter.unusedSectionVars false
set_option linter.unusedSimpArgs false

namespace PyX.MetaPost

open Real

/-! ## Velocities -/

theorem sqrt5_bounds : 2 < √5 ∧ √5 < 3 := by
  constructor
  · rw [Real.lt_sqrt (by norm_num)]; norm_num
  · rw [Real.sqrt_lt' (by norm_num)]; norm_num

/-- The numerator of the velocity is positive. -/
theorem velocity_num_pos (s c t d : ℝ) (h1 : s ^ 2 + c ^ 2 = 1) (h2 : t ^ 2 + d ^ 2 = 1) :
    0 < 2 + √2 * (s - t / 16) * (t - s / 16) * (c - d) := by
  set P := (s - t / 16) * (t - s / 16) with hP
  set S := s ^ 2 + t ^ 2 with hS
  have hS0 : 0 ≤ S := by positivity
  have hS2 : S ≤ 2 := by nlinarith [sq_nonneg c, sq_nonneg d]
  have hP2 : P ^ 2 ≤ (289 / 512 * S) ^ 2 := by
    apply sq_le_sq'
    · rw [hP, hS]; nlinarith [sq_nonneg (s - t), sq_nonneg (s + t)]
    · rw [hP, hS]; nlinarith [sq_nonneg (s - t), sq_nonneg (s + t)]
  have hD : (c - d) ^ 2 ≤ 2 * (2 - S) := by rw [hS]; nlinarith [sq_nonneg (c + d)]
  have hSS : S ^ 2 * (2 - S) ≤ 32 / 27 := by
    nlinarith [mul_nonneg (sq_nonneg (S - 4 / 3)) (by linarith : (0:ℝ) ≤ S + 2 / 3)]
  have hPD : (P * (c - d)) ^ 2 < 2 := by
    have : (P * (c - d)) ^ 2 ≤ (289 / 512 * S) ^ 2 * (2 * (2 - S)) := by
      rw [mul_pow]
      exact mul_le_mul hP2 hD (sq_nonneg _) (sq_nonneg _)
    nlinarith
  have h2 : √2 * √2 = 2 := Real.mul_self_sqrt (by norm_num)
  have h3 : (0:ℝ) < √2 := by positivity
  have h4 : -√2 < P * (c - d) := by
    by_contra hh
    nlinarith [not_lt.mp hh]
  have h5 : √2 * (s - t / 16) * (t - s / 16) * (c - d) = √2 * (P * (c - d)) := by rw [hP]; ring
  rw [h5]
  nlinarith

/-- The denominator is not negative. -/
theorem velocity_den_nonneg (c d : ℝ) (h1 : -1 ≤ c) (h2 : -1 ≤ d) : 0 ≤ 2 + (√5 - 1) * c + (3 - √5) * d := by
  obtain ⟨h3, h4⟩ := sqrt5_bounds
  nlinarith

theorem velocity_pos (s c t d a v : ℝ) (h1 : s ^ 2 + c ^ 2 = 1) (h2 : t ^ 2 + d ^ 2 = 1) (ha : 0 ≤ a)
    (h : velocity s c t d a = some v) : 0 < v ∧ v ≤ 4 := by
  unfold velocity at h
  simp only at h
  split_ifs at h with hd
  simp only [Option.some.injEq] at h
  have h3 := velocity_num_pos s c t d h1 h2
  have h4 := velocity_den_nonneg c d (by nlinarith [sq_nonneg s]) (by nlinarith [sq_nonneg t])
  have h5 : 0 < 3 / 2 * a * (2 + (√5 - 1) * c + (3 - √5) * d) :=
    lt_of_le_of_ne (mul_nonneg (by linarith) h4) (Ne.symm hd)
  rw [← h]
  exact ⟨lt_min (by norm_num) (div_pos h3 h5), min_le_left _ _⟩

/-- The velocity exists unless both angles are 180 degrees. -/
theorem velocity_defined (s c t d a : ℝ) (h1 : -1 ≤ c) (h2 : -1 ≤ d) (h3 : ¬(c = -1 ∧ d = -1)) (ha : 0 < a) :
    (velocity s c t d a).isSome = true := by
  obtain ⟨h4, h5⟩ := sqrt5_bounds
  unfold velocity
  simp only
  have : 0 < 2 + (√5 - 1) * c + (3 - √5) * d := by
    rcases lt_or_eq_of_le h1 with h | h
    · nlinarith
    · rcases lt_or_eq_of_le h2 with h' | h'
      · nlinarith
      · exact absurd ⟨h.symm, h'.symm⟩ h3
  rw [if_neg (by positivity)]
  rfl

theorem decrease_nonneg (s1 c1 s2 c2 v t : ℝ) (hv : 0 ≤ v) : 0 ≤ decrease s1 c1 s2 c2 v t := by
  unfold decrease
  simp only
  have hs : (0:ℝ) < safety := by unfold safety; norm_num
  split_ifs with h1 h2 h3 h4
  · exact div_nonneg (abs_nonneg _) (mul_pos h2 hs).le
  all_goals exact hv

theorem decrease_id (s1 c1 s2 c2 v t : ℝ) (ht : 0 ≤ t) : decrease s1 c1 s2 c2 v t = v := by
  unfold decrease
  simp only
  split_ifs with h1 h2 h3 h4 <;> first | rfl | linarith

/-! ## Control points -/

/-- Point of the plane as a complex number. -/
def pt (p : ℝ × ℝ) : ℂ := ⟨p.1, p.2⟩

/-- Unit vector of an angle. -/
noncomputable def dir (a : ℝ) : ℂ := Complex.exp (a * Complex.I)

theorem dir_eq (a : ℝ) : dir a = ⟨cos a, sin a⟩ := by
  unfold dir
  exact Complex.ext (Complex.exp_ofReal_mul_I_re a) (Complex.exp_ofReal_mul_I_im a)

theorem dir_add (a b : ℝ) : dir (a + b) = dir a * dir b := by
  unfold dir
  rw [← Complex.exp_add]
  congr 1
  push_cast
  ring

theorem dir_two_pi (a : ℝ) : dir (a - 2 * π) = dir a ∧ dir (a + 2 * π) = dir a := by
  constructor
  · rw [dir_eq, dir_eq, cos_sub_two_pi, sin_sub_two_pi]
  · rw [dir_eq, dir_eq, cos_add_two_pi, sin_add_two_pi]

theorem dir_reduce (a : ℝ) : dir (reduceAngle a) = dir a := by
  unfold reduceAngle
  split_ifs
  · exact (dir_two_pi a).1
  · exact (dir_two_pi a).2
  · rfl

theorem norm_dir (a : ℝ) : ‖dir a‖ = 1 := by
  unfold dir
  exact Complex.norm_exp_ofReal_mul_I a

theorem arg_dir (w : ℂ) : (‖w‖ : ℂ) * dir (Complex.arg w) = w := by
  unfold dir
  exact Complex.norm_mul_exp_arg_mul_I w

/-- The control points lie in the directions of the angles. -/
theorem setControls_spec {px py qx qy rtp ltq dx dy a b : ℝ} {r l : ℝ × ℝ}
    (h : setControls px py qx qy rtp ltq dx dy (sin a) (cos a) (sin b) (cos b) = some (r, l)) :
    ∃ rr ss : ℝ, 0 ≤ rr ∧ 0 ≤ ss ∧ (0 ≤ rtp → 0 < rr) ∧ (0 ≤ ltq → 0 < ss) ∧
      pt r = pt (px, py) + rr * ((⟨dx, dy⟩ : ℂ) * dir a) ∧ pt l = pt (qx, qy) - ss * ((⟨dx, dy⟩ : ℂ) * dir (-b)) := by
  unfold setControls at h
  simp only [Option.bind_eq_some_iff, Option.map_eq_some_iff, Prod.mk.injEq] at h
  obtain ⟨v, hv, w, hw, h1, h2⟩ := h
  obtain ⟨hv0, -⟩ := velocity_pos _ _ _ _ _ _ (sin_sq_add_cos_sq a) (sin_sq_add_cos_sq b) (abs_nonneg _) hv
  obtain ⟨hw0, -⟩ := velocity_pos _ _ _ _ _ _ (sin_sq_add_cos_sq b) (sin_sq_add_cos_sq a) (abs_nonneg _) hw
  refine ⟨decrease (sin a) (cos a) (sin b) (cos b) v rtp, decrease (sin b) (cos b) (sin a) (cos a) w ltq,
    decrease_nonneg _ _ _ _ _ _ hv0.le, decrease_nonneg _ _ _ _ _ _ hw0.le, ?_, ?_, ?_, ?_⟩
  · intro ht
    rw [decrease_id _ _ _ _ _ _ ht]
    exact hv0
  · intro ht
    rw [decrease_id _ _ _ _ _ _ ht]
    exact hw0
  · rw [← h1, dir_eq]
    apply Complex.ext <;> simp [pt] <;> ring
  · rw [← h2, dir_eq]
    apply Complex.ext <;> simp [pt] <;> ring

/-! ## Runs -/

/-- Sensible data: different neighbouring knots, tensions of at least 3/4 or "at least" such tensions, no
negative curl; the knots of a cycle are repeated. -/
structure Proper (R : Run) : Prop where
  n : 1 ≤ R.n
  d : ∀ k, ¬(R.x (k + 1) = R.x k ∧ R.y (k + 1) = R.y k)
  rt : ∀ k, 3 / 4 ≤ |R.rt k|
  lt : ∀ k, 3 / 4 ≤ |R.lt k|
  start : ∀ g, R.start = .curl g → 0 ≤ g
  stop : ∀ g, R.stop = .curl g → 0 ≤ g
  cycle : R.start = .cycle ↔ R.stop = .cycle
  period : R.stop = .cycle → ∀ k, R.x (k + R.n) = R.x k ∧ R.y (k + R.n) = R.y k

/-- Position of a knot. -/
def Run.z (R : Run) (k : ℕ) : ℂ := ⟨R.x k, R.y k⟩

theorem delta_eq (R : Run) (k : ℕ) : R.delta k = ‖R.z (k + 1) - R.z k‖ := by
  rw [Complex.norm_def]
  rfl

theorem delta_pos (R : Run) (h : Proper R) (k : ℕ) : 0 < R.delta k := by
  rw [delta_eq]
  refine norm_pos_iff.mpr fun h0 => h.d k ?_
  have h1 := congrArg Complex.re (sub_eq_zero.mp h0)
  have h2 := congrArg Complex.im (sub_eq_zero.mp h0)
  exact ⟨h1, h2⟩

theorem chord_eq (R : Run) (k : ℕ) : (⟨R.dx k, R.dy k⟩ : ℂ) = R.z (k + 1) - R.z k := rfl

/-- Direction of a chord, as a unit vector. -/
noncomputable def chord (R : Run) (k : ℕ) : ℂ := (R.z (k + 1) - R.z k) / R.delta k

theorem chord_mul (R : Run) (k : ℕ) (h : 0 < R.delta k) : R.z (k + 1) - R.z k = R.delta k * chord R k := by
  have h0 : (R.delta k : ℂ) ≠ 0 := by exact_mod_cast h.ne'
  unfold chord
  rw [mul_div_cancel₀ _ h0]

theorem norm_chord (R : Run) (k : ℕ) (h : 0 < R.delta k) : ‖chord R k‖ = 1 := by
  unfold chord
  rw [norm_div, Complex.norm_real, norm_of_nonneg h.le, ← delta_eq, div_self h.ne']

theorem chord_arg (R : Run) (k : ℕ) (h : 0 < R.delta k) : dir (nArg (R.dx k) (R.dy k)) = chord R k := by
  have h0 : (R.delta k : ℂ) ≠ 0 := by exact_mod_cast h.ne'
  have h1 := arg_dir (⟨R.dx k, R.dy k⟩ : ℂ)
  rw [chord_eq, ← delta_eq] at h1
  unfold chord nArg
  rw [chord_eq, eq_div_iff h0, mul_comm]
  exact h1

/-- The turning angle turns one chord into the next. -/
theorem turn_spec (R : Run) (j : ℕ) (hj : 0 < R.delta j) (hk : 0 < R.delta (j + 1)) :
    chord R j * dir (R.turn (j + 1)) = chord R (j + 1) := by
  have hj0 : (R.delta j : ℂ) ≠ 0 := by exact_mod_cast hj.ne'
  have hk0 : (R.delta (j + 1) : ℂ) ≠ 0 := by exact_mod_cast hk.ne'
  set w : ℂ := ⟨R.dx (j + 1) * (R.dx j / R.delta j) + R.dy (j + 1) * (R.dy j / R.delta j),
    R.dy (j + 1) * (R.dx j / R.delta j) - R.dx (j + 1) * (R.dy j / R.delta j)⟩ with hw
  have e1 : w = (R.z (j + 1 + 1) - R.z (j + 1)) * (starRingEnd ℂ) (chord R j) := by
    unfold chord
    rw [← chord_eq, ← chord_eq, hw]
    apply Complex.ext <;> simp [Complex.div_re, Complex.div_im, Complex.normSq] <;> field_simp <;> ring
  have e2 : chord R j * (starRingEnd ℂ) (chord R j) = 1 := by
    rw [Complex.mul_conj, Complex.normSq_eq_norm_sq, norm_chord R j hj]
    norm_num
  have e3 : ‖w‖ = R.delta (j + 1) := by
    rw [e1, norm_mul, Complex.norm_conj, norm_chord R j hj, mul_one, delta_eq]
  have e4 := arg_dir w
  rw [e3] at e4
  have e5 : R.turn (j + 1) = Complex.arg w := rfl
  rw [e5]
  apply mul_left_cancel₀ hk0
  rw [← chord_mul R (j + 1) hk]
  calc (R.delta (j + 1) : ℂ) * (chord R j * dir w.arg) = chord R j * ((R.delta (j + 1) : ℂ) * dir w.arg) := by ring
    _ = (R.z (j + 1 + 1) - R.z (j + 1)) * (chord R j * (starRingEnd ℂ) (chord R j)) := by rw [e4, e1]; ring
    _ = _ := by rw [e2, mul_one]

theorem z_period (R : Run) (h : Proper R) (hc : R.stop = .cycle) (k : ℕ) : R.z (k + R.n) = R.z k := by
  obtain ⟨h1, h2⟩ := h.period hc k
  exact Complex.ext h1 h2

theorem chord_period (R : Run) (h : Proper R) (hc : R.stop = .cycle) (k : ℕ) : chord R (k + R.n) = chord R k := by
  unfold chord
  have e : k + R.n + 1 = (k + 1) + R.n := by omega
  rw [delta_eq, delta_eq, e, z_period R h hc, z_period R h hc]

theorem valid_chain (R : Run) (h : Proper R) (hw : R.way = .solve) : Valid R.chain where
  n := h.n
  d := delta_pos R h
  rt := h.rt
  lt := h.lt
  start := by
    intro g hg
    refine h.start g ?_
    have : R.start' = .curl g := hg
    unfold Run.start' at this
    split at this <;> simp_all
  stop := by
    intro g hg
    refine h.stop g ?_
    have : R.stop' = .curl g := hg
    unfold Run.stop' at this
    split at this <;> simp_all
  cycle := by
    have := h.cycle
    change R.start' = _ ↔ R.stop' = _
    unfold Run.start' Run.stop'
    rcases e1 : R.start with v | g | _ <;> rcases e2 : R.stop with v' | g' | _ <;> simp_all
  line := by
    rintro hn g g' ⟨h1, h2⟩
    have h1' : R.start' = .curl g := h1
    have h2' : R.stop' = .curl g' := h2
    have hn' : R.n = 1 := hn
    unfold Run.start' at h1'
    unfold Run.stop' at h2'
    unfold Run.way at hw
    rw [if_pos hn'] at hw
    rcases e1 : R.start with v | g | _ <;> rcases e2 : R.stop with v' | g' | _ <;> simp_all
  psi := by
    intro hc
    change R.psi R.n = 0
    have hc' : R.stop ≠ .cycle := by
      intro hh
      apply hc
      change R.stop' = _
      unfold Run.stop'
      rw [hh]
    unfold Run.psi
    rcases e2 : R.stop with v' | g' | _
    · simp
    · simp
    · exact absurd e2 hc'

/-- **C61.** The angles used for the control points satisfy Hobby's equations and no others do. -/
theorem run_smooth (R : Run) (h : Proper R) (hw : R.way = .solve) :
    Smooth R.chain (angles R.chain) ∧ ∀ θ, Smooth R.chain θ → ∀ k, k ≤ R.n → θ k = theta R.chain k :=
  ⟨angles_smooth _ (valid_chain R h hw), fun θ hs k hk => angles_unique _ (valid_chain R h hw) θ hs k hk⟩

/-- Knot `k` is smooth: it lies inside the run or it is the first knot of a cycle; `j` is the number of the curve
that ends there. -/
def SmoothKnot (R : Run) (j k : ℕ) : Prop :=
  (k = j + 1 ∧ j + 1 < R.n) ∨ (R.stop = .cycle ∧ j + 1 = R.n ∧ k = 0)

/-- The tangents at knot `k` behind curve `j`, provided the angles are the same. -/
theorem tangent_gen (R : Run) (j k : ℕ) (hw : R.way = .solve) (dj : 0 < R.delta j) (dj' : 0 < R.delta (j + 1))
    (dk : 0 < R.delta k) (e1 : R.psi (j + 1) = R.turn (j + 1))
    (e2 : theta R.chain (j + 1) = theta R.chain k ∧ chord R (j + 1) = chord R k ∧ R.z (j + 1) = R.z k)
    (r l r' l' : ℝ × ℝ) (h1 : R.segment j = some (r', l)) (h2 : R.segment k = some (r, l')) :
    ∃ (T : ℂ) (a b : ℝ), ‖T‖ = 1 ∧ 0 ≤ a ∧ 0 ≤ b ∧ (0 ≤ R.rt k → 0 < a) ∧ (0 ≤ R.lt (j + 1) → 0 < b) ∧
      pt r = R.z k + a * T ∧ pt l = R.z k - b * T := by
  unfold Run.segment at h1 h2
  rw [hw] at h1 h2
  simp only at h1 h2
  obtain ⟨-, ss, -, hs0, -, hs1, -, hl⟩ := setControls_spec h1
  obtain ⟨rr, -, hr0, -, hr1, -, hr, -⟩ := setControls_spec h2
  refine ⟨chord R k * dir (theta R.chain k), rr * R.delta k, ss * R.delta j, ?_,
    mul_nonneg hr0 dk.le, mul_nonneg hs0 dj.le,
    fun ht => mul_pos (hr1 ht) dk, fun ht => mul_pos (hs1 ht) dj, ?_, ?_⟩
  · rw [norm_mul, norm_chord R k dk, norm_dir, one_mul]
  · rw [hr, chord_eq, chord_mul R k dk]
    push_cast
    have : pt (R.x k, R.y k) = R.z k := rfl
    rw [this]
    ring
  · have e3 : -(-R.psi (j + 1) - theta R.chain (j + 1)) = R.turn (j + 1) + theta R.chain (j + 1) := by
      rw [e1]; ring
    rw [hl, e3, dir_add, chord_eq, chord_mul R j dj]
    have h4 : (R.delta j : ℂ) * chord R j * (dir (R.turn (j + 1)) * dir (theta R.chain (j + 1))) =
        (R.delta j : ℂ) * (chord R j * dir (R.turn (j + 1)) * dir (theta R.chain (j + 1))) := by ring
    have h5 : pt (R.x (j + 1), R.y (j + 1)) = R.z (j + 1) := rfl
    rw [h4, turn_spec R j dj dj', e2.1, e2.2.1, h5, e2.2.2]
    push_cast
    ring

/-- **C61.** At a smooth knot, the curve before the knot and the curve behind it have the same tangent: the
control points lie on a line through the knot, one before and one behind it. With an "at least" tension a control
point may coincide with the knot. -/
theorem tangent_continuous (R : Run) (h : Proper R) (j k : ℕ) (hk : SmoothKnot R j k) (r l r' l' : ℝ × ℝ)
    (h1 : R.segment j = some (r', l)) (h2 : R.segment k = some (r, l')) :
    ∃ (T : ℂ) (a b : ℝ), ‖T‖ = 1 ∧ 0 ≤ a ∧ 0 ≤ b ∧ (0 ≤ R.rt k → 0 < a) ∧ (0 ≤ R.lt (j + 1) → 0 < b) ∧
      pt r = R.z k + a * T ∧ pt l = R.z k - b * T := by
  have hw : R.way = .solve := by
    unfold Run.way
    rcases hk with ⟨-, hn⟩ | ⟨hc, -, -⟩
    · rw [if_neg (by omega)]
    · rw [hc, h.cycle.mpr hc]
      simp
  have e1 : R.psi (j + 1) = R.turn (j + 1) := by
    unfold Run.psi
    rcases hk with ⟨-, hn⟩ | ⟨hc, hn, -⟩
    · rcases e2 : R.stop with v' | g' | _
      · simp only; rw [if_neg (by omega)]
      · simp only; rw [if_neg (by omega)]
      · simp only; rw [if_neg (by omega)]
    · rw [hc]
      simp only
      rw [if_neg (by omega)]
  have e2 : theta R.chain (j + 1) = theta R.chain k ∧ chord R (j + 1) = chord R k ∧ R.z (j + 1) = R.z k := by
    rcases hk with ⟨rfl, hn⟩ | ⟨hc, hn, rfl⟩
    · exact ⟨rfl, rfl, rfl⟩
    · have hs := (angles_smooth _ (valid_chain R h hw)).last
      have hc' : R.chain.stop = .cycle := by
        change R.stop' = _
        unfold Run.stop'
        rw [hc]
      rw [hc'] at hs
      obtain ⟨h3, -, -⟩ := hs
      unfold angles at h3
      rw [if_pos le_rfl, if_pos (Nat.zero_le _)] at h3
      have e : R.chain.n = R.n := rfl
      rw [e] at h3
      rw [hn]
      refine ⟨h3, ?_, ?_⟩
      · have := chord_period R h hc 0
        rwa [Nat.zero_add] at this
      · have := z_period R h hc 0
        rwa [Nat.zero_add] at this
  exact tangent_gen R j k hw (delta_pos R h j) (delta_pos R h (j + 1)) (delta_pos R h k) e1 e2 r l r' l' h1 h2

/-- The same inside a run, where only the knots next to it matter. -/
theorem tangent_inner (R : Run) (j : ℕ) (hj : j + 1 < R.n) (dj : 0 < R.delta j) (dj' : 0 < R.delta (j + 1))
    (r l r' l' : ℝ × ℝ) (h1 : R.segment j = some (r', l)) (h2 : R.segment (j + 1) = some (r, l')) :
    ∃ (T : ℂ) (a b : ℝ), ‖T‖ = 1 ∧ 0 ≤ a ∧ 0 ≤ b ∧ (0 ≤ R.rt (j + 1) → 0 < a) ∧ (0 ≤ R.lt (j + 1) → 0 < b) ∧
      pt r = R.z (j + 1) + a * T ∧ pt l = R.z (j + 1) - b * T := by
  refine tangent_gen R j (j + 1) ?_ dj dj' dj' ?_ ⟨rfl, rfl, rfl⟩ r l r' l' h1 h2
  · unfold Run.way
    rw [if_neg (by omega)]
  · unfold Run.psi
    rcases e2 : R.stop with v' | g' | _
    all_goals
      simp only
      rw [if_neg (by omega)]

theorem theta_first (c : Chain ℝ) (hn : 1 ≤ c.n) (hs : c.stop ≠ .cycle) {v : ℝ} (hv : c.start = .given v) :
    theta c 0 = v := by
  obtain ⟨n, hn'⟩ : ∃ n, c.n = n + 1 := ⟨c.n - 1, by omega⟩
  unfold theta
  rw [Nat.sub_zero, hn']
  unfold thetaDown
  have e : c.n - 1 - n = 0 := by omega
  rw [e]
  have e0 : row c 0 = ⟨0, v, 0⟩ := by
    unfold row row0
    rw [hv]
  have e1 : vvAdj c 0 = (row c 0).v := by
    unfold vvAdj
    rcases e2 : c.stop with v' | g' | _
    · rfl
    · rfl
    · exact absurd e2 hs
  rw [e1, e0]
  ring

theorem theta_given (c : Chain ℝ) {v : ℝ} (hv : c.stop = .given v) : theta c c.n = v := by
  unfold theta
  rw [Nat.sub_self]
  unfold thetaDown thetaN
  rw [hv]

/-- **C61.** A given direction at the first knot is the direction of the curve there. -/
theorem first_direction (R : Run) (hn : 1 ≤ R.n) (hd : 0 < R.delta 0) (hc0 : R.stop ≠ .cycle) (v : ℝ)
    (hv : R.start = .given v) (r l : ℝ × ℝ)
    (h1 : R.segment 0 = some (r, l)) : ∃ a : ℝ, 0 ≤ a ∧ (0 ≤ R.rt 0 → 0 < a) ∧ pt r = R.z 0 + a * dir v := by
  have key : ∀ rr : ℝ, ∀ t : ℝ, dir t = dir (v - nArg (R.dx 0) (R.dy 0)) →
      (rr : ℂ) * ((⟨R.dx 0, R.dy 0⟩ : ℂ) * dir t) = ((rr * R.delta 0 : ℝ) : ℂ) * dir v := by
    intro rr t ht
    have e : v = nArg (R.dx 0) (R.dy 0) + (v - nArg (R.dx 0) (R.dy 0)) := by ring
    rw [ht, chord_eq, chord_mul R 0 hd]
    conv_rhs => rw [e, dir_add, chord_arg R 0 hd]
    push_cast
    ring
  unfold Run.segment at h1
  rcases hw : R.way with ⟨a, b⟩ | _ | _
  · rw [hw] at h1
    simp only at h1
    have hab : a = v := by
      unfold Run.way at hw
      rw [hv] at hw
      split_ifs at hw
      rcases e2 : R.stop with v' | g' | _ <;> simp_all
    subst hab
    have e3 : -sin (b - nArg (R.dx 0) (R.dy 0)) = sin (-(b - nArg (R.dx 0) (R.dy 0))) := (sin_neg _).symm
    have e4 : cos (b - nArg (R.dx 0) (R.dy 0)) = cos (-(b - nArg (R.dx 0) (R.dy 0))) := (cos_neg _).symm
    rw [e3, e4] at h1
    obtain ⟨rr, -, hr0, -, hr1, -, hr, -⟩ := setControls_spec h1
    refine ⟨rr * R.delta 0, mul_nonneg hr0 hd.le, fun ht => mul_pos (hr1 ht) hd, ?_⟩
    rw [hr, key rr _ rfl]
    rfl
  · unfold Run.way at hw
    rw [hv] at hw
    split_ifs at hw
    rcases e2 : R.stop with v' | g' | _ <;> simp_all
  · rw [hw] at h1
    simp only at h1
    obtain ⟨rr, -, hr0, -, hr1, -, hr, -⟩ := setControls_spec h1
    refine ⟨rr * R.delta 0, mul_nonneg hr0 hd.le, fun ht => mul_pos (hr1 ht) hd, ?_⟩
    have hst : R.chain.stop ≠ .cycle := by
      change R.stop' ≠ _
      unfold Run.stop'
      rcases e2 : R.stop with v' | g' | _ <;> simp_all
    have hc : R.chain.start = .given (reduceAngle (v - nArg (R.dx 0) (R.dy 0))) := by
      change R.start' = _
      unfold Run.start'
      rw [hv]
    have hs := theta_first R.chain hn hst hc
    rw [hr, key rr _ (by rw [hs, dir_reduce])]
    rfl

/-- **C61.** A given direction at the last knot is the direction of the curve there. -/
theorem last_direction (R : Run) (hn : 1 ≤ R.n) (hd : 0 < R.delta (R.n - 1)) (v : ℝ) (hv : R.stop = .given v) (r l : ℝ × ℝ)
    (h1 : R.segment (R.n - 1) = some (r, l)) :
    ∃ b : ℝ, 0 ≤ b ∧ (0 ≤ R.lt R.n → 0 < b) ∧ pt l = R.z R.n - b * dir v := by
  obtain ⟨m, hm⟩ : ∃ m, R.n = m + 1 := ⟨R.n - 1, by omega⟩
  have hm' : R.n - 1 = m := by omega
  rw [hm'] at h1 hd
  rw [hm]
  have key : ∀ ss : ℝ, ∀ t : ℝ, dir t = dir (v - nArg (R.dx m) (R.dy m)) →
      (ss : ℂ) * ((⟨R.dx m, R.dy m⟩ : ℂ) * dir t) = ((ss * R.delta m : ℝ) : ℂ) * dir v := by
    intro rr t ht
    have e : v = nArg (R.dx m) (R.dy m) + (v - nArg (R.dx m) (R.dy m)) := by ring
    rw [ht, chord_eq, chord_mul R m hd]
    conv_rhs => rw [e, dir_add, chord_arg R m hd]
    push_cast
    ring
  unfold Run.segment at h1
  rcases hw : R.way with ⟨a, b⟩ | _ | _
  · rw [hw] at h1
    simp only at h1
    have hab : b = v ∧ R.n = 1 := by
      unfold Run.way at hw
      rw [hv] at hw
      split_ifs at hw with hn
      rcases e2 : R.start with v' | g' | _ <;> simp_all
    obtain ⟨rfl, hn⟩ := hab
    obtain rfl : m = 0 := by omega
    have e3 : -sin (b - nArg (R.dx 0) (R.dy 0)) = sin (-(b - nArg (R.dx 0) (R.dy 0))) := (sin_neg _).symm
    have e4 : cos (b - nArg (R.dx 0) (R.dy 0)) = cos (-(b - nArg (R.dx 0) (R.dy 0))) := (cos_neg _).symm
    rw [e3, e4] at h1
    obtain ⟨-, ss, -, hr0, -, hr1, -, hr⟩ := setControls_spec h1
    refine ⟨ss * R.delta 0, mul_nonneg hr0 hd.le, fun ht => mul_pos (hr1 ht) hd, ?_⟩
    rw [hr, key ss _ (by rw [neg_neg])]
    rfl
  · unfold Run.way at hw
    rw [hv] at hw
    split_ifs at hw
    rcases e2 : R.start with v' | g' | _ <;> simp_all
  · rw [hw] at h1
    simp only at h1
    obtain ⟨-, ss, -, hr0, -, hr1, -, hr⟩ := setControls_spec h1
    refine ⟨ss * R.delta m, mul_nonneg hr0 hd.le, fun ht => mul_pos (hr1 ht) hd, ?_⟩
    have hc : R.chain.stop = .given (reduceAngle (v - nArg (R.dx m) (R.dy m))) := by
      change R.stop' = _
      unfold Run.stop'
      rw [hv, hm']
    have hs := theta_given R.chain hc
    have e : R.chain.n = m + 1 := hm
    rw [e] at hs
    have hp : R.psi (m + 1) = 0 := by
      unfold Run.psi
      rw [hv]
      simp only
      rw [if_pos hm.symm]
    have e5 : -(-R.psi (m + 1) - theta R.chain (m + 1)) = reduceAngle (v - nArg (R.dx m) (R.dy m)) := by
      rw [hp, hs]; ring
    rw [hr, e5, key ss _ (dir_reduce _)]
    rfl

/-- **C61.** A single curve with curls at both ends is the straight line: its control points lie on the chord, one in
the first and one in the last part, a third of the chord from the ends when the tensions are one. -/
theorem curls_straight (R : Run) (h : Proper R) (hw : R.way = .line) (r l : ℝ × ℝ) (h1 : R.segment 0 = some (r, l)) :
    ∃ a b : ℝ, 0 < a ∧ 0 < b ∧ a + b < 1 ∧ 3 * |R.rt 0| * a = 1 ∧ 3 * |R.lt 1| * b = 1 ∧
      pt r = R.z 0 + a * (R.z 1 - R.z 0) ∧ pt l = R.z 1 - b * (R.z 1 - R.z 0) := by
  have p0 := h.rt 0
  have p1 := h.lt 1
  unfold Run.segment at h1
  rw [hw] at h1
  simp only at h1
  rw [if_neg (by linarith), if_neg (by linarith)] at h1
  simp only [Option.some.injEq, Prod.mk.injEq] at h1
  have q0 : 1 / (3 * |R.rt 0|) ≤ 4 / 9 := by
    rw [div_le_div_iff₀ (by linarith) (by norm_num)]; linarith
  have q1 : 1 / (3 * |R.lt 1|) ≤ 4 / 9 := by
    rw [div_le_div_iff₀ (by linarith) (by norm_num)]; linarith
  refine ⟨1 / (3 * |R.rt 0|), 1 / (3 * |R.lt 1|), one_div_pos.mpr (by linarith), one_div_pos.mpr (by linarith),
    by linarith, mul_one_div_cancel (by linarith), mul_one_div_cancel (by linarith), ?_, ?_⟩
  · rw [← h1.1]
    generalize 1 / (3 * |R.rt 0|) = q
    apply Complex.ext <;> simp [pt, Run.z, Run.dx, Run.dy] <;> ring
  · rw [← h1.2]
    generalize 1 / (3 * |R.lt 1|) = q
    apply Complex.ext <;> simp [pt, Run.z, Run.dx, Run.dy] <;> ring

/-- **C61.** The control points exist unless the curve leaves and arrives exactly against the chord. -/
theorem segment_defined (R : Run) (h : Proper R) (hw : R.way = .solve) (k : ℕ)
    (hk : ¬(cos (theta R.chain k) = -1 ∧ cos (-R.psi (k + 1) - theta R.chain (k + 1)) = -1)) :
    (R.segment k).isSome = true := by
  unfold Run.segment
  rw [hw]
  simp only
  unfold setControls
  obtain ⟨v, hv⟩ := Option.isSome_iff_exists.mp (velocity_defined (sin (theta R.chain k)) _
    (sin (-R.psi (k + 1) - theta R.chain (k + 1))) _ |R.rt k| (neg_one_le_cos _) (neg_one_le_cos _) hk
    (by have := h.rt k; linarith))
  obtain ⟨w, hw⟩ := Option.isSome_iff_exists.mp (velocity_defined (sin (-R.psi (k + 1) - theta R.chain (k + 1))) _
    (sin (theta R.chain k)) _ |R.lt (k + 1)| (neg_one_le_cos _) (neg_one_le_cos _) (fun hh => hk hh.symm)
    (by have := h.lt (k + 1); linarith))
  rw [hv, hw]
  rfl

theorem sum_sides {s c t d : ℝ} (hs : (0 ≤ s ∧ 0 ≤ t) ∨ (s ≤ 0 ∧ t ≤ 0)) :
    ((|t| : ℝ) : ℂ) * (⟨c, s⟩ : ℂ) + ((|s| : ℝ) : ℂ) * (⟨d, -t⟩ : ℂ) = ((|s| * d + |t| * c : ℝ) : ℂ) := by
  rcases hs with ⟨ha, hb⟩ | ⟨ha, hb⟩
  · rw [abs_of_nonneg ha, abs_of_nonneg hb]
    apply Complex.ext <;> simp <;> ring
  · rw [abs_of_nonpos ha, abs_of_nonpos hb]
    apply Complex.ext <;> simp <;> ring

/-- **C61.** With an "at least" tension the control point lies in the triangle of the knots and the intersection
`V` of the tangents, if they intersect on the proper sides. -/
theorem atleast_inside {px py qx qy rtp ltq dx dy a b : ℝ} {r l : ℝ × ℝ}
    (h : setControls px py qx qy rtp ltq dx dy (sin a) (cos a) (sin b) (cos b) = some (r, l))
    (hx : qx = px + dx) (hy : qy = py + dy) (ht : rtp < 0)
    (hs : (0 ≤ sin a ∧ 0 ≤ sin b) ∨ (sin a ≤ 0 ∧ sin b ≤ 0)) (hp : 0 < |sin a| * cos b + |sin b| * cos a) :
    ∃ (V : ℂ) (f g ρ : ℝ), 0 ≤ f ∧ 0 ≤ g ∧ V = pt (px, py) + f * ((⟨dx, dy⟩ : ℂ) * dir a) ∧
      V = pt (qx, qy) - g * ((⟨dx, dy⟩ : ℂ) * dir (-b)) ∧ 0 ≤ ρ ∧ ρ ≤ 1 ∧ pt r = pt (px, py) + ρ * (V - pt (px, py)) := by
  unfold setControls at h
  simp only [Option.bind_eq_some_iff, Option.map_eq_some_iff, Prod.mk.injEq] at h
  obtain ⟨v, hv, w, hw, h1, h2⟩ := h
  obtain ⟨hv0, -⟩ := velocity_pos _ _ _ _ _ _ (sin_sq_add_cos_sq a) (sin_sq_add_cos_sq b) (abs_nonneg _) hv
  have hr0 := decrease_nonneg (sin a) (cos a) (sin b) (cos b) v rtp hv0.le
  have hle : decrease (sin a) (cos a) (sin b) (cos b) v rtp * (|sin a| * cos b + |sin b| * cos a) ≤ |sin b| := by
    unfold decrease
    simp only
    rw [if_pos hs, if_pos hp, if_pos ht]
    have hsf : 1 < safety := by unfold safety; norm_num
    have hb := abs_nonneg (sin b)
    split_ifs with h4
    · rw [div_mul_eq_mul_div, div_le_iff₀ (by positivity)]
      nlinarith [mul_nonneg hb hp.le]
    · have := not_lt.mp h4
      nlinarith [mul_pos hv0 hp]
  generalize decrease (sin a) (cos a) (sin b) (cos b) v rtp = rr at *
  generalize hS : |sin a| * cos b + |sin b| * cos a = S at *
  have hsum : |sin b| * (⟨cos a, sin a⟩ : ℂ) + |sin a| * (⟨cos b, -sin b⟩ : ℂ) = S := by
    rw [← hS]
    exact sum_sides hs
  have hS0 : (S : ℂ) ≠ 0 := by exact_mod_cast hp.ne'
  have hV : pt (px, py) + ((|sin b| / S : ℝ) : ℂ) * ((⟨dx, dy⟩ : ℂ) * dir a) =
      pt (qx, qy) - ((|sin a| / S : ℝ) : ℂ) * ((⟨dx, dy⟩ : ℂ) * dir (-b)) := by
    have hq : pt (qx, qy) = pt (px, py) + (⟨dx, dy⟩ : ℂ) := by
      rw [hx, hy]
      apply Complex.ext <;> simp [pt]
    have hd : (⟨dx, dy⟩ : ℂ) * (|sin b| * (⟨cos a, sin a⟩ : ℂ) + |sin a| * (⟨cos b, -sin b⟩ : ℂ)) = (⟨dx, dy⟩ : ℂ) * S := by
      rw [hsum]
    rw [hq, dir_eq, dir_eq, cos_neg, sin_neg]
    push_cast
    field_simp
    linear_combination hd
  refine ⟨_, |sin b| / S, |sin a| / S, if sin b = 0 then 0 else rr / (|sin b| / S), by positivity, by positivity, rfl,
    hV, ?_, ?_, ?_⟩
  · split_ifs with h0
    · exact le_rfl
    · positivity
  · split_ifs with h0
    · norm_num
    · have : 0 < |sin b| := abs_pos.mpr h0
      rw [div_le_one (by positivity), le_div_iff₀ hp]
      exact hle
  · have e1 : pt r = pt (px, py) + rr * ((⟨dx, dy⟩ : ℂ) * dir a) := by
      rw [← h1, dir_eq]
      apply Complex.ext <;> simp [pt] <;> ring
    rw [e1, add_sub_cancel_left]
    split_ifs with h0
    · rw [h0, abs_zero] at hle
      have : rr = 0 := by nlinarith
      rw [this]
      simp
    · have : |sin b| / S ≠ 0 := by
        have : 0 < |sin b| := abs_pos.mpr h0
        positivity
      rw [← mul_assoc (((rr / (|sin b| / S) : ℝ)) : ℂ), ← Complex.ofReal_mul, div_mul_cancel₀ _ this]

/-! ## Examples and a failure -/

/-- A single curve from `(0, 0)` to `(1, 0)` with given directions. -/
def single (a b : ℝ) : Run :=
  ⟨1, fun k => k, fun _ => 0, fun _ => 1, fun _ => 1, .given a, .given b⟩

/-- A right angle of three knots, curl at both ends. -/
def corner : Run :=
  ⟨2, fun k => if k = 0 then 0 else 1, fun k => if k = 0 then 0 else k - 1, fun _ => 1, fun _ => 1, .curl 1, .curl 1⟩

/-- A closed path through two knots. -/
def lens : Run :=
  ⟨2, fun k => if k % 2 = 0 then 0 else 1, fun _ => 0, fun _ => 1, fun _ => 1, .cycle, .cycle⟩

example (a b : ℝ) : Proper (single a b) := by
  refine ⟨le_rfl, fun k => ?_, fun k => ?_, fun k => ?_, fun g hg => ?_, fun g hg => ?_, ?_, ?_⟩
  · simp [single]
  · norm_num [single]
  · norm_num [single]
  · simp [single] at hg
  · simp [single] at hg
  · simp [single]
  · simp [single]

example : Proper corner ∧ SmoothKnot corner 0 1 ∧ corner.way = .solve := by
  refine ⟨⟨by norm_num [corner], fun k => ?_, fun k => ?_, fun k => ?_, fun g hg => ?_, fun g hg => ?_, ?_, ?_⟩,
    Or.inl ⟨rfl, by norm_num [corner]⟩, rfl⟩
  · rcases k with _ | k <;> simp [corner]
  · norm_num [corner]
  · norm_num [corner]
  · have : g = 1 := by simpa [corner] using hg.symm
    simp [this]
  · have : g = 1 := by simpa [corner] using hg.symm
    simp [this]
  · simp [corner]
  · simp [corner]

example : Proper lens ∧ SmoothKnot lens 1 0 ∧ lens.way = .solve := by
  refine ⟨⟨by norm_num [lens], fun k => ?_, fun k => ?_, fun k => ?_, fun g hg => ?_, fun g hg => ?_, ?_, ?_⟩,
    Or.inr ⟨rfl, rfl, rfl⟩, rfl⟩
  · rcases Nat.mod_two_eq_zero_or_one k with h | h <;> simp [lens, Nat.add_mod, h]
  · norm_num [lens]
  · norm_num [lens]
  · simp [lens] at hg
  · simp [lens] at hg
  · simp [lens]
  · intro _ k
    simp [lens]

theorem arg_one : nArg 1 0 = 0 := by
  have : (⟨1, 0⟩ : ℂ) = 1 := rfl
  unfold nArg
  rw [this, Complex.arg_one]

/-- A run for `curls_straight`. -/
example : Proper ⟨1, fun k => k, fun _ => 0, fun _ => 1, fun _ => 1, .curl 1, .curl 1⟩ ∧
    Run.way ⟨1, fun k => k, fun _ => 0, fun _ => 1, fun _ => 1, .curl 1, .curl 1⟩ = .line := by
  refine ⟨⟨le_rfl, fun k => by simp, fun k => by norm_num, fun k => by norm_num, fun g hg => ?_, fun g hg => ?_, by simp,
    by simp⟩, rfl⟩
  · have : g = 1 := by simpa using hg.symm
    simp [this]
  · have : g = 1 := by simpa using hg.symm
    simp [this]

/-- A straight line is divided into three equal parts. -/
example : (single 0 0).segment 0 = some ((1 / 3, 0), (2 / 3, 0)) := by
  have h1 : (single 0 0).way = .givens 0 0 := rfl
  have h2 : (single 0 0).dx 0 = 1 ∧ (single 0 0).dy 0 = 0 := by constructor <;> norm_num [single, Run.dx, Run.dy]
  have h3 : (2 : ℝ) + (√5 - 1) * 1 + (3 - √5) * 1 = 4 := by ring
  have h4 : velocity 0 1 0 1 1 = some (1 / 3) := by
    unfold velocity
    simp only
    rw [h3, if_neg (by norm_num)]
    norm_num
  have h5 : (single 0 0).x 0 = 0 ∧ (single 0 0).x 1 = 1 ∧ (single 0 0).y 0 = 0 ∧ (single 0 0).y 1 = 0 ∧
      (single 0 0).rt 0 = 1 ∧ (single 0 0).lt 1 = 1 := by norm_num [single]
  obtain ⟨e1, e2, e3, e4, e5, e6⟩ := h5
  unfold Run.segment
  rw [h1]
  simp only
  rw [h2.1, h2.2, arg_one, sub_self, sin_zero, cos_zero, neg_zero, e1, e2, e3, e4, e5, e6]
  unfold setControls
  rw [abs_one, h4]
  simp only [Option.bind_some, Option.map_some]
  rw [decrease_id _ _ _ _ _ _ (by norm_num)]
  norm_num

/-- **C61, against.** A curve that has to leave and to arrive in the direction opposite to the chord, e.g.
`path([beginknot(0, 0, angle=180), curve(), endknot(1, 0, angle=180)])`, has no control points: the velocity is
a division by zero (`pyx/metapost/mp_path.py:436-437`; MetaPost limits the quotient to 4 before it divides). -/
theorem reversed_fails : (single π π).segment 0 = none := by
  have h1 : (single π π).way = .givens π π := rfl
  have h2 : (single π π).dx 0 = 1 ∧ (single π π).dy 0 = 0 := by constructor <;> norm_num [single, Run.dx, Run.dy]
  have h4 : ∀ s t a, velocity s (-1) t (-1) a = none := by
    intro s t a
    unfold velocity
    simp only
    rw [if_pos]
    ring
  unfold Run.segment
  rw [h1]
  simp only
  rw [h2.1, h2.2, arg_one, sub_zero, cos_pi]
  unfold setControls
  rw [h4]
  rfl

end PyX.MetaPost
