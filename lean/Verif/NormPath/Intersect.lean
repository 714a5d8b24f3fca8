import Verif.NormPath.ItemProps

/-!
# Intersections of straight lines (`pyx/normpath.py:204-308`) and C43
-/

set_option linter.unusedSectionVars false

namespace PyX.NormPath

noncomputable section

open Classical in
/-- `closepoint` (`normpath.py:233-249`): the parameter in [0, 1] of the point of the line closest to `(x, y)`, if the
distance is less than epsilon.  The code calls it for lines not shorter than epsilon only, so that the division
is fine. -/
def closepoint (eps x y x0 y0 x1 y1 : ℝ) : Option ℝ :=
  let p := ((x0 - x) * (x0 - x1) + (y0 - y) * (y0 - y1)) / ((x1 - x0) ^ 2 + (y1 - y0) ^ 2)
  let p := min 1 (max 0 p)
  let xs := x0 + p * (x1 - x0)
  let ys := y0 + p * (y1 - y0)
  if hypot (xs - x) (ys - y) < eps then some p else none

/-- `invdet` (`normpath.py:206-212`). -/
def invdet (a b : Line ℝ) : ℝ := (b.x1 - b.x0) * (a.y1 - a.y0) - (b.y1 - b.y0) * (a.x1 - a.x0)

/-- `short_self`, `short_other` (`normpath.py:219-222`). -/
def short (eps : ℝ) (l : Line ℝ) : Prop := hypot (l.x1 - l.x0) (l.y1 - l.y0) < eps

/-- The first parameter found (`normpath.py:271-283`). -/
def firstOf : List (Option (ℝ × ℝ)) → List (ℝ × ℝ)
  | [] => []
  | some r :: _ => [r]
  | none :: rs => firstOf rs

open Classical in
/-- The branch for almost parallel lines (`normpath.py:215-283`), including the `x1_pt` in `sy_pt` (line 228). -/
def intersectParallel (eps : ℝ) (a b : Line ℝ) : List (ℝ × ℝ) :=
  let sx := 1 / 2 * (a.x0 + a.x1)
  let sy := 1 / 2 * (a.y0 + a.x1)
  let ox := 1 / 2 * (b.x0 + b.x1)
  let oy := 1 / 2 * (b.y0 + b.y1)
  if short eps a ∧ short eps b then
    if hypot (ox - sx) (oy - sy) < eps then [(1 / 2, 1 / 2)] else []
  else if short eps a then
    firstOf [(closepoint eps sx sy b.x0 b.y0 b.x1 b.y1).map fun p => (1 / 2, p)]
  else if short eps b then
    firstOf [(closepoint eps ox oy a.x0 a.y0 a.x1 a.y1).map fun p => (p, 1 / 2)]
  else
    firstOf [(closepoint eps a.x0 a.y0 b.x0 b.y0 b.x1 b.y1).map fun p => (0, p),
      (closepoint eps a.x1 a.y1 b.x0 b.y0 b.x1 b.y1).map fun p => (1, p),
      (closepoint eps b.x0 b.y0 a.x0 a.y0 a.x1 a.y1).map fun p => (p, 0),
      (closepoint eps b.x1 b.y1 a.x0 a.y0 a.x1 a.y1).map fun p => (p, 1)]

/-- `a_t` and `b_t` (`normpath.py:285-291`). -/
def crossParams (a b : Line ℝ) : ℝ × ℝ :=
  let det := 1 / invdet a b
  (((b.x1 - b.x0) * (b.y0 - a.y0) - (b.y1 - b.y0) * (b.x0 - a.x0)) * det,
   ((a.x1 - a.x0) * (b.y0 - a.y0) - (a.y1 - a.y0) * (b.x0 - a.x0)) * det)

/-- `min(1, max(0, t))`. -/
def clamp (t : ℝ) : ℝ := min 1 (max 0 t)

/-- The distance of two points. -/
def dist2 (p q : ℝ × ℝ) : ℝ := hypot (p.1 - q.1) (p.2 - q.2)

open Classical in
/-- `normline_pt.intersect` with a line (`normpath.py:204-306`). -/
def Line.intersect (a b : Line ℝ) (eps : ℝ) : List (ℝ × ℝ) :=
  if |invdet a b| < eps * eps then intersectParallel eps a b
  else
    let t := crossParams a b
    if (0 ≤ t.1 ∧ t.1 ≤ 1) ∧ (0 ≤ t.2 ∧ t.2 ≤ 1) then [t]
    else if dist2 (a.at_ (clamp t.1)) (b.at_ (clamp t.2)) > eps then [] else [(clamp t.1, clamp t.2)]

/-! ## Properties -/

theorem hypot_nonneg (x y : ℝ) : 0 ≤ hypot x y := Real.sqrt_nonneg _

theorem hypot_sq (x y : ℝ) : hypot x y ^ 2 = x ^ 2 + y ^ 2 := Real.sq_sqrt (by positivity)

theorem hypot_zero : hypot 0 0 = 0 := by simp [hypot]

theorem hypot_lt {x y e : ℝ} (he : 0 < e) : hypot x y < e ↔ x ^ 2 + y ^ 2 < e ^ 2 := Real.sqrt_lt' he

theorem hypot_le {x y e : ℝ} (he : 0 ≤ e) : hypot x y ≤ e ↔ x ^ 2 + y ^ 2 ≤ e ^ 2 := Real.sqrt_le_left he

theorem hypot_add_le (x y u v : ℝ) : hypot (x + u) (y + v) ≤ hypot x y + hypot u v := by
  rw [hypot_eq_abs, hypot_eq_abs, hypot_eq_abs]
  exact norm_add_le (⟨x, y⟩ : ℂ) ⟨u, v⟩

theorem hypot_neg (x y : ℝ) : hypot (-x) (-y) = hypot x y := by unfold hypot; simp

theorem hypot_smul (k x y : ℝ) : hypot (k * x) (k * y) = |k| * hypot x y := by
  unfold hypot
  rw [show (k * x) ^ 2 + (k * y) ^ 2 = k ^ 2 * (x ^ 2 + y ^ 2) by ring, Real.sqrt_mul (sq_nonneg k), Real.sqrt_sq_eq_abs]

theorem dist2_comm (p q : ℝ × ℝ) : dist2 p q = dist2 q p := by
  unfold dist2
  rw [← hypot_neg]
  congr 1 <;> ring

theorem dist2_self (p : ℝ × ℝ) : dist2 p p = 0 := by simp [dist2, hypot]

theorem dist2_triangle (p q r : ℝ × ℝ) : dist2 p r ≤ dist2 p q + dist2 q r := by
  unfold dist2
  refine le_trans (le_of_eq ?_) (hypot_add_le _ _ _ _)
  congr 1 <;> ring

theorem clamp_mem (t : ℝ) : 0 ≤ clamp t ∧ clamp t ≤ 1 := by
  unfold clamp
  exact ⟨le_min zero_le_one (le_max_left _ _), min_le_left _ _⟩

theorem clamp_of_mem {t : ℝ} (h : 0 ≤ t ∧ t ≤ 1) : clamp t = t := by
  unfold clamp
  rw [max_eq_right h.1, min_eq_right h.2]

/-- What `closepoint` returns is close. -/
theorem closepoint_sound {eps x y p : ℝ} {l : Line ℝ} (h : closepoint eps x y l.x0 l.y0 l.x1 l.y1 = some p) :
    (0 ≤ p ∧ p ≤ 1) ∧ dist2 (l.at_ p) (x, y) < eps := by
  unfold closepoint at h
  simp only at h
  split at h
  · rename_i hc
    rw [Option.some.injEq] at h
    subst h
    refine ⟨clamp_mem _, lt_of_eq_of_lt ?_ hc⟩
    unfold dist2 Line.at_
    congr 1 <;> ring
  · cases h

theorem firstOf_mem {l : List (Option (ℝ × ℝ))} {r : ℝ × ℝ} (h : r ∈ firstOf l) : some r ∈ l := by
  induction l with
  | nil => simp [firstOf] at h
  | cons a l ih =>
    cases a with
    | none => exact List.mem_cons_of_mem _ (ih h)
    | some r' =>
      simp only [firstOf, List.mem_singleton] at h
      rw [h]; exact List.mem_cons_self

theorem firstOf_ne_nil {l : List (Option (ℝ × ℝ))} {r : ℝ × ℝ} (h : some r ∈ l) : firstOf l ≠ [] := by
  induction l with
  | nil => simp at h
  | cons a l ih =>
    cases a with
    | none =>
      rcases List.mem_cons.mp h with h | h
      · cases h
      · exact ih h
    | some r' => simp [firstOf]

/-- The exact solution of the linear system. -/
theorem crossParams_spec (a b : Line ℝ) (h : invdet a b ≠ 0) :
    a.at_ (crossParams a b).1 = b.at_ (crossParams a b).2 := by
  have hd : 1 / invdet a b * invdet a b = 1 := by field_simp
  unfold crossParams Line.at_
  generalize 1 / invdet a b = d at hd ⊢
  unfold invdet at hd
  ext <;> simp only
  · linear_combination (b.x0 - a.x0) * hd
  · linear_combination (b.y0 - a.y0) * hd

theorem crossParams_unique (a b : Line ℝ) (h : invdet a b ≠ 0) (s t : ℝ) (hst : a.at_ s = b.at_ t) :
    crossParams a b = (s, t) := by
  unfold Line.at_ at hst
  rw [Prod.mk.injEq] at hst
  obtain ⟨h1, h2⟩ := hst
  have h' := h
  unfold crossParams
  ext <;> simp only <;> rw [mul_one_div, div_eq_iff h]
  · unfold invdet
    linear_combination (b.y1 - b.y0) * h1 - (b.x1 - b.x0) * h2
  · unfold invdet
    linear_combination (a.y1 - a.y0) * h1 - (a.x1 - a.x0) * h2

/-- The misprint in line 228 does not matter for this line: it is not degenerate, or `x1 = y1`. -/
def Regular (a b : Line ℝ) (eps : ℝ) : Prop := eps * eps ≤ |invdet a b| ∨ ¬ short eps a ∨ a.x1 = a.y1

theorem middle_at (l : Line ℝ) : l.at_ (1 / 2) = (1 / 2 * (l.x0 + l.x1), 1 / 2 * (l.y0 + l.y1)) := by
  ext <;> simp only [Line.at_] <;> ring

/-- **C43.**  Soundness: the parameters are within [0, 1] and the two points are not further apart than epsilon. -/
theorem intersect_sound_partial (a b : Line ℝ) (eps : ℝ) (heps : 0 < eps) (hreg : Regular a b eps) :
    ∀ r ∈ a.intersect b eps, (0 ≤ r.1 ∧ r.1 ≤ 1) ∧ (0 ≤ r.2 ∧ r.2 ≤ 1) ∧ dist2 (a.at_ r.1) (b.at_ r.2) ≤ eps := by
  intro r hr
  have half : (0 : ℝ) ≤ 1 / 2 ∧ (1 / 2 : ℝ) ≤ 1 := by norm_num
  have zero : (0 : ℝ) ≤ 0 ∧ (0 : ℝ) ≤ 1 := by norm_num
  have one : (0 : ℝ) ≤ 1 ∧ (1 : ℝ) ≤ 1 := by norm_num
  have h0 : ∀ l : Line ℝ, l.at_ 0 = (l.x0, l.y0) := fun l => by ext <;> simp [Line.at_]
  have h1 : ∀ l : Line ℝ, l.at_ 1 = (l.x1, l.y1) := fun l => by ext <;> simp [Line.at_]
  unfold Line.intersect at hr
  by_cases hdet : |invdet a b| < eps * eps
  · rw [if_pos hdet] at hr
    unfold intersectParallel at hr
    simp only at hr
    by_cases ha : short eps a
    · have hx : a.x1 = a.y1 := by
        rcases hreg with h | h | h
        · linarith
        · exact absurd ha h
        · exact h
      have hm : (1 / 2 * (a.x0 + a.x1), 1 / 2 * (a.y0 + a.x1)) = a.at_ (1 / 2) := by rw [middle_at, hx]
      by_cases hb : short eps b
      · rw [if_pos ⟨ha, hb⟩] at hr
        split at hr
        · rename_i hc
          simp only [List.mem_singleton] at hr
          subst hr
          refine ⟨half, half, le_of_eq_of_le ?_ hc.le⟩
          rw [dist2_comm]
          simp only
          rw [← hm, middle_at b]
          rfl
        · simp at hr
      · rw [if_neg (fun h => hb h.2), if_pos ha] at hr
        have := firstOf_mem hr
        simp only [List.mem_singleton] at this
        obtain ⟨p, hp, rfl⟩ := Option.map_eq_some_iff.mp this.symm
        obtain ⟨h2, h3⟩ := closepoint_sound hp
        refine ⟨half, h2, ?_⟩
        rw [dist2_comm]
        simp only
        rw [← hm]
        exact h3.le
    · rw [if_neg (fun h => ha h.1), if_neg ha] at hr
      by_cases hb : short eps b
      · rw [if_pos hb] at hr
        have := firstOf_mem hr
        simp only [List.mem_singleton] at this
        obtain ⟨p, hp, rfl⟩ := Option.map_eq_some_iff.mp this.symm
        obtain ⟨h2, h3⟩ := closepoint_sound hp
        refine ⟨h2, half, ?_⟩
        simp only
        rw [middle_at b]
        exact h3.le
      · rw [if_neg hb] at hr
        have := firstOf_mem hr
        simp only [List.mem_cons, List.not_mem_nil, or_false] at this
        rcases this with this | this | this | this
        · obtain ⟨p, hp, rfl⟩ := Option.map_eq_some_iff.mp this.symm
          obtain ⟨h2, h3⟩ := closepoint_sound hp
          refine ⟨zero, h2, ?_⟩
          rw [dist2_comm]
          simp only
          rw [h0]; exact h3.le
        · obtain ⟨p, hp, rfl⟩ := Option.map_eq_some_iff.mp this.symm
          obtain ⟨h2, h3⟩ := closepoint_sound hp
          refine ⟨one, h2, ?_⟩
          rw [dist2_comm]
          simp only
          rw [h1]; exact h3.le
        · obtain ⟨p, hp, rfl⟩ := Option.map_eq_some_iff.mp this.symm
          obtain ⟨h2, h3⟩ := closepoint_sound hp
          refine ⟨h2, zero, ?_⟩
          simp only
          rw [h0]; exact h3.le
        · obtain ⟨p, hp, rfl⟩ := Option.map_eq_some_iff.mp this.symm
          obtain ⟨h2, h3⟩ := closepoint_sound hp
          refine ⟨h2, one, ?_⟩
          simp only
          rw [h1]; exact h3.le
  · rw [if_neg hdet] at hr
    have hne : invdet a b ≠ 0 := by
      intro e
      apply hdet
      rw [e, abs_zero]
      positivity
    simp only at hr
    split at hr
    · rename_i hc
      simp only [List.mem_singleton] at hr
      subst hr
      refine ⟨hc.1, hc.2, ?_⟩
      rw [crossParams_spec a b hne, dist2_self]
      exact heps.le
    · split at hr
      · simp at hr
      · rename_i hc
        simp only [List.mem_singleton] at hr
        subst hr
        exact ⟨clamp_mem _, clamp_mem _, not_lt.mp hc⟩

/-- **C43.**  Completeness for lines which are not almost parallel: a common point is found, exactly and only it. -/
theorem intersect_complete (a b : Line ℝ) (eps : ℝ) (heps : 0 < eps) (hdet : eps * eps ≤ |invdet a b|) (s t : ℝ)
    (hs : 0 ≤ s ∧ s ≤ 1) (ht : 0 ≤ t ∧ t ≤ 1) (h : a.at_ s = b.at_ t) : a.intersect b eps = [(s, t)] := by
  have hne : invdet a b ≠ 0 := by
    intro e
    rw [e, abs_zero] at hdet
    nlinarith
  unfold Line.intersect
  rw [if_neg (not_lt.mpr hdet)]
  simp only [crossParams_unique a b hne s t h]
  rw [if_pos ⟨hs, ht⟩]

/-- The point which `closepoint` considers is the closest one. -/
theorem closepoint_complete {eps x y q : ℝ} (l : Line ℝ) (heps : 0 < eps) (hl : ¬ short eps l)
    (hq : 0 ≤ q ∧ q ≤ 1) (h : dist2 (l.at_ q) (x, y) < eps) :
    (closepoint eps x y l.x0 l.y0 l.x1 l.y1).isSome := by
  unfold closepoint
  simp only
  rw [if_pos]
  · rfl
  obtain ⟨dx, hdx⟩ : ∃ dx, dx = l.x1 - l.x0 := ⟨_, rfl⟩
  obtain ⟨dy, hdy⟩ : ∃ dy, dy = l.y1 - l.y0 := ⟨_, rfl⟩
  obtain ⟨L, hL⟩ : ∃ L, L = dx ^ 2 + dy ^ 2 := ⟨_, rfl⟩
  have hLpos : 0 < L := by
    unfold short at hl
    rw [← hdx, ← hdy, hypot_lt heps, ← hL] at hl
    have : 0 < eps ^ 2 := by positivity
    linarith
  obtain ⟨p, hp⟩ : ∃ p, p = ((l.x0 - x) * (l.x0 - l.x1) + (l.y0 - y) * (l.y0 - l.y1)) / ((l.x1 - l.x0) ^ 2 + (l.y1 - l.y0) ^ 2) :=
    ⟨_, rfl⟩
  have hpL : p * L = (l.x0 - x) * (l.x0 - l.x1) + (l.y0 - y) * (l.y0 - l.y1) := by
    rw [hp, hL, hdx, hdy]
    rw [hL, hdx, hdy] at hLpos
    rw [div_mul_cancel₀ _ hLpos.ne']
  rw [← hp]
  have key : ∀ u : ℝ, (l.x0 + u * (l.x1 - l.x0) - x) ^ 2 + (l.y0 + u * (l.y1 - l.y0) - y) ^ 2 =
      L * (u - p) ^ 2 + ((l.x0 + p * (l.x1 - l.x0) - x) ^ 2 + (l.y0 + p * (l.y1 - l.y0) - y) ^ 2) := by
    intro u
    rw [hL, hdx, hdy] at hpL ⊢
    linear_combination (2 * u - 2 * p) * hpL
  rw [hypot_lt heps, key (min 1 (max 0 p))]
  unfold dist2 Line.at_ at h
  rw [hypot_lt heps] at h
  have e : (l.x0 + (l.x1 - l.x0) * q - x) ^ 2 + (l.y0 + (l.y1 - l.y0) * q - y) ^ 2 =
      (l.x0 + q * (l.x1 - l.x0) - x) ^ 2 + (l.y0 + q * (l.y1 - l.y0) - y) ^ 2 := by ring
  simp only at h
  rw [e, key q] at h
  have hsq : (min 1 (max 0 p) - p) ^ 2 ≤ (q - p) ^ 2 := by
    rw [sq_le_sq]
    rcases le_total p 0 with hp0 | hp0
    · rw [max_eq_left hp0, min_eq_right zero_le_one, abs_of_nonneg (by linarith), abs_of_nonneg (by linarith)]
      linarith
    · rw [max_eq_right hp0]
      rcases le_total p 1 with hp1 | hp1
      · rw [min_eq_right hp1]; simp
      · rw [min_eq_left hp1, abs_of_nonpos (by linarith), abs_of_nonpos (by linarith)]
        linarith
  nlinarith [mul_le_mul_of_nonneg_left hsq hLpos.le]

/-- Points of a short line are close to its middle. -/
theorem short_middle (l : Line ℝ) (eps q : ℝ) (h : short eps l) (hq : 0 ≤ q ∧ q ≤ 1) :
    dist2 (l.at_ q) (l.at_ (1 / 2)) < eps / 2 := by
  unfold short at h
  have e : dist2 (l.at_ q) (l.at_ (1 / 2)) = |q - 1 / 2| * hypot (l.x1 - l.x0) (l.y1 - l.y0) := by
    rw [← hypot_smul]
    unfold dist2 Line.at_
    congr 1 <;> ring
  rw [e]
  have h1 : |q - 1 / 2| ≤ 1 / 2 := by rw [abs_le]; constructor <;> linarith
  have h2 := hypot_nonneg (l.x1 - l.x0) (l.y1 - l.y0)
  nlinarith [abs_nonneg (q - 1 / 2)]

/-- The geometric core: of two long, almost parallel lines through a common point, going in the same sense from it by
`u` times the first and `v` times the second, the end of the part that is not longer is close to the other line. -/
theorem parallel_close (eps ax ay bx by' u v : ℝ) (heps : 0 < eps)
    (hdet : |bx * ay - by' * ax| < eps * eps) (hb : eps ^ 2 ≤ bx ^ 2 + by' ^ 2)
    (hu : |u| ≤ 1) (hdot : 0 ≤ u * v * (ax * bx + ay * by'))
    (hlen : u ^ 2 * (ax ^ 2 + ay ^ 2) ≤ v ^ 2 * (bx ^ 2 + by' ^ 2)) :
    ∃ w, (0 ≤ v → 0 ≤ w ∧ w ≤ v) ∧ (v ≤ 0 → v ≤ w ∧ w ≤ 0) ∧ hypot (w * bx - u * ax) (w * by' - u * ay) < eps := by
  obtain ⟨B, hB⟩ : ∃ B, B = bx ^ 2 + by' ^ 2 := ⟨_, rfl⟩
  obtain ⟨A, hA⟩ : ∃ A, A = ax ^ 2 + ay ^ 2 := ⟨_, rfl⟩
  obtain ⟨d, hd⟩ : ∃ d, d = ax * bx + ay * by' := ⟨_, rfl⟩
  have hBpos : 0 < B := by rw [hB]; have : 0 < eps ^ 2 := by positivity
                           linarith
  rw [← hB] at hb hlen
  rw [← hA] at hlen
  rw [← hd] at hdot
  have hA0 : 0 ≤ A := by rw [hA]; positivity
  obtain ⟨w, hw⟩ : ∃ w, w = u * d / B := ⟨_, rfl⟩
  have hwB : w * B = u * d := by rw [hw]; field_simp
  have cs : d ^ 2 ≤ A * B := by
    rw [hd, hA, hB]
    nlinarith [sq_nonneg (ax * by' - ay * bx)]
  have hw2 : w ^ 2 ≤ v ^ 2 := by
    have h1 : (w * B) ^ 2 ≤ (v * B) ^ 2 := by
      rw [hwB]
      have : u ^ 2 * d ^ 2 ≤ u ^ 2 * (A * B) := mul_le_mul_of_nonneg_left cs (sq_nonneg u)
      have h3 : u ^ 2 * A * B ≤ v ^ 2 * B * B := mul_le_mul_of_nonneg_right hlen hBpos.le
      nlinarith
    have h2 : 0 < B ^ 2 := by positivity
    rw [mul_pow, mul_pow] at h1
    exact le_of_mul_le_mul_right h1 h2
  have hwv : 0 ≤ w * v := by
    have : 0 ≤ (w * v) * B := by
      have e : (w * v) * B = u * v * d := by linear_combination v * hwB
      rw [e]; exact hdot
    exact nonneg_of_mul_nonneg_left this hBpos
  have habs := sq_le_sq.mp hw2
  refine ⟨w, ?_, ?_, ?_⟩
  · intro hv
    rw [abs_of_nonneg hv] at habs
    have h1 := (abs_le.mp habs).2
    refine ⟨?_, h1⟩
    rcases eq_or_lt_of_le hv with e | e
    · rw [← e] at habs
      have := abs_nonpos_iff.mp habs
      linarith
    · by_contra hn
      push Not at hn
      nlinarith
  · intro hv
    rw [abs_of_nonpos hv] at habs
    have h1 := (abs_le.mp habs).1
    refine ⟨by linarith, ?_⟩
    rcases eq_or_lt_of_le hv with e | e
    · rw [e] at habs
      simp only [neg_zero] at habs
      have := abs_nonpos_iff.mp habs
      linarith
    · by_contra hn
      push Not at hn
      nlinarith
  · rw [hypot_lt heps]
    -- the distance times the length of the other line is the spanned area
    have harea : ((w * bx - u * ax) ^ 2 + (w * by' - u * ay) ^ 2) * B = (u * (bx * ay - by' * ax)) ^ 2 := by
      have e1 : ((w * bx - u * ax) ^ 2 + (w * by' - u * ay) ^ 2) = w * (w * B) - 2 * w * u * d + u ^ 2 * A := by
        rw [hB, hd, hA]; ring
      rw [e1, hwB]
      have e2 : (w * (u * d) - 2 * w * u * d + u ^ 2 * A) * B = -(u * d) * (w * B) + u ^ 2 * A * B := by ring
      rw [e2, hwB, hB, hd, hA]
      ring
    have hd2 : (u * (bx * ay - by' * ax)) ^ 2 < (eps * eps) ^ 2 := by
      rw [sq_lt_sq, abs_mul, abs_of_pos (mul_pos heps heps)]
      calc |u| * |bx * ay - by' * ax| ≤ 1 * |bx * ay - by' * ax| := mul_le_mul_of_nonneg_right hu (abs_nonneg _)
        _ < eps * eps := by rw [one_mul]; exact hdet
    by_contra hn
    push Not at hn
    have : eps ^ 2 * eps ^ 2 ≤ ((w * bx - u * ax) ^ 2 + (w * by' - u * ay) ^ 2) * B :=
      mul_le_mul hn hb (by positivity) (by positivity)
    rw [harea] at this
    nlinarith

theorem invdet_comm (a b : Line ℝ) : |invdet b a| = |invdet a b| := by
  unfold invdet
  rw [← abs_neg]
  congr 1
  ring

/-- One of the ends of the first line (by the sign of `u`) is found near the second one. -/
theorem end_found (a b : Line ℝ) (eps s t u v : ℝ) (heps : 0 < eps) (hdet : |invdet a b| < eps * eps)
    (hb : ¬ short eps b) (ht : 0 ≤ t ∧ t ≤ 1) (htv : 0 ≤ t + v ∧ t + v ≤ 1) (h : a.at_ s = b.at_ t) (hu : |u| ≤ 1)
    (hdot : 0 ≤ u * v * ((a.x1 - a.x0) * (b.x1 - b.x0) + (a.y1 - a.y0) * (b.y1 - b.y0)))
    (hlen : u ^ 2 * ((a.x1 - a.x0) ^ 2 + (a.y1 - a.y0) ^ 2) ≤ v ^ 2 * ((b.x1 - b.x0) ^ 2 + (b.y1 - b.y0) ^ 2)) :
    (closepoint eps (a.at_ (s + u)).1 (a.at_ (s + u)).2 b.x0 b.y0 b.x1 b.y1).isSome := by
  unfold short at hb
  rw [hypot_lt heps, not_lt] at hb
  obtain ⟨w, h1, h2, h3⟩ := parallel_close eps _ _ _ _ u v heps hdet hb hu hdot hlen
  have hw : 0 ≤ t + w ∧ t + w ≤ 1 := by
    rcases le_total 0 v with hv | hv
    · obtain ⟨p, q⟩ := h1 hv
      constructor <;> linarith
    · obtain ⟨p, q⟩ := h2 hv
      constructor <;> linarith
  refine closepoint_complete b heps (by unfold short; rw [hypot_lt heps, not_lt]; exact hb) hw ?_
  refine lt_of_eq_of_lt ?_ h3
  unfold Line.at_ at h
  rw [Prod.mk.injEq] at h
  unfold dist2 Line.at_
  congr 1
  · simp only
    linear_combination -h.1
  · simp only
    linear_combination -h.2

/-- **C43.**  Completeness for all lines: when there is a common point, an intersection is reported (within
epsilon, by the theorem above), for almost parallel and short lines as well. -/
theorem intersect_nonempty_partial (a b : Line ℝ) (eps : ℝ) (heps : 0 < eps) (hreg : Regular a b eps) (s t : ℝ)
    (hs : 0 ≤ s ∧ s ≤ 1) (ht : 0 ≤ t ∧ t ≤ 1) (h : a.at_ s = b.at_ t) : a.intersect b eps ≠ [] := by
  by_cases hdet : |invdet a b| < eps * eps
  swap
  · rw [intersect_complete a b eps heps (not_lt.mp hdet) s t hs ht h]
    simp
  unfold Line.intersect
  rw [if_pos hdet]
  unfold intersectParallel
  simp only
  have some_of : ∀ {o : Option ℝ} (f : ℝ → ℝ × ℝ), o.isSome → ∃ r, some r = o.map f := by
    intro o f ho
    obtain ⟨p, rfl⟩ := Option.isSome_iff_exists.mp ho
    exact ⟨f p, rfl⟩
  by_cases ha : short eps a
  · have hx : a.x1 = a.y1 := by
      rcases hreg with h | h | h
      · linarith
      · exact absurd ha h
      · exact h
    have hm : (1 / 2 * (a.x0 + a.x1), 1 / 2 * (a.y0 + a.x1)) = a.at_ (1 / 2) := by rw [middle_at, hx]
    have da := short_middle a eps s ha hs
    by_cases hb : short eps b
    · rw [if_pos ⟨ha, hb⟩, if_pos]
      · simp
      have db := short_middle b eps t hb ht
      have tri := dist2_triangle (b.at_ (1 / 2)) (a.at_ s) (a.at_ (1 / 2))
      rw [h] at tri da
      rw [dist2_comm (b.at_ (1 / 2)) (b.at_ t)] at tri
      have : dist2 (b.at_ (1 / 2)) (a.at_ (1 / 2)) < eps := by linarith
      rw [← hm, middle_at b] at this
      exact this
    · rw [if_neg (fun h => hb h.2), if_pos ha]
      have := closepoint_complete (x := (a.at_ (1 / 2)).1) (y := (a.at_ (1 / 2)).2) b heps hb ht
        (by rw [← h]; exact lt_trans da (by linarith))
      rw [← hm] at this
      obtain ⟨r, hr⟩ := some_of (fun p => ((1 / 2 : ℝ), p)) this
      exact firstOf_ne_nil (r := r) (by rw [hr]; exact List.mem_cons_self)
  · rw [if_neg (fun h => ha h.1), if_neg ha]
    by_cases hb : short eps b
    · rw [if_pos hb]
      have db := short_middle b eps t hb ht
      have := closepoint_complete (x := (b.at_ (1 / 2)).1) (y := (b.at_ (1 / 2)).2) a heps ha hs
        (by rw [h]; exact lt_trans db (by linarith))
      rw [middle_at b] at this
      obtain ⟨r, hr⟩ := some_of (fun p => (p, (1 / 2 : ℝ))) this
      exact firstOf_ne_nil (r := r) (by rw [hr]; exact List.mem_cons_self)
    · rw [if_neg hb]
      have h0 : ∀ (l : Line ℝ) (u : ℝ), l.at_ (u + -u) = (l.x0, l.y0) := fun l u => by ext <;> simp [Line.at_]
      have h1 : ∀ (l : Line ℝ) (u : ℝ), l.at_ (u + (1 - u)) = (l.x1, l.y1) := fun l u => by ext <;> simp [Line.at_]
      have h1' := fun l u => congrArg Prod.fst (h1 l u)
      have h1'' := fun l u => congrArg Prod.snd (h1 l u)
      have hdet' : |invdet b a| < eps * eps := by rw [invdet_comm]; exact hdet
      have us : |1 - s| ≤ 1 := by rw [abs_le]; constructor <;> linarith
      have ut : |1 - t| ≤ 1 := by rw [abs_le]; constructor <;> linarith
      have ut' : |(-t)| ≤ 1 := by rw [abs_le]; constructor <;> linarith
      obtain ⟨d, hd⟩ : ∃ d, d = (a.x1 - a.x0) * (b.x1 - b.x0) + (a.y1 - a.y0) * (b.y1 - b.y0) := ⟨_, rfl⟩
      have hd' : d = (b.x1 - b.x0) * (a.x1 - a.x0) + (b.y1 - b.y0) * (a.y1 - a.y0) := by rw [hd]; ring
      have cases4 : (closepoint eps a.x1 a.y1 b.x0 b.y0 b.x1 b.y1).isSome ∨
          (closepoint eps b.x0 b.y0 a.x0 a.y0 a.x1 a.y1).isSome ∨
          (closepoint eps b.x1 b.y1 a.x0 a.y0 a.x1 a.y1).isSome := by
        rcases le_total 0 d with hd0 | hd0
        · -- same direction: look from the common point towards the ends
          rcases le_total ((1 - s) ^ 2 * ((a.x1 - a.x0) ^ 2 + (a.y1 - a.y0) ^ 2))
            ((1 - t) ^ 2 * ((b.x1 - b.x0) ^ 2 + (b.y1 - b.y0) ^ 2)) with hl | hl
          · left
            have := end_found a b eps s t (1 - s) (1 - t) heps hdet hb ht (by constructor <;> linarith) h us
              (by rw [← hd]; exact mul_nonneg (mul_nonneg (by linarith) (by linarith)) hd0) hl
            rw [h1] at this
            exact this
          · right; right
            have := end_found b a eps t s (1 - t) (1 - s) heps hdet' ha hs (by constructor <;> linarith) h.symm ut
              (by rw [← hd']; exact mul_nonneg (mul_nonneg (by linarith) (by linarith)) hd0) hl
            rw [h1] at this
            exact this
        · -- opposite direction: towards the end of the first and the begin of the second
          rcases le_total ((1 - s) ^ 2 * ((a.x1 - a.x0) ^ 2 + (a.y1 - a.y0) ^ 2))
            ((-t) ^ 2 * ((b.x1 - b.x0) ^ 2 + (b.y1 - b.y0) ^ 2)) with hl | hl
          · left
            have := end_found a b eps s t (1 - s) (-t) heps hdet hb ht (by constructor <;> linarith) h us
              (by rw [← hd]; exact mul_nonneg_of_nonpos_of_nonpos (mul_nonpos_of_nonneg_of_nonpos (by linarith) (by linarith)) hd0) hl
            rw [h1] at this
            exact this
          · right; left
            have := end_found b a eps t s (-t) (1 - s) heps hdet' ha hs (by constructor <;> linarith) h.symm ut'
              (by rw [← hd']; exact mul_nonneg_of_nonpos_of_nonpos (mul_nonpos_of_nonpos_of_nonneg (by linarith) (by linarith)) hd0) hl
            rw [h0] at this
            exact this
      rcases cases4 with hc | hc | hc
      · obtain ⟨r, hr⟩ := some_of (fun p => ((1 : ℝ), p)) hc
        exact firstOf_ne_nil (r := r) (by rw [hr]; simp only [List.mem_cons, true_or, or_true])
      · obtain ⟨r, hr⟩ := some_of (fun p => (p, (0 : ℝ))) hc
        exact firstOf_ne_nil (r := r) (by rw [hr]; simp only [List.mem_cons, true_or, or_true])
      · obtain ⟨r, hr⟩ := some_of (fun p => (p, (1 : ℝ))) hc
        exact firstOf_ne_nil (r := r) (by rw [hr]; simp only [List.mem_cons, true_or, or_true])

/-- At most one intersection is reported. -/
theorem intersect_length (a b : Line ℝ) (eps : ℝ) : (a.intersect b eps).length ≤ 1 := by
  have hf : ∀ l, (firstOf l).length ≤ 1 := by
    intro l
    induction l with
    | nil => simp [firstOf]
    | cons x l ih => cases x <;> simp [firstOf, ih]
  unfold Line.intersect intersectParallel
  simp only
  split
  · split
    · split <;> simp
    · split
      · exact hf _
      · split <;> exact hf _
  · split
    · simp
    · split <;> simp

/-! ## What is wrong: short lines -/

/-- A short line at (10, 0), and a long line through it. -/
def shortLine : Line ℝ := ⟨10, 0, 10, 0⟩
def longLine : Line ℝ := ⟨0, 0, 20, 0⟩
/-- A long line far away from the short one, passing through (10, 5). -/
def farLine : Line ℝ := ⟨0, 5, 20, 5⟩

theorem short_shortLine : short 1 shortLine := by
  unfold short shortLine
  rw [hypot_lt one_pos]
  norm_num

theorem not_short (l : Line ℝ) (h : l.x1 - l.x0 = 20) : ¬ short 1 l := by
  unfold short
  rw [hypot_lt one_pos, h]
  have := sq_nonneg (l.y1 - l.y0)
  intro h'
  nlinarith

/-- **C43 fails for short lines**: the middle of a short line is computed with `x1` in place of `y1` (line 228).  The common
point of the short line and a long line is not found, and a line at distance 5 is reported to intersect. -/
theorem short_self_wrong :
    (shortLine.at_ (1 / 2) = longLine.at_ (1 / 2) ∧ shortLine.intersect longLine 1 = []) ∧
    (shortLine.intersect farLine 1 = [(1 / 2, 1 / 2)] ∧ ∀ s t, dist2 (shortLine.at_ s) (farLine.at_ t) ≥ 5) := by
  refine ⟨⟨?_, ?_⟩, ?_, ?_⟩
  · ext <;> norm_num [shortLine, longLine, Line.at_]
  · unfold Line.intersect
    rw [if_pos (by norm_num [invdet, shortLine, longLine])]
    unfold intersectParallel
    simp only
    rw [if_neg (fun h => not_short longLine (by norm_num [longLine]) h.2), if_pos short_shortLine]
    have : closepoint 1 (1 / 2 * (shortLine.x0 + shortLine.x1)) (1 / 2 * (shortLine.y0 + shortLine.x1)) longLine.x0
        longLine.y0 longLine.x1 longLine.y1 = none := by
      unfold closepoint
      simp only
      rw [if_neg]
      rw [hypot_lt one_pos]
      norm_num [shortLine, longLine]
    rw [this]
    rfl
  · unfold Line.intersect
    rw [if_pos (by norm_num [invdet, shortLine, farLine])]
    unfold intersectParallel
    simp only
    rw [if_neg (fun h => not_short farLine (by norm_num [farLine]) h.2), if_pos short_shortLine]
    have : closepoint 1 (1 / 2 * (shortLine.x0 + shortLine.x1)) (1 / 2 * (shortLine.y0 + shortLine.x1)) farLine.x0
        farLine.y0 farLine.x1 farLine.y1 = some (1 / 2) := by
      unfold closepoint
      simp only
      rw [if_pos]
      · norm_num [shortLine, farLine]
      rw [hypot_lt one_pos]
      norm_num [shortLine, farLine]
    rw [this]
    rfl
  · intro s t
    unfold dist2
    apply Real.le_sqrt_of_sq_le
    have e : ((shortLine.at_ s).2 - (farLine.at_ t).2) ^ 2 = 5 ^ 2 := by norm_num [shortLine, farLine, Line.at_]
    rw [e]
    have := sq_nonneg ((shortLine.at_ s).1 - (farLine.at_ t).1)
    linarith

/-- A crossing of two lines, met by the hypotheses of `intersect_complete`. -/
example : (⟨0, 0, 2, 2⟩ : Line ℝ).intersect ⟨0, 2, 2, 0⟩ 1 = [(1 / 2, 1 / 2)] := by
  apply intersect_complete _ _ _ one_pos
  · norm_num [invdet]
  · norm_num
  · norm_num
  · ext <;> norm_num [Line.at_]

end

end PyX.NormPath
