import Verif.Box.Line

/-!
# Circle alignment (C52)
-/

set_option linter.unusedSectionVars false

namespace PyX.Box

noncomputable section

variable {P : Polygon}

/-- The inner normal of length one of a side `u` of a counterclockwise polygon. -/
def normal (u : Pt) : Pt := (-u.2 / Real.sqrt (dot u u), u.1 / Real.sqrt (dot u u))

theorem dot_comm (x y : Pt) : dot x y = dot y x := by simp only [dot]; ring

theorem normal_spec {u : Pt} (hu : 0 < dot u u) : dot (normal u) (normal u) = 1 ∧ dot (normal u) u = 0 ∧
    ∀ x, dot (normal u) x * Real.sqrt (dot u u) = cross u x := by
  have hs := Real.sqrt_pos.2 hu
  have he := Real.sq_sqrt hu.le
  refine ⟨?_, ?_, ?_⟩
  · have e : dot (normal u) (normal u) = dot u u / Real.sqrt (dot u u) ^ 2 := by
      simp only [normal, dot]; ring
    rw [e, he, div_self hu.ne']
  · simp only [normal]
    unfold dot
    ring
  · intro x
    have e : dot (normal u) x = cross u x / Real.sqrt (dot u u) := by
      simp only [normal, cross]
      rw [dot]
      ring
    rw [e, div_mul_cancel₀ _ hs.ne']

/-- What the label of a side says (circle alignment): the side `e + alpha u`, moved by `beta d`, touches the
circle at `c + a n` with the normal `n` of the side. -/
theorem circle_label {c d e f : Pt} {a : ℝ} (hd : dot d d = 1) (hl : epsilon ≤ dot (f - e) (f - e))
    (hs : cross (f - e) d = 0 ∨ epsilon * dot (f - e) (f - e) ≤ cross (f - e) d ^ 2) :
    (cross (f - e) d ≤ 0 → circlealignline c a d e f = .nothing) ∧
    (0 < cross (f - e) d → ∃ alpha beta : ℝ, circlealignline c a d e f = byAlpha alpha (beta * d.1, beta * d.2) ∧
      e.1 + alpha * (f - e).1 + beta * d.1 = c.1 + a * (normal (f - e)).1 ∧
      e.2 + alpha * (f - e).2 + beta * d.2 = c.2 + a * (normal (f - e)).2) := by
  have hep := epsilon_pos
  have hL : 0 < dot (f - e) (f - e) := by linarith
  have el : (e.1 - f.1) * (e.1 - f.1) + (e.2 - f.2) * (e.2 - f.2) = dot (f - e) (f - e) := by
    simp only [dot, Prod.fst_sub, Prod.snd_sub]; ring
  set L := dot (f - e) (f - e) with hLdef
  set s := cross (f - e) d with hsdef
  have es : s = (f.1 - e.1) * d.2 - (f.2 - e.2) * d.1 := by
    rw [hsdef]; simp only [cross, Prod.fst_sub, Prod.snd_sub]
  have eL : L = (f.1 - e.1) * (f.1 - e.1) + (f.2 - e.2) * (f.2 - e.2) := by
    rw [hLdef]; simp only [dot, Prod.fst_sub, Prod.snd_sub]
  simp only [dot] at hd
  -- the perpendicular part of the direction
  have eb1 : d.1 - (e.1 - f.1) * ((d.1 * (e.1 - f.1) + d.2 * (e.2 - f.2)) * 1 / L) = -(f.2 - e.2) * s / L := by
    field_simp
    rw [es, eL]; ring
  have eb2 : d.2 - (e.2 - f.2) * ((d.1 * (e.1 - f.1) + d.2 * (e.2 - f.2)) * 1 / L) = (f.1 - e.1) * s / L := by
    field_simp
    rw [es, eL]; ring
  have ebb : -(f.2 - e.2) * s / L * (-(f.2 - e.2) * s / L) + (f.1 - e.1) * s / L * ((f.1 - e.1) * s / L) = s ^ 2 / L := by
    have : -(f.2 - e.2) * s / L * (-(f.2 - e.2) * s / L) + (f.1 - e.1) * s / L * ((f.1 - e.1) * s / L) =
        s ^ 2 * ((f.1 - e.1) * (f.1 - e.1) + (f.2 - e.2) * (f.2 - e.2)) / L ^ 2 := by ring
    rw [this, ← eL]
    field_simp
  have ebg : -(f.2 - e.2) * s / L * (e.2 - f.2) - (f.1 - e.1) * s / L * (e.1 - f.1) = s := by
    have : -(f.2 - e.2) * s / L * (e.2 - f.2) - (f.1 - e.1) * s / L * (e.1 - f.1) =
        s * ((f.1 - e.1) * (f.1 - e.1) + (f.2 - e.2) * (f.2 - e.2)) / L := by ring
    rw [this, ← eL]
    field_simp
  unfold circlealignline
  dsimp only
  rw [el, if_neg (not_lt.2 hl), eb1, eb2, ebb, ebg]
  constructor
  · intro hs0
    rcases hs0.lt_or_eq with h | h
    · by_cases h1 : s ^ 2 / L < epsilon
      · rw [if_pos h1]
      · rw [if_neg h1, if_pos h]
    · rw [if_pos (by rw [h]; simpa using hep)]
  · intro hs0
    have h1 : ¬ s ^ 2 / L < epsilon := by
      rw [not_lt, le_div_iff₀ hL]
      rcases hs with h | h
      · linarith
      · exact h
    rw [if_neg h1, if_neg (not_lt.2 hs0.le), hd]
    have hR := Real.sqrt_pos.2 hL
    have eR := Real.mul_self_sqrt hL.le
    have esf : Real.sqrt (1 / (s ^ 2 / L)) = Real.sqrt L / s := by
      rw [show 1 / (s ^ 2 / L) = L / s ^ 2 by field_simp, Real.sqrt_div hL.le, Real.sqrt_sq hs0.le]
    rw [esf]
    have en1 : a * (-(f.2 - e.2) * s / L) * (Real.sqrt L / s) = a * (normal (f - e)).1 := by
      have : (normal (f - e)).1 = -(f.2 - e.2) / Real.sqrt L := by
        simp only [normal, Prod.snd_sub, ← hLdef]
      rw [this]
      field_simp
      linear_combination (-(a * (f.2 - e.2))) * eR
    have en2 : a * ((f.1 - e.1) * s / L) * (Real.sqrt L / s) = a * (normal (f - e)).2 := by
      have : (normal (f - e)).2 = (f.1 - e.1) / Real.sqrt L := by
        simp only [normal, Prod.fst_sub, ← hLdef]
      rw [this]
      field_simp
      linear_combination ((a * (f.1 - e.1))) * eR
    rw [en1, en2]
    have hd1 : (e.2 - f.2) * d.1 - (e.1 - f.1) * d.2 = s := by rw [es]; ring
    have hd2 : (e.1 - f.1) * d.2 - (e.2 - f.2) * d.1 = -s := by rw [es]; ring
    rw [hd1, hd2]
    refine ⟨_, _, rfl, ?_, ?_⟩
    · simp only [Prod.fst_sub]
      rw [div_neg]
      field_simp
      rw [es]; ring
    · simp only [Prod.snd_sub]
      rw [div_neg]
      field_simp
      rw [es]; ring

/-- The denominators of `circlealignlinevector_pt` are not zero when they are used (after 91): the perpendicular
part of the direction would be zero. -/
theorem circle_den_ne {d g b : Pt} {r : ℝ} (hb : b = (d.1 - g.1 * r, d.2 - g.2 * r)) (hg : epsilon ≤ dot g g)
    (hr : r = (d.1 * g.1 + d.2 * g.2) * 1 / (g.1 * g.1 + g.2 * g.2)) (h : ¬ b.1 * b.1 + b.2 * b.2 < epsilon) :
    g.2 * d.1 - g.1 * d.2 ≠ 0 := by
  intro hz
  apply h
  have hg' : 0 < g.1 * g.1 + g.2 * g.2 := by simp only [dot] at hg; linarith [epsilon_pos]
  have e : r * (g.1 * g.1 + g.2 * g.2) = d.1 * g.1 + d.2 * g.2 := by
    rw [hr, mul_one]; exact div_mul_cancel₀ _ hg'.ne'
  have e1 : d.1 - g.1 * r = 0 := by
    have : (g.1 * g.1 + g.2 * g.2) * (d.1 - g.1 * r) = 0 := by linear_combination (-g.1) * e + g.2 * hz
    exact (mul_eq_zero.1 this).resolve_left hg'.ne'
  have e2 : d.2 - g.2 * r = 0 := by
    have : (g.1 * g.1 + g.2 * g.2) * (d.2 - g.2 * r) = 0 := by linear_combination (-g.2) * e - g.1 * hz
    exact (mul_eq_zero.1 this).resolve_left hg'.ne'
  rw [hb, e1, e2]
  simpa using epsilon_pos

/-- The point alignment of a circle for positive radius: the point is moved in direction `d` to the far
intersection with the circle, or the line through it does not meet the circle. -/
theorem circlealignpoint_spec (c : Pt) (a : ℝ) (d p : Pt) (hd : dot d d = 1) (ha : 0 < a) (ha' : epsilon ≤ a * a) :
    (circlealignpoint c a d p = none → a < |cross (p - c) d|) ∧
    (∀ v, circlealignpoint c a d p = some v → ∃ t : ℝ, v = (t * d.1, t * d.2) ∧
      dot (p + v - c) (p + v - c) = a * a ∧ 0 ≤ dot (p + v - c) d) := by
  unfold circlealignpoint
  dsimp only
  rw [if_neg (not_lt.2 ha')]
  simp only [dot] at hd
  have e : 2 * ((p.1 - c.1) * d.1 + (p.2 - c.2) * d.2) * (2 * ((p.1 - c.1) * d.1 + (p.2 - c.2) * d.2)) / 4 -
      ((p.1 - c.1) * (p.1 - c.1) + (p.2 - c.2) * (p.2 - c.2) - a * a) = a * a - cross (p - c) d ^ 2 := by
    simp only [cross, Prod.fst_sub, Prod.snd_sub]
    linear_combination (-((p.1 - c.1) * (p.1 - c.1) + (p.2 - c.2) * (p.2 - c.2))) * (-hd)
  rw [e]
  constructor
  · intro h
    split_ifs at h with h1
    apply lt_of_not_ge
    intro h2
    have : cross (p - c) d ^ 2 ≤ a ^ 2 := sq_le_sq' (by linarith [neg_abs_le (cross (p - c) d)]) (by linarith [le_abs_self (cross (p - c) d)])
    nlinarith
  · intro v h
    split_ifs at h with h1
    cases h
    push Not at h1
    have hs := Real.mul_self_sqrt h1
    have hs0 := Real.sqrt_nonneg (a * a - cross (p - c) d ^ 2)
    refine ⟨_, rfl, ?_, ?_⟩
    · generalize Real.sqrt (a * a - cross (p - c) d ^ 2) = r at *
      simp only [dot, cross, Prod.fst_sub, Prod.snd_sub, Prod.fst_add, Prod.snd_add] at *
      linear_combination hs + ((r - ((p.1 - c.1) * d.1 + (p.2 - c.2) * d.2)) ^ 2 - ((p.1 - c.1) ^ 2 + (p.2 - c.2) ^ 2)) * hd
    · generalize Real.sqrt (a * a - cross (p - c) d ^ 2) = r at *
      simp only [dot, Prod.fst_sub, Prod.snd_sub, Prod.fst_add, Prod.snd_add] at *
      have : (p.1 + (-(2 * ((p.1 - c.1) * d.1 + (p.2 - c.2) * d.2)) / 2 + r) * d.1 - c.1) * d.1 +
        (p.2 + (-(2 * ((p.1 - c.1) * d.1 + (p.2 - c.2) * d.2)) / 2 + r) * d.2 - c.2) * d.2 = r := by
        linear_combination (-((p.1 - c.1) * d.1 + (p.2 - c.2) * d.2) + r) * hd
      rw [this]; exact hs0

/-- The far point on the circle of a line that passes the tangent point `a n` of a side `u` at `a n - k u`
is behind that tangent point. -/
theorem hit {d u y : Pt} {a k tau : ℝ} (hu : 0 < dot u u) (hs : 0 < cross u d) (ha : 0 < a) (hk : k ≠ 0)
    (h1 : y.1 = a * (normal u).1 - k * u.1 + tau * d.1) (h2 : y.2 = a * (normal u).2 - k * u.2 + tau * d.2)
    (hy : dot y y = a * a) (hyd : 0 ≤ dot y d) : k * dot y u < 0 := by
  obtain ⟨n1, n2, n3⟩ := normal_spec hu
  have hR := Real.sqrt_pos.2 hu
  have hnd : 0 < dot (normal u) d := by
    by_contra hc
    push Not at hc
    have := n3 d
    nlinarith
  generalize normal u = n at *
  have hyn : dot y n = a + tau * dot n d := by
    simp only [dot] at *
    rw [h1, h2]
    linear_combination a * n1 - k * n2
  have hle : dot y n ≤ a := by
    have hsq : dot y n ^ 2 ≤ a ^ 2 := by
      have e : dot y n ^ 2 + cross y n ^ 2 = dot y y * dot n n := by simp only [dot, cross]; ring
      rw [hy, n1] at e
      nlinarith [sq_nonneg (cross y n)]
    nlinarith
  have htau : tau ≤ 0 := by
    by_contra hc
    push Not at hc
    have := mul_pos hc hnd
    linarith
  have hyy : dot y y = a * dot y n - k * dot y u + tau * dot y d := by
    have : dot y y = dot y (a * n.1 - k * u.1 + tau * d.1, a * n.2 - k * u.2 + tau * d.2) := by
      rw [← h1, ← h2]
    rw [this]
    simp only [dot]; ring
  rcases htau.lt_or_eq with ht | ht
  · have hlt : dot y n < a := by
      have := mul_neg_of_neg_of_pos ht hnd
      linarith
    have h3 := mul_nonpos_of_nonpos_of_nonneg ht.le hyd
    have h4 := mul_lt_mul_of_pos_left hlt ha
    linarith
  · exfalso
    rw [ht] at h1 h2
    have e : dot y y = a * a + k * k * dot u u := by
      simp only [dot] at *
      rw [h1, h2]
      linear_combination a * a * n1 - 2 * a * k * n2
    have := mul_pos (mul_self_pos.2 hk) hu
    linarith

/-- Circle alignment for a direction of length one: the box is moved in direction `d`, a line perpendicular to a
radius `m` separates it from the circle, and a side touches the circle; or the box does not meet the circle
wherever it is moved. -/
theorem circleunit (hc : Convex P) (hl : Long P) (d : Pt) (hd : dot d d = 1) (hcl : ClearCircle P d) (a : ℝ)
    (ha : 0 < a) (ha' : epsilon ≤ a * a) :
    (∃ t : ℝ, alignunit P a d circlealignline circlealignpoint = some (t * d.1, t * d.2) ∧
      ∃ m : Pt, dot m m = 1 ∧ 0 ≤ dot m d ∧ (∀ x ∈ P.corners, a ≤ dot m (x + (t * d.1, t * d.2) - P.center)) ∧
      ∃ e f, Side P e f ∧ ∃ s : ℝ, -epsilon < s ∧ s < 1 + epsilon ∧
        e.1 + s * (f - e).1 + t * d.1 - P.center.1 = a * m.1 ∧ e.2 + s * (f - e).2 + t * d.2 - P.center.2 = a * m.2) ∨
    (alignunit P a d circlealignline circlealignpoint = none ∧
      ((∀ x ∈ P.corners, cross (x - P.center) d < -a) ∨ (∀ x ∈ P.corners, a < cross (x - P.center) d))) := by
  have hep := epsilon_pos
  have hd0 : d ≠ 0 := by rintro rfl; simp [dot] at hd
  set n := P.corners.length with hn
  have hlab : ∀ i, i < n → _ := fun i hi => circle_label (c := P.center) (a := a) hd (hl _ _ (side_prev hi))
    (hcl _ _ (side_prev hi))
  unfold alignunit
  dsimp only
  rw [← hn]
  cases hf : (List.range n).findSome? (fun i => (circlealignline P.center a d (pt P (prev n i)) (pt P i)).vec?) with
  | some v =>
    dsimp only
    left
    obtain ⟨i, hi, hv⟩ := List.exists_of_findSome?_eq_some hf
    have hi := List.mem_range.1 hi
    have S := side_prev (P := P) hi
    have hL : 0 < dot (pt P i - pt P (prev n i)) (pt P i - pt P (prev n i)) := by
      have := hl _ _ S
      linarith
    rcases le_or_gt (cross (pt P i - pt P (prev n i)) d) 0 with h | h
    · rw [(hlab i hi).1 h] at hv; cases hv
    obtain ⟨alpha, beta, hlb, e1, e2⟩ := (hlab i hi).2 h
    rw [hlb] at hv
    obtain ⟨hv1, hv2, hv3⟩ := byAlpha_vec? hv
    obtain ⟨n1, n2, n3⟩ := normal_spec hL
    refine ⟨beta, by rw [hv1], normal (pt P i - pt P (prev n i)), n1, ?_, ?_, _, _, S, alpha, hv2, hv3, by linarith, by linarith⟩
    · have h3 := n3 d
      have hR := Real.sqrt_pos.2 hL
      by_contra hcon
      push Not at hcon
      have := mul_neg_of_neg_of_pos hcon hR
      linarith
    intro x hx
    have hx' := hc.left _ _ S x hx
    have h3 := n3 (x - pt P (prev n i))
    have hR := Real.sqrt_pos.2 hL
    have h4 : 0 ≤ dot (normal (pt P i - pt P (prev n i))) (x - pt P (prev n i)) := by
      by_contra hcon
      push Not at hcon
      have := mul_neg_of_neg_of_pos hcon hR
      linarith
    have h5 : dot (normal (pt P i - pt P (prev n i))) (x + (beta * d.1, beta * d.2) - P.center) =
        a + dot (normal (pt P i - pt P (prev n i))) (x - pt P (prev n i)) := by
      generalize normal (pt P i - pt P (prev n i)) = m at *
      simp only [dot, Prod.fst_sub, Prod.snd_sub, Prod.fst_add, Prod.snd_add] at *
      linear_combination m.1 * e1 + m.2 * e2 + a * n1 - alpha * n2
    rw [h5]; linarith
  | none =>
    dsimp only
    have hnovec : ∀ i, i < n → (circlealignline P.center a d (pt P (prev n i)) (pt P i)).vec? = none := by
      intro i hi
      exact List.findSome?_eq_none_iff.1 hf i (List.mem_range.2 hi)
    cases hg : (List.range n).find? (fun i => (circlealignline P.center a d (pt P (prev n (prev n i))) (pt P (prev n i))).meets
        (circlealignline P.center a d (pt P (prev n i)) (pt P i))) with
    | none =>
      exfalso
      obtain ⟨⟨i, hi, hneg⟩, ⟨j, hj, hpos⟩⟩ := both_signs hc d hd0
      obtain ⟨k, hk, hm⟩ := meets_exists (fun i => circlealignline P.center a d (pt P (prev n i)) (pt P i)) n hnovec
        ⟨i, hi, (hlab i hi).1 hneg.le⟩ ⟨j, hj, by
          obtain ⟨al, be, h, -⟩ := (hlab j hj).2 hpos
          intro h'
          exact byAlpha_ne (h.symm.trans h')⟩
      exact List.find?_eq_none.1 hg k (List.mem_range.2 hk) hm
    | some i =>
      dsimp only
      have hi : i < n := List.mem_range.1 (List.mem_of_find?_eq_some hg)
      have hm := List.find?_some hg
      have hp := prev_lt hi
      have S1 := side_prev (P := P) hp
      have S2 := side_prev (P := P) hi
      have L1 := hlab _ hp
      have L2 := hlab _ hi
      have l1 := hl _ _ S1
      have l2 := hl _ _ S2
      have hu := ne_zero_of_long l1
      have hw := ne_zero_of_long l2
      rw [← hn] at S1 S2 l1 l2 hu hw
      have hturn : 0 ≤ cross (pt P (prev n i) - pt P (prev n (prev n i))) (pt P i - pt P (prev n i)) := by
        have h := hc.left _ _ S1 _ (pt_mem hi)
        have e : cross (pt P (prev n i) - pt P (prev n (prev n i))) (pt P i - pt P (prev n i)) =
          cross (pt P (prev n i) - pt P (prev n (prev n i))) (pt P i - pt P (prev n (prev n i))) := by
          simp only [cross, Prod.fst_sub, Prod.snd_sub]; ring
        rw [e]; exact h
      have hpm : pt P (prev n i) ∈ P.corners := pt_mem hp
      -- facts given by the two labels
      have F1 : circlealignline P.center a d (pt P (prev n (prev n i))) (pt P (prev n i)) = .after →
          0 < cross (pt P (prev n i) - pt P (prev n (prev n i))) d ∧ ∃ k beta : ℝ, 0 < k ∧
          (pt P (prev n i)).1 + beta * d.1 - P.center.1 = a * (normal (pt P (prev n i) - pt P (prev n (prev n i)))).1 -
            k * (pt P (prev n i) - pt P (prev n (prev n i))).1 ∧
          (pt P (prev n i)).2 + beta * d.2 - P.center.2 = a * (normal (pt P (prev n i) - pt P (prev n (prev n i)))).2 -
            k * (pt P (prev n i) - pt P (prev n (prev n i))).2 := by
        intro h
        rcases le_or_gt (cross (pt P (prev n i) - pt P (prev n (prev n i))) d) 0 with h0 | h0
        · rw [L1.1 h0] at h; cases h
        obtain ⟨alpha, beta, hlb, e1, e2⟩ := L1.2 h0
        rw [h] at hlb
        have hal := byAlpha_after hlb.symm
        refine ⟨h0, alpha - 1, beta, by linarith, ?_, ?_⟩
        · simp only [Prod.fst_sub] at *; linarith
        · simp only [Prod.snd_sub] at *; linarith
      have F2 : circlealignline P.center a d (pt P (prev n i)) (pt P i) = .before →
          0 < cross (pt P i - pt P (prev n i)) d ∧ ∃ k beta : ℝ, k < 0 ∧
          (pt P (prev n i)).1 + beta * d.1 - P.center.1 = a * (normal (pt P i - pt P (prev n i))).1 -
            k * (pt P i - pt P (prev n i)).1 ∧
          (pt P (prev n i)).2 + beta * d.2 - P.center.2 = a * (normal (pt P i - pt P (prev n i))).2 -
            k * (pt P i - pt P (prev n i)).2 := by
        intro h
        rcases le_or_gt (cross (pt P i - pt P (prev n i)) d) 0 with h0 | h0
        · rw [L2.1 h0] at h; cases h
        obtain ⟨alpha, beta, hlb, e1, e2⟩ := L2.2 h0
        rw [h] at hlb
        have hal := byAlpha_before hlb.symm
        refine ⟨h0, alpha, beta, by linarith, by linarith, by linarith⟩
      have N1 : circlealignline P.center a d (pt P (prev n (prev n i))) (pt P (prev n i)) = .nothing →
          cross (pt P (prev n i) - pt P (prev n (prev n i))) d ≤ 0 := by
        intro h
        by_contra hcon
        push Not at hcon
        obtain ⟨alpha, beta, hlb, -⟩ := L1.2 hcon
        rw [h] at hlb
        exact byAlpha_ne hlb.symm
      have N2 : circlealignline P.center a d (pt P (prev n i)) (pt P i) = .nothing →
          cross (pt P i - pt P (prev n i)) d ≤ 0 := by
        intro h
        by_contra hcon
        push Not at hcon
        obtain ⟨alpha, beta, hlb, -⟩ := L2.2 hcon
        rw [h] at hlb
        exact byAlpha_ne hlb.symm
      have hcase : (circlealignline P.center a d (pt P (prev n (prev n i))) (pt P (prev n i)) = .after ∧
            circlealignline P.center a d (pt P (prev n i)) (pt P i) = .before) ∨
          (circlealignline P.center a d (pt P (prev n (prev n i))) (pt P (prev n i)) = .after ∧
            circlealignline P.center a d (pt P (prev n i)) (pt P i) = .nothing) ∨
          (circlealignline P.center a d (pt P (prev n (prev n i))) (pt P (prev n i)) = .nothing ∧
            circlealignline P.center a d (pt P (prev n i)) (pt P i) = .before) := by
        cases l1 : circlealignline P.center a d (pt P (prev n (prev n i))) (pt P (prev n i)) <;>
        cases l2 : circlealignline P.center a d (pt P (prev n i)) (pt P i) <;>
        (rw [l1, l2] at hm; first | (simp; done) | cases hm)
      clear hm L1 L2 hg hf hnovec hlab hi hp
      generalize pt P (prev n (prev n i)) = o at *
      generalize hpp : pt P (prev n i) = p at *
      generalize pt P i = r at *
      have hLu : 0 < dot (p - o) (p - o) := by linarith
      have hLw : 0 < dot (r - p) (r - p) := by linarith
      cases hres : circlealignpoint P.center a d p with
      | some v =>
        left
        obtain ⟨t, rfl, hy, hyd⟩ := (circlealignpoint_spec P.center a d p hd ha ha').2 v hres
        refine ⟨t, rfl, ((p + (t * d.1, t * d.2) - P.center).1 / a, (p + (t * d.1, t * d.2) - P.center).2 / a), ?_, ?_, ?_,
          p, r, S2, 0, by linarith, by linarith, ?_, ?_⟩
        · have : dot ((p + (t * d.1, t * d.2) - P.center).1 / a, (p + (t * d.1, t * d.2) - P.center).2 / a)
              ((p + (t * d.1, t * d.2) - P.center).1 / a, (p + (t * d.1, t * d.2) - P.center).2 / a) =
              dot (p + (t * d.1, t * d.2) - P.center) (p + (t * d.1, t * d.2) - P.center) / (a * a) := by
            simp only [dot]; field_simp
          rw [this, hy, div_self (by positivity)]
        · have : dot ((p + (t * d.1, t * d.2) - P.center).1 / a, (p + (t * d.1, t * d.2) - P.center).2 / a) d =
              dot (p + (t * d.1, t * d.2) - P.center) d / a := by
            simp only [dot]; ring
          rw [this]; exact div_nonneg hyd ha.le
        · generalize hyy : p + (t * d.1, t * d.2) - P.center = y at *
          have y1 : y.1 = p.1 + t * d.1 - P.center.1 := by rw [← hyy]; rfl
          have y2 : y.2 = p.2 + t * d.2 - P.center.2 := by rw [← hyy]; rfl
          have A1 : ∀ k beta : ℝ, 0 < k → 0 < cross (p - o) d →
              p.1 + beta * d.1 - P.center.1 = a * (normal (p - o)).1 - k * (p - o).1 →
              p.2 + beta * d.2 - P.center.2 = a * (normal (p - o)).2 - k * (p - o).2 → dot y (p - o) < 0 := by
            intro k beta hk h0 e1 e2
            have := hit (y := y) (tau := t - beta) hLu h0 ha hk.ne' (by rw [y1]; linarith) (by rw [y2]; linarith) hy hyd
            by_contra hcon
            push Not at hcon
            have := mul_nonneg hk.le hcon
            linarith
          have A2 : ∀ k beta : ℝ, k < 0 → 0 < cross (r - p) d →
              p.1 + beta * d.1 - P.center.1 = a * (normal (r - p)).1 - k * (r - p).1 →
              p.2 + beta * d.2 - P.center.2 = a * (normal (r - p)).2 - k * (r - p).2 → 0 < dot y (r - p) := by
            intro k beta hk h0 e1 e2
            have := hit (y := y) (tau := t - beta) hLw h0 ha hk.ne (by rw [y1]; linarith) (by rw [y2]; linarith) hy hyd
            by_contra hcon
            push Not at hcon
            have := mul_nonneg_of_nonpos_of_nonpos hk.le hcon
            linarith
          have hcone : ∀ x ∈ P.corners, 0 ≤ dot y (x - p) := by
            rcases hcase with ⟨h1, h2⟩ | ⟨h1, h2⟩ | ⟨h1, h2⟩
            · obtain ⟨s1, k1, b1, hk1, e1, e2⟩ := F1 h1
              obtain ⟨s2, k2, b2, hk2, e3, e4⟩ := F2 h2
              have u1 := A1 k1 b1 hk1 s1 e1 e2
              have u2 := A2 k2 b2 hk2 s2 e3 e4
              exact cone hc S1 S2 hu hw y u1.le u2.le (Or.inl u1)
            · obtain ⟨s1, k1, b1, hk1, e1, e2⟩ := F1 h1
              have s2 := N2 h2
              have u1 := A1 k1 b1 hk1 s1 e1 e2
              have u2 : 0 ≤ dot y (r - p) := by
                have key : cross (p - o) d * dot y (r - p) = cross (r - p) d * dot y (p - o) + cross (p - o) (r - p) * dot y d := by
                  simp only [cross, dot, Prod.fst_sub, Prod.snd_sub]; ring
                have t1 := mul_nonneg_of_nonpos_of_nonpos s2 u1.le
                have t2 := mul_nonneg hturn hyd
                by_contra hcon
                push Not at hcon
                have := mul_neg_of_pos_of_neg s1 hcon
                linarith
              exact cone hc S1 S2 hu hw y u1.le u2 (Or.inl u1)
            · obtain ⟨s2, k2, b2, hk2, e3, e4⟩ := F2 h2
              have s1 := N1 h1
              have u2 := A2 k2 b2 hk2 s2 e3 e4
              have u1 : dot y (p - o) ≤ 0 := by
                have key : cross (r - p) d * dot y (p - o) = cross (p - o) d * dot y (r - p) - cross (p - o) (r - p) * dot y d := by
                  simp only [cross, dot, Prod.fst_sub, Prod.snd_sub]; ring
                have t1 := mul_nonpos_of_nonpos_of_nonneg s1 u2.le
                have t2 := mul_nonneg hturn hyd
                by_contra hcon
                push Not at hcon
                have := mul_pos s2 hcon
                linarith
              exact cone hc S1 S2 hu hw y u1 u2.le (Or.inr u2)
          intro x hx
          have h := hcone x hx
          have e : dot (y.1 / a, y.2 / a) (x + (t * d.1, t * d.2) - P.center) = (dot y y + dot y (x - p)) / a := by
            simp only [dot, Prod.fst_sub, Prod.snd_sub, Prod.fst_add, Prod.snd_add]
            rw [y1, y2]
            ring
          rw [e, hy, le_div_iff₀ ha]
          linarith
        · simp only [Prod.fst_sub, Prod.fst_add]; field_simp; ring
        · simp only [Prod.snd_sub, Prod.snd_add]; field_simp; ring
      | none =>
        right
        refine ⟨rfl, ?_⟩
        have hfar := (circlealignpoint_spec P.center a d p hd ha ha').1 hres
        have hnd : ∀ m : Pt, dot m m = 1 → |a * cross m d| ≤ a := by
          intro m hm
          rw [abs_mul, abs_of_pos ha]
          have e : cross m d ^ 2 + dot m d ^ 2 = 1 := by
            have : cross m d ^ 2 + dot m d ^ 2 = dot m m * dot d d := by simp only [dot, cross]; ring
            rw [this, hm, hd, one_mul]
          have : |cross m d| ≤ 1 := by
            rw [abs_le]
            constructor <;> nlinarith [sq_nonneg (dot m d)]
          nlinarith
        have B1 : ∀ k beta : ℝ, 0 < k → 0 < cross (p - o) d →
            p.1 + beta * d.1 - P.center.1 = a * (normal (p - o)).1 - k * (p - o).1 →
            p.2 + beta * d.2 - P.center.2 = a * (normal (p - o)).2 - k * (p - o).2 → cross (p - P.center) d < a := by
          intro k beta hk h0 e1 e2
          have h := abs_le.1 (hnd _ (normal_spec hLu).1)
          have e : cross (p - P.center) d = a * cross (normal (p - o)) d - k * cross (p - o) d := by
            simp only [cross, Prod.fst_sub, Prod.snd_sub] at *
            linear_combination d.2 * e1 - d.1 * e2
          have := mul_pos hk h0
          linarith [h.2]
        have B2 : ∀ k beta : ℝ, k < 0 → 0 < cross (r - p) d →
            p.1 + beta * d.1 - P.center.1 = a * (normal (r - p)).1 - k * (r - p).1 →
            p.2 + beta * d.2 - P.center.2 = a * (normal (r - p)).2 - k * (r - p).2 → -a < cross (p - P.center) d := by
          intro k beta hk h0 e1 e2
          have h := abs_le.1 (hnd _ (normal_spec hLw).1)
          have e : cross (p - P.center) d = a * cross (normal (r - p)) d - k * cross (r - p) d := by
            simp only [cross, Prod.fst_sub, Prod.snd_sub] at *
            linear_combination d.2 * e1 - d.1 * e2
          have := mul_neg_of_neg_of_pos hk h0
          linarith [h.1]
        -- the corner is extreme to the side
        have ecr : ∀ x y : Pt, cross x y = dot (y.2, -y.1) x := by intro x y; simp only [cross, dot]; ring
        rcases hcase with ⟨h1, h2⟩ | ⟨h1, h2⟩ | ⟨h1, h2⟩
        · exfalso
          obtain ⟨s1, k1, b1, hk1, e1, e2⟩ := F1 h1
          obtain ⟨s2, k2, b2, hk2, e3, e4⟩ := F2 h2
          have u1 := B1 k1 b1 hk1 s1 e1 e2
          have u2 := B2 k2 b2 hk2 s2 e3 e4
          have := abs_lt.2 ⟨u2, u1⟩
          linarith
        · left
          obtain ⟨s1, k1, b1, hk1, e1, e2⟩ := F1 h1
          have s2 := N2 h2
          have u1 := B1 k1 b1 hk1 s1 e1 e2
          have hlt : cross (p - P.center) d < -a := by
            rcases abs_cases (cross (p - P.center) d) with h | h <;> linarith
          intro x hx
          have hcn := cone hc S1 S2 hu hw (-d.2, d.1) (by
            have : dot (-d.2, d.1) (p - o) = -cross (p - o) d := by simp only [cross, dot]; ring
            rw [this]; linarith) (by
            have : dot (-d.2, d.1) (r - p) = -cross (r - p) d := by simp only [cross, dot]; ring
            rw [this]; linarith) (Or.inl (by
            have : dot (-d.2, d.1) (p - o) = -cross (p - o) d := by simp only [cross, dot]; ring
            rw [this]; linarith)) x hx
          simp only [cross, dot, Prod.fst_sub, Prod.snd_sub] at hcn hlt ⊢
          linarith
        · right
          obtain ⟨s2, k2, b2, hk2, e3, e4⟩ := F2 h2
          have s1 := N1 h1
          have u2 := B2 k2 b2 hk2 s2 e3 e4
          have hlt : a < cross (p - P.center) d := by
            rcases abs_cases (cross (p - P.center) d) with h | h <;> linarith
          intro x hx
          have hcn := cone hc S1 S2 hu hw (d.2, -d.1) (by
            rw [← ecr]; exact s1) (by rw [← ecr]; exact s2.le) (Or.inr (by rw [← ecr]; exact s2)) x hx
          rw [← ecr] at hcn
          simp only [cross, Prod.fst_sub, Prod.snd_sub] at hcn hlt ⊢
          linarith

end

end PyX.Box
