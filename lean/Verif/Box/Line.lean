import Verif.Box.Align

/-!
# Line alignment and extent (C52)
-/

set_option linter.unusedSectionVars false

namespace PyX.Box

noncomputable section

variable {P : Polygon}

theorem byAlpha_vec {alpha : ℝ} {v : Pt} (h : 0 ≤ alpha) (h' : alpha ≤ 1) : byAlpha alpha v = .vec v := by
  unfold byAlpha
  have := epsilon_pos
  rw [if_pos ⟨by linarith, by linarith⟩]

theorem byAlpha_ne {alpha : ℝ} {v : Pt} : byAlpha alpha v ≠ .nothing := by
  unfold byAlpha; split_ifs <;> simp

theorem byAlpha_vec? {alpha : ℝ} {v w : Pt} (h : (byAlpha alpha v).vec? = some w) :
    w = v ∧ -epsilon < alpha ∧ alpha < 1 + epsilon := by
  unfold byAlpha at h
  split_ifs at h with h1 h2
  · cases h; exact ⟨rfl, by linarith [h1.1], h1.2⟩
  · cases h
  · cases h

theorem byAlpha_before {alpha : ℝ} {v : Pt} (h : byAlpha alpha v = .before) : alpha < 0 := by
  unfold byAlpha at h
  split_ifs at h with h1 h2
  exact h2

theorem byAlpha_after {alpha : ℝ} {v : Pt} (h : byAlpha alpha v = .after) : 1 < alpha := by
  unfold byAlpha at h
  have := epsilon_pos
  split_ifs at h with h1 h2
  push Not at h1
  by_contra hc
  linarith [h1 (by linarith)]

/-- The denominators of `linealignlinevector_pt` are not zero when they are used. -/
theorem line_den_ne {d e f : Pt} (hd : dot d d = 1) (h1 : ¬ (e.1 - f.1) * (e.1 - f.1) + (e.2 - f.2) * (e.2 - f.2) < epsilon)
    (h2 : ¬ (e.2 - f.2) * d.1 - (e.1 - f.1) * d.2 < -epsilon)
    (h3 : ¬ (d.1 * (e.1 - f.1) + d.2 * (e.2 - f.2) > epsilon ∨ d.1 * (e.1 - f.1) + d.2 * (e.2 - f.2) < -epsilon)) :
    0 < (e.2 - f.2) * d.1 - (e.1 - f.1) * d.2 := by
  push Not at h1 h2 h3
  obtain ⟨h3, h4⟩ := h3
  simp only [dot] at hd
  generalize e.1 - f.1 = x at *
  generalize e.2 - f.2 = y at *
  by_contra hc
  push Not at hc
  have he : epsilon = 1 / 10 ^ 10 := rfl
  have e1 : x * x + y * y = (y * d.1 - x * d.2) ^ 2 + (d.1 * x + d.2 * y) ^ 2 := by
    linear_combination (-(x * x + y * y)) * hd
  have b1 : (y * d.1 - x * d.2) ^ 2 ≤ epsilon ^ 2 := by
    apply sq_le_sq'
    · exact h2
    · linarith [epsilon_pos]
  have b2 : (d.1 * x + d.2 * y) ^ 2 ≤ epsilon ^ 2 := sq_le_sq' h4 h3
  rw [e1] at h1
  have h5 : epsilon ^ 2 + epsilon ^ 2 < epsilon := by rw [he]; norm_num
  linarith

/-- What the label of a side says (line alignment): `u` is the side. -/
theorem line_label {c d e f : Pt} {a : ℝ} (hd : dot d d = 1) (hl : epsilon ≤ dot (f - e) (f - e))
    (hs : cross (f - e) d = 0 ∨ epsilon < |cross (f - e) d|) (hq : dot (f - e) d = 0 ∨ epsilon < |dot (f - e) d|) :
    (linealignline c a d e f = .nothing ↔ cross (f - e) d < 0) ∧
    (linealignline c a d e f = .before → 0 ≤ cross (f - e) d ∧ 0 ≤ dot (f - e) d ∧
      (dot (f - e) d = 0 → 0 < cross (f - e) d)) ∧
    (linealignline c a d e f = .after → 0 ≤ cross (f - e) d ∧ dot (f - e) d ≤ 0 ∧
      (dot (f - e) d = 0 → 0 < cross (f - e) d)) ∧
    (∀ v, (linealignline c a d e f).vec? = some v → 0 < cross (f - e) d ∧ dot (f - e) d = 0 ∧
      v = ((a - dot (e - c) d) * d.1, (a - dot (e - c) d) * d.2)) := by
  have hep := epsilon_pos
  have ec : cross (f - e) d = (e.2 - f.2) * d.1 - (e.1 - f.1) * d.2 := by
    simp only [cross, Prod.fst_sub, Prod.snd_sub]; ring
  have eq : dot (f - e) d = -(d.1 * (e.1 - f.1) + d.2 * (e.2 - f.2)) := by
    simp only [dot, Prod.fst_sub, Prod.snd_sub]; ring
  have el : dot (f - e) (f - e) = (e.1 - f.1) * (e.1 - f.1) + (e.2 - f.2) * (e.2 - f.2) := by
    simp only [dot, Prod.fst_sub, Prod.snd_sub]; ring
  have hl' : ¬ (e.1 - f.1) * (e.1 - f.1) + (e.2 - f.2) * (e.2 - f.2) < epsilon := by rw [← el]; linarith
  unfold linealignline
  dsimp only
  rw [if_neg hl']
  by_cases h2 : (e.2 - f.2) * d.1 - (e.1 - f.1) * d.2 < -epsilon
  · rw [if_pos h2]
    have : cross (f - e) d < 0 := by rw [ec]; linarith
    exact ⟨⟨fun _ => this, fun _ => rfl⟩, fun h => (by cases h), fun h => (by cases h), fun v h => (by cases h)⟩
  rw [if_neg h2]
  have hs0 : 0 ≤ cross (f - e) d := by
    rcases hs with h | h
    · rw [h]
    · by_contra hc
      push Not at hc
      rw [abs_of_neg hc, ec] at h
      push Not at h2
      linarith
  by_cases h3 : d.1 * (e.1 - f.1) + d.2 * (e.2 - f.2) > epsilon ∨ d.1 * (e.1 - f.1) + d.2 * (e.2 - f.2) < -epsilon
  · rw [if_pos h3]
    by_cases h4 : d.1 * (e.1 - f.1) + d.2 * (e.2 - f.2) < 0
    · rw [if_pos h4]
      have hq' : 0 < dot (f - e) d := by rw [eq]; linarith
      exact ⟨⟨fun h => (by cases h), fun h => absurd h (not_lt.2 hs0)⟩, fun _ => ⟨hs0, hq'.le, fun h => absurd h hq'.ne'⟩,
        fun h => (by cases h), fun v h => (by cases h)⟩
    · rw [if_neg h4]
      have hq' : dot (f - e) d < 0 := by
        rw [eq]
        rcases h3 with h3 | h3 <;> linarith
      exact ⟨⟨fun h => (by cases h), fun h => absurd h (not_lt.2 hs0)⟩, fun h => (by cases h),
        fun _ => ⟨hs0, hq'.le, fun h => absurd h hq'.ne⟩, fun v h => (by cases h)⟩
  · rw [if_neg h3]
    have hden := line_den_ne hd hl' h2 h3
    have hq' : dot (f - e) d = 0 := by
      rcases hq with h | h
      · exact h
      · exfalso
        rw [eq] at h
        push Not at h3
        rw [abs_neg] at h
        rcases abs_cases (d.1 * (e.1 - f.1) + d.2 * (e.2 - f.2)) with h5 | h5 <;> linarith
    have hc' : 0 < cross (f - e) d := by rw [ec]; exact hden
    refine ⟨⟨fun h => absurd h byAlpha_ne, fun h => absurd h (not_lt.2 hs0)⟩, fun _ => ⟨hs0, hq'.ge, fun _ => hc'⟩,
        fun _ => ⟨hs0, hq'.le, fun _ => hc'⟩, fun v h => ⟨hc', hq', ?_⟩⟩
    have hv := (byAlpha_vec? h).1
    have hden' : (e.1 - f.1) * d.2 - (e.2 - f.2) * d.1 ≠ 0 := by intro hh; linarith
    have hb : ((e.1 - a * d.1 - c.1) * (e.2 - f.2) - (e.2 - a * d.2 - c.2) * (e.1 - f.1)) * 1 /
        ((e.1 - f.1) * d.2 - (e.2 - f.2) * d.1) = a - dot (e - c) d := by
      rw [div_eq_iff hden']
      simp only [dot, Prod.fst_sub, Prod.snd_sub] at hd hq' ⊢
      linear_combination (-((e.1 - c.1) * (e.2 - f.2) - (e.2 - c.2) * (e.1 - f.1))) * hd +
        (-((e.1 - c.1) * d.2 - (e.2 - c.2) * d.1)) * hq'
    rw [hv, hb]

/-- The result of the point alignment of a line. -/
theorem linealignpoint_eq (c : Pt) (a : ℝ) (d p : Pt) (hd : dot d d = 1) :
    linealignpoint c a d p = some ((a - dot (p - c) d) * d.1, (a - dot (p - c) d) * d.2) := by
  unfold linealignpoint
  dsimp only
  simp only [dot, Prod.fst_sub, Prod.snd_sub] at hd ⊢
  congr 2
  · linear_combination (p.1 - c.1) * hd
  · linear_combination (p.2 - c.2) * hd

theorem ne_zero_of_long {u : Pt} (h : epsilon ≤ dot u u) : u ≠ 0 := by
  rintro rfl
  simp [dot] at h
  linarith [epsilon_pos]

/-- Line alignment for a direction of length one. -/
theorem lineunit (hc : Convex P) (hl : Long P) (d : Pt) (hd : dot d d = 1) (hcl : ClearLine P d) (a : ℝ) :
    ∃ p ∈ P.corners, (∀ x ∈ P.corners, 0 ≤ dot d (x - p)) ∧
      alignunit P a d linealignline linealignpoint =
        some ((a - dot (p - P.center) d) * d.1, (a - dot (p - P.center) d) * d.2) := by
  have hd0 : d ≠ 0 := by rintro rfl; simp [dot] at hd
  set n := P.corners.length with hn
  have hlab : ∀ i, i < n → _ := fun i hi => line_label (c := P.center) (a := a) hd (hl _ _ (side_prev hi))
    (hcl _ _ (side_prev hi)).1 (hcl _ _ (side_prev hi)).2
  -- a side perpendicular to d on the near side
  have hbottom : ∀ e f, Side P e f → 0 < cross (f - e) d → dot (f - e) d = 0 → ∀ x ∈ P.corners,
      0 ≤ dot d (x - e) ∧ 0 ≤ dot d (x - f) := by
    intro e f hef hs hq x hx
    have h := hc.left e f hef x hx
    simp only [cross, dot, Prod.fst_sub, Prod.snd_sub] at *
    have key : ((f.1 - e.1) * d.2 - (f.2 - e.2) * d.1) * (d.1 * (x.1 - e.1) + d.2 * (x.2 - e.2)) =
        (f.1 - e.1) * (x.2 - e.2) - (f.2 - e.2) * (x.1 - e.1) := by
      linear_combination ((f.1 - e.1) * (x.2 - e.2) - (f.2 - e.2) * (x.1 - e.1)) * hd +
        ((x.1 - e.1) * d.2 - (x.2 - e.2) * d.1) * hq
    have h1 : 0 ≤ d.1 * (x.1 - e.1) + d.2 * (x.2 - e.2) := by
      by_contra hcon
      push Not at hcon
      have := mul_neg_of_pos_of_neg hs hcon
      linarith
    exact ⟨h1, by linarith⟩
  unfold alignunit
  dsimp only
  rw [← hn]
  cases hf : (List.range n).findSome? (fun i => (linealignline P.center a d (pt P (prev n i)) (pt P i)).vec?) with
  | some v =>
    dsimp only
    obtain ⟨i, hi, hv⟩ := List.exists_of_findSome?_eq_some hf
    have hi := List.mem_range.1 hi
    obtain ⟨h1, h2, h3⟩ := (hlab i hi).2.2.2 v hv
    exact ⟨_, pt_mem (prev_lt hi), fun x hx => (hbottom _ _ (side_prev hi) h1 h2 x hx).1, by rw [h3]⟩
  | none =>
    dsimp only
    have hnovec : ∀ i, i < n → (linealignline P.center a d (pt P (prev n i)) (pt P i)).vec? = none := by
      intro i hi
      exact List.findSome?_eq_none_iff.1 hf i (List.mem_range.2 hi)
    cases hg : (List.range n).find? (fun i => (linealignline P.center a d (pt P (prev n (prev n i))) (pt P (prev n i))).meets
        (linealignline P.center a d (pt P (prev n i)) (pt P i))) with
    | none =>
      exfalso
      obtain ⟨⟨i, hi, hneg⟩, ⟨j, hj, hpos⟩⟩ := both_signs hc d hd0
      obtain ⟨k, hk, hm⟩ := meets_exists (fun i => linealignline P.center a d (pt P (prev n i)) (pt P i)) n hnovec
        ⟨i, hi, (hlab i hi).1.2 hneg⟩ ⟨j, hj, fun h => by linarith [(hlab j hj).1.1 h]⟩
      have := List.find?_eq_none.1 hg k (List.mem_range.2 hk)
      exact this hm
    | some i =>
      dsimp only
      have hi : i < n := List.mem_range.1 (List.mem_of_find?_eq_some hg)
      have hm := List.find?_some hg
      have hp := prev_lt hi
      refine ⟨_, pt_mem hp, ?_, linealignpoint_eq _ _ _ _ hd⟩
      have L1 := hlab _ hp
      have L2 := hlab _ hi
      have S1 := side_prev (P := P) hp
      have S2 := side_prev (P := P) hi
      have hu := ne_zero_of_long (hl _ _ S1)
      have hw := ne_zero_of_long (hl _ _ S2)
      have hturn : 0 ≤ cross (pt P (prev n i) - pt P (prev n (prev n i))) (pt P i - pt P (prev n i)) := by
        have h := hc.left _ _ S1 _ (pt_mem hi)
        have e : cross (pt P (prev n i) - pt P (prev n (prev n i))) (pt P i - pt P (prev n i)) =
          cross (pt P (prev n i) - pt P (prev n (prev n i))) (pt P i - pt P (prev n (prev n i))) := by
          simp only [cross, Prod.fst_sub, Prod.snd_sub]; ring
        rw [e]; exact h
      have et : cross (pt P (prev n i) - pt P (prev n (prev n i))) (pt P i - pt P (prev n i)) =
          cross (pt P (prev n i) - pt P (prev n (prev n i))) d * dot (pt P i - pt P (prev n i)) d -
          dot (pt P (prev n i) - pt P (prev n (prev n i))) d * cross (pt P i - pt P (prev n i)) d := by
        simp only [cross, dot, Prod.fst_sub, Prod.snd_sub] at hd ⊢
        linear_combination (-(((pt P (prev n i)).1 - (pt P (prev n (prev n i))).1) * ((pt P i).2 - (pt P (prev n i)).2) -
          ((pt P (prev n i)).2 - (pt P (prev n (prev n i))).2) * ((pt P i).1 - (pt P (prev n i)).1))) * hd
      rw [et] at hturn
      have hfin : ∀ q1 q2 : ℝ, q1 = dot (pt P (prev n i) - pt P (prev n (prev n i))) d →
          q2 = dot (pt P i - pt P (prev n i)) d → q1 < 0 → 0 < q2 →
          ∀ x ∈ P.corners, 0 ≤ dot d (x - pt P (prev n i)) := by
        intro q1 q2 e1 e2 h1 h2
        have c1 : ∀ x y : Pt, dot x y = dot y x := by intro x y; simp only [dot]; ring
        rw [e1, c1] at h1
        rw [e2, c1] at h2
        exact cone hc S1 S2 hu hw d h1.le h2.le (Or.inl h1)
      cases l1 : linealignline P.center a d (pt P (prev n (prev n i))) (pt P (prev n i)) with
      | vec v => rw [l1] at hm; cases hm
      | before => rw [l1] at hm; cases hm
      | after =>
        obtain ⟨s1, q1, z1⟩ := L1.2.2.1 l1
        rcases q1.lt_or_eq with q1 | q1
        · cases l2 : linealignline P.center a d (pt P (prev n i)) (pt P i) with
          | vec v => rw [l1, l2] at hm; cases hm
          | after => rw [l1, l2] at hm; cases hm
          | before =>
            obtain ⟨s2, q2, z2⟩ := L2.2.1 l2
            rcases q2.lt_or_eq with q2 | q2
            · exact hfin _ _ rfl rfl q1 q2
            · exact fun x hx => (hbottom _ _ S2 (z2 q2.symm) q2.symm x hx).1
          | nothing =>
            have s2 := L2.1.1 l2
            have q2 : 0 < dot (pt P i - pt P (prev n i)) d := by
              have := mul_pos_of_neg_of_neg q1 s2
              by_contra hcon
              push Not at hcon
              have := mul_nonneg s1 (neg_nonneg.2 hcon)
              linarith
            exact hfin _ _ rfl rfl q1 q2
        · exact fun x hx => (hbottom _ _ S1 (z1 q1) q1 x hx).2
      | nothing =>
        cases l2 : linealignline P.center a d (pt P (prev n i)) (pt P i) with
        | vec v => rw [l1, l2] at hm; cases hm
        | after => rw [l1, l2] at hm; cases hm
        | nothing => rw [l1, l2] at hm; cases hm
        | before =>
          have s1 := L1.1.1 l1
          obtain ⟨s2, q2, z2⟩ := L2.2.1 l2
          rcases q2.lt_or_eq with q2 | q2
          · have q1 : dot (pt P (prev n i) - pt P (prev n (prev n i))) d < 0 := by
              have := mul_neg_of_neg_of_pos s1 q2
              by_contra hcon
              push Not at hcon
              have := mul_nonneg hcon s2
              linarith
            exact hfin _ _ rfl rfl q1 q2
          · exact fun x hx => (hbottom _ _ S2 (z2 q2.symm) q2.symm x hx).1

theorem unitOf_dot {d : Pt} (hd : d ≠ 0) : dot (unitOf d) (unitOf d) = 1 := by
  have h : 0 < d.1 ^ 2 + d.2 ^ 2 := by
    by_contra hcon
    have e1 : d.1 = 0 := by nlinarith [sq_nonneg d.1, sq_nonneg d.2]
    have e2 : d.2 = 0 := by nlinarith [sq_nonneg d.1, sq_nonneg d.2]
    exact hd (Prod.ext e1 e2)
  have hs := Real.sqrt_pos.2 h
  have he := Real.sq_sqrt h.le
  simp only [dot, unitOf]
  field_simp
  linarith

theorem hypot_ne {d : Pt} (hd : d ≠ 0) : hypot d.1 d.2 ≠ 0 := by
  have h : 0 < d.1 * d.1 + d.2 * d.2 := by
    by_contra hcon
    have e1 : d.1 = 0 := by nlinarith [mul_self_nonneg d.1, mul_self_nonneg d.2]
    have e2 : d.2 = 0 := by nlinarith [mul_self_nonneg d.1, mul_self_nonneg d.2]
    exact hd (Prod.ext e1 e2)
  exact (Real.sqrt_pos.2 h).ne'

theorem unitOf_eq (d : Pt) : unitOf d = (d.1 / hypot d.1 d.2, d.2 / hypot d.1 d.2) := by
  unfold unitOf hypot
  rw [show d.1 ^ 2 + d.2 ^ 2 = d.1 * d.1 + d.2 * d.2 by ring]

theorem align_eq (P : Polygon) (a : ℝ) {d : Pt} (hd : d ≠ 0) (line : Pt → ℝ → Pt → Pt → Pt → Label)
    (point : Pt → ℝ → Pt → Pt → Option Pt) : alignvector P a d line point = .ok (alignunit P a (unitOf d) line point) := by
  unfold alignvector
  dsimp only
  rw [if_neg (hypot_ne hd), ← unitOf_eq]

theorem transform_move (P : Polygon) (v : Pt) :
    transform P [translate v] = ⟨P.corners.map (· + v), P.center + v⟩ := by
  unfold transform
  simp only [List.foldl_cons, List.foldl_nil]
  rfl

/-- The polygon moved by `v`, with its center. -/
def moved (P : Polygon) (v : Pt) : Polygon := ⟨P.corners.map (· + v), P.center + v⟩

/-- **C52, line alignment.** A convex box is moved in direction `d` such that it touches the line at distance
`a` from the (old) center perpendicular to `d` from the far side: every point of the box is at least `a` away
from the center measured along `d`, and a corner is exactly there. -/
theorem linealign_partial (hc : Convex P) (hl : Long P) (a : ℝ) (d : Pt) (hd : d ≠ 0) (hcl : ClearLine P (unitOf d)) :
    ∃ t : ℝ, linealign P a d = .ok (moved P (t * d.1, t * d.2)) ∧
      (∀ x ∈ convexHull ℝ {p | p ∈ (moved P (t * d.1, t * d.2)).corners}, a ≤ dot (x - P.center) (unitOf d)) ∧
      ∃ p ∈ (moved P (t * d.1, t * d.2)).corners, dot (p - P.center) (unitOf d) = a := by
  have hu := unitOf_dot hd
  obtain ⟨p, hp, hmin, heq⟩ := lineunit hc hl (unitOf d) hu hcl a
  have hv : ((a - dot (p - P.center) (unitOf d)) * (unitOf d).1, (a - dot (p - P.center) (unitOf d)) * (unitOf d).2) =
      ((a - dot (p - P.center) (unitOf d)) / hypot d.1 d.2 * d.1,
       (a - dot (p - P.center) (unitOf d)) / hypot d.1 d.2 * d.2) := by
    rw [unitOf_eq]
    ext
    · simp only; ring
    · simp only; ring
  rw [hv] at heq
  refine ⟨(a - dot (p - P.center) (unitOf d)) / hypot d.1 d.2, ?_, ?_, ?_⟩
  · unfold linealign linealignvector
    rw [align_eq P a hd, heq]
    show Except.ok (transform P [translate _]) = _
    rw [transform_move]
    rfl
  · rw [← hv]
    apply convexHull_min (t := {x : Pt | a ≤ dot (x - P.center) (unitOf d)})
    · rintro x hx
      simp only [moved, Set.mem_ofPred_eq, List.mem_map] at hx
      obtain ⟨y, hy, rfl⟩ := hx
      have h := hmin y hy
      simp only [Set.mem_ofPred_eq]
      simp only [dot, Prod.fst_sub, Prod.snd_sub, Prod.fst_add, Prod.snd_add] at h hu ⊢
      have e : (y.1 + (a - ((p.1 - P.center.1) * (unitOf d).1 + (p.2 - P.center.2) * (unitOf d).2)) * (unitOf d).1 - P.center.1) * (unitOf d).1 +
        (y.2 + (a - ((p.1 - P.center.1) * (unitOf d).1 + (p.2 - P.center.2) * (unitOf d).2)) * (unitOf d).2 - P.center.2) * (unitOf d).2 =
        a + ((unitOf d).1 * (y.1 - p.1) + (unitOf d).2 * (y.2 - p.2)) := by
        linear_combination (a - ((p.1 - P.center.1) * (unitOf d).1 + (p.2 - P.center.2) * (unitOf d).2)) * hu
      rw [e]; linarith
    · intro x hx y hy s t hs ht hst
      simp only [Set.mem_ofPred_eq] at hx hy ⊢
      simp only [dot, Prod.fst_sub, Prod.snd_sub, Prod.fst_add, Prod.snd_add, Prod.smul_fst, Prod.smul_snd, smul_eq_mul] at hx hy ⊢
      have e : (s * x.1 + t * y.1 - P.center.1) * (unitOf d).1 + (s * x.2 + t * y.2 - P.center.2) * (unitOf d).2 =
        s * ((x.1 - P.center.1) * (unitOf d).1 + (x.2 - P.center.2) * (unitOf d).2) +
        t * ((y.1 - P.center.1) * (unitOf d).1 + (y.2 - P.center.2) * (unitOf d).2) := by
        linear_combination (-(P.center.1 * (unitOf d).1 + P.center.2 * (unitOf d).2)) * (-hst)
      rw [e]
      have h1 := mul_le_mul_of_nonneg_left hx hs
      have h2 := mul_le_mul_of_nonneg_left hy ht
      have : a = s * a + t * a := by rw [← add_mul, hst, one_mul]
      linarith
  · rw [← hv]
    refine ⟨_, List.mem_map.2 ⟨p, hp, rfl⟩, ?_⟩
    simp only [dot, Prod.fst_sub, Prod.snd_sub, Prod.fst_add, Prod.snd_add] at hu ⊢
    linear_combination (a - ((p.1 - P.center.1) * (unitOf d).1 + (p.2 - P.center.2) * (unitOf d).2)) * hu

/-- **C52, extent.** The extent of a box in a direction is the difference between the largest and the smallest
projection of its corners on the direction. -/
theorem extent_partial (hc : Convex P) (hl : Long P) (d : Pt) (hd : d ≠ 0) (hcl : ClearLine P (unitOf d)) :
    ∃ p ∈ P.corners, ∃ q ∈ P.corners, extent P d = .ok (dot q (unitOf d) - dot p (unitOf d)) ∧
      ∀ x ∈ P.corners, dot p (unitOf d) ≤ dot x (unitOf d) ∧ dot x (unitOf d) ≤ dot q (unitOf d) := by
  have hu := unitOf_dot hd
  have hu0 : unitOf d ≠ 0 := by intro h; rw [h] at hu; simp [dot] at hu
  have hone : ∀ e : Pt, dot e e = 1 → unitOf e = e := by
    intro e he
    unfold unitOf
    have : e.1 ^ 2 + e.2 ^ 2 = 1 := by simp only [dot] at he; linarith
    rw [this]; simp
  have hneg : dot (-(unitOf d).1, -(unitOf d).2) (-(unitOf d).1, -(unitOf d).2) = 1 := by
    simp only [dot] at hu ⊢; linarith
  have hn0 : ((-(unitOf d).1, -(unitOf d).2) : Pt) ≠ 0 := by intro h; rw [h] at hneg; simp [dot] at hneg
  have hcl' : ClearLine P (-(unitOf d).1, -(unitOf d).2) := by
    intro e f hef
    have h := hcl e f hef
    have e1 : cross (f - e) (-(unitOf d).1, -(unitOf d).2) = -cross (f - e) (unitOf d) := by simp only [cross]; ring
    have e2 : dot (f - e) (-(unitOf d).1, -(unitOf d).2) = -dot (f - e) (unitOf d) := by simp only [dot]; ring
    rw [e1, e2, abs_neg, abs_neg, neg_eq_zero, neg_eq_zero]
    exact h
  obtain ⟨p, hp, hpm, hpe⟩ := lineunit hc hl (unitOf d) hu hcl 0
  obtain ⟨q, hq, hqm, hqe⟩ := lineunit hc hl _ hneg hcl' 0
  refine ⟨p, hp, q, hq, ?_, ?_⟩
  · unfold extent
    dsimp only
    have e1 : d.1 / hypot d.1 d.2 = (unitOf d).1 := by rw [unitOf_eq]
    have e2 : d.2 / hypot d.1 d.2 = (unitOf d).2 := by rw [unitOf_eq]
    rw [if_neg (hypot_ne hd), e1, e2]
    unfold linealignvector
    rw [align_eq P 0 hu0, hone _ hu, hpe, align_eq P 0 hn0, hone _ hneg, hqe]
    show Except.ok _ = _
    congr 1
    simp only [dot, Prod.fst_sub, Prod.snd_sub] at hu ⊢
    linear_combination ((q.1 - p.1) * (unitOf d).1 + (q.2 - p.2) * (unitOf d).2) * hu
  · intro x hx
    have h1 := hpm x hx
    have h2 := hqm x hx
    simp only [dot, Prod.fst_sub, Prod.snd_sub] at h1 h2 ⊢
    constructor <;> linarith

end

end PyX.Box
