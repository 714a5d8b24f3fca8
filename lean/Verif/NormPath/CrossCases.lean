import Verif.NormPath.CrossEnd

/-!
# Intersections of curves: examples and a common point which is missed (C139)
-/

set_option linter.unusedSectionVars false

namespace PyX.NormPath.Cross

open PyX.NormPath.ByLength

theorem lt_hypot {x y e : ℝ} (_he : 0 ≤ e) (h : e ^ 2 < x ^ 2 + y ^ 2) : e < hypot x y := by
  unfold hypot
  exact Real.lt_sqrt_of_sq_lt h

theorem leaf_two {c x : Curve ℝ} {eps : ℝ} (h1 : Flat (c.split (1 / 2)).1 eps) (h2 : Flat (c.split (1 / 2)).2 eps)
    (hx : Leaf eps c x) : x = (c.split (1 / 2)).1 ∨ x = (c.split (1 / 2)).2 := by
  cases hx with
  | left _ _ => exact .inl rfl
  | right _ _ => exact .inr rfl
  | leftward _ _ hf _ => exact (hf h1).elim
  | rightward _ _ hf _ => exact (hf h2).elim

theorem intersect_far (a b : Line ℝ) (eps s t : ℝ) (hd : eps * eps ≤ |invdet a b|) (he : crossParams a b = (s, t))
    (hout : ¬ ((0 ≤ s ∧ s ≤ 1) ∧ (0 ≤ t ∧ t ≤ 1))) (hfar : eps < dist2 (a.at_ (clamp s)) (b.at_ (clamp t))) :
    a.intersect b eps = [] := by
  unfold Line.intersect
  rw [if_neg (not_lt.mpr hd)]
  simp only [he]
  rw [if_neg hout, if_pos hfar]

/-! ## A common point which is missed -/

/-- A curve which touches the axis at `x = 20`. -/
def touching : Curve ℝ := ⟨0, 1, 20, -1, 40, 0, 60, 4⟩
/-- The line along the axis. -/
def axis : Line ℝ := ⟨0, 0, 60, 0⟩

theorem touching_left : (touching.split (1 / 2)).1 = ⟨0, 1, 10, 0, 20, -1 / 4, 30, 1 / 4⟩ := by
  simp only [touching, Curve.split]; norm_num
theorem touching_right : (touching.split (1 / 2)).2 = ⟨30, 1 / 4, 40, 3 / 4, 50, 2, 60, 4⟩ := by
  simp only [touching, Curve.split]; norm_num

theorem touching_flat : Flat (touching.split (1 / 2)).1 1 ∧ Flat (touching.split (1 / 2)).2 1 := by
  rw [touching_left, touching_right]
  have c1 : 29 < Curve.chord (⟨0, 1, 10, 0, 20, -1 / 4, 30, 1 / 4⟩ : Curve ℝ) := lt_hypot (by norm_num) (by norm_num)
  have c2 : 29 < Curve.chord (⟨30, 1 / 4, 40, 3 / 4, 50, 2, 60, 4⟩ : Curve ℝ) := lt_hypot (by norm_num) (by norm_num)
  refine ⟨⟨⟨?_, ?_⟩, .inl ?_, .inl ?_, .inl ?_⟩, ⟨⟨?_, ?_⟩, .inl ?_, .inl ?_, .inl ?_⟩⟩
  · exact lt_of_le_of_lt (b := 29) (by simp only [d1]; rw [abs_le]; norm_num) (by linarith)
  · exact lt_of_le_of_lt (b := 29) (by simp only [d2]; rw [abs_le]; norm_num) (by linarith)
  · simp only [s1]; norm_num
  · simp only [s2]; norm_num
  · simp only [s3]; norm_num
  · exact lt_of_le_of_lt (b := 29) (by simp only [d1]; rw [abs_le]; norm_num) (by linarith)
  · exact lt_of_le_of_lt (b := 29) (by simp only [d2]; rw [abs_le]; norm_num) (by linarith)
  · simp only [s1]; norm_num
  · simp only [s2]; norm_num
  · simp only [s3]; norm_num

/-- **C139.** The curve and the line have a common point, which is not found: the lines which replace the two halves of the
curve do not come close to the axis. -/
theorem touching_missed : pos (.curve touching) (1 / 3) = pos (.straight axis none) (1 / 3) ∧
    ∀ n, cross (n + 2) (.curve touching) (.straight axis none) 1 = .ok [] := by
  constructor
  · ext <;> simp only [pos, Item.point, bezierPoint, linePoint, touching, axis, Line.at_] <;> norm_num
  · intro n
    have hb : BBox.intersects (BBox.enlarged touching.cbox 1 none none none none) (Piece.straight axis none).cbox = true := by
      refine boxes_meet _ _ 1 one_pos (20, 0) ?_ ?_
      · change InBox (some _) _
        refine ⟨⟨?_, ?_⟩, ?_, ?_⟩ <;> simp only [touching] <;> norm_num
      · change InBox (some _) _
        refine ⟨⟨?_, ?_⟩, ?_, ?_⟩ <;> simp only [axis] <;> norm_num
    have h1 : axis.intersect (chordLine (touching.split (1 / 2)).1) 1 = [] := by
      rw [touching_left]
      refine intersect_far _ _ _ (2 / 3) (4 / 3) ?_ ?_ ?_ ?_
      · simp only [invdet, axis, chordLine]; rw [le_abs]; left; norm_num
      · simp only [crossParams, invdet, axis, chordLine]; norm_num
      · norm_num
      · rw [show clamp (2 / 3) = 2 / 3 from clamp_of_mem (by norm_num), show clamp (4 / 3) = 1 by unfold clamp; norm_num]
        exact lt_hypot (by norm_num) (by simp only [axis, chordLine, Line.at_]; norm_num)
    have h2 : axis.intersect (chordLine (touching.split (1 / 2)).2) 1 = [] := by
      rw [touching_right]
      refine intersect_far _ _ _ (7 / 15) (-1 / 15) ?_ ?_ ?_ ?_
      · simp only [invdet, axis, chordLine]; rw [le_abs]; right; norm_num
      · simp only [crossParams, invdet, axis, chordLine]; norm_num
      · norm_num
      · rw [show clamp (7 / 15) = 7 / 15 from clamp_of_mem (by norm_num), show clamp (-1 / 15) = 0 by unfold clamp; norm_num]
        exact lt_hypot (by norm_num) (by simp only [axis, chordLine, Line.at_]; norm_num)
    rw [cross, if_neg (by rw [hb]; simp), half_flat touching_flat.1, half_flat touching_flat.2, cross, cross, h1, h2]
    rfl

/-- A point on the axis. -/
def dot : Curve ℝ := ⟨5, 0, 5, 0, 5, 0, 5, 0⟩

example (n : ℕ) : cross n (.curve dot) (.straight axis none) 1 = .error .deep := by
  refine (point_endless dot axis none 1 one_pos ⟨⟨rfl, rfl, rfl⟩, rfl, rfl, rfl⟩ (boxes_meet _ _ 1 one_pos (5, 0) ?_ ?_) n).1
  · change InBox (some _) _
    refine ⟨⟨?_, ?_⟩, ?_, ?_⟩ <;> simp only [dot] <;> norm_num
  · change InBox (some _) _
    refine ⟨⟨?_, ?_⟩, ?_, ?_⟩ <;> simp only [axis] <;> norm_num

/-! ## An example for the hypotheses -/

/-- A bent curve. -/
def bent : Curve ℝ := ⟨0, 0, 10, 0, 12, 16, 38, -16⟩
/-- A line through its first half. -/
def upright : Line ℝ := ⟨6, -10, 6, 20⟩

theorem bent_left : (bent.split (1 / 2)).1 = ⟨0, 0, 5, 0, 8, 4, 13, 4⟩ := by
  simp only [bent, Curve.split]; norm_num
theorem bent_right : (bent.split (1 / 2)).2 = ⟨13, 4, 18, 4, 25, 0, 38, -16⟩ := by
  simp only [bent, Curve.split]; norm_num

theorem bent_flat : Flat (bent.split (1 / 2)).1 5 ∧ Flat (bent.split (1 / 2)).2 5 := by
  rw [bent_left, bent_right]
  have c1 : 13 < Curve.chord (⟨0, 0, 5, 0, 8, 4, 13, 4⟩ : Curve ℝ) := lt_hypot (by norm_num) (by norm_num)
  have c2 : 32 < Curve.chord (⟨13, 4, 18, 4, 25, 0, 38, -16⟩ : Curve ℝ) := lt_hypot (by norm_num) (by norm_num)
  refine ⟨⟨⟨?_, ?_⟩, .inl ?_, .inl ?_, .inl ?_⟩, ⟨⟨?_, ?_⟩, .inl ?_, .inl ?_, .inl ?_⟩⟩
  · exact lt_of_le_of_lt (b := 20) (by simp only [d1]; rw [abs_le]; norm_num) (by linarith)
  · exact lt_of_le_of_lt (b := 20) (by simp only [d2]; rw [abs_le]; norm_num) (by linarith)
  · simp only [s1]; norm_num
  · simp only [s2]; norm_num
  · simp only [s3]; norm_num
  · exact lt_of_le_of_lt (b := 140) (by simp only [d1]; rw [abs_le]; norm_num) (by linarith)
  · exact lt_of_le_of_lt (b := 140) (by simp only [d2]; rw [abs_le]; norm_num) (by linarith)
  · simp only [s1]; norm_num
  · simp only [s2]; norm_num
  · simp only [s3]; norm_num

theorem bent_fair : Fair 5 (.curve bent) (.straight upright none) := by
  rintro l m ⟨x, hx, rfl⟩ hm
  change m = upright at hm
  subst hm
  have : (5 : ℝ) * 5 ≤ |invdet (chordLine x) upright| := by
    rcases leaf_two bent_flat.1 bent_flat.2 hx with rfl | rfl
    · rw [bent_left]; simp only [invdet, chordLine, upright]; rw [le_abs]; right; norm_num
    · rw [bent_right]; simp only [invdet, chordLine, upright]; rw [le_abs]; right; norm_num
  exact ⟨.inl this, .inl (by rw [invdet_comm]; exact this)⟩

theorem bent_solved : Solved 5 (.curve bent) (.straight upright none) := by
  intro x hx m hm s hh
  change m = upright at hm
  subst hm
  rcases leaf_two bent_flat.1 bent_flat.2 hx with rfl | rfl
  · rintro ⟨hk, -⟩
    apply hk
    rw [bent_left]
    have e1 : hypot ((5 : ℝ) - 0) (0 - 0) = 5 := by
      unfold hypot; rw [show ((5 : ℝ) - 0) ^ 2 + (0 - 0) ^ 2 = 5 ^ 2 by norm_num]; exact Real.sqrt_sq (by norm_num)
    have e2 : hypot ((8 : ℝ) - 5) (4 - 0) = 5 := by
      unfold hypot; rw [show ((8 : ℝ) - 5) ^ 2 + (4 - 0) ^ 2 = 5 ^ 2 by norm_num]; exact Real.sqrt_sq (by norm_num)
    have e3 : hypot ((13 : ℝ) - 8) (4 - 4) = 5 := by
      unfold hypot; rw [show ((13 : ℝ) - 8) ^ 2 + (4 - 4) ^ 2 = 5 ^ 2 by norm_num]; exact Real.sqrt_sq (by norm_num)
    simp only [edge1, edge2, edge3, e1, e2, e3]
    norm_num
  · exfalso
    have h1 : (chordLine (bent.split (1 / 2)).2).intersect upright 5 = [] := by
      rw [bent_right]
      refine intersect_far _ _ _ (-7 / 25) (49 / 75) ?_ ?_ ?_ ?_
      · simp only [invdet, upright, chordLine]; rw [le_abs]; right; norm_num
      · simp only [crossParams, invdet, upright, chordLine]; norm_num
      · norm_num
      · rw [show clamp (-7 / 25) = 0 by unfold clamp; norm_num, show clamp (49 / 75) = 49 / 75 from clamp_of_mem (by norm_num)]
        exact lt_hypot (by norm_num) (by simp only [upright, chordLine, Line.at_]; norm_num)
    have h2 : upright.intersect (chordLine (bent.split (1 / 2)).2) 5 = [] := by
      rw [bent_right]
      refine intersect_far _ _ _ (49 / 75) (-7 / 25) ?_ ?_ ?_ ?_
      · simp only [invdet, upright, chordLine]; rw [le_abs]; left; norm_num
      · simp only [crossParams, invdet, upright, chordLine]; norm_num
      · norm_num
      · rw [show clamp (-7 / 25) = 0 by unfold clamp; norm_num, show clamp (49 / 75) = 49 / 75 from clamp_of_mem (by norm_num)]
        exact lt_hypot (by norm_num) (by simp only [upright, chordLine, Line.at_]; norm_num)
    rcases hh with ⟨t, ht⟩ | ⟨t, ht⟩
    · rw [h1] at ht; simp at ht
    · rw [h2] at ht; simp at ht

theorem bent_proper : Proper (.curve bent) := by
  rintro ⟨⟨h, -, -⟩, -⟩
  simp only [bent] at h
  norm_num at h

/-- A line beside all of the curve, which begins and ends on different sides of it. -/
def long : Line ℝ := ⟨6, -20, 6, 20⟩

theorem bent_along : Along long bent ∧ side long bent.x0 bent.y0 * side long bent.x3 bent.y3 < 0 ∧ 0 < len2 long := by
  refine ⟨⟨⟨?_, ?_⟩, ⟨?_, ?_⟩, ⟨?_, ?_⟩, ?_, ?_⟩, ?_, ?_⟩ <;> simp only [beside, len2, side, long, bent] <;> norm_num

theorem bent_fair_long : Fair 5 (.curve bent) (.straight long none) := by
  rintro l m ⟨x, hx, rfl⟩ hm
  change m = long at hm
  subst hm
  have : (5 : ℝ) * 5 ≤ |invdet (chordLine x) long| := by
    rcases leaf_two bent_flat.1 bent_flat.2 hx with rfl | rfl
    · rw [bent_left]; simp only [invdet, chordLine, long]; rw [le_abs]; right; norm_num
    · rw [bent_right]; simp only [invdet, chordLine, long]; rw [le_abs]; right; norm_num
  exact ⟨.inl this, .inl (by rw [invdet_comm]; exact this)⟩

example (n : ℕ) (L : List (ℝ × ℝ)) (h : cross n (.curve bent) (.straight long none) 5 = .ok L) : L ≠ [] :=
  sides_found_partial n bent long none 5 (by norm_num) bent_proper bent_along.2.2 bent_along.1 bent_along.2.1 bent_fair_long L h

/-- The hypotheses are met: there is a result, all results are within the bound, and the crossing at 6/13 of the chord
of the first half has a result next to it. -/
example : ∃ L N, (∀ n, N ≤ n → cross n (.curve bent) (.straight upright none) 5 = .ok L) ∧ L ≠ [] ∧
    (∀ r ∈ L, dist2 (pos (.curve bent) r.1) (upright.at_ r.2) ≤ (1 + 7 + 0) * 5) ∧
    ∃ r ∈ L, dist2 (pos (.curve bent) r.1) (6, 24 / 13) ≤ 7 * 5 := by
  obtain ⟨L, N, hL⟩ := cross_total (.curve bent) (.straight upright none) 5 (by norm_num) bent_proper trivial
  have hc := hL N le_rfl
  have hend : Ends 5 (.curve bent) (chordLine (bent.split (1 / 2)).1) := ⟨_, .left _ bent_flat.1, rfl⟩
  have heq : (chordLine (bent.split (1 / 2)).1).at_ (6 / 13) = upright.at_ (77 / 195) := by
    rw [bent_left]
    ext <;> simp only [chordLine, upright, Line.at_] <;> norm_num
  obtain ⟨r, hr, -, h1, -⟩ := cross_complete_partial N _ _ 5 (by norm_num) bent_solved trivial L hc _ _ hend rfl
    (by rw [bent_left]; simp only [invdet, chordLine, upright]; rw [le_abs]; right; norm_num) (6 / 13) (77 / 195)
    (by norm_num) (by norm_num) heq
  refine ⟨L, N, hL, List.ne_nil_of_mem hr, fun r hr => ?_, r, hr, ?_⟩
  · exact (cross_sound_partial N _ _ 5 (by norm_num) bent_fair bent_solved trivial L hc r hr).2.2
  · have e : (chordLine (bent.split (1 / 2)).1).at_ (6 / 13) = (6, 24 / 13) := by
      rw [bent_left]
      ext <;> simp only [chordLine, Line.at_] <;> norm_num
    rw [e] at h1
    exact h1

end PyX.NormPath.Cross
