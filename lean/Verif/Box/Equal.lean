import Verif.Box.Lists

/-!
# Aligning several boxes at circles (C85)

`circlealignequal` (`pyx/box.py:256-273`) moves all boxes by one vector such that no box overlaps the circle around
its (old) center.  A box which never meets its circle has no vector of its own; what happens then depends on the
order of the boxes.
-/

set_option linter.unusedSectionVars false

namespace PyX.Box

variable {P : Polygon}

noncomputable section

/-- The box, moved by `v`, has no point nearer to `c` than `a`. -/
def Outside (P : Polygon) (v c : Pt) (a : ℝ) : Prop :=
  ∀ x ∈ convexHull ℝ {p | p ∈ (moved P v).corners}, a ≤ dist x c

/-- A side of the box, moved by `v`, has a point at distance `a` from `c` (up to the relative tolerance `epsilon`
at the ends of the side). -/
def Touches (P : Polygon) (v c : Pt) (a : ℝ) : Prop :=
  ∃ e f, Side P e f ∧ ∃ s : ℝ, -epsilon < s ∧ s < 1 + epsilon ∧
    dist (e.1 + s * (f.1 - e.1) + v.1, e.2 + s * (f.2 - e.2) + v.2) c = a

/-- Wherever the box is moved in direction `d` it stays outside of the circle. -/
def Never (P : Polygon) (d : Pt) (a : ℝ) : Prop :=
  ∀ t : ℝ, ∀ x ∈ convexHull ℝ {p | p ∈ (moved P (t * d.1, t * d.2)).corners}, a < dist x P.center

/-- The vector of one box: moved at least so far the box is outside of its circle, moved exactly so far it touches
it.  Without a vector it never meets the circle. -/
theorem circle_vec (hc : Convex P) (hl : Long P) (a : ℝ) (ha : 0 < a) (ha' : epsilon ≤ a * a) (d : Pt)
    (hd : d ≠ 0) (hcl : ClearCircle P (unitOf d)) :
    (∃ t : ℝ, circlealignvector P a d = .ok (some (t * d.1, t * d.2)) ∧
      (∀ t', t ≤ t' → Outside P (t' * d.1, t' * d.2) P.center a) ∧ Touches P (t * d.1, t * d.2) P.center a) ∨
    (circlealignvector P a d = .ok none ∧ Never P d a) := by
  have hu := unitOf_dot hd
  have hh : 0 < hypot d.1 d.2 := lt_of_le_of_ne (Real.sqrt_nonneg _) (hypot_ne hd).symm
  rcases circleunit hc hl (unitOf d) hu hcl a ha ha' with ⟨t, heq, m, hm, hmd, hcor, -⟩ | ⟨heq, -⟩
  · left
    have hv : ((t * (unitOf d).1, t * (unitOf d).2) : Pt) = (t / hypot d.1 d.2 * d.1, t / hypot d.1 d.2 * d.2) := by
      rw [unitOf_eq]
      ext
      · simp only; ring
      · simp only; ring
    rw [hv] at heq hcor
    have hvec : circlealignvector P a d = .ok (some (t / hypot d.1 d.2 * d.1, t / hypot d.1 d.2 * d.2)) := by
      unfold circlealignvector
      rw [align_eq P a hd, heq]
    refine ⟨t / hypot d.1 d.2, hvec, ?_, ?_⟩
    · intro t' ht x hx
      refine dist_ge hm (halfplane_convex m P.center a _ ?_ x hx) ha
      intro y hy
      simp only [moved, Set.mem_ofPred_eq, List.mem_map] at hy
      obtain ⟨z, hz, rfl⟩ := hy
      have h1 := hcor z hz
      have h2 : dot m d = hypot d.1 d.2 * dot m (unitOf d) := by
        rw [unitOf_eq]; simp only [dot]; field_simp
      have h3 : 0 ≤ dot m d := by rw [h2]; exact mul_nonneg hh.le hmd
      have h4 := mul_nonneg (sub_nonneg.2 ht) h3
      have e : dot m (z + (t' * d.1, t' * d.2) - P.center) =
          dot m (z + (t / hypot d.1 d.2 * d.1, t / hypot d.1 d.2 * d.2) - P.center) + (t' - t / hypot d.1 d.2) * dot m d := by
        simp only [dot, Prod.fst_sub, Prod.snd_sub, Prod.fst_add, Prod.snd_add]; ring
      rw [e]; linarith
    · have hal : circlealign P a d = .ok (moved P (t / hypot d.1 d.2 * d.1, t / hypot d.1 d.2 * d.2)) := by
        unfold circlealign
        rw [hvec]
        show Except.ok (transform P [translate _]) = _
        rw [transform_move]; rfl
      rcases circlealign_partial hc hl a ha ha' d hd hcl with ⟨t', h1, -, h3⟩ | ⟨h1, -⟩
      · have h4 : moved P (t' * d.1, t' * d.2) = moved P (t / hypot d.1 d.2 * d.1, t / hypot d.1 d.2 * d.2) := by
          rw [h1] at hal; exact Except.ok.inj hal
        have h5 : ((t' * d.1, t' * d.2) : Pt) = (t / hypot d.1 d.2 * d.1, t / hypot d.1 d.2 * d.2) := by
          have := congrArg Polygon.center h4
          exact add_left_cancel this
        have h6 := congrArg Prod.fst h5
        have h7 := congrArg Prod.snd h5
        simp only at h6 h7
        obtain ⟨e, f, hs, s, s1, s2, hdist⟩ := h3
        refine ⟨e, f, hs, s, s1, s2, ?_⟩
        simp only
        rw [← h6, ← h7]; exact hdist
      · rw [h1] at hal; cases hal
  · right
    have hvec : circlealignvector P a d = .ok none := by
      unfold circlealignvector
      rw [align_eq P a hd, heq]
    refine ⟨hvec, ?_⟩
    rcases circlealign_partial hc hl a ha ha' d hd hcl with ⟨t', h1, -⟩ | ⟨-, h2⟩
    · unfold circlealign at h1
      rw [hvec] at h1
      cases h1
    · exact h2

/-- The first loop of `genericalignequal` when some boxes have no vector. -/
theorem furthest_some (method : Polygon → ℝ → Pt → Except Err (Option Pt)) (a : ℝ) (d : Pt) (hd : 0 < d.1 * d.1 + d.2 * d.2)
    (tt : Polygon → Option ℝ) (l : List Polygon)
    (hm : ∀ P ∈ l, method P a d = .ok ((tt P).map fun t => (t * d.1, t * d.2))) (v : ℝ) :
    (∃ m, l.foldlM (furthestStep method a d) (some (v * d.1, v * d.2)) = .ok (some (m * d.1, m * d.2)) ∧
      (v = m ∨ ∃ P ∈ l, tt P = some m) ∧ v ≤ m ∧ (∀ P ∈ l, ∃ t, tt P = some t ∧ t ≤ m)) ∨
    (l.foldlM (furthestStep method a d) (some (v * d.1, v * d.2)) = .error .typeError ∧ ∃ P ∈ l, tt P = none) := by
  induction l generalizing v with
  | nil => exact Or.inl ⟨v, rfl, Or.inl rfl, le_rfl, by simp⟩
  | cons P Ps ih =>
    have e0 := hm P List.mem_cons_self
    cases ht : tt P with
    | none =>
      right
      refine ⟨?_, P, List.mem_cons_self, ht⟩
      rw [ht] at e0
      rw [List.foldlM_cons]
      unfold furthestStep
      rw [e0]; rfl
    | some t =>
      rw [ht] at e0
      have e1 : v * d.1 * d.1 + v * d.2 * d.2 = v * (d.1 * d.1 + d.2 * d.2) := by ring
      have e2 : t * d.1 * d.1 + t * d.2 * d.2 = t * (d.1 * d.1 + d.2 * d.2) := by ring
      have hstep : furthestStep method a d (some (v * d.1, v * d.2)) P = .ok (some (max v t * d.1, max v t * d.2)) := by
        unfold furthestStep
        rw [e0]
        show Except.ok (furthest d (some (v * d.1, v * d.2)) (t * d.1, t * d.2)) = _
        simp only [furthest, e1, e2]
        by_cases hlt : v < t
        · rw [if_pos (mul_lt_mul_of_pos_right hlt hd), max_eq_right hlt.le]
        · rw [if_neg (not_lt.2 (mul_le_mul_of_nonneg_right (not_lt.1 hlt) hd.le)), max_eq_left (not_lt.1 hlt)]
      rw [List.foldlM_cons, hstep]
      rcases ih (fun Q hQ => hm Q (List.mem_cons_of_mem _ hQ)) (max v t) with ⟨m, h1, h2, h3, h4⟩ | ⟨h1, Q, hQ, h2⟩
      · left
        refine ⟨m, h1, ?_, (le_max_left _ _).trans h3, ?_⟩
        · rcases h2 with h2 | ⟨Q, hQ, h2⟩
          · rcases max_choice v t with h | h
            · exact Or.inl (h.symm.trans h2)
            · exact Or.inr ⟨P, List.mem_cons_self, by rw [ht, ← h2, h]⟩
          · exact Or.inr ⟨Q, List.mem_cons_of_mem _ hQ, h2⟩
        · intro Q hQ
          rcases List.mem_cons.1 hQ with rfl | hQ
          · exact ⟨t, ht, (le_max_right _ _).trans h3⟩
          · exact h4 Q hQ
      · exact Or.inr ⟨h1, Q, List.mem_cons_of_mem _ hQ, h2⟩

/-- The whole loop: boxes without a vector are skipped as long as no vector is known. -/
theorem furthest_none (method : Polygon → ℝ → Pt → Except Err (Option Pt)) (a : ℝ) (d : Pt) (hd : 0 < d.1 * d.1 + d.2 * d.2)
    (tt : Polygon → Option ℝ) (l : List Polygon)
    (hm : ∀ P ∈ l, method P a d = .ok ((tt P).map fun t => (t * d.1, t * d.2))) :
    (∃ m, l.foldlM (furthestStep method a d) none = .ok (some (m * d.1, m * d.2)) ∧
      (∃ P ∈ l, tt P = some m) ∧ ∀ P ∈ l, ∀ t, tt P = some t → t ≤ m) ∨
    (l.foldlM (furthestStep method a d) none = .ok none ∧ ∀ P ∈ l, tt P = none) ∨
    (l.foldlM (furthestStep method a d) none = .error .typeError ∧ ∃ P ∈ l, tt P = none) := by
  induction l with
  | nil => exact Or.inr (Or.inl ⟨rfl, by simp⟩)
  | cons P Ps ih =>
    have e0 := hm P List.mem_cons_self
    have hPs := fun Q hQ => hm Q (List.mem_cons_of_mem P hQ)
    cases ht : tt P with
    | none =>
      rw [ht] at e0
      have hstep : furthestStep method a d none P = .ok none := by unfold furthestStep; rw [e0]; rfl
      rw [List.foldlM_cons, hstep]
      rcases ih hPs with ⟨m, h1, ⟨Q, hQ, h2⟩, h3⟩ | ⟨h1, h2⟩ | ⟨h1, h2⟩
      · refine Or.inl ⟨m, h1, ⟨Q, List.mem_cons_of_mem _ hQ, h2⟩, ?_⟩
        intro R hR t htt
        rcases List.mem_cons.1 hR with rfl | hR
        · rw [ht] at htt; cases htt
        · exact h3 R hR t htt
      · refine Or.inr (Or.inl ⟨h1, ?_⟩)
        intro R hR
        rcases List.mem_cons.1 hR with rfl | hR
        · exact ht
        · exact h2 R hR
      · obtain ⟨Q, hQ, h2⟩ := h2
        exact Or.inr (Or.inr ⟨h1, Q, List.mem_cons_of_mem _ hQ, h2⟩)
    | some v =>
      rw [ht] at e0
      have hstep : furthestStep method a d none P = .ok (some (v * d.1, v * d.2)) := by unfold furthestStep; rw [e0]; rfl
      rw [List.foldlM_cons, hstep]
      rcases furthest_some method a d hd tt Ps hPs v with ⟨m, h1, h2, h3, h4⟩ | ⟨h1, Q, hQ, h2⟩
      · refine Or.inl ⟨m, h1, ?_, ?_⟩
        · rcases h2 with rfl | ⟨Q, hQ, h2⟩
          · exact ⟨P, List.mem_cons_self, ht⟩
          · exact ⟨Q, List.mem_cons_of_mem _ hQ, h2⟩
        · intro R hR t htt
          rcases List.mem_cons.1 hR with rfl | hR
          · rw [ht] at htt; cases htt; exact h3
          · obtain ⟨t', h5, h6⟩ := h4 R hR
            rw [h5] at htt; cases htt; exact h6
      · exact Or.inr (Or.inr ⟨h1, Q, List.mem_cons_of_mem _ hQ, h2⟩)

theorem normSq_pos {d : Pt} (hd : d ≠ 0) : 0 < d.1 * d.1 + d.2 * d.2 := by
  have := hypot_ne hd
  unfold hypot at this
  by_contra hc
  exact this (Real.sqrt_eq_zero_of_nonpos (not_lt.1 hc))

/-- **C85, circle alignment of several boxes.** Either all boxes are moved by one vector in direction `d`, afterwards
no box overlaps the circle around its (old) center and one box touches its circle; or a `TypeError` is raised and
there is a box which never meets its circle. -/
theorem circlealignequal_partial (Ps : List Polygon) (hne : Ps ≠ []) (a : ℝ) (ha : 0 < a) (ha' : epsilon ≤ a * a) (d : Pt)
    (hd : d ≠ 0) (hPs : ∀ P ∈ Ps, Convex P ∧ Long P ∧ ClearCircle P (unitOf d)) :
    (∃ t : ℝ, circlealignequal Ps a d = .ok (Ps.map fun P => moved P (t * d.1, t * d.2)) ∧
      (∀ P ∈ Ps, Outside P (t * d.1, t * d.2) P.center a) ∧ ∃ P ∈ Ps, Touches P (t * d.1, t * d.2) P.center a) ∨
    (circlealignequal Ps a d = .error .typeError ∧ ∃ P ∈ Ps, Never P d a) := by
  classical
  have hex : ∀ P : Polygon, ∃ t : Option ℝ, P ∈ Ps → circlealignvector P a d = .ok (t.map fun t => (t * d.1, t * d.2)) ∧
      (t = none → Never P d a) ∧ ∀ v, t = some v → (∀ t', v ≤ t' → Outside P (t' * d.1, t' * d.2) P.center a) ∧
        Touches P (v * d.1, v * d.2) P.center a := by
    intro P
    by_cases hP : P ∈ Ps
    · obtain ⟨h1, h2, h3⟩ := hPs P hP
      rcases circle_vec h1 h2 a ha ha' d hd h3 with ⟨t, e, h4, h5⟩ | ⟨e, h4⟩
      · exact ⟨some t, fun _ => ⟨e, by simp, fun v hv => by cases hv; exact ⟨h4, h5⟩⟩⟩
      · exact ⟨none, fun _ => ⟨e, fun _ => h4, by simp⟩⟩
    · exact ⟨none, fun h => absurd h hP⟩
  choose tt htt using hex
  rcases furthest_none circlealignvector a d (normSq_pos hd) tt Ps (fun P hP => (htt P hP).1) with
    ⟨m, h1, ⟨Q, hQ, h2⟩, h3⟩ | ⟨h1, h2⟩ | ⟨h1, Q, hQ, h2⟩
  · refine Or.inl ⟨m, ?_, ?_, Q, hQ, ((htt Q hQ).2.2 m h2).2⟩
    · unfold circlealignequal alignequal
      rw [h1]
      exact moveAll Ps _
    · intro P hP
      cases h : tt P with
      | none => exact fun x hx => ((htt P hP).2.1 h m x hx).le
      | some v => exact ((htt P hP).2.2 v h).1 m (h3 P hP v h)
  · obtain ⟨Q, Qs, rfl⟩ := List.exists_cons_of_ne_nil hne
    refine Or.inr ⟨?_, Q, List.mem_cons_self, (htt Q List.mem_cons_self).2.1 (h2 Q List.mem_cons_self)⟩
    unfold circlealignequal alignequal
    rw [h1]
    rfl
  · refine Or.inr ⟨?_, Q, hQ, (htt Q hQ).2.1 h2⟩
    unfold circlealignequal alignequal
    rw [h1]
    rfl

/-- A box which never meets its circle is skipped at the beginning of the list. -/
theorem unreachable_first (Ps : List Polygon) (P : Polygon) (a : ℝ) (d : Pt) (h : circlealignvector P a d = .ok none)
    (v : Pt) (hv : Ps.foldlM (furthestStep circlealignvector a d) none = .ok (some v)) :
    circlealignequal (P :: Ps) a d = .ok ((P :: Ps).map fun Q => moved Q v) := by
  unfold circlealignequal alignequal
  have : furthestStep circlealignvector a d none P = .ok none := by unfold furthestStep; rw [h]; rfl
  rw [List.foldlM_cons, this]
  show (Ps.foldlM (furthestStep circlealignvector a d) none >>= fun vec => (P :: Ps).mapM fun P => moveBy P vec) = _
  rw [hv]
  exact moveAll _ _

/-- A box which never meets its circle is an error behind one that does. -/
theorem unreachable_later (P Q : Polygon) (Ps : List Polygon) (a : ℝ) (d v : Pt) (hP : circlealignvector P a d = .ok (some v))
    (h : circlealignvector Q a d = .ok none) : circlealignequal (P :: Q :: Ps) a d = .error .typeError := by
  unfold circlealignequal alignequal
  have h1 : furthestStep circlealignvector a d none P = .ok (some v) := by unfold furthestStep; rw [hP]; rfl
  have h2 : furthestStep circlealignvector a d (some v) Q = .error .typeError := by unfold furthestStep; rw [h]; rfl
  rw [List.foldlM_cons, h1]
  show ((Q :: Ps).foldlM (furthestStep circlealignvector a d) (some v) >>= fun vec => _) = _
  rw [List.foldlM_cons, h2]
  rfl

/-- A box at the circle. -/
def near : Polygon := rect 0 0 1 1 (0, 0) (0, 0)

/-- A box above the circle. -/
def far : Polygon := rect 0 10 1 1 (0, 0) (0, -10)

theorem square_clear (y c : ℝ) : ClearCircle (rect 0 y 1 1 (0, 0) (0, c)) (unitOf (1, 0)) := by
  rw [unitOf_axis.1]
  intro e f hs
  unfold epsilon
  rcases rect_side hs with ⟨rfl, rfl⟩ | ⟨rfl, rfl⟩ | ⟨rfl, rfl⟩ | ⟨rfl, rfl⟩ <;> simp [cross, dot] <;> norm_num

/-- Both boxes meet the hypotheses of `circlealignequal_partial`. -/
theorem near_far : (Convex near ∧ Long near ∧ ClearCircle near (unitOf (1, 0))) ∧
    (Convex far ∧ Long far ∧ ClearCircle far (unitOf (1, 0))) := by
  have he := eps_small
  exact ⟨⟨rect_convex _ _ _ _ _ _ (by norm_num) (by norm_num), rect_long _ _ _ _ _ _ (by linarith) (by linarith), square_clear 0 0⟩,
    ⟨rect_convex _ _ _ _ _ _ (by norm_num) (by norm_num), rect_long _ _ _ _ _ _ (by linarith) (by linarith), square_clear 10 (-10)⟩⟩

theorem near_vec : ∃ t : ℝ, circlealignvector near 1 (1, 0) = .ok (some (t * 1, t * 0)) := by
  obtain ⟨⟨h1, h2, h3⟩, -⟩ := near_far
  have he := eps_small
  rcases circle_vec h1 h2 1 one_pos (by linarith) (1, 0) (by simp) h3 with ⟨t, h, -⟩ | ⟨-, h⟩
  · exact ⟨t, h⟩
  · exfalso
    have := h 0 (0, 0) (subset_convexHull ℝ _ (by simp [near, rect, moved]))
    have hc : near.center = (0, 0) := by simp [near, rect]
    rw [hc] at this
    simp [dist] at this
    linarith

theorem far_vec : circlealignvector far 1 (1, 0) = .ok none := by
  obtain ⟨-, ⟨h1, h2, h3⟩⟩ := near_far
  have he := eps_small
  have hep := epsilon_pos
  rcases circle_vec h1 h2 1 one_pos (by linarith) (1, 0) (by simp) h3 with ⟨t, -, -, e, f, hs, s, s1, s2, hd⟩ | ⟨h, -⟩
  · exfalso
    have hc : far.center = (0, 0) := by simp [far, rect]
    rw [hc] at hd
    unfold dist at hd
    have hsq : (e.1 + s * (f.1 - e.1) + t * 1 - 0) ^ 2 + (e.2 + s * (f.2 - e.2) + t * 0 - 0) ^ 2 = 1 := by
      have h0 : 0 ≤ (e.1 + s * (f.1 - e.1) + t * 1 - 0) ^ 2 + (e.2 + s * (f.2 - e.2) + t * 0 - 0) ^ 2 := by positivity
      have := Real.sq_sqrt h0
      simp only at hd
      rw [hd] at this
      linarith
    have hy : 9 ≤ e.2 + s * (f.2 - e.2) := by
      rcases rect_side hs with ⟨rfl, rfl⟩ | ⟨rfl, rfl⟩ | ⟨rfl, rfl⟩ | ⟨rfl, rfl⟩ <;> simp <;> linarith
    nlinarith [sq_nonneg (e.1 + s * (f.1 - e.1) + t * 1 - 0)]
  · exact h

/-- The result depends on the order of the boxes: with the box that never meets its circle in front the boxes are
moved, with it behind the other one a `TypeError` is raised. -/
theorem order_matters : (∃ t : ℝ, circlealignequal [far, near] 1 (1, 0) =
      .ok [moved far (t * 1, t * 0), moved near (t * 1, t * 0)]) ∧
    circlealignequal [near, far] 1 (1, 0) = .error .typeError := by
  obtain ⟨t, ht⟩ := near_vec
  refine ⟨⟨t, ?_⟩, unreachable_later near far [] 1 (1, 0) _ ht far_vec⟩
  refine unreachable_first [near] far 1 (1, 0) far_vec _ ?_
  have : furthestStep circlealignvector 1 (1, 0) none near = .ok (some (t * 1, t * 0)) := by
    unfold furthestStep; rw [ht]; rfl
  rw [List.foldlM_cons, this]
  rfl

/-- Two boxes which both meet their circles: the hypotheses of `circlealignequal_partial`, and its first outcome. -/
example : ∃ t : ℝ, circlealignequal [near, near] 1 (1, 0) = .ok [moved near (t * 1, t * 0), moved near (t * 1, t * 0)] ∧
    Outside near (t * 1, t * 0) near.center 1 := by
  have he := eps_small
  obtain ⟨h1, -⟩ := near_far
  rcases circlealignequal_partial [near, near] (by simp) 1 one_pos (by linarith) (1, 0) (by simp) (by simp [h1]) with
    ⟨t, e, h, -⟩ | ⟨-, P, hP, hn⟩
  · exact ⟨t, e, h near (by simp)⟩
  · exfalso
    simp at hP
    subst hP
    have := hn 0 (0, 0) (subset_convexHull ℝ _ (by simp [near, rect, moved]))
    have hc : near.center = (0, 0) := by simp [near, rect]
    rw [hc] at this
    simp [dist] at this
    linarith

end

end PyX.Box
