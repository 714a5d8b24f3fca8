import Verif.Box.Props

/-!
# Boxes (C52, C85): rectangles, bounding boxes, lists of boxes and wrong results
-/

set_option linter.unusedSectionVars false

namespace PyX.Box

noncomputable section

variable {P Q : Polygon}

/-! ## Rectangles -/

theorem rect_side {x y w h : ℝ} {rc ac e f : Pt} (hs : Side (rect x y w h rc ac) e f) :
    (e = (x, y) ∧ f = (x + w, y)) ∨ (e = (x + w, y) ∧ f = (x + w, y + h)) ∨
    (e = (x + w, y + h) ∧ f = (x, y + h)) ∨ (e = (x, y + h) ∧ f = (x, y)) := by
  obtain ⟨i, hi, he, hf⟩ := hs
  have hi' : i < 4 := hi
  interval_cases i
  · simp [rect] at he hf; exact Or.inl ⟨he.symm, hf.symm⟩
  · simp [rect] at he hf; exact Or.inr (Or.inl ⟨he.symm, hf.symm⟩)
  · simp [rect] at he hf; exact Or.inr (Or.inr (Or.inl ⟨he.symm, hf.symm⟩))
  · simp [rect] at he hf; exact Or.inr (Or.inr (Or.inr ⟨he.symm, hf.symm⟩))

theorem rect_corner {x y w h : ℝ} {rc ac p : Pt} : p ∈ (rect x y w h rc ac).corners ↔
    p = (x, y) ∨ p = (x + w, y) ∨ p = (x + w, y + h) ∨ p = (x, y + h) := by
  simp [rect]

/-- A rectangle with positive width and height is convex and ordered counterclockwise. -/
theorem rect_convex (x y w h : ℝ) (rc ac : Pt) (hw : 0 < w) (hh : 0 < h) : Convex (rect x y w h rc ac) := by
  constructor
  · intro e f hs p hp
    rcases rect_side hs with ⟨rfl, rfl⟩ | ⟨rfl, rfl⟩ | ⟨rfl, rfl⟩ | ⟨rfl, rfl⟩ <;>
    rcases rect_corner.1 hp with rfl | rfl | rfl | rfl <;>
    simp only [cross, Prod.fst_sub, Prod.snd_sub] <;> nlinarith [mul_pos hw hh]
  · refine ⟨_, rect_corner.2 (Or.inl rfl), _, rect_corner.2 (Or.inr (Or.inl rfl)), _,
      rect_corner.2 (Or.inr (Or.inr (Or.inl rfl))), ?_⟩
    simp only [cross, Prod.fst_sub, Prod.snd_sub]
    nlinarith [mul_pos hw hh]

theorem rect_long (x y w h : ℝ) (rc ac : Pt) (hw : epsilon ≤ w * w) (hh : epsilon ≤ h * h) : Long (rect x y w h rc ac) := by
  intro e f hs
  rcases rect_side hs with ⟨rfl, rfl⟩ | ⟨rfl, rfl⟩ | ⟨rfl, rfl⟩ | ⟨rfl, rfl⟩ <;>
  simp only [dot, Prod.fst_sub, Prod.snd_sub] <;> nlinarith

/-- A rectangle is clearly aligned for the directions of the axes. -/
theorem rect_clear (x y w h : ℝ) (rc ac d : Pt) (hw : epsilon < w) (hh : epsilon < h)
    (hd : d = (1, 0) ∨ d = (-1, 0) ∨ d = (0, 1) ∨ d = (0, -1)) : ClearLine (rect x y w h rc ac) d := by
  have hep := epsilon_pos
  have h1 : epsilon < |w| := by rw [abs_of_pos (by linarith)]; exact hw
  have h2 : epsilon < |h| := by rw [abs_of_pos (by linarith)]; exact hh
  intro e f hs
  rcases rect_side hs with ⟨rfl, rfl⟩ | ⟨rfl, rfl⟩ | ⟨rfl, rfl⟩ | ⟨rfl, rfl⟩ <;>
  rcases hd with rfl | rfl | rfl | rfl <;>
  simp [cross, dot, h1, h2]

theorem unitOf_axis : unitOf (1, 0) = (1, 0) ∧ unitOf (0, 1) = (0, 1) ∧ unitOf (2, 0) = (1, 0) ∧ unitOf (0, -3) = (0, -1) := by
  have h4 : Real.sqrt (2 ^ 2) = 2 := Real.sqrt_sq (by norm_num)
  have h9 : Real.sqrt ((-3) ^ 2) = 3 := by rw [neg_sq]; exact Real.sqrt_sq (by norm_num)
  refine ⟨?_, ?_, ?_, ?_⟩ <;> ext <;> simp [unitOf, h4]

theorem eps_small : epsilon < 1 / 2 := by unfold epsilon; norm_num

/-- The hypotheses of `linealign_partial` and `extent_partial` hold for a rectangle and a not normalised direction. -/
example : ∃ t : ℝ, linealign (rect 0 0 2 1 (0, 0) (1, 3)) 5 (0, -3) = .ok (moved (rect 0 0 2 1 (0, 0) (1, 3)) (t * 0, t * -3)) ∧
    ∃ p ∈ (moved (rect 0 0 2 1 (0, 0) (1, 3)) (t * 0, t * -3)).corners, dot (p - (1, 3)) (0, -1) = 5 := by
  have he := eps_small
  obtain ⟨t, h1, -, h2⟩ := linealign_partial (rect_convex 0 0 2 1 (0, 0) (1, 3) (by norm_num) (by norm_num))
    (rect_long 0 0 2 1 (0, 0) (1, 3) (by linarith) (by linarith)) 5 (0, -3) (by simp)
    (by rw [unitOf_axis.2.2.2]; exact rect_clear _ _ _ _ _ _ _ (by linarith) (by linarith) (by simp))
  rw [unitOf_axis.2.2.2] at h2
  have : (rect 0 0 2 1 (0, 0) (1, 3)).center = (1, 3) := by simp [rect]
  rw [this] at h2
  exact ⟨t, h1, h2⟩

/-- The extent of a rectangle in direction `(2, 0)` is its width. -/
theorem rect_extent (x y w h : ℝ) (rc ac : Pt) (hw : epsilon < w) (hh : epsilon < h) (hw2 : epsilon ≤ w * w)
    (hh2 : epsilon ≤ h * h) : extent (rect x y w h rc ac) (2, 0) = .ok w := by
  have hep := epsilon_pos
  obtain ⟨p, hp, q, hq, he, hm⟩ := extent_partial (rect_convex x y w h rc ac (by linarith) (by linarith))
    (rect_long x y w h rc ac hw2 hh2) (2, 0) (by simp)
    (by rw [unitOf_axis.2.2.1]; exact rect_clear _ _ _ _ _ _ _ hw hh (by simp))
  rw [he, unitOf_axis.2.2.1] at *
  congr 1
  have a1 := hm _ (rect_corner.2 (Or.inl rfl))
  have a2 := hm _ (rect_corner.2 (Or.inr (Or.inl rfl)))
  simp only [dot, mul_one, mul_zero, add_zero] at a1 a2 ⊢
  rcases rect_corner.1 hp with rfl | rfl | rfl | rfl <;> rcases rect_corner.1 hq with rfl | rfl | rfl | rfl <;>
    simp only at a1 a2 ⊢ <;> linarith [a1.1, a1.2, a2.1, a2.2]

/-- The hypotheses of `circlealign_partial` hold for a rectangle and a diagonal direction. -/
example : ClearCircle (rect 0 0 2 1 (0, 0) (0, 0)) (unitOf (3, 4)) := by
  have h5 : Real.sqrt ((3 : ℝ) ^ 2 + 4 ^ 2) = 5 := by
    rw [show (3 : ℝ) ^ 2 + 4 ^ 2 = 5 ^ 2 by norm_num]; exact Real.sqrt_sq (by norm_num)
  have hu : unitOf (3, 4) = (3 / 5, 4 / 5) := by simp only [unitOf, h5]
  rw [hu]
  intro e f hs
  right
  unfold epsilon
  rcases rect_side hs with ⟨rfl, rfl⟩ | ⟨rfl, rfl⟩ | ⟨rfl, rfl⟩ | ⟨rfl, rfl⟩ <;> simp [cross, dot] <;> norm_num

/-! ## Bounding box and center -/

theorem listMin_spec {l : List ℝ} {m : ℝ} (h : listMin l = some m) : m ∈ l ∧ ∀ x ∈ l, m ≤ x := by
  cases l with
  | nil => cases h
  | cons x xs =>
    simp only [listMin, Option.some.injEq] at h
    subst h
    induction xs generalizing x with
    | nil => simp
    | cons y ys ih =>
      obtain ⟨h1, h2⟩ := ih (min x y)
      rw [List.foldl_cons]
      have hxy := h2 _ List.mem_cons_self
      refine ⟨?_, ?_⟩
      · rcases List.mem_cons.1 h1 with h | h
        · rw [h]
          rcases min_choice x y with hh | hh <;> rw [hh] <;> simp
        · simp [h]
      · intro z hz
        rcases List.mem_cons.1 hz with rfl | hz
        · exact hxy.trans (min_le_left _ _)
        · rcases List.mem_cons.1 hz with rfl | hz
          · exact hxy.trans (min_le_right _ _)
          · exact h2 z (List.mem_cons_of_mem _ hz)

theorem listMax_spec {l : List ℝ} {m : ℝ} (h : listMax l = some m) : m ∈ l ∧ ∀ x ∈ l, x ≤ m := by
  cases l with
  | nil => cases h
  | cons x xs =>
    simp only [listMax, Option.some.injEq] at h
    subst h
    induction xs generalizing x with
    | nil => simp
    | cons y ys ih =>
      obtain ⟨h1, h2⟩ := ih (max x y)
      rw [List.foldl_cons]
      have hxy := h2 _ List.mem_cons_self
      refine ⟨?_, ?_⟩
      · rcases List.mem_cons.1 h1 with h | h
        · rw [h]
          rcases max_choice x y with hh | hh <;> rw [hh] <;> simp
        · simp [h]
      · intro z hz
        rcases List.mem_cons.1 hz with rfl | hz
        · exact (le_max_left _ _).trans hxy
        · rcases List.mem_cons.1 hz with rfl | hz
          · exact (le_max_right _ _).trans hxy
          · exact h2 z (List.mem_cons_of_mem _ hz)

/-- **C85, bounding box.** The bounding box of a polygon contains its corners, and every side of it contains
one. -/
theorem bbox_spec (hP : P.corners ≠ []) : ∃ b : Quad ℝ, bbox P = .ok (some b) ∧
    (∀ p ∈ P.corners, b.llx ≤ p.1 ∧ p.1 ≤ b.urx ∧ b.lly ≤ p.2 ∧ p.2 ≤ b.ury) ∧
    (∃ p ∈ P.corners, p.1 = b.llx) ∧ (∃ p ∈ P.corners, p.1 = b.urx) ∧ (∃ p ∈ P.corners, p.2 = b.lly) ∧
    (∃ p ∈ P.corners, p.2 = b.ury) := by
  obtain ⟨q, qs, hq⟩ := List.exists_cons_of_ne_nil hP
  have h1 : ∃ m, listMin (P.corners.map (·.1)) = some m := by rw [hq]; exact ⟨_, rfl⟩
  have h2 : ∃ m, listMin (P.corners.map (·.2)) = some m := by rw [hq]; exact ⟨_, rfl⟩
  have h3 : ∃ m, listMax (P.corners.map (·.1)) = some m := by rw [hq]; exact ⟨_, rfl⟩
  have h4 : ∃ m, listMax (P.corners.map (·.2)) = some m := by rw [hq]; exact ⟨_, rfl⟩
  obtain ⟨a, ha⟩ := h1
  obtain ⟨b, hb⟩ := h2
  obtain ⟨c, hc⟩ := h3
  obtain ⟨d, hd⟩ := h4
  refine ⟨⟨a, b, c, d⟩, by unfold bbox; rw [ha, hb, hc, hd], ?_, ?_, ?_, ?_, ?_⟩
  · intro p hp
    exact ⟨(listMin_spec ha).2 _ (List.mem_map_of_mem hp), (listMax_spec hc).2 _ (List.mem_map_of_mem hp),
      (listMin_spec hb).2 _ (List.mem_map_of_mem hp), (listMax_spec hd).2 _ (List.mem_map_of_mem hp)⟩
  · obtain ⟨p, hp, h⟩ := List.mem_map.1 (listMin_spec ha).1; exact ⟨p, hp, h⟩
  · obtain ⟨p, hp, h⟩ := List.mem_map.1 (listMax_spec hc).1; exact ⟨p, hp, h⟩
  · obtain ⟨p, hp, h⟩ := List.mem_map.1 (listMin_spec hb).1; exact ⟨p, hp, h⟩
  · obtain ⟨p, hp, h⟩ := List.mem_map.1 (listMax_spec hd).1; exact ⟨p, hp, h⟩

/-- **C85.**  The center of a rectangle divides its sides in the ratio `relcenter`, moved by `abscenter`; the default is the mean of the
corners. -/
theorem rect_center (x y w h : ℝ) (rc ac : Pt) :
    (∀ p ∈ (rect x y w h rc ac).corners.head?, ∀ q ∈ (rect x y w h rc ac).corners[2]?,
      (rect x y w h rc ac).center = (p.1 + rc.1 * (q.1 - p.1) + ac.1, p.2 + rc.2 * (q.2 - p.2) + ac.2)) ∧
    (rect x y w h (1 / 2, 1 / 2) (0, 0)).center.1 * 4 = ((rect x y w h (1 / 2, 1 / 2) (0, 0)).corners.map (·.1)).sum ∧
    (rect x y w h (1 / 2, 1 / 2) (0, 0)).center.2 * 4 = ((rect x y w h (1 / 2, 1 / 2) (0, 0)).corners.map (·.2)).sum := by
  refine ⟨?_, ?_, ?_⟩
  · intro p hp q hq
    unfold rect at *
    simp at hp hq
    subst hp hq
    simp
  · simp [rect]
    ring
  · simp [rect]
    ring

/-- **C85, center.** Without a given center the center is the mean of the corners. -/
theorem center_spec (l : List Pt) (hl : l ≠ []) : ∃ c, mkPolygon l none = .ok ⟨l, c⟩ ∧
    c.1 * l.length = (l.map (·.1)).sum ∧ c.2 * l.length = (l.map (·.2)).sum := by
  have hlen : l.length ≠ 0 := by simpa using hl
  have hlen' : (l.length : ℝ) ≠ 0 := by exact_mod_cast hlen
  have hfold : ∀ (l : List Pt) (s : Pt), l.foldl (fun s p => (s.1 + p.1, s.2 + p.2)) s =
      (s.1 + (l.map (·.1)).sum, s.2 + (l.map (·.2)).sum) := by
    intro l
    induction l with
    | nil => intro s; simp
    | cons x xs ih =>
      intro s
      rw [List.foldl_cons, ih]
      simp only [List.map_cons, List.sum_cons]
      ext
      · simp only; ring
      · simp only; ring
  refine ⟨_, by unfold mkPolygon; rw [if_neg hlen], ?_, ?_⟩
  · simp only [hfold]
    rw [div_mul_cancel₀ _ hlen']; ring
  · simp only [hfold]
    rw [div_mul_cancel₀ _ hlen']; ring

/-- **C85, relative transformation.** A transformation relative to the center changes the corners as if the center
was the origin; for a linear map the center does not move. -/
theorem reltransform_spec (P : Polygon) (t : Apply) :
    (reltransform P [t]).corners = P.corners.map (fun p => t (p - P.center) + P.center) ∧
    (t (0, 0) = (0, 0) → (reltransform P [t]).center = P.center) := by
  constructor
  · simp only [reltransform, transform, List.cons_append, List.nil_append, List.foldl_cons, List.foldl_nil, List.map_map]
    apply List.map_congr_left
    intro p _
    simp only [Function.comp, translate]
    have : ((p.1 + -P.center.1, p.2 + -P.center.2) : Pt) = p - P.center := by
      ext <;> simp [sub_eq_add_neg]
    rw [this]
    rfl
  · intro h
    simp only [reltransform, transform, List.cons_append, List.nil_append, List.foldl_cons, List.foldl_nil, translate,
      add_neg_cancel]
    simp [h]

/-! ## Lists of boxes -/

theorem lineunit_vec (hc : Convex P) (hl : Long P) (a : ℝ) (d : Pt) (hd : d ≠ 0) (hcl : ClearLine P (unitOf d)) :
    ∃ t : ℝ, linealignvector P a d = .ok (some (t * d.1, t * d.2)) ∧
      ∃ p ∈ P.corners, dot (p - P.center) (unitOf d) = a - t * hypot d.1 d.2 ∧
        ∀ x ∈ P.corners, dot p (unitOf d) ≤ dot x (unitOf d) := by
  have hu := unitOf_dot hd
  obtain ⟨p, hp, hmin, heq⟩ := lineunit hc hl (unitOf d) hu hcl a
  have hh := hypot_ne hd
  refine ⟨(a - dot (p - P.center) (unitOf d)) / hypot d.1 d.2, ?_, p, hp, ?_, ?_⟩
  · unfold linealignvector
    rw [align_eq P a hd, heq]
    congr 2
    rw [unitOf_eq]
    ext
    · simp only; ring
    · simp only; ring
  · rw [div_mul_cancel₀ _ hh]; ring
  · intro x hx
    have := hmin x hx
    simp only [dot, Prod.fst_sub, Prod.snd_sub] at this ⊢
    linarith

theorem furthest_fold (method : Polygon → ℝ → Pt → Except Err (Option Pt)) (a : ℝ) (d : Pt) (hd : 0 < d.1 * d.1 + d.2 * d.2)
    (tt : Polygon → ℝ) (l : List Polygon) (hm : ∀ P ∈ l, method P a d = .ok (some (tt P * d.1, tt P * d.2)))
    (r : Option ℝ) (hr : r ≠ none ∨ l ≠ []) :
    ∃ m, l.foldlM (furthestStep method a d) (r.map fun t => (t * d.1, t * d.2)) = .ok (some (m * d.1, m * d.2)) ∧
      (r = some m ∨ ∃ P ∈ l, tt P = m) ∧ (∀ v, r = some v → v ≤ m) ∧ ∀ P ∈ l, tt P ≤ m := by
  induction l generalizing r with
  | nil =>
    cases r with
    | none => simp at hr
    | some v => exact ⟨v, rfl, Or.inl rfl, fun w hw => (by cases hw; exact le_rfl), by simp⟩
  | cons P Ps ih =>
    have hstep : ∃ w, furthestStep method a d (r.map fun t => (t * d.1, t * d.2)) P =
        .ok ((some w).map fun t : ℝ => ((t * d.1, t * d.2) : Pt)) ∧ (r = some w ∨ tt P = w) ∧ (∀ v, r = some v → v ≤ w) ∧ tt P ≤ w := by
      have e0 := hm P List.mem_cons_self
      have e : furthestStep method a d (r.map fun t => (t * d.1, t * d.2)) P =
          .ok (furthest d (r.map fun t => (t * d.1, t * d.2)) (tt P * d.1, tt P * d.2)) := by
        unfold furthestStep; rw [e0]; rfl
      rw [e]
      cases r with
      | none => exact ⟨tt P, rfl, Or.inr rfl, fun v hv => (by cases hv), le_rfl⟩
      | some v =>
        have e1 : v * d.1 * d.1 + v * d.2 * d.2 = v * (d.1 * d.1 + d.2 * d.2) := by ring
        have e2 : tt P * d.1 * d.1 + tt P * d.2 * d.2 = tt P * (d.1 * d.1 + d.2 * d.2) := by ring
        by_cases hlt : v < tt P
        · refine ⟨tt P, ?_, Or.inr rfl, fun w hw => (by cases hw; exact hlt.le), le_rfl⟩
          simp only [furthest, Option.map_some, e1, e2]
          rw [if_pos (mul_lt_mul_of_pos_right hlt hd)]
        · refine ⟨v, ?_, Or.inl rfl, fun w hw => (by cases hw; exact le_rfl), not_lt.1 hlt⟩
          simp only [furthest, Option.map_some, e1, e2]
          rw [if_neg (not_lt.2 (mul_le_mul_of_nonneg_right (not_lt.1 hlt) hd.le))]
    obtain ⟨w, hw, hor, hle, hx⟩ := hstep
    obtain ⟨m, h1, h2, h3, h4⟩ := ih (fun Q hQ => hm Q (List.mem_cons_of_mem _ hQ)) (some w) (Or.inl (by simp))
    refine ⟨m, ?_, ?_, fun v hv => (hle v hv).trans (h3 w rfl), ?_⟩
    · rw [List.foldlM_cons, hw]; exact h1
    · rcases h2 with h2 | ⟨Q, hQ, h2⟩
      · cases h2
        rcases hor with h | h
        · exact Or.inl h
        · exact Or.inr ⟨P, List.mem_cons_self, h⟩
      · exact Or.inr ⟨Q, List.mem_cons_of_mem _ hQ, h2⟩
    · intro Q hQ
      rcases List.mem_cons.1 hQ with rfl | hQ
      · exact hx.trans (h3 w rfl)
      · exact h4 Q hQ

theorem moveAll (Ps : List Polygon) (v : Pt) : Ps.mapM (fun P => moveBy P (some v)) = .ok (Ps.map (fun P => moved P v)) := by
  induction Ps with
  | nil => rfl
  | cons P Ps ih =>
    rw [List.mapM_cons, ih]
    show Except.ok (transform P [translate v] :: _) = _
    rw [transform_move]
    rfl

/-- **C85, line alignment of several boxes.** All boxes are moved by the same vector in direction `d`; afterwards
no box is nearer to its (old) center than `a` along `d`, and one of them touches its line. -/
theorem linealignequal_partial (Ps : List Polygon) (hne : Ps ≠ []) (a : ℝ) (d : Pt) (hd : d ≠ 0)
    (hPs : ∀ P ∈ Ps, Convex P ∧ Long P ∧ ClearLine P (unitOf d)) :
    ∃ t : ℝ, linealignequal Ps a d = .ok (Ps.map fun P => moved P (t * d.1, t * d.2)) ∧
      (∀ P ∈ Ps, ∀ p ∈ P.corners, a ≤ dot (p + (t * d.1, t * d.2) - P.center) (unitOf d)) ∧
      ∃ P ∈ Ps, ∃ p ∈ P.corners, dot (p + (t * d.1, t * d.2) - P.center) (unitOf d) = a := by
  classical
  have hd2 : 0 < d.1 * d.1 + d.2 * d.2 := by
    have := hypot_ne hd
    unfold hypot at this
    by_contra hc
    exact this (Real.sqrt_eq_zero_of_nonpos (not_lt.1 hc))
  have hpos : 0 < hypot d.1 d.2 := Real.sqrt_pos.2 hd2
  have hsq : hypot d.1 d.2 * hypot d.1 d.2 = d.1 * d.1 + d.2 * d.2 := Real.mul_self_sqrt hd2.le
  have hex : ∀ P : Polygon, ∃ t : ℝ, P ∈ Ps → linealignvector P a d = .ok (some (t * d.1, t * d.2)) ∧
      ∃ p ∈ P.corners, dot (p - P.center) (unitOf d) = a - t * hypot d.1 d.2 ∧
        ∀ x ∈ P.corners, dot p (unitOf d) ≤ dot x (unitOf d) := by
    intro P
    by_cases hP : P ∈ Ps
    · obtain ⟨h1, h2, h3⟩ := hPs P hP
      obtain ⟨t, ht⟩ := lineunit_vec h1 h2 a d hd h3
      exact ⟨t, fun _ => ht⟩
    · exact ⟨0, fun h => absurd h hP⟩
  choose tt htt using hex
  obtain ⟨m, hm, hor, -, hle⟩ := furthest_fold linealignvector a d hd2 tt Ps (fun P hP => (htt P hP).1) none (Or.inr hne)
  have edot : ∀ (P : Polygon) (p : Pt), dot (p + (m * d.1, m * d.2) - P.center) (unitOf d) =
      dot (p - P.center) (unitOf d) + m * hypot d.1 d.2 := by
    intro P p
    rw [unitOf_eq]
    simp only [dot, Prod.fst_sub, Prod.snd_sub, Prod.fst_add, Prod.snd_add]
    field_simp
    linear_combination (-m) * hsq
  refine ⟨m, ?_, ?_, ?_⟩
  · unfold linealignequal alignequal
    have : Ps.foldlM (furthestStep linealignvector a d) none = .ok (some (m * d.1, m * d.2)) := hm
    rw [this]
    exact moveAll Ps _
  · intro P hP x hx
    obtain ⟨-, p, hp, he, hmin⟩ := htt P hP
    rw [edot]
    have h1 := hmin x hx
    have h2 := mul_le_mul_of_nonneg_right (hle P hP) hpos.le
    have h3 : dot (x - P.center) (unitOf d) = dot (p - P.center) (unitOf d) + (dot x (unitOf d) - dot p (unitOf d)) := by
      simp only [dot, Prod.fst_sub, Prod.snd_sub]; ring
    rw [h3, he]
    linarith
  · rcases hor with h | ⟨P, hP, rfl⟩
    · cases h
    · obtain ⟨-, p, hp, he, hmin⟩ := htt P hP
      refine ⟨P, hP, p, hp, ?_⟩
      rw [edot, he]; ring

theorem tileMove_spec (delta : ℝ) (d : Pt) (s : ℝ) (Ps : List Polygon) :
    (tileMove delta d s Ps).length = Ps.length ∧
    ∀ k (hk : k < Ps.length), (tileMove delta d s Ps)[k]? =
      some (moved Ps[k] ((s + k * delta) * d.1, (s + k * delta) * d.2)) := by
  induction Ps generalizing s with
  | nil => simp [tileMove]
  | cons P Ps ih =>
    obtain ⟨h1, h2⟩ := ih (s + delta)
    refine ⟨by simp [tileMove, h1], ?_⟩
    intro k hk
    cases k with
    | zero =>
      simp only [tileMove, List.getElem?_cons_zero, List.getElem_cons_zero]
      rw [transform_move]
      simp [moved]
    | succ k =>
      simp only [tileMove, List.getElem?_cons_succ, List.getElem_cons_succ]
      rw [h2 k (by simpa using hk)]
      have : s + delta + k * delta = s + ((k + 1 : ℕ) : ℝ) * delta := by push_cast; ring
      rw [this]

theorem maxextent_spec (P0 : Polygon) (Ps : List Polygon) (d : Pt) (ext : Polygon → ℝ)
    (h : ∀ P ∈ P0 :: Ps, extent P d = .ok (ext P)) :
    ∃ m, maxextent (P0 :: Ps) d = .ok m ∧ (∃ P ∈ P0 :: Ps, m = ext P) ∧ ∀ P ∈ P0 :: Ps, ext P ≤ m := by
  have aux : ∀ (l : List Polygon) (v : ℝ), (∀ P ∈ l, extent P d = .ok (ext P)) →
      ∃ m, l.foldlM (fun m P => do
        let e ← extent P d
        .ok (if e > m then e else m)) v = (.ok m : Except Err ℝ) ∧ (m = v ∨ ∃ P ∈ l, m = ext P) ∧ v ≤ m ∧ ∀ P ∈ l, ext P ≤ m := by
    intro l
    induction l with
    | nil => intro v _; exact ⟨v, rfl, Or.inl rfl, le_rfl, by simp⟩
    | cons P Ps ih =>
      intro v hv
      obtain ⟨m, h1, h2, h3, h4⟩ := ih (if ext P > v then ext P else v) (fun Q hQ => hv Q (List.mem_cons_of_mem _ hQ))
      have hge : v ≤ (if ext P > v then ext P else v) ∧ ext P ≤ (if ext P > v then ext P else v) := by
        split_ifs with hh
        · exact ⟨hh.le, le_rfl⟩
        · exact ⟨le_rfl, not_lt.1 hh⟩
      refine ⟨m, ?_, ?_, hge.1.trans h3, ?_⟩
      · rw [List.foldlM_cons, hv P List.mem_cons_self]; exact h1
      · rcases h2 with h2 | ⟨Q, hQ, h2⟩
        · split_ifs at h2 with hh
          · exact Or.inr ⟨P, List.mem_cons_self, h2⟩
          · exact Or.inl h2
        · exact Or.inr ⟨Q, List.mem_cons_of_mem _ hQ, h2⟩
      · intro Q hQ
        rcases List.mem_cons.1 hQ with rfl | hQ
        · exact hge.2.trans h3
        · exact h4 Q hQ
  obtain ⟨m, h1, h2, h3, h4⟩ := aux Ps (ext P0) (fun P hP => h P (List.mem_cons_of_mem _ hP))
  refine ⟨m, ?_, ?_, ?_⟩
  · unfold maxextent
    dsimp only
    rw [h P0 List.mem_cons_self]
    exact h1
  · rcases h2 with h2 | ⟨Q, hQ, h2⟩
    · exact ⟨P0, List.mem_cons_self, h2⟩
    · exact ⟨Q, List.mem_cons_of_mem _ hQ, h2⟩
  · intro Q hQ
    rcases List.mem_cons.1 hQ with rfl | hQ
    · exact h3
    · exact h4 Q hQ

/-- **C85, tiling.** For a direction of length one, box number `k` is moved by `k` times the sum of `a` and the
largest extent; boxes which begin at the same place (measured along the direction) are then at least `a` apart.
Partial: the documentation admits directions of any length, for which this is wrong (`tile_wrong`). -/
theorem tile_partial (Ps : List Polygon) (hne : Ps ≠ []) (a : ℝ) (d : Pt) (hd : dot d d = 1)
    (hPs : ∀ P ∈ Ps, Convex P ∧ Long P ∧ ClearLine P d) :
    ∃ delta Qs, tile Ps a d = .ok (Qs, delta) ∧ Qs.length = Ps.length ∧
      (∀ k (hk : k < Ps.length), Qs[k]? = some (moved Ps[k] (k * delta * d.1, k * delta * d.2))) ∧
      (∀ x0 : ℝ, (∀ P ∈ Ps, (∀ p ∈ P.corners, x0 ≤ dot p d) ∧ ∃ p ∈ P.corners, x0 = dot p d) →
        ∀ k (hk : k + 1 < Ps.length), ∀ p ∈ Ps[k].corners, ∀ q ∈ Ps[k + 1].corners,
          a ≤ dot (q + ((k + 1 : ℕ) * delta * d.1, (k + 1 : ℕ) * delta * d.2)) d - dot (p + (k * delta * d.1, k * delta * d.2)) d) := by
  have hd0 : d ≠ 0 := by rintro rfl; simp [dot] at hd
  have hud : unitOf d = d := by
    unfold unitOf
    have : d.1 ^ 2 + d.2 ^ 2 = 1 := by simp only [dot] at hd; linarith
    rw [this]; simp
  obtain ⟨P0, Pr, rfl⟩ := List.exists_cons_of_ne_nil hne
  have hex : ∀ P : Polygon, ∃ v : ℝ, P ∈ P0 :: Pr → extent P d = .ok v ∧ ∃ p ∈ P.corners, ∃ q ∈ P.corners,
      v = dot q d - dot p d ∧ ∀ x ∈ P.corners, dot p d ≤ dot x d ∧ dot x d ≤ dot q d := by
    intro P
    by_cases hP : P ∈ P0 :: Pr
    · obtain ⟨h1, h2, h3⟩ := hPs P hP
      obtain ⟨p, hp, q, hq, he, hm⟩ := extent_partial h1 h2 d hd0 (by rw [hud]; exact h3)
      rw [hud] at he hm
      exact ⟨_, fun _ => ⟨he, p, hp, q, hq, rfl, hm⟩⟩
    · exact ⟨0, fun h => absurd h hP⟩
  choose ext hext using hex
  obtain ⟨m, hm, -, hle⟩ := maxextent_spec P0 Pr d ext (fun P hP => (hext P hP).1)
  refine ⟨m + a, tileMove (m + a) d 0 (P0 :: Pr), ?_, (tileMove_spec _ _ _ _).1, ?_, ?_⟩
  · unfold tile
    rw [hm]
    rfl
  · intro k hk
    rw [(tileMove_spec (m + a) d 0 (P0 :: Pr)).2 k hk]
    simp only [zero_add]
  · intro x0 hx0 k hk p hp q hq
    have hkm : (P0 :: Pr)[k]'(by omega) ∈ P0 :: Pr := List.getElem_mem _
    have hkm' : (P0 :: Pr)[k + 1]'hk ∈ P0 :: Pr := List.getElem_mem _
    have hxk := hx0 _ hkm
    have hxk' := hx0 _ hkm'
    obtain ⟨-, p', hp', q', hq', hv, hmin⟩ := hext _ hkm
    obtain ⟨r, hr, hxr⟩ := hxk.2
    have h1 := (hmin r hr).1
    have h2 := (hmin p hp).2
    have h3 := hle _ hkm
    have h4 := hxk'.1 q hq
    have h5 := hxk.1 p' hp'
    have e1 : dot (q + ((k + 1 : ℕ) * (m + a) * d.1, (k + 1 : ℕ) * (m + a) * d.2)) d = dot q d + (k + 1 : ℕ) * (m + a) := by
      simp only [dot, Prod.fst_add, Prod.snd_add] at hd ⊢
      linear_combination ((k + 1 : ℕ) * (m + a)) * hd
    have e2 : dot (p + (k * (m + a) * d.1, k * (m + a) * d.2)) d = dot p d + k * (m + a) := by
      simp only [dot, Prod.fst_add, Prod.snd_add] at hd ⊢
      linear_combination (k * (m + a)) * hd
    rw [e1, e2]
    push_cast
    have : dot p d ≤ dot q d + m := by linarith
    linarith

/-! ## Wrong results -/

/-- **Wrong (C85).** For a direction that has not length one the distance of tiled boxes is wrong: two unit
squares, tiled with distance `1` in direction `(2, 0)`, are three units apart. -/
theorem tile_wrong : tile [rect 0 0 1 1 (0, 0) (0, 0), rect 0 0 1 1 (0, 0) (0, 0)] 1 (2, 0) =
    .ok ([rect 0 0 1 1 (0, 0) (0, 0), rect 4 0 1 1 (0, 0) (0, 0)], 2) := by
  have he := eps_small
  have hx := rect_extent 0 0 1 1 (0, 0) (0, 0) (by linarith) (by linarith) (by linarith) (by linarith)
  have hm : maxextent [rect 0 0 1 1 (0, 0) (0, 0), rect 0 0 1 1 (0, 0) (0, 0)] (2, 0) = .ok 1 := by
    unfold maxextent
    dsimp only
    rw [hx]
    show List.foldlM _ _ _ = _
    rw [List.foldlM_cons, hx]
    show (Except.ok (if (1 : ℝ) > 1 then 1 else 1) : Except Err ℝ) = _
    norm_num
  unfold tile
  rw [hm]
  show Except.ok (tileMove (1 + 1) (2, 0) 0 _, (1 + 1 : ℝ)) = _
  congr 1
  ext1
  · simp only [tileMove]
    rw [transform_move, transform_move]
    simp [rect]
    norm_num
  · norm_num

/-- **Wrong (C52).** The documentation says that `BoxCrossError` is raised for overlapping boxes; it is not raised
if one box is inside the other. -/
theorem contained_not_raised : ¬ boxdistance (rect 0 0 3 3 (0, 0) (0, 0)) (rect 1 1 1 1 (0, 0) (0, 0)) = .error .boxCross := by
  unfold boxdistance
  rw [if_neg]
  · intro h
    have hns : ∀ x y w h : ℝ, epsilon ≤ w * w → epsilon ≤ h * h → NoShort (rect x y w h (0, 0) (0, 0)) :=
      fun x y w h hw hh e f hs => Or.inr (rect_long x y w h _ _ hw hh e f hs)
    have he := eps_small
    rw [smallerM_fold] at h
    · rw [show ∀ (r : Option ℝ) (f : Option ℝ → Except Err (Option ℝ)), (Except.ok r >>= f) = f r from fun _ _ => rfl, smallerM_fold] at h
      · cases h
      · intro x _
        obtain ⟨r, hr, -⟩ := pointdistance_partial (P := rect 1 1 1 1 (0, 0) (0, 0)) (by simp [rect]) (hns _ _ _ _ (by linarith) (by linarith)) x
        exact ⟨r, hr⟩
    · intro x _
      obtain ⟨r, hr, -⟩ := pointdistance_partial (P := rect 0 0 3 3 (0, 0) (0, 0)) (by simp [rect]) (hns _ _ _ _ (by linarith) (by linarith)) x
      exact ⟨r, hr⟩
  · rw [cross_iff]
    rintro ⟨e, f, g, h, h1, h2, -, s, t, s0, s1, t0, t1, e1, e2⟩
    have he := eps_small
    have hep := epsilon_pos
    rcases rect_side h1 with ⟨rfl, rfl⟩ | ⟨rfl, rfl⟩ | ⟨rfl, rfl⟩ | ⟨rfl, rfl⟩ <;>
    rcases rect_side h2 with ⟨rfl, rfl⟩ | ⟨rfl, rfl⟩ | ⟨rfl, rfl⟩ | ⟨rfl, rfl⟩ <;>
    simp only at e1 e2 <;> linarith

/-- A convex polygon 1001 pt high, with a side 1 pt long and a side 1000 pt long which are almost parallel to the
direction `(0, 1)`. -/
def steep : Polygon :=
  ⟨[(5 / 2 * epsilon, 1001), (2 * epsilon, 1000), (0, 0), (1000, 500)], (0, 0)⟩

theorem steep_side {e f : Pt} (hs : Side steep e f) :
    (e = (5 / 2 * epsilon, 1001) ∧ f = (2 * epsilon, 1000)) ∨ (e = (2 * epsilon, 1000) ∧ f = (0, 0)) ∨
    (e = (0, 0) ∧ f = (1000, 500)) ∨ (e = (1000, 500) ∧ f = (5 / 2 * epsilon, 1001)) := by
  obtain ⟨i, hi, he, hf⟩ := hs
  have hi' : i < 4 := hi
  interval_cases i
  · simp [steep] at he hf; exact Or.inl ⟨he.symm, hf.symm⟩
  · simp [steep] at he hf; exact Or.inr (Or.inl ⟨he.symm, hf.symm⟩)
  · simp [steep] at he hf; exact Or.inr (Or.inr (Or.inl ⟨he.symm, hf.symm⟩))
  · simp [steep] at he hf; exact Or.inr (Or.inr (Or.inr ⟨he.symm, hf.symm⟩))

/-- **Wrong (C52).** Because the tolerance for the half space is absolute, the line alignment of a convex polygon with
long sides can be wrong by the size of the polygon: `steep` is to be put above the line through its center but is
moved downwards by 1000 pt, so that its lowest corner is 1000 pt below the line. -/
theorem linealign_wrong : Convex steep ∧ Long steep ∧ linealign steep 0 (0, 1) = .ok (moved steep (0, -1000)) ∧
    ∃ p ∈ (moved steep (0, -1000)).corners, dot (p - steep.center) (0, 1) = -1000 := by
  refine ⟨⟨?_, ?_⟩, ?_, ?_, ?_⟩
  · intro e f hs p hp
    have hp' : p = (5 / 2 * epsilon, 1001) ∨ p = (2 * epsilon, 1000) ∨ p = (0, 0) ∨ p = (1000, 500) := by
      simpa [steep] using hp
    rcases steep_side hs with ⟨rfl, rfl⟩ | ⟨rfl, rfl⟩ | ⟨rfl, rfl⟩ | ⟨rfl, rfl⟩ <;>
    rcases hp' with rfl | rfl | rfl | rfl <;>
    simp only [cross, Prod.fst_sub, Prod.snd_sub, epsilon] <;> norm_num
  · refine ⟨(0, 0), by simp [steep], (1000, 500), by simp [steep], (2 * epsilon, 1000), by simp [steep], ?_⟩
    simp only [cross, Prod.fst_sub, Prod.snd_sub, epsilon]
    norm_num
  · intro e f hs
    rcases steep_side hs with ⟨rfl, rfl⟩ | ⟨rfl, rfl⟩ | ⟨rfl, rfl⟩ | ⟨rfl, rfl⟩ <;>
    simp only [dot, Prod.fst_sub, Prod.snd_sub, epsilon] <;> norm_num
  · have l0 : linealignline (0, 0) 0 (0, 1) (1000, 500) (5 / 2 * epsilon, 1001) = .nothing := by
      simp only [linealignline, epsilon]; norm_num
    have l1 : linealignline (0, 0) 0 (0, 1) (5 / 2 * epsilon, 1001) (2 * epsilon, 1000) = .after := by
      simp only [linealignline, epsilon]; norm_num
    have l2 : linealignline (0, 0) 0 (0, 1) (2 * epsilon, 1000) (0, 0) = .nothing := by
      simp only [linealignline, epsilon]; norm_num
    have l3 : linealignline (0, 0) 0 (0, 1) (0, 0) (1000, 500) = .before := by
      simp only [linealignline, epsilon]; norm_num
    have hun : alignunit steep 0 (0, 1) linealignline linealignpoint = some (0, -1000) := by
      simp [alignunit, steep, pt, prev, List.range_succ, l0, l1, l2, l3, Label.vec?, Label.meets, linealignpoint]
    unfold linealign linealignvector
    rw [align_eq steep 0 (by simp), unitOf_axis.2.1, hun]
    show Except.ok (transform steep [translate _]) = _
    rw [transform_move]
    rfl
  · refine ⟨(0, 0) + (0, -1000), ?_, ?_⟩
    · apply List.mem_map.2
      exact ⟨(0, 0), by simp [steep], rfl⟩
    · simp [dot, steep]

end

end PyX.Box
