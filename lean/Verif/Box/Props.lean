import Verif.Box.Circle
import Mathlib.Topology.Order.IntermediateValue
import Mathlib.Topology.Algebra.Order.Field
import Mathlib.Tactic.IntervalCases

/-!
# Boxes (C52, C85): circle alignment, distances, lists of boxes
-/

set_option linter.unusedSectionVars false

namespace PyX.Box

noncomputable section

variable {P Q : Polygon}

/-! ## Circle alignment -/

theorem dist_ge {m x c : Pt} {a : ℝ} (hm : dot m m = 1) (h : a ≤ dot m (x - c)) (ha : 0 < a) : a ≤ dist x c := by
  unfold dist
  apply Real.le_sqrt_of_sq_le
  have e : dot m (x - c) ^ 2 + cross m (x - c) ^ 2 = dot m m * ((x.1 - c.1) ^ 2 + (x.2 - c.2) ^ 2) := by
    simp only [dot, cross, Prod.fst_sub, Prod.snd_sub]; ring
  rw [hm, one_mul] at e
  nlinarith [sq_nonneg (cross m (x - c))]

theorem halfplane_convex (m c : Pt) (a : ℝ) (S : Set Pt) (h : ∀ x ∈ S, a ≤ dot m (x - c)) :
    ∀ x ∈ convexHull ℝ S, a ≤ dot m (x - c) := by
  apply convexHull_min (t := {x : Pt | a ≤ dot m (x - c)}) h
  intro x hx y hy s t hs ht hst
  simp only [Set.mem_ofPred_eq] at hx hy ⊢
  have e : dot m (s • x + t • y - c) = s * dot m (x - c) + t * dot m (y - c) := by
    simp only [dot, Prod.fst_sub, Prod.snd_sub, Prod.fst_add, Prod.snd_add, Prod.smul_fst, Prod.smul_snd, smul_eq_mul]
    linear_combination (-(m.1 * c.1 + m.2 * c.2)) * (-hst)
  rw [e]
  have h1 := mul_le_mul_of_nonneg_left hx hs
  have h2 := mul_le_mul_of_nonneg_left hy ht
  have : a = s * a + t * a := by rw [← add_mul, hst, one_mul]
  linarith

/-- **C52, circle alignment.** A convex box is moved in direction `d` such that it touches the circle with
radius `a` around the (old) center from outside: no point of the box is inside the circle, and a side contains a
point on the circle (up to the relative tolerance `epsilon` at the ends of the side). If the box cannot reach the
circle by moving in direction `d`, a `TypeError` is raised. -/
theorem circlealign_partial (hc : Convex P) (hl : Long P) (a : ℝ) (ha : 0 < a) (ha' : epsilon ≤ a * a) (d : Pt)
    (hd : d ≠ 0) (hcl : ClearCircle P (unitOf d)) :
    (∃ t : ℝ, circlealign P a d = .ok (moved P (t * d.1, t * d.2)) ∧
      (∀ x ∈ convexHull ℝ {p | p ∈ (moved P (t * d.1, t * d.2)).corners}, a ≤ dist x P.center) ∧
      ∃ e f, Side P e f ∧ ∃ s : ℝ, -epsilon < s ∧ s < 1 + epsilon ∧
        dist (e.1 + s * (f.1 - e.1) + t * d.1, e.2 + s * (f.2 - e.2) + t * d.2) P.center = a) ∨
    (circlealign P a d = .error .typeError ∧
      ∀ t : ℝ, ∀ x ∈ convexHull ℝ {p | p ∈ (moved P (t * d.1, t * d.2)).corners}, a < dist x P.center) := by
  have hu := unitOf_dot hd
  rcases circleunit hc hl (unitOf d) hu hcl a ha ha' with ⟨t, heq, m, hm, -, hcor, e, f, hs, s, s1, s2, e1, e2⟩ | ⟨heq, hfar⟩
  · left
    have hv : ((t * (unitOf d).1, t * (unitOf d).2) : Pt) = (t / hypot d.1 d.2 * d.1, t / hypot d.1 d.2 * d.2) := by
      rw [unitOf_eq]
      ext
      · simp only; ring
      · simp only; ring
    have hv1 := congrArg Prod.fst hv
    have hv2 := congrArg Prod.snd hv
    simp only at hv1 hv2
    rw [hv] at heq hcor
    rw [hv1] at e1
    rw [hv2] at e2
    refine ⟨t / hypot d.1 d.2, ?_, ?_, e, f, hs, s, s1, s2, ?_⟩
    · unfold circlealign circlealignvector
      rw [align_eq P a hd, heq]
      show Except.ok (transform P [translate _]) = _
      rw [transform_move]
      rfl
    · intro x hx
      refine dist_ge hm (halfplane_convex m P.center a _ ?_ x hx) ha
      intro y hy
      simp only [moved, Set.mem_ofPred_eq, List.mem_map] at hy
      obtain ⟨z, hz, rfl⟩ := hy
      exact hcor z hz
    · unfold dist
      simp only
      have a1 : e.1 + s * (f.1 - e.1) + t / hypot d.1 d.2 * d.1 - P.center.1 = a * m.1 := by
        simpa only [Prod.fst_sub] using e1
      have a2 : e.2 + s * (f.2 - e.2) + t / hypot d.1 d.2 * d.2 - P.center.2 = a * m.2 := by
        simpa only [Prod.snd_sub] using e2
      rw [a1, a2]
      have : (a * m.1) ^ 2 + (a * m.2) ^ 2 = a ^ 2 := by
        simp only [dot] at hm
        linear_combination a ^ 2 * hm
      rw [this, Real.sqrt_sq ha.le]
  · right
    constructor
    · unfold circlealign circlealignvector
      rw [align_eq P a hd, heq]
      rfl
    · intro t
      have hpar : ∀ y : Pt, cross (y + (t * d.1, t * d.2) - P.center) (unitOf d) = cross (y - P.center) (unitOf d) := by
        intro y
        rw [unitOf_eq]
        simp only [cross, Prod.fst_sub, Prod.snd_sub, Prod.fst_add, Prod.snd_add]
        ring
      -- a line parallel to d separates box and circle
      have hsep : ∀ m : Pt, dot m m = 1 → (∀ y ∈ P.corners, a < dot m (y + (t * d.1, t * d.2) - P.center)) →
          ∀ x ∈ convexHull ℝ {p | p ∈ (moved P (t * d.1, t * d.2)).corners}, a < dist x P.center := by
        intro m hm h x hx
        obtain ⟨b, hb, hall⟩ : ∃ b, a < b ∧ ∀ y ∈ P.corners, b ≤ dot m (y + (t * d.1, t * d.2) - P.center) := by
          have : ∀ l : List Pt, (∀ y ∈ l, a < dot m (y + (t * d.1, t * d.2) - P.center)) →
              ∃ b, a < b ∧ ∀ y ∈ l, b ≤ dot m (y + (t * d.1, t * d.2) - P.center) := by
            intro l
            induction l with
            | nil => exact fun _ => ⟨a + 1, by linarith, by simp⟩
            | cons z zs ih =>
              intro hz
              obtain ⟨b, hb, hbz⟩ := ih (fun y hy => hz y (List.mem_cons_of_mem _ hy))
              refine ⟨min b (dot m (z + (t * d.1, t * d.2) - P.center)), lt_min hb (hz z List.mem_cons_self), ?_⟩
              intro y hy
              rcases List.mem_cons.1 hy with rfl | hy
              · exact min_le_right _ _
              · exact (min_le_left _ _).trans (hbz y hy)
          exact this _ h
        refine lt_of_lt_of_le hb (dist_ge hm (halfplane_convex m P.center b _ ?_ x hx) (by linarith))
        intro y hy
        simp only [moved, Set.mem_ofPred_eq, List.mem_map] at hy
        obtain ⟨z, hz, rfl⟩ := hy
        exact hall z hz
      rcases hfar with h | h
      · apply hsep (-(unitOf d).2, (unitOf d).1)
        · simp only [dot] at hu ⊢; linarith
        · intro y hy
          have h1 := h y hy
          rw [← hpar] at h1
          have e : dot (-(unitOf d).2, (unitOf d).1) (y + (t * d.1, t * d.2) - P.center) =
              -cross (y + (t * d.1, t * d.2) - P.center) (unitOf d) := by simp only [cross, dot]; ring
          rw [e]; linarith
      · apply hsep ((unitOf d).2, -(unitOf d).1)
        · simp only [dot] at hu ⊢; linarith
        · intro y hy
          have h1 := h y hy
          rw [← hpar] at h1
          have e : dot ((unitOf d).2, -(unitOf d).1) (y + (t * d.1, t * d.2) - P.center) =
              cross (y + (t * d.1, t * d.2) - P.center) (unitOf d) := by simp only [cross, dot]; ring
          rw [e]; linarith

/-! ## Distances -/

/-- The boundary of a polygon: the points of its sides. -/
def Boundary (P : Polygon) : Set Pt := {z | ∃ e f, Side P e f ∧ z ∈ segment ℝ e f}

/-- Every side is a single point or at least `1e-5` long. -/
def NoShort (P : Polygon) : Prop := ∀ e f, Side P e f → e = f ∨ epsilon ≤ dot (f - e) (f - e)

theorem hypot_dist (x y : Pt) : hypot (x.1 - y.1) (x.2 - y.2) = dist x y := by
  unfold hypot dist; congr 1; ring

theorem dist_comm (x y : Pt) : dist x y = dist y x := by
  unfold dist; congr 1; ring

theorem mem_seg {e f z : Pt} : z ∈ segment ℝ e f ↔
    ∃ s : ℝ, 0 ≤ s ∧ s ≤ 1 ∧ z = (e.1 + s * (f.1 - e.1), e.2 + s * (f.2 - e.2)) := by
  constructor
  · rintro ⟨a, b, ha, hb, hab, rfl⟩
    refine ⟨b, hb, by linarith, ?_⟩
    have : a = 1 - b := by linarith
    subst this
    ext
    · simp only [Prod.fst_add, Prod.smul_fst, smul_eq_mul]; ring
    · simp only [Prod.snd_add, Prod.smul_snd, smul_eq_mul]; ring
  · rintro ⟨s, h0, h1, rfl⟩
    refine ⟨1 - s, s, by linarith, h0, by ring, ?_⟩
    ext
    · simp only [Prod.fst_add, Prod.smul_fst, smul_eq_mul]; ring
    · simp only [Prod.snd_add, Prod.smul_snd, smul_eq_mul]; ring

/-- The distance to one side is the smallest distance to its points. -/
theorem edgedistance_spec (x e f : Pt) (h : e = f ∨ epsilon ≤ dot (f - e) (f - e)) :
    (∃ z ∈ segment ℝ e f, edgedistance x e f = dist x z) ∧ ∀ z ∈ segment ℝ e f, edgedistance x e f ≤ dist x z := by
  have hep := epsilon_pos
  have key : ∃ s : ℝ, 0 ≤ s ∧ s ≤ 1 ∧ edgedistance x e f = dist x (e.1 + s * (f.1 - e.1), e.2 + s * (f.2 - e.2)) ∧
      ∀ r : ℝ, 0 ≤ r → r ≤ 1 → 0 ≤ (r - s) * ((f.1 - e.1) * (e.1 + s * (f.1 - e.1) - x.1) + (f.2 - e.2) * (e.2 + s * (f.2 - e.2) - x.2)) := by
    unfold edgedistance
    dsimp only
    split_ifs with h1 h2 h3
    · rcases h with rfl | h
      · refine ⟨0, le_rfl, zero_le_one, ?_, fun r _ _ => by simp⟩
        rw [hypot_dist, dist_comm]; simp
      · simp only [dot, Prod.fst_sub, Prod.snd_sub] at h; linarith
    · refine ⟨0, le_rfl, zero_le_one, ?_, fun r hr _ => ?_⟩
      · rw [hypot_dist, dist_comm]; simp
      · have hL : 0 < (f.1 - e.1) * (f.1 - e.1) + (f.2 - e.2) * (f.2 - e.2) := by linarith
        rw [div_lt_iff₀ hL, zero_mul] at h2
        rw [sub_zero]
        apply mul_nonneg hr
        linarith
    · refine ⟨1, zero_le_one, le_rfl, ?_, fun r _ hr => ?_⟩
      · rw [hypot_dist, dist_comm]; simp
      · have hL : 0 < (f.1 - e.1) * (f.1 - e.1) + (f.2 - e.2) * (f.2 - e.2) := by linarith
        rw [gt_iff_lt, lt_div_iff₀ hL, one_mul] at h3
        apply mul_nonneg_of_nonpos_of_nonpos
        · linarith
        · linarith
    · have hL : 0 < (f.1 - e.1) * (f.1 - e.1) + (f.2 - e.2) * (f.2 - e.2) := by linarith
      refine ⟨_, not_lt.1 h2, not_lt.1 h3, ?_, fun r _ _ => ?_⟩
      · rw [← hypot_dist]
        simp only
        congr 1
        · ring
        · ring
      · have e1 : (f.1 - e.1) * (e.1 + ((f.1 - e.1) * (x.1 - e.1) + (f.2 - e.2) * (x.2 - e.2)) /
            ((f.1 - e.1) * (f.1 - e.1) + (f.2 - e.2) * (f.2 - e.2)) * (f.1 - e.1) - x.1) +
            (f.2 - e.2) * (e.2 + ((f.1 - e.1) * (x.1 - e.1) + (f.2 - e.2) * (x.2 - e.2)) /
            ((f.1 - e.1) * (f.1 - e.1) + (f.2 - e.2) * (f.2 - e.2)) * (f.2 - e.2) - x.2) = 0 := by
          set L := (f.1 - e.1) * (f.1 - e.1) + (f.2 - e.2) * (f.2 - e.2) with hLd
          have : ((f.1 - e.1) * (x.1 - e.1) + (f.2 - e.2) * (x.2 - e.2)) / L * L =
            (f.1 - e.1) * (x.1 - e.1) + (f.2 - e.2) * (x.2 - e.2) := div_mul_cancel₀ _ hL.ne'
          linear_combination this + ((f.1 - e.1) * (x.1 - e.1) + (f.2 - e.2) * (x.2 - e.2)) / L * (-hLd)
        rw [e1, mul_zero]
  obtain ⟨s, s0, s1, hs, hmin⟩ := key
  refine ⟨⟨_, mem_seg.2 ⟨s, s0, s1, rfl⟩, hs⟩, ?_⟩
  intro z hz
  obtain ⟨r, r0, r1, rfl⟩ := mem_seg.1 hz
  rw [hs]
  unfold dist
  apply Real.sqrt_le_sqrt
  simp only
  have h1 := hmin r r0 r1
  nlinarith [sq_nonneg ((r - s) * (f.1 - e.1)), sq_nonneg ((r - s) * (f.2 - e.2))]

/-- The running minimum of a list. -/
theorem smaller_fold {α : Type*} (g : α → ℝ) (l : List α) (r : Option ℝ) (h : r ≠ none ∨ l ≠ []) :
    ∃ m, l.foldl (fun r x => smaller r (g x)) r = some m ∧ (r = some m ∨ ∃ x ∈ l, m = g x) ∧
      (∀ v, r = some v → m ≤ v) ∧ ∀ x ∈ l, m ≤ g x := by
  induction l generalizing r with
  | nil =>
    cases r with
    | none => simp at h
    | some v => exact ⟨v, rfl, Or.inl rfl, fun w hw => (by cases hw; exact le_rfl), by simp⟩
  | cons x xs ih =>
    have hsm : ∃ w, smaller r (g x) = some w ∧ (r = some w ∨ w = g x) ∧ (∀ v, r = some v → w ≤ v) ∧ w ≤ g x := by
      cases r with
      | none => exact ⟨g x, rfl, Or.inr rfl, fun v hv => (by cases hv), le_rfl⟩
      | some v =>
        by_cases hlt : g x < v
        · refine ⟨g x, by simp [smaller, hlt], Or.inr rfl, fun w hw => ?_, le_rfl⟩
          cases hw; exact hlt.le
        · refine ⟨v, by simp [smaller, hlt], Or.inl rfl, fun w hw => ?_, not_lt.1 hlt⟩
          cases hw; exact le_rfl
    obtain ⟨w, hw, hor, hle, hlx⟩ := hsm
    obtain ⟨m, hm, hmor, hmle, hml⟩ := ih (some w) (Or.inl (by simp))
    refine ⟨m, by rw [List.foldl_cons, hw]; exact hm, ?_, fun v hv => (hmle w rfl).trans (hle v hv), ?_⟩
    · rcases hmor with h | ⟨y, hy, hmy⟩
      · cases h
        rcases hor with h | h
        · exact Or.inl h
        · exact Or.inr ⟨x, List.mem_cons_self, h⟩
      · exact Or.inr ⟨y, List.mem_cons_of_mem _ hy, hmy⟩
    · intro y hy
      rcases List.mem_cons.1 hy with rfl | hy
      · exact (hmle w rfl).trans hlx
      · exact hml y hy

/-- **C52, distance to a point.** `pointdistance_pt` is the smallest distance of the point to a point of the
boundary. -/
theorem pointdistance_partial (hP : P.corners ≠ []) (hs : NoShort P) (x : Pt) :
    ∃ r, pointdistance P x = some r ∧ IsLeast {y | ∃ z ∈ Boundary P, y = dist x z} r := by
  have hne : edges P ≠ [] := by
    unfold edges
    simp only [ne_eq, List.map_eq_nil_iff, List.range_eq_nil, List.length_eq_zero_iff]
    exact hP
  obtain ⟨m, hm, hor, -, hle⟩ := smaller_fold (fun e : Pt × Pt => edgedistance x e.1 e.2) (edges P) none (Or.inr hne)
  refine ⟨m, hm, ?_, ?_⟩
  · rcases hor with h | ⟨⟨e, f⟩, he, rfl⟩
    · cases h
    · have hS := mem_edges.1 he
      obtain ⟨z, hz, hd⟩ := (edgedistance_spec x e f (hs e f hS)).1
      exact ⟨z, ⟨e, f, hS, hz⟩, hd⟩
  · rintro y ⟨z, ⟨e, f, hS, hz⟩, rfl⟩
    exact (hle (e, f) (mem_edges.2 hS)).trans ((edgedistance_spec x e f (hs e f hS)).2 z hz)

/-- Leaving the unit square along a line, its border is passed. -/
theorem leave (s t s' t' : ℝ) (hs : 0 ≤ s) (hs1 : s ≤ 1) (ht : 0 ≤ t) (ht1 : t ≤ 1)
    (hout : ¬ (0 ≤ s' ∧ s' ≤ 1 ∧ 0 ≤ t' ∧ t' ≤ 1)) :
    ∃ l : ℝ, 0 ≤ l ∧ l ≤ 1 ∧ 0 ≤ s + l * (s' - s) ∧ s + l * (s' - s) ≤ 1 ∧ 0 ≤ t + l * (t' - t) ∧ t + l * (t' - t) ≤ 1 ∧
      (s + l * (s' - s) = 0 ∨ s + l * (s' - s) = 1 ∨ t + l * (t' - t) = 0 ∨ t + l * (t' - t) = 1) := by
  let g : ℝ → ℝ := fun l => min (min (s + l * (s' - s)) (1 - (s + l * (s' - s)))) (min (t + l * (t' - t)) (1 - (t + l * (t' - t))))
  have hg : Continuous g := by
    simp only [g]
    fun_prop
  have h0 : 0 ≤ g 0 := by
    simp only [g, zero_mul, add_zero, le_min_iff]
    refine ⟨⟨hs, by linarith⟩, ht, by linarith⟩
  have h1 : g 1 ≤ 0 := by
    by_contra hc
    push Not at hc
    simp only [g, one_mul, lt_min_iff] at hc
    apply hout
    obtain ⟨⟨a, b⟩, c, d⟩ := hc
    refine ⟨by linarith, by linarith, by linarith, by linarith⟩
  obtain ⟨l, ⟨l0, l1⟩, hl⟩ := intermediate_value_Icc' (zero_le_one (α := ℝ)) hg.continuousOn ⟨h1, h0⟩
  have hge : 0 ≤ g l := hl.ge
  simp only [g, le_min_iff] at hge
  obtain ⟨⟨a, b⟩, c, d⟩ := hge
  refine ⟨l, l0, l1, a, by linarith, c, by linarith, ?_⟩
  simp only [g] at hl
  rcases min_choice (min (s + l * (s' - s)) (1 - (s + l * (s' - s)))) (min (t + l * (t' - t)) (1 - (t + l * (t' - t)))) with h | h <;> rw [h] at hl
  · rcases min_choice (s + l * (s' - s)) (1 - (s + l * (s' - s))) with h | h <;> rw [h] at hl
    · exact Or.inl hl
    · exact Or.inr (Or.inl (by linarith))
  · rcases min_choice (t + l * (t' - t)) (1 - (t + l * (t' - t))) with h | h <;> rw [h] at hl
    · exact Or.inr (Or.inr (Or.inl hl))
    · exact Or.inr (Or.inr (Or.inr (by linarith)))

/-- Two segments that do not cross are nearest at an end of one of them. -/
theorem segments_nearest {p1 p2 p3 p4 x y : Pt} (hx : x ∈ segment ℝ p1 p2) (hy : y ∈ segment ℝ p3 p4)
    (hcl : cross (p2 - p1) (p4 - p3) = 0 ∨ epsilon < |cross (p2 - p1) (p4 - p3)|) (hn : ¬ crossing p1 p2 p3 p4) :
    ∃ x' ∈ segment ℝ p1 p2, ∃ y' ∈ segment ℝ p3 p4, dist x' y' ≤ dist x y ∧ (x' = p1 ∨ x' = p2 ∨ y' = p3 ∨ y' = p4) := by
  obtain ⟨s, s0, s1, rfl⟩ := mem_seg.1 hx
  obtain ⟨t, t0, t1, rfl⟩ := mem_seg.1 hy
  -- moving the parameters along a line that leaves the square without increasing the distance
  have fin : ∀ s' t' : ℝ, ¬ (0 ≤ s' ∧ s' ≤ 1 ∧ 0 ≤ t' ∧ t' ≤ 1) →
      (∀ l : ℝ, 0 ≤ l → l ≤ 1 →
        dist (p1.1 + (s + l * (s' - s)) * (p2.1 - p1.1), p1.2 + (s + l * (s' - s)) * (p2.2 - p1.2))
          (p3.1 + (t + l * (t' - t)) * (p4.1 - p3.1), p3.2 + (t + l * (t' - t)) * (p4.2 - p3.2)) ≤
        dist (p1.1 + s * (p2.1 - p1.1), p1.2 + s * (p2.2 - p1.2)) (p3.1 + t * (p4.1 - p3.1), p3.2 + t * (p4.2 - p3.2))) →
      ∃ x' ∈ segment ℝ p1 p2, ∃ y' ∈ segment ℝ p3 p4,
        dist x' y' ≤ dist (p1.1 + s * (p2.1 - p1.1), p1.2 + s * (p2.2 - p1.2)) (p3.1 + t * (p4.1 - p3.1), p3.2 + t * (p4.2 - p3.2)) ∧
        (x' = p1 ∨ x' = p2 ∨ y' = p3 ∨ y' = p4) := by
    intro s' t' hout hle
    obtain ⟨l, l0, l1, a0, a1, b0, b1, hor⟩ := leave s t s' t' s0 s1 t0 t1 hout
    refine ⟨_, mem_seg.2 ⟨_, a0, a1, rfl⟩, _, mem_seg.2 ⟨_, b0, b1, rfl⟩, hle l l0 l1, ?_⟩
    rcases hor with h | h | h | h
    · exact Or.inl (by rw [h]; ext <;> simp)
    · exact Or.inr (Or.inl (by rw [h]; ext <;> simp))
    · exact Or.inr (Or.inr (Or.inl (by rw [h]; ext <;> simp)))
    · exact Or.inr (Or.inr (Or.inr (by rw [h]; ext <;> simp)))
  by_cases hc0 : cross (p2 - p1) (p4 - p3) = 0
  · -- parallel
    by_cases hu : p1 = p2
    · subst hu
      exact ⟨_, hx, _, hy, le_rfl, Or.inl (by ext <;> simp)⟩
    · by_cases hw : p3 = p4
      · subst hw
        exact ⟨_, hx, _, hy, le_rfl, Or.inr (Or.inr (Or.inl (by ext <;> simp)))⟩
      · have hL : 0 < (p4.1 - p3.1) ^ 2 + (p4.2 - p3.2) ^ 2 := by
          by_contra hcon
          have e1 : p4.1 - p3.1 = 0 := by nlinarith [sq_nonneg (p4.1 - p3.1), sq_nonneg (p4.2 - p3.2)]
          have e2 : p4.2 - p3.2 = 0 := by nlinarith [sq_nonneg (p4.1 - p3.1), sq_nonneg (p4.2 - p3.2)]
          exact hw (Prod.ext (by linarith) (by linarith))
        obtain ⟨k, hk⟩ : ∃ k : ℝ, k * ((p4.1 - p3.1) ^ 2 + (p4.2 - p3.2) ^ 2) =
            (p2.1 - p1.1) * (p4.1 - p3.1) + (p2.2 - p1.2) * (p4.2 - p3.2) :=
          ⟨_, div_mul_cancel₀ _ hL.ne'⟩
        simp only [cross, Prod.fst_sub, Prod.snd_sub] at hc0
        have e1 : p2.1 - p1.1 = k * (p4.1 - p3.1) := by
          have : ((p4.1 - p3.1) ^ 2 + (p4.2 - p3.2) ^ 2) * (p2.1 - p1.1 - k * (p4.1 - p3.1)) = 0 := by
            linear_combination (-(p4.1 - p3.1)) * hk + (p4.2 - p3.2) * hc0
          have := (mul_eq_zero.1 this).resolve_left hL.ne'
          linarith
        have e2 : p2.2 - p1.2 = k * (p4.2 - p3.2) := by
          have : ((p4.1 - p3.1) ^ 2 + (p4.2 - p3.2) ^ 2) * (p2.2 - p1.2 - k * (p4.2 - p3.2)) = 0 := by
            linear_combination (-(p4.2 - p3.2)) * hk - (p4.1 - p3.1) * hc0
          have := (mul_eq_zero.1 this).resolve_left hL.ne'
          linarith
        have hk0 : k ≠ 0 := by
          rintro rfl
          exact hu (Prod.ext (by linarith) (by linarith))
        apply fin (s + 2 / k) (t + 2) (fun h => by linarith [h.2.2.2])
        intro l _ _
        apply le_of_eq
        unfold dist
        congr 1
        simp only
        rw [e1, e2]
        have hkk : k * (2 / k) = 2 := by field_simp
        have a1 : (s + l * (s + 2 / k - s)) * (k * (p4.1 - p3.1)) = s * (k * (p4.1 - p3.1)) + l * 2 * (p4.1 - p3.1) := by
          linear_combination l * (p4.1 - p3.1) * hkk
        have a2 : (s + l * (s + 2 / k - s)) * (k * (p4.2 - p3.2)) = s * (k * (p4.2 - p3.2)) + l * 2 * (p4.2 - p3.2) := by
          linear_combination l * (p4.2 - p3.2) * hkk
        rw [a1, a2]
        ring
  · have hc1 := hcl.resolve_left hc0
    simp only [cross, Prod.fst_sub, Prod.snd_sub] at hc0 hc1
    unfold crossing at hn
    simp only at hn
    set c := (p2.1 - p1.1) * (p4.2 - p3.2) - (p2.2 - p1.2) * (p4.1 - p3.1) with hcd
    set sa := ((p4.2 - p3.2) * (p3.1 - p1.1) - (p4.1 - p3.1) * (p3.2 - p1.2)) / c with hsa
    set ta := ((p2.2 - p1.2) * (p3.1 - p1.1) - (p2.1 - p1.1) * (p3.2 - p1.2)) / c with hta
    have hep := epsilon_pos
    have esa : sa * c = (p4.2 - p3.2) * (p3.1 - p1.1) - (p4.1 - p3.1) * (p3.2 - p1.2) := div_mul_cancel₀ _ hc0
    have eta : ta * c = (p2.2 - p1.2) * (p3.1 - p1.1) - (p2.1 - p1.1) * (p3.2 - p1.2) := div_mul_cancel₀ _ hc0
    have m1 : p1.1 + sa * (p2.1 - p1.1) = p3.1 + ta * (p4.1 - p3.1) := by
      have : c * (p1.1 + sa * (p2.1 - p1.1) - (p3.1 + ta * (p4.1 - p3.1))) = 0 := by
        linear_combination (p2.1 - p1.1) * esa - (p4.1 - p3.1) * eta + (p1.1 - p3.1) * hcd
      have := (mul_eq_zero.1 this).resolve_left hc0
      linarith
    have m2 : p1.2 + sa * (p2.2 - p1.2) = p3.2 + ta * (p4.2 - p3.2) := by
      have : c * (p1.2 + sa * (p2.2 - p1.2) - (p3.2 + ta * (p4.2 - p3.2))) = 0 := by
        linear_combination (p2.2 - p1.2) * esa - (p4.2 - p3.2) * eta + (p1.2 - p3.2) * hcd
      have := (mul_eq_zero.1 this).resolve_left hc0
      linarith
    apply fin sa ta
    · rintro ⟨h1, h2, h3, h4⟩
      exact hn ⟨hc1, by linarith, by linarith, by linarith, by linarith⟩
    · intro l l0 l1
      unfold dist
      apply Real.sqrt_le_sqrt
      simp only
      have a1 : p1.1 + (s + l * (sa - s)) * (p2.1 - p1.1) - (p3.1 + (t + l * (ta - t)) * (p4.1 - p3.1)) =
          (1 - l) * (p1.1 + s * (p2.1 - p1.1) - (p3.1 + t * (p4.1 - p3.1))) := by linear_combination l * m1
      have a2 : p1.2 + (s + l * (sa - s)) * (p2.2 - p1.2) - (p3.2 + (t + l * (ta - t)) * (p4.2 - p3.2)) =
          (1 - l) * (p1.2 + s * (p2.2 - p1.2) - (p3.2 + t * (p4.2 - p3.2))) := by linear_combination l * m2
      rw [a1, a2, mul_pow, mul_pow, ← mul_add]
      have : (1 - l) ^ 2 ≤ 1 := by nlinarith
      have h0 := add_nonneg (sq_nonneg (p1.1 + s * (p2.1 - p1.1) - (p3.1 + t * (p4.1 - p3.1))))
        (sq_nonneg (p1.2 + s * (p2.2 - p1.2) - (p3.2 + t * (p4.2 - p3.2))))
      exact mul_le_of_le_one_left h0 this

/-- The test for crossing: the lines of two sides, not nearly parallel, meet within both sides (with the
tolerance `epsilon` at the ends). -/
theorem crossing_iff (p1 p2 p3 p4 : Pt) : crossing p1 p2 p3 p4 ↔ epsilon < |cross (p2 - p1) (p4 - p3)| ∧
    ∃ s t : ℝ, -epsilon < s ∧ s < 1 + epsilon ∧ -epsilon < t ∧ t < 1 + epsilon ∧
      p1.1 + s * (p2.1 - p1.1) = p3.1 + t * (p4.1 - p3.1) ∧ p1.2 + s * (p2.2 - p1.2) = p3.2 + t * (p4.2 - p3.2) := by
  have hep := epsilon_pos
  unfold crossing
  simp only [cross, Prod.fst_sub, Prod.snd_sub]
  set c := (p2.1 - p1.1) * (p4.2 - p3.2) - (p2.2 - p1.2) * (p4.1 - p3.1) with hcd
  constructor
  · rintro ⟨h0, h1, h2, h3, h4⟩
    have hc0 : c ≠ 0 := by
      intro h; rw [h, abs_zero] at h0; linarith
    refine ⟨h0, _, _, h1, h2, h3, h4, ?_, ?_⟩
    · field_simp
      linear_combination (p1.1 - p3.1) * hcd
    · field_simp
      linear_combination (p1.2 - p3.2) * hcd
  · rintro ⟨h0, s, t, h1, h2, h3, h4, e1, e2⟩
    have hc0 : c ≠ 0 := by
      intro h; rw [h, abs_zero] at h0; linarith
    have es : ((p4.2 - p3.2) * (p3.1 - p1.1) - (p4.1 - p3.1) * (p3.2 - p1.2)) / c = s := by
      rw [div_eq_iff hc0]
      linear_combination (-(p4.2 - p3.2)) * e1 + (p4.1 - p3.1) * e2 - s * hcd
    have et : ((p2.2 - p1.2) * (p3.1 - p1.1) - (p2.1 - p1.1) * (p3.2 - p1.2)) / c = t := by
      rw [div_eq_iff hc0]
      linear_combination (-(p2.2 - p1.2)) * e1 + (p2.1 - p1.1) * e2 - t * hcd
    rw [es, et]
    exact ⟨h0, h1, h2, h3, h4⟩

/-- Two sides of the boxes are parallel or clearly not parallel. -/
def ClearPair (P Q : Polygon) : Prop := ∀ e f g h, Side P e f → Side Q g h →
  cross (f - e) (h - g) = 0 ∨ epsilon < |cross (f - e) (h - g)|

/-- Two sides cross (with the tolerance `epsilon` at the ends). -/
def Cross (P Q : Polygon) : Prop := ∃ e f g h, Side P e f ∧ Side Q g h ∧ epsilon < |cross (f - e) (h - g)| ∧
  ∃ s t : ℝ, -epsilon < s ∧ s < 1 + epsilon ∧ -epsilon < t ∧ t < 1 + epsilon ∧
    e.1 + s * (f.1 - e.1) = g.1 + t * (h.1 - g.1) ∧ e.2 + s * (f.2 - e.2) = g.2 + t * (h.2 - g.2)

theorem cross_iff : (∃ e ∈ edges P, ∃ f ∈ edges Q, crossing e.1 e.2 f.1 f.2) ↔ Cross P Q := by
  constructor
  · rintro ⟨⟨e, f⟩, he, ⟨g, h⟩, hg, hc⟩
    obtain ⟨h0, hst⟩ := (crossing_iff _ _ _ _).1 hc
    exact ⟨e, f, g, h, mem_edges.1 he, mem_edges.1 hg, h0, hst⟩
  · rintro ⟨e, f, g, h, he, hg, h0, hst⟩
    exact ⟨(e, f), mem_edges.2 he, (g, h), mem_edges.2 hg, (crossing_iff _ _ _ _).2 ⟨h0, hst⟩⟩

theorem smallerM_fold (g : Pt → Option ℝ) (l : List Pt) (r : Option ℝ) (hg : ∀ x ∈ l, ∃ v, g x = some v) :
    l.foldlM (fun r x => smaller? r (g x)) r = .ok (l.foldl (fun r x => smaller r ((g x).getD 0)) r) := by
  induction l generalizing r with
  | nil => rfl
  | cons x xs ih =>
    obtain ⟨v, hv⟩ := hg x List.mem_cons_self
    rw [List.foldlM_cons, List.foldl_cons, hv]
    exact ih _ (fun y hy => hg y (List.mem_cons_of_mem _ hy))

theorem corner_boundary {p : Pt} (hp : p ∈ P.corners) : p ∈ Boundary P := by
  obtain ⟨i, hi, rfl⟩ := mem_pt hp
  exact ⟨_, _, side_prev hi, right_mem_segment ℝ _ _⟩

theorem side_corners {e f : Pt} (h : Side P e f) : e ∈ P.corners ∧ f ∈ P.corners := by
  obtain ⟨i, -, he, hf⟩ := h
  exact ⟨List.mem_of_getElem? he, List.mem_of_getElem? hf⟩

/-- **C52, distance of boxes.** `BoxCrossError` is raised exactly if two sides cross; otherwise the result is the
smallest distance of a point of one boundary to a point of the other. -/
theorem boxdistance_partial (hP : P.corners ≠ []) (hQ : Q.corners ≠ []) (sP : NoShort P) (sQ : NoShort Q)
    (hcl : ClearPair P Q) :
    (boxdistance P Q = .error .boxCross ↔ Cross P Q) ∧
    (¬ Cross P Q → ∃ r, boxdistance P Q = .ok (some r) ∧
      IsLeast {y | ∃ x ∈ Boundary P, ∃ z ∈ Boundary Q, y = dist x z} r) := by
  have hdP := fun x => pointdistance_partial hP sP x
  have hdQ := fun x => pointdistance_partial hQ sQ x
  have main : ¬ Cross P Q → ∃ r, boxdistance P Q = .ok (some r) ∧
      IsLeast {y | ∃ x ∈ Boundary P, ∃ z ∈ Boundary Q, y = dist x z} r := by
    intro hn
    obtain ⟨m1, h1, o1, -, l1⟩ := smaller_fold (fun p => (pointdistance P p).getD 0) Q.corners none (Or.inr hQ)
    obtain ⟨m2, h2, o2, k2, l2⟩ := smaller_fold (fun p => (pointdistance Q p).getD 0) P.corners (some m1) (Or.inl (by simp))
    have hres : boxdistance P Q = .ok (some m2) := by
      unfold boxdistance
      rw [if_neg (fun h => hn (cross_iff.1 h))]
      rw [smallerM_fold (pointdistance P) Q.corners none (fun x _ => by obtain ⟨r, hr, -⟩ := hdP x; exact ⟨r, hr⟩), h1]
      show P.corners.foldlM _ (some m1) = _
      rw [smallerM_fold (pointdistance Q) P.corners _ (fun x _ => by obtain ⟨r, hr, -⟩ := hdQ x; exact ⟨r, hr⟩), h2]
    refine ⟨m2, hres, ?_, ?_⟩
    · have case1 : (∃ x ∈ Q.corners, m2 = (pointdistance P x).getD 0) → m2 ∈ {y | ∃ x ∈ Boundary P, ∃ z ∈ Boundary Q, y = dist x z} := by
        rintro ⟨x, hx, hm⟩
        obtain ⟨r, hr, ⟨z, hz, hrz⟩, -⟩ := hdP x
        refine ⟨z, hz, x, corner_boundary hx, ?_⟩
        rw [hm, hr, Option.getD_some, hrz, dist_comm]
      rcases o2 with h | ⟨x, hx, hm⟩
      · cases h
        rcases o1 with h | h
        · cases h
        · exact case1 h
      · obtain ⟨r, hr, ⟨z, hz, hrz⟩, -⟩ := hdQ x
        refine ⟨x, corner_boundary hx, z, hz, ?_⟩
        rw [hm, hr, Option.getD_some, hrz]
    · rintro y ⟨x, ⟨e, f, hS, hx⟩, z, ⟨g, h, hT, hz⟩, rfl⟩
      have hnc : ¬ crossing e f g h := fun hc => hn (cross_iff.1 ⟨(e, f), mem_edges.2 hS, (g, h), mem_edges.2 hT, hc⟩)
      obtain ⟨x', hx', z', hz', hle, hor⟩ := segments_nearest hx hz (hcl e f g h hS hT) hnc
      refine le_trans ?_ hle
      have cP : x' ∈ P.corners → m2 ≤ dist x' z' := by
        intro hc
        obtain ⟨r, hr, -, hlow⟩ := hdQ x'
        have := l2 x' hc
        rw [hr, Option.getD_some] at this
        exact this.trans (hlow ⟨z', ⟨g, h, hT, hz'⟩, rfl⟩)
      have cQ : z' ∈ Q.corners → m2 ≤ dist x' z' := by
        intro hc
        obtain ⟨r, hr, -, hlow⟩ := hdP z'
        have := l1 z' hc
        rw [hr, Option.getD_some] at this
        rw [dist_comm]
        exact (k2 m1 rfl).trans (this.trans (hlow ⟨x', ⟨e, f, hS, hx'⟩, rfl⟩))
      rcases hor with rfl | rfl | rfl | rfl
      · exact cP (side_corners hS).1
      · exact cP (side_corners hS).2
      · exact cQ (side_corners hT).1
      · exact cQ (side_corners hT).2
  refine ⟨⟨fun h => ?_, fun h => ?_⟩, main⟩
  · by_contra hn
    obtain ⟨r, hr, -⟩ := main hn
    rw [h] at hr
    cases hr
  · unfold boxdistance
    rw [if_pos (cross_iff.2 h)]

end

end PyX.Box
