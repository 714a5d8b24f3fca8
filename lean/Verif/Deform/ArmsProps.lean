import Verif.Deform.CornerProps

/-!
# C123: curves with given tangents and curvatures at the ends
-/

set_option linter.unusedSectionVars false

namespace PyX.Deform

noncomputable section

open PyX.NormPath

/-! ## Specification -/

/-- The curve leaves `A` in the direction `tA`, arrives at `B` in the direction `tB`, and has the given curvatures there. -/
def HasEnds (c : Curve ℝ) (A B tA tB : Pt) (ca cb : ℝ) : Prop :=
  c.begin_ = A ∧ c.end_ = B ∧ (∃ k > 0, c.tangent 0 = (k * tA.1, k * tA.2)) ∧ (∃ k > 0, c.tangent 1 = (k * tB.1, k * tB.2)) ∧
    (Item.curve c).curvature 0 = some ca ∧ (Item.curve c).curvature 1 = some cb

/-- The list contains exactly the zeros of the polynomial (C67). -/
def Exact (roots : List ℝ → List ℝ) (cs : List ℝ) : Prop := ∀ x, x ∈ roots cs ↔ Roots.eval cs x = 0

/-! ## The equations -/

theorem arm_curvature (A B tA tB : Pt) (a b : ℝ) (hA : Unit2 tA) (ha : 0 < a) (ca : ℝ) :
    (Item.curve (armCurve A B tA tB a b)).curvature 0 = some ca ↔
      3 / 2 * ca * a ^ 2 + b * (tA.1 * tB.2 - tA.2 * tB.1) = tA.1 * (B.2 - A.2) - tA.2 * (B.1 - A.1) := by
  have hd : (armCurve A B tA tB a b).dot 0 = (3 * a * tA.1, 3 * a * tA.2) := by
    ext <;> simp only [armCurve, bez, Curve.dot] <;> ring
  have hh : hypot (3 * a * tA.1) (3 * a * tA.2) = 3 * a := by
    rw [hypot]
    have : (3 * a * tA.1) ^ 2 + (3 * a * tA.2) ^ 2 = (3 * a) ^ 2 := by
      rw [Unit2] at hA
      linear_combination (9 * a ^ 2) * hA
    rw [this, Real.sqrt_sq (by positivity)]
  have hne : (3 * a) ≠ 0 := by positivity
  rw [Item.curvature, hd, hh, if_neg hne, Option.some.injEq, div_eq_iff (by positivity)]
  simp only [armCurve, bez, Curve.ddot]
  have ha' : a ≠ 0 := ha.ne'
  constructor
  · intro h
    have : 18 * a * (3 / 2 * ca * a ^ 2 + b * (tA.1 * tB.2 - tA.2 * tB.1)) = 18 * a * (tA.1 * (B.2 - A.2) - tA.2 * (B.1 - A.1)) := by
      linear_combination -h
    exact mul_left_cancel₀ (by positivity) this
  · intro h
    linear_combination (-18 * a) * h

theorem arm_curvature_end (A B tA tB : Pt) (a b : ℝ) (hB : Unit2 tB) (hb : 0 < b) (cb : ℝ) :
    (Item.curve (armCurve A B tA tB a b)).curvature 1 = some cb ↔
      3 / 2 * cb * b ^ 2 + a * (tA.1 * tB.2 - tA.2 * tB.1) = tB.1 * (A.2 - B.2) - tB.2 * (A.1 - B.1) := by
  have hd : (armCurve A B tA tB a b).dot 1 = (3 * b * tB.1, 3 * b * tB.2) := by
    ext <;> simp only [armCurve, bez, Curve.dot] <;> ring
  have hh : hypot (3 * b * tB.1) (3 * b * tB.2) = 3 * b := by
    rw [hypot]
    have : (3 * b * tB.1) ^ 2 + (3 * b * tB.2) ^ 2 = (3 * b) ^ 2 := by
      rw [Unit2] at hB
      linear_combination (9 * b ^ 2) * hB
    rw [this, Real.sqrt_sq (by positivity)]
  have hne : (3 * b) ≠ 0 := by positivity
  rw [Item.curvature, hd, hh, if_neg hne, Option.some.injEq, div_eq_iff (by positivity)]
  simp only [armCurve, bez, Curve.ddot]
  constructor
  · intro h
    have : 18 * b * (3 / 2 * cb * b ^ 2 + a * (tA.1 * tB.2 - tA.2 * tB.1)) = 18 * b * (tB.1 * (A.2 - B.2) - tB.2 * (A.1 - B.1)) := by
      linear_combination -h
    exact mul_left_cancel₀ (by positivity) this
  · intro h
    linear_combination (-18 * b) * h

/-- **C123.**  For positive arms, the curve has the given curvatures at its ends if and only if the arms solve the two equations. -/
theorem arms_equations (A B tA tB : Pt) (a b ca cb : ℝ) (hA : Unit2 tA) (hB : Unit2 tB) (ha : 0 < a) (hb : 0 < b) :
    HasEnds (armCurve A B tA tB a b) A B tA tB ca cb ↔
      3 / 2 * ca * a ^ 2 + b * (tA.1 * tB.2 - tA.2 * tB.1) = tA.1 * (B.2 - A.2) - tA.2 * (B.1 - A.1) ∧
      3 / 2 * cb * b ^ 2 + a * (tA.1 * tB.2 - tA.2 * tB.1) = tB.1 * (A.2 - B.2) - tB.2 * (A.1 - B.1) := by
  rw [HasEnds, arm_curvature A B tA tB a b hA ha, arm_curvature_end A B tA tB a b hB hb]
  constructor
  · exact fun h => h.2.2.2.2
  · intro h
    refine ⟨rfl, rfl, ⟨3 * a, by positivity, ?_⟩, ⟨3 * b, by positivity, ?_⟩, h⟩
    · ext <;> simp only [armCurve, bez, Curve.tangent] <;> ring
    · ext <;> simp only [armCurve, bez, Curve.tangent] <;> ring

/-! ## The solutions -/

theorem findnearest_spec (x : ℝ) (ys : List ℝ) : ∀ y, findnearest x y ys ∈ y :: ys ∧ ∀ z ∈ y :: ys, |x - findnearest x y ys| ≤ |x - z| := by
  induction ys with
  | nil =>
    intro y
    simp [findnearest]
  | cons w ys ih =>
    intro y
    rw [findnearest, List.foldl_cons]
    by_cases h : |x - w| < |x - y|
    · rw [if_pos h]
      obtain ⟨h1, h2⟩ := ih w
      refine ⟨List.mem_cons_of_mem _ h1, ?_⟩
      intro z hz
      rcases List.mem_cons.1 hz with rfl | hz
      · exact (h2 w (by simp)).trans h.le
      · exact h2 z hz
    · rw [if_neg h]
      obtain ⟨h1, h2⟩ := ih y
      push Not at h
      constructor
      · rcases List.mem_cons.1 h1 with h1 | h1
        · exact List.mem_cons.2 (Or.inl h1)
        · exact List.mem_cons_of_mem _ (List.mem_cons_of_mem _ h1)
      · intro z hz
        rcases List.mem_cons.1 hz with rfl | hz
        · exact h2 z (by simp)
        · rcases List.mem_cons.1 hz with rfl | hz
          · exact (h2 y (by simp)).trans h
          · exact h2 z (by simp [hz])

theorem eval_coeffsA (T D E ca cb x : ℝ) :
    Roots.eval (coeffsA T D E ca cb 1 1) x = 3 / 2 * cb * (D - 3 / 2 * ca * x ^ 2) ^ 2 + T ^ 3 * x - T ^ 2 * E := by
  simp only [coeffsA, Roots.eval, List.length]
  ring

theorem eval_coeffsB (T D E ca cb x : ℝ) :
    Roots.eval (coeffsB T D E ca cb 1 1) x = 3 / 2 * ca * (E - 3 / 2 * cb * x ^ 2) ^ 2 + T ^ 3 * x - T ^ 2 * D := by
  simp only [coeffsB, Roots.eval, List.length]
  ring

theorem mem_candidatesA (roots : List ℝ → List ℝ) (T D E ca cb : ℝ) (h : Exact roots (coeffsA T D E ca cb 1 1)) (x : ℝ) :
    x ∈ candidatesA roots T D E ca cb false ↔ 0 ≤ x ∧ 3 / 2 * cb * (D - 3 / 2 * ca * x ^ 2) ^ 2 + T ^ 3 * x - T ^ 2 * E = 0 := by
  rw [candidatesA, signs]
  simp only [Bool.false_eq_true, if_false, List.flatMap_cons, List.flatMap_nil, List.append_nil, List.mem_filter, decide_eq_true_eq, one_mul, ge_iff_le]
  rw [h x, eval_coeffsA, and_comm]

theorem mem_candidatesB (roots : List ℝ → List ℝ) (T D E ca cb : ℝ) (h : Exact roots (coeffsB T D E ca cb 1 1)) (x : ℝ) :
    x ∈ candidatesB roots T D E ca cb false ↔ 0 ≤ x ∧ 3 / 2 * ca * (E - 3 / 2 * cb * x ^ 2) ^ 2 + T ^ 3 * x - T ^ 2 * D = 0 := by
  rw [candidatesB, signs]
  simp only [Bool.false_eq_true, if_false, List.flatMap_cons, List.flatMap_nil, List.append_nil, List.mem_filter, decide_eq_true_eq, one_mul, ge_iff_le]
  rw [h x, eval_coeffsB, and_comm]

theorem mem_pairs {T D ca : ℝ} {as bs : List ℝ} {x : ℝ × ℝ} (h : x ∈ pairs T D ca as bs) :
    ∃ b bs', bs = b :: bs' ∧ x.1 ∈ as ∧ x.2 = findnearest ((D - 3 / 2 * ca * x.1 * |x.1|) / T) b bs' := by
  cases bs with
  | nil => simp [pairs] at h
  | cons b bs' =>
    rw [pairs, List.mem_map] at h
    obtain ⟨a, ha, rfl⟩ := h
    exact ⟨b, bs', rfl, ha, rfl⟩

/-- **C123.**  A pair found from the polynomials solves both equations, provided that the second number belonging to the first one is not negative. -/
theorem pairs_solve (roots : List ℝ → List ℝ) (T D E ca cb : ℝ) (hT : T ≠ 0)
    (hA : Exact roots (coeffsA T D E ca cb 1 1)) (hB : Exact roots (coeffsB T D E ca cb 1 1)) (x : ℝ × ℝ)
    (hx : x ∈ pairs T D ca (candidatesA roots T D E ca cb false) (candidatesB roots T D E ca cb false))
    (hpos : 0 ≤ (D - 3 / 2 * ca * x.1 ^ 2) / T) :
    0 ≤ x.1 ∧ 0 ≤ x.2 ∧ 3 / 2 * ca * x.1 ^ 2 + x.2 * T = D ∧ 3 / 2 * cb * x.2 ^ 2 + x.1 * T = E := by
  obtain ⟨b, bs, hb, ha, hx2⟩ := mem_pairs hx
  obtain ⟨ha0, ha1⟩ := (mem_candidatesA roots T D E ca cb hA x.1).1 ha
  have e1 : (D - 3 / 2 * ca * x.1 * |x.1|) / T = (D - 3 / 2 * ca * x.1 ^ 2) / T := by
    rw [abs_of_nonneg ha0]; ring
  rw [e1] at hx2
  generalize hβ : (D - 3 / 2 * ca * x.1 ^ 2) / T = β at *
  have eD : 3 / 2 * ca * x.1 ^ 2 + β * T = D := by
    rw [← hβ, div_mul_cancel₀ _ hT]; ring
  have eE : 3 / 2 * cb * β ^ 2 + x.1 * T = E := by
    have hT2 : T ^ 2 ≠ 0 := pow_ne_zero 2 hT
    have : T ^ 2 * (3 / 2 * cb * β ^ 2 + x.1 * T) = T ^ 2 * E := by
      have e : D - 3 / 2 * ca * x.1 ^ 2 = β * T := by linarith
      rw [e] at ha1
      linear_combination ha1
    exact mul_left_cancel₀ hT2 this
  have hmem : β ∈ candidatesB roots T D E ca cb false := by
    rw [mem_candidatesB roots T D E ca cb hB]
    refine ⟨hpos, ?_⟩
    have e : E - 3 / 2 * cb * β ^ 2 = x.1 * T := by linarith
    rw [e]
    linear_combination T ^ 2 * eD
  rw [hb] at hmem
  obtain ⟨-, hmin⟩ := findnearest_spec β bs b
  have h0 := hmin β hmem
  rw [sub_self, abs_zero] at h0
  have : findnearest β b bs = β := by
    have := abs_nonpos_iff.1 h0
    linarith
  rw [this] at hx2
  exact ⟨ha0, by rw [hx2]; exact hpos, by rw [hx2]; exact eD, by rw [hx2]; exact eE⟩

/-- **C123.**  For every pair of arms which solves the equations, the list of solutions contains the pair. -/
theorem pairs_complete (roots : List ℝ → List ℝ) (T D E ca cb : ℝ) (hT : T ≠ 0)
    (hA : Exact roots (coeffsA T D E ca cb 1 1)) (hB : Exact roots (coeffsB T D E ca cb 1 1)) (a b : ℝ) (ha : 0 ≤ a) (hb : 0 ≤ b)
    (eD : 3 / 2 * ca * a ^ 2 + b * T = D) (eE : 3 / 2 * cb * b ^ 2 + a * T = E) :
    (a, b) ∈ pairs T D ca (candidatesA roots T D E ca cb false) (candidatesB roots T D E ca cb false) := by
  have hmA : a ∈ candidatesA roots T D E ca cb false := by
    rw [mem_candidatesA roots T D E ca cb hA]
    refine ⟨ha, ?_⟩
    have e : D - 3 / 2 * ca * a ^ 2 = b * T := by linarith
    rw [e]
    linear_combination T ^ 2 * eE
  have hmB : b ∈ candidatesB roots T D E ca cb false := by
    rw [mem_candidatesB roots T D E ca cb hB]
    refine ⟨hb, ?_⟩
    have e : E - 3 / 2 * cb * b ^ 2 = a * T := by linarith
    rw [e]
    linear_combination T ^ 2 * eD
  cases hl : candidatesB roots T D E ca cb false with
  | nil => rw [hl] at hmB; simp at hmB
  | cons y ys =>
    rw [pairs, List.mem_map]
    refine ⟨a, hmA, ?_⟩
    have e1 : (D - 3 / 2 * ca * a * |a|) / T = b := by
      rw [abs_of_nonneg ha, div_eq_iff hT]; linarith
    rw [e1]
    have h0 := (findnearest_spec b ys y).2 b (by rw [← hl]; exact hmB)
    rw [sub_self, abs_zero] at h0
    have := abs_nonpos_iff.1 h0
    rw [Prod.mk.injEq]
    exact ⟨rfl, by linarith⟩

/-! ## The order of the solutions -/

/-- Positive pairs come first, those with crossing arms before the others, shorter ones before longer ones. -/
def Before (ts x y : ℝ × ℝ) : Prop :=
  (Positive y → Positive x) ∧ (Positive x → Positive y → (Crossing ts y → Crossing ts x) ∧
    ((Crossing ts x ↔ Crossing ts y) → x.1 ^ 2 + x.2 ^ 2 ≤ y.1 ^ 2 + y.2 ^ 2))

theorem cmp_nonpos (x y : ℝ) : cmp x y ≤ 0 ↔ x ≤ y := by
  rw [cmp]
  by_cases h1 : x > y
  · rw [if_pos h1, if_neg (not_lt.2 (le_of_lt h1))]
    exact ⟨fun h => by norm_num at h, fun h => absurd h1 (not_lt.2 h)⟩
  · rw [if_neg h1]
    push Not at h1
    refine ⟨fun _ => h1, fun _ => ?_⟩
    split_ifs <;> norm_num

theorem mycmp_nonpos (ts x y : ℝ × ℝ) : mycmp ts x y ≤ 0 ↔ Before ts x y := by
  rw [mycmp, Before]
  by_cases hx : Positive x <;> by_cases hy : Positive y <;> simp only [hx, hy, and_self, and_true, true_and, and_false, false_and, not_true_eq_false,
    not_false_eq_true, if_true, if_false, forall_const, false_imp_iff, imp_false, true_imp_iff, IsEmpty.forall_iff, imp_self]
  · by_cases cx : Crossing ts x <;> by_cases cy : Crossing ts y <;> simp [cx, cy, cmp_nonpos]
  all_goals norm_num

theorem before_trans (ts x y z : ℝ × ℝ) (h1 : Before ts x y) (h2 : Before ts y z) : Before ts x z := by
  refine ⟨fun h => h1.1 (h2.1 h), fun hx hz => ?_⟩
  have hy := h2.1 hz
  obtain ⟨a1, b1⟩ := h1.2 hx hy
  obtain ⟨a2, b2⟩ := h2.2 hy hz
  refine ⟨fun h => a1 (a2 h), fun h => ?_⟩
  exact (b1 ⟨fun hc => a2 (h.1 hc), a1⟩).trans (b2 ⟨fun hc => h.1 (a1 hc), a2⟩)

theorem before_total (ts x y : ℝ × ℝ) : Before ts x y ∨ Before ts y x := by
  by_cases hx : Positive x <;> by_cases hy : Positive y
  · by_cases cx : Crossing ts x <;> by_cases cy : Crossing ts y
    · rcases le_total (x.1 ^ 2 + x.2 ^ 2) (y.1 ^ 2 + y.2 ^ 2) with h | h
      · exact Or.inl ⟨fun _ => hx, fun _ _ => ⟨fun _ => cx, fun _ => h⟩⟩
      · exact Or.inr ⟨fun _ => hy, fun _ _ => ⟨fun _ => cy, fun _ => h⟩⟩
    · exact Or.inl ⟨fun _ => hx, fun _ _ => ⟨fun _ => cx, fun h => absurd (h.1 cx) cy⟩⟩
    · exact Or.inr ⟨fun _ => hy, fun _ _ => ⟨fun _ => cy, fun h => absurd (h.1 cy) cx⟩⟩
    · rcases le_total (x.1 ^ 2 + x.2 ^ 2) (y.1 ^ 2 + y.2 ^ 2) with h | h
      · exact Or.inl ⟨fun _ => hx, fun _ _ => ⟨fun h => absurd h cy, fun _ => h⟩⟩
      · exact Or.inr ⟨fun _ => hy, fun _ _ => ⟨fun h => absurd h cx, fun _ => h⟩⟩
  · exact Or.inl ⟨fun _ => hx, fun _ h => absurd h hy⟩
  · exact Or.inr ⟨fun _ => hy, fun _ h => absurd h hx⟩
  · exact Or.inl ⟨fun h => absurd h hy, fun h => absurd h hx⟩

theorem sortSols_perm (ts : ℝ × ℝ) (l : List (ℝ × ℝ)) : (sortSols ts l).Perm l := List.mergeSort_perm _ _

/-- **C123.**  The first solution is the best one: it is positive if there is a positive one, its arms cross if those of a positive one do, and among these it is the shortest. -/
theorem first_solution (ts x : ℝ × ℝ) (l rest : List (ℝ × ℝ)) (h : sortSols ts l = x :: rest) : x ∈ l ∧ ∀ y ∈ l, Before ts x y := by
  have hp : (sortSols ts l).Perm l := List.mergeSort_perm _ _
  have hs : (sortSols ts l).Pairwise fun x y => decide (mycmp ts x y ≤ 0) = true :=
    List.pairwise_mergeSort (le := fun x y => decide (mycmp ts x y ≤ 0))
      (fun a b c h1 h2 => by
        simp only [decide_eq_true_eq, mycmp_nonpos] at *
        exact before_trans ts a b c h1 h2)
      (fun a b => by
        simp only [Bool.or_eq_true, decide_eq_true_eq, mycmp_nonpos]
        exact before_total ts a b) _
  rw [h] at hp hs
  refine ⟨hp.subset (by simp), fun y hy => ?_⟩
  rcases List.mem_cons.1 (hp.symm.subset hy) with rfl | hy
  · rcases before_total ts y y with h | h <;> exact h
  · have := (List.pairwise_cons.1 hs).1 y hy
    simpa [mycmp_nonpos] using this

/-! ## The function as a whole -/

/-- `T`, `D`, `E` (`deformer.py:237-239`). -/
def tT (tA tB : Pt) : ℝ := tA.1 * tB.2 - tA.2 * tB.1
def tD (A B tA : Pt) : ℝ := tA.1 * (B.2 - A.2) - tA.2 * (B.1 - A.1)
def tE (A B tB : Pt) : ℝ := tB.1 * (A.2 - B.2) - tB.2 * (A.1 - B.1)

theorem controldists_general (roots : List ℝ → List ℝ) (A B tA tB : Pt) (ca cb : ℝ) (neg : Bool) (eps : ℝ)
    (hT : eps ≤ |tT tA tB|) (ha : eps ≤ |ca|) (hb : eps ≤ |cb|) :
    controldists roots A B tA tB (.fin ca) (.fin cb) neg eps =
      .ok (generalDists roots A B tA tB (tT tA tB) (tD A B tA) (tE A B tB) ca cb neg) := by
  rw [controldists]
  have : testDivisions eps (tT tA tB) (tD A B tA) (tE A B tB) (hypot (A.1 - B.1) (A.2 - B.2)) (.fin ca) (.fin cb) = .ok [] := by
    rw [testDivisions, if_neg (not_lt.2 hT)]
    rw [if_neg (not_lt.2 ha), if_neg (not_lt.2 hb)]
  simp only [tT, tD, tE] at this ⊢
  rw [this]
  simp [Except.bind]

/-- **C123.**  If there are positive arms for which the curve has the given tangents and curvatures at its ends, and if for every first arm found the second
one is not negative, then the curve made from the first solution has these tangents and curvatures. -/
theorem endgeometry_partial (roots : List ℝ → List ℝ) (A B tA tB : Pt) (ca cb eps : ℝ) (hA : Unit2 tA) (hB : Unit2 tB) (he : 0 < eps)
    (hT : eps ≤ |tT tA tB|) (ha : eps ≤ |ca|) (hb : eps ≤ |cb|)
    (rA : Exact roots (coeffsA (tT tA tB) (tD A B tA) (tE A B tB) ca cb 1 1))
    (rB : Exact roots (coeffsB (tT tA tB) (tD A B tA) (tE A B tB) ca cb 1 1))
    (hex : ∃ a b, 0 < a ∧ 0 < b ∧ HasEnds (armCurve A B tA tB a b) A B tA tB ca cb)
    (hpos : ∀ a ∈ candidatesA roots (tT tA tB) (tD A B tA) (tE A B tB) ca cb false, 0 ≤ (tD A B tA - 3 / 2 * ca * a ^ 2) / tT tA tB) :
    ∃ a b rest, controldists roots A B tA tB (.fin ca) (.fin cb) false eps = .ok ((a, b) :: rest) ∧ 0 < a ∧ 0 < b ∧
      HasEnds (armCurve A B tA tB a b) A B tA tB ca cb := by
  have hT0 : tT tA tB ≠ 0 := fun e => by rw [e, abs_zero] at hT; linarith
  obtain ⟨a, b, ha0, hb0, hends⟩ := hex
  have heq := (arms_equations A B tA tB a b ca cb hA hB ha0 hb0).1 hends
  have hmem := pairs_complete roots (tT tA tB) (tD A B tA) (tE A B tB) ca cb hT0 rA rB a b ha0.le hb0.le heq.1 heq.2
  have hne : pairs (tT tA tB) (tD A B tA) ca (candidatesA roots (tT tA tB) (tD A B tA) (tE A B tB) ca cb false)
      (candidatesB roots (tT tA tB) (tD A B tA) (tE A B tB) ca cb false) ≠ [] := List.ne_nil_of_mem hmem
  rw [controldists_general roots A B tA tB ca cb false eps hT ha hb, generalDists]
  simp only [fallbacks, if_neg hne]
  cases hs : sortSols (crossAt A B tA tB) (pairs (tT tA tB) (tD A B tA) ca (candidatesA roots (tT tA tB) (tD A B tA) (tE A B tB) ca cb false)
      (candidatesB roots (tT tA tB) (tD A B tA) (tE A B tB) ca cb false)) with
  | nil =>
    have hp := sortSols_perm (crossAt A B tA tB) (pairs (tT tA tB) (tD A B tA) ca (candidatesA roots (tT tA tB) (tD A B tA) (tE A B tB) ca cb false)
      (candidatesB roots (tT tA tB) (tD A B tA) (tE A B tB) ca cb false))
    rw [hs] at hp
    exact absurd hp.symm.eq_nil hne
  | cons x rest =>
    obtain ⟨hx, hbest⟩ := first_solution _ _ _ _ hs
    have hp := (hbest (a, b) hmem).1 ⟨ha0, hb0⟩
    obtain ⟨b', bs', -, hxa, -⟩ := mem_pairs hx
    have hsol := pairs_solve roots (tT tA tB) (tD A B tA) (tE A B tB) ca cb hT0 rA rB x hx (hpos x.1 hxa)
    exact ⟨x.1, x.2, rest, rfl, hp.1, hp.2, (arms_equations A B tA tB x.1 x.2 ca cb hA hB hp.1 hp.2).2 hsol.2.2⟩

/-- A quarter of a turn with the curvature 2/3 at both ends: the arms are 1/4. -/
example (roots : List ℝ → List ℝ)
    (rA : Exact roots (coeffsA 1 (5 / 16) (5 / 16) (2 / 3) (2 / 3) 1 1)) (rB : Exact roots (coeffsB 1 (5 / 16) (5 / 16) (2 / 3) (2 / 3) 1 1)) :
    ∃ a b rest, controldists roots (0, 0) (5 / 16, 5 / 16) (1, 0) (0, 1) (.fin (2 / 3)) (.fin (2 / 3)) false (1 / 10 ^ 8) = .ok ((a, b) :: rest) ∧ 0 < a ∧ 0 < b ∧
      HasEnds (armCurve (0, 0) (5 / 16, 5 / 16) (1, 0) (0, 1) a b) (0, 0) (5 / 16, 5 / 16) (1, 0) (0, 1) (2 / 3) (2 / 3) := by
  have eT : tT (1, 0) (0, 1) = 1 := by norm_num [tT]
  have eD : tD (0, 0) (5 / 16, 5 / 16) (1, 0) = 5 / 16 := by norm_num [tD]
  have eE : tE (0, 0) (5 / 16, 5 / 16) (0, 1) = 5 / 16 := by norm_num [tE]
  refine endgeometry_partial roots _ _ _ _ _ _ _ (by norm_num [Unit2]) (by norm_num [Unit2]) (by norm_num) (by rw [eT]; norm_num) (by norm_num [abs_of_pos])
    (by norm_num [abs_of_pos]) (by rw [eT, eD, eE]; exact rA) (by rw [eT, eD, eE]; exact rB) ⟨1 / 4, 1 / 4, by norm_num, by norm_num, ?_⟩ ?_
  · rw [arms_equations _ _ _ _ _ _ _ _ (by norm_num [Unit2]) (by norm_num [Unit2]) (by norm_num) (by norm_num)]
    norm_num
  · intro a ha
    rw [eT, eD, eE, mem_candidatesA _ _ _ _ _ _ rA] at ha
    obtain ⟨h0, h1⟩ := ha
    have : (a - 1 / 4) * ((a + 5 / 4) * ((a - 1 / 2) ^ 2 + 7 / 16)) = 0 := by linear_combination h1
    rcases mul_eq_zero.1 this with h | h
    · rw [eT, eD, show a = 1 / 4 by linarith]
      norm_num
    · have : 0 < (a + 5 / 4) * ((a - 1 / 2) ^ 2 + 7 / 16) := by positivity
      linarith

/-- **C123.**  Without this condition the solution can be wrong: the list consists of a single pair of positive arms, and the curve made from it has neither of the two
curvatures. -/
theorem endgeometry_wrong (roots : List ℝ → List ℝ)
    (rA : Exact roots (coeffsA 1 (-2) (13 / 12) (-2 / 3) (1 / 18) 1 1)) (rB : Exact roots (coeffsB 1 (-2) (13 / 12) (-2 / 3) (1 / 18) 1 1)) :
    ∃ sols, controldists roots (0, 0) (13 / 12, -2) (1, 0) (0, 1) (.fin (-2 / 3)) (.fin (1 / 18)) false (1 / 10 ^ 8) = .ok sols ∧ sols ≠ [] ∧
      ∀ x ∈ sols, x = (1, 7) ∧ (Item.curve (armCurve (0, 0) (13 / 12, -2) (1, 0) (0, 1) x.1 x.2)).curvature 0 ≠ some (-2 / 3) ∧
        (Item.curve (armCurve (0, 0) (13 / 12, -2) (1, 0) (0, 1) x.1 x.2)).curvature 1 ≠ some (1 / 18) := by
  have eT : tT (1, 0) (0, 1) = 1 := by norm_num [tT]
  have eD : tD (0, 0) (13 / 12, -2) (1, 0) = -2 := by norm_num [tD]
  have eE : tE (0, 0) (13 / 12, -2) (0, 1) = 13 / 12 := by norm_num [tE]
  have memA : ∀ x, x ∈ candidatesA roots 1 (-2) (13 / 12) (-2 / 3) (1 / 18) false ↔ x = 1 := by
    intro x
    rw [mem_candidatesA _ _ _ _ _ _ rA]
    constructor
    · rintro ⟨h0, h1⟩
      have : (x - 1) * ((x + 3) * ((x - 1) ^ 2 + 2)) = 0 := by linear_combination 12 * h1
      rcases mul_eq_zero.1 this with h | h
      · linarith
      · have : 0 < (x + 3) * ((x - 1) ^ 2 + 2) := by positivity
        linarith
    · rintro rfl
      norm_num
  have memB : ∀ x, x ∈ candidatesB roots 1 (-2) (13 / 12) (-2 / 3) (1 / 18) false ↔ x = 7 := by
    intro x
    rw [mem_candidatesB _ _ _ _ _ _ rB]
    constructor
    · rintro ⟨h0, h1⟩
      have : (x - 7) * ((x + 1) * ((x + 3) ^ 2 + 8)) = 0 := by linear_combination (-144) * h1
      rcases mul_eq_zero.1 this with h | h
      · linarith
      · have : 0 < (x + 1) * ((x + 3) ^ 2 + 8) := by positivity
        linarith
    · rintro rfl
      norm_num
  have hne : pairs 1 (-2) (-2 / 3) (candidatesA roots 1 (-2) (13 / 12) (-2 / 3) (1 / 18) false)
      (candidatesB roots 1 (-2) (13 / 12) (-2 / 3) (1 / 18) false) ≠ [] := by
    cases hb : candidatesB roots 1 (-2) (13 / 12) (-2 / 3) (1 / 18) false with
    | nil => have := (memB 7).2 rfl; rw [hb] at this; simp at this
    | cons b bs =>
      rw [pairs]
      intro h
      have h1 := (memA 1).2 rfl
      rw [List.map_eq_nil_iff] at h
      rw [h] at h1
      simp at h1
  have hg := controldists_general roots (0, 0) (13 / 12, -2) (1, 0) (0, 1) (-2 / 3) (1 / 18) false (1 / 10 ^ 8) (by rw [eT]; norm_num)
    (by norm_num [abs_of_neg, abs_of_pos]) (by norm_num [abs_of_neg, abs_of_pos])
  rw [eT, eD, eE] at hg
  refine ⟨_, hg, ?_, ?_⟩
  · rw [generalDists]
    simp only [fallbacks, if_neg hne]
    intro h
    have hp := sortSols_perm (crossAt (0, 0) (13 / 12, -2) (1, 0) (0, 1)) (pairs 1 (-2) (-2 / 3) (candidatesA roots 1 (-2) (13 / 12) (-2 / 3) (1 / 18) false)
      (candidatesB roots 1 (-2) (13 / 12) (-2 / 3) (1 / 18) false))
    rw [h] at hp
    exact hne hp.symm.eq_nil
  · intro x hx
    rw [generalDists] at hx
    simp only [fallbacks, if_neg hne] at hx
    obtain ⟨b, bs, hb, hxa, hxb⟩ := mem_pairs ((sortSols_perm _ _).subset hx)
    have e1 := (memA x.1).1 hxa
    have e2 : x.2 = 7 := by
      rw [← memB, hb, hxb]
      exact (findnearest_spec _ _ _).1
    have ex : x = (1, 7) := Prod.ext e1 e2
    subst ex
    refine ⟨rfl, ?_, ?_⟩
    · rw [Ne, arm_curvature _ _ _ _ _ _ (by norm_num [Unit2]) (by norm_num)]
      norm_num
    · rw [Ne, arm_curvature_end _ _ _ _ _ _ (by norm_num [Unit2]) (by norm_num)]
      norm_num

/-- **C123.**  For parallel tangents and a line at one of the ends, the deformation fails with an `AssertionError` if the line does not run through the other end. -/
theorem endgeometry_assertion (roots : List ℝ → List ℝ) (A B t : Pt) (cB : Curv) (neg : Bool) (eps : ℝ) (he : 0 < eps) (hD : 1 / 10 ^ 10 ≤ |tD A B t|) :
    controldists roots A B t t (.fin 0) cB neg eps = .error .assertion := by
  unfold controldists
  have h1 : |t.1 * t.2 - t.2 * t.1| < eps := by
    rw [show t.1 * t.2 - t.2 * t.1 = 0 by ring, abs_zero]; exact he
  simp only [testDivisions]
  rw [if_pos h1, parallelArm, abs_zero, if_pos he]
  rw [tD] at hD
  rw [if_neg (not_lt.2 hD)]
  rfl

theorem rootArm_eq (X c : ℝ) (hc : c ≠ 0) : 3 / 2 * c * (rootArm X c * |rootArm X c|) = X := by
  have hs : sign (X * c) * |sign (X * c)| = sign (X * c) ∧ |X * c| = X * c * sign (X * c) := by
    rw [sign]
    by_cases h : X * c ≥ 0
    · rw [if_pos h, abs_of_nonneg h]; norm_num
    · rw [if_neg h, abs_of_neg (not_le.mp h)]; norm_num
  have hq : rootArm X c * |rootArm X c| = |X / (3 / 2 * c)| * sign (X * c) := by
    rw [rootArm, abs_mul, abs_of_nonneg (Real.sqrt_nonneg _)]
    have := Real.mul_self_sqrt (abs_nonneg (X / (3 / 2 * c)))
    calc _ = (Real.sqrt |X / (3 / 2 * c)| * Real.sqrt |X / (3 / 2 * c)|) * (sign (X * c) * |sign (X * c)|) := by ring
      _ = _ := by rw [this, hs.1]
  have h2 : |X / (3 / 2 * c)| = |X * c| / (3 / 2 * c ^ 2) := by
    rw [show X / (3 / 2 * c) = X * c / (3 / 2 * c ^ 2) by field_simp, abs_div, abs_of_pos (by positivity : (0:ℝ) < 3 / 2 * c ^ 2)]
  rw [hq, h2, hs.2]
  have h3 : sign (X * c) * sign (X * c) = 1 := by
    rw [sign]; split_ifs <;> norm_num
  generalize sign (X * c) = g at h3 ⊢
  field_simp
  linear_combination X * h3

/-- **C123.**  For parallel tangents and curvatures which do not vanish the only solution is the one with the given curvatures: if both arms are positive, the curve has
the given points, tangents and curvatures at its ends. -/
theorem endgeometry_parallel (roots : List ℝ → List ℝ) (A B t : Pt) (ca cb : ℝ) (neg : Bool) (eps : ℝ) (ht : Unit2 t) (he : 0 < eps) (ha : eps ≤ |ca|) (hb : eps ≤ |cb|) :
    ∃ a b, controldists roots A B t t (.fin ca) (.fin cb) neg eps = .ok [(a, b)] ∧ 3 / 2 * ca * (a * |a|) = tD A B t ∧ 3 / 2 * cb * (b * |b|) = tE A B t ∧
      (0 < a → 0 < b → HasEnds (armCurve A B t t a b) A B t t ca cb) := by
  have h1 : |t.1 * t.2 - t.2 * t.1| < eps := by
    rw [show t.1 * t.2 - t.2 * t.1 = 0 by ring, abs_zero]; exact he
  have hca : ca ≠ 0 := by rintro rfl; rw [abs_zero] at ha; linarith
  have hcb : cb ≠ 0 := by rintro rfl; rw [abs_zero] at hb; linarith
  have e1 := rootArm_eq (tD A B t) ca hca
  have e2 := rootArm_eq (tE A B t) cb hcb
  refine ⟨rootArm (tD A B t) ca, rootArm (tE A B t) cb, ?_, e1, e2, fun p1 p2 => ?_⟩
  · unfold controldists
    simp only [testDivisions]
    rw [if_pos h1, parallelArm, parallelArm, if_neg (not_lt.2 ha), if_neg (not_lt.2 hb)]
    rfl
  · rw [arms_equations A B t t _ _ ca cb ht ht p1 p2]
    rw [abs_of_pos p1] at e1
    rw [abs_of_pos p2] at e2
    rw [tD] at e1
    rw [tE] at e2
    rw [tD, tE]
    generalize rootArm _ ca = a at e1 ⊢
    generalize rootArm _ cb = b at e2 ⊢
    constructor
    · linear_combination e1
    · linear_combination e2

/-- An S-shaped curve from (0, 0) to (2, 3/2) with horizontal tangents. -/
example (roots : List ℝ → List ℝ) : ∃ a b, controldists roots (0, 0) (2, 3 / 2) (1, 0) (1, 0) (.fin 1) (.fin (-1)) false (1 / 10 ^ 8) = .ok [(a, b)] ∧ a * |a| = 1 ∧ b * |b| = 1 := by
  obtain ⟨a, b, h1, h2, h3, -⟩ := endgeometry_parallel roots (0, 0) (2, 3 / 2) (1, 0) 1 (-1) false (1 / 10 ^ 8) (by norm_num [Unit2]) (by norm_num) (by norm_num) (by norm_num)
  refine ⟨a, b, h1, ?_, ?_⟩
  · norm_num [tD] at h2; linarith
  · norm_num [tE] at h3; linarith

/-- A line to the right, and one unit further up a curve which runs to the right. -/
example (roots : List ℝ → List ℝ) (c : ℝ) : genericCorner roots false (1 / 10 ^ 5) (0, 0) (1, 1) (1, 0) (1, 0) 0 c = .error .assertion := by
  rw [genericCorner]
  simp only [askedCurv, Bool.false_eq_true, if_false, abs_zero, mul_zero]
  rw [endgeometry_assertion roots (0, 0) (1, 1) (1, 0) _ false _ (by norm_num) (by norm_num [tD])]
  rfl

/-! ## Curvature zero at one of the ends -/

/-- **C123.**  If one of the curvatures is zero, the arms solve the equations without polynomials. -/
theorem endgeometry_line (roots : List ℝ → List ℝ) (A B tA tB : Pt) (c eps : ℝ) (neg : Bool) (hA : Unit2 tA) (hB : Unit2 tB) (he : 0 < eps)
    (hT : eps ≤ |tT tA tB|) :
    (∃ a b, controldists roots A B tA tB (.fin 0) (.fin c) neg eps = .ok [(a, b)] ∧
      (0 < a → 0 < b → HasEnds (armCurve A B tA tB a b) A B tA tB 0 c)) ∧
    (eps ≤ |c| → ∃ a b, controldists roots A B tA tB (.fin c) (.fin 0) neg eps = .ok [(a, b)] ∧
      (0 < a → 0 < b → HasEnds (armCurve A B tA tB a b) A B tA tB c 0)) := by
  have hT0 : tT tA tB ≠ 0 := fun e => by rw [e, abs_zero] at hT; linarith
  constructor
  · refine ⟨(tE A B tB - 3 / 2 * c * (tD A B tA / tT tA tB) * |tD A B tA / tT tA tB|) / tT tA tB, tD A B tA / tT tA tB, ?_, ?_⟩
    · rw [controldists]
      have : testDivisions eps (tT tA tB) (tD A B tA) (tE A B tB) (hypot (A.1 - B.1) (A.2 - B.2)) (.fin 0) (.fin c) =
          .ok [((tE A B tB - 3 / 2 * c * (tD A B tA / tT tA tB) * |tD A B tA / tT tA tB|) / tT tA tB, tD A B tA / tT tA tB)] := by
        rw [testDivisions, if_neg (not_lt.2 hT)]
        rw [abs_zero, if_pos he]
      simp only [tT, tD, tE] at this ⊢
      rw [this]
      simp [Except.bind]
    · intro ha hb
      rw [arms_equations A B tA tB _ _ 0 c hA hB ha hb]
      rw [abs_of_pos hb]
      change 3 / 2 * 0 * _ ^ 2 + _ * tT tA tB = tD A B tA ∧ _ + _ * tT tA tB = tE A B tB
      constructor
      · rw [div_mul_cancel₀ _ hT0]; ring
      · rw [div_mul_cancel₀ _ hT0]; ring
  · intro hc
    refine ⟨tE A B tB / tT tA tB, (tD A B tA - 3 / 2 * c * (tE A B tB / tT tA tB) * |tE A B tB / tT tA tB|) / tT tA tB, ?_, ?_⟩
    · rw [controldists]
      have : testDivisions eps (tT tA tB) (tD A B tA) (tE A B tB) (hypot (A.1 - B.1) (A.2 - B.2)) (.fin c) (.fin 0) =
          .ok [(tE A B tB / tT tA tB, (tD A B tA - 3 / 2 * c * (tE A B tB / tT tA tB) * |tE A B tB / tT tA tB|) / tT tA tB)] := by
        rw [testDivisions, if_neg (not_lt.2 hT)]
        rw [if_neg (not_lt.2 hc), abs_zero, if_pos he]
      simp only [tT, tD, tE] at this ⊢
      rw [this]
      simp [Except.bind]
    · intro ha hb
      rw [arms_equations A B tA tB _ _ c 0 hA hB ha hb]
      rw [abs_of_pos ha]
      change _ + _ * tT tA tB = tD A B tA ∧ 3 / 2 * 0 * _ ^ 2 + _ * tT tA tB = tE A B tB
      constructor
      · rw [div_mul_cancel₀ _ hT0]; ring
      · rw [div_mul_cancel₀ _ hT0]; ring

end

end PyX.Deform
