import Verif.NormPath.ArclenParam

/-!
# Arc lengths at given parameters of curves (`pyx/normpath.py:584-588`) and C119
-/

set_option linter.unusedSectionVars false

namespace PyX.NormPath.ByLength

noncomputable section

/-! ## Model -/

/-- `[segment.arclen_pt(epsilon) for segment in self.segments([0] + list(params) + [1])]` (`normpath.py:585`); `ts` are the parameters after the first one.  The
first argument bounds the depth of the recursion in `arclen_pt`. -/
def segLens (n : ℕ) (c : Curve ℝ) (eps t : ℝ) (ts : List ℝ) : Option (List ℝ) := (c.segmentsFrom t ts).mapM fun a => a.arclen n eps false

/-- `for i in range(1, len(arclens_pt)): arclens_pt[i] += arclens_pt[i-1]` (`normpath.py:586-587`). -/
def running (acc : ℝ) : List ℝ → List ℝ
  | [] => []
  | x :: xs => (acc + x) :: running (acc + x) xs

/-- `normcurve_pt._paramtoarclen_pt` (`normpath.py:584-588`): the arc lengths and the total arc length. -/
def toArclens (n : ℕ) (c : Curve ℝ) (params : List ℝ) (eps : ℝ) : Option (List ℝ × ℝ) :=
  (segLens n c eps 0 (params ++ [1])).map fun ls => ((running 0 ls).dropLast, (running 0 ls).getLastD 0)

/-! ## C119 -/

theorem arclen_lower (n : ℕ) (c : Curve ℝ) (eps l : ℝ) (h : c.arclen n eps false = some l) : 0 ≤ l ∧ l ≤ upto c 1 ∧ upto c 1 - l < 2 * eps := by
  obtain ⟨u, hu⟩ := upper_some _ _ _ _ h
  obtain ⟨h1, h2, h3, h4, h5⟩ := arclen_bounds n c _ l u h hu
  rw [← upto_one] at h3 h4
  have h6 := (ENNReal.ofReal_le_ofReal_iff ENNReal.toReal_nonneg).mp h3
  have h7 := (ENNReal.ofReal_le_ofReal_iff (h1.trans h2)).mp h4
  exact ⟨h1, h6, by linarith⟩

/-- The length up to a parameter increases by the length of the segment. -/
theorem upto_segment (c : Curve ℝ) (t t' : ℝ) (h0 : 0 ≤ t) (h1 : t' ≤ 1) (htt : t ≤ t') : upto c t' = upto c t + upto (c.segment t t') 1 := by
  have hl := length_traces _ _ _ _ (segment_traces c t t') htt
  have hadd := variation_add (Item.curve c) 0 t t' h0 htt
  have e : upto (c.segment t t') 1 = (eVariationOn (Item.curve c).cpoint (Set.Icc t t')).toReal := by
    rw [← hl]; rfl
  rw [e]
  unfold upto
  rw [← hadd, ENNReal.toReal_add (variation_finite c 0 t le_rfl (htt.trans h1) h0) (variation_finite c t t' h0 h1 htt)]

theorem running_length (xs : List ℝ) : ∀ acc, (running acc xs).length = xs.length := by
  induction xs with
  | nil => intro acc; rfl
  | cons x xs ih => intro acc; simp [running, ih]

/-- Increasing parameters between 0 and 1. -/
def Ascending (t : ℝ) : List ℝ → Prop
  | [] => True
  | t' :: ts => t ≤ t' ∧ t' ≤ 1 ∧ Ascending t' ts

theorem segLens_cons {n : ℕ} {c : Curve ℝ} {eps t t' : ℝ} {ts ls : List ℝ} (h : segLens n c eps t (t' :: ts) = some ls) :
    ∃ l ls', (c.segment t t').arclen n eps false = some l ∧ segLens n c eps t' ts = some ls' ∧ ls = l :: ls' := by
  unfold segLens at h
  simp only [Curve.segmentsFrom, List.mapM_cons, bind, Option.bind_eq_some_iff, pure] at h
  obtain ⟨l, hl, ls', hls, h⟩ := h
  exact ⟨l, ls', hl, hls, by simpa using h.symm⟩

theorem running_bounds (n : ℕ) (c : Curve ℝ) (eps : ℝ) (ts : List ℝ) : ∀ (t acc B : ℝ) (ls : List ℝ), segLens n c eps t ts = some ls → 0 ≤ t → Ascending t ts →
    0 ≤ upto c t - acc → upto c t - acc ≤ B → ls.length = ts.length ∧
    ∀ i (h : i < ts.length) (h' : i < (running acc ls).length), 0 ≤ upto c ts[i] - (running acc ls)[i] ∧ upto c ts[i] - (running acc ls)[i] < B + 2 * eps * (i + 1) := by
  induction ts with
  | nil =>
    intro t acc B ls h _ _ _ _
    simp only [segLens, Curve.segmentsFrom, List.mapM_nil, pure, Option.some.injEq] at h
    subst h
    exact ⟨rfl, fun i h => absurd h (by simp)⟩
  | cons t' ts ih =>
    intro t acc B ls h h0 hasc hlo hhi
    obtain ⟨l, ls', hl, hls, rfl⟩ := segLens_cons h
    obtain ⟨htt, h1, hasc'⟩ := hasc
    obtain ⟨k1, k2, k3⟩ := arclen_lower _ _ _ _ hl
    have hs := upto_segment c t t' h0 h1 htt
    have hlo' : 0 ≤ upto c t' - (acc + l) := by linarith
    obtain ⟨m1, m2⟩ := ih t' (acc + l) (B + 2 * eps) ls' hls (by linarith) hasc' hlo' (by linarith)
    refine ⟨by simp [m1], fun i hi hi' => ?_⟩
    cases i with
    | zero =>
      simp only [running, List.getElem_cons_zero]
      exact ⟨hlo', by push_cast; linarith⟩
    | succ i =>
      simp only [running, List.getElem_cons_succ]
      obtain ⟨q1, q2⟩ := m2 i (by simpa using hi) (by simpa [running] using hi')
      refine ⟨q1, ?_⟩
      push_cast
      linarith

theorem ascending_append (ts : List ℝ) : ∀ t, Ascending t ts → t ≤ 1 → Ascending t (ts ++ [1]) := by
  induction ts with
  | nil => intro t _ h; exact ⟨h, le_rfl, trivial⟩
  | cons t' ts ih => intro t h _; exact ⟨h.1, h.2.1, ih t' h.2.2 h.2.1⟩

theorem upto_zero (c : Curve ℝ) : upto c 0 = 0 := by
  have h1 := upto_le c 0 le_rfl zero_le_one
  rw [bound_zero] at h1
  exact le_antisymm h1 ENNReal.toReal_nonneg

/-- **C119_partial.**  For increasing parameters between 0 and 1, each arc length returned is a lower bound of the length of the curve up to the parameter, and so is the total
arc length; the deviation is less than twice the precision for each segment in between.  What is missing: the parameters need to be in increasing order. -/
theorem toArclens_accurate_partial (n : ℕ) (c : Curve ℝ) (params : List ℝ) (eps : ℝ) (rs : List ℝ) (total : ℝ) (h : toArclens n c params eps = some (rs, total))
    (hasc : Ascending 0 params) : ∃ hl : rs.length = params.length,
      (∀ i (hi : i < params.length), 0 ≤ upto c params[i] - rs[i] ∧ upto c params[i] - rs[i] < 2 * eps * (i + 1)) ∧
      0 ≤ upto c 1 - total ∧ upto c 1 - total < 2 * eps * (params.length + 1) := by
  unfold toArclens at h
  obtain ⟨ls, hls, h⟩ := Option.map_eq_some_iff.mp h
  simp only [Prod.mk.injEq] at h
  obtain ⟨rfl, rfl⟩ := h
  have hasc' := ascending_append params 0 hasc zero_le_one
  obtain ⟨m1, m2⟩ := running_bounds n c eps _ 0 0 0 ls hls le_rfl hasc' (by rw [upto_zero]; norm_num) (by rw [upto_zero]; norm_num)
  simp only [List.length_append, List.length_cons, List.length_nil, zero_add] at m1 m2
  have hrun : (running 0 ls).length = params.length + 1 := by rw [running_length, m1]
  have hl : (running 0 ls).dropLast.length = params.length := by rw [List.length_dropLast, hrun]; omega
  refine ⟨hl, fun i hi => ?_, ?_⟩
  · have := m2 i (by omega) (by omega)
    rw [List.getElem_append_left hi] at this
    simpa using this
  · have := m2 params.length (by omega) (by omega)
    rw [List.getElem_append_right le_rfl] at this
    have e : (running 0 ls).getLastD 0 = (running 0 ls)[params.length]'(by omega) := by
      have hi : (running 0 ls).length - 1 = params.length := by omega
      rw [List.getLastD_eq_getLast?, List.getLast?_eq_getElem?, hi, List.getElem?_eq_getElem (by omega)]
      rfl
    rw [e]
    simpa using this

/-- A single parameter. -/
theorem toArclens_single (n : ℕ) (c : Curve ℝ) (t eps : ℝ) (rs : List ℝ) (total : ℝ) (h : toArclens n c [t] eps = some (rs, total)) (h0 : 0 ≤ t) (h1 : t ≤ 1) :
    ∃ r, rs = [r] ∧ r ≤ upto c t ∧ upto c t - r < 2 * eps := by
  obtain ⟨hl, h, _⟩ := toArclens_accurate_partial n c [t] eps rs total h ⟨h0, h1, trivial⟩
  match rs, hl with
  | [r], _ =>
    have := h 0 (by simp)
    simp only [List.getElem_cons_zero, CharP.cast_eq_zero, zero_add, mul_one] at this
    exact ⟨r, rfl, by linarith [this.1], this.2⟩

/-- The arc lengths are computed. -/
theorem toArclens_total (c : Curve ℝ) (params : List ℝ) (eps : ℝ) (heps : 0 < eps) : ∃ n r, toArclens n c params eps = some r := by
  have key : ∀ (ts : List ℝ) (t : ℝ), ∃ n, ∀ m ≥ n, ∃ ls, segLens m c eps t ts = some ls := by
    intro ts
    induction ts with
    | nil => intro t; exact ⟨0, fun m _ => ⟨[], rfl⟩⟩
    | cons t' ts ih =>
      intro t
      obtain ⟨n, hn⟩ := ih t'
      obtain ⟨k, lo, hi, hk, _⟩ := arclen_accurate (c.segment t t') eps heps
      refine ⟨max n k, fun m hm => ?_⟩
      obtain ⟨ls, hls⟩ := hn m (le_trans (le_max_left _ _) hm)
      have := (hk m (le_trans (le_max_right _ _) hm)).1
      refine ⟨lo :: ls, ?_⟩
      unfold segLens at hls ⊢
      simp only [Curve.segmentsFrom, List.mapM_cons, bind, Option.bind_eq_some_iff, pure]
      exact ⟨lo, this, ls, hls, rfl⟩
  obtain ⟨n, hn⟩ := key (params ++ [1]) 0
  obtain ⟨ls, hls⟩ := hn n le_rfl
  exact ⟨n, _, by unfold toArclens; rw [hls]; rfl⟩

/-! ## Unordered parameters -/

/-- The straight line from (0, 0) to (3, 0) as a curve. -/
def straight : Curve ℝ := ⟨0, 0, 1, 0, 2, 0, 3, 0⟩

theorem straight_segment (t t' : ℝ) : straight.segment t t' = ⟨3 * t, 0, 3 * t + (t' - t), 0, 3 * t + 2 * (t' - t), 0, 3 * t', 0⟩ := by
  simp only [straight, Curve.segment, Curve.segCoord, Curve.mk.injEq]
  refine ⟨?_, ?_, ?_, ?_, ?_, ?_, ?_, ?_⟩ <;> ring

theorem hypot_x_abs (x : ℝ) : hypot x 0 = |x| := by
  unfold hypot
  rw [show x ^ 2 + 0 ^ 2 = x ^ 2 by ring, Real.sqrt_sq_eq_abs]

theorem straight_arclen (t t' eps : ℝ) (heps : 0 < eps) : (straight.segment t t').arclen 1 eps false = some (3 * |t' - t|) := by
  have e : ∀ x d, (⟨x, 0, x + d, 0, x + 2 * d, 0, x + 3 * d, 0⟩ : Curve ℝ).arclen 1 eps false = some (3 * |d|) := by
    intro x d
    have ha : ((⟨x, 0, x + d, 0, x + 2 * d, 0, x + 3 * d, 0⟩ : Curve ℝ).split (1 / 2)).1 = ⟨x, 0, x + 1 / 2 * d, 0, x + d, 0, x + 3 / 2 * d, 0⟩ := by
      simp only [Curve.split, Curve.mk.injEq]
      refine ⟨?_, ?_, ?_, ?_, ?_, ?_, ?_, ?_⟩ <;> first | trivial | ring1
    have hb : ((⟨x, 0, x + d, 0, x + 2 * d, 0, x + 3 * d, 0⟩ : Curve ℝ).split (1 / 2)).2 =
        ⟨x + 3 / 2 * d, 0, x + 2 * d, 0, x + 5 / 2 * d, 0, x + 3 * d, 0⟩ := by
      simp only [Curve.split, Curve.mk.injEq]
      refine ⟨?_, ?_, ?_, ?_, ?_, ?_, ?_, ?_⟩ <;> first | trivial | ring1
    have hh : ∀ z, half 0 (⟨z, 0, z + 1 / 2 * d, 0, z + d, 0, z + 3 / 2 * d, 0⟩ : Curve ℝ) eps false = some (3 / 2 * |d|) := by
      intro z
      have p : (⟨z, 0, z + 1 / 2 * d, 0, z + d, 0, z + 3 / 2 * d, 0⟩ : Curve ℝ).polygon = 3 / 2 * |d| := by
        unfold Curve.polygon
        simp only [sub_zero, hypot_x_abs]
        rw [show z + 1 / 2 * d - z = 1 / 2 * d by ring, show z + d - (z + 1 / 2 * d) = 1 / 2 * d by ring, show z + 3 / 2 * d - (z + d) = 1 / 2 * d by ring,
          abs_mul, abs_of_pos (by norm_num : (0 : ℝ) < 1 / 2)]
        ring
      have q : (⟨z, 0, z + 1 / 2 * d, 0, z + d, 0, z + 3 / 2 * d, 0⟩ : Curve ℝ).chord = 3 / 2 * |d| := by
        unfold Curve.chord
        simp only [sub_zero, hypot_x_abs]
        rw [show z + 3 / 2 * d - z = 3 / 2 * d by ring, abs_mul, abs_of_pos (by norm_num : (0 : ℝ) < 3 / 2)]
      unfold half
      rw [if_pos (by rw [p, q]; linarith), lineArclen_chord, q]
    rw [arclen_succ, ha, hb, hh]
    have := hh (x + 3 / 2 * d)
    rw [show x + 3 / 2 * d + 1 / 2 * d = x + 2 * d by ring, show x + 3 / 2 * d + d = x + 5 / 2 * d by ring,
      show x + 3 / 2 * d + 3 / 2 * d = x + 3 * d by ring] at this
    rw [this]
    simp only [Option.bind_some, Option.some.injEq]
    ring
  rw [straight_segment]
  have := e (3 * t) (t' - t)
  rw [show 3 * t + 3 * (t' - t) = 3 * t' by ring] at this
  exact this

/-- **C119 is false.**  The arc lengths of the parameters 2/3 and 1/3 of a straight curve of length 3 are 2 and 1; asked for in this order, 2 and 3 are returned, and
5 as the total length, which is added to the arc lengths of all parameters of later path items.  Asked for in increasing order, all are right. -/
theorem toArclens_false (eps : ℝ) (heps : 0 < eps) : toArclens 1 straight [2 / 3, 1 / 3] eps = some ([2, 3], 5) ∧
    toArclens 1 straight [1 / 3, 2 / 3] eps = some ([1, 2], 3) := by
  have h := fun t t' => straight_arclen t t' eps heps
  constructor
  · unfold toArclens segLens
    simp only [List.cons_append, List.nil_append, Curve.segmentsFrom, List.mapM_cons, List.mapM_nil, h, bind, pure, Option.bind_some, Option.map_some, running,
      Option.some.injEq, Prod.mk.injEq, List.dropLast, List.cons.injEq]
    rw [abs_of_pos (by norm_num : (0 : ℝ) < 2 / 3 - 0), abs_of_neg (by norm_num : (1 / 3 : ℝ) - 2 / 3 < 0), abs_of_pos (by norm_num : (0 : ℝ) < 1 - 1 / 3)]
    norm_num
  · unfold toArclens segLens
    simp only [List.cons_append, List.nil_append, Curve.segmentsFrom, List.mapM_cons, List.mapM_nil, h, bind, pure, Option.bind_some, Option.map_some, running,
      Option.some.injEq, Prod.mk.injEq, List.dropLast, List.cons.injEq]
    rw [abs_of_pos (by norm_num : (0 : ℝ) < 1 / 3 - 0), abs_of_pos (by norm_num : (0 : ℝ) < 2 / 3 - 1 / 3), abs_of_pos (by norm_num : (0 : ℝ) < 1 - 2 / 3)]
    norm_num

/-- The hypotheses of `toArclens_accurate_partial` hold. -/
example : toArclens 1 straight [1 / 3, 2 / 3] (1 / 100) = some ([1, 2], 3) ∧ Ascending 0 [1 / 3, 2 / 3] :=
  ⟨(toArclens_false _ (by norm_num)).2, by norm_num [Ascending]⟩

end

end PyX.NormPath.ByLength
