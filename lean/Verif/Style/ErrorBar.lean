import Verif.Style.LineProps

/-!
# C104: error bars are cut at the boundary of the graph: model of `errorbar.drawpoint` (`graph/style.py:759-799`) and properties

`vpos` and `vrange` are the shared data of the styles `pos` and `range`: a position per dimension and the two ends of the range per dimension, each of which may be missing.
-/

set_option linter.unusedSectionVars false

namespace PyX.Style

variable {K : Type*} [Field K] [LinearOrder K] [IsStrictOrderedRing K] {n : ℕ}

/-! ## Model -/

/-- What is stroked: a geodesic between two points, or the cap for a coordinate at a point (`style.py:792-799`). -/
inductive Stroke (K : Type*) (n : ℕ) where
  | line (a b : Fin n → Option K)
  | cap (j : Fin n) (p : Fin n → Option K)

/-- Not taken by `break` (`style.py:763-766`). -/
def within (eps : K) : Option K → Bool
  | none => false
  | some v => !(decide (v < -eps) || decide (1 + eps < v))

/-- The end of the bar, and whether it gets a cap: the range if it is given, otherwise the position (`style.py:772-777, 783-788`). -/
def endOf (r pos : Option K) : Option (K × Bool) := (r.map fun v => (v, true)).or (pos.map fun v => (v, false))

/-- `vminpos[i]` and `mincap` (`style.py:772-782`), `none`: `continue`. -/
def minEnd (eps : K) (r pos : Option K) : Option (K × Bool) :=
  (endOf r pos).bind fun x => if 1 + eps < x.1 then none else if x.1 < -eps then some (0, false) else some x

/-- `vmaxpos[i]` and `maxcap` (`style.py:783-791`), `none`: `continue`. -/
def maxEnd (eps : K) (r pos : Option K) : Option (K × Bool) :=
  (endOf r pos).bind fun x => if x.1 < -eps then none else if 1 + eps < x.1 then some (1, false) else some x

/-- One dimension (`style.py:761-799`). -/
def errorDim (eps : K) (vpos : Fin n → Option K) (vrange : Fin n → Option K × Option K) (i : Fin n) : List (Stroke K n) :=
  if (List.finRange n).any fun j => decide (i ≠ j) && !within eps (vpos j) then []
  else if ((vrange i).1 = none ∧ vpos i = none) ∨ ((vrange i).2 = none ∧ vpos i = none) ∨ ((vrange i).1 = none ∧ (vrange i).2 = none) then []
  else
    match minEnd eps (vrange i).1 (vpos i), maxEnd eps (vrange i).2 (vpos i) with
    | some lo, some hi =>
      .line (Function.update vpos i (some lo.1)) (Function.update vpos i (some hi.1)) ::
        (List.finRange n).flatMap fun j =>
          if i ≠ j then
            (if lo.2 then [.cap j (Function.update vpos i (some lo.1))] else []) ++ (if hi.2 then [.cap j (Function.update vpos i (some hi.1))] else [])
          else []
    | _, _ => []

/-- `errorbar.drawpoint` (`style.py:759-799`). -/
def errorbar (eps : K) (vpos : Fin n → Option K) (vrange : Fin n → Option K × Option K) : List (Stroke K n) :=
  (List.finRange n).flatMap (errorDim eps vpos vrange)

/-! ## Specification -/

/-- Not outside by no more than the tolerance. -/
def ClearAt (eps x : K) : Prop := (x < 0 → x < -eps) ∧ (1 < x → 1 + eps < x)

/-- The strokes of a bar, of which the part from `a` to `b` is inside: the line, and for every other coordinate a cap at those ends which are wanted. -/
def strokes (i : Fin n) (capA capB : Prop) [Decidable capA] [Decidable capB] : Option (VPos K n × VPos K n) → List (Stroke K n)
  | none => []
  | some (a, b) => .line (some ∘ a) (some ∘ b) :: ((List.finRange n).filter fun j => j ≠ i).flatMap fun j =>
      (if capA then [.cap j (some ∘ a)] else []) ++ (if capB then [.cap j (some ∘ b)] else [])

/-! ## Proofs -/

theorem at_update (p : VPos K n) (i : Fin n) (lo hi t : K) : at_ (Function.update p i lo) (Function.update p i hi) t = Function.update p i ((1 - t) * lo + t * hi) := by
  funext j
  by_cases h : j = i
  · subst h; simp [at_]
  · simp only [at_, Function.update_of_ne h]; ring

theorem inside_update (p : VPos K n) (i : Fin n) (x : K) : Inside (Function.update p i x) ↔ (0 ≤ x ∧ x ≤ 1) ∧ ∀ j, j ≠ i → 0 ≤ p j ∧ p j ≤ 1 := by
  constructor
  · intro h
    refine ⟨by have := h i; simpa using this, fun j hj => by have := h j; simpa [Function.update_of_ne hj] using this⟩
  · rintro ⟨h1, h2⟩ j
    by_cases hj : j = i
    · subst hj; simpa using h1
    · simpa [Function.update_of_ne hj] using h2 j hj

theorem within_iff (eps x : K) (he : 0 ≤ eps) (hx : ClearAt eps x) : within eps (some x) = true ↔ 0 ≤ x ∧ x ≤ 1 := by
  simp only [within, Bool.not_eq_true', Bool.or_eq_false_iff, decide_eq_false_iff_not, not_lt]
  constructor
  · rintro ⟨h1, h2⟩
    exact ⟨not_lt.mp fun h => absurd (hx.1 h) (not_lt.mpr h1), not_lt.mp fun h => absurd (hx.2 h) (not_lt.mpr h2)⟩
  · rintro ⟨h1, h2⟩
    exact ⟨by linarith, by linarith⟩

/-- The part inside of a bar. -/
theorem clip_bar (p : VPos K n) (i : Fin n) (lo hi : K) (hle : lo ≤ hi) (h1 : lo ≤ 1) (h0 : 0 ≤ hi) (hin : ∀ j, j ≠ i → 0 ≤ p j ∧ p j ≤ 1) :
    IsClip (Function.update p i lo) (Function.update p i hi) (some (Function.update p i (max lo 0), Function.update p i (min hi 1))) := by
  have key : ∀ t, Inside (Function.update p i ((1 - t) * lo + t * hi)) ↔ 0 ≤ (1 - t) * lo + t * hi ∧ (1 - t) * lo + t * hi ≤ 1 := fun t => by
    rw [inside_update]; exact ⟨fun h => h.1, fun h => ⟨h, hin⟩⟩
  simp only [IsClip, at_update, key]
  rcases hle.eq_or_lt with rfl | hlt
  · refine ⟨0, 1, le_refl _, zero_le_one, le_refl _, ?_, fun t ht0 ht1 => ?_⟩
    · rw [max_eq_left h0, min_eq_left h1]; simp
    · have : (1 - t) * lo + t * lo = lo := by ring
      rw [this]
      exact ⟨fun _ => ⟨ht0, ht1⟩, fun _ => ⟨h0, h1⟩⟩
  · have hd : 0 < hi - lo := sub_pos.mpr hlt
    have hval : ∀ x, (1 - (x - lo) / (hi - lo)) * lo + (x - lo) / (hi - lo) * hi = x := by
      intro x; field_simp; ring
    refine ⟨(max lo 0 - lo) / (hi - lo), (min hi 1 - lo) / (hi - lo), ?_, ?_, ?_, ?_, fun t ht0 ht1 => ?_⟩
    · exact div_nonneg (sub_nonneg.mpr (le_max_left _ _)) hd.le
    · refine div_le_div_of_nonneg_right (sub_le_sub_right ?_ _) hd.le
      exact max_le (le_min hle h1) (le_min h0 zero_le_one)
    · rw [div_le_one hd]
      exact sub_le_sub_right (min_le_left _ _) _
    · rw [hval, hval]
    · rw [div_le_iff₀ hd, le_div_iff₀ hd]
      have e : (1 - t) * lo + t * hi = lo + t * (hi - lo) := by ring
      rw [e]
      have a0 : 0 ≤ t * (hi - lo) := mul_nonneg ht0 hd.le
      have a1 : t * (hi - lo) ≤ 1 * (hi - lo) := mul_le_mul_of_nonneg_right ht1 hd.le
      constructor
      · rintro ⟨b1, b2⟩
        refine ⟨?_, ?_⟩
        · rw [sub_le_iff_le_add]; exact max_le (by linarith) (by linarith)
        · rw [le_sub_iff_add_le]; exact le_min (by linarith) (by linarith)
      · rintro ⟨b1, b2⟩
        have c1 := le_max_right lo (0 : K)
        have c2 := min_le_right hi (1 : K)
        exact ⟨by linarith, by linarith⟩

theorem clip_none_of (u v : VPos K n) (h : ∀ t, 0 ≤ t → t ≤ 1 → ¬ Inside (at_ u v t)) : IsClip u v none :=
  fun s _ hs hs1 _ _ hi _ => absurd hi (h s hs hs1)

/-- What is left over by the tests of an end. -/
theorem minEnd_eq (eps : K) (he : 0 ≤ eps) (r pos : Option K) (x : K × Bool) (hx : endOf r pos = some x) (hc : ClearAt eps x.1) :
    minEnd eps r pos = if 1 < x.1 then none else some (max x.1 0, x.2 && decide (0 ≤ x.1)) := by
  simp only [minEnd, hx, Option.bind_some]
  by_cases h1 : 1 < x.1
  · rw [if_pos (hc.2 h1), if_pos h1]
  · have h2 : ¬ 1 + eps < x.1 := fun h => h1 (by linarith)
    rw [if_neg h2, if_neg h1]
    by_cases h3 : x.1 < 0
    · rw [if_pos (hc.1 h3), max_eq_right h3.le, decide_eq_false (not_le.mpr h3), Bool.and_false]
    · have h4 : ¬ x.1 < -eps := fun h => h3 (by linarith)
      rw [if_neg h4, max_eq_left (not_lt.mp h3), decide_eq_true (not_lt.mp h3), Bool.and_true]

theorem maxEnd_eq (eps : K) (he : 0 ≤ eps) (r pos : Option K) (x : K × Bool) (hx : endOf r pos = some x) (hc : ClearAt eps x.1) :
    maxEnd eps r pos = if x.1 < 0 then none else some (min x.1 1, x.2 && decide (x.1 ≤ 1)) := by
  simp only [maxEnd, hx, Option.bind_some]
  by_cases h1 : x.1 < 0
  · rw [if_pos (hc.1 h1), if_pos h1]
  · have h2 : ¬ x.1 < -eps := fun h => h1 (by linarith)
    rw [if_neg h2, if_neg h1]
    by_cases h3 : 1 < x.1
    · rw [if_pos (hc.2 h3), min_eq_right h3.le, decide_eq_false (not_le.mpr h3), Bool.and_false]
    · have h4 : ¬ 1 + eps < x.1 := fun h => h3 (by linarith)
      rw [if_neg h4, min_eq_left (not_lt.mp h3), decide_eq_true (not_lt.mp h3), Bool.and_true]

theorem update_some (vpos : Fin n → Option K) (p : VPos K n) (i : Fin n) (x : K) (hp : ∀ j, j ≠ i → vpos j = some (p j)) :
    Function.update vpos i (some x) = some ∘ Function.update p i x := by
  funext j
  by_cases h : j = i
  · subst h; simp
  · simp [Function.update_of_ne h, hp j h]

theorem flatMap_ite (l : List (Fin n)) (i : Fin n) {β : Type*} (g : Fin n → List β) :
    (l.flatMap fun j => if i ≠ j then g j else []) = (l.filter fun j => j ≠ i).flatMap g := by
  induction l with
  | nil => rfl
  | cons j l ih =>
    rw [List.flatMap_cons, ih, List.filter_cons]
    by_cases h : i = j
    · subst h; simp
    · have : j ≠ i := fun e => h e.symm
      simp [h, this]

/-- C104: the error bar of a dimension, of which at least one end of the range is given, goes from the lower to the upper end of the range, where a missing end is replaced by
the position itself.  What is drawn is exactly the part of it within the graph, and caps are drawn exactly at those ends which are given and within the graph; provided that
the ends are in the order of the graph, and that no coordinate is outside by no more than the tolerance. -/
theorem errorbar_clip_partial (eps : K) (he : 0 ≤ eps) (vpos : Fin n → Option K) (vrange : Fin n → Option K × Option K) (i : Fin n) (p : VPos K n) (lo hi : K)
    (hp : ∀ j, j ≠ i → vpos j = some (p j)) (hgiven : (vrange i).1 ≠ none ∨ (vrange i).2 ≠ none)
    (hlo : (vrange i).1.or (vpos i) = some lo) (hhi : (vrange i).2.or (vpos i) = some hi) (hle : lo ≤ hi)
    (hcp : ∀ j, j ≠ i → ClearAt eps (p j)) (hclo : ClearAt eps lo) (hchi : ClearAt eps hi) :
    ∃ c, IsClip (Function.update p i lo) (Function.update p i hi) c ∧
      errorDim eps vpos vrange i = strokes i ((vrange i).1 = some lo ∧ 0 ≤ lo) ((vrange i).2 = some hi ∧ hi ≤ 1) c := by
  have elo : endOf (vrange i).1 (vpos i) = some (lo, decide ((vrange i).1 = some lo)) := by
    unfold endOf
    cases h : (vrange i).1 with
    | none => rw [h] at hlo; simp only [Option.or] at hlo; simp [hlo]
    | some v => rw [h] at hlo; simp only [Option.or] at hlo; cases hlo; simp
  have ehi : endOf (vrange i).2 (vpos i) = some (hi, decide ((vrange i).2 = some hi)) := by
    unfold endOf
    cases h : (vrange i).2 with
    | none => rw [h] at hhi; simp only [Option.or] at hhi; simp [hhi]
    | some v => rw [h] at hhi; simp only [Option.or] at hhi; cases hhi; simp
  unfold errorDim
  by_cases hin : ∀ j, j ≠ i → 0 ≤ p j ∧ p j ≤ 1
  · have g1 : ¬ ((List.finRange n).any fun j => decide (i ≠ j) && !within eps (vpos j)) = true := by
      simp only [List.any_eq_true, List.mem_finRange, true_and, Bool.and_eq_true, decide_eq_true_eq, Bool.not_eq_true', not_exists, not_and]
      intro j hj
      have hj' : j ≠ i := fun e => hj e.symm
      rw [hp j hj', (within_iff eps (p j) he (hcp j hj')).mpr (hin j hj')]
      simp
    have g2 : ¬ (((vrange i).1 = none ∧ vpos i = none) ∨ ((vrange i).2 = none ∧ vpos i = none) ∨ ((vrange i).1 = none ∧ (vrange i).2 = none)) := by
      rintro (⟨a, b⟩ | ⟨a, b⟩ | ⟨a, b⟩)
      · rw [a, b] at hlo; cases hlo
      · rw [a, b] at hhi; cases hhi
      · rcases hgiven with h | h
        · exact h a
        · exact h b
    rw [if_neg g1, if_neg g2, minEnd_eq eps he _ _ _ elo hclo, maxEnd_eq eps he _ _ _ ehi hchi]
    by_cases h1 : 1 < lo
    · refine ⟨none, clip_none_of _ _ fun t ht ht1 hi' => ?_, ?_⟩
      · rw [at_update, inside_update] at hi'
        have : (1 - t) * lo + t * hi = lo + t * (hi - lo) := by ring
        have := mul_nonneg ht (sub_nonneg.mpr hle)
        linarith [hi'.1.2]
      · rw [if_pos h1]; rfl
    · by_cases h0 : hi < 0
      · refine ⟨none, clip_none_of _ _ fun t ht ht1 hi' => ?_, ?_⟩
        · rw [at_update, inside_update] at hi'
          have : (1 - t) * lo + t * hi = hi - (1 - t) * (hi - lo) := by ring
          have := mul_nonneg (sub_nonneg.mpr ht1) (sub_nonneg.mpr hle)
          linarith [hi'.1.1]
        · rw [if_neg h1, if_pos h0]; rfl
      · refine ⟨_, clip_bar p i lo hi hle (not_lt.mp h1) (not_lt.mp h0) hin, ?_⟩
        rw [if_neg h1, if_neg h0]
        simp only [strokes]
        rw [flatMap_ite, update_some vpos p i _ hp, update_some vpos p i _ hp]
        simp only [Bool.and_eq_true, decide_eq_true_eq]
  · have g1 : ((List.finRange n).any fun j => decide (i ≠ j) && !within eps (vpos j)) = true := by
      push Not at hin
      obtain ⟨j, hj, hx⟩ := hin
      simp only [List.any_eq_true, List.mem_finRange, true_and, Bool.and_eq_true, decide_eq_true_eq, Bool.not_eq_true']
      refine ⟨j, fun e => hj e.symm, ?_⟩
      rw [hp j hj]
      cases hw : within eps (some (p j)) with
      | false => rfl
      | true =>
        have := (within_iff eps (p j) he (hcp j hj)).mp hw
        exact absurd this.2 (not_le.mpr (hx this.1))
    rw [if_pos g1]
    refine ⟨none, clip_none_of _ _ fun t _ _ hi' => ?_, rfl⟩
    rw [at_update, inside_update] at hi'
    exact hin hi'.2

/-- C104: nothing is drawn for a dimension without any range, nor if another position is missing. -/
theorem errorbar_nothing (eps : K) (vpos : Fin n → Option K) (vrange : Fin n → Option K × Option K) (i : Fin n)
    (h : vrange i = (none, none) ∨ ∃ j, j ≠ i ∧ vpos j = none) : errorDim eps vpos vrange i = [] := by
  unfold errorDim
  split_ifs with h1 h2
  · rfl
  · rfl
  · exfalso
    rcases h with h | ⟨j, hj, hn⟩
    · exact h2 (Or.inr (Or.inr (by rw [h]; exact ⟨rfl, rfl⟩)))
    · apply h1
      simp only [List.any_eq_true, List.mem_finRange, true_and, Bool.and_eq_true, decide_eq_true_eq, Bool.not_eq_true']
      exact ⟨j, fun e => hj e.symm, by rw [hn]; rfl⟩

/-- C104 does not hold on a reversed axis, where the lower end of the range has the larger position: a bar half of which is within the graph is not drawn at all. -/
theorem errorbar_reversed : ∃ (vpos : Fin 2 → Option ℚ) (vrange : Fin 2 → Option ℚ × Option ℚ),
    (∀ t : ℚ, 0 ≤ t → t ≤ 1 / 2 → Inside (at_ ![1 / 2, 1 / 2] ![1 / 2, 3 / 2] t)) ∧
    vpos = some ∘ ![1 / 2, 1] ∧ vrange 1 = (some (3 / 2), some (1 / 2)) ∧ errorDim (1 / 10000000000) vpos vrange 1 = [] := by
  refine ⟨some ∘ ![1 / 2, 1], ![(none, none), (some (3 / 2), some (1 / 2))], ?_, rfl, rfl, ?_⟩
  · intro t h0 h1 i
    fin_cases i
    · simp only [at_, Fin.zero_eta, Matrix.cons_val_zero]
      constructor <;> linarith
    · simp only [at_, Fin.mk_one, Matrix.cons_val_one, Matrix.cons_val_zero]
      constructor <;> linarith
  · unfold errorDim
    rw [if_neg (by decide +kernel), if_neg (by decide +kernel)]
    have : minEnd (1 / 10000000000) ((![(none, none), (some (3 / 2 : ℚ), some (1 / 2))] : Fin 2 → Option ℚ × Option ℚ) 1).1 ((some ∘ ![1 / 2, 1]) (1 : Fin 2)) = none := by
      decide +kernel
    rw [this]

/-- The conditions of `errorbar_clip_partial` for the next example. -/
example : ∃ c, IsClip (Function.update ![1 / 2, 1 / 2] 1 (1 / 4)) (Function.update ![1 / 2, (1 / 2 : ℚ)] 1 2) c :=
  let ⟨c, h, _⟩ := errorbar_clip_partial (0 : ℚ) (le_refl _) (some ∘ ![1 / 2, (1 / 2 : ℚ)]) ![(none, none), (some (1 / 4), some 2)] 1 ![1 / 2, 1 / 2] (1 / 4) 2
    (fun _ _ => rfl) (Or.inl (by simp)) (by simp) (by simp) (by norm_num) (fun j _ => by fin_cases j <;> constructor <;> norm_num)
    (by constructor <;> norm_num) (by constructor <;> norm_num)
  ⟨c, h⟩

/-- A bar which is cut at the upper boundary: a line without a cap there, and one cap at the lower end. -/
example : errorDim 0 (some ∘ ![1 / 2, (1 / 2 : ℚ)]) ![(none, none), (some (1 / 4), some 2)] 1 =
    [.line (some ∘ ![1 / 2, 1 / 4]) (some ∘ ![1 / 2, 1]), .cap 0 (some ∘ ![1 / 2, 1 / 4])] := by
  have e : (List.finRange 2) = [0, 1] := by decide
  unfold errorDim
  rw [if_neg (by decide +kernel), if_neg (by decide +kernel)]
  have e1 : minEnd (0 : ℚ) ((![(none, none), (some (1 / 4), some 2)] : Fin 2 → Option ℚ × Option ℚ) 1).1 ((some ∘ ![1 / 2, (1 / 2 : ℚ)]) 1) = some (1 / 4, true) := by decide +kernel
  have e2 : maxEnd (0 : ℚ) ((![(none, none), (some (1 / 4), some 2)] : Fin 2 → Option ℚ × Option ℚ) 1).2 ((some ∘ ![1 / 2, (1 / 2 : ℚ)]) 1) = some (1, false) := by decide +kernel
  rw [e1, e2, e]
  simp only [List.flatMap_cons, List.flatMap_nil]
  have u1 : Function.update (some ∘ ![1 / 2, (1 / 2 : ℚ)]) 1 (some (1 / 4)) = some ∘ ![1 / 2, 1 / 4] := by funext j; fin_cases j <;> rfl
  have u2 : Function.update (some ∘ ![1 / 2, (1 / 2 : ℚ)]) 1 (some 1) = some ∘ ![1 / 2, 1] := by funext j; fin_cases j <;> rfl
  rw [u1, u2]
  rfl

end PyX.Style
