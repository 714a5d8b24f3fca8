import Mathlib.Data.Fintype.Basic
import Mathlib.Tactic.FinCases
import Mathlib.Tactic.NormNum
import Verif.Style.Line
import Mathlib.Tactic.Ring
import Mathlib.Tactic.LinearCombination
import Mathlib.Tactic.NormNum
import Mathlib.Algebra.Order.Field.Rat

/-!
# C103: the line of a graph is the part of the data's polygon within the graph
-/

set_option linter.unusedSectionVars false

namespace PyX.Style

variable {K : Type*} [Field K] [LinearOrder K] [IsStrictOrderedRing K] {n : ℕ} {P : Type*}

/-! ## Specification -/

/-- Within the graph. -/
def Inside (v : VPos K n) : Prop := ∀ i, 0 ≤ v i ∧ v i ≤ 1

/-- The point which divides the way from `u` to `v`. -/
def at_ (u v : VPos K n) (t : K) : VPos K n := fun i => (1 - t) * u i + t * v i

/-- What to draw of the line from `u` to `v`: exactly the part inside; nothing if at most one point of it is inside. -/
def IsClip (u v : VPos K n) : Option (VPos K n × VPos K n) → Prop
  | none => ∀ s t, 0 ≤ s → s ≤ 1 → 0 ≤ t → t ≤ 1 → Inside (at_ u v s) → Inside (at_ u v t) → s = t
  | some c => ∃ a b, 0 ≤ a ∧ a ≤ b ∧ b ≤ 1 ∧ c = (at_ u v a, at_ u v b) ∧ ∀ t, 0 ≤ t → t ≤ 1 → (Inside (at_ u v t) ↔ a ≤ t ∧ t ≤ b)

/-- The lines of the data: between available neighbours. -/
def dataLines : List (Option (VPos K n)) → List (VPos K n × VPos K n)
  | some u :: some v :: l => (u, v) :: dataLines (some v :: l)
  | _ :: l => dataLines l
  | [] => []

/-- The lines of a polygon. -/
def linesOf : List P → List (P × P)
  | a :: b :: l => (a, b) :: linesOf (b :: l)
  | _ => []

/-- No coordinate is outside of the graph by no more than the tolerances. -/
def Clear (eps epsPos : K) (v : VPos K n) : Prop := ∀ i, (v i < 0 → v i < -epsPos ∧ v i < -eps) ∧ (1 < v i → 1 + epsPos < v i ∧ 1 + eps < v i)

/-! ## Cuts -/

theorem at_eq (u v : VPos K n) (t : K) : between u v t = at_ u v t := by
  funext i; simp only [between, at_]; ring

theorem at_zero (u v : VPos K n) : at_ u v 0 = u := by funext i; simp [at_]
theorem at_one (u v : VPos K n) : at_ u v 1 = v := by funext i; simp [at_]

theorem valid_iff (eps epsPos : K) (h : 0 ≤ epsPos) (v : VPos K n) (hv : Clear eps epsPos v) : valid epsPos v = true ↔ Inside v := by
  simp only [valid, List.all_eq_true, List.mem_finRange, forall_const, Bool.not_eq_true', Bool.or_eq_false_iff, decide_eq_false_iff_not, not_lt, Inside]
  constructor
  · intro hx i
    obtain ⟨h1, h2⟩ := hx i
    refine ⟨?_, ?_⟩
    · by_contra hc
      have := ((hv i).1 (not_le.mp hc)).1
      linarith
    · by_contra hc
      have := ((hv i).2 (not_le.mp hc)).1
      linarith
  · intro hx i
    exact ⟨by linarith [(hx i).1], by linarith [(hx i).2]⟩

theorem le_lower (s cut : K) (o : Option K) : s ≤ lower cut o ↔ s ≤ cut ∧ ∀ c, o = some c → s ≤ c := by
  cases o with
  | none => simp [lower]
  | some c =>
    simp only [lower, Option.some.injEq, forall_eq']
    split_ifs with h
    · exact ⟨fun hs => ⟨hs.trans h.le, hs⟩, fun hs => hs.2⟩
    · exact ⟨fun hs => ⟨hs, hs.trans (not_lt.mp h)⟩, fun hs => hs.1⟩

theorem raise_le (s cut : K) (o : Option K) : raise cut o ≤ s ↔ cut ≤ s ∧ ∀ c, o = some c → c ≤ s := by
  cases o with
  | none => simp [raise]
  | some c =>
    simp only [raise, Option.some.injEq, forall_eq']
    split_ifs with h
    · exact ⟨fun hs => ⟨h.le.trans hs, hs⟩, fun hs => hs.2⟩
    · exact ⟨fun hs => ⟨hs, (not_lt.mp h).trans hs⟩, fun hs => hs.1⟩

/-- A coordinate is inside at `t`. -/
def In (a b t : K) : Prop := 0 ≤ (1 - t) * a + t * b ∧ (1 - t) * a + t * b ≤ 1

theorem in_iff (a b t : K) (h1 : ¬ (1 < a ∧ 1 < b)) (h2 : ¬ (a < 0 ∧ b < 0)) (ht : 0 ≤ t) (ht1 : t ≤ 1) :
    In a b t ↔ (∀ c, enter a b = some c → c ≤ t) ∧ ∀ c, leave a b = some c → t ≤ c := by
  have k1 : -a / (b - a) = a / (a - b) := by rw [← neg_sub a b, neg_div_neg_eq]
  have k2 : (1 - a) / (b - a) = (a - 1) / (a - b) := by rw [← neg_sub a b, ← neg_sub a 1, neg_div_neg_eq]
  have ht' : 0 ≤ 1 - t := by linarith
  unfold enter leave In
  rcases lt_trichotomy a 0 with ha | ha | ha
  · -- a < 0
    have hb : 0 ≤ b := by by_contra hc; exact h2 ⟨ha, not_le.mp hc⟩
    have hd : 0 < b - a := by linarith
    rw [if_pos ha, if_neg (not_lt.mpr hb)]
    by_cases hb1 : 1 < b
    · rw [if_pos hb1]
      simp only [Option.some.injEq, forall_eq']
      rw [div_le_iff₀ hd, le_div_iff₀ hd]
      constructor
      · rintro ⟨x, y⟩; exact ⟨by linarith, by linarith⟩
      · rintro ⟨x, y⟩; exact ⟨by linarith, by linarith⟩
    · rw [if_neg hb1]
      simp only [Option.some.injEq, forall_eq', reduceCtorEq, false_implies, implies_true, and_true]
      rw [div_le_iff₀ hd]
      constructor
      · rintro ⟨x, y⟩; linarith
      · intro x
        refine ⟨by linarith, ?_⟩
        nlinarith [mul_nonneg ht' (neg_nonneg.mpr ha.le), mul_nonneg ht (sub_nonneg.mpr (not_lt.mp hb1))]
  all_goals
    have ha0 : 0 ≤ a := by linarith
    rw [if_neg (not_lt.mpr ha0)]
    by_cases ha1 : 1 < a
    · have hb : b ≤ 1 := by by_contra hc; exact h1 ⟨ha1, not_le.mp hc⟩
      have hd : 0 < a - b := by linarith
      rw [if_pos ha1, k1, k2]
      by_cases hb0 : b < 0
      · rw [if_pos hb0]
        simp only [Option.some.injEq, forall_eq']
        rw [div_le_iff₀ hd, le_div_iff₀ hd]
        constructor
        · rintro ⟨x, y⟩; exact ⟨by linarith, by linarith⟩
        · rintro ⟨x, y⟩; exact ⟨by linarith, by linarith⟩
      · rw [if_neg hb0, if_neg (not_lt.mpr hb)]
        simp only [Option.some.injEq, forall_eq', reduceCtorEq, false_implies, implies_true, and_true]
        rw [div_le_iff₀ hd]
        constructor
        · rintro ⟨x, y⟩; linarith
        · intro x
          exact ⟨add_nonneg (mul_nonneg ht' ha0) (mul_nonneg ht (not_lt.mp hb0)), by linarith⟩
    · rw [if_neg ha1]
      have ha1 := not_lt.mp ha1
      simp only [reduceCtorEq, false_implies, implies_true, true_and]
      by_cases hb0 : b < 0
      · have hd : 0 < a - b := by linarith
        rw [if_pos hb0, k1]
        simp only [Option.some.injEq, forall_eq']
        rw [le_div_iff₀ hd]
        constructor
        · rintro ⟨x, y⟩; linarith
        · intro x
          refine ⟨by linarith, ?_⟩
          nlinarith [mul_nonneg ht (neg_nonneg.mpr hb0.le), mul_nonneg ht' (sub_nonneg.mpr ha1)]
      · rw [if_neg hb0]
        by_cases hb1 : 1 < b
        · have hd : 0 < b - a := by linarith
          rw [if_pos hb1]
          simp only [Option.some.injEq, forall_eq']
          rw [le_div_iff₀ hd]
          constructor
          · rintro ⟨x, y⟩; linarith
          · intro x
            exact ⟨add_nonneg (mul_nonneg ht' ha0) (mul_nonneg ht (not_lt.mp hb0)), by linarith⟩
        · rw [if_neg hb1]
          simp only [reduceCtorEq, false_implies, implies_true, iff_true]
          refine ⟨add_nonneg (mul_nonneg ht' ha0) (mul_nonneg ht (not_lt.mp hb0)), ?_⟩
          nlinarith [mul_nonneg ht' (sub_nonneg.mpr ha1), mul_nonneg ht (sub_nonneg.mpr (not_lt.mp hb1))]

/-- A cut is only needed where the coordinates differ by more than the tolerance. -/
theorem guard (eps epsPos : K) (u v : VPos K n) (hu : Clear eps epsPos u) (hv : Clear eps epsPos v) (i : Fin n) (h1 : ¬ (1 < u i ∧ 1 < v i))
    (h2 : ¬ (u i < 0 ∧ v i < 0)) (h : ¬ eps < |v i - u i|) : enter (u i) (v i) = none ∧ leave (u i) (v i) = none := by
  have habs := abs_le.mp (not_lt.mp h)
  have hu0 := hu i
  have hv0 := hv i
  unfold enter leave
  have a1 : ¬ u i < 0 := by
    intro hc
    have := (hu0.1 hc).2
    rcases lt_or_ge (v i) 0 with h3 | h3
    · exact h2 ⟨hc, h3⟩
    · linarith
  have a2 : ¬ v i < 0 := by
    intro hc
    have := (hv0.1 hc).2
    rcases lt_or_ge (u i) 0 with h3 | h3
    · exact h2 ⟨h3, hc⟩
    · linarith
  have a3 : ¬ 1 < u i := by
    intro hc
    have := (hu0.2 hc).2
    rcases lt_or_ge 1 (v i) with h3 | h3
    · exact h1 ⟨hc, h3⟩
    · linarith
  have a4 : ¬ 1 < v i := by
    intro hc
    have := (hv0.2 hc).2
    rcases lt_or_ge 1 (u i) with h3 | h3
    · exact h1 ⟨h3, hc⟩
    · linarith
  rw [if_neg a1, if_neg a2, if_neg a3, if_neg a4]
  exact ⟨rfl, rfl⟩

theorem le_foldl_lower (g : Fin n → Bool) (o : Fin n → Option K) (l : List (Fin n)) (cut s : K) :
    s ≤ l.foldl (fun cut i => if g i = true then lower cut (o i) else cut) cut ↔ s ≤ cut ∧ ∀ i ∈ l, g i = true → ∀ c, o i = some c → s ≤ c := by
  induction l generalizing cut with
  | nil => simp
  | cons i l ih =>
    rw [List.foldl_cons, ih]
    by_cases h : g i = true
    · rw [if_pos h, le_lower]
      simp [h, and_assoc]
    · rw [if_neg h]
      simp [h]

theorem foldl_raise_le (g : Fin n → Bool) (o : Fin n → Option K) (l : List (Fin n)) (cut s : K) :
    l.foldl (fun cut i => if g i = true then raise cut (o i) else cut) cut ≤ s ↔ cut ≤ s ∧ ∀ i ∈ l, g i = true → ∀ c, o i = some c → c ≤ s := by
  induction l generalizing cut with
  | nil => simp
  | cons i l ih =>
    rw [List.foldl_cons, ih]
    by_cases h : g i = true
    · rw [if_pos h, raise_le]
      simp [h, and_assoc]
    · rw [if_neg h]
      simp [h]

theorem le_cutEnd (eps : K) (u v : VPos K n) (s : K) : s ≤ cutEnd eps u v ↔ s ≤ 1 ∧ ∀ i, eps < |v i - u i| → ∀ c, leave (u i) (v i) = some c → s ≤ c := by
  have := le_foldl_lower (fun i => decide (eps < |v i - u i|)) (fun i => leave (u i) (v i)) (List.finRange n) 1 s
  simpa [cutEnd] using this

theorem cutBegin_le (eps : K) (u v : VPos K n) (s : K) : cutBegin eps u v ≤ s ↔ 0 ≤ s ∧ ∀ i, eps < |v i - u i| → ∀ c, enter (u i) (v i) = some c → c ≤ s := by
  have := foldl_raise_le (fun i => decide (eps < |v i - u i|)) (fun i => enter (u i) (v i)) (List.finRange n) 0 s
  simpa [cutBegin] using this

theorem cutBoth_none (eps : K) (u v : VPos K n) (l : List (Fin n)) (c : K × K) (h : cutBoth eps u v l c = none) : ∃ i ∈ l, (1 < u i ∧ 1 < v i) ∨ (u i < 0 ∧ v i < 0) := by
  induction l generalizing c with
  | nil => cases h
  | cons i l ih =>
    rw [cutBoth] at h
    by_cases h1 : 1 < u i ∧ 1 < v i
    · exact ⟨i, List.mem_cons_self, Or.inl h1⟩
    · rw [if_neg h1] at h
      by_cases h2 : u i < 0 ∧ v i < 0
      · exact ⟨i, List.mem_cons_self, Or.inr h2⟩
      · rw [if_neg h2] at h
        obtain ⟨j, hj, hj'⟩ := ih _ h
        exact ⟨j, List.mem_cons_of_mem _ hj, hj'⟩

theorem cutBoth_some (eps : K) (u v : VPos K n) (l : List (Fin n)) (c d : K × K) (h : cutBoth eps u v l c = some d) :
    (∀ i ∈ l, ¬ (1 < u i ∧ 1 < v i) ∧ ¬ (u i < 0 ∧ v i < 0)) ∧
    (∀ s, d.1 ≤ s ↔ c.1 ≤ s ∧ ∀ i ∈ l, eps < |v i - u i| → ∀ x, enter (u i) (v i) = some x → x ≤ s) ∧
    ∀ s, s ≤ d.2 ↔ s ≤ c.2 ∧ ∀ i ∈ l, eps < |v i - u i| → ∀ x, leave (u i) (v i) = some x → s ≤ x := by
  induction l generalizing c with
  | nil =>
    obtain rfl := Option.some.inj h
    simp
  | cons i l ih =>
    rw [cutBoth] at h
    by_cases h1 : 1 < u i ∧ 1 < v i
    · rw [if_pos h1] at h; cases h
    · rw [if_neg h1] at h
      by_cases h2 : u i < 0 ∧ v i < 0
      · rw [if_pos h2] at h; cases h
      · rw [if_neg h2] at h
        obtain ⟨a, b, e⟩ := ih _ h
        refine ⟨fun j hj => ?_, fun s => ?_, fun s => ?_⟩
        · rcases List.mem_cons.mp hj with rfl | hj
          · exact ⟨h1, h2⟩
          · exact a j hj
        · rw [b]
          by_cases hg : eps < |v i - u i|
          · rw [if_pos hg]
            simp only [raise_le, List.mem_cons, forall_eq_or_imp]
            tauto
          · rw [if_neg hg]
            simp only [List.mem_cons, forall_eq_or_imp]
            tauto
        · rw [e]
          by_cases hg : eps < |v i - u i|
          · rw [if_pos hg]
            simp only [le_lower, List.mem_cons, forall_eq_or_imp]
            tauto
          · rw [if_neg hg]
            simp only [List.mem_cons, forall_eq_or_imp]
            tauto

/-- When no coordinate is outside on the same side at both ends, the inside is described by the cuts. -/
theorem inside_iff (eps epsPos : K) (he : 0 ≤ eps) (u v : VPos K n) (hu : Clear eps epsPos u) (hv : Clear eps epsPos v)
    (h : ∀ i, ¬ (1 < u i ∧ 1 < v i) ∧ ¬ (u i < 0 ∧ v i < 0)) (t : K) (ht : 0 ≤ t) (ht1 : t ≤ 1) :
    Inside (at_ u v t) ↔ (∀ i, eps < |v i - u i| → ∀ c, enter (u i) (v i) = some c → c ≤ t) ∧ ∀ i, eps < |v i - u i| → ∀ c, leave (u i) (v i) = some c → t ≤ c := by
  have h1 : Inside (at_ u v t) ↔ ∀ i, In (u i) (v i) t := Iff.rfl
  rw [h1]
  constructor
  · intro hi
    refine ⟨fun i _ c hc => ?_, fun i _ c hc => ?_⟩
    · exact ((in_iff _ _ t (h i).1 (h i).2 ht ht1).mp (hi i)).1 c hc
    · exact ((in_iff _ _ t (h i).1 (h i).2 ht ht1).mp (hi i)).2 c hc
  · rintro ⟨h2, h3⟩ i
    rw [in_iff _ _ t (h i).1 (h i).2 ht ht1]
    by_cases hg : eps < |v i - u i|
    · exact ⟨h2 i hg, h3 i hg⟩
    · obtain ⟨e1, e2⟩ := guard eps epsPos u v hu hv i (h i).1 (h i).2 hg
      rw [e1, e2]
      exact ⟨by simp, by simp⟩

/-- From the inside to anywhere. -/
theorem clip_end (eps epsPos : K) (he : 0 ≤ eps) (u v : VPos K n) (hu : Clear eps epsPos u) (hv : Clear eps epsPos v) (hi : Inside u) :
    IsClip u v (some (u, between u v (cutEnd eps u v))) := by
  have hen : ∀ i, enter (u i) (v i) = none := by
    intro i
    unfold enter
    rw [if_neg (not_lt.mpr (hi i).1), if_neg (not_lt.mpr (hi i).2)]
  have key := inside_iff eps epsPos he u v hu hv (fun i => ⟨fun h => absurd h.1 (not_lt.mpr (hi i).2), fun h => absurd h.1 (not_lt.mpr (hi i).1)⟩)
  have h0 : 0 ≤ cutEnd eps u v := by
    have h3 : Inside (at_ u v 0) := by rw [at_zero]; exact hi
    rw [le_cutEnd]
    exact ⟨zero_le_one, ((key 0 (le_refl _) zero_le_one).mp h3).2⟩
  have h1 : cutEnd eps u v ≤ 1 := ((le_cutEnd eps u v _).mp (le_refl _)).1
  refine ⟨0, cutEnd eps u v, le_refl _, h0, h1, by rw [at_zero, at_eq], fun t ht ht1 => ?_⟩
  rw [key t ht ht1, le_cutEnd]
  constructor
  · rintro ⟨-, h⟩; exact ⟨ht, ht1, h⟩
  · rintro ⟨-, -, h⟩
    exact ⟨fun i _ c hc => (by rw [hen i] at hc; cases hc), h⟩

/-- From anywhere to the inside. -/
theorem clip_begin (eps epsPos : K) (he : 0 ≤ eps) (u v : VPos K n) (hu : Clear eps epsPos u) (hv : Clear eps epsPos v) (hi : Inside v) :
    IsClip u v (some (between u v (cutBegin eps u v), v)) := by
  have hle : ∀ i, leave (u i) (v i) = none := by
    intro i
    unfold leave
    rw [if_neg (not_lt.mpr (hi i).1), if_neg (not_lt.mpr (hi i).2)]
  have key := inside_iff eps epsPos he u v hu hv (fun i => ⟨fun h => absurd h.2 (not_lt.mpr (hi i).2), fun h => absurd h.2 (not_lt.mpr (hi i).1)⟩)
  have h1 : cutBegin eps u v ≤ 1 := by
    have h3 : Inside (at_ u v 1) := by rw [at_one]; exact hi
    rw [cutBegin_le]
    exact ⟨zero_le_one, ((key 1 zero_le_one (le_refl _)).mp h3).1⟩
  have h0 : 0 ≤ cutBegin eps u v := ((cutBegin_le eps u v _).mp (le_refl _)).1
  refine ⟨cutBegin eps u v, 1, h0, h1, le_refl _, by rw [at_one, at_eq], fun t ht ht1 => ?_⟩
  rw [key t ht ht1, cutBegin_le]
  constructor
  · rintro ⟨h, -⟩; exact ⟨⟨ht, h⟩, ht1⟩
  · rintro ⟨⟨-, h⟩, -⟩
    exact ⟨h, fun i _ c hc => (by rw [hle i] at hc; cases hc)⟩

/-- Between points outside. -/
theorem clip_both (eps epsPos : K) (he : 0 ≤ eps) (u v : VPos K n) (hu : Clear eps epsPos u) (hv : Clear eps epsPos v) :
    match cutBoth eps u v (List.finRange n) (0, 1) with
    | none => IsClip u v none
    | some c => if c.1 < c.2 then IsClip u v (some (between u v c.1, between u v c.2)) else IsClip u v none := by
  cases hc : cutBoth eps u v (List.finRange n) (0, 1) with
  | none =>
    obtain ⟨i, -, hi⟩ := cutBoth_none eps u v _ _ hc
    intro s t hs hs1 _ _ h3 _
    exfalso
    have h4 := h3 i
    simp only [at_] at h4
    rcases hi with hi | hi
    · nlinarith [mul_nonneg (sub_nonneg.mpr hs1) (sub_nonneg.mpr hi.1.le), mul_nonneg hs (sub_nonneg.mpr hi.2.le), mul_le_mul_of_nonneg_left hi.1.le (sub_nonneg.mpr hs1)]
    · have h5 : 0 ≤ 1 - s := sub_nonneg.mpr hs1
      rcases hs.eq_or_lt with e | e
      · rw [← e] at h4
        linarith [h4.1]
      · have : s * v i < 0 := mul_neg_of_pos_of_neg e hi.2
        have : (1 - s) * u i ≤ 0 := mul_nonpos_of_nonneg_of_nonpos h5 hi.1.le
        linarith [h4.1]
  | some c =>
    simp only
    obtain ⟨h1, h2, h3⟩ := cutBoth_some eps u v _ _ _ hc
    simp only [List.mem_finRange, forall_const] at h1 h2 h3
    have key := inside_iff eps epsPos he u v hu hv h1
    have hiff : ∀ t, 0 ≤ t → t ≤ 1 → (Inside (at_ u v t) ↔ c.1 ≤ t ∧ t ≤ c.2) := by
      intro t ht ht1
      rw [key t ht ht1, h2, h3]
      tauto
    have h0 : 0 ≤ c.1 := ((h2 _).mp (le_refl _)).1
    have h4 : c.2 ≤ 1 := ((h3 _).mp (le_refl _)).1
    split_ifs with hlt
    · exact ⟨c.1, c.2, h0, hlt.le, h4, by rw [at_eq, at_eq], hiff⟩
    · intro s t hs hs1 ht ht1 hs2 ht2
      have a1 := (hiff s hs hs1).mp hs2
      have a2 := (hiff t ht ht1).mp ht2
      have a3 := not_lt.mp hlt
      exact le_antisymm (by linarith) (by linarith)

/-- Between points inside. -/
theorem clip_inside (u v : VPos K n) (hu : Inside u) (hv : Inside v) : IsClip u v (some (u, v)) := by
  refine ⟨0, 1, le_refl _, zero_le_one, le_refl _, by rw [at_zero, at_one], fun t ht ht1 => ⟨fun _ => ⟨ht, ht1⟩, fun _ i => ?_⟩⟩
  have h1 : 0 ≤ 1 - t := sub_nonneg.mpr ht1
  simp only [at_]
  refine ⟨add_nonneg (mul_nonneg h1 (hu i).1) (mul_nonneg ht (hv i).1), ?_⟩
  nlinarith [mul_nonneg h1 (sub_nonneg.mpr (hu i).2), mul_nonneg ht (sub_nonneg.mpr (hv i).2)]

/-! ## The line -/

/-- The points of the canvas are made last. -/
def Private.map (f : VPos K n → P) (s : Private K n (VPos K n)) : Private K n P := ⟨s.path.map (·.map f), s.base.map f, s.last⟩

theorem map_flush (f : VPos K n → P) (s : Private K n (VPos K n)) : (flush s).map f = flush (s.map f) := by
  simp only [flush, Private.map, List.length_map]
  split_ifs <;> simp

theorem map_flushIf (f : VPos K n → P) (s : Private K n (VPos K n)) : (flushIf s).map f = flushIf (s.map f) := by
  unfold flushIf
  have : (s.map f).base.length = s.base.length := by simp [Private.map]
  rw [this]
  split_ifs
  · exact map_flush f s
  · rfl

theorem map_fromInside (f : VPos K n → P) (eps epsPos : K) (s : Private K n (VPos K n)) (u v : VPos K n) :
    (fromInside id eps epsPos s u v).map f = fromInside f eps epsPos (s.map f) u v := by
  unfold fromInside
  split_ifs
  · simp [Private.map]
  · rw [map_flush]
    simp [Private.map]

theorem map_fromOutside (f : VPos K n → P) (eps epsPos : K) (s : Private K n (VPos K n)) (u v : VPos K n) :
    (fromOutside id eps epsPos s u v).map f = fromOutside f eps epsPos (s.map f) u v := by
  unfold fromOutside
  split_ifs
  · simp [Private.map]
  · cases cutBoth eps u v (List.finRange n) (0, 1) with
    | none => rfl
    | some c =>
      simp only
      split_ifs
      · rw [map_flush]
        simp [Private.map]
      · rfl

theorem map_addpoint (f : VPos K n → P) (eps epsPos : K) (s : Private K n (VPos K n)) (o : Option (VPos K n)) :
    (addpoint id eps epsPos s o).map f = addpoint f eps epsPos (s.map f) o := by
  cases o with
  | none =>
    simp only [addpoint]
    rw [← map_flushIf]
    rfl
  | some v =>
    simp only [addpoint]
    have h1 : (s.map f).last = s.last := rfl
    have h2 : (s.map f).base.isEmpty = s.base.isEmpty := by simp [Private.map]
    rw [h1, h2]
    cases s.last with
    | none => rfl
    | some u =>
      simp only
      split_ifs
      · rw [← map_fromOutside]; rfl
      · rw [← map_fromInside]; rfl

theorem line_map (f : VPos K n → P) (eps epsPos : K) (points : List (Option (VPos K n))) : line f eps epsPos points = (line id eps epsPos points).map (·.map f) := by
  have h : ∀ s, (points.foldl (addpoint id eps epsPos) s).map f = points.foldl (addpoint f eps epsPos) (s.map f) := by
    induction points with
    | nil => intro s; rfl
    | cons o l ih => intro s; rw [List.foldl_cons, List.foldl_cons, ih, map_addpoint]
  have h1 := h initial
  unfold line
  have h2 : (initial : Private K n (VPos K n)).map f = initial := rfl
  rw [h2] at h1
  rw [← h1, ← map_flushIf]
  rfl

/-- The line drawn so far ends at the last point, which is inside. -/
structure Ok (s : Private K n (VPos K n)) : Prop where
  base : s.base = [] ∨ ∃ pre a u, s.base = pre ++ [a, u] ∧ s.last = some u ∧ Inside u
  path : ∀ p ∈ s.path, 2 ≤ p.length

/-- All lines drawn so far. -/
def Private.lines (s : Private K n P) : List (P × P) := s.path.flatMap linesOf ++ linesOf s.base

theorem linesOf_snoc (l : List P) (a b : P) : linesOf (l ++ [a, b]) = linesOf (l ++ [a]) ++ [(a, b)] := by
  induction l with
  | nil => rfl
  | cons x l ih =>
    cases l with
    | nil => rfl
    | cons y l => simpa [linesOf] using ih

theorem flush_lines (s : Private K n P) : (flush s).lines = s.lines := by
  unfold flush Private.lines
  split_ifs with h
  · simp [linesOf]
  · have : linesOf s.base = [] := by
      rcases s with ⟨p, b, l⟩
      match b, h with
      | [], _ => rfl
      | [x], _ => rfl
      | x :: y :: b, h => simp at h
    simp [linesOf, this]

theorem flush_path (s : Private K n (VPos K n)) (h : ∀ p ∈ s.path, 2 ≤ p.length) : ∀ p ∈ (flush s).path, 2 ≤ p.length := by
  intro p hp
  unfold flush at hp
  simp only at hp
  split_ifs at hp with h1
  · rcases List.mem_append.mp hp with hp | hp
    · exact h p hp
    · rw [List.mem_singleton.mp hp]; exact h1
  · exact h p hp

theorem flush_ok (s : Private K n (VPos K n)) (h : ∀ p ∈ s.path, 2 ≤ p.length) : Ok (flush s) := ⟨Or.inl rfl, flush_path s h⟩

theorem flushIf_spec (s : Private K n (VPos K n)) (h : Ok s) : (flushIf s).lines = s.lines ∧ (flushIf s).base = [] ∧ ∀ p ∈ (flushIf s).path, 2 ≤ p.length := by
  unfold flushIf
  split_ifs with h1
  · exact ⟨flush_lines s, rfl, flush_path s h.path⟩
  · refine ⟨rfl, ?_, h.path⟩
    rcases h.base with h2 | ⟨pre, a, u, h2, -⟩
    · exact h2
    · rw [h2] at h1; simp at h1

/-- One more line of the data. -/
theorem addpoint_some (eps epsPos : K) (he : 0 ≤ eps) (hp : 0 ≤ epsPos) (s : Private K n (VPos K n)) (h : Ok s) (u v : VPos K n) (hl : s.last = some u)
    (hu : Clear eps epsPos u) (hv : Clear eps epsPos v) :
    ∃ c, IsClip u v c ∧ Ok (addpoint id eps epsPos s (some v)) ∧ (addpoint id eps epsPos s (some v)).last = some v ∧
      (addpoint id eps epsPos s (some v)).lines = s.lines ++ c.toList := by
  simp only [addpoint, hl]
  rcases h.base with hb | ⟨pre, a, u', hb, hl', hin⟩
  · rw [hb]
    simp only [List.isEmpty_nil, if_true]
    unfold fromOutside
    by_cases hval : valid epsPos v = true
    · have hiv := (valid_iff eps epsPos hp v hv).mp hval
      rw [if_pos hval]
      refine ⟨_, clip_begin eps epsPos he u v hu hv hiv, ⟨Or.inr ⟨[], between u v (cutBegin eps u v), v, ?_, rfl, hiv⟩, h.path⟩, trivial, ?_⟩
      · simp only [hb, List.nil_append, id]
      · simp [Private.lines, hb, linesOf]
    · rw [if_neg hval]
      have hc := clip_both eps epsPos he u v hu hv
      cases hcb : cutBoth eps u v (List.finRange n) (0, 1) with
      | none =>
        rw [hcb] at hc
        exact ⟨none, hc, ⟨Or.inl hb, h.path⟩, trivial, by simp [Private.lines]⟩
      | some c =>
        rw [hcb] at hc
        simp only at hc ⊢
        by_cases hlt : c.1 < c.2
        · rw [if_pos hlt] at hc ⊢
          refine ⟨_, hc, ⟨Or.inl rfl, flush_path _ h.path⟩, trivial, ?_⟩
          have := flush_lines (P := VPos K n) { s with base := s.base ++ [id (between u v c.1), id (between u v c.2)] }
          refine Eq.trans this ?_
          simp [Private.lines, hb, linesOf]
        · rw [if_neg hlt] at hc ⊢
          exact ⟨none, hc, ⟨Or.inl hb, h.path⟩, trivial, by simp [Private.lines]⟩
  · rw [hl] at hl'
    obtain rfl := Option.some.inj hl'
    have hne : s.base.isEmpty = false := by rw [hb]; simp
    rw [hne]
    simp only [Bool.false_eq_true, if_false]
    unfold fromInside
    by_cases hval : valid epsPos v = true
    · have hiv := (valid_iff eps epsPos hp v hv).mp hval
      rw [if_pos hval]
      refine ⟨_, clip_inside u v hin hiv, ⟨Or.inr ⟨pre ++ [a], u, v, ?_, rfl, hiv⟩, h.path⟩, trivial, ?_⟩
      · simp [hb]
      · have := linesOf_snoc (pre ++ [a]) u v
        simp only [List.append_assoc, List.cons_append, List.nil_append] at this
        simp [Private.lines, hb, this]
    · rw [if_neg hval]
      refine ⟨_, clip_end eps epsPos he u v hu hv hin, ⟨Or.inl rfl, flush_path _ h.path⟩, trivial, ?_⟩
      have h1 := flush_lines (P := VPos K n) { s with base := s.base ++ [id (between u v (cutEnd eps u v))] }
      refine Eq.trans h1 ?_
      have := linesOf_snoc (pre ++ [a]) u (between u v (cutEnd eps u v))
      simp only [List.append_assoc, List.cons_append, List.nil_append] at this
      simp [Private.lines, hb, this]

theorem loop_spec (eps epsPos : K) (he : 0 ≤ eps) (hp : 0 ≤ epsPos) (l : List (Option (VPos K n))) (s : Private K n (VPos K n)) (h : Ok s)
    (hs : ∀ u, s.last = some u → Clear eps epsPos u) (hl : ∀ v, some v ∈ l → Clear eps epsPos v) :
    ∃ clips, List.Forall₂ (fun d c => IsClip d.1 d.2 c) (dataLines (s.last :: l)) clips ∧ Ok (l.foldl (addpoint id eps epsPos) s) ∧
      (l.foldl (addpoint id eps epsPos) s).lines = s.lines ++ clips.filterMap id := by
  induction l generalizing s with
  | nil =>
    refine ⟨[], ?_, h, by simp⟩
    cases s.last <;> exact List.Forall₂.nil
  | cons o l ih =>
    rw [List.foldl_cons]
    cases o with
    | none =>
      obtain ⟨f1, f2, f3⟩ := flushIf_spec s h
      obtain ⟨clips, c1, c2, c3⟩ := ih (addpoint id eps epsPos s none) ⟨Or.inl f2, f3⟩ (fun u hu => by cases hu) (fun v hv => hl v (List.mem_cons_of_mem _ hv))
      refine ⟨clips, ?_, c2, ?_⟩
      · have : dataLines (s.last :: none :: l) = dataLines (none :: l) := by cases s.last <;> rfl
        rw [this]
        exact c1
      · rw [c3, ← f1]; rfl
    | some v =>
      have hv := hl v List.mem_cons_self
      cases hlast : s.last with
      | none =>
        have hb : s.base = [] := by
          rcases h.base with hb | ⟨_, _, _, _, hb, _⟩
          · exact hb
          · rw [hlast] at hb; cases hb
        have hadd : addpoint id eps epsPos s (some v) = { s with last := some v } := by simp only [addpoint, hlast]
        rw [hadd]
        obtain ⟨clips, c1, c2, c3⟩ := ih { s with last := some v } ⟨Or.inl hb, h.path⟩ (fun u hu => by cases hu; exact hv) (fun v hv => hl v (List.mem_cons_of_mem _ hv))
        exact ⟨clips, c1, c2, c3⟩
      | some u =>
        obtain ⟨c, k1, k2, k3, k4⟩ := addpoint_some eps epsPos he hp s h u v hlast (hs u hlast) hv
        obtain ⟨clips, c1, c2, c3⟩ := ih _ k2 (fun u hu => by rw [k3] at hu; cases hu; exact hv) (fun v hv => hl v (List.mem_cons_of_mem _ hv))
        refine ⟨c :: clips, ?_, c2, ?_⟩
        · rw [k3] at c1
          exact List.Forall₂.cons k1 c1
        · rw [c3, k4]
          cases c <;> simp

theorem initial_ok : Ok (initial : Private K n (VPos K n)) := ⟨Or.inl rfl, by simp [initial]⟩

/-- C103: the pieces of the line drawn for data points are, one after the other, exactly the parts within the graph of the straight lines between neighbouring points whose
position is available, provided that no coordinate is outside of the graph by no more than the tolerances.  (With `eps = epsPos = 0` this is no condition.) -/
theorem line_clipped_partial (f : VPos K n → P) (eps epsPos : K) (he : 0 ≤ eps) (hp : 0 ≤ epsPos) (points : List (Option (VPos K n)))
    (hc : ∀ v, some v ∈ points → Clear eps epsPos v) :
    ∃ (polys : List (List (VPos K n))) (clips : List (Option (VPos K n × VPos K n))), line f eps epsPos points = polys.map (·.map f) ∧ List.Forall₂ (fun d c => IsClip d.1 d.2 c) (dataLines points) clips ∧
      polys.flatMap linesOf = clips.filterMap id ∧ ∀ p ∈ polys, 2 ≤ p.length := by
  obtain ⟨clips, c1, c2, c3⟩ := loop_spec eps epsPos he hp points initial initial_ok (fun u hu => by cases hu) hc
  obtain ⟨f1, f2, f3⟩ := flushIf_spec _ c2
  refine ⟨line id eps epsPos points, clips, line_map f eps epsPos points, c1, ?_, f3⟩
  rw [c3] at f1
  have h0 : (initial : Private K n (VPos K n)).lines = [] := rfl
  rw [h0, List.nil_append] at f1
  rw [← f1]
  unfold Private.lines
  rw [f2]
  simp [line, linesOf]

/-- Some piece contains these points in a row. -/
def Has (s : Private K n P) (x : List P) : Prop := x <:+: s.base ∨ ∃ p ∈ s.path, x <:+: p

theorem flush_has (s : Private K n P) (x : List P) (hx : 2 ≤ x.length) (h : Has s x) : ∃ p ∈ (flush s).path, x <:+: p := by
  unfold flush
  rcases h with h | ⟨p, hp, h⟩
  · have : 1 < s.base.length := lt_of_lt_of_le hx h.length_le
    rw [if_pos this]
    exact ⟨s.base, by simp, h⟩
  · refine ⟨p, ?_, h⟩
    simp only
    split_ifs
    · exact List.mem_append_left _ hp
    · exact hp

theorem flushIf_has (s : Private K n P) (x : List P) (hx : 2 ≤ x.length) (h : Has s x) : ∃ p ∈ (flushIf s).path, x <:+: p := by
  unfold flushIf
  split_ifs with h1
  · exact flush_has s x hx h
  · rcases h with h | h
    · have := h.length_le; omega
    · exact h

theorem has_more (s : Private K n P) (x l : List P) (h : Has s x) : Has { s with base := s.base ++ l } x := by
  rcases h with h | h
  · exact Or.inl (h.trans (List.prefix_append _ _).isInfix)
  · exact Or.inr h

theorem addpoint_has (f : VPos K n → P) (eps epsPos : K) (s : Private K n P) (x : List P) (hx : 2 ≤ x.length) (h : Has s x) (o : Option (VPos K n)) :
    Has (addpoint f eps epsPos s o) x := by
  cases o with
  | none => exact Or.inr (flushIf_has s x hx h)
  | some v =>
    simp only [addpoint]
    cases s.last with
    | none => exact h
    | some u =>
      simp only
      split_ifs with he
      · unfold fromOutside
        split_ifs with hv
        · exact has_more s x _ h
        · cases cutBoth eps u v (List.finRange n) (0, 1) with
          | none => exact h
          | some c =>
            simp only
            split_ifs
            · exact Or.inr (flush_has _ x hx (has_more s x _ h))
            · exact h
      · unfold fromInside
        split_ifs with hv
        · exact has_more s x _ h
        · exact Or.inr (flush_has _ x hx (has_more s x _ h))

theorem foldl_has (f : VPos K n → P) (eps epsPos : K) (l : List (Option (VPos K n))) (s : Private K n P) (x : List P) (hx : 2 ≤ x.length) (h : Has s x) :
    Has (l.foldl (addpoint f eps epsPos) s) x := by
  induction l generalizing s with
  | nil => exact h
  | cons o l ih => exact ih _ (addpoint_has f eps epsPos s x hx h o)

/-- C103: the line is not interrupted at a point within the graph: one piece of the path goes through it. -/
theorem line_connected (f : VPos K n → P) (eps epsPos : K) (he : 0 ≤ eps) (hp : 0 ≤ epsPos) (l r : List (Option (VPos K n))) (u v w : VPos K n)
    (hc : ∀ z, some z ∈ l ++ some u :: some v :: some w :: r → Clear eps epsPos z) (hv : Inside v) :
    ∃ p ∈ line f eps epsPos (l ++ some u :: some v :: some w :: r), ∃ a b, [a, f v, b] <:+: p := by
  have hcu := hc u (by simp)
  have hcv := hc v (by simp)
  obtain ⟨-, -, o1, -⟩ := loop_spec eps epsPos he hp (l ++ [some u]) initial initial_ok (fun u hu => by cases hu) (fun z hz => hc z (by
    rcases List.mem_append.mp hz with h | h
    · exact List.mem_append_left _ h
    · rw [List.mem_singleton.mp h]; simp))
  have hlast : ((l ++ [some u]).foldl (addpoint id eps epsPos) initial).last = some u := by
    rw [List.foldl_append, List.foldl_cons, List.foldl_nil]
    simp only [addpoint]
    cases (l.foldl (addpoint id eps epsPos) initial).last <;> rfl
  obtain ⟨c, -, o2, l2, -⟩ := addpoint_some eps epsPos he hp _ o1 u v hlast hcu hcv
  -- the base points end with v
  have hb : ∃ pre a, (addpoint id eps epsPos ((l ++ [some u]).foldl (addpoint id eps epsPos) initial) (some v)).base = pre ++ [a, v] := by
    have hval := (valid_iff eps epsPos hp v hcv).mpr hv
    simp only [addpoint, hlast]
    split_ifs with hemp
    · unfold fromOutside
      rw [if_pos hval]
      exact ⟨_, _, rfl⟩
    · unfold fromInside
      rw [if_pos hval]
      rcases o1.base with hb | ⟨pre, a, u', hb, -, -⟩
      · rw [hb] at hemp; simp at hemp
      · exact ⟨pre ++ [a], u', by simp only [hb, List.append_assoc, List.cons_append, List.nil_append, id]⟩
  generalize hst : addpoint id eps epsPos ((l ++ [some u]).foldl (addpoint id eps epsPos) initial) (some v) = st at *
  obtain ⟨pre, a, hb⟩ := hb
  have h3 : ∃ b, Has (addpoint id eps epsPos st (some w)) [a, v, b] := by
    simp only [addpoint, l2]
    have hne : st.base.isEmpty = false := by rw [hb]; simp
    rw [hne]
    simp only [Bool.false_eq_true, if_false]
    unfold fromInside
    split_ifs with hval
    · exact ⟨w, Or.inl ⟨pre, [], by simp [hb]⟩⟩
    · exact ⟨between v w (cutEnd eps v w), Or.inr (flush_has _ _ (by simp) (Or.inl ⟨pre, [], by simp [hb]⟩))⟩
  obtain ⟨b, h3⟩ := h3
  have h4 := flushIf_has _ _ (by simp) (foldl_has id eps epsPos r _ _ (by simp) h3)
  have h5 : line id eps epsPos (l ++ some u :: some v :: some w :: r) = (flushIf (r.foldl (addpoint id eps epsPos) (addpoint id eps epsPos st (some w)))).path := by
    unfold line
    rw [← hst, List.foldl_append, List.foldl_append]
    rfl
  obtain ⟨p, hp1, hp2⟩ := h4
  rw [line_map, h5]
  exact ⟨p.map f, List.mem_map_of_mem hp1, f a, f b, by simpa using hp2.map f⟩

/-- C103 does not hold without the condition: a point barely outside (still taken as inside) and another one a bit further outside, far away in the other direction, give a
line far outside of the graph. -/
theorem line_escapes : ∃ u v p : VPos ℚ 2, p 1 < -6 ∧
    ∀ {P : Type} (x : VPos ℚ 2 → P), line x (1 / 10000000000) (1 / 10000000000) [some ![1 / 2, 1 / 2], some u, some v] = [[x ![1 / 2, 1 / 2], x u, x p]] := by
  refine ⟨![1 + 9 / 100000000000, 1 / 2], ![1 + 2 / 10000000000, 10], between ![1 + 9 / 100000000000, 1 / 2] ![1 + 2 / 10000000000, 10]
    (cutEnd (1 / 10000000000) ![1 + 9 / 100000000000, 1 / 2] ![1 + 2 / 10000000000, 10]), by decide +kernel, fun x => ?_⟩
  rw [line_map]
  have : line id (1 / 10000000000) (1 / 10000000000) [some ![1 / 2, 1 / 2], some ![1 + 9 / 100000000000, 1 / 2], some ![1 + 2 / 10000000000, 10]] =
      [[![1 / 2, 1 / 2], (![1 + 9 / 100000000000, 1 / 2] : VPos ℚ 2), between ![1 + 9 / 100000000000, 1 / 2] ![1 + 2 / 10000000000, 10]
        (cutEnd (1 / 10000000000) ![1 + 9 / 100000000000, 1 / 2] ![1 + 2 / 10000000000, 10])]] := by decide +kernel
  rw [this]
  rfl

/-- A line which leaves the graph, passes it by, crosses it without a point inside, and comes back after a point not available. -/
example : line id 0 0 [some ![1 / 2, 1 / 2], some ![1 / 2, 2], some ![-1, 1 / 2], some ![2, 1 / 2], none, some ![0, 0], some ![1, (1 : ℚ)]] =
    [[![1 / 2, 1 / 2], ![1 / 2, 1]], [![0, 1 / 2], ![1, 1 / 2]], [![0, 0], ![1, 1]]] := by decide +kernel

example : ∀ v, some v ∈ [some ![1 / 2, 1 / 2], some ![1 / 2, 2], none, some ![-1, (1 / 2 : ℚ)]] → Clear (1 / 10) (1 / 10) v := by
  intro v hv i
  simp only [List.mem_cons, Option.some.injEq, reduceCtorEq, List.not_mem_nil, or_false, false_or] at hv
  rcases hv with rfl | rfl | rfl <;> fin_cases i <;> norm_num

end PyX.Style
