import Verif.Parter.Log
import Verif.Parter.Props

/-!
# Properties C66 and C67: logarithmic partitions; the initial guess of the automatic partitioner (C14)
-/

set_option linter.unusedSectionVars false

namespace PyX.Parter
open PyX.Tick

theorem power_good (e : ℕ) (he : 0 < e) (i : ℤ) : 0 < (power ⟨e, 1⟩ i).denom ∧ (power ⟨e, 1⟩ i).val = (e : ℚ) ^ i := by
  have h0 : (e : Int) ≠ 0 := by omega
  constructor
  · have he' : (0 : Int) < e := by omega
    unfold power
    split_ifs
    · simp
    · simpa using he
    · exact pow_pos he' _
    · simp
    · simp
  · rw [(power_val ⟨e, 1⟩ i (by simp) (Or.inr h0)).1]
    simp [Frac.val]

/-! ## C14: the initial guess -/

/-- C14: the base of the automatic partitioner is the power of ten at or below the length of the range. -/
theorem autoBase_spec (mn mx : ℝ) (h : mn < mx) : ∃ (b : Frac) (n : ℤ), autoBase mn mx = some b ∧ 0 < b.denom ∧ b.val = 10 ^ n ∧
    (10 : ℝ) ^ n ≤ mx - mn ∧ mx - mn ≤ 10 * 10 ^ n := by
  have hd : 0 < mx - mn := by linarith
  have hlog : Real.log (mx - mn) / Real.log 10 = Real.logb 10 (mx - mn) := rfl
  have key : ∀ n : ℤ, (n : ℝ) ≤ Real.logb 10 (mx - mn) → Real.logb 10 (mx - mn) ≤ n + 1 →
      (10 : ℝ) ^ n ≤ mx - mn ∧ mx - mn ≤ 10 * 10 ^ n := by
    intro n h1 h2
    rw [Real.le_logb_iff_rpow_le (by norm_num) hd, Real.rpow_intCast] at h1
    rw [Real.logb_le_iff_le_rpow (by norm_num) hd] at h2
    refine ⟨h1, ?_⟩
    have e : ((n : ℝ) + 1) = ((n + 1 : ℤ) : ℝ) := by push_cast; ring
    rw [e, Real.rpow_intCast, zpow_add_one₀ (by norm_num)] at h2
    linarith
  unfold autoBase
  rw [if_neg (by linarith)]
  simp only [hlog]
  set l := Real.logb 10 (mx - mn) with hl
  by_cases hneg : l < 0
  · rw [if_pos hneg]
    have hp := power_good 10 (by norm_num) (pyInt (l - 1))
    refine ⟨_, pyInt (l - 1), rfl, hp.1, by simpa using hp.2, ?_⟩
    have e : pyInt (l - 1) = ⌈l⌉ - 1 := by
      unfold pyInt; rw [if_pos (by linarith)]; simp
    apply key
    · rw [e]; push_cast; have := Int.ceil_lt_add_one l; linarith
    · rw [e]; push_cast; have := Int.le_ceil l; linarith
  · rw [if_neg hneg]
    have hp := power_good 10 (by norm_num) (pyInt l)
    refine ⟨_, pyInt l, rfl, hp.1, by simpa using hp.2, ?_⟩
    have e : pyInt l = ⌊l⌋ := by unfold pyInt; rw [if_neg hneg]
    apply key
    · rw [e]; exact Int.floor_le l
    · rw [e]; exact (Int.lt_floor_add_one l).le

example : ∃ (b : Frac) (n : ℤ), autoBase 0 (3 : ℝ) = some b ∧ 0 < b.denom ∧ b.val = 10 ^ n ∧
    (10 : ℝ) ^ n ≤ 3 - 0 ∧ 3 - 0 ≤ 10 * (10 : ℝ) ^ n := autoBase_spec 0 3 (by norm_num)

/-! ## C66: ticks -/

/-- Specification: `p` is one of the numbers times a power of the base and lies in the range, up to the relative tolerance
`exp^(eps/2)`. -/
def IsLogTick (eps mn mx : ℝ) (d : Preexp) (p : ℚ) : Prop :=
  (∃ f ∈ d.pres, ∃ i : ℤ, p = f.val * (d.exp : ℚ) ^ i) ∧ mn * (d.exp : ℝ) ^ (-(eps / 2)) ≤ (p : ℝ) ∧
    (p : ℝ) ≤ mx * (d.exp : ℝ) ^ (eps / 2)

/-- A usable `preexp`. -/
def Preexp.Ok (d : Preexp) : Prop := 2 ≤ d.exp ∧ ∀ f ∈ d.pres, Pos f

theorem rawle (e f x eps : ℝ) (he : 1 < e) (hf : 0 < f) (hx : 0 < x) (i : ℤ) :
    Real.log (x / f) / Real.log e + eps ≤ i ↔ x * e ^ eps ≤ f * e ^ i := by
  have hlog : Real.log (x / f) / Real.log e = Real.logb e (x / f) := rfl
  have he0 : 0 < e := by linarith
  rw [hlog, ← le_sub_iff_add_le, Real.logb_le_iff_le_rpow he (div_pos hx hf), Real.rpow_sub he0, Real.rpow_intCast,
    div_le_div_iff₀ hf (Real.rpow_pos_of_pos he0 _), mul_comm (e ^ i) f]

theorem rawge (e f x eps : ℝ) (he : 1 < e) (hf : 0 < f) (hx : 0 < x) (i : ℤ) :
    (i : ℝ) ≤ Real.log (x / f) / Real.log e + eps ↔ f * e ^ i ≤ x * e ^ eps := by
  have hlog : Real.log (x / f) / Real.log e = Real.logb e (x / f) := rfl
  have he0 : 0 < e := by linarith
  rw [hlog, ← sub_le_iff_le_add, Real.le_logb_iff_rpow_le he (div_pos hx hf), Real.rpow_sub he0, Real.rpow_intCast,
    div_le_div_iff₀ (Real.rpow_pos_of_pos he0 _) hf, mul_comm (e ^ i) f]

theorem preTimes_val (f : Frac) (hf : Pos f) (e : ℕ) (he : 0 < e) (i : ℤ) :
    0 < (preTimes f e i).denom ∧ (preTimes f e i).val = f.val * (e : ℚ) ^ i := by
  obtain ⟨h1, h2⟩ := power_good e he i
  refine ⟨mul_pos hf.2 h1, ?_⟩
  rw [← h2]
  simp only [preTimes, Frac.val]
  push_cast
  rw [div_mul_div_comm]

theorem logTicks1_eq (eps mn mx : ℝ) (neg : Bool) (e : ℕ) (f : Frac) (tl ll : Option Int) :
    logTicks1 eps mn mx neg e f tl ll =
      if neg then ((irange ⌈Real.log (mn / toK f) / Real.log e - 1 / 2 * eps⌉
          (⌊Real.log (mx / toK f) / Real.log e + 1 / 2 * eps⌋ + 1)).map
          fun i => (⟨⟨-(preTimes f e i).num, (preTimes f e i).denom⟩, tl, ll, none⟩ : T)).reverse
      else (irange ⌈Real.log (mn / toK f) / Real.log e - 1 / 2 * eps⌉
          (⌊Real.log (mx / toK f) / Real.log e + 1 / 2 * eps⌋ + 1)).map
          fun i => (⟨preTimes f e i, tl, ll, none⟩ : T) := by
  unfold logTicks1
  dsimp only
  generalize irange _ _ = l
  cases neg
  · simp only [Bool.false_eq_true, if_false]
    have : ∀ acc : List T, l.foldl (fun ticks i => ticks ++ [(⟨preTimes f e i, tl, ll, none⟩ : T)]) acc =
        acc ++ l.map fun i => (⟨preTimes f e i, tl, ll, none⟩ : T) := by
      induction l with
      | nil => simp
      | cons a l ih => intro acc; simp [ih]
    simp [this]
  · simp only [if_true]
    have : ∀ acc : List T, l.foldl (fun ticks i => (⟨⟨-(preTimes f e i).num, (preTimes f e i).denom⟩, tl, ll, none⟩ : T) :: ticks) acc =
        (l.map fun i => (⟨⟨-(preTimes f e i).num, (preTimes f e i).denom⟩, tl, ll, none⟩ : T)).reverse ++ acc := by
      induction l with
      | nil => simp
      | cons a l ih => intro acc; simp [ih]
    simp [this]

/-- Sign of the range as a factor. -/
def sgn (neg : Bool) : ℚ := if neg then -1 else 1

theorem neg_val (q : Frac) : (Frac.mk (-q.num) q.denom).val = - q.val := by
  simp only [Frac.val]; push_cast; ring

theorem logTicks1_mem (eps mn mx : ℝ) (neg : Bool) (e : ℕ) (he : 2 ≤ e) (f : Frac) (hf : Pos f) (hmn : 0 < mn) (hmx : 0 < mx)
    (tl ll : Option Int) (p : ℚ) :
    (∃ t ∈ logTicks1 eps mn mx neg e f tl ll, t.pos.val = sgn neg * p) ↔
      (∃ i : ℤ, p = f.val * (e : ℚ) ^ i) ∧ mn * (e : ℝ) ^ (-(eps / 2)) ≤ (p : ℝ) ∧ (p : ℝ) ≤ mx * (e : ℝ) ^ (eps / 2) := by
  have he1 : (1 : ℝ) < e := by exact_mod_cast (by omega : 1 < e)
  have hk : (0 : ℝ) < toK f := hf.toK
  have key : ∀ i : ℤ, (i ∈ irange ⌈Real.log (mn / toK f) / Real.log e - 1 / 2 * eps⌉
      (⌊Real.log (mx / toK f) / Real.log e + 1 / 2 * eps⌋ + 1)) ↔
      mn * (e : ℝ) ^ (-(eps / 2)) ≤ ((f.val * (e : ℚ) ^ i : ℚ) : ℝ) ∧ ((f.val * (e : ℚ) ^ i : ℚ) : ℝ) ≤ mx * (e : ℝ) ^ (eps / 2) := by
    intro i
    rw [mem_irange, Int.ceil_le, Int.lt_add_one_iff, Int.le_floor, sub_eq_add_neg, rawle _ _ _ _ he1 hk hmn,
      rawge _ _ _ _ he1 hk hmx, toK_val]
    push_cast
    rw [show -(1 / 2 * eps) = -(eps / 2) by ring, show 1 / 2 * eps = eps / 2 by ring]
  rw [logTicks1_eq]
  constructor
  · rintro ⟨t, ht, e1⟩
    have : ∃ i, i ∈ irange ⌈Real.log (mn / toK f) / Real.log e - 1 / 2 * eps⌉
      (⌊Real.log (mx / toK f) / Real.log e + 1 / 2 * eps⌋ + 1) ∧ p = f.val * (e : ℚ) ^ i := by
      cases neg
      · simp only [Bool.false_eq_true, if_false, List.mem_map] at ht
        obtain ⟨i, hi, rfl⟩ := ht
        refine ⟨i, hi, ?_⟩
        rw [(preTimes_val f hf e (by omega) i).2] at e1
        simpa [sgn] using e1.symm
      · simp only [if_true, List.mem_reverse, List.mem_map] at ht
        obtain ⟨i, hi, rfl⟩ := ht
        refine ⟨i, hi, ?_⟩
        rw [neg_val, (preTimes_val f hf e (by omega) i).2] at e1
        simp [sgn] at e1
        exact e1.symm
    obtain ⟨i, hi, rfl⟩ := this
    exact ⟨⟨i, rfl⟩, (key i).1 hi⟩
  · rintro ⟨⟨i, rfl⟩, h⟩
    have hi := (key i).2 h
    cases neg
    · simp only [Bool.false_eq_true, if_false, List.mem_map]
      refine ⟨_, ⟨i, hi, rfl⟩, ?_⟩
      simp [sgn, (preTimes_val f hf e (by omega) i).2]
    · simp only [if_true, List.mem_reverse, List.mem_map]
      refine ⟨_, ⟨i, hi, rfl⟩, ?_⟩
      simp [sgn, neg_val, (preTimes_val f hf e (by omega) i).2]

theorem logTicks1_sorted (eps mn mx : ℝ) (neg : Bool) (e : ℕ) (he : 2 ≤ e) (f : Frac) (hf : Pos f) (tl ll : Option Int) :
    Sorted (logTicks1 eps mn mx neg e f tl ll) ∧ Good (logTicks1 eps mn mx neg e f tl ll) := by
  have he1 : (1 : ℚ) < e := by exact_mod_cast (by omega : 1 < e)
  have hlt : ∀ i j : ℤ, i < j → (preTimes f e i).val < (preTimes f e j).val := by
    intro i j hij
    rw [(preTimes_val f hf e (by omega) i).2, (preTimes_val f hf e (by omega) j).2]
    exact mul_lt_mul_of_pos_left (zpow_lt_zpow_right₀ he1 hij) hf.val
  rw [logTicks1_eq]
  cases neg
  · simp only [Bool.false_eq_true, if_false]
    refine ⟨?_, ?_⟩
    · unfold Sorted; rw [List.pairwise_map]
      exact (irange_sorted _ _).imp fun {i j} h => hlt i j h
    · intro t ht
      obtain ⟨i, -, rfl⟩ := List.mem_map.1 ht
      exact (preTimes_val f hf e (by omega) i).1
  · simp only [if_true]
    refine ⟨?_, ?_⟩
    · unfold Sorted; rw [List.pairwise_reverse, List.pairwise_map]
      refine (irange_sorted _ _).imp fun {i j} h => ?_
      rw [neg_val, neg_val]
      exact neg_lt_neg (hlt i j h)
    · intro t ht
      obtain ⟨i, -, rfl⟩ := List.mem_map.1 (List.mem_reverse.1 ht)
      exact (preTimes_val f hf e (by omega) i).1

theorem logTicks1_level (eps mn mx : ℝ) (neg : Bool) (e : ℕ) (f : Frac) (tl ll : Option Int) :
    ∀ t ∈ logTicks1 eps mn mx neg e f tl ll, t.ticklevel = tl ∧ t.labellevel = ll := by
  intro t ht
  rw [logTicks1_eq] at ht
  cases neg
  · simp only [Bool.false_eq_true, if_false, List.mem_map] at ht
    obtain ⟨i, -, rfl⟩ := ht; exact ⟨rfl, rfl⟩
  · simp only [if_true, List.mem_reverse, List.mem_map] at ht
    obtain ⟨i, -, rfl⟩ := ht; exact ⟨rfl, rfl⟩

theorem merge_same_level (tl ll : Option Int) (a b : List T) (ha : ∀ t ∈ a, t.ticklevel = tl ∧ t.labellevel = ll)
    (hb : ∀ t ∈ b, t.ticklevel = tl ∧ t.labellevel = ll) : ∀ t ∈ mergeticklists a b, t.ticklevel = tl ∧ t.labellevel = ll := by
  have hbet : ∀ x : Option Int, better x x = x := by intro x; cases x <;> simp [better]
  unfold mergeticklists
  rw [mergeLoop_eq, List.nil_append]
  fun_induction mergeR true a b with
  | case1 l1 => exact ha
  | case2 l2 => exact hb
  | case3 a l1 b l2 h ih =>
    intro t ht
    rcases List.mem_cons.1 ht with rfl | ht
    · exact hb _ (by simp)
    · exact ih ha (fun t ht => hb t (by simp [ht])) t ht
  | case4 a l1 b l2 h h2 ih =>
    intro t ht
    rcases List.mem_cons.1 ht with rfl | ht
    · have e := merge_levels a b
      simp only [if_true, e.2.1, e.2.2, (ha a (by simp)).1, (ha a (by simp)).2, (hb b (by simp)).1, (hb b (by simp)).2, hbet, and_self]
    · exact ih (fun t ht => ha t (by simp [ht])) (fun t ht => hb t (by simp [ht])) t ht
  | case5 a l1 b l2 h h2 ih =>
    intro t ht
    rcases List.mem_cons.1 ht with rfl | ht
    · exact ha _ (by simp)
    · exact ih (fun t ht => ha t (by simp [ht])) hb t ht

theorem logTicksPos_fn (eps mn mx : ℝ) (neg : Bool) (hmn : 0 < mn) (hmx : 0 < mx) (d : Preexp) (hd : d.Ok) :
    TickFn (logTicksPos eps mn mx neg) (fun d p => IsLogTick eps mn mx d (sgn neg * p)) d := by
  have hs : sgn neg * sgn neg = 1 := by cases neg <;> simp [sgn]
  have hfold : ∀ tl ll, logTicksPos eps mn mx neg d tl ll =
      (d.pres.map fun f => logTicks1 eps mn mx neg d.exp f tl ll).foldl (fun a l => mergeticklists a l) [] := by
    intro tl ll; simp [logTicksPos, List.foldl_map]
  have hg : ∀ tl ll, ∀ l ∈ d.pres.map (fun f => logTicks1 eps mn mx neg d.exp f tl ll), Sorted l ∧ Good l := by
    intro tl ll l hl
    obtain ⟨f, hf, rfl⟩ := List.mem_map.1 hl
    exact logTicks1_sorted eps mn mx neg d.exp hd.1 f (hd.2 f hf) tl ll
  refine ⟨?_, ?_, ?_⟩
  · intro tl ll
    rw [hfold]
    exact (mergeAll _ [] ⟨List.Pairwise.nil, by intro t ht; cases ht⟩ (hg tl ll)).1
  · intro tl ll p
    rw [hfold, (mergeAll _ [] ⟨List.Pairwise.nil, by intro t ht; cases ht⟩ (hg tl ll)).2.1 p]
    have e : p = sgn neg * (sgn neg * p) := by rw [← mul_assoc, hs, one_mul]
    constructor
    · rintro (⟨t, ht, -⟩ | ⟨l, hl, h⟩)
      · cases ht
      · obtain ⟨f, hf, rfl⟩ := List.mem_map.1 hl
        rw [e] at h
        obtain ⟨⟨i, hi⟩, h2⟩ := (logTicks1_mem eps mn mx neg d.exp hd.1 f (hd.2 f hf) hmn hmx tl ll _).1 h
        exact ⟨⟨f, hf, i, hi⟩, h2⟩
    · rintro ⟨⟨f, hf, i, hi⟩, h2⟩
      right
      refine ⟨_, List.mem_map.2 ⟨f, hf, rfl⟩, ?_⟩
      rw [e]
      exact (logTicks1_mem eps mn mx neg d.exp hd.1 f (hd.2 f hf) hmn hmx tl ll _).2 ⟨⟨i, hi⟩, h2⟩
  · intro tl ll
    rw [hfold]
    have : ∀ (ls : List (List T)) (acc : List T), (∀ t ∈ acc, t.ticklevel = tl ∧ t.labellevel = ll) →
        (∀ l ∈ ls, ∀ t ∈ l, t.ticklevel = tl ∧ t.labellevel = ll) →
        ∀ t ∈ ls.foldl (fun a l => mergeticklists a l) acc, t.ticklevel = tl ∧ t.labellevel = ll := by
      intro ls
      induction ls with
      | nil => intro acc h _; exact h
      | cons l ls ih =>
        intro acc h hl
        exact ih _ (merge_same_level tl ll acc l h (hl l (by simp))) fun m hm => hl m (by simp [hm])
    refine this _ _ (by intro t ht; cases ht) ?_
    intro l hl
    obtain ⟨f, hf, rfl⟩ := List.mem_map.1 hl
    exact logTicks1_level eps mn mx neg d.exp f tl ll

/-- The specification for both signs of the range. -/
def IsTickOnLog (eps mn mx : ℝ) (d : Preexp) (p : ℚ) : Prop :=
  if mx < 0 then IsLogTick eps (-mx) (-mn) d (-p) else IsLogTick eps mn mx d p

theorem not_bad {mn mx : ℝ} (h : ¬ badRange mn mx) : (0 < mn ∧ 0 < mx) ∨ (mn < 0 ∧ mx < 0) := by
  unfold badRange at h
  push Not at h
  rcases lt_trichotomy mn 0 with h1 | h1 | h1
  · exact .inr ⟨h1, h.1 h1.le⟩
  · have a := h.1 h1.le
    have b := h.2 h1.ge
    linarith
  · exact .inl ⟨h1, h.2 h1.le⟩

/-- `logTicks` on a legal range. -/
noncomputable def logTicksD (eps mn mx : ℝ) (d : Preexp) (tl ll : Option Int) : List T :=
  (logTicks eps mn mx d tl ll).getD []

theorem logTicks_some (eps mn mx : ℝ) (h : ¬ badRange mn mx) (d : Preexp) (tl ll : Option Int) :
    logTicks eps mn mx d tl ll = some (logTicksD eps mn mx d tl ll) := by
  unfold logTicksD logTicks
  rw [if_neg h]
  split <;> rfl

theorem logTicks_fn (eps mn mx : ℝ) (h : ¬ badRange mn mx) (d : Preexp) (hd : d.Ok) :
    TickFn (logTicksD eps mn mx) (IsTickOnLog eps mn mx) d := by
  rcases not_bad h with ⟨h1, h2⟩ | ⟨h1, h2⟩
  · have e : ∀ tl ll, logTicksD eps mn mx d tl ll = logTicksPos eps mn mx false d tl ll := by
      intro tl ll; simp [logTicksD, logTicks, if_neg h, not_lt.2 h2.le]
    have e2 : ∀ p, IsTickOnLog eps mn mx d p = IsLogTick eps mn mx d (sgn false * p) := by
      intro p; simp [IsTickOnLog, not_lt.2 h2.le, sgn]
    have f := logTicksPos_fn eps mn mx false h1 h2 d hd
    exact ⟨fun tl ll => by rw [e]; exact f.sorted tl ll, fun tl ll p => by rw [e, e2]; exact f.mem tl ll p,
      fun tl ll => by rw [e]; exact f.level tl ll⟩
  · have e : ∀ tl ll, logTicksD eps mn mx d tl ll = logTicksPos eps (-mx) (-mn) true d tl ll := by
      intro tl ll; simp [logTicksD, logTicks, if_neg h, h2]
    have e2 : ∀ p, IsTickOnLog eps mn mx d p = IsLogTick eps (-mx) (-mn) d (sgn true * p) := by
      intro p; simp [IsTickOnLog, h2, sgn]
    have f := logTicksPos_fn eps (-mx) (-mn) true (by linarith) (by linarith) d hd
    exact ⟨fun tl ll => by rw [e]; exact f.sorted tl ll, fun tl ll p => by rw [e, e2]; exact f.mem tl ll p,
      fun tl ll => by rw [e]; exact f.level tl ll⟩

/-- C66: on an all positive or all negative range the ticks of a logarithmic partition are, in increasing order and
each once, exactly the numbers `± pre * exp^i` in the range; on other ranges it refuses. -/
theorem logTicks_spec (eps mn mx : ℝ) (d : Preexp) (hd : d.Ok) (tl ll : Option Int) :
    (badRange mn mx → logTicks eps mn mx d tl ll = none) ∧
    (¬ badRange mn mx → ∃ l, logTicks eps mn mx d tl ll = some l ∧ Sorted l ∧
      ∀ p, (∃ t ∈ l, t.pos.val = p) ↔ IsTickOnLog eps mn mx d p) := by
  refine ⟨fun h => by simp [logTicks, h], fun h => ⟨_, logTicks_some eps mn mx h d tl ll, ?_, ?_⟩⟩
  · exact ((logTicks_fn eps mn mx h d hd).sorted tl ll).1
  · exact (logTicks_fn eps mn mx h d hd).mem tl ll

/-- C66: the whole partition with several lists (given the extended range). -/
theorem log_part_spec (p : Log) (mn mx : ℝ) (em eM : Bool) (r : ℝ × ℝ) (hr : p.range mn mx em eM = some r)
    (hb : ¬ badRange r.1 r.2) (ht : ∀ d ∈ p.ticklist, d.Ok) (hl : ∀ d ∈ p.labellist, d.Ok) :
    ∃ l, p.part mn mx em eM = some l ∧ Sorted l ∧
      (∀ q, (∃ t ∈ l, t.pos.val = q) ↔ ∃ d ∈ p.ticklist ++ p.labellist, IsTickOnLog p.eps r.1 r.2 d q) ∧
      ∀ t ∈ l, ∀ k, (t.ticklevel = some k ↔ FirstAt p.ticklist (fun d => IsTickOnLog p.eps r.1 r.2 d t.pos.val) k) ∧
        (t.labellevel = some k ↔ FirstAt p.labellist (fun d => IsTickOnLog p.eps r.1 r.2 d t.pos.val) k) := by
  have ht' : ∀ d ∈ p.ticklist, TickFn (logTicksD p.eps r.1 r.2) (IsTickOnLog p.eps r.1 r.2) d :=
    fun d hd => logTicks_fn _ _ _ hb d (ht d hd)
  have hl' : ∀ d ∈ p.labellist, TickFn (logTicksD p.eps r.1 r.2) (IsTickOnLog p.eps r.1 r.2) d :=
    fun d hd => logTicks_fn _ _ _ hb d (hl d hd)
  have hm := partG_mem p.ticklist p.labellist ht' hl'
  refine ⟨partG (logTicksD p.eps r.1 r.2) p.ticklist p.labellist, ?_, hm.1.1, hm.2, ?_⟩
  · unfold Log.part
    rw [hr, Option.bind_some]
    have fm : ∀ (l : List (Preexp × ℕ)) (f : ℕ → Option Int × Option Int) (acc : List T), l.foldlM (fun ticks d =>
        (logTicks p.eps r.1 r.2 d.1 (f d.2).1 (f d.2).2).map fun t => mergeticklists ticks t) acc =
        some (l.foldl (fun ticks d => mergeticklists ticks (logTicksD p.eps r.1 r.2 d.1 (f d.2).1 (f d.2).2)) acc) := by
      intro l f
      induction l with
      | nil => intro acc; rfl
      | cons a l ih =>
        intro acc
        rw [List.foldlM_cons, logTicks_some _ _ _ hb]
        exact ih _
    rw [fm _ (fun k => (some (k : Int), none)), Option.bind_some, fm _ (fun k => (none, some (k : Int)))]
    rfl
  · intro t htm k
    exact partG_level p.ticklist p.labellist ht' hl' t htm k

/-- Concrete case: on the range [1, 30], 20 is a tick of `pre125exp`, 30 is not. -/
example : IsTickOnLog 0 1 30 pre125exp 20 ∧ ¬ IsTickOnLog 0 1 30 pre125exp 50 ∧ IsTickOnLog 0 (-30) (-1) pre125exp (-20) ∧
    ¬ badRange 1 30 ∧ pre125exp.Ok := by
  have h : IsLogTick 0 1 30 pre125exp 20 := by
    refine ⟨⟨⟨2, 1⟩, by simp [pre125exp], 1, by norm_num [pre125exp, Frac.val]⟩, ?_, ?_⟩ <;> norm_num
  refine ⟨?_, ?_, ?_, ?_, ?_⟩
  · rw [IsTickOnLog, if_neg (by norm_num)]; exact h
  · rw [IsTickOnLog, if_neg (by norm_num)]
    rintro ⟨-, -, h3⟩; norm_num at h3
  · rw [IsTickOnLog, if_pos (by norm_num)]; simpa using h
  · simp [badRange]
  · refine ⟨by norm_num [pre125exp], ?_⟩
    intro f hf; simp [pre125exp] at hf; rcases hf with rfl | rfl | rfl <;> simp [Pos]

/-! ## C67: extension of the range -/

theorem argMin_spec (l : List ℤ) (hl : l ≠ []) : ∃ p k, argMin l = some (p, k) ∧ l[k]? = some p ∧ (∀ x ∈ l, p ≤ x) ∧
    ∀ j < k, ∀ x, l[j]? = some x → p < x := by
  induction l using List.reverseRecOn with
  | nil => exact absurd rfl hl
  | append_singleton l a ih =>
    unfold argMin
    rw [List.zipIdx_append, List.foldl_append]
    simp only [List.zipIdx_cons, List.zipIdx_nil, List.foldl_cons, List.foldl_nil, Nat.zero_add]
    by_cases h : l = []
    · subst h
      exact ⟨a, 0, rfl, rfl, by simp, by omega⟩
    · obtain ⟨p, k, h1, h2, h3, h4⟩ := ih h
      unfold argMin at h1
      rw [h1]
      have hk : k < l.length := by
        by_contra hc; rw [List.getElem?_eq_none (by omega)] at h2; cases h2
      dsimp only
      by_cases ha : a < p
      · rw [if_pos ha]
        refine ⟨a, l.length, rfl, by simp, ?_, ?_⟩
        · intro x hx
          rcases List.mem_append.1 hx with hx | hx
          · exact ha.le.trans (h3 x hx)
          · simp at hx; omega
        · intro j hj x hx
          rw [List.getElem?_append_left hj] at hx
          exact lt_of_lt_of_le ha (h3 x (List.mem_of_getElem? hx))
      · rw [if_neg ha]
        refine ⟨p, k, rfl, by rw [List.getElem?_append_left hk]; exact h2, ?_, ?_⟩
        · intro x hx
          rcases List.mem_append.1 hx with hx | hx
          · exact h3 x hx
          · simp at hx; omega
        · intro j hj x hx
          rw [List.getElem?_append_left (by omega)] at hx
          exact h4 j hj x hx

theorem argMax_spec (l : List ℤ) (hl : l ≠ []) : ∃ p k, argMax l = some (p, k) ∧ l[k]? = some p ∧ (∀ x ∈ l, x ≤ p) ∧
    ∀ j, k < j → ∀ x, l[j]? = some x → x < p := by
  induction l using List.reverseRecOn with
  | nil => exact absurd rfl hl
  | append_singleton l a ih =>
    unfold argMax
    rw [List.zipIdx_append, List.foldl_append]
    simp only [List.zipIdx_cons, List.zipIdx_nil, List.foldl_cons, List.foldl_nil, Nat.zero_add]
    by_cases h : l = []
    · subst h
      refine ⟨a, 0, rfl, rfl, by simp, ?_⟩
      intro j hj x hx
      rw [List.getElem?_eq_none (by simp; omega)] at hx; cases hx
    · obtain ⟨p, k, h1, h2, h3, h4⟩ := ih h
      unfold argMax at h1
      rw [h1]
      have hk : k < l.length := by
        by_contra hc; rw [List.getElem?_eq_none (by omega)] at h2; cases h2
      dsimp only
      by_cases ha : a ≥ p
      · rw [if_pos ha]
        refine ⟨a, l.length, rfl, by simp, ?_, ?_⟩
        · intro x hx
          rcases List.mem_append.1 hx with hx | hx
          · exact (h3 x hx).trans ha
          · simp at hx; omega
        · intro j hj x hx
          rw [List.getElem?_eq_none (by simp; omega)] at hx; cases hx
      · rw [if_neg ha]
        refine ⟨p, k, rfl, by rw [List.getElem?_append_left hk]; exact h2, ?_, ?_⟩
        · intro x hx
          rcases List.mem_append.1 hx with hx | hx
          · exact h3 x hx
          · simp at hx; omega
        · intro j hj x hx
          rcases Nat.lt_or_ge j l.length with hj2 | hj2
          · rw [List.getElem?_append_left hj2] at hx
            exact h4 j hj x hx
          · rcases Nat.eq_or_lt_of_le hj2 with rfl | hj3
            · simp at hx; omega
            · rw [List.getElem?_eq_none (by simp; omega)] at hx; cases hx

/-- A `preexp` with numbers ascending within one period (as all predefined ones). -/
structure Preexp.Asc (d : Preexp) : Prop where
  ok : d.Ok
  ne : d.pres ≠ []
  asc : d.pres.Pairwise fun a b => a.val < b.val
  period : ∀ a ∈ d.pres, ∀ b ∈ d.pres, a.val < d.exp * b.val

/-- A tick position of the partition. -/
def Preexp.IsPos (d : Preexp) (x : ℝ) : Prop := ∃ f ∈ d.pres, ∃ i : ℤ, x = (f.val : ℝ) * (d.exp : ℝ) ^ i

section Ext
variable (d : Preexp) (hd : d.Asc)
include hd

theorem asc_le {i j : ℕ} {a b : Frac} (hij : i ≤ j) (ha : d.pres[i]? = some a) (hb : d.pres[j]? = some b) :
    (a.val : ℝ) ≤ b.val := by
  rcases Nat.eq_or_lt_of_le hij with rfl | h
  · rw [ha] at hb; cases hb; exact le_rfl
  · obtain ⟨h1, rfl⟩ := List.getElem?_eq_some_iff.1 ha
    obtain ⟨h2, rfl⟩ := List.getElem?_eq_some_iff.1 hb
    have := List.pairwise_iff_getElem.1 hd.asc i j h1 h2 h
    exact_mod_cast this.le

theorem asc_lt_idx {i j : ℕ} {a b : Frac} (ha : d.pres[i]? = some a) (hb : d.pres[j]? = some b) (h : (a.val : ℝ) < b.val) :
    i < j := by
  by_contra hc
  have := asc_le d hd (not_lt.1 hc) hb ha
  linarith

theorem period_lt {a b : Frac} (ha : a ∈ d.pres) (hb : b ∈ d.pres) : (a.val : ℝ) < d.exp * b.val := by
  have := hd.period a ha b hb
  exact_mod_cast this

theorem exp_pos' : (0 : ℝ) < d.exp ∧ (1 : ℝ) < d.exp := by
  have := hd.ok.1
  exact ⟨by exact_mod_cast (by omega : 0 < d.exp), by exact_mod_cast (by omega : 1 < d.exp)⟩

theorem val_pos' {a : Frac} (ha : a ∈ d.pres) : (0 : ℝ) < a.val := by
  have := (hd.ok.2 a ha).val
  exact_mod_cast this

/-- Comparing positions of different periods. -/
theorem cross {a b : Frac} (ha : a ∈ d.pres) (hb : b ∈ d.pres) {m n : ℤ} (h : m < n) :
    (a.val : ℝ) * (d.exp : ℝ) ^ m < b.val * (d.exp : ℝ) ^ n := by
  obtain ⟨h0, h1⟩ := exp_pos' d hd
  calc (a.val : ℝ) * (d.exp : ℝ) ^ m < d.exp * b.val * (d.exp : ℝ) ^ m :=
        mul_lt_mul_of_pos_right (period_lt d hd ha hb) (zpow_pos h0 _)
    _ = b.val * (d.exp : ℝ) ^ (m + 1) := by rw [zpow_add_one₀ h0.ne']; ring
    _ ≤ b.val * (d.exp : ℝ) ^ n :=
        mul_le_mul_of_nonneg_left (zpow_le_zpow_right₀ h1.le (by omega)) (val_pos' d hd hb).le

/-- The new lower bound is the largest tick position not above the old one (times the tolerance). -/
theorem logMin_spec (eps mn : ℝ) (hmn : 0 < mn) : ∃ m, logMin eps mn d = some m ∧ d.IsPos m ∧ m ≤ mn * (d.exp : ℝ) ^ eps ∧
    ∀ x, d.IsPos x → x ≤ mn * (d.exp : ℝ) ^ eps → x ≤ m := by
  obtain ⟨h0, h1⟩ := exp_pos' d hd
  set g : Frac → ℤ := fun f => ⌊Real.log (mn / toK f) / Real.log d.exp + eps⌋ + 1 with hg
  have star : ∀ f ∈ d.pres, ∀ n : ℤ, n < g f ↔ (f.val : ℝ) * (d.exp : ℝ) ^ n ≤ mn * (d.exp : ℝ) ^ eps := by
    intro f hf n
    rw [hg]
    dsimp only
    rw [Int.lt_add_one_iff, Int.le_floor, rawge _ _ _ _ h1 (hd.ok.2 f hf).toK hmn, toK_val]
  obtain ⟨p, k, e, hk, hmin, hfirst⟩ := argMin_spec (d.pres.map g) (by simpa using hd.ne)
  rw [List.getElem?_map] at hk
  obtain ⟨fk, hfk, hpk⟩ := Option.map_eq_some_iff.1 hk
  have hfkm : fk ∈ d.pres := List.mem_of_getElem? hfk
  have habove : mn * (d.exp : ℝ) ^ eps < fk.val * (d.exp : ℝ) ^ p := by
    have := (star fk hfkm p).not.1 (by omega)
    exact not_le.1 this
  unfold logMin
  rw [e]
  dsimp only
  by_cases hk0 : k ≠ 0
  · rw [if_pos hk0]
    have hlt : k < d.pres.length := (List.getElem?_eq_some_iff.1 hfk).1
    have hprev : d.pres[k - 1]? = some d.pres[k - 1] := List.getElem?_eq_getElem (by omega)
    set fp := d.pres[k - 1] with hfp
    have hfpm : fp ∈ d.pres := List.mem_of_getElem? hprev
    rw [hprev]
    refine ⟨tickAt fp d.exp (p), rfl, ⟨fp, hfpm, p, ?_⟩, ?_, ?_⟩
    · rw [tickAt, toK_val]
    · rw [tickAt, toK_val]
      refine (star fp hfpm p).1 ?_
      exact hfirst (k - 1) (by omega) _ (by rw [List.getElem?_map, hprev]; rfl)
    · rintro x ⟨f, hf, n, rfl⟩ hx
      rw [tickAt, toK_val]
      have hxk := lt_of_le_of_lt hx habove
      rcases lt_trichotomy n p with h | h | h
      · exact (cross d hd hf hfpm h).le
      · subst h
        have hv : (f.val : ℝ) < fk.val := lt_of_mul_lt_mul_right hxk (zpow_pos h0 _).le
        obtain ⟨j, hj⟩ := List.getElem?_of_mem hf
        have hjk := asc_lt_idx d hd hj hfk hv
        exact mul_le_mul_of_nonneg_right (asc_le d hd (by omega) hj hprev) (zpow_pos h0 _).le
      · have := cross d hd hfkm hf h
        linarith
  · rw [if_neg hk0]
    have hk0' : k = 0 := by omega
    subst hk0'
    have hlast : d.pres.getLast? = some (d.pres.getLast hd.ne) := List.getLast?_eq_some_getLast hd.ne
    set fl := d.pres.getLast hd.ne with hfl
    have hflm : fl ∈ d.pres := List.getLast_mem hd.ne
    have hfli : d.pres[d.pres.length - 1]? = some fl := by
      rw [← List.getLast?_eq_getElem?]; exact hlast
    rw [hlast]
    refine ⟨tickAt fl d.exp (p - 1), rfl, ⟨fl, hflm, p - 1, ?_⟩, ?_, ?_⟩
    · rw [tickAt, toK_val]
    · rw [tickAt, toK_val]
      refine (star fl hflm _).1 ?_
      have := hmin (g fl) (List.mem_map.2 ⟨fl, hflm, rfl⟩)
      omega
    · rintro x ⟨f, hf, n, rfl⟩ hx
      rw [tickAt, toK_val]
      have hxk := lt_of_le_of_lt hx habove
      rcases lt_trichotomy n (p - 1) with h | h | h
      · exact (cross d hd hf hflm h).le
      · subst h
        obtain ⟨j, hj⟩ := List.getElem?_of_mem hf
        have hjl : j < d.pres.length := (List.getElem?_eq_some_iff.1 hj).1
        exact mul_le_mul_of_nonneg_right (asc_le d hd (by omega) hj hfli) (zpow_pos h0 _).le
      · exfalso
        rcases Int.lt_or_eq_of_le (by omega : p ≤ n) with h' | h'
        · have := cross d hd hfkm hf h'; linarith
        · subst h'
          obtain ⟨j, hj⟩ := List.getElem?_of_mem hf
          have := mul_le_mul_of_nonneg_right (asc_le d hd (Nat.zero_le j) hfk hj) (zpow_pos h0 p).le
          linarith

/-- The new upper bound is the smallest tick position not below the old one (divided by the tolerance). -/
theorem logMax_spec (eps mx : ℝ) (hmx : 0 < mx) : ∃ m, logMax eps mx d = some m ∧ d.IsPos m ∧ mx * (d.exp : ℝ) ^ (-eps) ≤ m ∧
    ∀ x, d.IsPos x → mx * (d.exp : ℝ) ^ (-eps) ≤ x → m ≤ x := by
  obtain ⟨h0, h1⟩ := exp_pos' d hd
  set g : Frac → ℤ := fun f => ⌈Real.log (mx / toK f) / Real.log d.exp - eps⌉ - 1 with hg
  have star : ∀ f ∈ d.pres, ∀ n : ℤ, g f < n ↔ mx * (d.exp : ℝ) ^ (-eps) ≤ (f.val : ℝ) * (d.exp : ℝ) ^ n := by
    intro f hf n
    rw [hg]
    dsimp only
    rw [Int.sub_one_lt_iff, Int.ceil_le, sub_eq_add_neg,
      rawle _ _ _ _ h1 (hd.ok.2 f hf).toK hmx, toK_val]
  obtain ⟨p, k, e, hk, hmax, hlastk⟩ := argMax_spec (d.pres.map g) (by simpa using hd.ne)
  rw [List.getElem?_map] at hk
  obtain ⟨fk, hfk, hpk⟩ := Option.map_eq_some_iff.1 hk
  have hfkm : fk ∈ d.pres := List.mem_of_getElem? hfk
  have hklt : k < d.pres.length := (List.getElem?_eq_some_iff.1 hfk).1
  have hbelow : fk.val * (d.exp : ℝ) ^ p < mx * (d.exp : ℝ) ^ (-eps) := by
    have := (star fk hfkm p).not.1 (by omega)
    exact not_le.1 this
  unfold logMax
  rw [e]
  dsimp only
  by_cases hk0 : k ≠ d.pres.length - 1
  · rw [if_pos hk0]
    have hnext : d.pres[k + 1]? = some d.pres[k + 1] := List.getElem?_eq_getElem (by omega)
    set fp := d.pres[k + 1] with hfp
    have hfpm : fp ∈ d.pres := List.mem_of_getElem? hnext
    rw [hnext]
    refine ⟨tickAt fp d.exp (p), rfl, ⟨fp, hfpm, p, ?_⟩, ?_, ?_⟩
    · rw [tickAt, toK_val]
    · rw [tickAt, toK_val]
      refine (star fp hfpm p).1 ?_
      exact hlastk (k + 1) (by omega) _ (by rw [List.getElem?_map, hnext]; rfl)
    · rintro x ⟨f, hf, n, rfl⟩ hx
      rw [tickAt, toK_val]
      have hxk := lt_of_lt_of_le hbelow hx
      rcases lt_trichotomy n p with h | h | h
      · have := cross d hd hf hfkm h
        linarith
      · subst h
        have hv : (fk.val : ℝ) < f.val := lt_of_mul_lt_mul_right hxk (zpow_pos h0 _).le
        obtain ⟨j, hj⟩ := List.getElem?_of_mem hf
        have hjk := asc_lt_idx d hd hfk hj hv
        exact mul_le_mul_of_nonneg_right (asc_le d hd (by omega) hnext hj) (zpow_pos h0 _).le
      · exact (cross d hd hfpm hf h).le
  · rw [if_neg hk0]
    have hk0' : k = d.pres.length - 1 := by omega
    have hhead : d.pres.head? = some (d.pres.head hd.ne) := List.head?_eq_some_head hd.ne
    set fl := d.pres.head hd.ne with hfl
    have hflm : fl ∈ d.pres := List.head_mem hd.ne
    have hfli : d.pres[0]? = some fl := by
      rw [← List.head?_eq_getElem?]; exact hhead
    rw [hhead]
    refine ⟨tickAt fl d.exp (p + 1), rfl, ⟨fl, hflm, p + 1, ?_⟩, ?_, ?_⟩
    · rw [tickAt, toK_val]
    · rw [tickAt, toK_val]
      refine (star fl hflm _).1 ?_
      have := hmax (g fl) (List.mem_map.2 ⟨fl, hflm, rfl⟩)
      omega
    · rintro x ⟨f, hf, n, rfl⟩ hx
      rw [tickAt, toK_val]
      have hxk := lt_of_lt_of_le hbelow hx
      rcases lt_trichotomy n (p + 1) with h | h | h
      · exfalso
        rcases Int.lt_or_eq_of_le (by omega : n ≤ p) with h' | h'
        · have := cross d hd hf hfkm h'; linarith
        · subst h'
          obtain ⟨j, hj⟩ := List.getElem?_of_mem hf
          have hjl : j < d.pres.length := (List.getElem?_eq_some_iff.1 hj).1
          have := mul_le_mul_of_nonneg_right (asc_le d hd (by omega) hj hfk) (zpow_pos h0 n).le
          linarith
      · subst h
        obtain ⟨j, hj⟩ := List.getElem?_of_mem hf
        exact mul_le_mul_of_nonneg_right (asc_le d hd (Nat.zero_le j) hfli hj) (zpow_pos h0 _).le
      · exact (cross d hd hflm hf h).le

end Ext

/-- C67 (positive ranges): the bounds to be extended go to the nearest enclosing tick positions, the others stay. The
statement for negative ranges fails, see `negative_flags_swapped`. -/
theorem logExtend_spec_partial (eps mn mx : ℝ) (d : Preexp) (hd : d.Asc) (hmn : 0 < mn) (hmx : 0 < mx) (em eM : Bool) :
    ∃ r, logExtend eps mn mx d em eM = some r ∧ (em = false → r.1 = mn) ∧ (eM = false → r.2 = mx) ∧
      (em = true → d.IsPos r.1 ∧ r.1 ≤ mn * (d.exp : ℝ) ^ eps ∧ ∀ x, d.IsPos x → x ≤ mn * (d.exp : ℝ) ^ eps → x ≤ r.1) ∧
      (eM = true → d.IsPos r.2 ∧ mx * (d.exp : ℝ) ^ (-eps) ≤ r.2 ∧ ∀ x, d.IsPos x → mx * (d.exp : ℝ) ^ (-eps) ≤ x → r.2 ≤ x) := by
  obtain ⟨a, ha, ha2⟩ := logMin_spec d hd eps mn hmn
  obtain ⟨b, hb, hb2⟩ := logMax_spec d hd eps mx hmx
  have hbad : ¬ badRange mn mx := by unfold badRange; push Not; constructor <;> intro <;> linarith
  refine ⟨(if em then a else mn, if eM then b else mx), ?_, ?_, ?_, ?_, ?_⟩
  · unfold logExtend; rw [if_neg hbad, if_neg (by linarith), logExtendPos, ha, hb]
  · rintro rfl; rfl
  · rintro rfl; rfl
  · rintro rfl; exact ha2
  · rintro rfl; exact hb2

/-- What the property says for all ranges: a bound that is not to be extended stays. -/
def ExtendKeepsFixed : Prop := ∀ (eps mn mx : ℝ) (d : Preexp) (em eM : Bool) (r : ℝ × ℝ), d.Asc → ¬ badRange mn mx →
  logExtend eps mn mx d em eM = some r → (em = false → r.1 = mn) ∧ (eM = false → r.2 = mx)

theorem pre1_asc : pre1exp.Asc := by
  refine ⟨⟨by norm_num [pre1exp], ?_⟩, by simp [pre1exp], by simp [pre1exp], ?_⟩
  · intro f hf; simp [pre1exp] at hf; subst hf; simp [Pos]
  · intro a ha b hb; simp [pre1exp] at ha hb; subst ha; subst hb; norm_num [pre1exp, Frac.val]

theorem pre125_asc : pre125exp.Asc := by
  refine ⟨⟨by norm_num [pre125exp], ?_⟩, by simp [pre125exp], ?_, ?_⟩
  · intro f hf; simp [pre125exp] at hf; rcases hf with rfl | rfl | rfl <;> simp [Pos]
  · simp [pre125exp, Frac.val]; norm_num
  · intro a ha b hb; simp [pre125exp] at ha hb
    rcases ha with rfl | rfl | rfl <;> rcases hb with rfl | rfl | rfl <;> norm_num [pre125exp, Frac.val]

/-- For negative ranges the flags are exchanged: the *upper* bound is moved by `extendmin` and the lower one by `extendmax`. -/
theorem logExtend_negative (eps mn mx : ℝ) (d : Preexp) (hd : d.Asc) (hmn : mn < 0) (hmx : mx < 0) (em eM : Bool) :
    ∃ r, logExtend eps mn mx d em eM = some r ∧ (eM = false → r.1 = mn) ∧ (em = false → r.2 = mx) ∧
      (eM = true → d.IsPos (-r.1) ∧ -mn * (d.exp : ℝ) ^ (-eps) ≤ -r.1 ∧
        ∀ x, d.IsPos x → -mn * (d.exp : ℝ) ^ (-eps) ≤ x → -r.1 ≤ x) ∧
      (em = true → d.IsPos (-r.2) ∧ -r.2 ≤ -mx * (d.exp : ℝ) ^ eps ∧ ∀ x, d.IsPos x → x ≤ -mx * (d.exp : ℝ) ^ eps → x ≤ -r.2) := by
  obtain ⟨a, ha, ha2⟩ := logMin_spec d hd eps (-mx) (by linarith)
  obtain ⟨b, hb, hb2⟩ := logMax_spec d hd eps (-mn) (by linarith)
  have hbad : ¬ badRange mn mx := by unfold badRange; push Not; constructor <;> intro <;> linarith
  refine ⟨(-(if eM then b else -mn), -(if em then a else -mx)), ?_, ?_, ?_, ?_, ?_⟩
  · unfold logExtend; rw [if_neg hbad, if_pos hmx, logExtendPos, ha, hb]; rfl
  · rintro rfl; simp
  · rintro rfl; simp
  · rintro rfl; simpa using hb2
  · rintro rfl; simpa using ha2

/-- The property is false for negative ranges: a fixed upper bound -2 is moved to -1 when only the lower bound is to be
extended. -/
theorem negative_flags_swapped : ¬ ExtendKeepsFixed := by
  intro h
  obtain ⟨r, hr, -, -, -, h4⟩ := logExtend_negative 0 (-30) (-2) pre1exp pre1_asc (by norm_num) (by norm_num) true false
  have hbad : ¬ badRange (-30) (-2) := by unfold badRange; norm_num
  have h2 := (h 0 (-30) (-2) pre1exp true false r pre1_asc hbad hr).2 rfl
  obtain ⟨⟨f, hf, i, hi⟩, -⟩ := h4 rfl
  rw [h2] at hi
  simp [pre1exp] at hf
  subst hf
  simp [Frac.val, pre1exp] at hi
  rcases lt_trichotomy i 0 with h | h | h
  · have : (10 : ℝ) ^ i ≤ 10 ^ (-1 : ℤ) := zpow_le_zpow_right₀ (by norm_num) (by omega)
    norm_num at this; linarith
  · subst h; norm_num at hi
  · have : (10 : ℝ) ^ (1 : ℤ) ≤ 10 ^ i := zpow_le_zpow_right₀ (by norm_num) (by omega)
    norm_num at this; linarith

/-- Concrete case: [3, 40] is extended to [2, 50] by `pre125exp`. -/
example : logExtend 0 3 40 pre125exp true true = some (2, 50) := by
  obtain ⟨r, hr, -, -, h3, h4⟩ := logExtend_spec_partial 0 3 40 pre125exp pre125_asc (by norm_num) (by norm_num) true true
  obtain ⟨h3a, h3b, h3c⟩ := h3 rfl
  obtain ⟨h4a, h4b, h4c⟩ := h4 rfl
  have p2 : pre125exp.IsPos 2 := ⟨⟨2, 1⟩, by simp [pre125exp], 0, by norm_num [Frac.val]⟩
  have p50 : pre125exp.IsPos 50 := ⟨⟨5, 1⟩, by simp [pre125exp], 1, by norm_num [Frac.val, pre125exp]⟩
  have h2 := h3c 2 p2 (by norm_num)
  have h50 := h4c 50 p50 (by norm_num)
  norm_num at h3b h4b
  have gap : ∀ x, pre125exp.IsPos x → (2 ≤ x → x ≤ 3 → x = 2) ∧ (40 ≤ x → x ≤ 50 → x = 50) := by
    rintro x ⟨f, hf, i, rfl⟩
    have hi : i < 0 ∨ i = 0 ∨ i = 1 ∨ 2 ≤ i := by omega
    simp [pre125exp] at hf
    have hlow : i < 0 → (10 : ℝ) ^ i ≤ 1 / 10 := fun h => by
      have : (10 : ℝ) ^ i ≤ 10 ^ (-1 : ℤ) := zpow_le_zpow_right₀ (by norm_num) (by omega)
      norm_num at this; linarith
    have hhigh : 2 ≤ i → (100 : ℝ) ≤ 10 ^ i := fun h => by
      have : (10 : ℝ) ^ (2 : ℤ) ≤ 10 ^ i := zpow_le_zpow_right₀ (by norm_num) (by omega)
      norm_num at this; linarith
    rcases hi with hi | rfl | rfl | hi
    · have := hlow hi
      rcases hf with rfl | rfl | rfl <;> norm_num [Frac.val, pre125exp] <;> constructor <;> intros <;> linarith
    · rcases hf with rfl | rfl | rfl <;> norm_num [Frac.val, pre125exp]
    · rcases hf with rfl | rfl | rfl <;> norm_num [Frac.val, pre125exp]
    · have := hhigh hi
      rcases hf with rfl | rfl | rfl <;> norm_num [Frac.val, pre125exp] <;> constructor <;> intros <;> linarith
  rw [hr]
  have e1 := (gap r.1 h3a).1 h2 h3b
  have e2 := (gap r.2 h4a).2 h4b h50
  rw [← e1, ← e2]

end PyX.Parter
