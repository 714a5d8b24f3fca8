import Verif.Axis.Rate
import Verif.Tick.Props
import Mathlib.Algebra.Order.Archimedean.Basic
import Mathlib.Algebra.Order.Floor.Ring
import Mathlib.Algebra.BigOperators.Group.List.Basic
import Mathlib.Algebra.Order.BigOperators.Group.List
import Mathlib.Tactic.Linarith
import Mathlib.Tactic.Ring
import Mathlib.Tactic.Positivity
import Mathlib.Tactic.NormNum
import Mathlib.Data.Rat.Floor

/-!
# Properties C68 (ratings), C69 (choice of the partition), C70 (direction of rotated labels)
-/

set_option linter.unusedSectionVars false

namespace PyX.Axis
open PyX.Tick

variable {K : Type} [Field K] [LinearOrder K] [IsStrictOrderedRing K]

/-! ## C68 -/

/-- A sensible rater (as its doc string demands). -/
structure Cube.Ok (c : Cube K) : Prop where
  left : c.left < c.opt
  right : c.opt < c.right
  weight : 0 < c.weight

theorem cube_low (c : Cube K) (value density : K) (h : value < c.opt * density) :
    c.rate value density = c.weight * ((c.opt * density - value) / (c.opt * density - c.left * density)) ^ 3 := by
  simp only [Cube.rate, if_pos h]
  rw [← neg_sub (c.opt * density) value, ← neg_sub (c.opt * density) (c.left * density), neg_div_neg_eq]

theorem cube_high (c : Cube K) (value density : K) (h : c.opt * density < value) :
    c.rate value density = c.weight * ((value - c.opt * density) / (c.right * density - c.opt * density)) ^ 3 := by
  simp only [Cube.rate, if_neg (not_lt.2 h.le), gt_iff_lt, if_pos h]

theorem cube_opt (c : Cube K) (density : K) : c.rate (c.opt * density) density = 0 := by simp [Cube.rate]

/-- C68: a rating is not negative, zero exactly at the optimum, the weight at the left and right value. -/
theorem cube_spec (c : Cube K) (hc : c.Ok) (density : K) (hd : 0 < density) :
    (∀ v, 0 ≤ c.rate v density) ∧ (∀ v, c.rate v density = 0 ↔ v = c.opt * density) ∧
    c.rate (c.left * density) density = c.weight ∧ c.rate (c.right * density) density = c.weight := by
  have hl : c.left * density < c.opt * density := mul_lt_mul_of_pos_right hc.left hd
  have hr : c.opt * density < c.right * density := mul_lt_mul_of_pos_right hc.right hd
  have pos : ∀ v, v ≠ c.opt * density → 0 < c.rate v density := by
    intro v hv
    rcases lt_or_gt_of_ne hv with h | h
    · rw [cube_low c v density h]
      exact mul_pos hc.weight (pow_pos (div_pos (by linarith) (by linarith)) 3)
    · rw [cube_high c v density h]
      exact mul_pos hc.weight (pow_pos (div_pos (by linarith) (by linarith)) 3)
  refine ⟨?_, ?_, ?_, ?_⟩
  · intro v
    by_cases h : v = c.opt * density
    · rw [h, cube_opt]
    · exact (pos v h).le
  · intro v
    constructor
    · intro h; by_contra hc; exact (pos v hc).ne' h
    · rintro rfl; exact cube_opt c density
  · rw [cube_low c _ density hl, div_self (by linarith), one_pow, mul_one]
  · rw [cube_high c _ density hr, div_self (by linarith), one_pow, mul_one]

/-- C68: the farther from the optimum (on either side), the worse. -/
theorem cube_mono (c : Cube K) (hc : c.Ok) (density : K) (hd : 0 < density) (u v : K) :
    (c.opt * density ≤ u → u < v → c.rate u density < c.rate v density) ∧
    (v ≤ c.opt * density → u < v → c.rate v density < c.rate u density) := by
  have hl : 0 < c.opt * density - c.left * density := sub_pos.2 (mul_lt_mul_of_pos_right hc.left hd)
  have hr : 0 < c.right * density - c.opt * density := sub_pos.2 (mul_lt_mul_of_pos_right hc.right hd)
  obtain ⟨nn, z, -, -⟩ := cube_spec c hc density hd
  constructor
  · intro h1 h2
    rcases h1.eq_or_lt with h | h
    · subst h
      rw [cube_opt]
      exact lt_of_le_of_ne (nn v) (Ne.symm ((z v).not.2 h2.ne'))
    · rw [cube_high c u density h, cube_high c v density (h.trans h2)]
      apply mul_lt_mul_of_pos_left _ hc.weight
      apply pow_lt_pow_left₀ _ (div_nonneg (by linarith) hr.le) (by norm_num)
      exact div_lt_div_of_pos_right (by linarith) hr
  · intro h1 h2
    rcases h1.eq_or_lt with h | h
    · subst h
      rw [cube_opt]
      exact lt_of_le_of_ne (nn u) (Ne.symm ((z u).not.2 h2.ne))
    · rw [cube_low c u density (h2.trans h), cube_low c v density h]
      apply mul_lt_mul_of_pos_left _ hc.weight
      apply pow_lt_pow_left₀ _ (div_nonneg (by linarith) hl.le) (by norm_num)
      exact div_lt_div_of_pos_right (by linarith) hl

theorem sum_zero_of_nonneg (l : List K) (h : ∀ x ∈ l, 0 ≤ x) (hs : l.sum = 0) : ∀ x ∈ l, x = 0 := by
  induction l with
  | nil => simp
  | cons a l ih =>
    rw [List.sum_cons] at hs
    have h1 := h a (by simp)
    have h2 : 0 ≤ l.sum := List.sum_nonneg fun x hx => h x (by simp [hx])
    intro x hx
    rcases List.mem_cons.1 hx with rfl | hx
    · linarith
    · exact ih (fun y hy => h y (by simp [hy])) (by linarith) x hx

theorem foldl_dist (opt weight : K) (ds : List K) (a : K) :
    ds.foldl (fun rate d => if d < opt then rate + weight * (opt / d - 1) else rate + weight * (d / opt - 1)) a =
      a + (ds.map fun d => weight * (if d < opt then opt / d - 1 else d / opt - 1)).sum := by
  induction ds generalizing a with
  | nil => simp
  | cons d ds ih =>
    simp only [List.foldl_cons, List.map_cons, List.sum_cons]
    rw [ih]
    split <;> ring

/-- C68: the rating of label distances is not negative, and zero only if all distances have the optimal value. -/
theorem distRate_spec (opt weight density : K) (ho : 0 < opt) (hw : 0 < weight) (hd : 0 < density) (ds : List K)
    (hpos : ∀ d ∈ ds, 0 < d) (hne : ds ≠ []) :
    ∃ r, distRate opt weight ds density = some r ∧ 0 ≤ r ∧ (r = 0 ↔ ∀ d ∈ ds, d = opt / density) := by
  have hk : 0 < opt / density := div_pos ho hd
  have hlen : (0 : K) < ds.length := by
    have : 0 < ds.length := List.length_pos_iff.2 hne
    exact_mod_cast this
  have e : distRate opt weight ds density = some
      ((ds.map fun d => weight * (if d < opt / density then (opt / density) / d - 1 else d / (opt / density) - 1)).sum / ds.length) := by
    unfold distRate
    rw [if_neg (by simpa using hne)]
    simp only [foldl_dist, zero_add]
  have term : ∀ d ∈ ds, 0 ≤ weight * (if d < opt / density then (opt / density) / d - 1 else d / (opt / density) - 1) ∧
      (weight * (if d < opt / density then (opt / density) / d - 1 else d / (opt / density) - 1) = 0 ↔ d = opt / density) := by
    intro d hdm
    have hdp := hpos d hdm
    split
    · rename_i h
      have : 1 < (opt / density) / d := (one_lt_div hdp).2 h
      have h2 : 0 < weight * ((opt / density) / d - 1) := mul_pos hw (by linarith)
      exact ⟨h2.le, ⟨fun h0 => absurd h0 h2.ne', fun h0 => absurd h0 h.ne⟩⟩
    · rename_i h
      have h1 : 1 ≤ d / (opt / density) := (one_le_div hk).2 (not_lt.1 h)
      refine ⟨mul_nonneg hw.le (by linarith), ?_⟩
      rw [mul_eq_zero]
      constructor
      · rintro (h0 | h0)
        · exact absurd h0 hw.ne'
        · exact (div_eq_one_iff_eq hk.ne').1 (by linarith)
      · rintro rfl; right; rw [div_self hk.ne', sub_self]
  refine ⟨_, e, div_nonneg (List.sum_nonneg ?_) hlen.le, ?_⟩
  · intro x hx
    obtain ⟨d, hd', rfl⟩ := List.mem_map.1 hx
    exact (term d hd').1
  · rw [div_eq_zero_iff]
    constructor
    · rintro (h | h)
      · intro d hd'
        have hall := sum_zero_of_nonneg _ ?_ h
        · exact (term d hd').2.1 (hall _ (List.mem_map.2 ⟨d, hd', rfl⟩))
        · intro x hx
          obtain ⟨d, hd', rfl⟩ := List.mem_map.1 hx
          exact (term d hd').1
      · exact absurd h hlen.ne'
    · intro h
      left
      apply List.sum_eq_zero
      intro x hx
      obtain ⟨d, hd', rfl⟩ := List.mem_map.1 hx
      exact (term d hd').2.2 (h d hd')

/-- A level of at least the given importance. -/
def upTo (k : Nat) : Option Int → Bool
  | none => false
  | some x => decide (x ≤ k)

/-- C68: the number rated for a level is the number of ticks of this and all more important levels. -/
theorem countLevels_spec (levels : List (Option Int)) (m : Nat) (k : Nat) (hk : k < m) :
    (countLevels levels m)[k]? = some ((levels.filter (upTo k)).length) := by
  have gen : ∀ (levels : List (Option Int)) (c : List Nat) (n : Nat), c[k]? = some n →
      (levels.foldl (fun counts l => match l with
        | none => counts
        | some l => counts.mapIdx fun level c => if l ≤ level then c + 1 else c) c)[k]? =
      some (n + (levels.filter (upTo k)).length) := by
    intro levels
    induction levels with
    | nil => intro c n h; simpa using h
    | cons l levels ih =>
      intro c n h
      rw [List.foldl_cons]
      cases l with
      | none =>
        rw [ih c n h]; simp [upTo]
      | some x =>
        have h2 : (c.mapIdx fun level c => if x ≤ level then c + 1 else c)[k]? = some (if x ≤ (k : Int) then n + 1 else n) := by
          rw [List.getElem?_mapIdx, h]; rfl
        refine (ih _ _ h2).trans ?_
        by_cases hx : x ≤ (k : Int)
        · simp [hx, upTo]; omega
        · simp [hx, upTo]
  have := gen levels (List.replicate m 0) 0 (by simp [hk])
  rw [Nat.zero_add] at this
  exact this

/-- C68: the rating of a partition is not negative. -/
theorem rateticks_nonneg (tr lr : List (Cube K)) (ht : ∀ c ∈ tr, c.Ok) (hl : ∀ c ∈ lr, c.Ok) (density : K) (hd : 0 < density)
    (ticks : List T) (r : K) (h : rateticks tr lr density ticks = some r) : 0 ≤ r := by
  unfold rateticks at h
  dsimp only at h
  split at h
  · cases h
  · simp only [Option.some.injEq] at h
    rw [← h]
    have hok : ∀ z ∈ (countLevels (ticks.map T.ticklevel) (maxlevels ticks).1.toNat).zip tr ++
        (countLevels (ticks.map T.labellevel) (maxlevels ticks).2.toNat).zip lr, z.2.Ok := by
      intro z hz
      rcases List.mem_append.1 hz with hz | hz
      · exact ht _ (List.of_mem_zip hz).2
      · exact hl _ (List.of_mem_zip hz).2
    apply div_nonneg
    · apply List.sum_nonneg
      intro x hx
      obtain ⟨z, hz, rfl⟩ := List.mem_map.1 hx
      exact (cube_spec z.2 (hok z hz) density hd).1 _
    · apply List.sum_nonneg
      intro x hx
      obtain ⟨z, hz, rfl⟩ := List.mem_map.1 hx
      exact (hok z hz).weight.le

example : (Cube.init (4 : ℚ) none none 1).Ok := ⟨by decide +kernel, by decide +kernel, by decide +kernel⟩
example : (Cube.init (4 : ℚ) none none 1).rate 8 1 = 1 / 8 ∧ distRate (28 : ℚ) (1 / 10) [14, 28, 56] 1 = some (2 / 30) ∧
    countLevels [some 0, some 1, none, some 0] 2 = [2, 3] := by decide +kernel

/-! ## C69 -/

/-- The final rating of a variant that has rate `rate0` at first: with the layout. -/
def Variant.totalRate (v : Variant K) : Option K := v.layout.map (v.rate + ·)

/-- A variant in the course of the loop, compared with the original one. -/
def Rel (o v : Variant K) : Prop :=
  v.layout = o.layout ∧ v.nonempty = o.nonempty ∧
  (v.stored = false → v.rate = o.rate) ∧ (v.stored = true → ∃ l, o.layout = some l ∧ v.rate = o.rate + l)

/-- Invariant of the loop: every suitable original variant is still there, what is there comes from an original
variant, and the list is ordered. -/
structure ChooseInv (orig : List (Variant K)) (vs : List (Variant K)) : Prop where
  from_ : ∀ v ∈ vs, ∃ o ∈ orig, Rel o v
  suitable : ∀ o ∈ orig, o.layout.isSome → ∃ v ∈ vs, Rel o v
  sorted : vs.Pairwise fun a b => a.rate ≤ b.rate

theorem sortV_perm (vs : List (Variant K)) : (sortV vs).Perm vs := List.perm_insertionSort _ _

theorem sortV_sorted (vs : List (Variant K)) : (sortV vs).Pairwise fun a b => a.rate ≤ b.rate := by
  have : Std.Total (fun a b : Variant K => a.rate ≤ b.rate) := ⟨fun a b => le_total _ _⟩
  have : IsTrans (Variant K) (fun a b : Variant K => a.rate ≤ b.rate) := ⟨fun a b c => le_trans⟩
  exact List.pairwise_insertionSort _ _

/-- Number of variants still without canvas. -/
def todoCount (vs : List (Variant K)) : Nat := (vs.filter fun v => !v.stored).length

theorem todoCount_perm {a b : List (Variant K)} (h : a.Perm b) : todoCount a = todoCount b := (h.filter _).length_eq

/-- Situation: the layout ratings are not negative and no canvas is empty. -/
structure GoodVariants (orig : List (Variant K)) : Prop where
  layout : ∀ o ∈ orig, ∀ l, o.layout = some l → 0 ≤ l
  nonempty : ∀ o ∈ orig, o.nonempty = true

theorem choose_step (orig vs : List (Variant K)) (hg : GoodVariants orig) (h : ChooseInv orig vs) :
    (∃ vs', chooseStep (.run vs) = .run vs' ∧ ChooseInv orig vs' ∧ todoCount vs' < todoCount vs) ∨
    (chooseStep (.run vs) = .error ∧ ∀ o ∈ orig, o.layout = none) ∨
    (∃ v o r, chooseStep (.run vs) = .done v ∧ o ∈ orig ∧ Rel o v ∧ o.totalRate = some r ∧ v.rate = r ∧
      ∀ o' ∈ orig, ∀ r', o'.totalRate = some r' → r ≤ r') := by
  cases vs with
  | nil =>
    right; left
    refine ⟨rfl, ?_⟩
    intro o ho
    cases hl : o.layout with
    | none => rfl
    | some l => obtain ⟨v, hv, -⟩ := h.suitable o ho (by simp [hl]); cases hv
  | cons v vs =>
    obtain ⟨o, ho, hr⟩ := h.from_ v (by simp)
    have hne : v.nonempty = true := by rw [hr.2.1]; exact hg.nonempty o ho
    cases hst : v.stored with
    | true =>
      right; right
      obtain ⟨l, hl, hrate⟩ := hr.2.2.2 hst
      refine ⟨v, o, o.rate + l, ?_, ho, hr, by simp [Variant.totalRate, hl], hrate, ?_⟩
      · simp [chooseStep, Variant.todo, hst, hne]
      · intro o' ho' r' hr'
        simp only [Variant.totalRate, Option.map_eq_some_iff] at hr'
        obtain ⟨l', hl', rfl⟩ := hr'
        obtain ⟨w, hw, hrel⟩ := h.suitable o' ho' (by simp [hl'])
        have hle : v.rate ≤ w.rate := by
          rcases List.mem_cons.1 hw with rfl | hw
          · exact le_rfl
          · exact (List.pairwise_cons.1 h.sorted).1 w hw
        have hl'0 := hg.layout o' ho' l' hl'
        have : w.rate ≤ o'.rate + l' := by
          cases hws : w.stored with
          | true => obtain ⟨l2, h2, h3⟩ := hrel.2.2.2 hws; rw [hl'] at h2; cases h2; exact h3.le
          | false => rw [hrel.2.2.1 hws]; linarith
        linarith
    | false =>
      have htodo : v.todo = true := by simp [Variant.todo, hst]
      cases hl : v.layout with
      | none =>
        have hlo : o.layout = none := by rw [← hr.1]; exact hl
        -- suitable originals are among the rest
        have hrest : ∀ o' ∈ orig, o'.layout.isSome → ∃ w ∈ vs, Rel o' w := by
          intro o' ho' hs
          obtain ⟨w, hw, hrel⟩ := h.suitable o' ho' hs
          rcases List.mem_cons.1 hw with rfl | hw
          · rw [← hrel.1, hl] at hs; cases hs
          · exact ⟨w, hw, hrel⟩
        cases hvs : vs with
        | nil =>
          right; left
          subst hvs
          refine ⟨by simp [chooseStep, htodo, hl], ?_⟩
          intro o' ho'
          cases hl' : o'.layout with
          | none => rfl
          | some l => obtain ⟨w, hw, -⟩ := hrest o' ho' (by simp [hl']); cases hw
        | cons w ws =>
          left
          refine ⟨sortV vs, ?_, ⟨?_, ?_, sortV_sorted vs⟩, ?_⟩
          · simp [chooseStep, htodo, hl, hvs]
          · intro x hx
            exact h.from_ x (by rw [(sortV_perm vs).mem_iff] at hx; simp [hx])
          · intro o' ho' hs
            obtain ⟨x, hx, hrel⟩ := hrest o' ho' hs
            exact ⟨x, (sortV_perm vs).mem_iff.2 hx, hrel⟩
          · rw [todoCount_perm (sortV_perm vs), ← hvs]; simp [todoCount, hst]
      | some l =>
        left
        set v' : Variant K := { v with stored := true, rate := v.rate + l } with hv'
        have hrel' : ∀ o', Rel o' v → Rel o' v' := by
          intro o' hr'
          refine ⟨hr'.1, hr'.2.1, by simp [hv'], fun _ => ⟨l, ?_, ?_⟩⟩
          · rw [← hr'.1]; exact hl
          · simp [hv', hr'.2.2.1 hst]
        refine ⟨sortV (v' :: vs), ?_, ⟨?_, ?_, sortV_sorted _⟩, ?_⟩
        · simp [chooseStep, htodo, hl, hv']
        · intro x hx
          rw [(sortV_perm _).mem_iff] at hx
          rcases List.mem_cons.1 hx with rfl | hx
          · exact ⟨o, ho, hrel' o hr⟩
          · exact h.from_ x (by simp [hx])
        · intro o' ho' hs
          obtain ⟨x, hx, hrel⟩ := h.suitable o' ho' hs
          rcases List.mem_cons.1 hx with rfl | hx
          · exact ⟨v', (sortV_perm _).mem_iff.2 (by simp), hrel' o' hrel⟩
          · exact ⟨x, (sortV_perm _).mem_iff.2 (by simp [hx]), hrel⟩
        · rw [todoCount_perm (sortV_perm _)]; simp [todoCount, hst, hv']

/-- C69: the choice ends; it gives a variant with the least total rating (ticks and layout) among all suitable ones, and it fails
only if none is suitable. -/
theorem choose_best (orig : List (Variant K)) (hg : GoodVariants orig) :
    (∃ n, chooseStep^[n] (chooseInit orig) = .error ∧ ∀ o ∈ orig, o.layout = none) ∨
    (∃ n v o r, chooseStep^[n] (chooseInit orig) = .done v ∧ o ∈ orig ∧ v.layout = o.layout ∧ o.totalRate = some r ∧ v.rate = r ∧
      ∀ o' ∈ orig, ∀ r', o'.totalRate = some r' → r ≤ r') := by
  have gen : ∀ (k : Nat) (vs : List (Variant K)), todoCount vs = k → ChooseInv orig vs →
      (∃ n, chooseStep^[n] (.run vs) = .error ∧ ∀ o ∈ orig, o.layout = none) ∨
      (∃ n v o r, chooseStep^[n] (.run vs) = .done v ∧ o ∈ orig ∧ v.layout = o.layout ∧ o.totalRate = some r ∧ v.rate = r ∧
        ∀ o' ∈ orig, ∀ r', o'.totalRate = some r' → r ≤ r') := by
    intro k
    induction k using Nat.strong_induction_on with
    | _ k ih =>
      intro vs hk h
      rcases choose_step orig vs hg h with ⟨vs', e, hi, hlt⟩ | ⟨e, hno⟩ | ⟨v, o, r, e, ho, hrel, h1, h2, h3⟩
      · rcases ih (todoCount vs') (by omega) vs' rfl hi with ⟨n, hn, hno⟩ | ⟨n, v, o, r, hn, rest⟩
        · exact .inl ⟨n + 1, by rw [Function.iterate_succ_apply, e]; exact hn, hno⟩
        · exact .inr ⟨n + 1, v, o, r, by rw [Function.iterate_succ_apply, e]; exact hn, rest⟩
      · exact .inl ⟨1, e, hno⟩
      · exact .inr ⟨1, v, o, r, e, ho, hrel.1, h1, h2, h3⟩
  refine gen _ _ rfl ⟨?_, ?_, sortV_sorted _⟩
  · intro v hv
    rw [(sortV_perm _).mem_iff] at hv
    obtain ⟨o, ho, rfl⟩ := List.mem_map.1 hv
    exact ⟨o, ho, rfl, rfl, fun _ => rfl, fun h => by cases h⟩
  · intro o ho _
    exact ⟨{ o with stored := false }, (sortV_perm _).mem_iff.2 (List.mem_map.2 ⟨o, ho, rfl⟩), rfl, rfl, fun _ => rfl,
      fun h => by cases h⟩

/-- Concrete case: the variant that looks best at first is not the one chosen. -/
example : (match chooseStep^[4] (chooseInit [⟨(1 : ℚ), false, some 5, true⟩, ⟨2, false, some 1, true⟩, ⟨0, false, none, true⟩]) with
    | .done v => some v.rate | _ => none) = some 3 := by decide +kernel

/-- Without the condition on the canvas the loop may run forever: two variants whose canvas is empty and whose layout is rated 0 (a
painter without labels, ticks and base line). -/
theorem choose_forever (n : Nat) (r : K) : ∃ vs, vs ≠ [] ∧
    chooseStep^[n] (chooseInit [⟨r, false, some 0, false⟩, ⟨r, false, some 0, false⟩]) = .run vs := by
  have gen : ∀ (n : Nat) (s : List (Variant K)), (s ≠ [] ∧ ∀ v ∈ s, v.layout = some 0 ∧ v.nonempty = false) →
      ∃ vs, vs ≠ [] ∧ chooseStep^[n] (.run s) = .run vs := by
    intro n
    induction n with
    | zero => intro s h; exact ⟨s, h.1, rfl⟩
    | succ n ih =>
      intro s h
      cases s with
      | nil => exact absurd rfl h.1
      | cons v vs =>
        have hv := h.2 v (by simp)
        have e : chooseStep (.run (v :: vs)) = .run (sortV ({ v with stored := true, rate := v.rate + 0 } :: vs)) := by
          simp [chooseStep, Variant.todo, hv.1, hv.2]
        rw [Function.iterate_succ_apply, e]
        apply ih
        constructor
        · intro hc
          have := (sortV_perm ({ v with stored := true, rate := v.rate + 0 } :: vs)).length_eq
          rw [hc] at this; simp at this
        · intro x hx
          rw [(sortV_perm _).mem_iff] at hx
          rcases List.mem_cons.1 hx with rfl | hx
          · exact hv
          · exact h.2 x (by simp [hx])
  apply gen
  constructor
  · intro hc
    have := (sortV_perm ([⟨r, false, some 0, false⟩, ⟨r, false, some 0, false⟩] : List (Variant K))).length_eq
    simp only [List.map_cons, List.map_nil] at hc
    rw [hc] at this; simp at this
  · intro x hx
    rw [(sortV_perm _).mem_iff] at hx
    simp at hx
    subst hx; exact ⟨rfl, rfl⟩

/-- C69: what the search for partitions in one direction collects. It records every suitable partition, its best rate is the least
one recorded, and when it ends, none of the last `maxworse` partitions improved the best rate. -/
theorem search_spec (f : Nat → Option K) (maxworse n : Nat) (best0 : Option K) (found0 : List K)
    (hb : ∀ b, best0 = some b → b ∈ found0 ∧ ∀ x ∈ found0, b ≤ x) (hn : best0 = none → found0 = [])
    (he : EndsAt maxworse f ⟨0, best0, found0⟩ n) :
    (searchAfter f ⟨0, best0, found0⟩ n).found = found0 ++ (List.range n).filterMap f ∧
    (∀ b, (searchAfter f ⟨0, best0, found0⟩ n).best = some b →
      b ∈ (searchAfter f ⟨0, best0, found0⟩ n).found ∧ ∀ x ∈ (searchAfter f ⟨0, best0, found0⟩ n).found, b ≤ x) ∧
    ((searchAfter f ⟨0, best0, found0⟩ n).best = none → (searchAfter f ⟨0, best0, found0⟩ n).found = []) ∧
    maxworse ≤ n ∧ (searchAfter f ⟨0, best0, found0⟩ (n - maxworse)).best = (searchAfter f ⟨0, best0, found0⟩ n).best := by
  set s := searchAfter f ⟨0, best0, found0⟩ with hs
  have gen : ∀ n, (s n).found = found0 ++ (List.range n).filterMap f ∧
      (∀ b, (s n).best = some b → b ∈ (s n).found ∧ ∀ x ∈ (s n).found, b ≤ x) ∧
      ((s n).best = none → (s n).found = []) ∧ (s n).worse ≤ n ∧
      ∀ k, k ≤ (s n).worse → (s (n - k)).best = (s n).best := by
    intro n
    induction n with
    | zero => exact ⟨by simp [hs, searchAfter], hb, hn, le_rfl, fun k hk => by simp⟩
    | succ n ih =>
      obtain ⟨h1, h2, h3, h4, h5⟩ := ih
      have e : s (n + 1) = searchStep (s n) (f n) := rfl
      rw [List.range_succ, List.filterMap_append, ← List.append_assoc, ← h1]
      -- when the best rate stays, so it did before
      have keep : ∀ w, (s (n + 1)).worse = w + 1 → w = (s n).worse → (s (n + 1)).best = (s n).best →
          ∀ k, k ≤ (s (n + 1)).worse → (s (n + 1 - k)).best = (s (n + 1)).best := by
        intro w hw hw' hbest k hk
        cases k with
        | zero => rfl
        | succ k =>
          rw [Nat.add_sub_add_right, h5 k (by omega), hbest]
      cases hf : f n with
      | none =>
        have e1 : (s (n + 1)).worse = (s n).worse + 1 := by rw [e, hf]; rfl
        have e2 : (s (n + 1)).best = (s n).best := by rw [e, hf]; rfl
        have e3 : (s (n + 1)).found = (s n).found := by rw [e, hf]; rfl
        refine ⟨by simp [e3, hf], by rw [e2, e3]; exact h2, by rw [e2, e3]; exact h3, by omega, keep _ e1 rfl e2⟩
      | some r =>
        have e3 : (s (n + 1)).found = (s n).found ++ [r] := by
          rw [e, hf]; unfold searchStep; dsimp only; split
          · rfl
          · split <;> rfl
        refine ⟨by simp [e3, hf], ?_⟩
        cases hbn : (s n).best with
        | none =>
          have e1 : (s (n + 1)).worse = 0 := by rw [e, hf]; simp [searchStep, hbn]
          have e2 : (s (n + 1)).best = some r := by rw [e, hf]; simp [searchStep, hbn]
          have := h3 hbn
          refine ⟨?_, by simp [e2], by omega, fun k hk => by rw [e1] at hk; simp [Nat.le_zero.1 hk]⟩
          intro b hb'
          rw [e2] at hb'; cases hb'
          rw [e3, this]; simp
        | some b0 =>
          obtain ⟨m1, m2⟩ := h2 b0 hbn
          by_cases hlt : r < b0
          · have e1 : (s (n + 1)).worse = 0 := by rw [e, hf]; simp [searchStep, hbn, hlt]
            have e2 : (s (n + 1)).best = some r := by rw [e, hf]; simp [searchStep, hbn, hlt]
            refine ⟨?_, by simp [e2], by omega, fun k hk => by rw [e1] at hk; simp [Nat.le_zero.1 hk]⟩
            intro b hb'
            rw [e2] at hb'; cases hb'
            rw [e3]
            refine ⟨by simp, ?_⟩
            intro x hx
            rcases List.mem_append.1 hx with hx | hx
            · exact hlt.le.trans (m2 x hx)
            · simp at hx; exact hx.ge
          · have e1 : (s (n + 1)).worse = (s n).worse + 1 := by rw [e, hf]; simp [searchStep, hbn, hlt]
            have e2 : (s (n + 1)).best = (s n).best := by rw [e, hf]; simp [searchStep, hbn, hlt]
            refine ⟨?_, by simp [e2, hbn], by omega, keep _ e1 rfl e2⟩
            intro b hb'
            rw [e2, hbn] at hb'; cases hb'
            rw [e3]
            refine ⟨by simp [m1], ?_⟩
            intro x hx
            rcases List.mem_append.1 hx with hx | hx
            · exact m2 x hx
            · simp at hx; rw [hx]; exact not_lt.1 hlt
  obtain ⟨g1, g2, g3, g4, g5⟩ := gen n
  exact ⟨g1, g2, g3, he.1.trans g4, g5 maxworse he.1⟩

/-- Concrete case: with `maxworse = 2`, a bad partition between good ones does not end the search. -/
example : EndsAt 2 (fun n => ([some (5 : ℚ), some 7, some 3, none, some 4, some 1] : List (Option ℚ))[n]?.join) ⟨0, none, []⟩ 5 ∧
    (searchAfter (fun n => ([some (5 : ℚ), some 7, some 3, none, some 4, some 1] : List (Option ℚ))[n]?.join) ⟨0, none, []⟩ 5).best
      = some 3 := by unfold EndsAt; decide +kernel

/-! ## C70 -/

/-- `WhileSub` always ends, with exactly one result, which is congruent to the start and in the last period below the bound
(or the start itself). -/
theorem whileSub_spec [Archimedean K] (bound step : K) (hs : 0 < step) (x : K) :
    ∃ y, WhileSub bound step x y ∧ (∀ z, WhileSub bound step x z → z = y) ∧ y ≤ bound ∧ (∃ n : ℕ, x = y + n * step) ∧
      (y = x ∨ bound - step < y) := by
  obtain ⟨n, hn⟩ := Archimedean.arch (x - bound) hs
  induction n generalizing x with
  | zero =>
    have h : ¬ x > bound := by simp at hn; exact not_lt.2 hn
    refine ⟨x, .stop h, ?_, not_lt.1 h, ⟨0, by simp⟩, .inl rfl⟩
    intro z hz
    cases hz with
    | stop => rfl
    | next h' => exact absurd h' h
  | succ n ih =>
    by_cases h : x > bound
    · obtain ⟨y, h1, h2, h3, ⟨m, hm⟩, h5⟩ := ih (x - step) (by rw [succ_nsmul] at hn; linarith)
      refine ⟨y, .next h h1, ?_, h3, ⟨m + 1, by push_cast; linarith⟩, .inr ?_⟩
      · intro z hz
        cases hz with
        | stop h' => exact absurd h h'
        | next _ h' => exact h2 z h'
      · rcases h5 with h5 | h5
        · rw [h5]; linarith
        · exact h5
    · refine ⟨x, .stop h, ?_, not_lt.1 h, ⟨0, by simp⟩, .inl rfl⟩
      intro z hz
      cases hz with
      | stop => rfl
      | next h' => exact absurd h' h

theorem whileAdd_iff (bound step x y : K) : WhileAdd bound step x y ↔ WhileSub (-bound) step (-x) (-y) := by
  constructor
  · intro h
    induction h with
    | stop h => exact .stop (by simpa using h)
    | next h _ ih => exact .next (by simpa using h) (by rw [← neg_add']; exact ih)
  · intro h
    generalize hx : -x = x', hy : -y = y' at h
    induction h generalizing x with
    | stop h =>
      subst hx
      have : y = x := neg_injective hy
      subst this
      exact .stop (by simpa using h)
    | @next x' y' h _ ih =>
      subst hx
      exact .next (by simpa using h) (ih (x + step) (by ring) hy)

theorem whileAdd_spec [Archimedean K] (bound step : K) (hs : 0 < step) (x : K) :
    ∃ y, WhileAdd bound step x y ∧ (∀ z, WhileAdd bound step x z → z = y) ∧ bound ≤ y ∧ (∃ n : ℕ, x = y - n * step) ∧
      (y = x ∨ y < bound + step) := by
  obtain ⟨y, h1, h2, h3, ⟨n, hn⟩, h5⟩ := whileSub_spec (-bound) step hs (-x)
  refine ⟨-y, (whileAdd_iff _ _ _ _).2 (by rwa [neg_neg]), ?_, by linarith, ⟨n, by linarith⟩, ?_⟩
  · intro z hz
    have := h2 _ ((whileAdd_iff _ _ _ _).1 hz)
    rw [← this, neg_neg]
  · rcases h5 with h | h
    · left; rw [h, neg_neg]
    · right; linarith

/-- C70: a label rotated by `rotatetext` is parallel to the wanted direction and never upside down. -/
theorem rotateText_spec [Archimedean K] (eps : K) (he : 0 ≤ eps) (direction : K) :
    ∃ r, RotateText eps direction r ∧ (∀ z, RotateText eps direction z → z = r) ∧ -90 - eps ≤ r ∧ r ≤ 90 + eps ∧
      ∃ n : ℤ, r = direction + n * 180 := by
  obtain ⟨a, a1, a2, a3, ⟨na, a4⟩, -⟩ := whileSub_spec (180 + eps) 360 (by norm_num) direction
  obtain ⟨b, b1, b2, b3, ⟨nb, b4⟩, -⟩ := whileAdd_spec (-180 - eps) 360 (by norm_num) a
  obtain ⟨c, c1, c2, c3, ⟨nc, c4⟩, -⟩ := whileSub_spec (90 + eps) 180 (by norm_num) b
  obtain ⟨d, d1, d2, d3, ⟨nd, d4⟩, d5⟩ := whileAdd_spec (-90 - eps) 180 (by norm_num) c
  refine ⟨d, ⟨a, b, c, a1, b1, c1, d1⟩, ?_, d3, ?_, ⟨2 * nb + nd - 2 * na - nc, ?_⟩⟩
  · rintro z ⟨a', b', c', h1, h2, h3, h4⟩
    have := a2 a' h1; subst this
    have := b2 b' h2; subst this
    have := c2 c' h3; subst this
    exact d2 z h4
  · rcases d5 with h | h
    · rw [h]; exact c3
    · linarith
  · push_cast; linarith

/-- Concrete case: a label for direction 270 gets the direction -90. -/
example : RotateText (1 / 10 : ℚ) 270 (-90) :=
  ⟨-90, -90, -90, .next (by norm_num) (by norm_num; exact .stop (by norm_num)), .stop (by norm_num), .stop (by norm_num), .stop (by norm_num)⟩

end PyX.Axis
