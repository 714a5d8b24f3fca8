import Verif.Axis.Model
import Mathlib.Order.Bounds.Basic
import Mathlib.Data.Set.Insert
import Mathlib.Tactic.Linarith
import Mathlib.Tactic.Ring
import Mathlib.Tactic.FieldSimp
import Mathlib.Tactic.NormNum
import Mathlib.Data.List.Induction

/-!
# Properties C15, C16, C17
-/

set_option linter.unusedSectionVars false

namespace PyX.Axis

variable {K : Type} [Field K] [LinearOrder K] [IsStrictOrderedRing K]

/-! ## C15 -/

/-- The numbers in a sequence of columns. -/
def numbers (cols : List (List (Option K))) : Set K := {v | ∃ c ∈ cols, some v ∈ c}

/-- `m` is the least number of the set; `none` for the empty set. -/
def Least (s : Set K) : Option K → Prop
  | none => s = ∅
  | some m => IsLeast s m

def Greatest (s : Set K) : Option K → Prop
  | none => s = ∅
  | some m => IsGreatest s m

theorem least_unique {s : Set K} {a b : Option K} (ha : Least s a) (hb : Least s b) : a = b := by
  cases a <;> cases b
  · rfl
  · rename_i m; simp only [Least] at ha hb; rw [ha] at hb; exact absurd hb.1 (by simp)
  · rename_i m; simp only [Least] at ha hb; rw [hb] at ha; exact absurd ha.1 (by simp)
  · exact congrArg some (IsLeast.unique ha hb)

theorem greatest_unique {s : Set K} {a b : Option K} (ha : Greatest s a) (hb : Greatest s b) : a = b := by
  cases a <;> cases b
  · rfl
  · rename_i m; simp only [Greatest] at ha hb; rw [ha] at hb; exact absurd hb.1 (by simp)
  · rename_i m; simp only [Greatest] at ha hb; rw [hb] at ha; exact absurd ha.1 (by simp)
  · exact congrArg some (IsGreatest.unique ha hb)

/-- Invariant of the data relative to the numbers seen. -/
def Inv (a : Reg K) (d : Data K) (s : Set K) : Prop :=
  (match a.min with | some m => d.min = some m | none => Least s d.min) ∧
  (match a.max with | some m => d.max = some m | none => Greatest s d.max)

theorem least_insert {s : Set K} {m : Option K} (h : Least s m) (v : K) :
    Least (insert v s) (if below v m then some v else m) := by
  cases m with
  | none => simp only [Least] at h; subst h; simp [below, Least, IsLeast, lowerBounds]
  | some m =>
    simp only [Least] at h
    by_cases hv : v < m
    · simp only [below, hv, decide_true, if_true, Least]
      exact ⟨by simp, by rintro x (rfl | hx); exacts [le_rfl, hv.le.trans (h.2 hx)]⟩
    · simp only [below, hv, decide_false, Bool.false_eq_true, if_false, Least]
      exact ⟨by simp [h.1], by rintro x (rfl | hx); exacts [not_lt.1 hv, h.2 hx]⟩

theorem greatest_insert {s : Set K} {m : Option K} (h : Greatest s m) (v : K) :
    Greatest (insert v s) (if above v m then some v else m) := by
  cases m with
  | none => simp only [Greatest] at h; subst h; simp [above, Greatest, IsGreatest, upperBounds]
  | some m =>
    simp only [Greatest] at h
    by_cases hv : m < v
    · simp only [above, gt_iff_lt, hv, decide_true, if_true, Greatest]
      exact ⟨by simp, by rintro x (rfl | hx); exacts [le_rfl, (h.2 hx).trans hv.le]⟩
    · simp only [above, gt_iff_lt, hv, decide_false, Bool.false_eq_true, if_false, Greatest]
      exact ⟨by simp [h.1], by rintro x (rfl | hx); exacts [not_lt.1 hv, h.2 hx]⟩

theorem inv_adjust1 (a : Reg K) (d : Data K) (s : Set K) (h : Inv a d s) (v : Option K) :
    Inv a (adjust1 a d v) (s ∪ {x | v = some x}) := by
  cases v with
  | none => simpa [adjust1] using h
  | some v =>
    have e : s ∪ {x | some v = some x} = insert v s := by
      ext x; simp [eq_comm]
    rw [e]
    obtain ⟨h1, h2⟩ := h
    constructor
    · cases hm : a.min with
      | some m => simp only [hm] at h1; simp [adjust1, hm, h1]
      | none =>
        simp only [hm] at h1
        have := least_insert h1 v
        simpa [adjust1, hm] using this
    · cases hm : a.max with
      | some m => simp only [hm] at h2; simp [adjust1, hm, h2]
      | none =>
        simp only [hm] at h2
        have := greatest_insert h2 v
        simpa [adjust1, hm] using this

theorem inv_fold (a : Reg K) (col : List (Option K)) (d : Data K) (s : Set K) (h : Inv a d s) :
    Inv a (col.foldl (adjust1 a) d) (s ∪ {x | some x ∈ col}) := by
  induction col generalizing d s with
  | nil => simpa using h
  | cons v col ih =>
    have := ih _ _ (inv_adjust1 a d s h v)
    rw [Set.union_assoc] at this
    have e : {x | v = some x} ∪ {x | some x ∈ col} = {x | some x ∈ v :: col} := by
      ext x; simp [eq_comm]
    rw [e] at this
    exact this

theorem inv_adjust (a : Reg K) (col : List (Option K)) (d : Data K) (s : Set K) (h : Inv a d s) :
    Inv a (adjustaxis a d col) (s ∪ {x | some x ∈ col}) := by
  unfold adjustaxis
  split
  · exact inv_fold a col d s h
  · rename_i hf
    simp only [Bool.or_eq_true, not_or, Option.isNone_iff_eq_none] at hf
    obtain ⟨h1, h2⟩ := h
    constructor
    · cases hm : a.min with
      | some m => simpa [hm] using h1
      | none => exact absurd hm hf.1
    · cases hm : a.max with
      | some m => simpa [hm] using h2
      | none => exact absurd hm hf.2

/-- C15: after any sequence of columns, a free bound is the least (greatest) number seen, a fixed one is unchanged. -/
theorem history_range (a : Reg K) (cols : List (List (Option K))) : Inv a (history a cols) (numbers cols) := by
  have : ∀ (cols : List (List (Option K))) d s, Inv a d s → Inv a (cols.foldl (adjustaxis a) d) (s ∪ numbers cols) := by
    intro cols
    induction cols with
    | nil => intro d s h; simpa [numbers] using h
    | cons c cols ih =>
      intro d s h
      have := ih _ _ (inv_adjust a c d s h)
      rw [Set.union_assoc] at this
      have e : {x | some x ∈ c} ∪ numbers cols = numbers (c :: cols) := by
        ext x; simp [numbers]
      rw [e] at this
      exact this
  have h0 : Inv a (createdata a) ∅ := by
    constructor
    · cases hm : a.min <;> simp [createdata, hm, Least]
    · cases hm : a.max <;> simp [createdata, hm, Greatest]
  simpa [history] using this cols _ ∅ h0

/-- C15: the order and the grouping of the columns do not matter: only the set of numbers does. -/
theorem history_congr (a : Reg K) (c1 c2 : List (List (Option K))) (h : numbers c1 = numbers c2) :
    history a c1 = history a c2 := by
  obtain ⟨h1, h2⟩ := history_range a c1
  obtain ⟨h3, h4⟩ := history_range a c2
  rw [h] at h1 h2
  have e1 : (history a c1).min = (history a c2).min := by
    cases hm : a.min with
    | some m => simp only [hm] at h1 h3; rw [h1, h3]
    | none => simp only [hm] at h1 h3; exact least_unique h1 h3
  have e2 : (history a c1).max = (history a c2).max := by
    cases hm : a.max with
    | some m => simp only [hm] at h2 h4; rw [h2, h4]
    | none => simp only [hm] at h2 h4; exact greatest_unique h2 h4
  cases hh : history a c1; cases hh2 : history a c2
  simp [hh, hh2] at e1 e2
  rw [e1, e2]

/-- Permuted columns. -/
theorem history_perm (a : Reg K) (c1 c2 : List (List (Option K))) (h : c1.flatten.Perm c2.flatten) :
    history a c1 = history a c2 := by
  apply history_congr
  ext x
  have : some x ∈ c1.flatten ↔ some x ∈ c2.flatten := h.mem_iff
  simpa [numbers, List.mem_flatten] using this

/-- C15: exchanged bounds reverse the axis, so that the minimum is not above the maximum. -/
theorem init_ordered (mn mx : K) (rev : Bool) : ∃ lo hi r, Reg.init (some mn) (some mx) rev = ⟨some lo, some hi, r⟩ ∧ lo ≤ hi ∧
    convert r lo hi mn = convert rev mn mx mn ∧ convert r lo hi mx = convert rev mn mx mx := by
  unfold Reg.init
  by_cases h : mn > mx
  · simp only [h, if_true]
    refine ⟨_, _, _, rfl, h.le, ?_⟩
    have h1 : mn - mx ≠ 0 := by linarith [sub_pos.2 h] |> fun h => ne_of_gt (sub_pos.2 ‹mn > mx›)
    have h2 : mx - mn ≠ 0 := ne_of_lt (sub_neg.2 h)
    cases rev <;> simp [convert, div_self h1, div_self h2]
  · simp only [h, if_false]
    exact ⟨_, _, _, rfl, not_lt.1 h, rfl, rfl⟩

example : history (Reg.init none (some (10 : ℚ)) false) [[some 3, none, some (-2)], [], [some 20]] = ⟨some (-2), some 10⟩ := by
  decide +kernel

/-! ## C16 -/

/-- C16: the bounds are mapped to 0 and 1 (exchanged for a reversed axis). -/
theorem convert_bounds (mn mx : K) (h : mn < mx) :
    convert false mn mx mn = 0 ∧ convert false mn mx mx = 1 ∧ convert true mn mx mn = 1 ∧ convert true mn mx mx = 0 := by
  have : mx - mn ≠ 0 := ne_of_gt (sub_pos.2 h)
  simp [convert, div_self this]

/-- C16: strictly monotone, increasing or decreasing. -/
theorem convert_mono (mn mx : K) (h : mn < mx) (u v : K) (huv : u < v) :
    convert false mn mx u < convert false mn mx v ∧ convert true mn mx v < convert true mn mx u := by
  have hp : 0 < mx - mn := sub_pos.2 h
  simp only [convert, if_true, Bool.false_eq_true, if_false]
  exact ⟨div_lt_div_of_pos_right (by linarith) hp, div_lt_div_of_pos_right (by linarith) hp⟩

/-- C16: equal differences give equal distances, and the conversion of a range is affine. -/
theorem convert_affine (rev : Bool) (mn mx : K) (h : mn < mx) (u v t : K) :
    convert rev mn mx ((1 - t) * u + t * v) = (1 - t) * convert rev mn mx u + t * convert rev mn mx v := by
  have hp : mx - mn ≠ 0 := ne_of_gt (sub_pos.2 h)
  cases rev <;> simp only [convert, if_true, Bool.false_eq_true, if_false] <;> field_simp <;> ring

/-- C16: exactly the values of the range are mapped into the unit interval. -/
theorem convert_mem (rev : Bool) (mn mx : K) (h : mn < mx) (v : K) :
    (0 ≤ convert rev mn mx v ∧ convert rev mn mx v ≤ 1) ↔ (mn ≤ v ∧ v ≤ mx) := by
  have hp : 0 < mx - mn := sub_pos.2 h
  cases rev
  · simp only [convert, Bool.false_eq_true, if_false]
    rw [le_div_iff₀ hp, div_le_iff₀ hp]
    constructor <;> rintro ⟨h1, h2⟩ <;> constructor <;> linarith
  · simp only [convert, if_true]
    rw [le_div_iff₀ hp, div_le_iff₀ hp]
    constructor <;> rintro ⟨h1, h2⟩ <;> constructor <;> linarith

example : convert false (2 : ℚ) 6 3 = 1 / 4 ∧ convert true (2 : ℚ) 6 3 = 3 / 4 := by decide +kernel

/-- A range for a logarithmic axis: positive or negative numbers. -/
def LogRange (mn mx : ℝ) : Prop := mn < mx ∧ (0 < mn ∨ mx < 0)

/-- Value that can be shown. -/
def LogValue (mx v : ℝ) : Prop := if mx < 0 then v < 0 else 0 < v

/-- The logarithmic axis is the linear conversion of the logarithms of the absolute values. -/
theorem logConvert_eq (rev : Bool) (mn mx v : ℝ) (h : LogRange mn mx) (_hv : LogValue mx v) :
    logConvert rev mn mx v = if mx < 0 then convert (!rev) (Real.log (-mx)) (Real.log (-mn)) (Real.log (-v))
      else convert rev (Real.log mn) (Real.log mx) (Real.log v) := by
  obtain ⟨h1, h2⟩ := h
  unfold logConvert
  split
  · rename_i hneg
    have hd : Real.log (-mx) < Real.log (-mn) := Real.log_lt_log (by linarith) (by linarith)
    have e : Real.log (-mx) - Real.log (-mn) = -(Real.log (-mn) - Real.log (-mx)) := by ring
    cases rev <;> simp only [convert, Bool.not_false, Bool.not_true, Bool.false_eq_true, if_false, if_true] <;>
      rw [e, div_neg, ← neg_div] <;> congr 1 <;> ring
  · cases rev <;> simp [convert]

theorem logRange_log {mn mx : ℝ} (h : LogRange mn mx) :
    (mx < 0 → Real.log (-mx) < Real.log (-mn)) ∧ (¬ mx < 0 → Real.log mn < Real.log mx) := by
  obtain ⟨h1, h2⟩ := h
  refine ⟨fun hn => Real.log_lt_log (by linarith) (by linarith), fun hn => Real.log_lt_log ?_ h1⟩
  rcases h2 with h2 | h2
  · exact h2
  · exact absurd h2 hn

/-- C16 for logarithmic axes: bounds to 0 and 1. -/
theorem log_bounds (mn mx : ℝ) (h : LogRange mn mx) :
    logConvert false mn mx mn = 0 ∧ logConvert false mn mx mx = 1 ∧ logConvert true mn mx mn = 1 ∧ logConvert true mn mx mx = 0 := by
  have hl := logRange_log h
  have vmn : LogValue mx mn := by
    unfold LogValue; split
    · linarith [h.1]
    · rcases h.2 with h2 | h2
      · exact h2
      · contradiction
  have vmx : LogValue mx mx := by
    unfold LogValue; split
    · assumption
    · rcases h.2 with h2 | h2
      · linarith [h.1]
      · contradiction
  simp only [logConvert_eq _ mn mx _ h vmn, logConvert_eq _ mn mx _ h vmx]
  by_cases hn : mx < 0
  · obtain ⟨a, b, c, d⟩ := convert_bounds _ _ (hl.1 hn)
    simp only [if_pos hn, Bool.not_false, Bool.not_true]; exact ⟨d, c, b, a⟩
  · obtain ⟨a, b, c, d⟩ := convert_bounds _ _ (hl.2 hn)
    simp [hn, a, b, c, d]

/-- C16 for logarithmic axes: strictly monotone. -/
theorem log_mono (mn mx : ℝ) (h : LogRange mn mx) (u v : ℝ) (hu : LogValue mx u) (hv : LogValue mx v) (huv : u < v) :
    logConvert false mn mx u < logConvert false mn mx v ∧ logConvert true mn mx v < logConvert true mn mx u := by
  have hl := logRange_log h
  rw [logConvert_eq _ mn mx _ h hu, logConvert_eq _ mn mx _ h hv, logConvert_eq _ mn mx _ h hu, logConvert_eq _ mn mx _ h hv]
  unfold LogValue at hu hv
  by_cases hn : mx < 0
  · simp only [hn, if_true] at hu hv ⊢
    have := convert_mono _ _ (hl.1 hn) (Real.log (-v)) (Real.log (-u)) (Real.log_lt_log (by linarith) (by linarith))
    exact ⟨this.2, this.1⟩
  · simp only [hn, if_false] at hu hv ⊢
    exact convert_mono _ _ (hl.2 hn) _ _ (Real.log_lt_log hu huv)

/-- C16 for logarithmic axes: equal ratios give equal distances. -/
theorem log_ratio (rev : Bool) (mn mx : ℝ) (h : LogRange mn mx) (u v q : ℝ) (hu : LogValue mx u) (hv : LogValue mx v) (hq : 0 < q) :
    logConvert rev mn mx (q * u) - logConvert rev mn mx u = logConvert rev mn mx (q * v) - logConvert rev mn mx v := by
  have hqu : LogValue mx (q * u) := by
    unfold LogValue at hu ⊢
    split <;> rename_i hn <;> simp only [hn, if_true, if_false] at hu
    · exact mul_neg_of_pos_of_neg hq hu
    · exact mul_pos hq hu
  have hqv : LogValue mx (q * v) := by
    unfold LogValue at hv ⊢
    split <;> rename_i hn <;> simp only [hn, if_true, if_false] at hv
    · exact mul_neg_of_pos_of_neg hq hv
    · exact mul_pos hq hv
  have hl := logRange_log h
  rw [logConvert_eq _ mn mx _ h hu, logConvert_eq _ mn mx _ h hv, logConvert_eq _ mn mx _ h hqu, logConvert_eq _ mn mx _ h hqv]
  have diff : ∀ (r : Bool) (a b x y : ℝ), convert r a b (y + x) - convert r a b x = convert r a b (y + 0) - convert r a b 0 := by
    intro r a b x y
    cases r <;> simp only [convert, if_true, Bool.false_eq_true, if_false] <;> rw [← sub_div, ← sub_div] <;> congr 1 <;> ring
  unfold LogValue at hu hv
  by_cases hn : mx < 0
  · simp only [hn, if_true] at hu hv ⊢
    rw [← mul_neg, ← mul_neg, Real.log_mul hq.ne' (by linarith), Real.log_mul hq.ne' (by linarith), diff, diff _ _ _ (Real.log (-v))]
  · simp only [hn, if_false] at hu hv ⊢
    rw [Real.log_mul hq.ne' hu.ne', Real.log_mul hq.ne' hv.ne', diff, diff _ _ _ (Real.log v)]

example : LogRange 1 100 ∧ LogValue 100 10 ∧ LogRange (-100) (-1) ∧ LogValue (-1) (-10) := by
  refine ⟨⟨by norm_num, .inl (by norm_num)⟩, ?_, ⟨by norm_num, .inr (by norm_num)⟩, ?_⟩ <;> norm_num [LogValue]

/-! ## C17 -/

section Bar
variable {N : Type} [DecidableEq N] {S V : Type}

/-- Total length of the axis: margins, bars and the gaps between them. -/
def total (b : Bar K) (widths : List K) : K := b.firstdist + b.lastdist - b.dist + (widths.map (· + b.dist)).sum

def widths (s : Sub K S V) (subs : List (N × S)) : List K := subs.map fun p => s.width p.2

/-- Invariant: the size is the total length and the names are different. -/
def SizeOk (s : Sub K S V) (b : Bar K) (d : BarData K N S) : Prop :=
  d.size = total b (widths s d.subs) ∧ (d.subs.map Prod.fst).Nodup

theorem total_perm (b : Bar K) {a c : List K} (h : a.Perm c) : total b a = total b c := by
  unfold total; rw [(h.map _).sum_eq]

theorem addsubaxis_ok (s : Sub K S V) (b : Bar K) (d : BarData K N S) (name : N) (x : S) (h : SizeOk s b d)
    (hn : name ∉ d.subs.map Prod.fst) : SizeOk s b (addsubaxis s b d name x) := by
  have e : total b (s.width x :: widths s d.subs) = d.size + s.width x + b.dist := by
    rw [h.1]; simp [total]; ring
  constructor
  · cases hr : b.reverse with
    | true => simp only [addsubaxis, hr, if_true, widths, List.map_cons]; exact e.symm
    | false =>
      simp only [addsubaxis, hr, Bool.false_eq_true, if_false]
      rw [← e]
      apply total_perm
      simp only [widths, List.map_append, List.map_cons, List.map_nil]
      exact (List.perm_append_singleton _ _).symm
  · cases hr : b.reverse with
    | true => simp only [addsubaxis, hr, if_true, List.map_cons, List.nodup_cons]; exact ⟨hn, h.2⟩
    | false =>
      simp only [addsubaxis, hr, Bool.false_eq_true, if_false, List.map_append, List.map_cons, List.map_nil]
      rw [List.nodup_append]
      refine ⟨h.2, by simp, ?_⟩
      intro a ha c hc
      simp at hc; subst hc
      rintro rfl; exact hn ha

theorem addNames_ok (s : Sub K S V) (b : Bar K) (mk : N → Option (Option S)) (col : List (Option N × V)) (d d' : BarData K N S)
    (h : SizeOk s b d) (he : addNames s b mk d col = some d') : SizeOk s b d' := by
  fun_induction addNames s b mk d col with
  | case1 d => cases he; exact h
  | case2 d v col ih => exact ih h he
  | case3 d name v col hn ih => exact ih h he
  | case4 d name v col hn hmk => cases he
  | case5 d name v col hn hmk ih => exact ih h he
  | case6 d name v col hn x hmk ih => exact ih (addsubaxis_ok s b d name x h hn) he

theorem adjustSubs_ok (s : Sub K S V) (hs : ∀ x c, (s.size (s.adj x c)).isSome = (s.size x).isSome) (col : List (Option N × V))
    (size : K) (subs : List (N × S)) :
    (adjustSubs s col size subs).1 - (widths s (adjustSubs s col size subs).2).sum = size - (widths s subs).sum ∧
    (adjustSubs s col size subs).2.map Prod.fst = subs.map Prod.fst := by
  induction subs generalizing size with
  | nil => simp [adjustSubs, widths]
  | cons p ps ih =>
    obtain ⟨i1, i2⟩ := ih (adjustSub s col size p).1
    constructor
    · simp only [adjustSubs, widths, List.map_cons, List.sum_cons] at i1 ⊢
      have e : (adjustSub s col size p).1 - s.width (adjustSub s col size p).2.2 = size - s.width p.2 := by
        have hh := hs p.2 ((col.filter fun c => c.1 = some p.1).map Prod.snd)
        simp only [adjustSub, Sub.width]
        cases h1 : s.size p.2 with
        | none =>
          rw [h1] at hh
          simp only [Option.isSome_none, Option.isSome_eq_false_iff, Option.isNone_iff_eq_none] at hh
          rw [hh]
        | some k =>
          rw [h1] at hh
          obtain ⟨k', hk'⟩ := Option.isSome_iff_exists.1 hh
          rw [hk']; simp only [Option.getD_some]; ring
      linarith
    · simp only [adjustSubs, List.map_cons, i2]; rfl

theorem total_eq (b : Bar K) (w : List K) : total b w = b.firstdist + b.lastdist - b.dist + w.length * b.dist + w.sum := by
  unfold total
  have : (w.map (· + b.dist)).sum = w.length * b.dist + w.sum := by
    induction w with
    | nil => simp
    | cons a w ih => simp only [List.map_cons, List.sum_cons, List.length_cons, ih]; push_cast; ring
  rw [this]; ring

/-- C17: whatever data are shown, the size kept by the bar axis is the sum of its margins, bars and gaps (the bars may change
their sizes, e.g. nested bar axes). -/
theorem barAdjust_ok (s : Sub K S V) (hs : ∀ x c, (s.size (s.adj x c)).isSome = (s.size x).isSome) (b : Bar K)
    (mk : N → Option (Option S)) (cols : List (List (Option N × V))) (d : BarData K N S)
    (h : cols.foldlM (barAdjust s b mk) b.createdata = some d) : SizeOk s b d := by
  have step : ∀ (d d' : BarData K N S) col, SizeOk s b d → barAdjust s b mk d col = some d' → SizeOk s b d' := by
    intro d d' col hd he
    unfold barAdjust at he
    obtain ⟨d1, h1, rfl⟩ := Option.map_eq_some_iff.1 he
    have h2 := addNames_ok s b mk col d d1 hd h1
    obtain ⟨i1, i2⟩ := adjustSubs_ok s hs col d1.size d1.subs
    refine ⟨?_, by simpa [i2] using h2.2⟩
    have hlen : (widths s (adjustSubs s col d1.size d1.subs).2).length = (widths s d1.subs).length := by
      have := congrArg List.length i2
      simpa [widths] using this
    have := h2.1
    dsimp only
    rw [total_eq] at this ⊢
    rw [hlen]
    linarith
  have gen : ∀ (cols : List (List (Option N × V))) (d0 d : BarData K N S), SizeOk s b d0 →
      cols.foldlM (barAdjust s b mk) d0 = some d → SizeOk s b d := by
    intro cols
    induction cols with
    | nil => intro d0 d h0 h; simp at h; subst h; exact h0
    | cons c cols ih =>
      intro d0 d h0 h
      rw [List.foldlM_cons] at h
      obtain ⟨d1, h1, h2⟩ := Option.bind_eq_some_iff.1 h
      exact ih d1 d (step d0 d1 c h0 h1) h2
  exact gen cols _ d ⟨by simp [Bar.createdata, total, widths], by simp [Bar.createdata]⟩ h

/-- Specification of the ranges: `pos` is the position of the left edge of the next bar, `v` the left edge of the next
overall range. -/
def Tiles (b : Bar K) (size : K) : K → K → List K → List (Range K) → Prop
  | _, _, [], [] => True
  | pos, v, w :: ws, r :: rs =>
    r.vmin = pos / size ∧ r.vmax = (pos + w) / size ∧ r.vminover = v ∧
    r.vmaxover = (if ws = [] then 1 else (pos + w + b.dist / 2) / size) ∧
    Tiles b size (pos + w + b.dist) r.vmaxover ws rs
  | _, _, _, _ => False

theorem createLoop_tiles (s : Sub K S V) (b : Bar K) (size : K) (last : Option N) (v pos : K) (subs : List (N × S))
    (hlast : (subs.map Prod.fst).getLast? = last ∨ subs = []) (hnd : (subs.map Prod.fst).Nodup) :
    Tiles b size pos v (widths s subs) (createLoop s b.dist size last v pos subs) := by
  induction subs generalizing v pos with
  | nil => simp [createLoop, widths, Tiles]
  | cons p ps ih =>
    simp only [createLoop, widths, List.map_cons, Tiles]
    refine ⟨trivial, trivial, trivial, ?_, ?_⟩
    · have hl : (p.1 :: ps.map Prod.fst).getLast? = last := by
        rcases hlast with h | h
        · simpa using h
        · cases h
      cases ps with
      | nil =>
        simp at hl
        rw [if_pos hl]; simp
      | cons q qs =>
        simp only [List.map_cons, reduceCtorEq, if_false]
        have hne : some p.1 ≠ last := by
          rw [← hl, List.map_cons, List.getLast?_cons_cons]
          intro hc
          have hm : p.1 ∈ (q.1 :: qs.map Prod.fst) := List.mem_of_getLast? hc.symm
          rw [List.map_cons, List.nodup_cons, List.map_cons] at hnd
          exact hnd.1 hm
        rw [if_neg hne]
        congr 1; ring
    · have h1 : (ps.map Prod.fst).getLast? = last ∨ ps = [] := by
        rcases hlast with h | h
        · cases ps with
          | nil => right; rfl
          | cons q qs => left; rw [List.map_cons, List.map_cons, List.getLast?_cons_cons] at h; simpa using h
        · cases h
      have h2 : (ps.map Prod.fst).Nodup := by rw [List.map_cons, List.nodup_cons] at hnd; exact hnd.2
      have := ih (v := if some p.1 = last then 1 else (pos + s.width p.2 + 1 / 2 * b.dist) / size)
        (pos := pos + s.width p.2 + 1 / 2 * b.dist + 1 / 2 * b.dist) h1 h2
      have e : pos + s.width p.2 + 1 / 2 * b.dist + 1 / 2 * b.dist = pos + s.width p.2 + b.dist := by ring
      rw [e] at this ⊢
      exact this

/-- C17: the ranges are exactly the tiling described by `Tiles`. -/
theorem create_tiles (s : Sub K S V) (b : Bar K) (d : BarData K N S) (h : SizeOk s b d) :
    Tiles b (total b (widths s d.subs)) b.firstdist 0 (widths s d.subs) (create s b d) := by
  rw [← h.1]
  exact createLoop_tiles s b d.size _ 0 b.firstdist d.subs (.inl rfl) h.2

/-- Consequences of a tiling: order, widths, gaps. -/
theorem Tiles.spec (b : Bar K) (size : K) (hsize : 0 < size) (hdist : 0 ≤ b.dist) (pos v : K) (ws : List K) (rs : List (Range K))
    (h : Tiles b size pos v ws rs) (hw : ∀ w ∈ ws, 0 < w) (hv : v ≤ pos / size)
    (hend : ws ≠ [] → pos + ws.sum + (ws.length - 1) * b.dist ≤ size) :
    rs.length = ws.length ∧
    (∀ (i : ℕ) (w : K) (r : Range K), ws[i]? = some w → rs[i]? = some r → r.vmax - r.vmin = w / size ∧ r.vmin < r.vmax ∧
      r.vminover ≤ r.vmin ∧ r.vmax ≤ r.vmaxover ∧ v ≤ r.vminover ∧ r.vmaxover ≤ 1) ∧
    (∀ (i : ℕ) (r r' : Range K), rs[i]? = some r → rs[i + 1]? = some r' → r'.vmin - r.vmax = b.dist / size ∧ r'.vminover = r.vmaxover) ∧
    (∀ r, rs.head? = some r → r.vminover = v ∧ r.vmin = pos / size) ∧
    (∀ r, rs.getLast? = some r → r.vmaxover = 1 ∧ r.vmax = (pos + ws.sum + (ws.length - 1) * b.dist) / size) := by
  induction ws generalizing pos v rs with
  | nil =>
    cases rs with
    | nil => simp
    | cons r rs => simp [Tiles] at h
  | cons w ws ih =>
    cases rs with
    | nil => simp [Tiles] at h
    | cons r rs =>
      simp only [Tiles] at h
      obtain ⟨h1, h2, h3, h4, h5⟩ := h
      have hwp : 0 < w := hw w (by simp)
      have hwsn : 0 ≤ ws.sum := List.sum_nonneg fun x hx => (hw x (by simp [hx])).le
      have hend' := hend (by simp)
      simp only [List.sum_cons, List.length_cons, Nat.cast_add, Nat.cast_one, add_sub_cancel_right] at hend'
      have hlend : (0 : K) ≤ ws.length * b.dist := mul_nonneg (Nat.cast_nonneg _) hdist
      -- the part after this bar
      have hvo : r.vmaxover ≤ (pos + w + b.dist) / size ∨ ws = [] := by
        by_cases hws : ws = []
        · exact .inr hws
        · left; rw [h4, if_neg hws]; apply div_le_div_of_nonneg_right _ hsize.le; linarith
      have hmo : r.vmax ≤ r.vmaxover ∧ r.vmaxover ≤ 1 := by
        rw [h4, h2]
        by_cases hws : ws = []
        · subst hws; simp at hend'
          rw [if_pos rfl]
          exact ⟨by rw [div_le_one hsize]; linarith, le_rfl⟩
        · rw [if_neg hws]
          constructor
          · apply div_le_div_of_nonneg_right _ hsize.le; linarith
          · rw [div_le_one hsize]
            have : (1 : K) ≤ ws.length := by
              have : 0 < ws.length := List.length_pos_iff.2 hws
              exact_mod_cast this
            have := mul_le_mul_of_nonneg_right this hdist
            linarith
      cases ws with
      | nil =>
        cases rs with
        | cons r' rs => simp [Tiles] at h5
        | nil =>
          refine ⟨by simp, ?_, ?_, ?_, ?_⟩
          · intro i w' r' hi hi'
            cases i with
            | zero =>
              simp at hi hi'; subst hi; subst hi'
              refine ⟨by rw [h1, h2]; rw [← sub_div]; congr 1; ring, ?_, by rw [h3, h1]; exact hv, hmo.1, by rw [h3], hmo.2⟩
              rw [h1, h2]; exact div_lt_div_of_pos_right (by linarith) hsize
            | succ i => simp at hi
          · intro i r1 r2 hi hi'; cases i <;> simp at hi'
          · intro r' hr'; simp at hr'; subst hr'; exact ⟨h3, h1⟩
          · intro r' hr'; simp at hr'; subst hr'
            refine ⟨by rw [h4]; simp, by rw [h2]; simp⟩
      | cons w2 ws =>
        have hvo' : r.vmaxover ≤ (pos + w + b.dist) / size := by
          rcases hvo with h | h
          · exact h
          · cases h
        obtain ⟨i0, i1, i2, i3, i4⟩ := ih (pos + w + b.dist) r.vmaxover rs h5 (fun x hx => hw x (by simp [hx])) hvo'
          (fun _ => by
            simp only [List.sum_cons, List.length_cons] at hend' ⊢
            push_cast at hend' ⊢
            linarith)
        cases rs with
        | nil => simp at i0
        | cons r2 rs =>
          obtain ⟨j1, j2⟩ := i3 r2 rfl
          have hvle : v ≤ r.vmaxover := by
            refine hv.trans (le_trans ?_ hmo.1)
            rw [h2]; apply div_le_div_of_nonneg_right _ hsize.le; linarith
          refine ⟨by simpa using i0, ?_, ?_, ?_, ?_⟩
          · intro i w' r' hi hi'
            cases i with
            | zero =>
              simp at hi hi'; subst hi; subst hi'
              refine ⟨by rw [h1, h2]; rw [← sub_div]; congr 1; ring, ?_, by rw [h3, h1]; exact hv, hmo.1, by rw [h3], hmo.2⟩
              rw [h1, h2]; exact div_lt_div_of_pos_right (by linarith) hsize
            | succ i =>
              have := i1 i w' r' (by simpa using hi) (by simpa using hi')
              exact ⟨this.1, this.2.1, this.2.2.1, this.2.2.2.1, hvle.trans this.2.2.2.2.1, this.2.2.2.2.2⟩
          · intro i r1 r' hi hi'
            cases i with
            | zero =>
              simp at hi hi'; subst hi; subst hi'
              refine ⟨?_, j1⟩
              rw [j2, h2, ← sub_div]; congr 1; ring
            | succ i => exact i2 i r1 r' (by simpa using hi) (by simpa using hi')
          · intro r' hr'; simp at hr'; subst hr'; exact ⟨h3, h1⟩
          · intro r' hr'
            rw [List.getLast?_cons_cons] at hr'
            obtain ⟨k1, k2⟩ := i4 r' hr'
            refine ⟨k1, ?_⟩
            rw [k2]; congr 1
            simp only [List.sum_cons, List.length_cons]; push_cast; ring

/-- C17: with positive bar sizes and non-negative distances the bars lie in order inside `[0, 1]`, with widths proportional to
their sizes, the gaps proportional to `dist`, the margins to `firstdist` and `lastdist`; the overall ranges tile `[0, 1]`. -/
theorem create_spec (s : Sub K S V) (b : Bar K) (d : BarData K N S) (h : SizeOk s b d) (hne : d.subs ≠ [])
    (hw : ∀ p ∈ d.subs, 0 < s.width p.2) (hd : 0 ≤ b.dist) (hf : 0 ≤ b.firstdist) (hl : 0 ≤ b.lastdist) :
    0 < d.size ∧ (create s b d).length = d.subs.length ∧
    (∀ (i : ℕ) (p : N × S) (r : Range K), d.subs[i]? = some p → (create s b d)[i]? = some r → r.vmax - r.vmin = s.width p.2 / d.size ∧ r.vmin < r.vmax ∧
      r.vminover ≤ r.vmin ∧ r.vmax ≤ r.vmaxover ∧ 0 ≤ r.vminover ∧ r.vmaxover ≤ 1) ∧
    (∀ (i : ℕ) (r r' : Range K), (create s b d)[i]? = some r → (create s b d)[i + 1]? = some r' →
      r'.vmin - r.vmax = b.dist / d.size ∧ r'.vminover = r.vmaxover) ∧
    (∀ r, (create s b d).head? = some r → r.vminover = 0 ∧ r.vmin = b.firstdist / d.size) ∧
    (∀ r, (create s b d).getLast? = some r → r.vmaxover = 1 ∧ 1 - r.vmax = b.lastdist / d.size) := by
  have ht := create_tiles s b d h
  have hww : ∀ w ∈ widths s d.subs, 0 < w := by
    intro w hw'
    obtain ⟨p, hp, rfl⟩ := List.mem_map.1 hw'
    exact hw p hp
  have htot := total_eq b (widths s d.subs)
  have hlen : (1 : K) ≤ (widths s d.subs).length := by
    have : 0 < (widths s d.subs).length := by simpa [widths] using List.length_pos_iff.2 hne
    exact_mod_cast this
  have hsum : 0 < (widths s d.subs).sum := List.sum_pos _ hww (by simpa [widths] using hne)
  have hmul := mul_le_mul_of_nonneg_right hlen hd
  have hsize : 0 < total b (widths s d.subs) := by rw [htot]; linarith
  have sp := Tiles.spec b _ hsize hd _ _ _ _ ht hww (div_nonneg hf hsize.le) (fun _ => by rw [htot]; linarith)
  rw [← h.1] at hsize sp
  obtain ⟨s0, s1, s2, s3, s4⟩ := sp
  refine ⟨hsize, by simpa [widths] using s0, ?_, s2, s3, ?_⟩
  · intro i p r hp hr
    exact s1 i _ r (by simp [widths, hp]) hr
  · intro r hr
    obtain ⟨k1, k2⟩ := s4 r hr
    refine ⟨k1, ?_⟩
    rw [k2, eq_div_iff hsize.ne', sub_mul, div_mul_cancel₀ _ hsize.ne', one_mul]
    rw [h.1, htot]; ring

/-- C17: a value of a bar is shown inside the range of its bar. -/
theorem barConvert_mem (r : Range K) (hr : r.vmin ≤ r.vmax) (eps : Option K) (x y : K) (hx : 0 ≤ x ∧ x ≤ 1)
    (h : barConvert r eps x = some y) : r.vmin ≤ y ∧ y ≤ r.vmax := by
  have key : r.vmin ≤ r.vmin + x * (r.vmax - r.vmin) ∧ r.vmin + x * (r.vmax - r.vmin) ≤ r.vmax := by
    have h0 : 0 ≤ r.vmax - r.vmin := by linarith
    have h1 := mul_nonneg hx.1 h0
    have h2 := mul_le_mul_of_nonneg_right hx.2 h0
    constructor <;> linarith
  unfold barConvert at h
  cases eps with
  | none => simp at h; subst h; exact key
  | some e =>
    simp only at h
    split at h
    · simp at h; subst h; exact key
    · cases h

/-- Concrete case: three bars, the second of size 2. -/
def exSub : Sub ℚ (Option ℚ) Unit := ⟨id, fun x _ => x⟩

example : ((([[(some "a", ()), (some "b", ())], [(none, ()), (some "c", ()), (some "a", ())]]).foldlM
    (barAdjust exSub (Bar.init 1 none none false) fun n => some (some (if n = "b" then some 2 else none)))
    (Bar.createdata (Bar.init (1 : ℚ) none none false))).map fun d =>
      (d.size, (create exSub (Bar.init 1 none none false) d).map fun r => (r.vmin, r.vmax, r.vminover, r.vmaxover))) =
    some (7, [(1 / 14, 3 / 14, 0, 2 / 7), (5 / 14, 9 / 14, 2 / 7, 5 / 7), (11 / 14, 13 / 14, 5 / 7, 1)]) := by decide +kernel

end Bar

end PyX.Axis
