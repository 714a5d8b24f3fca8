import Verif.NormPath.ArclenParam

/-!
# Parameters at given arc lengths of sub-paths (`pyx/normpath.py:986-1003`)

The sub-path consists of lines and curves.  As for a single curve, the lengths are treated independently; here it is a function of a single one.
-/

set_option linter.unusedSectionVars false

namespace PyX.NormPath.ByLength

noncomputable section

/-! ## Model -/

open Classical in
/-- `_arclentoparam_pt` of the items (`normpath.py:173-176, 488-498`). -/
def itemParam (n : ℕ) (eps : ℝ) (s : ℝ) : Item ℝ → Except Fail (ℝ × ℝ)
  | .line l => if l.arclen = 0 then .error .zero else .ok (s / l.arclen, l.arclen)
  | .curve c => toParam n c s eps

open Classical in
/-- `normsubpath._arclentoparam_pt` (`normpath.py:986-1003`) for a single length: the arguments are the result found so far, the index of the first item and the remaining
length. All items are evaluated, also when the result has been found. -/
def scan (n : ℕ) (eps : ℝ) : Option ℝ → ℕ → List (Item ℝ) → ℝ → Except Fail (Option ℝ)
  | found, _, [], _ => .ok found
  | some t, k, i :: is, s => (itemParam n eps s i).bind fun _ => scan n eps (some t) (k + 1) is s
  | none, k, i :: is, s => (itemParam n eps s i).bind fun r =>
    if s - r.2 < 0 ∨ is = [] then scan n eps (some (k + r.1)) (k + 1) is (s - r.2) else scan n eps none (k + 1) is (s - r.2)

/-! ## Specification -/

/-- The true length of an item up to a parameter. -/
def itemUpto (i : Item ℝ) (t : ℝ) : ℝ := (eVariationOn i.cpoint (Set.Icc 0 t)).toReal

/-- The lower bound of the length of an item (C73). -/
def itemLen (n : ℕ) (eps : ℝ) : Item ℝ → Option ℝ
  | .line l => some l.arclen
  | .curve c => c.arclen n eps false

/-- The lower bound of the length of the sub-path. -/
def subLen (n : ℕ) (eps : ℝ) : List (Item ℝ) → Option ℝ
  | [] => some 0
  | i :: is => (itemLen n eps i).bind fun l => (subLen n eps is).map (l + ·)

/-- The straight part of a curve which contains the position at the given length, see `asked`. -/
def itemAsked (n : ℕ) (eps s : ℝ) : Item ℝ → Option (Curve ℝ × ℝ)
  | .line _ => none
  | .curve c => asked n c s eps

open Classical in
/-- The same for a sub-path. -/
def subAsked (n : ℕ) (eps : ℝ) : List (Item ℝ) → ℝ → Option (Curve ℝ × ℝ)
  | [], _ => none
  | i :: is, s => (itemLen n eps i).bind fun l =>
    if s - l < 0 ∨ is = [] then itemAsked n eps s i else subAsked n eps is (s - l)

/-! ## C118 for sub-paths -/

theorem line_upto (l : Line ℝ) (t : ℝ) (h0 : 0 ≤ t) : itemUpto (.line l) t = l.arclen * t := by
  have htr : Traces (.line ⟨(l.at_ 0).1, (l.at_ 0).2, (l.at_ t).1, (l.at_ t).2⟩) (.line l) 0 t := by
    intro s
    ext <;> simp only [Item.point, Line.at_, linePoint] <;> ring
  unfold itemUpto
  rw [← length_traces _ _ 0 t htr h0, line_arclen]
  have e : (⟨(l.at_ 0).1, (l.at_ 0).2, (l.at_ t).1, (l.at_ t).2⟩ : Line ℝ).arclen = l.arclen * t := by
    unfold Line.arclen
    simp only [Line.at_]
    have e1 : l.x0 + (l.x1 - l.x0) * 0 - (l.x0 + (l.x1 - l.x0) * t) = t * (l.x0 - l.x1) := by ring
    have e2 : l.y0 + (l.y1 - l.y0) * 0 - (l.y0 + (l.y1 - l.y0) * t) = t * (l.y0 - l.y1) := by ring
    rw [e1, e2, hypot_smul, abs_of_nonneg h0, mul_comm]
  rw [e]
  exact ENNReal.toReal_ofReal (mul_nonneg (hypot_nonneg _ _) h0)

theorem itemParam_length (n : ℕ) (eps s t l : ℝ) (i : Item ℝ) (h : itemParam n eps s i = .ok (t, l)) : itemLen n eps i = some l ∧ 0 < l := by
  cases i with
  | line a =>
    rw [itemParam] at h
    by_cases hz : a.arclen = 0
    · rw [if_pos hz] at h; simp at h
    · rw [if_neg hz] at h
      simp only [Except.ok.injEq, Prod.mk.injEq] at h
      rw [itemLen, h.2]
      refine ⟨rfl, ?_⟩
      rw [← h.2]
      exact lt_of_le_of_ne (hypot_nonneg _ _) (Ne.symm hz)
  | curve c => exact ⟨toParam_length _ _ _ _ _ _ h, toParam_pos _ _ _ _ _ _ h⟩

theorem itemLen_bounds (n : ℕ) (eps l : ℝ) (i : Item ℝ) (h : itemLen n eps i = some l) (heps : 0 < eps) :
    0 ≤ l ∧ l ≤ itemUpto i 1 ∧ itemUpto i 1 - l < 2 * eps := by
  cases i with
  | line a =>
    simp only [itemLen, Option.some.injEq] at h
    rw [line_upto a 1 zero_le_one, mul_one, h]
    refine ⟨?_, le_rfl, by linarith⟩
    rw [← h]; exact hypot_nonneg _ _
  | curve c =>
    obtain ⟨u, hu⟩ := upper_some _ _ _ _ h
    obtain ⟨h1, h2, h3, h4, h5⟩ := arclen_bounds n c _ l u h hu
    rw [← upto_one] at h3 h4
    have h6 := (ENNReal.ofReal_le_ofReal_iff ENNReal.toReal_nonneg).mp h3
    have h7 := (ENNReal.ofReal_le_ofReal_iff (h1.trans h2)).mp h4
    have e : itemUpto (.curve c) 1 = upto c 1 := rfl
    rw [e]
    exact ⟨h1, h6, by linarith⟩

/-- The parameter within an item. -/
theorem itemParam_accurate (n : ℕ) (eps s t l : ℝ) (i : Item ℝ) (h : itemParam n eps s i = .ok (t, l)) (heps : 0 < eps) (h0 : 0 ≤ s) (hsl : s ≤ l)
    (hgood : ∀ c a p, i = .curve c → asked n c s eps = some (a, p) → ¬ Wrong a p) : 0 ≤ t ∧ t ≤ 1 ∧ |itemUpto i t - s| < 2 * eps := by
  cases i with
  | line a =>
    rw [itemParam] at h
    by_cases hz : a.arclen = 0
    · rw [if_pos hz] at h; simp at h
    · rw [if_neg hz] at h
      simp only [Except.ok.injEq, Prod.mk.injEq] at h
      obtain ⟨rfl, rfl⟩ := h
      have hpos : 0 < a.arclen := lt_of_le_of_ne (hypot_nonneg _ _) (Ne.symm hz)
      have ht : 0 ≤ s / a.arclen := div_nonneg h0 hpos.le
      refine ⟨ht, (div_le_one hpos).mpr hsl, ?_⟩
      rw [line_upto a _ ht, mul_div_cancel₀ _ hz, sub_self, abs_zero]
      linarith
  | curve c => exact toParam_accurate_partial n c s eps t l h h0 hsl fun a p => hgood c a p rfl

theorem scan_found (n : ℕ) (eps T : ℝ) (is : List (Item ℝ)) : ∀ (k : ℕ) (s : ℝ) (r : Option ℝ), scan n eps (some T) k is s = .ok r → r = some T := by
  induction is with
  | nil => intro k s r h; simp only [scan, Except.ok.injEq] at h; exact h.symm
  | cons i is ih =>
    intro k s r h
    rw [scan] at h
    obtain ⟨_, _, h⟩ := bind_ok h
    exact ih _ _ _ h

theorem scan_none (n : ℕ) (eps : ℝ) (i : Item ℝ) (is : List (Item ℝ)) (k : ℕ) (s : ℝ) (r : Option ℝ) (h : scan n eps none k (i :: is) s = .ok r) :
    ∃ t l, itemParam n eps s i = .ok (t, l) ∧ (((s - l < 0 ∨ is = []) ∧ r = some (k + t)) ∨
      (¬ (s - l < 0 ∨ is = []) ∧ scan n eps none (k + 1) is (s - l) = .ok r)) := by
  rw [scan] at h
  obtain ⟨⟨t, l⟩, h1, h⟩ := bind_ok h
  refine ⟨t, l, h1, ?_⟩
  by_cases hc : s - l < 0 ∨ is = []
  · simp only [if_pos hc] at h
    exact Or.inl ⟨hc, scan_found _ _ _ _ _ _ _ h⟩
  · simp only [if_neg hc] at h
    exact Or.inr ⟨hc, h⟩

/-- **C118_partial.**  The same for a whole sub-path of lines and curves: the parameter returned for an arc length `s` between 0 and the one of the sub-path is the index
of an item plus a parameter within it, and the true length of the sub-path up to this position differs from `s` by less than twice the precision for each item up to there. -/
theorem scan_accurate_partial (n : ℕ) (eps : ℝ) (heps : 0 < eps) (is : List (Item ℝ)) (k : ℕ) (s T total : ℝ) (h : scan n eps none k is s = .ok (some T))
    (hlen : subLen n eps is = some total) (h0 : 0 ≤ s) (hs : s ≤ total) (hgood : ∀ a p, subAsked n eps is s = some (a, p) → ¬ Wrong a p) :
    ∃ (j : ℕ) (t : ℝ) (i : Item ℝ), is[j]? = some i ∧ T = k + (j + t) ∧ 0 ≤ t ∧ t ≤ 1 ∧
      |((is.take j).map fun i => itemUpto i 1).sum + itemUpto i t - s| < 2 * eps * (j + 1) := by
  induction is generalizing k s total with
  | nil => simp [scan] at h
  | cons i is ih =>
    obtain ⟨t, l, h1, h2⟩ := scan_none _ _ _ _ _ _ _ h
    obtain ⟨hl, hlpos⟩ := itemParam_length _ _ _ _ _ _ h1
    rw [subLen, hl] at hlen
    simp only [Option.bind_some] at hlen
    obtain ⟨rest, hrest, htot⟩ := Option.map_eq_some_iff.mp hlen
    simp only [subAsked, hl] at hgood
    simp only [Option.bind_some] at hgood
    rcases h2 with ⟨hc, hr⟩ | ⟨hc, hr⟩
    · simp only [if_pos hc] at hgood
      have hsl : s ≤ l := by
        rcases hc with hc | hc
        · linarith
        · subst hc
          simp only [subLen, Option.some.injEq] at hrest
          linarith
      obtain ⟨k1, k2, k3⟩ := itemParam_accurate n eps s t l i h1 heps h0 hsl (by
        intro c a p hi ha
        subst hi
        exact hgood a p ha)
      refine ⟨0, t, i, rfl, by simpa using hr, k1, k2, ?_⟩
      simpa using k3
    · simp only [if_neg hc] at hgood
      push Not at hc
      obtain ⟨j, t', i', m1, m2, m3, m4, m5⟩ := ih (k + 1) (s - l) rest hr hrest hc.1 (by linarith) hgood
      refine ⟨j + 1, t', i', by simpa using m1, by rw [m2]; push_cast; ring, m3, m4, ?_⟩
      obtain ⟨_, q1, q2⟩ := itemLen_bounds n eps l i hl heps
      simp only [List.take_succ_cons, List.map_cons, List.sum_cons]
      rw [abs_lt] at m5 ⊢
      push_cast
      constructor <;> linarith [m5.1, m5.2]

theorem item_begin (n : ℕ) (eps t l : ℝ) (i : Item ℝ) (h : itemParam n eps 0 i = .ok (t, l))
    (hgood : ∀ c a p, i = .curve c → asked n c 0 eps = some (a, p) → ¬ Wrong a p) : t = 0 := by
  cases i with
  | line a =>
    rw [itemParam] at h
    by_cases hz : a.arclen = 0
    · rw [if_pos hz] at h; simp at h
    · rw [if_neg hz] at h
      simp only [Except.ok.injEq, Prod.mk.injEq] at h
      rw [← h.1, zero_div]
  | curve c => exact toParam_begin_partial n c eps t l h fun a p => hgood c a p rfl

theorem item_end (n : ℕ) (eps s t l : ℝ) (i : Item ℝ) (h : itemParam n eps s i = .ok (t, l)) (hs : s = l)
    (hgood : ∀ c a p, i = .curve c → asked n c s eps = some (a, p) → ¬ Wrong a p) : t = 1 := by
  cases i with
  | line a =>
    rw [itemParam] at h
    by_cases hz : a.arclen = 0
    · rw [if_pos hz] at h; simp at h
    · rw [if_neg hz] at h
      simp only [Except.ok.injEq, Prod.mk.injEq] at h
      rw [← h.1, hs, ← h.2, div_self hz]
  | curve c => exact toParam_end_partial n c s eps t l h hs fun a p => hgood c a p rfl

/-- **C118_partial.**  The arc length 0 is the begin of the sub-path. -/
theorem scan_begin_partial (n : ℕ) (eps : ℝ) (is : List (Item ℝ)) (T : ℝ) (h : scan n eps none 0 is 0 = .ok (some T))
    (hgood : ∀ a p, subAsked n eps is 0 = some (a, p) → ¬ Wrong a p) : T = 0 := by
  cases is with
  | nil => simp [scan] at h
  | cons i is =>
    obtain ⟨t, l, h1, h2⟩ := scan_none _ _ _ _ _ _ _ h
    obtain ⟨hl, hlpos⟩ := itemParam_length _ _ _ _ _ _ h1
    simp only [subAsked, hl] at hgood
    simp only [Option.bind_some] at hgood
    rcases h2 with ⟨hc, hr⟩ | ⟨hc, _⟩
    · simp only [if_pos hc] at hgood
      have := item_begin n eps t l i h1 (by
        intro c a p hi ha
        subst hi
        exact hgood a p ha)
      rw [this] at hr
      simpa using hr
    · exact absurd (Or.inl (by linarith)) hc

/-- **C118_partial.**  The arc length of the sub-path is its end. -/
theorem scan_end_partial (n : ℕ) (eps : ℝ) (heps : 0 < eps) (is : List (Item ℝ)) (k : ℕ) (s T : ℝ) (h : scan n eps none k is s = .ok (some T))
    (hlen : subLen n eps is = some s) (hgood : ∀ a p, subAsked n eps is s = some (a, p) → ¬ Wrong a p) : T = k + is.length := by
  induction is generalizing k s with
  | nil => simp [scan] at h
  | cons i is ih =>
    obtain ⟨t, l, h1, h2⟩ := scan_none _ _ _ _ _ _ _ h
    obtain ⟨hl, hlpos⟩ := itemParam_length _ _ _ _ _ _ h1
    rw [subLen, hl] at hlen
    simp only [Option.bind_some] at hlen
    obtain ⟨rest, hrest, htot⟩ := Option.map_eq_some_iff.mp hlen
    simp only [subAsked, hl] at hgood
    simp only [Option.bind_some] at hgood
    have hnn : 0 ≤ rest := by
      clear hlen hgood ih h h1 h2 htot
      induction is generalizing rest with
      | nil => simp only [subLen, Option.some.injEq] at hrest; linarith
      | cons i' is ih' =>
        rw [subLen] at hrest
        obtain ⟨l', hl', hrest⟩ := Option.bind_eq_some_iff.mp hrest
        obtain ⟨r', hr', e⟩ := Option.map_eq_some_iff.mp hrest
        have := ih' r' hr'
        have := (itemLen_bounds n eps l' i' hl' heps).1
        linarith
    rcases h2 with ⟨hc, hr⟩ | ⟨hc, hr⟩
    · simp only [if_pos hc] at hgood
      rcases hc with hc | hc
      · linarith
      · subst hc
        simp only [subLen, Option.some.injEq] at hrest
        have := item_end n eps s t l i h1 (by linarith) (by
          intro c a p hi ha
          subst hi
          exact hgood a p ha)
        rw [this] at hr
        simpa using hr
    · simp only [if_neg hc] at hgood
      have := ih (k + 1) (s - l) hr (by rw [hrest]; congr 1; linarith) hgood
      rw [this]
      push_cast [List.length_cons]
      ring

/-- A line followed by a curve: the position at one and a quarter is found within the curve. -/
example (eps : ℝ) (heps : 0 < eps) : ∃ T, scan 1 eps none 0 [.line ⟨-1, 0, 0, 0⟩, .curve ease] (5 / 4) = .ok (some T) ∧ 1 ≤ T := by
  have hl : (⟨-1, 0, 0, 0⟩ : Line ℝ).arclen = 1 := by
    unfold Line.arclen hypot
    norm_num
  obtain ⟨t, ht⟩ := toParam_any 1 ease 0 (1 / 4) eps _ _ (toParam_false eps heps).1
  have hw : ∀ a p, asked 1 ease (1 / 4) eps = some (a, p) → ¬ Wrong a p := by
    obtain ⟨_, _, h⟩ := ease_quarter eps heps
    exact h
  have hacc := toParam_accurate_partial 1 ease (1 / 4) eps t 1 ht (by norm_num) (by norm_num) hw
  refine ⟨1 + t, ?_, by linarith [hacc.1]⟩
  rw [scan, itemParam, hl, if_neg one_ne_zero]
  simp only [Except.bind]
  rw [if_neg (by norm_num), scan, itemParam, show (5 / 4 - 1 : ℝ) = 1 / 4 by norm_num, ht]
  simp only [Except.bind, or_true, if_true, scan]
  push_cast
  norm_num

end

end PyX.NormPath.ByLength
