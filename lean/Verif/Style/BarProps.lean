import Verif.Style.Bar

/-!
# C107: bars show the part of their range in the graph, and stack without gaps
-/

set_option linter.unusedSectionVars false

namespace PyX.Style.Bar

variable {K : Type} [Field K] [LinearOrder K] [IsStrictOrderedRing K]

/-! ## Names -/

/-- The components of a nested name, outermost first. -/
def components : Val → List Val
  | .pair a b => a :: components b
  | v => [v]

/-- C107: the subvalue is added behind the components of the name. -/
theorem addsubvalue_components (v s : Val) : components (addsubvalue v s) = components v ++ components s := by
  induction v with
  | str t => simp [addsubvalue, components]
  | num n => simp [addsubvalue, components]
  | pair a b _ ih => simp [addsubvalue, components, ih]

example : components (addsubvalue (.pair (.str "june") (.num 2)) (.num 1)) = [.str "june", .num 2, .num 1] := by decide

/-! ## Availability and validity of positions -/

def Available (vpos : List (Option K)) : Prop := ∀ p ∈ vpos, p ≠ none
def Within (eps : K) (vpos : List (Option K)) : Prop := ∀ p ∈ vpos, ∃ v, p = some v ∧ -eps ≤ v ∧ v ≤ 1 + eps

theorem foldl_flags (eps : K) (vpos : List (Option K)) (f : Bool × Bool) :
    ((vpos.foldl (flags eps) f).1 = true ↔ f.1 = true ∧ Available vpos) ∧ ((vpos.foldl (flags eps) f).2 = true ↔ f.2 = true ∧ Within eps vpos) := by
  induction vpos generalizing f with
  | nil => simp [Available, Within]
  | cons p ps ih =>
    simp only [List.foldl_cons]
    obtain ⟨h1, h2⟩ := ih (flags eps f p)
    rw [h1, h2]
    cases p with
    | none => simp [flags, Available, Within]
    | some v =>
      by_cases h : v < -eps ∨ v > 1 + eps
      · simp only [flags, if_pos h, Available, Within, List.mem_cons, forall_eq_or_imp]
        refine ⟨by simp, by simp; intro _ h3 h4; rcases h with h | h <;> exact absurd h (not_lt.mpr (by assumption))⟩
      · simp only [flags, if_neg h, Available, Within, List.mem_cons, forall_eq_or_imp]
        push Not at h
        simp [h.1, h.2]

theorem recheck_spec (eps : K) (vpos : List (Option K)) (f : Bool × Bool) :
    ((recheck eps f vpos).1 = true ↔ f.1 = true ∧ Available vpos) ∧ ((recheck eps f vpos).2 = true ↔ f.2 = true ∧ Within eps vpos) := by
  induction vpos generalizing f with
  | nil => simp [recheck, Available, Within]
  | cons p ps ih =>
    cases p with
    | none => simp [recheck, Available, Within]
    | some v =>
      by_cases h : v < -eps ∨ v > 1 + eps
      · simp only [recheck, if_pos h]
        obtain ⟨h1, h2⟩ := ih (f.1, false)
        rw [h1, h2]
        simp only [Available, Within, List.mem_cons, forall_eq_or_imp]
        refine ⟨by simp, by simp; intro _ h3 h4; rcases h with h | h <;> exact absurd h (not_lt.mpr (by assumption))⟩
      · simp only [recheck, if_neg h]
        obtain ⟨h1, h2⟩ := ih f
        rw [h1, h2]
        push Not at h
        simp [Available, Within, h.1, h.2]

/-- The flags say what they mean. -/
def Right (eps : K) (s : State K) : Prop := (s.available = true ↔ Available s.vpos) ∧ (s.valid = true ↔ Within eps s.vpos)

/-- C107: `barpos` marks a bar as available if all positions could be converted and as valid if they are in the graph. -/
theorem barpos_right (eps from' : K) (convert : Option K → Option K) (index dims : Nat) (names : Nat → Option K × Option K) (value : Option K) :
    Right eps (barpos eps from' convert index dims names value) := by
  have h := foldl_flags eps ((List.range dims).map fun i => if i = index then convert value else middle (names i)) (true, true)
  simpa [Right, barpos] using h

/-- C107: so does `stackedbarpos`, unless the bar below is valid and the new value is outside of the graph. -/
theorem stacked_right_partial (eps : K) (convert : Option K → Option K) (index : Nat) (addontop : Bool) (value : Option K) (s : State K) (h : Right eps s) (hi : index < s.vpos.length)
    (hv : s.valid = true → ∀ v, convert (if addontop then addValue s.last value else value) = some v → -eps ≤ v ∧ v ≤ 1 + eps) :
    Right eps (stacked eps convert index addontop value s) := by
  obtain ⟨h1, h2⟩ := h
  simp only [stacked]
  generalize (if addontop then addValue s.last value else value) = last at *
  cases hc : convert last with
  | none =>
    have hm : none ∈ s.vpos.set index none := List.mem_set hi none
    refine ⟨?_, ?_⟩
    · simp only [Bool.false_eq_true, false_iff]; intro ha; exact ha _ hm rfl
    · simp only [Bool.false_eq_true, false_iff]; intro ha; obtain ⟨v, hv, -⟩ := ha _ hm; cases hv
  | some v =>
    simp only
    by_cases hf : (!s.available || !s.valid) = true
    · rw [if_pos hf]
      have := recheck_spec eps (s.vpos.set index (some v)) (true, true)
      simpa [Right] using this
    · rw [if_neg hf]
      simp only [Bool.or_eq_true, Bool.not_eq_true', not_or, Bool.not_eq_false] at hf
      obtain ⟨ha, hva⟩ := hf
      have hw := hv hva v hc
      have ha' := h1.mp ha
      have hva' := h2.mp hva
      refine ⟨⟨fun _ p hp => ?_, fun _ => ha⟩, ⟨fun _ p hp => ?_, fun _ => hva⟩⟩
      · rcases List.mem_or_eq_of_mem_set hp with h | rfl
        · exact ha' p h
        · simp
      · rcases List.mem_or_eq_of_mem_set hp with h | rfl
        · exact hva' p h
        · exact ⟨v, rfl, hw⟩

/-- Availability alone is always right. -/
theorem stacked_available (eps : K) (convert : Option K → Option K) (index : Nat) (addontop : Bool) (value : Option K) (s : State K) (h : s.available = true ↔ Available s.vpos) (hi : index < s.vpos.length) :
    (stacked eps convert index addontop value s).available = true ↔ Available (stacked eps convert index addontop value s).vpos := by
  simp only [stacked]
  generalize (if addontop then addValue s.last value else value) = last at *
  cases hc : convert last with
  | none =>
    have hm : none ∈ s.vpos.set index none := List.mem_set hi none
    simp only [Bool.false_eq_true, false_iff]; intro ha; exact ha _ hm rfl
  | some v =>
    simp only
    by_cases hf : (!s.available || !s.valid) = true
    · rw [if_pos hf]
      have := (recheck_spec eps (s.vpos.set index (some v)) (true, true)).1
      simpa using this
    · rw [if_neg hf]
      simp only [Bool.or_eq_true, Bool.not_eq_true', not_or, Bool.not_eq_false] at hf
      obtain ⟨ha, -⟩ := hf
      have ha' := h.mp ha
      refine ⟨fun _ p hp => ?_, fun _ => ha⟩
      rcases List.mem_or_eq_of_mem_set hp with h | rfl
      · exact ha' p h
      · simp

/-- The exception: a value stacked beyond the upper end of the graph counts as valid (so its text or symbol is drawn outside of the graph). -/
theorem stacked_valid_wrong : ∃ (eps : ℚ) (convert : Option ℚ → Option ℚ) (s : State ℚ), Right eps s ∧
    (stacked eps convert 1 true (some 5) s).valid = true ∧ ¬ Within eps (stacked eps convert 1 true (some 5) s).vpos := by
  refine ⟨0, id, barpos 0 0 id 1 2 (fun _ => (some 0, some 1)) (some (1 / 2)), barpos_right _ _ _ _ _ _ _, by decide +kernel, ?_⟩
  intro h
  have := h (some (11 / 2)) (by decide +kernel)
  obtain ⟨v, hv, -, h2⟩ := this
  cases hv
  norm_num at h2

/-! ## Stacks -/

/-- All stacked values drawn on a bar. -/
def stack (eps : K) (convert : Option K → Option K) (index : Nat) (s : State K) (vs : List (Bool × Option K)) : State K :=
  vs.foldl (fun s v => stacked eps convert index v.1 v.2 s) s

theorem stacked_fields (eps : K) (convert : Option K → Option K) (index : Nat) (a : Bool) (value : Option K) (s : State K) :
    (stacked eps convert index a value s).last = (if a then addValue s.last value else value) ∧
    (stacked eps convert index a value s).ranges = s.ranges.modify index (fun r => (r.2, convert (if a then addValue s.last value else value))) := by
  simp only [stacked]
  generalize (if a then addValue s.last value else value) = last
  cases hc : convert last with
  | none => exact ⟨rfl, rfl⟩
  | some v => simp only; split_ifs <;> exact ⟨rfl, rfl⟩

/-- The upper end of the range of a stack is the converted last value. -/
theorem stack_top (eps from' : K) (convert : Option K → Option K) (index dims : Nat) (hi : index < dims) (names : Nat → Option K × Option K) (value : Option K) (vs : List (Bool × Option K)) :
    ∃ a, (stack eps convert index (barpos eps from' convert index dims names value) vs).ranges[index]? =
      some (a, convert (stack eps convert index (barpos eps from' convert index dims names value) vs).last) := by
  have gen : ∀ (vs : List (Bool × Option K)) (s : State K), (∃ a, s.ranges[index]? = some (a, convert s.last)) →
      ∃ a, (stack eps convert index s vs).ranges[index]? = some (a, convert (stack eps convert index s vs).last) := by
    intro vs
    induction vs with
    | nil => intro s h; exact h
    | cons v vs ih =>
      rintro s ⟨a, h⟩
      refine ih (stacked eps convert index v.1 v.2 s) ?_
      obtain ⟨h1, h2⟩ := stacked_fields eps convert index v.1 v.2 s
      refine ⟨convert s.last, ?_⟩
      rw [h1, h2, List.getElem?_modify_eq, h]
      rfl
  refine gen vs _ ⟨some from', ?_⟩
  simp [barpos, List.getElem?_map, List.getElem?_range hi]

/-- C107: a stacked bar starts where the bar below ends, ends at its own value (added to the value below if wanted), and the other dimensions are those of the first bar. -/
theorem stack_step (eps from' : K) (convert : Option K → Option K) (index dims : Nat) (hi : index < dims) (names : Nat → Option K × Option K) (value : Option K) (vs : List (Bool × Option K)) (a : Bool) (v : Option K) :
    let below := stack eps convert index (barpos eps from' convert index dims names value) vs
    let above := stack eps convert index (barpos eps from' convert index dims names value) (vs ++ [(a, v)])
    above.last = (if a then addValue below.last v else v) ∧
    above.ranges[index]? = some (convert below.last, convert above.last) ∧
    ∀ j, j ≠ index → j < dims → above.ranges[j]? = some (names j) := by
  intro below above
  have habove : above = stacked eps convert index a v below := by simp [above, below, stack, List.foldl_append]
  obtain ⟨h1, h2⟩ := stacked_fields eps convert index a v below
  rw [← habove] at h1 h2
  obtain ⟨t, ht⟩ := stack_top eps from' convert index dims hi names value vs
  refine ⟨h1, ?_, ?_⟩
  · rw [h2, List.getElem?_modify_eq, ht, h1]; rfl
  · have gen : ∀ (vs : List (Bool × Option K)) (s : State K) (j : Nat), j ≠ index → (stack eps convert index s vs).ranges[j]? = s.ranges[j]? := by
      intro vs
      induction vs with
      | nil => intro s j hj; rfl
      | cons v vs ih =>
        intro s j hj
        have := ih (stacked eps convert index v.1 v.2 s) j hj
        simp only [stack, List.foldl_cons] at this ⊢
        rw [this, (stacked_fields eps convert index v.1 v.2 s).2]
        simp [Ne.symm hj]
    intro j hj hjd
    show (stack eps convert index _ _).ranges[j]? = _
    rw [gen _ _ _ hj]
    simp [barpos, List.getElem?_map, List.getElem?_range hjd, hj]

/-- C107: values added on top of each other give the sums of the values. -/
theorem stack_sum (eps from' : K) (convert : Option K → Option K) (index dims : Nat) (hi : index < dims) (names : Nat → Option K × Option K) (v0 : K) (vs : List K) (v : K) :
    let s := stack eps convert index (barpos eps from' convert index dims names (some v0)) ((vs ++ [v]).map fun v => (true, some v))
    s.ranges[index]? = some (convert (some (v0 + vs.sum)), convert (some (v0 + vs.sum + v))) := by
  have gen : ∀ (vs : List K) (s : State K) (w : K), s.last = some w → (stack eps convert index s (vs.map fun v => (true, some v))).last = some (w + vs.sum) := by
    intro vs
    induction vs with
    | nil => intro s w h; simpa [stack] using h
    | cons v vs ih =>
      intro s w h
      have h1 := (stacked_fields eps convert index true (some v) s).1
      simp only [h, addValue, if_true] at h1
      have := ih _ _ h1
      simp only [stack, List.map_cons, List.foldl_cons, List.sum_cons] at this ⊢
      rw [this, add_assoc]
  intro s
  obtain ⟨h1, h2, -⟩ := stack_step eps from' convert index dims hi names (some v0) (vs.map fun v => (true, some v)) true (some v)
  have hb := gen vs (barpos eps from' convert index dims names (some v0)) v0 rfl
  have hs : s = stack eps convert index (barpos eps from' convert index dims names (some v0)) (vs.map (fun v => (true, some v)) ++ [(true, some v)]) := by
    simp [s]
  rw [hs, h2, h1, hb]
  simp [addValue]

example : (stack (0 : ℚ) id 1 (barpos 0 0 id 1 2 (fun _ => (some 0, some 1)) (some (1 / 4))) [(true, some (1 / 2)), (true, some (1 / 8))]).ranges = [(some 0, some 1), (some (3 / 4), some (7 / 8))] := by
  decide +kernel

/-! ## Clipping -/

/-- A value is between two ends, in any order. -/
def Between (a b v : K) : Prop := (a ≤ v ∧ v ≤ b) ∨ (b ≤ v ∧ v ≤ a)

theorem clip_spec (a b : K) (v : K) : (∃ c, clip (some a, some b) = some c ∧ c.1 ≤ v ∧ v ≤ c.2) ↔ 0 ≤ v ∧ v ≤ 1 ∧ Between a b v := by
  simp only [clip, Between]
  have key : ∀ lo hi : K, lo ≤ hi → ((∃ c : K × K, (if lo > 1 ∨ hi < 0 then none else some (if lo < 0 then 0 else lo, if hi > 1 then 1 else hi)) = some c ∧ c.1 ≤ v ∧ v ≤ c.2) ↔ 0 ≤ v ∧ v ≤ 1 ∧ lo ≤ v ∧ v ≤ hi) := by
    intro lo hi h
    split_ifs with h0 h1 h2 h2
    · constructor
      · rintro ⟨c, hc, -⟩; cases hc
      · rintro ⟨a1, a2, a3, a4⟩; rcases h0 with h0 | h0 <;> exfalso <;> linarith
    all_goals
      constructor
      · rintro ⟨c, hc, a1, a2⟩
        obtain rfl := Option.some.inj hc
        simp only at a1 a2
        push Not at h0
        refine ⟨?_, ?_, ?_, ?_⟩ <;> linarith
      · rintro ⟨a1, a2, a3, a4⟩
        refine ⟨_, rfl, ?_, ?_⟩ <;> simp only <;> linarith
  by_cases h : a > b
  · simp only [if_pos h]
    rw [key b a h.le]
    constructor
    · rintro ⟨a1, a2, a3, a4⟩; exact ⟨a1, a2, Or.inr ⟨a3, a4⟩⟩
    · rintro ⟨a1, a2, (⟨a3, a4⟩ | ⟨a3, a4⟩)⟩
      · exact ⟨a1, a2, by linarith, by linarith⟩
      · exact ⟨a1, a2, a3, a4⟩
  · simp only [if_neg h]
    rw [key a b (not_lt.mp h)]
    constructor
    · rintro ⟨a1, a2, a3, a4⟩; exact ⟨a1, a2, Or.inl ⟨a3, a4⟩⟩
    · rintro ⟨a1, a2, (⟨a3, a4⟩ | ⟨a3, a4⟩)⟩
      · exact ⟨a1, a2, a3, a4⟩
      · have := not_lt.mp h; exact ⟨a1, a2, by linarith, by linarith⟩

theorem clip_ordered (r : Option K × Option K) (c : K × K) (h : clip r = some c) : c.1 ≤ c.2 ∧ ∃ a b, r = (some a, some b) := by
  obtain ⟨a, b⟩ := r
  cases a with
  | none => cases b <;> simp [clip] at h
  | some a =>
    cases b with
    | none => simp [clip] at h
    | some b =>
      refine ⟨?_, a, b, rfl⟩
      simp only [clip] at h
      have hlh : (if a > b then b else a) ≤ (if a > b then a else b) := by split_ifs with h1 <;> [exact h1.le; exact not_lt.mp h1]
      generalize (if a > b then b else a) = lo at *
      generalize (if a > b then a else b) = hi at *
      split_ifs at h with h0 <;> obtain rfl := Option.some.inj h <;> push Not at h0 <;> simp only <;> linarith

/-- A polygon as a region: the points which are not to the right of any of its edges. -/
def Region (poly : List (K × K)) (p : K × K) : Prop :=
  ∀ e ∈ poly.zip poly.tail, 0 ≤ (e.2.1 - e.1.1) * (p.2 - e.1.2) - (e.2.2 - e.1.2) * (p.1 - e.1.1)

theorem polygon_region (x y : K × K) (hx : x.1 < x.2) (hy : y.1 < y.2) (p : K × K) : Region (polygon x y) p ↔ (x.1 ≤ p.1 ∧ p.1 ≤ x.2) ∧ (y.1 ≤ p.2 ∧ p.2 ≤ y.2) := by
  simp only [Region, polygon, List.tail_cons, List.zip_cons_cons, List.zip_nil_right, List.mem_cons, List.not_mem_nil, or_false, forall_eq_or_imp, forall_eq]
  have dx := sub_pos.mpr hx
  have dy := sub_pos.mpr hy
  have e1 : ∀ t : K, 0 ≤ (x.2 - x.1) * t ↔ 0 ≤ t := fun t => mul_nonneg_iff_of_pos_left dx
  have e2 : ∀ t : K, 0 ≤ (y.2 - y.1) * t ↔ 0 ≤ t := fun t => mul_nonneg_iff_of_pos_left dy
  have f1 : (x.2 - x.1) * (p.2 - y.1) - (y.1 - y.1) * (p.1 - x.1) = (x.2 - x.1) * (p.2 - y.1) := by ring
  have f2 : (x.2 - x.2) * (p.2 - y.1) - (y.2 - y.1) * (p.1 - x.2) = (y.2 - y.1) * (x.2 - p.1) := by ring
  have f3 : (x.1 - x.2) * (p.2 - y.2) - (y.2 - y.2) * (p.1 - x.2) = (x.2 - x.1) * (y.2 - p.2) := by ring
  have f4 : (x.1 - x.1) * (p.2 - y.2) - (y.1 - y.2) * (p.1 - x.1) = (y.2 - y.1) * (p.1 - x.1) := by ring
  rw [f1, f2, f3, f4, e1, e2, e1, e2]
  simp only [sub_nonneg]
  tauto

/-- C107: a bar shows exactly the part of its ranges in the graph (ranges which are not reduced to a line in the graph). -/
theorem bar_region (x y : Option K × Option K) (poly : List (K × K)) (h : drawpoint [x, y] = some poly) :
    ∃ x0 x1 y0 y1, x = (some x0, some x1) ∧ y = (some y0, some y1) ∧
      ((∃ p q : K × K, (0 ≤ p.1 ∧ p.1 ≤ 1 ∧ Between x0 x1 p.1) ∧ (0 ≤ p.2 ∧ p.2 ≤ 1 ∧ Between y0 y1 p.2) ∧ (0 ≤ q.1 ∧ q.1 ≤ 1 ∧ Between x0 x1 q.1) ∧ (0 ≤ q.2 ∧ q.2 ≤ 1 ∧ Between y0 y1 q.2) ∧ p.1 < q.1 ∧ p.2 < q.2) →
        ∀ p : K × K, Region poly p ↔ (0 ≤ p.1 ∧ p.1 ≤ 1 ∧ Between x0 x1 p.1) ∧ (0 ≤ p.2 ∧ p.2 ≤ 1 ∧ Between y0 y1 p.2)) := by
  simp only [drawpoint, clipAll] at h
  cases hx : clip x with
  | none => simp [hx] at h
  | some cx =>
    cases hy : clip y with
    | none => simp [hx, hy] at h
    | some cy =>
      simp only [hx, hy, Option.bind_some, Option.map_some, Option.some.injEq] at h
      subst h
      obtain ⟨hxo, x0, x1, rfl⟩ := clip_ordered _ _ hx
      obtain ⟨hyo, y0, y1, rfl⟩ := clip_ordered _ _ hy
      refine ⟨x0, x1, y0, y1, rfl, rfl, ?_⟩
      have sx : ∀ v, (0 ≤ v ∧ v ≤ 1 ∧ Between x0 x1 v) ↔ cx.1 ≤ v ∧ v ≤ cx.2 := by
        intro v; rw [← clip_spec, hx]; simp
      have sy : ∀ v, (0 ≤ v ∧ v ≤ 1 ∧ Between y0 y1 v) ↔ cy.1 ≤ v ∧ v ≤ cy.2 := by
        intro v; rw [← clip_spec, hy]; simp
      simp only [sx, sy]
      rintro ⟨p, q, ⟨a1, a2⟩, ⟨a3, a4⟩, ⟨a5, a6⟩, ⟨a7, a8⟩, a9, a10⟩ r
      exact polygon_region cx cy (by linarith) (by linarith) r

/-- C107: nothing is drawn if and only if a coordinate is missing or no part of the bar is in the graph. -/
theorem bar_nothing (x y : Option K × Option K) :
    drawpoint [x, y] = none ↔ ¬ ∃ x0 x1 y0 y1 : K, ∃ p : K × K, x = (some x0, some x1) ∧ y = (some y0, some y1) ∧ (0 ≤ p.1 ∧ p.1 ≤ 1 ∧ Between x0 x1 p.1) ∧ (0 ≤ p.2 ∧ p.2 ≤ 1 ∧ Between y0 y1 p.2) := by
  constructor
  · intro h
    rintro ⟨x0, x1, y0, y1, p, rfl, rfl, h1, h2⟩
    rw [← clip_spec] at h1 h2
    obtain ⟨c, hc, -⟩ := h1
    obtain ⟨d, hd, -⟩ := h2
    simp [drawpoint, clipAll, hc, hd] at h
  · intro h
    simp only [drawpoint, clipAll]
    cases hx : clip x with
    | none => simp
    | some cx =>
      cases hy : clip y with
      | none => simp
      | some cy =>
        exfalso
        apply h
        obtain ⟨hxo, x0, x1, rfl⟩ := clip_ordered _ _ hx
        obtain ⟨hyo, y0, y1, rfl⟩ := clip_ordered _ _ hy
        refine ⟨x0, x1, y0, y1, (cx.1, cy.1), rfl, rfl, ?_, ?_⟩
        · rw [← clip_spec]; exact ⟨cx, hx, le_refl _, hxo⟩
        · rw [← clip_spec]; exact ⟨cy, hy, le_refl _, hyo⟩

/-- A bar from 1/2 down to -1 and between 1/4 and 2: what is in the graph. -/
example : drawpoint [(some (1 / 2 : ℚ), some (-1)), (some (1 / 4), some 2)] = some [(0, 1 / 4), (1 / 2, 1 / 4), (1 / 2, 1), (0, 1), (0, 1 / 4)] := by decide +kernel

/-! ## The key -/

/-- Intervals, given by begin and width, which fill the space from `a` to `b` one after another. -/
def Tiles (a b : K) : List (K × K) → Prop
  | [] => a = b
  | (c, w) :: r => c = a ∧ Tiles (a + w) b r

/-- `n` more stacked values, each drawn as a bar. -/
def more : Nat → List Kind
  | 0 => []
  | n + 1 => .stacked :: .bar :: more n

theorem init_more (n k : Nat) : initdrawpoints (k, true) (more n) = ((List.range n).map fun i => k + 1 + i, k + n) := by
  induction n generalizing k with
  | zero => simp [more, initdrawpoints]
  | succ n ih =>
    simp only [more, initdrawpoints, if_true, ih, List.range_succ_eq_map, List.map_cons, List.map_map]
    refine Prod.ext ?_ (by simp only; omega)
    simp only [Function.comp_def, add_zero]
    congr 1
    apply List.map_congr_left
    intro i _
    omega

theorem tiles_range (x w : K) (n : Nat) : Tiles x (x + w) ((List.range (n + 1)).map fun i => keySlice x w i n) := by
  have hn : (n : K) + 1 ≠ 0 := by positivity
  have gen : ∀ (m k : Nat), k + m = n + 1 → Tiles (x + w * k / (n + 1)) (x + w) ((List.range m).map fun i => keySlice x w (k + i) n) := by
    intro m
    induction m with
    | zero =>
      intro k hk
      simp only [List.range_zero, List.map_nil, Tiles]
      have : (k : K) = n + 1 := by exact_mod_cast hk
      rw [this]; field_simp
    | succ m ih =>
      intro k hk
      simp only [List.range_succ_eq_map, List.map_cons, List.map_map, keySlice, Tiles, add_zero, true_and]
      have := ih (k + 1) (by omega)
      have e : x + w * (k : K) / (n + 1) + w / (n + 1) = x + w * ((k + 1 : ℕ) : K) / (n + 1) := by push_cast; field_simp; ring
      rw [e]
      convert this using 2
      funext i
      simp only [Function.comp, keySlice]
      have : k + (i + 1) = k + 1 + i := by omega
      rw [Nat.succ_eq_add_one, this]
  have := gen (n + 1) 0 (by omega)
  simpa using this

/-- C107: the key of a stack shows all its bars side by side and fills the place given, whether or not the first value is drawn as a bar. -/
theorem key_tiles (x w : K) (n : Nat) :
    (keySlices x w (.barpos :: .bar :: more n)).length = n + 1 ∧ Tiles x (x + w) (keySlices x w (.barpos :: .bar :: more n)) ∧
    keySlices x w (.barpos :: .stacked :: .bar :: more n) = keySlices x w (.barpos :: .bar :: more n) := by
  have e : keySlices x w (.barpos :: .bar :: more n) = (List.range (n + 1)).map fun i => keySlice x w i n := by
    simp only [keySlices, initdrawpoints, init_more, zero_add, List.range_succ_eq_map, List.map_cons, List.map_map]
    congr 1
    apply List.map_congr_left
    intro i _
    simp [Function.comp, add_comm]
  refine ⟨by rw [e]; simp, by rw [e]; exact tiles_range x w n, ?_⟩
  simp only [keySlices, initdrawpoints, Bool.false_eq_true, if_false]

example : keySlices (0 : ℚ) 6 (.barpos :: .bar :: more 2) = [(0, 2), (2, 2), (4, 2)] := by decide +kernel

end PyX.Style.Bar
