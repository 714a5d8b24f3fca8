import Verif.NormPath.Split

/-!
# C46: arc lengths and parameters of polylines

Sub-paths consisting of straight lines.  The methods take lists of lengths or parameters and treat them independently of each other; here they are
functions of a single one.
-/

set_option linter.unusedSectionVars false

namespace PyX.NormPath

noncomputable section

open PyX.NormPath.Sub

/-! ## Model -/

/-- The sum of the arc lengths (`normsubpath.arclen_pt`, `normpath.py:979-984`). -/
def totalLen (ls : List (Line ℝ)) : ℝ := (ls.map Line.arclen).sum

open Classical in
/-- `normsubpath._arclentoparam_pt` (`normpath.py:986-1003`) with `normline_pt._arclentoparam_pt` (`normpath.py:173-176`); `k` is the index
of the first line of the list. For an empty sub-path, the code returns `None`. -/
def toParam (k : ℕ) : List (Line ℝ) → ℝ → ℝ
  | [], _ => 0
  | [l], s => k + s / l.arclen
  | l :: l' :: ls, s => if s - l.arclen < 0 then k + s / l.arclen else toParam (k + 1) (l' :: ls) (s - l.arclen)

/-- `normsubpath._paramtoarclen_pt` (`normpath.py:1245-1261`) with `normline_pt._paramtoarclen_pt` (`normpath.py:316-319`). -/
def toArclen (ls : List (Line ℝ)) (t : ℝ) : ℝ :=
  match ls[(locate ls.length t).1]? with
  | some l => totalLen (ls.take (locate ls.length t).1) + l.arclen * (locate ls.length t).2
  | none => 0

open Classical in
/-- `normpath._arclentoparam_pt` (`normpath.py:1648-1667`). -/
def pathToParam (k : ℕ) : List (List (Line ℝ)) → ℝ → ℕ × ℝ
  | [], _ => (0, 0)
  | [ls], s => (k, toParam 0 ls s)
  | ls :: ls' :: rest, s => if s - totalLen ls < 0 then (k, toParam 0 ls s) else pathToParam (k + 1) (ls' :: rest) (s - totalLen ls)

/-- `normpath._paramtoarclen_pt` (`normpath.py:1817-1831`). -/
def pathToArclen (path : List (List (Line ℝ))) (p : ℕ × ℝ) : ℝ :=
  match path[p.1]? with
  | some ls => ((path.take p.1).map totalLen).sum + toArclen ls p.2
  | none => 0

/-! ## Locating parameters -/

theorem locate_eq (len j : ℕ) (x : ℝ) (hj : j < len) (h0 : 0 < j → 0 ≤ x) (h1 : j + 1 < len → x < 1) : locate len (j + x) = (j, x) := by
  unfold locate
  by_cases ht : (j : ℝ) + x > 0
  · rw [if_pos ht]
    have hx : 0 ≤ x := by
      rcases Nat.eq_zero_or_pos j with h | h
      · subst h; simp at ht; exact ht.le
      · exact h0 h
    have e : min ⌊(j : ℝ) + x⌋₊ (len - 1) = j := by
      by_cases hlast : j + 1 < len
      · have : ⌊(j : ℝ) + x⌋₊ = j := by
          rw [Nat.floor_eq_iff (by positivity)]
          exact ⟨by linarith, by linarith [h1 hlast]⟩
        rw [this]; omega
      · have : j ≤ ⌊(j : ℝ) + x⌋₊ := Nat.le_floor (by linarith)
        omega
    rw [e]
    simp
  · rw [if_neg ht]
    have hj0 : j = 0 := by
      by_contra hne
      have : 0 ≤ x := h0 (by omega)
      have : (1 : ℝ) ≤ j := by exact_mod_cast (by omega : 1 ≤ j)
      linarith
    subst hj0
    simp

theorem locate_strict (len : ℕ) (t : ℝ) (h : (locate len t).1 + 1 < len) : (locate len t).2 < 1 := by
  unfold locate at h ⊢
  by_cases ht : t > 0
  · rw [if_pos ht] at h ⊢
    simp only at h ⊢
    have e : min ⌊t⌋₊ (len - 1) = ⌊t⌋₊ := by omega
    rw [e]
    have := Nat.lt_floor_add_one t
    linarith
  · rw [if_neg ht] at h ⊢
    push Not at ht
    simp only
    linarith

/-! ## Lengths and parameters -/

theorem totalLen_nonneg (ls : List (Line ℝ)) : 0 ≤ totalLen ls := by
  unfold totalLen
  apply List.sum_nonneg
  intro x hx
  simp only [List.mem_map] at hx
  obtain ⟨l, _, rfl⟩ := hx
  exact hypot_nonneg _ _

theorem totalLen_cons (l : Line ℝ) (ls : List (Line ℝ)) : totalLen (l :: ls) = l.arclen + totalLen ls := by
  simp [totalLen]

/-- The parameter found for a length. -/
theorem toParam_spec (ls : List (Line ℝ)) (hne : ls ≠ []) (hpos : ∀ l ∈ ls, 0 < l.arclen) (k : ℕ) (s : ℝ) :
    ∃ (j : ℕ) (l : Line ℝ) (x : ℝ), ls[j]? = some l ∧ toParam k ls s = k + (j + x) ∧ s = totalLen (ls.take j) + l.arclen * x ∧
      (0 < j → 0 ≤ x) ∧ (j + 1 < ls.length → x < 1) := by
  induction ls generalizing k s with
  | nil => exact absurd rfl hne
  | cons l ls ih =>
    have hl : 0 < l.arclen := hpos l List.mem_cons_self
    cases ls with
    | nil =>
      exact ⟨0, l, s / l.arclen, rfl, by simp [toParam], by simp [totalLen]; field_simp, fun h => absurd h (lt_irrefl 0),
        fun h => by simp at h⟩
    | cons l' ls =>
      unfold toParam
      by_cases h : s - l.arclen < 0
      · rw [if_pos h]
        refine ⟨0, l, s / l.arclen, rfl, by simp, by simp [totalLen]; field_simp, fun h => absurd h (lt_irrefl 0), fun _ => ?_⟩
        rw [div_lt_one hl]
        linarith
      · rw [if_neg h]
        obtain ⟨j, m, x, h1, h2, h3, h4, h5⟩ := ih (by simp) (fun m hm => hpos m (List.mem_cons_of_mem _ hm)) (k + 1) (s - l.arclen)
        refine ⟨j + 1, m, x, by simpa using h1, by rw [h2]; push_cast; ring, ?_, fun _ => ?_, fun hh => h5 (by simpa using hh)⟩
        · rw [List.take_succ_cons, totalLen_cons]; linarith
        · rcases Nat.eq_zero_or_pos j with h0 | h0
          · subst h0
            simp only [List.take_zero, totalLen, List.map_nil, List.sum_nil, zero_add] at h3
            have hm : 0 < m.arclen := hpos m (List.mem_cons_of_mem _ (List.mem_of_getElem? h1))
            have : 0 ≤ m.arclen * x := by rw [← h3]; linarith
            exact nonneg_of_mul_nonneg_right this hm
          · exact h4 h0

/-- The length found for a position is found again. -/
theorem toParam_of (ls : List (Line ℝ)) (hpos : ∀ l ∈ ls, 0 < l.arclen) (k j : ℕ) (l : Line ℝ) (x : ℝ) (hj : ls[j]? = some l)
    (h0 : 0 < j → 0 ≤ x) (h1 : j + 1 < ls.length → x < 1) :
    toParam k ls (totalLen (ls.take j) + l.arclen * x) = k + (j + x) := by
  induction ls generalizing k j with
  | nil => simp at hj
  | cons m ls ih =>
    have hm : 0 < m.arclen := hpos m List.mem_cons_self
    cases ls with
    | nil =>
      cases j with
      | succ j => simp at hj
      | zero =>
        simp only [List.getElem?_cons_zero, Option.some.injEq] at hj
        subst hj
        simp [toParam, totalLen, mul_div_cancel_left₀ x hm.ne']
    | cons m' ls =>
      unfold toParam
      cases j with
      | zero =>
        simp only [List.getElem?_cons_zero, Option.some.injEq] at hj
        subst hj
        have hx := h1 (by simp)
        rw [if_pos]
        · simp [totalLen, mul_div_cancel_left₀ x hm.ne']
        · simp only [List.take_zero, totalLen, List.map_nil, List.sum_nil, zero_add]
          nlinarith
      | succ j =>
        simp only [List.getElem?_cons_succ] at hj
        have hx := h0 (by omega)
        have hl : 0 < l.arclen := hpos l (List.mem_cons_of_mem _ (List.mem_of_getElem? hj))
        rw [List.take_succ_cons, totalLen_cons, if_neg]
        · have := ih (fun m hm => hpos m (List.mem_cons_of_mem _ hm)) (k + 1) j hj (fun _ => hx) (fun hh => h1 (by simpa using hh))
          have e : m.arclen + totalLen ((m' :: ls).take j) + l.arclen * x - m.arclen = totalLen ((m' :: ls).take j) + l.arclen * x := by ring
          rw [e, this]
          push_cast
          ring
        · have := totalLen_nonneg ((m' :: ls).take j)
          have := mul_nonneg hl.le hx
          linarith

theorem toArclen_of (ls : List (Line ℝ)) (j : ℕ) (l : Line ℝ) (x : ℝ) (hj : ls[j]? = some l)
    (h0 : 0 < j → 0 ≤ x) (h1 : j + 1 < ls.length → x < 1) : toArclen ls (j + x) = totalLen (ls.take j) + l.arclen * x := by
  unfold toArclen
  rw [locate_eq ls.length j x (List.getElem?_eq_some_iff.mp hj).1 h0 h1]
  simp only
  rw [hj]

/-- **C46.**  Converting an arc length to a parameter and back is the identity: for all lengths, even outside of the sub-path. -/
theorem toArclen_toParam (ls : List (Line ℝ)) (hne : ls ≠ []) (hpos : ∀ l ∈ ls, 0 < l.arclen) (s : ℝ) : toArclen ls (toParam 0 ls s) = s := by
  obtain ⟨j, l, x, h1, h2, h3, h4, h5⟩ := toParam_spec ls hne hpos 0 s
  rw [h2, Nat.cast_zero, zero_add, toArclen_of ls j l x h1 h4 h5, h3]

/-- **C46.**  And vice versa. -/
theorem toParam_toArclen (ls : List (Line ℝ)) (hne : ls ≠ []) (hpos : ∀ l ∈ ls, 0 < l.arclen) (t : ℝ) : toParam 0 ls (toArclen ls t) = t := by
  obtain ⟨h1, h2, h3⟩ := locate_spec ls.length (List.length_pos_iff.mpr hne) t
  have h4 := locate_strict ls.length t
  unfold toArclen
  rw [List.getElem?_eq_getElem h2]
  simp only
  rw [toParam_of ls hpos 0 _ _ _ (List.getElem?_eq_getElem h2) h3.1 h4, Nat.cast_zero, zero_add]
  exact h1.symm

theorem toArclen_ends (ls : List (Line ℝ)) (hne : ls ≠ []) : toArclen ls 0 = 0 ∧ toArclen ls ls.length = totalLen ls := by
  have hl : 0 < ls.length := List.length_pos_iff.mpr hne
  constructor
  · have := toArclen_of ls 0 ls[0] 0 (List.getElem?_eq_getElem hl) (fun h => le_refl 0) (fun _ => zero_lt_one)
    simpa [totalLen] using this
  · have h := toArclen_of ls (ls.length - 1) (ls[ls.length - 1]'(by omega)) 1 (List.getElem?_eq_getElem (by omega)) (fun _ => zero_le_one)
      (fun h => by omega)
    have e : ((ls.length - 1 : ℕ) : ℝ) + 1 = ls.length := by
      rw [Nat.cast_sub (by omega)]; push_cast; ring
    rw [e] at h
    rw [h, mul_one]
    have hsplit : ls = ls.take (ls.length - 1) ++ [ls[ls.length - 1]'(by omega)] := by
      rw [← List.take_succ_eq_append_getElem (by omega)]
      have : ls.length - 1 + 1 = ls.length := by omega
      rw [this, List.take_length]
    have := congrArg totalLen hsplit
    rw [this]
    simp only [totalLen, List.map_append, List.sum_append, List.map_cons, List.map_nil, List.sum_cons, List.sum_nil, add_zero]

/-! ## The length along the path -/

theorem toArclen_line (ls : List (Line ℝ)) (k : ℕ) (l : Line ℝ) (x : ℝ) (hk : ls[k]? = some l) (h0 : 0 ≤ x) (h1 : x ≤ 1) :
    toArclen ls (k + x) = totalLen (ls.take k) + l.arclen * x := by
  have hkl := (List.getElem?_eq_some_iff.mp hk).1
  rcases lt_or_eq_of_le h1 with hx | hx
  · exact toArclen_of ls k l x hk (fun _ => h0) (fun _ => hx)
  · subst hx
    by_cases hlast : k + 1 < ls.length
    · have h := toArclen_of ls (k + 1) ls[k + 1] 0 (List.getElem?_eq_getElem hlast) (fun _ => le_refl 0) (fun _ => zero_lt_one)
      have e : (k : ℝ) + 1 = ((k + 1 : ℕ) : ℝ) + 0 := by push_cast; ring
      rw [e, h, List.take_succ_eq_append_getElem hkl]
      have : ls[k] = l := (List.getElem?_eq_some_iff.mp hk).2
      simp [totalLen, this]
    · exact toArclen_of ls k l 1 hk (fun _ => zero_le_one) (fun h => absurd h hlast)

/-- **C46.**  The length (supremum of inscribed polygons, see C73) of the path from one parameter to another is the difference of their arc
lengths.  So the point at arc length `s` is at distance `s` along the path. -/
theorem way_length (ls : List (Line ℝ)) (goal t u : ℝ) (parts : List (Item ℝ)) (hg0 : 0 ≤ goal) (hg1 : goal ≤ ls.length)
    (h : Way (ls.map Item.line) goal t u parts) (ht : 0 ≤ t) (htg : t ≤ goal) :
    (parts.map Item.length).sum + ENNReal.ofReal (toArclen ls t) = ENNReal.ofReal (toArclen ls u) := by
  induction h with
  | nil => simp
  | cons k item part a b t u v rest get tr hta hub up down within tail ih =>
    obtain ⟨h1, h2⟩ := up htg
    have hlen : ((ls.map Item.line).length : ℝ) = ls.length := by simp
    obtain ⟨⟨a0, a1⟩, b0, b1⟩ := within hg0 (by rw [hlen]; exact hg1) ht (by rw [hlen]; exact htg.trans hg1)
    have hab : a ≤ b := by linarith
    rw [List.getElem?_map] at get
    cases hl : ls[k]? with
    | none => rw [hl] at get; simp at get
    | some l =>
      rw [hl] at get
      simp only [Option.map_some, Option.some.injEq] at get
      subst get
      have ih' := ih (ht.trans h1) h2
      rw [List.map_cons, List.sum_cons, ← ih', length_traces part (.line l) a b tr hab]
      -- the part of a line
      have hpart : eVariationOn (Item.line l).cpoint (Set.Icc a b) = ENNReal.ofReal (l.arclen * (b - a)) := by
        have htr : Traces (.line ⟨(l.at_ a).1, (l.at_ a).2, (l.at_ b).1, (l.at_ b).2⟩) (.line l) a b := by
          intro s
          ext <;> simp only [Item.point, Line.at_, linePoint] <;> ring
        rw [← length_traces _ _ a b htr hab, line_arclen]
        congr 1
        unfold Line.arclen
        simp only [Line.at_]
        have e1 : l.x0 + (l.x1 - l.x0) * a - (l.x0 + (l.x1 - l.x0) * b) = (b - a) * (l.x0 - l.x1) := by ring
        have e2 : l.y0 + (l.y1 - l.y0) * a - (l.y0 + (l.y1 - l.y0) * b) = (b - a) * (l.y0 - l.y1) := by ring
        rw [e1, e2, hypot_smul, abs_of_nonneg (sub_nonneg.mpr hab), mul_comm]
      rw [hpart, hub, hta, toArclen_line ls k l a hl a0 a1, toArclen_line ls k l b hl b0 b1]
      have hnn : 0 ≤ totalLen (ls.take k) + l.arclen * a := add_nonneg (totalLen_nonneg _) (mul_nonneg (hypot_nonneg _ _) a0)
      have hnn2 : 0 ≤ l.arclen * (b - a) := mul_nonneg (hypot_nonneg _ _) (sub_nonneg.mpr hab)
      rw [add_right_comm, ← ENNReal.ofReal_add hnn2 hnn]
      rw [add_comm (List.sum _)]
      congr 2
      ring

/-- **C46.**  The length of a piece of a polyline (for epsilon `None`). -/
theorem piece_length (roots : ℝ → ℝ → ℝ → ℝ → List ℝ) (n : ℕ) (ls : List (Line ℝ)) (a b : ℝ) (ha : 0 ≤ a) (hab : a ≤ b) (hb : b ≤ ls.length) (c : Sub)
    (h : Piece roots none n (ls.map Item.line) a b c) :
    (c.items.map Item.length).sum + ENNReal.ofReal (toArclen ls a) = ENNReal.ofReal (toArclen ls b) :=
  way_length ls b a b c.items (ha.trans hab) hb (h.way roots n _ a b c).2.1 ha hab

/-- **C46.**  The lengths of the pieces of a split polyline add up to the whole length. -/
theorem split_lengths (roots : ℝ → ℝ → ℝ → ℝ → List ℝ) (n : ℕ) (ls : List (Line ℝ)) (hne : ls ≠ []) (params : List ℝ)
    (hinc : ∀ i (h : i + 1 < params.length), params[i] ≤ params[i + 1]) (h0 : params.head? = some 0)
    (h1 : params.getLast? = some (ls.length : ℝ)) (pieces : List Sub)
    (h : segmentsOpen roots none n ⟨ls.map Item.line, false, none⟩ params = .ok pieces) :
    (pieces.map fun c => (c.items.map Item.length).sum).sum = ENNReal.ofReal (totalLen ls) := by
  obtain ⟨hlen, hpc⟩ := segmentsOpen_pieces roots none n ⟨ls.map Item.line, false, none⟩ params pieces (by simpa using hne) h
  have hmono : ∀ i j (hij : i ≤ j) (hj : j < params.length), params[i]'(by omega) ≤ params[j] := by
    intro i j hij
    induction j, hij using Nat.le_induction with
    | base => intro _; exact le_refl _
    | succ j hij ih => intro hj; exact (ih (by omega)).trans (hinc j hj)
  have e0 : params[0]'(by omega) = 0 := by
    rw [List.head?_eq_getElem?, List.getElem?_eq_getElem (by omega)] at h0
    exact Option.some.inj h0
  have e1 : params[params.length - 1]'(by omega) = ls.length := by
    rw [List.getLast?_eq_getElem?, List.getElem?_eq_getElem (by omega)] at h1
    exact Option.some.inj h1
  have key : ∀ k (hk : k < params.length), ((pieces.take k).map fun c => (c.items.map Item.length).sum).sum =
      ENNReal.ofReal (toArclen ls params[k]) := by
    intro k
    induction k with
    | zero =>
      intro hk
      rw [e0, (toArclen_ends ls hne).1]
      simp
    | succ k ih =>
      intro hk
      have hkp : k < pieces.length := by omega
      rw [List.take_succ_eq_append_getElem hkp, List.map_append, List.sum_append, ih (by omega)]
      obtain ⟨a, b, ha, hb, hp⟩ := hpc k pieces[k] (List.getElem?_eq_getElem hkp)
      rw [List.getElem?_eq_getElem (by omega)] at ha hb
      cases ha; cases hb
      have := piece_length roots n ls params[k] params[k + 1] (by rw [← e0]; exact hmono 0 k (by omega) (by omega)) (hinc k hk)
        (by rw [← e1]; exact hmono (k + 1) _ (by omega) (by omega)) pieces[k] hp
      rw [← this]
      simp [add_comm]
  have := key (params.length - 1) (by omega)
  rw [e1, (toArclen_ends ls hne).2] at this
  have hp : params.length - 1 = pieces.length := by omega
  rw [hp, List.take_length] at this
  exact this

/-! ## Paths of several sub-paths -/

theorem pathToParam_spec (path : List (List (Line ℝ))) (hne : path ≠ []) (hpath : ∀ ls ∈ path, ls ≠ [] ∧ ∀ l ∈ ls, 0 < l.arclen) (k : ℕ) (s : ℝ) :
    ∃ (j : ℕ) (ls : List (Line ℝ)) (s' : ℝ), path[j]? = some ls ∧ pathToParam k path s = (k + j, toParam 0 ls s') ∧
      s = ((path.take j).map totalLen).sum + s' ∧ (0 < j → 0 ≤ s') ∧ (j + 1 < path.length → s' < totalLen ls) := by
  induction path generalizing k s with
  | nil => exact absurd rfl hne
  | cons ls path ih =>
    cases path with
    | nil => exact ⟨0, ls, s, rfl, rfl, by simp, fun h => absurd h (lt_irrefl 0), fun h => by simp at h⟩
    | cons ls' path =>
      unfold pathToParam
      by_cases h : s - totalLen ls < 0
      · rw [if_pos h]
        exact ⟨0, ls, s, rfl, rfl, by simp, fun h => absurd h (lt_irrefl 0), fun _ => by linarith⟩
      · rw [if_neg h]
        obtain ⟨j, m, s', h1, h2, h3, h4, h5⟩ := ih (by simp) (fun m hm => hpath m (List.mem_cons_of_mem _ hm)) (k + 1) (s - totalLen ls)
        refine ⟨j + 1, m, s', by simpa using h1, by rw [h2, Nat.add_right_comm]; rfl, ?_, fun _ => ?_, fun hh => h5 (by simpa using hh)⟩
        · rw [List.take_succ_cons, List.map_cons, List.sum_cons]; linarith
        · rcases Nat.eq_zero_or_pos j with h0 | h0
          · subst h0
            simp only [List.take_zero, List.map_nil, List.sum_nil, zero_add] at h3
            rw [← h3]; linarith
          · exact h4 h0

/-- **C46**, paths: converting an arc length to a parameter and back is the identity. -/
theorem pathToArclen_pathToParam (path : List (List (Line ℝ))) (hne : path ≠ []) (hpath : ∀ ls ∈ path, ls ≠ [] ∧ ∀ l ∈ ls, 0 < l.arclen)
    (s : ℝ) : pathToArclen path (pathToParam 0 path s) = s := by
  obtain ⟨j, ls, s', h1, h2, h3, _, _⟩ := pathToParam_spec path hne hpath 0 s
  obtain ⟨g1, g2⟩ := hpath ls (List.mem_of_getElem? h1)
  rw [h2, Nat.zero_add]
  unfold pathToArclen
  simp only
  rw [h1]
  simp only
  rw [toArclen_toParam ls g1 g2, h3]

/-- **C46**, paths: and vice versa, except at the end of a sub-path, where the begin of the next one is found. -/
theorem pathToParam_pathToArclen (path : List (List (Line ℝ))) (hpath : ∀ ls ∈ path, ls ≠ [] ∧ ∀ l ∈ ls, 0 < l.arclen)
    (i : ℕ) (ls : List (Line ℝ)) (hi : path[i]? = some ls) (t : ℝ) (h0 : 0 ≤ t) (h1 : t < ls.length) :
    pathToParam 0 path (pathToArclen path (i, t)) = (i, t) := by
  have gen : ∀ (path : List (List (Line ℝ))) (k i : ℕ), (∀ ls ∈ path, ls ≠ [] ∧ ∀ l ∈ ls, 0 < l.arclen) → path[i]? = some ls →
      pathToParam k path (((path.take i).map totalLen).sum + toArclen ls t) = (k + i, t) := by
    intro path
    induction path with
    | nil => intro k i _ hi; simp at hi
    | cons m path ih =>
      intro k i hp hi
      obtain ⟨g1, g2⟩ := hp ls (List.mem_of_getElem? hi)
      -- the length is within the sub-path
      have hlt : toArclen ls t < totalLen ls ∧ 0 ≤ toArclen ls t := by
        obtain ⟨e1, e2, e3⟩ := locate_spec ls.length (List.length_pos_iff.mpr g1) t
        have e4 : 0 ≤ (locate ls.length t).2 := by
          rcases Nat.eq_zero_or_pos (locate ls.length t).1 with hz | hz
          · rw [hz] at e1; simp at e1; rw [← e1]; exact h0
          · exact e3.1 hz
        have e5 : (locate ls.length t).2 < 1 := by
          by_cases hl : (locate ls.length t).1 + 1 < ls.length
          · exact locate_strict _ _ hl
          · have : ls.length = (locate ls.length t).1 + 1 := by omega
            have hc : (ls.length : ℝ) = (locate ls.length t).1 + 1 := by exact_mod_cast this
            linarith
        unfold toArclen
        rw [List.getElem?_eq_getElem e2]
        simp only
        have hpos : 0 < (ls[(locate ls.length t).1]).arclen := g2 _ (List.getElem_mem e2)
        constructor
        · have hsplit : totalLen ls = totalLen (ls.take (locate ls.length t).1) + (ls[(locate ls.length t).1]).arclen +
              totalLen (ls.drop ((locate ls.length t).1 + 1)) := by
            have : ls = ls.take (locate ls.length t).1 ++ ls[(locate ls.length t).1] :: ls.drop ((locate ls.length t).1 + 1) := by
              rw [← List.drop_eq_getElem_cons e2, List.take_append_drop]
            conv_lhs => rw [this]
            simp only [totalLen, List.map_append, List.sum_append, List.map_cons, List.sum_cons]
            ring
          rw [hsplit]
          have := totalLen_nonneg (ls.drop ((locate ls.length t).1 + 1))
          nlinarith
        · exact add_nonneg (totalLen_nonneg _) (mul_nonneg hpos.le e4)
      cases path with
      | nil =>
        cases i with
        | succ i => simp at hi
        | zero =>
          simp only [List.getElem?_cons_zero, Option.some.injEq] at hi
          subst hi
          simp [pathToParam, toParam_toArclen m g1 g2]
      | cons m' path =>
        unfold pathToParam
        cases i with
        | zero =>
          simp only [List.getElem?_cons_zero, Option.some.injEq] at hi
          subst hi
          simp only [List.take_zero, List.map_nil, List.sum_nil, zero_add]
          rw [if_pos (by linarith [hlt.1]), toParam_toArclen m g1 g2]
          rfl
        | succ i =>
          simp only [List.getElem?_cons_succ] at hi
          rw [List.take_succ_cons, List.map_cons, List.sum_cons, if_neg]
          · have := ih (k + 1) i (fun ls h => hp ls (List.mem_cons_of_mem _ h)) hi
            have e : totalLen m + (((m' :: path).take i).map totalLen).sum + toArclen ls t - totalLen m =
                (((m' :: path).take i).map totalLen).sum + toArclen ls t := by ring
            rw [e, this, Nat.add_right_comm]
            rfl
          · have hs : 0 ≤ (((m' :: path).take i).map totalLen).sum := by
              apply List.sum_nonneg
              intro x hx
              simp only [List.mem_map] at hx
              obtain ⟨l, _, rfl⟩ := hx
              exact totalLen_nonneg l
            linarith [hlt.2]
  have := gen path 0 i hpath hi
  unfold pathToArclen
  simp only
  rw [hi]
  simpa using this

/-- Two sides of a 3-4-5 triangle: at arc length 4 from the corner (0, 3) along both sides. -/
example : toParam 0 [⟨0, 3, 0, 0⟩, ⟨0, 0, 4, 0⟩] 4 = 5 / 4 ∧ toArclen [⟨0, 3, 0, 0⟩, ⟨0, 0, 4, 0⟩] (5 / 4) = 4 := by
  have h3 : Line.arclen (⟨0, 3, 0, 0⟩ : Line ℝ) = 3 := by
    simp only [Line.arclen, hypot, sub_zero]
    rw [show ((0 : ℝ) ^ 2 + 3 ^ 2) = 3 ^ 2 by norm_num, Real.sqrt_sq (by norm_num)]
  have h4 : Line.arclen (⟨0, 0, 4, 0⟩ : Line ℝ) = 4 := by
    simp only [Line.arclen, hypot, zero_sub, sub_zero]
    rw [show ((-4 : ℝ) ^ 2 + 0 ^ 2) = 4 ^ 2 by norm_num, Real.sqrt_sq (by norm_num)]
  have hp : ∀ l ∈ ([⟨0, 3, 0, 0⟩, ⟨0, 0, 4, 0⟩] : List (Line ℝ)), 0 < l.arclen := by
    intro l hl
    simp only [List.mem_cons, List.not_mem_nil, or_false] at hl
    rcases hl with rfl | rfl
    · rw [h3]; norm_num
    · rw [h4]; norm_num
  have e : toParam 0 [⟨0, 3, 0, 0⟩, ⟨0, 0, 4, 0⟩] 4 = 5 / 4 := by
    simp only [toParam, h3, h4]
    norm_num
  exact ⟨e, by rw [← e]; exact toArclen_toParam _ (by simp) hp 4⟩

end

end PyX.NormPath
