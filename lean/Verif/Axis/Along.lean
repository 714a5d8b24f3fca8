import Verif.NormPath.Polyline

/-!
# Axes along a path (`graph/axis/positioner.py`) and the methods of anchored axes: model and C146
-/

set_option linter.unusedSectionVars false

namespace PyX.Axis.Along

open PyX.NormPath PyX.NormPath.Sub

noncomputable section

/-! ## Model -/

/-- The parameter of a position on the axis: `arclentoparam(v * self.arclen)` (`positioner.py:56-57, 65-76`), for a path which is one sub-path of lines. -/
def param (ls : List (Line ℝ)) (v : ℝ) : ℝ := toParam 0 ls (v * totalLen ls)

/-- `at_pt` of a sub-path (`normpath.py:1009-1017`). -/
def pointOf (ls : List (Line ℝ)) (t : ℝ) : Option (ℝ × ℝ) := ls[(locate ls.length t).1]?.map fun l => l.at_ (locate ls.length t).2

/-- `vtickpoint_pt` (`positioner.py:72-73`). -/
def tickpoint (ls : List (Line ℝ)) (v : ℝ) : Option (ℝ × ℝ) := pointOf ls (param ls v)

/-- `vtickdirection` (`positioner.py:75-76`, `normpath.py:1291-1297`). -/
def tickdirection (ls : List (Line ℝ)) (direction v : ℝ) : Option (ℝ × ℝ) :=
  ls[(locate ls.length (param ls v)).1]?.bind fun l => ((Item.line l).rotation (locate ls.length (param ls v)).2).map fun r => r.apply (0, direction)

/-- An element of the list of pieces, or an IndexError. -/
def pick (k : ℕ) (r : Except Err (List (List Sub))) : Except Err (List Sub) :=
  match r with
  | .error e => .error e
  | .ok l =>
    match l[k]? with
    | some p => .ok p
    | none => .error .index

/-- The sub-path. -/
def subOf (ls : List (Line ℝ)) (closed : Bool) : Sub := ⟨ls.map Item.line, closed, none⟩

/-- `vbasepath` (`positioner.py:60-70`), without epsilon. -/
def basepath (roots : ℝ → ℝ → ℝ → ℝ → List ℝ) (n : ℕ) (ls : List (Line ℝ)) (closed : Bool) : Option ℝ → Option ℝ → Except Err (List Sub)
  | none, none => .ok [subOf ls closed]
  | none, some v => pick 0 (split roots none n [subOf ls closed] [(0, param ls v)])
  | some v, none => pick 1 (split roots none n [subOf ls closed] [(0, param ls v)])
  | some v, some w => pick 1 (split roots none n [subOf ls closed] [(0, param ls v), (0, param ls w)])

/-! ## Positions -/

theorem totalLen_take_mono (ls : List (Line ℝ)) (i j : ℕ) (h : i ≤ j) : totalLen (ls.take i) ≤ totalLen (ls.take j) := by
  have e : ls.take j = ls.take i ++ (ls.drop i).take (j - i) := by
    conv_lhs => rw [show j = i + (j - i) by omega, List.take_add]
  rw [e]
  unfold totalLen
  rw [List.map_append, List.sum_append]
  have := totalLen_nonneg ((ls.drop i).take (j - i))
  unfold totalLen at this
  linarith

theorem totalLen_take_succ (ls : List (Line ℝ)) (j : ℕ) (l : Line ℝ) (h : ls[j]? = some l) : totalLen (ls.take (j + 1)) = totalLen (ls.take j) + l.arclen := by
  obtain ⟨hj, rfl⟩ := List.getElem?_eq_some_iff.mp h
  rw [List.take_succ_eq_append_getElem hj]
  unfold totalLen
  rw [List.map_append, List.sum_append]
  simp only [List.map_cons, List.map_nil, List.sum_cons, List.sum_nil, add_zero]

/-- The line and the position on it. -/
theorem param_spec (ls : List (Line ℝ)) (hne : ls ≠ []) (hpos : ∀ l ∈ ls, 0 < l.arclen) (v : ℝ) (h0 : 0 ≤ v) (h1 : v ≤ 1) :
    ∃ (j : ℕ) (l : Line ℝ) (x : ℝ), ls[j]? = some l ∧ param ls v = j + x ∧ locate ls.length (param ls v) = (j, x) ∧ v * totalLen ls = totalLen (ls.take j) + l.arclen * x ∧
      0 ≤ x ∧ x ≤ 1 ∧ (j + 1 < ls.length → x < 1) := by
  obtain ⟨j, l, x, h2, h3, h4, h5, h6⟩ := toParam_spec ls hne hpos 0 (v * totalLen ls)
  obtain ⟨hj, hl⟩ := List.getElem?_eq_some_iff.mp h2
  have hlp : 0 < l.arclen := hpos l (by rw [← hl]; exact List.getElem_mem hj)
  have hL := totalLen_nonneg ls
  have hx0 : 0 ≤ x := by
    by_cases hj0 : 0 < j
    · exact h5 hj0
    · have : j = 0 := by omega
      subst this
      have : l.arclen * x = v * totalLen ls := by rw [h4]; simp [totalLen]
      by_contra hneg
      push Not at hneg
      have h7 : l.arclen * x < 0 := mul_neg_of_pos_of_neg hlp hneg
      have h8 : 0 ≤ v * totalLen ls := mul_nonneg h0 hL
      linarith
  have hp : param ls v = j + x := by
    unfold param
    rw [h3]; push_cast; ring
  refine ⟨j, l, x, h2, hp, by rw [hp]; exact locate_eq ls.length j x hj (fun _ => hx0) h6, h4, hx0, ?_, h6⟩
  by_cases hlast : j + 1 < ls.length
  · exact (h6 hlast).le
  · have h7 : totalLen (ls.take (j + 1)) = totalLen ls := by rw [List.take_of_length_le (by omega)]
    rw [totalLen_take_succ ls j l h2] at h7
    have h8 : v * totalLen ls ≤ totalLen ls := by nlinarith
    have h9 : l.arclen * x ≤ l.arclen * 1 := by linarith
    exact le_of_mul_le_mul_left h9 hlp

theorem param_range (ls : List (Line ℝ)) (hne : ls ≠ []) (hpos : ∀ l ∈ ls, 0 < l.arclen) (v : ℝ) (h0 : 0 ≤ v) (h1 : v ≤ 1) : 0 ≤ param ls v ∧ param ls v ≤ ls.length := by
  obtain ⟨j, l, x, h2, h3, _, _, h4, h5, _⟩ := param_spec ls hne hpos v h0 h1
  obtain ⟨hj, _⟩ := List.getElem?_eq_some_iff.mp h2
  rw [h3]
  have hj' : ((j + 1 : ℕ) : ℝ) ≤ ls.length := by exact_mod_cast hj
  push_cast at hj'
  have : (0 : ℝ) ≤ j := Nat.cast_nonneg j
  exact ⟨by linarith, by linarith⟩

theorem param_mono (ls : List (Line ℝ)) (hne : ls ≠ []) (hpos : ∀ l ∈ ls, 0 < l.arclen) (v w : ℝ) (h0 : 0 ≤ v) (hvw : v ≤ w) (h1 : w ≤ 1) : param ls v ≤ param ls w := by
  obtain ⟨j, l, x, a2, a3, _, a4, a5, a6, a7⟩ := param_spec ls hne hpos v h0 (hvw.trans h1)
  obtain ⟨i, m, y, b2, b3, _, b4, b5, b6, b7⟩ := param_spec ls hne hpos w (h0.trans hvw) h1
  obtain ⟨hj, hjl⟩ := List.getElem?_eq_some_iff.mp a2
  obtain ⟨hi, hil⟩ := List.getElem?_eq_some_iff.mp b2
  have hlp : 0 < l.arclen := hpos l (by rw [← hjl]; exact List.getElem_mem hj)
  have hmp : 0 < m.arclen := hpos m (by rw [← hil]; exact List.getElem_mem hi)
  have hs : v * totalLen ls ≤ w * totalLen ls := mul_le_mul_of_nonneg_right hvw (totalLen_nonneg ls)
  rw [a3, b3]
  rcases lt_trichotomy j i with h | h | h
  · have : ((j + 1 : ℕ) : ℝ) ≤ i := by exact_mod_cast h
    push_cast at this
    linarith
  · subst h
    rw [a2] at b2
    have : l = m := Option.some.inj b2
    subst this
    have h2 : l.arclen * x ≤ l.arclen * y := by linarith
    have := le_of_mul_le_mul_left h2 hlp
    linarith
  · exfalso
    have hy : y < 1 := b7 (by omega)
    have h2 := totalLen_take_mono ls (i + 1) j h
    rw [totalLen_take_succ ls i m b2] at h2
    have h3 : m.arclen * y < m.arclen * 1 := mul_lt_mul_of_pos_left hy hmp
    have h4 : 0 ≤ l.arclen * x := mul_nonneg hlp.le a5
    linarith

/-- **C146 (ticks).** A tick at `v` is on the path, at the distance `v` times the length of the path from its begin along the path. -/
theorem tick_point (ls : List (Line ℝ)) (hne : ls ≠ []) (hpos : ∀ l ∈ ls, 0 < l.arclen) (v : ℝ) (h0 : 0 ≤ v) (h1 : v ≤ 1) :
    ∃ (j : ℕ) (l : Line ℝ) (x : ℝ), ls[j]? = some l ∧ 0 ≤ x ∧ x ≤ 1 ∧ tickpoint ls v = some (l.at_ x) ∧ totalLen (ls.take j) + hypot ((l.at_ x).1 - l.x0) ((l.at_ x).2 - l.y0) = v * totalLen ls := by
  obtain ⟨j, l, x, a2, _, a3, a4, a5, a6, _⟩ := param_spec ls hne hpos v h0 h1
  refine ⟨j, l, x, a2, a5, a6, ?_, ?_⟩
  · unfold tickpoint pointOf
    rw [a3]
    simp only [a2, Option.map_some]
  · rw [a4]
    congr 1
    unfold Line.at_ Line.arclen
    simp only
    have e1 : l.x0 + (l.x1 - l.x0) * x - l.x0 = -x * (l.x0 - l.x1) := by ring
    have e2 : l.y0 + (l.y1 - l.y0) * x - l.y0 = -x * (l.y0 - l.y1) := by ring
    rw [e1, e2, hypot_smul, abs_neg, abs_of_nonneg a5, mul_comm]

/-- **C146 (directions).** The direction of a tick is the normal of the line on which the tick is, to the left for `direction=1`, and of length `|direction|`. -/
theorem tick_direction (ls : List (Line ℝ)) (hne : ls ≠ []) (hpos : ∀ l ∈ ls, 0 < l.arclen) (direction v : ℝ) (h0 : 0 ≤ v) (h1 : v ≤ 1) :
    ∃ (j : ℕ) (l : Line ℝ) (x : ℝ) (d : ℝ × ℝ), ls[j]? = some l ∧ tickpoint ls v = some (l.at_ x) ∧ tickdirection ls direction v = some d ∧
      d.1 * (l.x1 - l.x0) + d.2 * (l.y1 - l.y0) = 0 ∧ (l.x1 - l.x0) * d.2 - (l.y1 - l.y0) * d.1 = direction * l.arclen ∧ d.1 ^ 2 + d.2 ^ 2 = direction ^ 2 := by
  obtain ⟨j, l, x, a2, _, a3, a4, a5, a6, _⟩ := param_spec ls hne hpos v h0 h1
  obtain ⟨hj, hl⟩ := List.getElem?_eq_some_iff.mp a2
  have hlp : 0 < l.arclen := hpos l (by rw [← hl]; exact List.getElem_mem hj)
  have hh : hypot (l.x1 - l.x0) (l.y1 - l.y0) = l.arclen := by
    unfold Line.arclen hypot
    congr 1
    ring
  have hnz : (l.x1 - l.x0, l.y1 - l.y0) ≠ (0, 0) := by
    intro e
    simp only [Prod.mk.injEq] at e
    rw [e.1, e.2] at hh
    simp [hypot] at hh
    linarith
  obtain ⟨r, h2, h3⟩ := rotate_atan2 _ _ hnz
  rw [hh] at h3
  refine ⟨j, l, x, r.apply (0, direction), a2, ?_, ?_, ?_⟩
  · unfold tickpoint pointOf
    rw [a3]
    simp only [a2, Option.map_some]
  · unfold tickdirection
    rw [a3]
    simp only [a2, Option.bind_some]
    show (Trafo.rotate (degrees (atan2 (l.y1 - l.y0) (l.x1 - l.x0))) none none).map _ = _
    rw [h2]; rfl
  · have hsq : l.arclen ^ 2 = (l.x1 - l.x0) ^ 2 + (l.y1 - l.y0) ^ 2 := by
      rw [← hh]
      exact Real.sq_sqrt (by positivity)
    have hne' := hlp.ne'
    subst h3
    simp only [Trafo.apply]
    refine ⟨?_, ?_, ?_⟩
    · field_simp; ring
    · field_simp
      linear_combination -direction * hsq
    · field_simp
      linear_combination -direction ^ 2 * hsq

/-! ## Base paths -/

theorem param_len (ls : List (Line ℝ)) (hne : ls ≠ []) (hpos : ∀ l ∈ ls, 0 < l.arclen) (v : ℝ) : toArclen ls (param ls v) = v * totalLen ls :=
  toArclen_toParam ls hne hpos _

/-- The length of a list of items. -/
def lengthOf (items : List (Item ℝ)) : ENNReal := (items.map Item.length).sum

theorem piece_between (roots : ℝ → ℝ → ℝ → ℝ → List ℝ) (n : ℕ) (ls : List (Line ℝ)) (v w : ℝ) (h0 : 0 ≤ v) (hvw : v ≤ w)
    (a b : ℝ) (ha : 0 ≤ a) (hab : a ≤ b) (hb : b ≤ ls.length) (hla : toArclen ls a = v * totalLen ls) (hlb : toArclen ls b = w * totalLen ls) (c : Sub)
    (h : Piece roots none n (ls.map Item.line) a b c) : lengthOf c.items = ENNReal.ofReal ((w - v) * totalLen ls) := by
  have h2 := piece_length roots n ls a b ha hab hb c h
  rw [hla, hlb] at h2
  have e : w * totalLen ls = (w - v) * totalLen ls + v * totalLen ls := by ring
  have hL := totalLen_nonneg ls
  rw [e, ENNReal.ofReal_add (mul_nonneg (by linarith) hL) (mul_nonneg h0 hL)] at h2
  exact (ENNReal.add_left_inj ENNReal.ofReal_ne_top).mp h2

/-- The begin and the end of an axis, where nothing is given. -/
def lower (v : Option ℝ) : ℝ := v.getD 0
def upper (w : Option ℝ) : ℝ := w.getD 1

/-- **C146 (base paths).** For an open path the base path from `v` to `w` exists and follows the path from the tick at `v` to the tick at `w`; its length is the
part `w - v` of the whole.  What is not given is the begin and the end. -/
theorem base_open (roots : ℝ → ℝ → ℝ → ℝ → List ℝ) (n : ℕ) (hn : 0 < n) (ls : List (Line ℝ)) (hne : ls ≠ []) (hpos : ∀ l ∈ ls, 0 < l.arclen) (v w : Option ℝ)
    (h0 : 0 ≤ lower v) (hvw : lower v ≤ upper w) (h1 : upper w ≤ 1) :
    ∃ c : Sub, basepath roots n ls false v w = .ok [c] ∧ lengthOf c.items = ENNReal.ofReal ((upper w - lower v) * totalLen ls) ∧
      (v = none ∧ w = none ∧ c.items = ls.map Item.line ∨
        ∃ a b, Piece roots none n (ls.map Item.line) a b c ∧ (∀ x, v = some x → a = param ls x) ∧ (v = none → a = 0) ∧ (∀ x, w = some x → b = param ls x) ∧ (w = none → b = ls.length)) := by
  have hsubs : ∀ s ∈ [subOf ls false], s.closed = false ∧ s.items ≠ [] := by
    intro s hs
    rw [List.mem_singleton] at hs
    subst hs
    exact ⟨rfl, by simpa [subOf] using hne⟩
  have hlen : (subOf ls false).items.length = ls.length := by simp [subOf]
  have hz : toArclen ls 0 = 0 * totalLen ls := by rw [(toArclen_ends ls hne).1]; ring
  have ho : toArclen ls ls.length = 1 * totalLen ls := by rw [(toArclen_ends ls hne).2]; ring
  cases v with
  | none =>
    cases w with
    | none =>
      refine ⟨subOf ls false, rfl, ?_, .inl ⟨rfl, rfl, rfl⟩⟩
      simp only [lower, upper, Option.getD_none, sub_zero, one_mul]
      unfold lengthOf subOf totalLen
      simp only [List.map_map]
      clear hne hpos h0 hvw h1 hsubs hlen hz ho
      induction ls with
      | nil => simp
      | cons l ls ih =>
        have ht := totalLen_nonneg ls
        unfold totalLen at ht
        rw [List.map_cons, List.map_cons, List.sum_cons, List.sum_cons, ENNReal.ofReal_add (show 0 ≤ l.arclen from hypot_nonneg _ _) ht, ← ih]
        congr 1
        exact line_arclen l
    | some w =>
      simp only [upper, lower, Option.getD_some, Option.getD_none] at hvw h1 ⊢
      obtain ⟨pieces, hp⟩ := split_none (roots := roots) (n := n) [subOf ls false] hsubs [(0, param ls w)] (by simp) hn
      obtain ⟨hl, hst⟩ := split_stretches [subOf ls false] hsubs _ pieces hp
      have hk : 0 < pieces.length := by rw [hl]; simp
      have hs := hst 0 pieces[0] (List.getElem?_eq_getElem hk)
      simp only [before, if_true, List.getElem?_cons_zero, Stretch, Option.some.injEq, List.take_zero, List.nil_append] at hs
      obtain ⟨sub, c, rfl, hpc, he⟩ := hs
      have hpc' : Piece roots none n (ls.map Item.line) 0 (param ls w) c := hpc
      obtain ⟨hr0, hr1⟩ := param_range ls hne hpos w hvw h1
      refine ⟨c, ?_, ?_, .inr ⟨0, param ls w, hpc', by simp, by simp, by simp, by simp⟩⟩
      · rw [basepath, hp]
        unfold pick
        simp only [List.getElem?_eq_getElem hk, he]
      · exact piece_between roots n ls 0 w le_rfl hvw 0 _ le_rfl hr0 hr1 hz (param_len ls hne hpos w) c hpc'
  | some v =>
    cases w with
    | none =>
      simp only [upper, lower, Option.getD_some, Option.getD_none] at hvw h0 ⊢
      obtain ⟨pieces, hp⟩ := split_none (roots := roots) (n := n) [subOf ls false] hsubs [(0, param ls v)] (by simp) hn
      obtain ⟨hl, hst⟩ := split_stretches [subOf ls false] hsubs _ pieces hp
      have hk : 1 < pieces.length := by rw [hl]; simp
      have hs := hst 1 pieces[1] (List.getElem?_eq_getElem hk)
      simp only [before, one_ne_zero, if_false, Nat.sub_self, List.getElem?_cons_zero, Stretch, List.getElem?_cons_succ, List.getElem?_nil, Option.some.injEq] at hs
      obtain ⟨sub, c, rfl, hpc, he⟩ := hs
      rw [hlen] at hpc
      have hpc' : Piece roots none n (ls.map Item.line) (param ls v) ls.length c := hpc
      obtain ⟨hr0, hr1⟩ := param_range ls hne hpos v h0 hvw
      refine ⟨c, ?_, ?_, .inr ⟨param ls v, ls.length, hpc', by simp, by simp, by simp, by simp⟩⟩
      · rw [basepath, hp]
        unfold pick
        simp only [List.getElem?_eq_getElem hk, he]
        simp
      · exact piece_between roots n ls v 1 h0 hvw _ _ hr0 hr1 le_rfl (param_len ls hne hpos v) ho c hpc'
    | some w =>
      simp only [upper, lower, Option.getD_some] at hvw h0 h1 ⊢
      obtain ⟨pieces, hp⟩ := split_none (roots := roots) (n := n) [subOf ls false] hsubs [(0, param ls v), (0, param ls w)] (by simp) hn
      obtain ⟨hl, hst⟩ := split_stretches [subOf ls false] hsubs _ pieces hp
      have hk : 1 < pieces.length := by rw [hl]; simp
      have hs := hst 1 pieces[1] (List.getElem?_eq_getElem hk)
      simp only [before, one_ne_zero, if_false, Nat.sub_self, List.getElem?_cons_zero, Stretch, List.getElem?_cons_succ, Option.some.injEq, lt_irrefl, false_and, or_false,
        true_and] at hs
      obtain ⟨sub, c, rfl, hpc, he⟩ := hs
      have hpc' : Piece roots none n (ls.map Item.line) (param ls v) (param ls w) c := hpc
      refine ⟨c, ?_, ?_, .inr ⟨param ls v, param ls w, hpc', by simp, by simp, by simp, by simp⟩⟩
      · rw [basepath, hp]
        unfold pick
        simp only [List.getElem?_eq_getElem hk, he]
      · exact piece_between roots n ls v w h0 hvw _ _ (param_range ls hne hpos v h0 (hvw.trans h1)).1 (param_mono ls hne hpos v w h0 hvw h1)
          (param_range ls hne hpos w (h0.trans hvw) h1).2 (param_len ls hne hpos v) (param_len ls hne hpos w) c hpc'

/-- Without epsilon, splitting a closed sub-path never fails. -/
theorem split_closed_ok (roots : ℝ → ℝ → ℝ → ℝ → List ℝ) (n : ℕ) (hn : 0 < n) (sub : Sub) (hi : sub.items ≠ []) (params : List (ℕ × ℝ)) (h0 : ∀ p ∈ params, p.1 = 0) :
    ∃ l, split roots none n [sub] params = .ok l := by
  have loop : ∀ (us : List (ℕ × ℝ)) (st : SplitState), st.index = 0 → 1 ≤ st.params.length → (∀ p ∈ us, p.1 = 0) →
      ∃ st', splitLoop roots none n [sub] st us = .ok st' ∧ st'.index = 0 ∧ 1 ≤ st'.params.length := by
    intro us
    induction us with
    | nil => intro st h1 h2 _; exact ⟨st, rfl, h1, h2⟩
    | cons p us ih =>
      intro st h1 h2 hp
      unfold splitLoop splitStep
      rw [if_pos (by rw [h1]; exact hp p List.mem_cons_self)]
      exact ih _ h1 (by simp) (fun q hq => hp q (List.mem_cons_of_mem _ hq))
  cases params with
  | nil => exact ⟨_, rfl⟩
  | cons p us =>
    obtain ⟨st, e1, e2, e3⟩ := loop us ⟨[], [sub].take p.1, [0, p.2], p.1⟩ (h0 p List.mem_cons_self) (by simp) (fun q hq => h0 q (List.mem_cons_of_mem _ hq))
    unfold split
    simp only
    rw [e1]
    simp only
    rw [e2]
    simp only [List.getElem?_cons_zero]
    have h2 : 2 ≤ (st.params ++ [(sub.items.length : ℝ)]).length := by simp; omega
    obtain ⟨l, hl⟩ := segmentsOpen_none roots n sub (st.params ++ [(sub.items.length : ℝ)]) h2 hn
    have hlen := (segmentsOpen_pieces roots none n sub _ l hi hl).1
    have hl0 : l ≠ [] := by
      intro e
      rw [e, List.length_nil] at hlen
      omega
    have hj : joinEnds l ≠ [] := by
      unfold joinEnds
      split
      · exact absurd rfl hl0
      · simp
      · simp
    have hex : ∃ m, segments roots none n sub (st.params ++ [(sub.items.length : ℝ)]) = .ok m ∧ m ≠ [] := by
      unfold segments
      rw [hl]
      refine ⟨_, rfl, ?_⟩
      split
      · exact hj
      · exact hl0
    obtain ⟨m, hm, hm0⟩ := hex
    unfold splitCollect
    rw [hm]
    cases m with
    | nil => exact absurd rfl hm0
    | cons x xs => exact ⟨_, rfl⟩

/-- For a closed path the base path between two positions is right as well. -/
theorem base_closed (roots : ℝ → ℝ → ℝ → ℝ → List ℝ) (n : ℕ) (ls : List (Line ℝ)) (hne : ls ≠ []) (hpos : ∀ l ∈ ls, 0 < l.arclen) (v w : ℝ) (h0 : 0 ≤ v) (hvw : v ≤ w) (h1 : w ≤ 1)
    (p : List Sub) (h : basepath roots n ls true (some v) (some w) = .ok p) :
    ∃ c, p = [c] ∧ Piece roots none n (ls.map Item.line) (param ls v) (param ls w) c ∧ lengthOf c.items = ENNReal.ofReal ((w - v) * totalLen ls) := by
  rw [basepath] at h
  unfold pick at h
  cases hs : split roots none n [subOf ls true] [(0, param ls v), (0, param ls w)] with
  | error e => rw [hs] at h; cases h
  | ok l =>
    rw [hs] at h
    simp only at h
    obtain ⟨hl, first, last, t1, tm, _, _, _, _, _, hrest⟩ := split_closed (subOf ls true) rfl (by simpa [subOf] using hne) [param ls v, param ls w] (by simp) l hs
    cases hg : l[1]? with
    | none => rw [hg] at h; cases h
    | some q =>
      rw [hg] at h
      simp only [Except.ok.injEq] at h
      subst h
      obtain ⟨c, a, b, ha, hb, hq, hpc⟩ := hrest 1 q (by omega) hg
      simp only [Nat.sub_self, List.getElem?_cons_zero, Option.some.injEq, List.getElem?_cons_succ] at ha hb
      subst ha hb
      refine ⟨c, hq, hpc, ?_⟩
      exact piece_between roots n ls v w h0 hvw _ _ (param_range ls hne hpos v h0 (hvw.trans h1)).1 (param_mono ls hne hpos v w h0 hvw h1)
          (param_range ls hne hpos w (h0.trans hvw) h1).2 (param_len ls hne hpos v) (param_len ls hne hpos w) c hpc

/-- But with only one end given it is wrong: only with the upper end it is the whole path, for whatever end; only with the lower end it is an exception. -/
theorem base_closed_wrong (roots : ℝ → ℝ → ℝ → ℝ → List ℝ) (n : ℕ) (ls : List (Line ℝ)) (hne : ls ≠ []) (hpos : ∀ l ∈ ls, 0 < l.arclen) (v : ℝ) (h0 : 0 ≤ v) (h1 : v ≤ 1) :
    (∀ p, basepath roots n ls true none (some v) = .ok p → ∃ c, p = [c] ∧ lengthOf c.items = ENNReal.ofReal (totalLen ls)) ∧
    (∀ p, basepath roots n ls true (some v) none ≠ .ok p) := by
  have key : ∀ l, split roots none n [subOf ls true] [(0, param ls v)] = .ok l → l.length = 1 ∧ ∃ c, l[0]? = some [c] ∧ lengthOf c.items = ENNReal.ofReal (totalLen ls) := by
    intro l hs
    obtain ⟨hl, first, last, t1, tm, e1, e2, hp1, hp2, hg, _⟩ := split_closed (subOf ls true) rfl (by simpa [subOf] using hne) [param ls v] (by simp) l hs
    simp only [List.head?_cons, Option.some.injEq, List.getLast?_singleton] at e1 e2
    subst e1 e2
    refine ⟨by simpa using hl, _, hg, ?_⟩
    have hlen : (subOf ls true).items.length = ls.length := by simp [subOf]
    rw [hlen] at hp2
    have hr := param_range ls hne hpos v h0 h1
    have l1 := piece_between roots n ls 0 v le_rfl h0 0 _ le_rfl hr.1 hr.2 (by rw [(toArclen_ends ls hne).1]; ring) (param_len ls hne hpos v) first hp1
    have l2 := piece_between roots n ls v 1 h0 h1 _ _ hr.1 hr.2 le_rfl (param_len ls hne hpos v) (by rw [(toArclen_ends ls hne).2]; ring) last hp2
    unfold lengthOf at l1 l2 ⊢
    have hL := totalLen_nonneg ls
    rw [List.map_append, List.sum_append, l1, l2, ← ENNReal.ofReal_add (mul_nonneg (by linarith) hL) (mul_nonneg (by linarith) hL)]
    congr 1
    ring
  constructor
  · intro p h
    rw [basepath] at h
    unfold pick at h
    cases hs : split roots none n [subOf ls true] [(0, param ls v)] with
    | error e => rw [hs] at h; cases h
    | ok l =>
      rw [hs] at h
      obtain ⟨_, c, hc, hlen⟩ := key l hs
      simp only [hc, Except.ok.injEq] at h
      exact ⟨c, h.symm, hlen⟩
  · intro p h
    rw [basepath] at h
    unfold pick at h
    cases hs : split roots none n [subOf ls true] [(0, param ls v)] with
    | error e => rw [hs] at h; cases h
    | ok l =>
      rw [hs] at h
      obtain ⟨hl, _⟩ := key l hs
      have : l[1]? = none := by rw [List.getElem?_eq_none]; omega
      simp only [this] at h
      cases h

/-- **C146 (closed paths).** For a closed path the base path between two positions exists and is the right one; with only the upper end it exists and is the whole path. -/
theorem base_closed_exists (roots : ℝ → ℝ → ℝ → ℝ → List ℝ) (n : ℕ) (hn : 0 < n) (ls : List (Line ℝ)) (hne : ls ≠ []) (hpos : ∀ l ∈ ls, 0 < l.arclen) (v w : ℝ) (h0 : 0 ≤ v) (hvw : v ≤ w) (h1 : w ≤ 1) :
    (∃ c, basepath roots n ls true (some v) (some w) = .ok [c] ∧ Piece roots none n (ls.map Item.line) (param ls v) (param ls w) c ∧ lengthOf c.items = ENNReal.ofReal ((w - v) * totalLen ls)) ∧
    (∃ c, basepath roots n ls true none (some w) = .ok [c] ∧ lengthOf c.items = ENNReal.ofReal (totalLen ls)) := by
  have hi : (subOf ls true).items ≠ [] := by simpa [subOf] using hne
  constructor
  · obtain ⟨l, hl⟩ := split_closed_ok roots n hn (subOf ls true) hi [(0, param ls v), (0, param ls w)] (by simp)
    have hlen := (split_closed (subOf ls true) rfl hi [param ls v, param ls w] (by simp) l hl).1
    have hk : 1 < l.length := by rw [hlen]; simp
    have hb : basepath roots n ls true (some v) (some w) = .ok l[1] := by
      rw [basepath, hl]
      unfold pick
      simp only [List.getElem?_eq_getElem hk]
    obtain ⟨c, hc, h2, h3⟩ := base_closed roots n ls hne hpos v w h0 hvw h1 _ hb
    exact ⟨c, by rw [hb, hc], h2, h3⟩
  · obtain ⟨l, hl⟩ := split_closed_ok roots n hn (subOf ls true) hi [(0, param ls w)] (by simp)
    have hlen := (split_closed (subOf ls true) rfl hi [param ls w] (by simp) l hl).1
    have hk : 0 < l.length := by rw [hlen]; simp
    have hb : basepath roots n ls true none (some w) = .ok l[0] := by
      rw [basepath, hl]
      unfold pick
      simp only [List.getElem?_eq_getElem hk]
    obtain ⟨c, hc, h2⟩ := (base_closed_wrong roots n ls hne hpos w (h0.trans hvw) h1).1 _ hb
    exact ⟨c, by rw [hb, hc], h2⟩

/-- A path with a corner: the axis position in the middle is on the second line. -/
example : tickpoint [⟨0, 0, 1, 0⟩, ⟨1, 0, 1, 3⟩] (1 / 2) = some (1, 1) := by
  have a1 : (⟨0, 0, 1, 0⟩ : Line ℝ).arclen = 1 := by
    unfold Line.arclen hypot
    rw [show ((0 : ℝ) - 1) ^ 2 + (0 - 0) ^ 2 = 1 ^ 2 by norm_num, Real.sqrt_sq (by norm_num)]
  have a2 : (⟨1, 0, 1, 3⟩ : Line ℝ).arclen = 3 := by
    unfold Line.arclen hypot
    rw [show ((1 : ℝ) - 1) ^ 2 + (0 - 3) ^ 2 = 3 ^ 2 by norm_num, Real.sqrt_sq (by norm_num)]
  obtain ⟨j, l, x, h1, h2, h3, h4, h5⟩ := tick_point [⟨0, 0, 1, 0⟩, ⟨1, 0, 1, 3⟩] (by simp) (by
    intro l hl
    simp only [List.mem_cons, List.not_mem_nil, or_false] at hl
    rcases hl with rfl | rfl
    · rw [a1]; norm_num
    · rw [a2]; norm_num) (1 / 2) (by norm_num) (by norm_num)
  have hL : totalLen [(⟨0, 0, 1, 0⟩ : Line ℝ), ⟨1, 0, 1, 3⟩] = 4 := by
    simp only [totalLen, List.map_cons, List.map_nil, List.sum_cons, List.sum_nil, a1, a2]; norm_num
  rw [hL] at h5
  rw [h4]
  match j, h1 with
  | 0, h1 =>
    simp only [List.getElem?_cons_zero, Option.some.injEq] at h1
    subst h1
    simp only [List.take_zero, totalLen, List.map_nil, List.sum_nil, Line.at_, hypot] at h5
    have e : (0 + (1 - 0) * x - 0) ^ 2 + (0 + (0 - 0) * x - 0) ^ 2 = x ^ 2 := by ring
    rw [e, Real.sqrt_sq h2] at h5
    linarith
  | 1, h1 =>
    simp only [List.getElem?_cons_succ, List.getElem?_cons_zero, Option.some.injEq] at h1
    subst h1
    have e : ((⟨1, 0, 1, 3⟩ : Line ℝ).at_ x).1 - 1 = 0 := by simp [Line.at_]
    have e' : ((⟨1, 0, 1, 3⟩ : Line ℝ).at_ x).2 - 0 = 3 * x := by simp [Line.at_]
    rw [e, e'] at h5
    have t1 : totalLen (List.take 1 [(⟨0, 0, 1, 0⟩ : Line ℝ), ⟨1, 0, 1, 3⟩]) = 1 := by
      simp only [List.take_succ_cons, List.take_zero, totalLen, List.map_cons, List.map_nil, List.sum_cons, List.sum_nil, a1]; norm_num
    rw [t1] at h5
    unfold hypot at h5
    rw [show (0 : ℝ) ^ 2 + (3 * x) ^ 2 = (3 * x) ^ 2 by ring, Real.sqrt_sq (by linarith)] at h5
    have hx : x = 1 / 3 := by linarith
    subst hx
    simp [Line.at_]
  | j + 2, h1 => simp at h1

/-! ## Methods of axes -/

/-- The methods of an anchored axis for one position (`axis.py:636-660`). -/
inductive Method
  | tickpoint_pt | tickpoint | vtickpoint_pt | vtickpoint | tickdirection | vtickdirection
  deriving DecidableEq

/-- A result: a point in points, a point as a pair of lengths (in points), a direction, or a TypeError. -/
inductive Result
  | pt (p : ℝ × ℝ)
  | lengths (p : ℝ × ℝ)
  | dir (d : ℝ × ℝ)
  | typeError

/-- The methods: `conv` is `axis.convert`, `point` and `dirn` are those of the positioner.  `vtickpoint` multiplies a tuple by a unit
(`axis.py:642-643`, `unit.py:117-126`): a TypeError. -/
def call (conv : ℝ → ℝ) (point dirn : ℝ → ℝ × ℝ) : Method → ℝ → Result
  | .tickpoint_pt, x => .pt (point (conv x))
  | .tickpoint, x => .lengths (point (conv x))
  | .vtickpoint_pt, v => .pt (point v)
  | .vtickpoint, _ => .typeError
  | .tickdirection, x => .dir (dirn (conv x))
  | .vtickdirection, v => .dir (dirn v)

/-- The shortcuts of a graph (`graph.py:378-398, 845-876`): what the attribute with the name of a method and the letter of an axis is. -/
def shortcut (axis : Char) (m : Method) : Method :=
  if axis = 'x' ∧ m = .vtickpoint then .tickpoint
  else if axis = 'z' ∧ m = .vtickpoint_pt then .vtickpoint
  else m

/-- Specification: the method for graph coordinates of a method for axis values. -/
def graphForm : Method → Method
  | .tickpoint_pt => .vtickpoint_pt
  | .tickpoint => .vtickpoint
  | .tickdirection => .vtickdirection
  | m => m

/-- **C146 (methods).** Methods for axis values give what those for graph coordinates give at the converted value, for points in points and for directions. -/
theorem methods_agree (conv : ℝ → ℝ) (point dirn : ℝ → ℝ × ℝ) (m : Method) (hm : m ≠ .tickpoint) (hv : m ≠ graphForm m) (x : ℝ) :
    call conv point dirn m x = call conv point dirn (graphForm m) (conv x) := by
  cases m
  · rfl
  · exact absurd rfl hm
  · exact absurd rfl hv
  · exact absurd rfl hv
  · rfl
  · exact absurd rfl hv

/-- **C146 (shortcuts).** The shortcuts of a graph are the methods of the axis, except for two. -/
theorem shortcuts_right (axis : Char) (m : Method) (h1 : ¬ (axis = 'x' ∧ m = .vtickpoint)) (h2 : ¬ (axis = 'z' ∧ m = .vtickpoint_pt)) : shortcut axis m = m := by
  unfold shortcut
  rw [if_neg h1, if_neg h2]

/-- `vtickpoint` always fails; `xvtickpoint` takes axis values instead of graph coordinates, and `zvtickpoint_pt` always fails. -/
theorem vtickpoint_wrong (conv : ℝ → ℝ) (point dirn : ℝ → ℝ × ℝ) (v : ℝ) :
    call conv point dirn .vtickpoint v = .typeError ∧ call conv point dirn (shortcut 'x' .vtickpoint) v = .lengths (point (conv v)) ∧
    call conv point dirn (shortcut 'z' .vtickpoint_pt) v = .typeError := ⟨rfl, rfl, rfl⟩

end

end PyX.Axis.Along
