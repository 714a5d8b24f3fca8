import Verif.MetaPost.PathSmooth

/-!
# C61, C93: tangents of the segments that are drawn
-/

set_option linter.unusedSectionVars false

namespace PyX.MetaPost

open Real

/-! ## Specification -/

/-- The segment `s` is the one drawn for the link behind knot `k`. -/
def Drawn (es : Elems ℝ) (items : List (Item ℝ)) (k : ℕ) (s : Seg ℝ) : Prop :=
  (k, s) ∈ (linkedKnots es es.length).zip (pen items).segs

/-- Knots and links made by the constructors. -/
def Built (k : Knot ℝ) : Prop :=
  (∃ x y c a, k = beginknot x y c a) ∨ (∃ x y c a, k = endknot x y c a) ∨ (∃ x y, k = smoothknot x y) ∨
    ∃ x y lc rc la ra, k = roughknot x y lc rc la ra

def BuiltLink (l : Link ℝ) : Prop :=
  (∃ keep, l = .line keep) ∨ (∃ a b, l = .control a b) ∨ ∃ t b t' b', l = tensioncurve t b t' b'

def Made (es : Elems ℝ) : Prop := ∀ e ∈ es, Built e.1 ∧ ∀ l, e.2 = some l → BuiltLink l

/-! ## Links -/

theorem curlOrAngle_typ (c : ℝ) (a : Option ℝ) : (curlOrAngle c a).1 = .curl ∨ (curlOrAngle c a).1 = .given := by
  cases a <;> simp [curlOrAngle]

theorem roughRight_typ (l : Typ × ℝ) (c a : Option ℝ) (h : l.1 = .curl ∨ l.1 = .given) :
    (roughRight l c a).1 = .curl ∨ (roughRight l c a).1 = .given := by
  cases c <;> cases a <;> simp [roughRight, h]

theorem built_good {k : Knot ℝ} (h : Built k) : Good k := by
  rcases h with ⟨x, y, c, a, rfl⟩ | ⟨x, y, c, a, rfl⟩ | ⟨x, y, rfl⟩ | ⟨x, y, lc, rc, la, ra, rfl⟩
  · refine ⟨fun e => ?_, by simp [beginknot], by simp [beginknot]⟩
    change (curlOrAngle c a).1 = .opn at e
    rcases curlOrAngle_typ c a with t | t <;> rw [t] at e <;> simp at e
  · refine ⟨by simp [endknot], fun e => ?_, ?_⟩
    · change (curlOrAngle c a).1 = .opn at e
      rcases curlOrAngle_typ c a with t | t <;> rw [t] at e <;> simp at e
    · change (curlOrAngle c a).1 ≠ .endCycle
      rcases curlOrAngle_typ c a with t | t <;> rw [t] <;> simp
  · refine ⟨fun _ => ?_, fun _ => ?_, by simp [smoothknot]⟩ <;> norm_num [smoothknot]
  · have h1 := curlOrAngle_typ lc la
    have h2 := roughRight_typ _ rc ra h1
    refine ⟨fun e => ?_, fun e => ?_, ?_⟩
    · change (roughRight (curlOrAngle lc la) rc ra).1 = .opn at e
      rcases h2 with t | t <;> rw [t] at e <;> simp at e
    · change (curlOrAngle lc la).1 = .opn at e
      rcases h1 with t | t <;> rw [t] at e <;> simp at e
    · change (curlOrAngle lc la).1 ≠ .endCycle
      rcases h1 with t | t <;> rw [t] <;> simp

theorem built_sound {l : Link ℝ} (h : BuiltLink l) : Sound l := by
  rcases h with ⟨keep, rfl⟩ | ⟨a, b, rfl⟩ | ⟨t, b, t', b', rfl⟩
  · trivial
  · trivial
  · have key : ∀ x : ℝ, ∀ c : Bool, 3 / 4 ≤ |if c = true then -(max (3 / 4) |x|) else max (3 / 4) (|x|)| := by
      intro x c
      have : |max (3 / 4) (|x|)| = max (3 / 4) |x| := abs_of_nonneg (le_trans (by norm_num) (le_max_left _ _))
      cases c
      · rw [if_neg (by simp), this]; exact le_max_left _ _
      · rw [if_pos rfl, abs_neg, this]; exact le_max_left _ _
    exact ⟨key _ _, key _ _⟩

theorem getD_lt (es : Elems ℝ) (d) {i : ℕ} (hi : i < es.length) : es.getD i d = es[i] := by simp [List.getD, hi]

theorem getD_ge (es : Elems ℝ) (d) {i : ℕ} (hi : es.length ≤ i) : es.getD i d = d := by simp [List.getD, hi]

theorem made_good {es : Elems ℝ} (h : Made es) (i : ℕ) : Good (initial es i) := by
  unfold initial
  by_cases hi : i < es.length
  · rw [getD_lt _ _ hi]
    exact built_good (h _ (List.getElem_mem hi)).1
  · rw [getD_ge _ _ (by omega)]
    exact built_good (Or.inr (Or.inr (Or.inl ⟨0, 0, rfl⟩)))

theorem made_sound {es : Elems ℝ} (h : Made es) (i : ℕ) (l : Link ℝ) (hl : link es i = some l) : Sound l := by
  unfold link at hl
  by_cases hi : i < es.length
  · rw [getD_lt _ _ hi] at hl
    exact built_sound ((h _ (List.getElem_mem hi)).2 l hl)
  · rw [getD_ge _ _ (by omega)] at hl
    simp at hl

theorem linked_R_same {E : Env ℝ} {es : Elems ℝ} {a b : ℕ} (hab : a ≤ b) {ks0 ks : Table ℝ} (h0 : linked E es a = some ks0)
    (h : linked E es b = some ks) {i : ℕ}
    (hs : ∀ t, a ≤ t → t < b → i ≠ t ∧ (link es t = some (.line true) → i ≠ (t + 1) % es.length)) :
    (ks i).R = (ks0 i).R := by
  refine linked_inv (fun ks => (ks i).R = (ks0 i).R) hab h0 h rfl ?_
  intro t h1 h2 ks ks' hq hl
  rw [linkStep_R hl (hs t h1 h2).1 (hs t h1 h2).2, hq]

theorem linked_L_same {E : Env ℝ} {es : Elems ℝ} {a b : ℕ} (hab : a ≤ b) {ks0 ks : Table ℝ} (h0 : linked E es a = some ks0)
    (h : linked E es b = some ks) {i : ℕ}
    (hs : ∀ t, a ≤ t → t < b → i ≠ (t + 1) % es.length ∧ (link es t = some (.line true) → i ≠ t)) :
    (ks i).L = (ks0 i).L := by
  refine linked_inv (fun ks => (ks i).L = (ks0 i).L) hab h0 h rfl ?_
  intro t h1 h2 ks ks' hq hl
  rw [linkStep_L hl (hs t h1 h2).1 (hs t h1 h2).2, hq]

/-- The right side of a knot with a tension curve behind it and no angle to keep. -/
theorem linked_tension_R {E : Env ℝ} {es : Elems ℝ} {ks : Table ℝ} (h : linked E es es.length = some ks) {i : ℕ}
    (hi : i < es.length) {l r : ℝ} (hl : link es i = some (.tension l r))
    (hk : ∀ t < es.length, (t + 1) % es.length = i → link es t ≠ some (.line true)) :
    (ks i).R = ((initial es i).rt, (initial es i).rx, some l) := by
  obtain ⟨ks2, h2⟩ := linked_le h (show i + 1 ≤ es.length by omega)
  obtain ⟨ks1, h1, h12⟩ := linked_succ h2
  rw [hl] at h12
  have e1 := linked_R_same (Nat.zero_le i) (rfl : linked E es 0 = some (initial es)) h1 (i := i)
    fun t _ ht => ⟨by omega, fun hk' e => hk t (by omega) e.symm hk'⟩
  have e2 := linked_R_same (show i + 1 ≤ es.length by omega) h2 h (i := i)
    fun t ht ht' => ⟨by omega, fun hk' e => hk t (by omega) e.symm hk'⟩
  obtain ⟨-, -, e3, -⟩ := setKnots_tension (E := E) h12
  rw [e2, e3, (R_eq e1).1, (R_eq e1).2.1]

theorem linked_tension_L {E : Env ℝ} {es : Elems ℝ} {ks : Table ℝ} (h : linked E es es.length = some ks) {j i : ℕ}
    (hj : j < es.length) (hi : (j + 1) % es.length = i) {l r : ℝ} (hl : link es j = some (.tension l r))
    (hk : link es i ≠ some (.line true)) :
    (ks i).L = ((initial es i).lt, (initial es i).lx, some r) := by
  obtain ⟨ks2, h2⟩ := linked_le h (show j + 1 ≤ es.length by omega)
  obtain ⟨ks1, h1, h12⟩ := linked_succ h2
  rw [hl] at h12
  have hne : ∀ t < es.length, t ≠ j → i ≠ (t + 1) % es.length := by
    intro t ht htj e
    exact htj (succ_mod_inj ht hj (by rw [hi, e]))
  have hnk : ∀ t, link es t = some (.line true) → i ≠ t := by
    rintro t ht rfl
    exact hk ht
  have e1 := linked_L_same (Nat.zero_le j) (rfl : linked E es 0 = some (initial es)) h1 (i := i)
    fun t _ ht => ⟨hne t (by omega) (by omega), hnk t⟩
  have e2 := linked_L_same (show j + 1 ≤ es.length by omega) h2 h (i := i)
    fun t ht ht' => ⟨hne t (by omega) (by omega), hnk t⟩
  obtain ⟨-, -, -, e3⟩ := setKnots_tension (E := E) h12
  rw [hi] at e3
  rw [e2, e3, (L_eq e1).1, (L_eq e1).2.1]

/-- The right side of a knot with a tension curve behind it is left to choose. -/
theorem linked_free {E : Env ℝ} {es : Elems ℝ} {ks : Table ℝ} (h : linked E es es.length = some ks) {j : ℕ}
    (hj : j < es.length) {l r : ℝ} (hl : link es j = some (.tension l r)) : (ks j).rt.fixed = false := by
  obtain ⟨ks2, h2⟩ := linked_le h (show j + 1 ≤ es.length by omega)
  obtain ⟨ks1, h1, h12⟩ := linked_succ h2
  rw [hl] at h12
  obtain ⟨e1, -, e3, -⟩ := setKnots_tension (E := E) h12
  refine linked_inv (fun ks => (ks j).rt.fixed = false) (show j + 1 ≤ es.length by omega) h2 h ?_ ?_
  · rw [show (ks2 j).rt = (ks1 j).rt from congrArg Prod.fst e3]; exact e1
  · intro t h1 h2 ks ks' hq hs
    by_cases hk : link es t = some (.line true) ∧ j = (t + 1) % es.length
    · rw [hk.1] at hs
      have hs' : setKnots E ks t ((t + 1) % es.length) (.line true) = some ks' := hs
      have := (((setKnots_line hs').2 rfl).2.2.2.1)
      rw [hk.2, this]; rfl
    · rw [(R_eq (linkStep_R hs (by omega) fun e1 e2 => hk ⟨e1, e2⟩)).1]; exact hq

/-- A line that keeps angles gives its direction to the end of the curve before. -/
theorem linked_keep_L {E : Env ℝ} {es : Elems ℝ} {ks : Table ℝ} (h : linked E es es.length = some ks) {j i : ℕ}
    (hj : j < es.length) (hi : (j + 1) % es.length = i) (hi1 : i + 1 < es.length) {l r : ℝ}
    (hl : link es j = some (.tension l r)) (hk : link es i = some (.line true)) :
    (ks i).L = (.given, some (E.arg ((pos es (i + 1)).1 - (pos es i).1) ((pos es (i + 1)).2 - (pos es i).2)), some r) := by
  have hne : ∀ t < es.length, t ≠ j → i ≠ (t + 1) % es.length := by
    intro t ht htj e
    exact htj (succ_mod_inj ht hj (by rw [hi, e]))
  have hm1 : (i + 1) % es.length = i + 1 := Nat.mod_eq_of_lt hi1
  obtain ⟨ks2, h2⟩ := linked_le h (show i + 1 ≤ es.length by omega)
  obtain ⟨ks1, h1, h12⟩ := linked_succ h2
  rw [hk] at h12
  replace h12 : setKnots E ks1 i ((i + 1) % es.length) (.line true) = some ks2 := h12
  obtain ⟨-, s1, s2, -, -, s3⟩ := (setKnots_line (E := E) h12).2 rfl
  have hang : (ks2 i).lx = some (E.arg ((pos es (i + 1)).1 - (pos es i).1) ((pos es (i + 1)).2 - (pos es i).2)) := by
    rw [s2, hm1]
    have p1 := P_eq (linked_P h1 i)
    have p2 := P_eq (linked_P h1 (i + 1))
    rw [p1.1, p1.2, p2.1, p2.2]
    rfl
  by_cases hji : j < i
  · have hj1 : j + 1 = i := by rw [← hi, Nat.mod_eq_of_lt (by omega)]
    have h1' : linked E es (j + 1) = some ks1 := by rw [hj1]; exact h1
    obtain ⟨ks0, -, h01⟩ := linked_succ h1'
    rw [hl] at h01
    obtain ⟨-, -, -, e3⟩ := setKnots_tension (E := E) h01
    rw [hi] at e3
    have e2 := linked_L_same (show i + 1 ≤ es.length by omega) h2 h (i := i)
      fun t ht ht' => ⟨hne t (by omega) (by omega), fun _ => by omega⟩
    have e4 := (s3 (by rw [hm1]; omega)).1
    rw [show (ks1 i).ly = some r from congrArg (fun x => x.2.2) e3] at e4
    rw [e2]
    exact Prod.ext s1 (Prod.ext hang e4)
  · have hj1 : j + 1 = es.length := by
      by_contra hc
      rw [Nat.mod_eq_of_lt (by omega)] at hi
      omega
    have h' := h
    rw [← hj1] at h'
    obtain ⟨ks3, h3, h34⟩ := linked_succ h'
    rw [hl] at h34
    obtain ⟨-, -, -, e3⟩ := setKnots_tension (E := E) h34
    rw [hi] at e3
    have i0 : i = 0 := by rw [← hi, hj1, Nat.mod_self]
    have e2 := linked_L_same (show i + 1 ≤ j by omega) h2 h3 (i := i)
      fun t ht ht' => ⟨hne t (by omega) (by omega), fun _ => by omega⟩
    rw [e3, (L_eq e2).1, (L_eq e2).2.1, s1, hang]

/-- A line that keeps angles gives its direction to the start of the curve behind. -/
theorem linked_keep_R {E : Env ℝ} {es : Elems ℝ} {ks : Table ℝ} (h : linked E es es.length = some ks) {i : ℕ}
    (hi1 : i + 1 < es.length) {l r : ℝ} (hk : link es i = some (.line true))
    (hl : link es (i + 1) = some (.tension l r)) :
    (ks (i + 1)).R =
      (.given, some (E.arg ((pos es (i + 1)).1 - (pos es i).1) ((pos es (i + 1)).2 - (pos es i).2)), some l) := by
  have hm1 : (i + 1) % es.length = i + 1 := Nat.mod_eq_of_lt hi1
  obtain ⟨ks3, h3⟩ := linked_le h (show i + 1 + 1 ≤ es.length by omega)
  obtain ⟨ks2, h2, h23⟩ := linked_succ h3
  obtain ⟨ks1, h1, h12⟩ := linked_succ h2
  rw [hk] at h12
  rw [hl] at h23
  replace h12 : setKnots E ks1 i ((i + 1) % es.length) (.line true) = some ks2 := h12
  obtain ⟨-, -, -, s1, s2, -⟩ := (setKnots_line (E := E) h12).2 rfl
  rw [hm1] at s1 s2
  have p1 := P_eq (linked_P h1 i)
  have p2 := P_eq (linked_P h1 (i + 1))
  rw [p1.1, p1.2, p2.1, p2.2] at s2
  obtain ⟨-, -, e3, -⟩ := setKnots_tension (E := E) h23
  have e2 := linked_R_same (show i + 1 + 1 ≤ es.length by omega) h3 h (i := i + 1)
    fun t ht ht' => ⟨by omega, fun _ e => by
      have := succ_mod_inj (show i < es.length by omega) ht' (by rw [hm1]; exact e)
      omega⟩
  rw [e2, e3, s1, s2]
  rfl

/-! ## Segments -/

theorem forall₂_zip {α β : Type} {A : α → β → Prop} {l : List α} {l' : List β} (h : List.Forall₂ A l l') {a : α} {b : β}
    (hab : (a, b) ∈ l.zip l') : A a b := by
  induction h with
  | nil => simp at hab
  | cons h1 _ ih =>
    rw [List.zip_cons_cons, List.mem_cons] at hab
    rcases hab with e | e
    · simp only [Prod.mk.injEq] at e
      rw [e.1, e.2]; exact h1
    · exact ih e

/-- The segment of a tension curve has the control points of the final table. -/
theorem drawn_tension {E : Env ℝ} {es : Elems ℝ} {items : List (Item ℝ)} (h : path E es = some items)
    (hline : ∀ keep, link es (es.length - 1) ≠ some (.line keep))
    (hgap : (link es (es.length - 1)).isSome → ∀ i < es.length, (link es i).isSome) :
    0 < es.length ∧ ∃ ks ks', linked E es es.length = some ks ∧ makeChoices E es.length ks = some ks' ∧
      (∀ a, (ks a).P = pos es a) ∧
      ∀ k s, Drawn es items k s → ∀ l r, link es k = some (.tension l r) →
        ∃ a b, s = .curve (pos es k) a b (pos es ((k + 1) % es.length)) ∧ (ks' k).rx = some a.1 ∧ (ks' k).ry = some a.2 ∧
          (ks' ((k + 1) % es.length)).lx = some b.1 ∧ (ks' ((k + 1) % es.length)).ly = some b.2 := by
  obtain ⟨hm, ks, ks', h1, h2, -, hd⟩ := draws_gen h hline hgap
  refine ⟨hm, ks, ks', h1, h2, fun a => linked_P h1 a, fun k s hs => ?_⟩
  refine forall₂_zip (hd (fun k s => ∀ l r, link es k = some (.tension l r) →
        ∃ a b, s = .curve (pos es k) a b (pos es ((k + 1) % es.length)) ∧ (ks' k).rx = some a.1 ∧ (ks' k).ry = some a.2 ∧
          (ks' ((k + 1) % es.length)).lx = some b.1 ∧ (ks' ((k + 1) % es.length)).ly = some b.2) fun i hi => ⟨?_, ?_⟩) hs
  · intro keep hl l r hl'
    rw [hl] at hl'
    simp at hl'
  · intro lk a b hl hn e1 e2 e3 e4 l r hl'
    exact ⟨a, b, rfl, e1, e2, e3, e4⟩

/-- Exactly one segment is drawn for every link. -/
theorem drawn_unique {E : Env ℝ} {es : Elems ℝ} {items : List (Item ℝ)} (h : path E es = some items)
    (hline : ∀ keep, link es (es.length - 1) ≠ some (.line keep))
    (hgap : (link es (es.length - 1)).isSome → ∀ i < es.length, (link es i).isSome) (k : ℕ) (hk : (link es k).isSome) :
    ∃! s, Drawn es items k s := by
  obtain ⟨hm, ks, ks', -, -, -, hd⟩ := draws_gen h hline hgap
  have hlen := (hd (fun _ _ => True) fun i _ => ⟨fun _ _ => trivial, fun _ _ _ _ _ _ _ _ _ => trivial⟩).length_eq
  have hnd : (linkedKnots es es.length).Nodup := List.nodup_range.filter _
  have hkm : k ∈ linkedKnots es es.length := by
    unfold linkedKnots
    rw [List.mem_filter, List.mem_range]
    refine ⟨?_, hk⟩
    by_contra hc
    rw [link_none (by omega)] at hk
    simp at hk
  obtain ⟨n, hn, rfl⟩ := List.mem_iff_getElem.mp hkm
  refine ⟨(pen items).segs[n]'(by rw [← hlen]; exact hn), ?_, fun s hs => ?_⟩
  · unfold Drawn
    beta_reduce
    rw [List.mem_iff_getElem]
    exact ⟨n, by rw [List.length_zip, ← hlen, Nat.min_self]; exact hn, by rw [List.getElem_zip]⟩
  · unfold Drawn at hs
    beta_reduce at hs
    rw [List.mem_iff_getElem] at hs
    obtain ⟨n', hn', e⟩ := hs
    rw [List.getElem_zip, Prod.mk.injEq] at e
    have hn2 : n' < (linkedKnots es es.length).length := by
      rw [List.length_zip, ← hlen, Nat.min_self] at hn'; exact hn'
    have : n' = n := (hnd.getElem_inj_iff).mp e.1
    subst this
    exact e.2.symm

theorem pt_pos (es : Elems ℝ) (ks : Table ℝ) (hP : ∀ a, (ks a).P = pos es a) (a : ℕ) : pt (ks a).P = pt (pos es a) := by
  rw [hP]

theorem pair_eq {a b : ℝ × ℝ} {x y : Option ℝ} (h1 : x = some a.1) (h2 : y = some a.2) (h3 : x = some b.1)
    (h4 : y = some b.2) : a = b := by
  rw [h1, Option.some.injEq] at h3
  rw [h2, Option.some.injEq] at h4
  exact Prod.ext h3 h4

/-- **C61.** At every smooth knot of a path between two curves, closed or not, the segment drawn before the knot and the
segment drawn behind it have the same tangent: the control points next to the knot lie on a line through the knot, one
before and one behind it. With an "at least" tension (negative here) a control point may coincide with the knot. -/
theorem smooth_knots (eps : ℝ) (he : 0 < eps) (es : Elems ℝ) (hes : Made es) (items : List (Item ℝ))
    (h : path (realEnv eps) es = some items) (hline : ∀ keep, link es (es.length - 1) ≠ some (.line keep))
    (hgap : (link es (es.length - 1)).isSome → ∀ i < es.length, (link es i).isSome)
    (j i : ℕ) (hj : j < es.length) (hi : (j + 1) % es.length = i) (x y l r l' r' : ℝ)
    (hk : initial es i = smoothknot x y) (hlj : link es j = some (.tension l r)) (hli : link es i = some (.tension l' r'))
    (f1 : Far (realEnv eps) (pos es j) (pos es i)) (f2 : Far (realEnv eps) (pos es i) (pos es ((i + 1) % es.length)))
    (s s' : Seg ℝ) (hs : Drawn es items j s) (hs' : Drawn es items i s') :
    ∃ (T : ℂ) (α β : ℝ) (a b c d : ℝ × ℝ), s = .curve (pos es j) c b (pos es i) ∧
      s' = .curve (pos es i) a d (pos es ((i + 1) % es.length)) ∧ ‖T‖ = 1 ∧ 0 ≤ α ∧ 0 ≤ β ∧ (0 ≤ l' → 0 < α) ∧
      (0 ≤ r → 0 < β) ∧ pt a = pt (pos es i) + α * T ∧ pt b = pt (pos es i) - β * T := by
  obtain ⟨hm, ks, ks', h1, h2, hP, hd⟩ := drawn_tension h hline hgap
  have him : i < es.length := by rw [← hi]; exact Nat.mod_lt _ hm
  have hR := linked_tension_R h1 him hli fun t ht e => by
    have : t = j := succ_mod_inj ht hj (by rw [e, hi])
    rw [this, hlj]; simp
  have hL := linked_tension_L h1 hj hi hlj (by rw [hli]; simp)
  rw [hk] at hR hL
  have hf := linked_free h1 hj hlj
  obtain ⟨T, α, β, a, b, t1, t2, t3, t4, t5, t6, t7, t8, t9⟩ := smooth_table he h2
    (linked_good h1 (made_good hes) (made_sound hes)) hj hi (by rw [hP, hP]; exact f1) (by rw [hP, hP]; exact f2) hf
    (congrArg Prod.fst hL) (congrArg Prod.fst hR)
  obtain ⟨c, b', e1, -, -, e2, e3⟩ := hd j s hs l r hlj
  obtain ⟨a', d, e4, e5, e6, -, -⟩ := hd i s' hs' l' r' hli
  rw [hi] at e1 e2 e3
  have hb : b' = b := pair_eq e2 e3 (congrArg (fun x => x.2.1) t7) (congrArg (fun x => x.2.2) t7)
  have ha : a' = a := pair_eq e5 e6 (congrArg (fun x => x.2.1) t6) (congrArg (fun x => x.2.2) t6)
  subst hb ha
  rw [pt_pos es ks hP] at t8 t9
  refine ⟨T, α, β, a', b', c, d, e1, e4, t1, t2, t3, fun hh => t4 ?_, fun hh => t5 ?_, t8, t9⟩
  · rw [show (ks i).ry = some l' from congrArg (fun x => x.2.2) hR]; exact hh
  · rw [show (ks i).ly = some r from congrArg (fun x => x.2.2) hL]; exact hh

/-- **C61.** A curve leaves a knot in the direction given for it there. -/
theorem leaves_given (eps : ℝ) (he : 0 < eps) (es : Elems ℝ) (hes : Made es) (items : List (Item ℝ))
    (h : path (realEnv eps) es = some items) (hline : ∀ keep, link es (es.length - 1) ≠ some (.line keep))
    (hgap : (link es (es.length - 1)).isSome → ∀ i < es.length, (link es i).isSome)
    (i : ℕ) (him : i < es.length) (l r v : ℝ) (hk : (initial es i).rt = .given) (hv : (initial es i).rx = some v)
    (hl : link es i = some (.tension l r))
    (hkeep : ∀ t < es.length, (t + 1) % es.length = i → link es t ≠ some (.line true))
    (f : Far (realEnv eps) (pos es i) (pos es ((i + 1) % es.length))) (s : Seg ℝ) (hs : Drawn es items i s) :
    ∃ (α : ℝ) (a d : ℝ × ℝ), s = .curve (pos es i) a d (pos es ((i + 1) % es.length)) ∧ 0 ≤ α ∧ (0 ≤ l → 0 < α) ∧
      pt a = pt (pos es i) + α * dir v := by
  obtain ⟨hm, ks, ks', h1, h2, hP, hd⟩ := drawn_tension h hline hgap
  have hR := linked_tension_R h1 him hl hkeep
  obtain ⟨α, a, t1, t2, t3, t4⟩ := given_right he h2 (linked_good h1 (made_good hes) (made_sound hes)) him
    (by rw [hP, hP]; exact f) ((congrArg Prod.fst hR).trans hk) ((congrArg (fun x => x.2.1) hR).trans hv)
  obtain ⟨a', d, e4, e5, e6, -, -⟩ := hd i s hs l r hl
  have ha : a' = a := pair_eq e5 e6 (congrArg (fun x => x.2.1) t3) (congrArg (fun x => x.2.2) t3)
  subst ha
  rw [pt_pos es ks hP] at t4
  refine ⟨α, a', d, e4, t1, fun hh => t2 ?_, t4⟩
  rw [show (ks i).ry = some l from congrArg (fun x => x.2.2) hR]; exact hh

/-- **C61.** A curve arrives at a knot in the direction given for it there. -/
theorem arrives_given (eps : ℝ) (he : 0 < eps) (es : Elems ℝ) (items : List (Item ℝ))
    (h : path (realEnv eps) es = some items) (hline : ∀ keep, link es (es.length - 1) ≠ some (.line keep))
    (hgap : (link es (es.length - 1)).isSome → ∀ i < es.length, (link es i).isSome)
    (j i : ℕ) (hj : j < es.length) (hi : (j + 1) % es.length = i) (l r v : ℝ) (hk : (initial es i).lt = .given)
    (hv : (initial es i).lx = some v) (hl : link es j = some (.tension l r)) (hkeep : link es i ≠ some (.line true))
    (f : Far (realEnv eps) (pos es j) (pos es i)) (s : Seg ℝ) (hs : Drawn es items j s) :
    ∃ (β : ℝ) (c b : ℝ × ℝ), s = .curve (pos es j) c b (pos es i) ∧ 0 ≤ β ∧ (0 ≤ r → 0 < β) ∧
      pt b = pt (pos es i) - β * dir v := by
  obtain ⟨hm, ks, ks', h1, h2, hP, hd⟩ := drawn_tension h hline hgap
  have hL := linked_tension_L h1 hj hi hl hkeep
  obtain ⟨β, b, t1, t2, t3, t4⟩ := given_left he h2 hj hi (by rw [hP, hP]; exact f) (linked_free h1 hj hl)
    ((congrArg Prod.fst hL).trans hk) ((congrArg (fun x => x.2.1) hL).trans hv)
  obtain ⟨c, b', e1, -, -, e2, e3⟩ := hd j s hs l r hl
  rw [hi] at e1 e2 e3
  have hb : b' = b := pair_eq e2 e3 (congrArg (fun x => x.2.1) t3) (congrArg (fun x => x.2.2) t3)
  subst hb
  rw [pt_pos es ks hP] at t4
  refine ⟨β, c, b', e1, t1, fun hh => t2 ?_, t4⟩
  rw [show (ks i).ly = some r from congrArg (fun x => x.2.2) hL]; exact hh

/-- A knot for whose following curve the direction `v` is asked: by `angle` of `beginknot`, by `rangle` of `roughknot`, or by its `langle` alone. -/
inductive AsksOut : Knot ℝ → ℝ → Prop
  | begin_ (x y c v : ℝ) : AsksOut (beginknot x y c (some v)) v
  | right (x y lc : ℝ) (la : Option ℝ) (v : ℝ) : AsksOut (roughknot x y lc none la (some v)) v
  | both (x y lc v : ℝ) : AsksOut (roughknot x y lc none (some v) none) v

/-- A knot for whose preceding curve the direction `v` is asked: by `angle` of `endknot` or `langle` of `roughknot`. -/
inductive AsksIn : Knot ℝ → ℝ → Prop
  | end_ (x y c v : ℝ) : AsksIn (endknot x y c (some v)) v
  | left (x y lc : ℝ) (rc ra : Option ℝ) (v : ℝ) : AsksIn (roughknot x y lc rc (some v) ra) v

/-- **C61.** A curve leaves a knot in the direction asked for when the knot was made. -/
theorem leaves_angle (eps : ℝ) (he : 0 < eps) (es : Elems ℝ) (hes : Made es) (items : List (Item ℝ))
    (h : path (realEnv eps) es = some items) (hline : ∀ keep, link es (es.length - 1) ≠ some (.line keep))
    (hgap : (link es (es.length - 1)).isSome → ∀ i < es.length, (link es i).isSome)
    (i : ℕ) (him : i < es.length) (l r v : ℝ) (hk : AsksOut (initial es i) v)
    (hl : link es i = some (.tension l r))
    (hkeep : ∀ t < es.length, (t + 1) % es.length = i → link es t ≠ some (.line true))
    (f : Far (realEnv eps) (pos es i) (pos es ((i + 1) % es.length))) (s : Seg ℝ) (hs : Drawn es items i s) :
    ∃ (α : ℝ) (a d : ℝ × ℝ), s = .curve (pos es i) a d (pos es ((i + 1) % es.length)) ∧ 0 ≤ α ∧ (0 ≤ l → 0 < α) ∧
      pt a = pt (pos es i) + α * dir v := by
  refine leaves_given eps he es hes items h hline hgap i him l r v ?_ ?_ hl hkeep f s hs
  all_goals
    generalize initial es i = k at hk
    cases hk <;> rfl

/-- **C61.** A curve arrives at a knot in the direction asked for when the knot was made. -/
theorem arrives_angle (eps : ℝ) (he : 0 < eps) (es : Elems ℝ) (items : List (Item ℝ))
    (h : path (realEnv eps) es = some items) (hline : ∀ keep, link es (es.length - 1) ≠ some (.line keep))
    (hgap : (link es (es.length - 1)).isSome → ∀ i < es.length, (link es i).isSome)
    (j i : ℕ) (hj : j < es.length) (hi : (j + 1) % es.length = i) (l r v : ℝ) (hk : AsksIn (initial es i) v)
    (hl : link es j = some (.tension l r)) (hkeep : link es i ≠ some (.line true))
    (f : Far (realEnv eps) (pos es j) (pos es i)) (s : Seg ℝ) (hs : Drawn es items j s) :
    ∃ (β : ℝ) (c b : ℝ × ℝ), s = .curve (pos es j) c b (pos es i) ∧ 0 ≤ β ∧ (0 ≤ r → 0 < β) ∧
      pt b = pt (pos es i) - β * dir v := by
  refine arrives_given eps he es items h hline hgap j i hj hi l r v ?_ ?_ hl hkeep f s hs
  all_goals
    generalize initial es i = k at hk
    cases hk <;> rfl

/-- The direction of a line. -/
theorem dir_line {p q : ℝ × ℝ} (hne : p ≠ q) :
    ∃ d : ℝ, 0 < d ∧ pt q - pt p = d * dir (nArg (q.1 - p.1) (q.2 - p.2)) := by
  refine ⟨‖pt q - pt p‖, norm_pos_iff.mpr (sub_ne_zero.mpr fun e => hne (pt_inj e).symm), ?_⟩
  have := arg_dir (pt q - pt p)
  exact this.symm

/-- **C93.** The curve before a line that keeps angles arrives in the direction of the line. -/
theorem keeps_before (eps : ℝ) (he : 0 < eps) (es : Elems ℝ) (items : List (Item ℝ))
    (h : path (realEnv eps) es = some items) (hline : ∀ keep, link es (es.length - 1) ≠ some (.line keep))
    (hgap : (link es (es.length - 1)).isSome → ∀ i < es.length, (link es i).isSome)
    (j i : ℕ) (hj : j < es.length) (hi : (j + 1) % es.length = i) (l r : ℝ)
    (hk : link es i = some (.line true)) (hl : link es j = some (.tension l r))
    (f : Far (realEnv eps) (pos es j) (pos es i)) (hne : pos es i ≠ pos es (i + 1)) (s : Seg ℝ) (hs : Drawn es items j s) :
    ∃ (β : ℝ) (c b : ℝ × ℝ), s = .curve (pos es j) c b (pos es i) ∧ 0 ≤ β ∧ (0 ≤ r → 0 < β) ∧
      pt b = pt (pos es i) - β * (pt (pos es (i + 1)) - pt (pos es i)) := by
  obtain ⟨hm, ks, ks', h1, h2, hP, hd⟩ := drawn_tension h hline hgap
  have him : i < es.length := by rw [← hi]; exact Nat.mod_lt _ hm
  have hi1 : i + 1 < es.length := by
    by_contra hc
    have : i = es.length - 1 := by omega
    exact hline true (by rw [← this]; exact hk)
  have hL := linked_keep_L h1 hj hi hi1 hl hk
  obtain ⟨β, b, t1, t2, t3, t4⟩ := given_left he h2 hj hi (by rw [hP, hP]; exact f) (linked_free h1 hj hl)
    (congrArg Prod.fst hL) (congrArg (fun x => x.2.1) hL)
  obtain ⟨c, b', e1, -, -, e2, e3⟩ := hd j s hs l r hl
  rw [hi] at e1 e2 e3
  have hb : b' = b := pair_eq e2 e3 (congrArg (fun x => x.2.1) t3) (congrArg (fun x => x.2.2) t3)
  subst hb
  rw [pt_pos es ks hP] at t4
  obtain ⟨d, d1, d2⟩ := dir_line hne
  refine ⟨β / d, c, b', e1, div_nonneg t1 d1.le, fun hh => div_pos (t2 ?_) d1, ?_⟩
  · rw [show (ks i).ly = some r from congrArg (fun x => x.2.2) hL]; exact hh
  · rw [t4, d2]
    have : (d : ℂ) ≠ 0 := by exact_mod_cast d1.ne'
    push_cast
    rw [← mul_assoc, div_mul_cancel₀ _ this]
    rfl

/-- **C93.** The curve behind a line that keeps angles leaves in the direction of the line. -/
theorem keeps_behind (eps : ℝ) (he : 0 < eps) (es : Elems ℝ) (hes : Made es) (items : List (Item ℝ))
    (h : path (realEnv eps) es = some items) (hline : ∀ keep, link es (es.length - 1) ≠ some (.line keep))
    (hgap : (link es (es.length - 1)).isSome → ∀ i < es.length, (link es i).isSome)
    (i : ℕ) (l r : ℝ) (hk : link es i = some (.line true)) (hl : link es (i + 1) = some (.tension l r))
    (f : Far (realEnv eps) (pos es (i + 1)) (pos es ((i + 2) % es.length))) (hne : pos es i ≠ pos es (i + 1))
    (s : Seg ℝ) (hs : Drawn es items (i + 1) s) :
    ∃ (α : ℝ) (a d : ℝ × ℝ), s = .curve (pos es (i + 1)) a d (pos es ((i + 2) % es.length)) ∧ 0 ≤ α ∧ (0 ≤ l → 0 < α) ∧
      pt a = pt (pos es (i + 1)) + α * (pt (pos es (i + 1)) - pt (pos es i)) := by
  obtain ⟨hm, ks, ks', h1, h2, hP, hd⟩ := drawn_tension h hline hgap
  have hi1 : i + 1 < es.length := by
    by_contra hc
    rw [link_none (by omega)] at hl
    simp at hl
  have hR := linked_keep_R h1 hi1 hk hl
  obtain ⟨α, a, t1, t2, t3, t4⟩ := given_right he h2 (linked_good h1 (made_good hes) (made_sound hes)) hi1
    (by rw [hP, hP]; exact f) (congrArg Prod.fst hR) (congrArg (fun x => x.2.1) hR)
  obtain ⟨a', d', e4, e5, e6, -, -⟩ := hd (i + 1) s hs l r hl
  have ha : a' = a := pair_eq e5 e6 (congrArg (fun x => x.2.1) t3) (congrArg (fun x => x.2.2) t3)
  subst ha
  rw [pt_pos es ks hP] at t4
  obtain ⟨d, d1, d2⟩ := dir_line hne
  refine ⟨α / d, a', d', e4, div_nonneg t1 d1.le, fun hh => div_pos (t2 ?_) d1, ?_⟩
  · rw [show (ks (i + 1)).ry = some l from congrArg (fun x => x.2.2) hR]; exact hh
  · rw [t4, d2]
    have : (d : ℂ) ≠ 0 := by exact_mod_cast d1.ne'
    push_cast
    rw [← mul_assoc, div_mul_cancel₀ _ this]
    rfl

/-! ## A concrete case -/

/-- Two curves through a smooth knot, a line that keeps angles, and one more curve. -/
noncomputable def straight : Elems ℝ :=
  [(beginknot 0 0 1 (some 0), some (.tension 1 1)), (smoothknot 1 0, some (.tension 1 1)),
   (roughknot 2 0 1 none none none, some (.line true)), (roughknot 3 0 1 none none none, some (.tension 1 1)),
   (endknot 4 0 1 (some 0), none)]

/-- The angle of the line. -/
noncomputable def lineAngle : ℝ := nArg (3 - 2) (0 - 0)

theorem lineAngle_eq : lineAngle = 0 := by
  unfold lineAngle
  norm_num
  exact arg_one

/-- The knots after all links. -/
noncomputable def straightKnots : Table ℝ := fun i =>
  match i with
  | 0 => ⟨0, 0, .endpoint, none, none, .given, some 0, some 1⟩
  | 1 => ⟨1, 0, .opn, none, some 1, .opn, none, some 1⟩
  | 2 => ⟨2, 0, .given, some lineAngle, some 1, .endpoint, none, none⟩
  | 3 => ⟨3, 0, .endpoint, none, none, .given, some lineAngle, some 1⟩
  | 4 => ⟨4, 0, .given, some 0, some 1, .endpoint, none, none⟩
  | _ => smoothknot 0 0

theorem straight_linked : linked (realEnv 1) straight 5 = some straightKnots := by
  have h : linked (realEnv 1) straight 5 = some (mod (mod (mod (mod (mod (mod (mod (mod (mod (mod (initial straight)
      0 fun k => k.setR k.rt k.rx (some 1)) 1 fun k => k.setL k.lt k.lx (some 1))
      1 fun k => k.setR k.rt k.rx (some 1)) 2 fun k => k.setL k.lt k.lx (some 1))
      2 (·.setR .endpoint none none)) 3 (·.setL .endpoint none none))
      2 fun k => k.setL .given (some lineAngle) k.ly) 3 fun k => k.setR .given (some lineAngle) k.ry)
      3 fun k => k.setR k.rt k.rx (some 1)) 4 fun k => k.setL k.lt k.lx (some 1)) := rfl
  rw [h]
  congr 1
  funext n
  rcases n with _ | _ | _ | _ | _ | n
  · rfl
  · rfl
  · rfl
  · rfl
  · rfl
  · rfl

theorem straight_joined : joined (realEnv 1) 5 straightKnots 5 = straightKnots := by
  have e0 : joinStep (realEnv 1) straightKnots 0 1 = straightKnots :=
    joinStep_apart (Or.inr (by change (1 : ℝ) ^ 2 ≤ (0 - 1) ^ 2 + (0 - 0) ^ 2; norm_num))
  have e1 : joinStep (realEnv 1) straightKnots 1 2 = straightKnots :=
    joinStep_apart (Or.inr (by change (1 : ℝ) ^ 2 ≤ (1 - 2) ^ 2 + (0 - 0) ^ 2; norm_num))
  have e2 : joinStep (realEnv 1) straightKnots 2 3 = straightKnots := joinStep_apart (Or.inl rfl)
  have e3 : joinStep (realEnv 1) straightKnots 3 4 = straightKnots :=
    joinStep_apart (Or.inr (by change (1 : ℝ) ^ 2 ≤ (3 - 4) ^ 2 + (0 - 0) ^ 2; norm_num))
  have e4 : joinStep (realEnv 1) straightKnots 4 0 = straightKnots := joinStep_apart (Or.inl rfl)
  change joinStep _ (joinStep _ (joinStep _ (joinStep _ (joinStep _ straightKnots 0 1) 1 2) 2 3) 3 4) 4 0 = _
  rw [e0, e1, e2, e3, e4]

/-- A run through the knots above. -/
noncomputable def straightRun (p n : ℕ) (v : ℝ) (stop : Stop ℝ) : Run :=
  ⟨n, fun k => (straightKnots ((p + k) % 5)).x, fun k => (straightKnots ((p + k) % 5)).y,
    fun k => ((straightKnots ((p + k) % 5)).ry).getD 1, fun k => ((straightKnots ((p + k) % 5)).ly).getD 1, .given v, stop⟩

theorem straight_proper (p n : ℕ) (hn : 1 ≤ n) (v : ℝ) (stop : Stop ℝ) (hc : stop ≠ .cycle)
    (hs : ∀ g, stop = .curl g → 0 ≤ g) : Proper (straightRun p n v stop) := by
  have five : ∀ r, r < 5 → r = 0 ∨ r = 1 ∨ r = 2 ∨ r = 3 ∨ r = 4 := by omega
  refine ⟨hn, fun k => ?_, fun k => ?_, fun k => ?_, fun g hg => ?_, hs, ?_, ?_⟩
  · rintro ⟨h, -⟩
    change (straightKnots ((p + (k + 1)) % 5)).x = (straightKnots ((p + k) % 5)).x at h
    rcases five _ (Nat.mod_lt (p + k) (by norm_num)) with e | e | e | e | e
    · rw [show (p + (k + 1)) % 5 = 1 by omega, e] at h; norm_num [straightKnots] at h
    · rw [show (p + (k + 1)) % 5 = 2 by omega, e] at h; norm_num [straightKnots] at h
    · rw [show (p + (k + 1)) % 5 = 3 by omega, e] at h; norm_num [straightKnots] at h
    · rw [show (p + (k + 1)) % 5 = 4 by omega, e] at h; norm_num [straightKnots] at h
    · rw [show (p + (k + 1)) % 5 = 0 by omega, e] at h; norm_num [straightKnots] at h
  · change 3 / 4 ≤ |((straightKnots ((p + k) % 5)).ry).getD 1|
    rcases five _ (Nat.mod_lt (p + k) (by norm_num)) with e | e | e | e | e <;> rw [e] <;> norm_num [straightKnots]
  · change 3 / 4 ≤ |((straightKnots ((p + k) % 5)).ly).getD 1|
    rcases five _ (Nat.mod_lt (p + k) (by norm_num)) with e | e | e | e | e <;> rw [e] <;> norm_num [straightKnots]
  · simp [straightRun] at hg
  · constructor
    · intro h; simp [straightRun] at h
    · intro h; exact absurd h hc
  · intro h; exact absurd h hc

/-- The control points of the first curve exist when it starts along its chord. -/
theorem straight_first (p n : ℕ) (hn : 1 ≤ n) (stop : Stop ℝ) (hc : stop ≠ .cycle) (hs : ∀ g, stop = .curl g → 0 ≤ g)
    (hw : (straightRun p n 0 stop).way = .solve)
    (hp : nArg ((straightRun p n 0 stop).dx 0) ((straightRun p n 0 stop).dy 0) = 0) :
    ((straightRun p n 0 stop).segment 0).isSome = true := by
  refine segment_defined _ (straight_proper p n hn 0 stop hc hs) hw 0 fun h => ?_
  have h1 : (straightRun p n 0 stop).chain.start = .given 0 := by
    change (straightRun p n 0 stop).start' = _
    unfold Run.start'
    rw [show (straightRun p n 0 stop).start = .given 0 from rfl]
    simp only
    rw [hp]
    simp [reduceAngle, Real.pi_pos.le]
  have h2 : (straightRun p n 0 stop).chain.stop ≠ .cycle := by
    change (straightRun p n 0 stop).stop' ≠ _
    unfold Run.stop'
    rcases e : (straightRun p n 0 stop).stop with a | a | _
    · simp
    · simp
    · exact absurd e hc
  rw [theta_first _ hn h2 h1, cos_zero] at h
  norm_num at h

/-- The control points of the last curve exist when it ends along its chord. -/
theorem straight_last (p n : ℕ) (hn : 1 ≤ n) (hw : (straightRun p n 0 (.given 0)).way = .solve)
    (hp : nArg ((straightRun p n 0 (.given 0)).dx (n - 1)) ((straightRun p n 0 (.given 0)).dy (n - 1)) = 0) :
    ((straightRun p n 0 (.given 0)).segment (n - 1)).isSome = true := by
  refine segment_defined _ (straight_proper p n hn 0 (.given 0) (by simp) (by simp)) hw (n - 1) fun h => ?_
  have h1 : (straightRun p n 0 (.given 0)).chain.stop = .given 0 := by
    change (straightRun p n 0 (.given 0)).stop' = _
    unfold Run.stop'
    rw [show (straightRun p n 0 (.given 0)).stop = .given 0 from rfl]
    simp only
    rw [show (straightRun p n 0 (.given 0)).n = n from rfl, hp]
    simp [reduceAngle, Real.pi_pos.le]
  have h2 := theta_given _ h1
  rw [show (straightRun p n 0 (.given 0)).chain.n = n from rfl] at h2
  have h3 : (straightRun p n 0 (.given 0)).psi n = 0 := by
    unfold Run.psi
    rw [show (straightRun p n 0 (.given 0)).stop = .given 0 from rfl]
    simp only
    exact if_pos rfl
  rw [show n - 1 + 1 = n by omega, h2, h3] at h
  norm_num at h

/-- The path of the example can be made. -/
theorem straight_made : ∃ items, path (realEnv 1) straight = some items := by
  obtain ⟨c0, h0⟩ := Option.isSome_iff_exists.mp (straight_first 0 2 (by norm_num) (.given 0) (by simp) (by simp) rfl
    (by change nArg (1 - 0) (0 - 0) = 0; norm_num; exact arg_one))
  obtain ⟨c1, h1⟩ := Option.isSome_iff_exists.mp (straight_last 0 2 (by norm_num) rfl
    (by change nArg (2 - 1) (0 - 0) = 0; norm_num; exact arg_one))
  have h3 : ∃ c3, setControls 3 0 4 0 1 1 (4 - 3) (0 - 0) (sin (lineAngle - nArg (4 - 3) (0 - 0)))
      (cos (lineAngle - nArg (4 - 3) (0 - 0))) (-sin (0 - nArg (4 - 3) (0 - 0))) (cos (0 - nArg (4 - 3) (0 - 0))) =
        some c3 := by
    have e : nArg (4 - 3) (0 - 0) = 0 := by norm_num; exact arg_one
    rw [e, lineAngle_eq, sub_zero, cos_zero, sin_zero]
    unfold setControls
    obtain ⟨v, hv⟩ := Option.isSome_iff_exists.mp (velocity_defined 0 1 (-0) 1 |1| (by norm_num) (by norm_num)
      (by norm_num) (by norm_num))
    obtain ⟨w, hw⟩ := Option.isSome_iff_exists.mp (velocity_defined (-0) 1 0 1 |1| (by norm_num) (by norm_num)
      (by norm_num) (by norm_num))
    rw [hv, hw]
    exact ⟨_, rfl⟩
  obtain ⟨c3, h3⟩ := h3
  let t1 : Table ℝ := mod (mod (mod (mod straightKnots 0 (·.setR .explicit (some c0.1.1) (some c0.1.2)))
    1 (·.setL .explicit (some c0.2.1) (some c0.2.2))) 1 (·.setR .explicit (some c1.1.1) (some c1.1.2)))
    2 (·.setL .explicit (some c1.2.1) (some c1.2.2))
  have w1 : walkStep (realEnv 1) 5 straightKnots 0 = some (2, t1) := by
    have : walkStep (realEnv 1) 5 straightKnots 0 =
        (store (straightRun 0 2 0 (.given lineAngle)).segment 5 straightKnots 0 2).map fun ks => (2, ks) := rfl
    rw [this, lineAngle_eq]
    simp only [store, Option.bind_some]
    rw [h0]
    simp only [Option.map_some, Option.bind_some]
    rw [show (straightRun 0 2 0 (.given 0)).segment 1 = some c1 from h1]
    rfl
  let t2 : Table ℝ := mod (mod t1 2 fun k => k.setR k.rt (some k.x) (some k.y)) 3 fun k => k.setL k.lt (some k.x) (some k.y)
  have w2 : walkStep (realEnv 1) 5 t1 2 = some (1, t2) := rfl
  let t3 : Table ℝ := mod (mod t2 3 (·.setR .explicit (some c3.1.1) (some c3.1.2)))
    4 (·.setL .explicit (some c3.2.1) (some c3.2.2))
  have w3 : walkStep (realEnv 1) 5 t2 3 = some (1, t3) := by
    have : walkStep (realEnv 1) 5 t2 3 = (setControls 3 0 4 0 1 1 (4 - 3) (0 - 0)
        (sin (lineAngle - nArg (4 - 3) (0 - 0))) (cos (lineAngle - nArg (4 - 3) (0 - 0)))
        (-sin (0 - nArg (4 - 3) (0 - 0))) (cos (0 - nArg (4 - 3) (0 - 0)))).map fun c =>
          (1, mod (mod t2 3 (·.setR .explicit (some c.1.1) (some c.1.2)))
            4 (·.setL .explicit (some c.2.1) (some c.2.2))) := by
      change (Option.map _ ((some t2).bind fun ks => Option.map _ (setControls _ _ _ _ _ _ _ _ _ _ _ _))) = _
      rw [Option.bind_some, Option.map_map]
      rfl
    rw [this, h3]
    rfl
  let t4 : Table ℝ := mod (mod t3 4 fun k => k.setR k.rt (some k.x) (some k.y)) 0 fun k => k.setL k.lt (some k.x) (some k.y)
  have w4 : walkStep (realEnv 1) 5 t3 4 = some (1, t4) := rfl
  have hm : makeChoices (realEnv 1) 5 straightKnots = some t4 := by
    unfold makeChoices
    simp only
    rw [straight_joined]
    change walk (realEnv 1) 5 0 5 0 straightKnots = some t4
    unfold walk
    rw [if_neg (by norm_num), show (0 + 0) % 5 = 0 from rfl, w1, Option.bind_some]
    simp only
    unfold walk
    rw [if_neg (by norm_num), show (0 + (0 + 2)) % 5 = 2 from rfl, w2, Option.bind_some]
    simp only
    unfold walk
    rw [if_neg (by norm_num), show (0 + (0 + 2 + 1)) % 5 = 3 from rfl, w3, Option.bind_some]
    simp only
    unfold walk
    rw [if_neg (by norm_num), show (0 + (0 + 2 + 1 + 1)) % 5 = 4 from rfl, w4, Option.bind_some]
    simp only
    unfold walk
    rw [if_pos (by norm_num)]
  unfold path
  rw [if_neg (by simp [straight]), show straight.length = 5 from rfl, straight_linked, Option.bind_some, hm,
    Option.bind_some]
  exact ⟨_, rfl⟩

/-- It meets the conditions of the theorems above: a smooth knot, directions given at both ends, a line that keeps angles. -/
example : Made straight ∧ (∀ keep, link straight (straight.length - 1) ≠ some (.line keep)) ∧
    ((link straight (straight.length - 1)).isSome → ∀ i < straight.length, (link straight i).isSome) ∧
    initial straight 1 = smoothknot 1 0 ∧ link straight 0 = some (.tension 1 1) ∧ link straight 1 = some (.tension 1 1) ∧
    link straight 2 = some (.line true) ∧ link straight 3 = some (.tension 1 1) ∧
    (initial straight 0).rt = .given ∧ (initial straight 4).lt = .given ∧
    Far (realEnv 1) (pos straight 0) (pos straight 1) ∧ Far (realEnv 1) (pos straight 1) (pos straight 2) ∧
    Far (realEnv 1) (pos straight 3) (pos straight 4) ∧ pos straight 2 ≠ pos straight 3 := by
  have ht : (.tension 1 1 : Link ℝ) = tensioncurve 1 false none none := by norm_num [tensioncurve]
  refine ⟨?_, fun keep => nofun, fun h => by simp [link, straight] at h, rfl, rfl, rfl, rfl, rfl, rfl, rfl, ?_, ?_, ?_, ?_⟩
  · intro e he
    simp only [straight, List.mem_cons, List.not_mem_nil, or_false] at he
    have hb : ∀ l : Link ℝ, some (.tension 1 1) = some l → BuiltLink l := by
      intro l hl
      simp only [Option.some.injEq] at hl
      exact Or.inr (Or.inr ⟨1, false, none, none, by rw [← hl]; exact ht⟩)
    rcases he with rfl | rfl | rfl | rfl | rfl
    · exact ⟨Or.inl ⟨_, _, _, _, rfl⟩, hb⟩
    · exact ⟨Or.inr (Or.inr (Or.inl ⟨_, _, rfl⟩)), hb⟩
    · exact ⟨Or.inr (Or.inr (Or.inr ⟨_, _, _, _, _, _, rfl⟩)), fun l hl => Or.inl ⟨true, (Option.some.inj hl).symm⟩⟩
    · exact ⟨Or.inr (Or.inr (Or.inr ⟨_, _, _, _, _, _, rfl⟩)), hb⟩
    · exact ⟨Or.inr (Or.inl ⟨_, _, _, _, rfl⟩), nofun⟩
  · change (1 : ℝ) ^ 2 ≤ (0 - 1) ^ 2 + (0 - 0) ^ 2; norm_num
  · change (1 : ℝ) ^ 2 ≤ (1 - 2) ^ 2 + (0 - 0) ^ 2; norm_num
  · change (1 : ℝ) ^ 2 ≤ (3 - 4) ^ 2 + (0 - 0) ^ 2; norm_num
  · intro h
    have : (2 : ℝ) = 3 := congrArg Prod.fst h
    norm_num at this

end PyX.MetaPost
