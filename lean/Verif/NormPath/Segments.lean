import Verif.NormPath.SubProps

/-!
# C45: the segments of a sub-path

`segments` cuts a sub-path at a list of parameters.  The result is described by `Way`: each segment is the sub-path built from
parts of the original items, which go straight from one parameter to the next.
-/

set_option linter.unusedSectionVars false

namespace PyX.NormPath

noncomputable section

namespace Sub

/-! ## Specification -/

/-- The parts follow the items from the parameter `t` to the parameter `u`, each within one item, and always towards `goal`,
without passing it. For parameters within the sub-path, the parts are within the items. -/
inductive Way (items : List (Item ℝ)) (goal : ℝ) : ℝ → ℝ → List (Item ℝ) → Prop
  | nil (t : ℝ) : Way items goal t t []
  | cons (k : ℕ) (item part : Item ℝ) (a b t u v : ℝ) (rest : List (Item ℝ))
      (get : items[k]? = some item) (tr : Traces part item a b) (ht : t = k + a) (hu : u = k + b)
      (up : t ≤ goal → t ≤ u ∧ u ≤ goal) (down : goal ≤ t → u ≤ t ∧ goal ≤ u)
      (within : 0 ≤ goal → goal ≤ items.length → 0 ≤ t → t ≤ items.length → (0 ≤ a ∧ a ≤ 1) ∧ 0 ≤ b ∧ b ≤ 1)
      (tail : Way items goal u v rest) : Way items goal t v (part :: rest)

/-- The point of a list of items at a parameter: parameter `k+x` is the point of item `k` at `x`. -/
def PointAt (items : List (Item ℝ)) (t : ℝ) (p : ℝ × ℝ) : Prop :=
  ∃ (k : ℕ) (item : Item ℝ) (a : ℝ), items[k]? = some item ∧ t = k + a ∧ p = item.point a

variable (roots : ℝ → ℝ → ℝ → ℝ → List ℝ) (eps : Option ℝ) (n : ℕ)

/-- `sub` is built from parts following the items from `a` to `b`. -/
def Piece (items : List (Item ℝ)) (a b : ℝ) (sub : Sub) : Prop :=
  ∃ parts, parts ≠ [] ∧ Way items b a b parts ∧ extend roots eps n fresh parts = (sub, none)

/-! ## Lemmas -/

theorem make_open (is : List (Item ℝ)) : make roots eps n is false = extend roots eps n fresh is := by
  unfold make
  rcases extend roots eps n fresh is with ⟨s, _ | e⟩ <;> simp

theorem extend_append (s s' : Sub) (l l' : List (Item ℝ)) (h : extend roots eps n s l = (s', none)) :
    extend roots eps n s (l ++ l') = extend roots eps n s' l' := by
  induction l generalizing s with
  | nil =>
    simp only [extend, extendWith, Prod.mk.injEq, and_true] at h
    simp [h]
  | cons i l ih =>
    simp only [extend, List.cons_append, extendWith] at h ⊢
    rcases ha : append roots eps n s i with ⟨s1, _ | e⟩
    · rw [ha] at h
      simp only at h ⊢
      exact ih s1 h
    · rw [ha] at h
      simp at h

theorem extend_one (s : Sub) (i : Item ℝ) : extend roots eps n s [i] = append roots eps n s i := by
  simp only [extend, extendWith]
  rcases append roots eps n s i with ⟨s1, _ | e⟩ <;> rfl

theorem ok_eq (o : Out) (s : Sub) (h : ok o = .ok s) : o = (s, none) := by
  rcases o with ⟨s', _ | e⟩ <;> simp [ok] at h
  simp [h]

theorem Way.append {items : List (Item ℝ)} {goal t u v : ℝ} {l l' : List (Item ℝ)} (h : Way items goal t u l)
    (h' : Way items goal u v l') : Way items goal t v (l ++ l') := by
  induction h with
  | nil => exact h'
  | cons k item part a b t u v rest get tr ht hu up down within tail ih =>
    exact .cons k item part a b t u _ _ get tr ht hu up down within (ih h')

/-- The parts begin and end at the points of the sub-path. -/
theorem Way.ends {items : List (Item ℝ)} {goal t u : ℝ} {l : List (Item ℝ)} (h : Way items goal t u l) (hl : l ≠ []) :
    ∃ first last, l.head? = some first ∧ l.getLast? = some last ∧ PointAt items t first.begin_ ∧ PointAt items u last.end_ := by
  induction h with
  | nil => exact absurd rfl hl
  | cons k item part a b t u v rest get tr ht hu up down within tail ih =>
    cases rest with
    | nil =>
      cases tail
      exact ⟨part, part, rfl, rfl, ⟨k, item, a, get, ht, by rw [tr.begin_, at_eq_point]⟩,
        ⟨k, item, b, get, hu, by rw [tr.end_, at_eq_point]⟩⟩
    | cons r rest =>
      obtain ⟨first, last, _, h2, _, h4⟩ := ih (by simp)
      exact ⟨part, last, rfl, by rw [List.getLast?_cons_cons]; exact h2,
        ⟨k, item, a, get, ht, by rw [tr.begin_, at_eq_point]⟩, h4⟩

/-- What is known about the parameter in an item. -/
def Local (len k : ℕ) (p : ℝ) : Prop := (0 < k → 0 ≤ p) ∧ (k + 1 < len → p ≤ 1)

theorem locate_spec (len : ℕ) (hlen : 0 < len) (t : ℝ) :
    t = (locate len t).1 + (locate len t).2 ∧ (locate len t).1 < len ∧ Local len (locate len t).1 (locate len t).2 := by
  unfold locate
  by_cases ht : t > 0
  · rw [if_pos ht]
    simp only
    have h1 : (min ⌊t⌋₊ (len - 1) : ℕ) ≤ ⌊t⌋₊ := min_le_left _ _
    have h2 : ((⌊t⌋₊ : ℕ) : ℝ) ≤ t := Nat.floor_le ht.le
    refine ⟨by ring, by omega, ⟨fun _ => ?_, fun h => ?_⟩⟩
    · have : ((min ⌊t⌋₊ (len - 1) : ℕ) : ℝ) ≤ (⌊t⌋₊ : ℕ) := by exact_mod_cast h1
      linarith
    · have e : min ⌊t⌋₊ (len - 1) = ⌊t⌋₊ := by omega
      rw [e]
      have := Nat.lt_floor_add_one t
      linarith
  · rw [if_neg ht]
    push Not at ht
    exact ⟨by simp, hlen, fun h => absurd h (lt_irrefl 0), fun _ => by simpa using ht.trans zero_le_one⟩

theorem local_within (len k : ℕ) (a b t u goal : ℝ) (hk : k < len) (ha : Local len k a) (hb : Local len k b) (ht : t = k + a)
    (hu : u = k + b) (up : t ≤ goal → t ≤ u ∧ u ≤ goal) (down : goal ≤ t → u ≤ t ∧ goal ≤ u) :
    0 ≤ goal → goal ≤ len → 0 ≤ t → t ≤ len → (0 ≤ a ∧ a ≤ 1) ∧ 0 ≤ b ∧ b ≤ 1 := by
  intro g0 g1 t0 t1
  have key : ∀ p : ℝ, Local len k p → 0 ≤ k + p → k + p ≤ len → 0 ≤ p ∧ p ≤ 1 := by
    intro p hp h0 h1
    constructor
    · rcases Nat.eq_zero_or_pos k with h | h
      · subst h; simpa using h0
      · exact hp.1 h
    · by_cases h : k + 1 < len
      · exact hp.2 h
      · have : len = k + 1 := by omega
        rw [this] at h1
        push_cast at h1
        linarith
  have hu' : 0 ≤ u ∧ u ≤ len := by
    rcases le_total t goal with h | h
    · obtain ⟨h1, h2⟩ := up h; constructor <;> linarith
    · obtain ⟨h1, h2⟩ := down h; constructor <;> linarith
  exact ⟨key a ha (ht ▸ t0) (ht ▸ t1), key b hb (hu ▸ hu'.1) (hu ▸ hu'.2)⟩

/-- A single part. -/
theorem way_one (items : List (Item ℝ)) (goal : ℝ) (k : ℕ) (item part : Item ℝ) (a b : ℝ) (hget : items[k]? = some item)
    (htr : Traces part item a b) (ha : Local items.length k a) (hb : Local items.length k b)
    (up : (k : ℝ) + a ≤ goal → (k : ℝ) + a ≤ k + b ∧ k + b ≤ goal) (down : goal ≤ (k : ℝ) + a → (k : ℝ) + b ≤ k + a ∧ goal ≤ k + b) :
    Way items goal (k + a) (k + b) [part] :=
  .cons k item part a b _ _ _ _ hget htr rfl rfl up down
    (local_within items.length k a b _ _ goal (by
      rw [List.getElem?_eq_some_iff] at hget; exact hget.1) ha hb rfl rfl up down) (.nil _)

theorem way_forward (items : List (Item ℝ)) (goal : ℝ) (i j : ℕ) (hij : i ≤ j) (hj : j ≤ items.length) (hg : (j : ℝ) ≤ goal) :
    Way items goal i j ((items.take j).drop i) := by
  induction h : j - i generalizing i with
  | zero =>
    have : i = j := by omega
    subst this
    simp only [List.drop_take_self]
    exact .nil _
  | succ d ih =>
    have hi : i < items.length := by omega
    have hi' : i < (items.take j).length := by simp; omega
    rw [List.drop_eq_getElem_cons hi']
    have hcast : ((i : ℝ) + 1) ≤ j := by exact_mod_cast (by omega : i + 1 ≤ j)
    refine .cons i items[i] _ 0 1 _ (↑(i + 1)) _ _ (List.getElem?_eq_getElem hi) ?_ (by simp) (by push_cast; ring)
      (fun _ => ⟨by push_cast; linarith, by push_cast; linarith⟩) (fun h => absurd h (by linarith)) (fun _ _ _ _ => by norm_num)
      (ih (i + 1) (by omega) (by omega))
    intro s
    rw [List.getElem_take]
    congr 1
    ring

theorem way_backward (items : List (Item ℝ)) (goal : ℝ) (i j : ℕ) (hij : j ≤ i) (hi : i ≤ items.length) (hg : goal ≤ (j : ℝ)) :
    Way items goal i j ((((items.take i).drop j).reverse).map Item.reversed) := by
  induction i, hij using Nat.le_induction with
  | base =>
    simp only [List.drop_take_self, List.reverse_nil, List.map_nil]
    exact .nil _
  | succ i hji ih =>
    have hi' : i < items.length := by omega
    have hsnoc : (items.take (i + 1)).drop j = (items.take i).drop j ++ [items[i]] := by
      rw [List.take_succ_eq_append_getElem hi', List.drop_append_of_le_length (by simp; omega)]
    rw [hsnoc]
    simp only [List.reverse_append, List.reverse_cons, List.reverse_nil, List.nil_append, List.cons_append, List.map_cons]
    have hcast : (j : ℝ) ≤ i := by exact_mod_cast hji
    refine .cons i items[i] _ 1 0 _ (i : ℝ) _ _ (List.getElem?_eq_getElem hi') ?_ (by push_cast; ring) (by simp)
      (fun h => absurd h (by push_cast; linarith)) (fun _ => ⟨by push_cast; linarith, by linarith⟩) (fun _ _ _ _ => by norm_num)
      (ih (by omega))
    intro s
    rw [← at_eq_point, (reversed_at _ _).1, at_eq_point]
    congr 1
    ring

theorem makeAll_spec (is : List (Item ℝ)) (new : List Sub) (h : makeAll roots eps n is = .ok new) :
    new.length = is.length ∧ ∀ (j : ℕ) (i : Item ℝ), is[j]? = some i → ∃ c, new[j]? = some c ∧ extend roots eps n fresh [i] = (c, none) := by
  induction is generalizing new with
  | nil =>
    simp only [makeAll, Except.ok.injEq] at h
    subst h
    exact ⟨rfl, fun j i h => by simp at h⟩
  | cons i is ih =>
    unfold makeAll at h
    cases ha : ok (make roots eps n [i] false) with
    | error e => rw [ha] at h; simp at h
    | ok s =>
      cases hb : makeAll roots eps n is with
      | error e => rw [ha, hb] at h; simp at h
      | ok ss =>
        rw [ha, hb] at h
        simp only [Except.ok.injEq] at h
        subst h
        obtain ⟨h1, h2⟩ := ih ss hb
        refine ⟨by simp [h1], fun j i' hj => ?_⟩
        cases j with
        | zero =>
          simp only [List.getElem?_cons_zero, Option.some.injEq] at hj
          subst hj
          refine ⟨s, rfl, ?_⟩
          rw [← make_open]
          exact ok_eq _ _ ha
        | succ j =>
          simp only [List.getElem?_cons_succ] at hj ⊢
          exact h2 j i' hj

theorem collect_spec (done done' : List Sub) (cur cur' : Sub) (item : Item ℝ) (params : List ℝ)
    (h : collect roots eps n done cur item params = .ok (done', cur')) :
    ∃ s0 ss c new, item.segments params = some (s0 :: ss) ∧ append roots eps n cur s0 = (c, none) ∧
      makeAll roots eps n ss = .ok new ∧ done' ++ [cur'] = done ++ c :: new := by
  unfold collect at h
  split at h
  · rename_i s0 ss hseg
    cases ha : ok (append roots eps n cur s0) with
    | error e => rw [ha] at h; simp at h
    | ok c =>
      cases hb : makeAll roots eps n ss with
      | error e => rw [ha, hb] at h; simp at h
      | ok new =>
        rw [ha, hb] at h
        simp only [Except.ok.injEq, Prod.mk.injEq] at h
        refine ⟨s0, ss, c, new, hseg, ok_eq _ _ ha, hb, ?_⟩
        rw [← h.1, ← h.2, List.append_assoc, List.dropLast_append_getLast]
  · simp at h

/-- Adding the segments of item `k` at the parameters `p0 :: bs`. `T i` is the begin of the `i`th segment and
`T (i+1)` its goal. -/
theorem collect_way (items : List (Item ℝ)) (k : ℕ) (item : Item ℝ) (hget : items[k]? = some item) (done done' : List Sub)
    (cur cur' : Sub) (p0 : ℝ) (bs : List ℝ) (T : ℕ → ℝ) (parts : List (Item ℝ))
    (hloc : ∀ p ∈ p0 :: bs, Local items.length k p)
    (hcur : extend roots eps n fresh parts = (cur, none)) (hway : Way items (T 1) (T 0) (k + p0) parts)
    (hT : ∀ (i : ℕ) (b : ℝ), bs[i]? = some b → i + 1 < bs.length → T (i + 1) = k + b)
    (hlast : ∀ (i : ℕ) (a b : ℝ), (p0 :: bs)[i]? = some a → bs[i]? = some b → i + 1 = bs.length →
      ((k : ℝ) + a ≤ T (i + 1) → (k : ℝ) + a ≤ k + b ∧ k + b ≤ T (i + 1)) ∧
      (T (i + 1) ≤ (k : ℝ) + a → (k : ℝ) + b ≤ k + a ∧ T (i + 1) ≤ k + b))
    (h : collect roots eps n done cur item (p0 :: bs) = .ok (done', cur')) :
    0 < bs.length ∧ ∃ all : List Sub, all.length = bs.length ∧ done' ++ [cur'] = done ++ all ∧
      ∀ (i : ℕ) (b : ℝ), bs[i]? = some b → ∃ c parts, all[i]? = some c ∧ parts ≠ [] ∧ extend roots eps n fresh parts = (c, none) ∧
        Way items (T (i + 1)) (T i) (k + b) parts := by
  obtain ⟨s0, ss, c, new, hseg, hc, hnew, hres⟩ := collect_spec roots eps n done done' cur cur' item _ h
  obtain ⟨hlen, htr⟩ := segments_traces item _ _ hseg
  obtain ⟨hnl, hn⟩ := makeAll_spec roots eps n ss new hnew
  simp only [List.length_cons] at hlen
  have hstep : ∀ (i : ℕ) (a b : ℝ), (p0 :: bs)[i]? = some a → bs[i]? = some b → ∀ part, Traces part item a b →
      Way items (T (i + 1)) (k + a) (k + b) [part] := by
    intro i a b ha hb part hp
    have hi : i < bs.length := (List.getElem?_eq_some_iff.mp hb).1
    have mono : ((k : ℝ) + a ≤ T (i + 1) → (k : ℝ) + a ≤ k + b ∧ k + b ≤ T (i + 1)) ∧
        (T (i + 1) ≤ (k : ℝ) + a → (k : ℝ) + b ≤ k + a ∧ T (i + 1) ≤ k + b) := by
      by_cases hi' : i + 1 < bs.length
      · rw [hT i b hb hi']
        exact ⟨fun h => ⟨h, le_refl _⟩, fun h => ⟨h, le_refl _⟩⟩
      · exact hlast i a b ha hb (by omega)
    exact way_one items _ k item part a b hget hp (hloc a (List.mem_of_getElem? ha))
      (hloc b (List.mem_cons_of_mem _ (List.mem_of_getElem? hb))) mono.1 mono.2
  refine ⟨by omega, c :: new, by simp; omega, hres, ?_⟩
  intro i b hb
  have hi : i < bs.length := (List.getElem?_eq_some_iff.mp hb).1
  cases i with
  | zero =>
    have htr0 := htr 0 (by simp) (by simp; omega)
    have e1 : (p0 :: bs)[0 + 1]'(by simp; omega) = b := by
      have := (List.getElem?_eq_some_iff.mp hb).2
      simpa using this
    rw [e1] at htr0
    refine ⟨c, parts ++ [s0], rfl, by simp, ?_, hway.append (hstep 0 p0 b rfl hb s0 htr0)⟩
    rw [extend_append roots eps n fresh cur parts [s0] hcur, extend_one]
    exact hc
  | succ i =>
    have hi2 : i < ss.length := by omega
    obtain ⟨c', hc', he⟩ := hn i ss[i] (List.getElem?_eq_getElem hi2)
    have hbi : bs[i]? = some bs[i] := List.getElem?_eq_getElem (by omega)
    refine ⟨c', [ss[i]], by simpa using hc', by simp, he, ?_⟩
    have htr0 := htr (i + 1) (by simp; omega) (by simp; omega)
    rw [hT i _ hbi (by omega)]
    refine hstep (i + 1) bs[i] b (by simp [hbi]) hb ss[i] ?_
    have e1 : (p0 :: bs)[i + 1 + 1]'(by simp; omega) = b := by
      have := (List.getElem?_eq_some_iff.mp hb).2
      simpa using this
    rw [e1] at htr0
    simpa using htr0

/-! ## The loop -/

/-- The state of the loop after the parameters `ts`. -/
def Cond (items : List (Item ℝ)) (st : SegState) (ts : List ℝ) : Prop :=
  match st.index with
  | none => st = ⟨[], fresh, [], none⟩ ∧ ts = []
  | some k => ∃ item p0 ps parts, items[k]? = some item ∧ st.params = p0 :: ps ∧ st.done.length + 1 + ps.length = ts.length ∧
      (∀ (i : ℕ) (c : Sub), st.done[i]? = some c → ∃ a b, ts[i]? = some a ∧ ts[i + 1]? = some b ∧ Piece roots eps n items a b c) ∧
      extend roots eps n fresh parts = (st.cur, none) ∧
      (ps = [] → parts = [] ∧ ts[st.done.length]? = some (k + p0) ∧ st.done = []) ∧
      (∀ a g : ℝ, ts[st.done.length]? = some a → ts[st.done.length + 1]? = some g → Way items g a (k + p0) parts) ∧
      (∀ (j : ℕ) (p : ℝ), ps[j]? = some p → ts[st.done.length + 1 + j]? = some (k + p)) ∧
      ∀ p ∈ p0 :: ps, Local items.length k p

theorem piece_mono (ts : List ℝ) (t : ℝ) (items : List (Item ℝ)) (i : ℕ) (c : Sub)
    (h : ∃ a b, ts[i]? = some a ∧ ts[i + 1]? = some b ∧ Piece roots eps n items a b c) :
    ∃ a b, (ts ++ [t])[i]? = some a ∧ (ts ++ [t])[i + 1]? = some b ∧ Piece roots eps n items a b c := by
  obtain ⟨a, b, h1, h2, h3⟩ := h
  have e1 := (List.getElem?_eq_some_iff.mp h1).1
  have e2 := (List.getElem?_eq_some_iff.mp h2).1
  exact ⟨a, b, by rw [List.getElem?_append_left e1]; exact h1, by rw [List.getElem?_append_left e2]; exact h2, h3⟩

/-- Splitting the list of segments at the last one. -/
theorem snoc_append {α : Type} (d d' all : List α) (c : α) (h : d' ++ [c] = d ++ all) (hne : all ≠ []) :
    d' = d ++ all.dropLast ∧ all.getLast? = some c := by
  have h1 : all = all.dropLast ++ [all.getLast hne] := (List.dropLast_append_getLast hne).symm
  rw [h1, ← List.append_assoc] at h
  have h2 := List.append_inj' h rfl
  refine ⟨h2.1, ?_⟩
  rw [List.getLast?_eq_getLast_of_ne_nil hne]
  simpa using h2.2.symm

theorem segStep_cond (items : List (Item ℝ)) (hitems : items ≠ []) (st st' : SegState) (ts : List ℝ) (t : ℝ)
    (hc : Cond roots eps n items st ts) (h : segStep roots eps n items st t = .ok st') :
    Cond roots eps n items st' (ts ++ [t]) := by
  have hlen : 0 < items.length := List.length_pos_iff.mpr hitems
  obtain ⟨ht, hlt, hl⟩ := locate_spec items.length hlen t
  unfold segStep at h
  simp only at h
  generalize hL : locate items.length t = L at h ht hlt hl
  have hgetL : items[L.1]? = some items[L.1] := List.getElem?_eq_getElem hlt
  cases hidx : st.index with
  | none =>
    rw [hidx] at h
    simp only [Except.ok.injEq] at h
    unfold Cond at hc
    rw [hidx] at hc
    obtain ⟨hc1, hc2⟩ := hc
    subst h
    subst hc1
    subst hc2
    refine ⟨items[L.1], L.2, [], [], hgetL, rfl, rfl, ?_, rfl, ?_, ?_, ?_, ?_⟩
    · intro i c hi
      simp at hi
    · intro _
      exact ⟨rfl, by simp [← ht], rfl⟩
    · intro a g _ hg
      simp at hg
    · intro j p hp
      simp at hp
    · intro p hp
      simp only [List.mem_singleton] at hp
      subst hp
      exact hl
  | some k =>
    rw [hidx] at h
    simp only at h
    unfold Cond at hc
    rw [hidx] at hc
    obtain ⟨item, p0, ps, parts, hget, hparams, hcount, hdone, hcur, hps0, hway, hps, hloc⟩ := hc
    by_cases hk : L.1 = k
    · rw [if_pos hk] at h
      simp only [Except.ok.injEq] at h
      subst h
      subst hk
      refine ⟨items[L.1], p0, ps ++ [L.2], parts, hgetL, by simp [hparams], by simp; omega, ?_, hcur, ?_, ?_, ?_, ?_⟩
      · intro i c hi
        exact piece_mono roots eps n ts t items i c (hdone i c hi)
      · intro h0
        simp at h0
      · simp only
        intro a g ha hg
        cases hps' : ps with
        | nil =>
          obtain ⟨hp1, hp2, _⟩ := hps0 hps'
          rw [List.getElem?_append_left (List.getElem?_eq_some_iff.mp hp2).1, hp2] at ha
          simp only [Option.some.injEq] at ha
          rw [hp1, ← ha]
          exact .nil _
        | cons q qs =>
          have hl2 : st.done.length + 1 < ts.length := by rw [hps'] at hcount; simp at hcount; omega
          rw [List.getElem?_append_left (by omega)] at ha
          rw [List.getElem?_append_left hl2] at hg
          exact hway a g ha hg
      · simp only
        intro j p hj
        rcases Nat.lt_trichotomy j ps.length with hlt' | heq | hgt
        · rw [List.getElem?_append_left hlt'] at hj
          rw [List.getElem?_append_left (by omega)]
          exact hps j p hj
        · subst heq
          simp only [List.getElem?_concat_length, Option.some.injEq] at hj
          subst hj
          rw [hcount, List.getElem?_concat_length, ht]
        · rw [List.getElem?_eq_none (by simp; omega)] at hj
          simp at hj
      · intro p hp
        rw [← List.cons_append, List.mem_append, List.mem_singleton] at hp
        rcases hp with hp | hp
        · exact hloc p hp
        · subst hp; exact hl
    · rw [if_neg hk, hget] at h
      simp only at h
      have hkl : k < items.length := (List.getElem?_eq_some_iff.mp hget).1
      generalize hx : (if L.1 > k then (1 : ℝ) else 0) = x at h
      rw [hparams] at h
      cases hcol : collect roots eps n st.done st.cur item (p0 :: ps ++ [x]) with
      | error e => rw [hcol] at h; simp at h
      | ok r =>
        obtain ⟨done', cur'⟩ := r
        rw [hcol] at h
        simp only at h
        cases hext : ok (extend roots eps n cur' (between items k L.1).1) with
        | error e => rw [hext] at h; simp at h
        | ok cur'' =>
          rw [hext] at h
          simp only [Except.ok.injEq] at h
          -- the targets
          have hTval : ∀ i v, (ts ++ [t])[st.done.length + i]? = some v →
              ((ts ++ [t])[st.done.length + i]?).getD 0 = v := fun i v hv => by rw [hv]; rfl
          have hlocx : Local items.length k x := by
            rw [← hx]
            constructor <;> intro _ <;> split <;> norm_num
          have hstart : ∃ a, ts[st.done.length]? = some a := ⟨_, List.getElem?_eq_getElem (by omega)⟩
          obtain ⟨a, ha⟩ := hstart
          have ha' : (ts ++ [t])[st.done.length + 0]? = some a := by
            rw [Nat.add_zero, List.getElem?_append_left (by omega)]; exact ha
          have hway' : Way items (((ts ++ [t])[st.done.length + 1]?).getD 0) a (k + p0) parts := by
            cases hps' : ps with
            | nil =>
              obtain ⟨hp1, hp2, _⟩ := hps0 hps'
              rw [ha] at hp2
              simp only [Option.some.injEq] at hp2
              rw [hp1, hp2]
              exact .nil _
            | cons q qs =>
              have hl2 : st.done.length + 1 < ts.length := by rw [hps'] at hcount; simp at hcount; omega
              have hg : ts[st.done.length + 1]? = some ts[st.done.length + 1] := List.getElem?_eq_getElem hl2
              rw [List.getElem?_append_left hl2, hg]
              exact hway a _ ha hg
          have hcw := collect_way roots eps n items k item hget st.done done' st.cur cur' p0 (ps ++ [x])
            (fun i => ((ts ++ [t])[st.done.length + i]?).getD 0) parts
            (by
              intro p hp
              rw [← List.cons_append, List.mem_append, List.mem_singleton] at hp
              rcases hp with hp | hp
              · exact hloc p hp
              · subst hp; exact hlocx)
            hcur (by rw [hTval 0 a ha']; exact hway')
            (by
              intro i b hb hi
              have hi' : i < ps.length := by simp at hi; omega
              rw [List.getElem?_append_left hi'] at hb
              apply hTval
              rw [List.getElem?_append_left (by omega)]
              have := hps i b hb
              rw [← this]
              congr 1
              omega)
            (by
              intro i a b ha hb hi
              have hi' : i = ps.length := by simp at hi; omega
              subst hi'
              simp only [List.getElem?_concat_length, Option.some.injEq] at hb
              subst hb
              rw [hTval (ps.length + 1) t (by
                have : st.done.length + (ps.length + 1) = ts.length := by omega
                rw [this, List.getElem?_concat_length])]
              have hmem : a ∈ p0 :: ps := by
                rw [← List.cons_append, List.getElem?_append_left (by simp)] at ha
                exact List.mem_of_getElem? ha
              have hla := hloc a hmem
              rw [← hx]
              by_cases hgt : L.1 > k
              · rw [if_pos hgt]
                have h1 : a ≤ 1 := hla.2 (by omega)
                have h2 : 0 ≤ L.2 := hl.1 (by omega)
                have h3 : (k : ℝ) + 1 ≤ L.1 := by exact_mod_cast hgt
                constructor <;> intro h4 <;> constructor <;> linarith
              · rw [if_neg hgt]
                have h1 : 0 ≤ a := hla.1 (by omega)
                have h2 : L.2 ≤ 1 := hl.2 (by omega)
                have h3 : (L.1 : ℝ) + 1 ≤ k := by exact_mod_cast (by omega : L.1 + 1 ≤ k)
                constructor <;> intro h4 <;> constructor <;> linarith)
            hcol
          obtain ⟨_, all, hall, hres, hpieces⟩ := hcw
          have hne : all ≠ [] := by
            intro h0
            rw [h0] at hall
            simp at hall
          obtain ⟨hd', hlast'⟩ := snoc_append _ _ _ _ hres hne
          simp only [List.length_append, List.length_singleton] at hall
          have hdlen : done'.length = st.done.length + ps.length := by
            rw [hd']; simp; omega
          -- the last one
          obtain ⟨c, parts', hc1, hc2, hc3, hc4⟩ := hpieces ps.length x (by simp)
          have hcc : c = cur' := by
            rw [List.getLast?_eq_getElem?, hall] at hlast'
            simp only [Nat.add_sub_cancel] at hlast'
            rw [hlast'] at hc1
            exact (Option.some.inj hc1).symm
          subst hcc
          have hb := extend_append roots eps n fresh c parts' (between items k L.1).1 hc3
          rw [ok_eq _ _ hext] at hb
          have hgoal : ((ts ++ [t])[st.done.length + (ps.length + 1)]?).getD 0 = t := hTval _ _ (by
            have : st.done.length + (ps.length + 1) = ts.length := by omega
            rw [this, List.getElem?_concat_length])
          rw [hgoal] at hc4
          have hbet : Way items t (k + x) (L.1 + (between items k L.1).2) (between items k L.1).1 := by
            unfold between
            by_cases hgt : L.1 > k
            · rw [if_pos hgt] at hx ⊢
              subst hx
              have h2 : 0 ≤ L.2 := hl.1 (by omega)
              have := way_forward items t (k + 1) L.1 (by omega) (by omega) (by rw [ht]; linarith)
              push_cast at this
              simpa using this
            · rw [if_neg hgt] at hx ⊢
              subst hx
              have h2 : L.2 ≤ 1 := hl.2 (by omega)
              have := way_backward items t k (L.1 + 1) (by omega) (by omega) (by rw [ht]; push_cast; linarith)
              push_cast at this
              simpa using this
          subst h
          refine ⟨items[L.1], (between items k L.1).2, [L.2], parts' ++ (between items k L.1).1, hgetL, rfl,
            by simp; omega, ?_, hb, fun h0 => by simp at h0, ?_, ?_, ?_⟩
          · simp only
            intro i c' hi
            rw [hd'] at hi
            by_cases hi1 : i < st.done.length
            · rw [List.getElem?_append_left hi1] at hi
              exact piece_mono roots eps n ts t items i c' (hdone i c' hi)
            · rw [List.getElem?_append_right (by omega)] at hi
              have hi2 := (List.getElem?_eq_some_iff.mp hi).1
              simp only [List.length_dropLast, hall, Nat.add_sub_cancel] at hi2
              rw [List.getElem?_dropLast, if_pos (by omega)] at hi
              have hb' : ps[i - st.done.length]? = some ps[i - st.done.length] := List.getElem?_eq_getElem hi2
              obtain ⟨c2, parts2, e1, e2, e3, e4⟩ := hpieces (i - st.done.length) _ (by
                rw [List.getElem?_append_left hi2]; exact hb')
              rw [hi] at e1
              cases e1
              have hb2 := hps _ _ hb'
              have i1 : st.done.length + (i - st.done.length) = i := by omega
              have i2 : st.done.length + (i - st.done.length + 1) = i + 1 := by omega
              have i3 : st.done.length + 1 + (i - st.done.length) = i + 1 := by omega
              rw [i3] at hb2
              rw [i1, i2] at e4
              have hb3 : (ts ++ [t])[i + 1]? = some (↑k + ps[i - st.done.length]) := by
                rw [List.getElem?_append_left (by omega)]; exact hb2
              have hex : (ts ++ [t])[i]? = some ts[i] := by
                rw [List.getElem?_append_left (by omega)]; exact List.getElem?_eq_getElem (by omega)
              rw [hb3, hex] at e4
              exact ⟨_, _, hex, hb3, parts2, e2, e4, e3⟩
          · simp only
            intro a' g ha2 hg
            rw [hdlen] at ha2 hg
            have i1 : st.done.length + ps.length + 1 = ts.length := by omega
            rw [i1, List.getElem?_concat_length] at hg
            cases hg
            rw [ha2] at hc4
            exact hc4.append hbet
          · simp only
            intro j p hj
            cases j with
            | zero =>
              simp only [List.getElem?_cons_zero, Option.some.injEq] at hj
              subst hj
              have i1 : done'.length + 1 + 0 = ts.length := by omega
              rw [i1, List.getElem?_concat_length, ht]
            | succ j => simp at hj
          · intro p hp
            simp only [List.mem_cons, List.not_mem_nil, or_false] at hp
            rcases hp with hp | hp
            · subst hp
              unfold between
              constructor <;> intro _ <;> split <;> norm_num
            · subst hp; exact hl

theorem segLoop_cond (items : List (Item ℝ)) (hitems : items ≠ []) (us : List ℝ) (st st' : SegState) (ts : List ℝ)
    (hc : Cond roots eps n items st ts) (h : segLoop roots eps n items st us = .ok st') :
    Cond roots eps n items st' (ts ++ us) := by
  induction us generalizing st ts with
  | nil =>
    simp only [segLoop, Except.ok.injEq] at h
    subst h
    simpa using hc
  | cons t us ih =>
    unfold segLoop at h
    cases hs : segStep roots eps n items st t with
    | error e => rw [hs] at h; simp at h
    | ok st1 =>
      rw [hs] at h
      simp only at h
      have := ih st1 (ts ++ [t]) (segStep_cond roots eps n items hitems st st1 ts t hc hs) h
      simpa using this

/-- **C45.**  The segments of a sub-path (before joining the ends of closed ones): one less than parameters, and the `i`th one is
built from parts going from the `i`th to the next parameter. -/
theorem segmentsOpen_pieces (s : Sub) (params : List ℝ) (l : List Sub) (hs : s.items ≠ [])
    (h : segmentsOpen roots eps n s params = .ok l) :
    l.length + 1 = params.length ∧
    ∀ (i : ℕ) (c : Sub), l[i]? = some c → ∃ a b, params[i]? = some a ∧ params[i + 1]? = some b ∧ Piece roots eps n s.items a b c := by
  unfold segmentsOpen at h
  by_cases h2 : params.length < 2
  · rw [if_pos h2] at h; simp at h
  rw [if_neg h2, if_neg hs] at h
  cases hloop : segLoop roots eps n s.items ⟨[], fresh, [], none⟩ params with
  | error e => rw [hloop] at h; simp at h
  | ok st =>
    rw [hloop] at h
    simp only at h
    have hc := segLoop_cond roots eps n s.items hs params ⟨[], fresh, [], none⟩ st [] ⟨rfl, rfl⟩ hloop
    rw [List.nil_append] at hc
    cases hidx : st.index with
    | none => rw [hidx] at h; simp at h
    | some k =>
      rw [hidx] at h
      simp only at h
      unfold Cond at hc
      rw [hidx] at hc
      obtain ⟨item, p0, ps, parts, hget, hparams, hcount, hdone, hcur, hps0, hway, hps, hloc⟩ := hc
      rw [hget] at h
      simp only at h
      rw [hparams] at h
      cases hcol : collect roots eps n st.done st.cur item (p0 :: ps) with
      | error e => rw [hcol] at h; simp at h
      | ok r =>
        obtain ⟨done', cur'⟩ := r
        rw [hcol] at h
        simp only [Except.ok.injEq] at h
        have hTval : ∀ i v, params[st.done.length + i]? = some v →
            (params[st.done.length + i]?).getD 0 = v := fun i v hv => by rw [hv]; rfl
        have hps1 : 0 < ps.length := by
          obtain ⟨s0, ss, _, _, hseg, _⟩ := collect_spec roots eps n _ _ _ _ _ _ hcol
          have := (segments_traces item _ _ hseg).1
          simp only [List.length_cons] at this
          omega
        have ha : params[st.done.length]? = some params[st.done.length] := List.getElem?_eq_getElem (by omega)
        have hg : params[st.done.length + 1]? = some params[st.done.length + 1] := List.getElem?_eq_getElem (by omega)
        have hval : ∀ i b, ps[i]? = some b → (params[st.done.length + (i + 1)]?).getD 0 = k + b := by
          intro i b hb
          apply hTval
          have := hps i b hb
          rw [← this]
          congr 1
          omega
        obtain ⟨_, all, hall, hres, hpieces⟩ := collect_way roots eps n s.items k item hget st.done done' st.cur cur' p0 ps
            (fun i => (params[st.done.length + i]?).getD 0) parts hloc hcur
            (by rw [hTval 0 _ ha, hTval 1 _ hg]; exact hway _ _ ha hg)
            (fun i b hb _ => hval i b hb)
            (by
              intro i a b _ hb _
              rw [hval i b hb]
              exact ⟨fun h => ⟨h, le_refl _⟩, fun h => ⟨h, le_refl _⟩⟩) hcol
        rw [hres] at h
        subst h
        refine ⟨by simp; omega, ?_⟩
        intro i c hi
        by_cases hi1 : i < st.done.length
        · rw [List.getElem?_append_left hi1] at hi
          exact hdone i c hi
        · rw [List.getElem?_append_right (by omega)] at hi
          have hi2 := (List.getElem?_eq_some_iff.mp hi).1
          rw [hall] at hi2
          have hb' : ps[i - st.done.length]? = some ps[i - st.done.length] := List.getElem?_eq_getElem hi2
          obtain ⟨c2, parts2, e1, e2, e3, e4⟩ := hpieces (i - st.done.length) _ hb'
          rw [hi] at e1
          cases e1
          have hb2 := hps _ _ hb'
          have i1 : st.done.length + (i - st.done.length) = i := by omega
          have i2 : st.done.length + (i - st.done.length + 1) = i + 1 := by omega
          have i3 : st.done.length + 1 + (i - st.done.length) = i + 1 := by omega
          rw [i3] at hb2
          have hex : params[i]? = some params[i] := List.getElem?_eq_getElem (by omega)
          rw [i1, i2, hb2, hex] at e4
          exact ⟨_, _, hex, hb2, parts2, e2, e4, e3⟩

end Sub

end

end PyX.NormPath
