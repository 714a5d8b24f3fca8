import Verif.Axis.Create

/-!
# C116: what is painted agrees with the axis
-/

set_option linter.unusedSectionVars false

namespace PyX.Axis.Create

variable {K : Type} [Field K] [LinearOrder K] [IsStrictOrderedRing K] {R L C : Type} [DecidableEq R]

/-! ## Specification -/

/-- `m` is what a bound with the value `m0` becomes by the values `s`: unchanged if it is fixed, otherwise the least of all. -/
def LowerBy (fixed : Bool) (m0 : K) (s : Set K) (m : Option K) : Prop :=
  ∃ x, m = some x ∧ if fixed then x = m0 else IsLeast (insert m0 s) x

def UpperBy (fixed : Bool) (m0 : K) (s : Set K) (m : Option K) : Prop :=
  ∃ x, m = some x ∧ if fixed then x = m0 else IsGreatest (insert m0 s) x

/-- The axis made is consistent: the canvas shows the ticks of the axis with their values, labels and for the range of the axis; values of the ticks are the original ones times
the divisor; the range is the original one extended by all ticks where it is free. -/
structure Agrees (g : Cfg K R L C) (m : K × K) (h : Heap K R L) (r : Made K R L C) : Prop where
  canvas : ∀ p, g.paint = some p → r.canvas = p r.data (r.heap.view r.ticks)
  val : ∀ t ∈ r.ticks, r.heap.val t = h.val t * g.factor
  label : ∀ t ∈ r.ticks, g.labelled t = true → r.heap.lab t ≠ none
  given : ∀ t x, h.lab t = some x → r.heap.lab t = some x
  lower : LowerBy g.reg.min.isSome m.1 {x | ∃ t ∈ r.ticks, x = r.heap.val t} r.data.min
  upper : UpperBy g.reg.max.isSome m.2 {x | ∃ t ∈ r.ticks, x = r.heap.val t} r.data.max

/-- Ticks are in order. -/
def Ordered (h : Heap K R L) (ticks : List R) : Prop := ticks.Pairwise fun a b => h.val a < h.val b

/-- The divisor is not rounded. -/
def Exact (g : Cfg K R L C) : Prop := ∀ d, g.divisor = some d → d.1 = d.2

/-! ## Ranges -/

theorem foldl_adjust (a : Reg K) (l : List K) (mn mx : K) :
    (l.map some).foldl (adjust1 a) ⟨some mn, some mx⟩ =
      ⟨some (if a.min.isSome then mn else l.foldl min mn), some (if a.max.isSome then mx else l.foldl max mx)⟩ := by
  induction l generalizing mn mx with
  | nil => simp
  | cons x l ih =>
    have e : adjust1 a ⟨some mn, some mx⟩ (some x) = ⟨some (if a.min.isSome then mn else min mn x), some (if a.max.isSome then mx else max mx x)⟩ := by
      simp only [adjust1, below, above]
      congr 1
      · cases a.min with
        | some _ => simp
        | none =>
          by_cases hx : x < mn
          · simp [hx, min_eq_right hx.le]
          · simp [hx, min_eq_left (not_lt.1 hx)]
      · cases a.max with
        | some _ => simp
        | none =>
          by_cases hx : x > mx
          · simp [hx, max_eq_right (le_of_lt hx)]
          · simp [hx, max_eq_left (not_lt.1 hx)]
    rw [List.map_cons, List.foldl_cons, e, ih]
    cases a.min <;> cases a.max <;> simp

theorem adjust_eq (a : Reg K) (l : List K) (mn mx : K) :
    adjustaxis a ⟨some mn, some mx⟩ (l.map some) =
      ⟨some (if a.min.isSome then mn else l.foldl min mn), some (if a.max.isSome then mx else l.foldl max mx)⟩ := by
  unfold adjustaxis
  split
  · exact foldl_adjust a l mn mx
  · rename_i h
    cases h1 : a.min <;> cases h2 : a.max <;> simp_all

theorem foldl_min (l : List K) (m : K) : IsLeast (insert m {x | x ∈ l}) (l.foldl min m) := by
  induction l generalizing m with
  | nil => simp [IsLeast, lowerBounds]
  | cons x l ih =>
    obtain ⟨h1, h2⟩ := ih (min m x)
    rw [List.foldl_cons]
    constructor
    · rcases h1 with h1 | h1
      · rw [h1]
        rcases min_choice m x with h | h
        · rw [h]; exact Or.inl rfl
        · rw [h]; exact Or.inr (List.mem_cons_self ..)
      · exact Or.inr (List.mem_cons_of_mem _ h1)
    · rintro y (rfl | hy)
      · exact (h2 (Or.inl rfl)).trans (min_le_left _ _)
      · rcases List.mem_cons.1 hy with rfl | hy
        · exact (h2 (Or.inl rfl)).trans (min_le_right _ _)
        · exact h2 (Or.inr hy)

theorem foldl_max (l : List K) (m : K) : IsGreatest (insert m {x | x ∈ l}) (l.foldl max m) := by
  induction l generalizing m with
  | nil => simp [IsGreatest, upperBounds]
  | cons x l ih =>
    obtain ⟨h1, h2⟩ := ih (max m x)
    rw [List.foldl_cons]
    constructor
    · rcases h1 with h1 | h1
      · rw [h1]
        rcases max_choice m x with h | h
        · rw [h]; exact Or.inl rfl
        · rw [h]; exact Or.inr (List.mem_cons_self ..)
      · exact Or.inr (List.mem_cons_of_mem _ h1)
    · rintro y (rfl | hy)
      · exact (le_max_left _ _).trans (h2 (Or.inl rfl))
      · rcases List.mem_cons.1 hy with rfl | hy
        · exact (le_max_right _ _).trans (h2 (Or.inl rfl))
        · exact h2 (Or.inr hy)

theorem adjust_spec (a : Reg K) (l : List K) (mn mx : K) :
    LowerBy a.min.isSome mn {x | x ∈ l} (adjustaxis a ⟨some mn, some mx⟩ (l.map some)).min ∧
    UpperBy a.max.isSome mx {x | x ∈ l} (adjustaxis a ⟨some mn, some mx⟩ (l.map some)).max := by
  rw [adjust_eq]
  constructor
  · refine ⟨_, rfl, ?_⟩
    cases a.min with
    | some _ => simp
    | none => simpa using foldl_min l mn
  · refine ⟨_, rfl, ?_⟩
    cases a.max with
    | some _ => simp
    | none => simpa using foldl_max l mx

theorem getLast_ge (f : R → K) : ∀ (l : List R), l.Pairwise (fun a b => f a < f b) → ∀ (hne : l ≠ []) (t : R), t ∈ l → f t ≤ f (l.getLast hne)
  | [], _, hne, _, _ => absurd rfl hne
  | [a], _, _, t, ht => by simp at ht; simp [ht]
  | a :: b :: l, h, _, t, ht => by
    have ih := getLast_ge f (b :: l) (List.pairwise_cons.1 h).2 (by simp)
    rw [List.getLast_cons (by simp)]
    rcases List.mem_cons.1 ht with rfl | ht
    · exact (((List.pairwise_cons.1 h).1 b (by simp)).le).trans (ih b (by simp))
    · exact ih t ht

/-- It is enough to look at the first and the last tick. -/
theorem adjust_ends (a : Reg K) (f : R → K) (k : K) (ticks : List R) (ho : ticks.Pairwise fun x y => f x < f y) (mn mx : K) :
    adjustaxis a ⟨some mn, some mx⟩ (ends (fun t => f t * k) ticks) = adjustaxis a ⟨some mn, some mx⟩ ((ticks.map fun t => f t * k).map some) := by
  cases ticks with
  | nil => rfl
  | cons t ts =>
    set last := (t :: ts).getLast (by simp) with hlast
    have hl : last ∈ t :: ts := List.getLast_mem _
    have e : ends (fun t => f t * k) (t :: ts) = [f t * k, f last * k].map some := rfl
    have hge : ∀ x ∈ t :: ts, f x ≤ f last := fun x hx => getLast_ge f _ ho (by simp) x hx
    have hle : ∀ x ∈ t :: ts, f t ≤ f x := by
      intro x hx
      rcases List.mem_cons.1 hx with rfl | hx
      · exact le_rfl
      · exact ((List.pairwise_cons.1 ho).1 x hx).le
    have hsub : ∀ y ∈ [f t * k, f last * k], y ∈ (t :: ts).map fun t => f t * k := by
      intro y hy
      simp only [List.mem_cons, List.not_mem_nil, or_false] at hy
      rcases hy with rfl | rfl
      · exact List.mem_map.2 ⟨t, by simp, rfl⟩
      · exact List.mem_map.2 ⟨last, hl, rfl⟩
    have hlow : ∀ y ∈ (t :: ts).map (fun t => f t * k), ∃ z ∈ [f t * k, f last * k], z ≤ y := by
      intro y hy
      obtain ⟨x, hx, rfl⟩ := List.mem_map.1 hy
      rcases le_total 0 k with hk | hk
      · exact ⟨_, by simp, mul_le_mul_of_nonneg_right (hle x hx) hk⟩
      · exact ⟨f last * k, by simp, mul_le_mul_of_nonpos_right (hge x hx) hk⟩
    have hupp : ∀ y ∈ (t :: ts).map (fun t => f t * k), ∃ z ∈ [f t * k, f last * k], y ≤ z := by
      intro y hy
      obtain ⟨x, hx, rfl⟩ := List.mem_map.1 hy
      rcases le_total 0 k with hk | hk
      · exact ⟨f last * k, by simp, mul_le_mul_of_nonneg_right (hge x hx) hk⟩
      · exact ⟨_, by simp, mul_le_mul_of_nonpos_right (hle x hx) hk⟩
    rw [e, adjust_eq, adjust_eq]
    have h1 : [f t * k, f last * k].foldl min mn = ((t :: ts).map fun t => f t * k).foldl min mn := by
      obtain ⟨a1, a2⟩ := foldl_min [f t * k, f last * k] mn
      obtain ⟨b1, b2⟩ := foldl_min ((t :: ts).map fun t => f t * k) mn
      apply le_antisymm
      · rcases b1 with b1 | b1
        · rw [b1]; exact a2 (Or.inl rfl)
        · obtain ⟨z, hz, hzy⟩ := hlow _ b1
          exact (a2 (Or.inr hz)).trans hzy
      · rcases a1 with a1 | a1
        · rw [a1]; exact b2 (Or.inl rfl)
        · exact b2 (Or.inr (hsub _ a1))
    have h2 : [f t * k, f last * k].foldl max mx = ((t :: ts).map fun t => f t * k).foldl max mx := by
      obtain ⟨a1, a2⟩ := foldl_max [f t * k, f last * k] mx
      obtain ⟨b1, b2⟩ := foldl_max ((t :: ts).map fun t => f t * k) mx
      apply le_antisymm
      · rcases a1 with a1 | a1
        · rw [a1]; exact b2 (Or.inl rfl)
        · exact b2 (Or.inr (hsub _ a1))
      · rcases b1 with b1 | b1
        · rw [b1]; exact a2 (Or.inl rfl)
        · obtain ⟨z, hz, hzy⟩ := hupp _ b1
          exact hzy.trans (a2 (Or.inr hz))
    rw [h1, h2]

/-! ## Layout of one variant -/

theorem mulTicks_notin (q : K) (val : R → K) (ticks : List R) (t : R) (ht : t ∉ ticks) : mulTicks q val ticks t = val t := by
  unfold mulTicks
  induction ticks generalizing val with
  | nil => rfl
  | cons a l ih =>
    simp only [List.mem_cons, not_or] at ht
    rw [List.foldl_cons, ih _ ht.2, Function.update_of_ne ht.1]

theorem mulTicks_mem (q : K) (val : R → K) (ticks : List R) (hn : ticks.Nodup) (t : R) (ht : t ∈ ticks) : mulTicks q val ticks t = val t * q := by
  induction ticks generalizing val with
  | nil => simp at ht
  | cons a l ih =>
    have hs : mulTicks q val (a :: l) = mulTicks q (Function.update val a (val a * q)) l := rfl
    rw [hs]
    rcases List.mem_cons.1 ht with rfl | ht
    · rw [mulTicks_notin _ _ _ _ (List.nodup_cons.1 hn).1, Function.update_self]
    · rw [ih _ (List.nodup_cons.1 hn).2 ht, Function.update_of_ne]
      intro hta
      rw [hta] at ht
      exact (List.nodup_cons.1 hn).1 ht

theorem layout_val_notin (g : Cfg K R L C) (h : Heap K R L) (d : Data K) (ticks : List R) (t : R) (ht : g.divisor = none ∨ t ∉ ticks) :
    (layout g h d ticks).1.val t = h.val t := by
  unfold layout
  cases hd : g.divisor with
  | none => rfl
  | some q =>
    rcases ht with ht | ht
    · rw [hd] at ht; exact absurd ht (by simp)
    · exact mulTicks_notin _ _ _ _ ht

theorem layout_val_mem (g : Cfg K R L C) (he : Exact g) (h : Heap K R L) (d : Data K) (ticks : List R) (hn : ticks.Nodup) (t : R) (ht : t ∈ ticks) :
    (layout g h d ticks).1.val t = h.val t * g.factor := by
  unfold layout Cfg.factor
  cases hd : g.divisor with
  | none => exact (mul_one _).symm
  | some q =>
    have := mulTicks_mem q.2 h.val ticks hn t ht
    show mulTicks q.2 h.val ticks t = h.val t * q.1
    rw [this, he q hd]

theorem layout_lab (g : Cfg K R L C) (h : Heap K R L) (d : Data K) (ticks : List R) : (layout g h d ticks).1.lab = (labels g h ticks).lab := by
  unfold layout
  cases g.divisor <;> rfl

theorem layout_lab_keep (g : Cfg K R L C) (h : Heap K R L) (d : Data K) (ticks : List R) (t : R) (ht : h.lab t ≠ none ∨ g.labelled t = false) :
    (layout g h d ticks).1.lab t = h.lab t := by
  rw [layout_lab]
  refine if_neg ?_
  rintro ⟨-, h1, h2⟩
  rcases ht with ht | ht
  · exact ht h2
  · rw [ht] at h1; exact absurd h1 (by simp)

theorem layout_lab_mem (g : Cfg K R L C) (h : Heap K R L) (d : Data K) (ticks : List R) (t : R) (ht : t ∈ ticks) (hl : g.labelled t = true) :
    (layout g h d ticks).1.lab t ≠ none := by
  rw [layout_lab]
  by_cases h0 : h.lab t = none
  · have : (labels g h ticks).lab t = some (g.tex (h.view ticks) t) := if_pos ⟨ht, hl, h0⟩
    rw [this]; simp
  · have : (labels g h ticks).lab t = h.lab t := if_neg (fun hc => h0 hc.2.2)
    rw [this]; exact h0

theorem layout_data (g : Cfg K R L C) (he : Exact g) (h : Heap K R L) (mn mx : K) (ticks : List R) (ho : Ordered h ticks) (hn : ticks.Nodup) :
    (layout g h ⟨some mn, some mx⟩ ticks).2.1 =
      adjustaxis g.reg ⟨some mn, some mx⟩ ((ticks.map fun t => (layout g h ⟨some mn, some mx⟩ ticks).1.val t).map some) := by
  have e : (layout g h ⟨some mn, some mx⟩ ticks).2.1 = adjustaxis g.reg ⟨some mn, some mx⟩ (ends (fun t => h.val t * g.factor) ticks) := rfl
  rw [e, adjust_ends g.reg h.val g.factor ticks ho]
  congr 2
  apply List.map_congr_left
  intro t ht
  exact (layout_val_mem g he h _ ticks hn t ht).symm

theorem layout_agrees (g : Cfg K R L C) (he : Exact g) (h : Heap K R L) (m : K × K) (ticks : List R) (ho : Ordered h ticks) (hn : ticks.Nodup) :
    Agrees g m h (layoutData g h ⟨some m.1, some m.2⟩ ticks) := by
  have hd := adjust_spec g.reg (ticks.map fun t => (layout g h ⟨some m.1, some m.2⟩ ticks).1.val t) m.1 m.2
  rw [← layout_data g he h m.1 m.2 ticks ho hn] at hd
  have hs : {x | x ∈ ticks.map fun t => (layout g h ⟨some m.1, some m.2⟩ ticks).1.val t} =
      {x | ∃ t ∈ ticks, x = (layout g h ⟨some m.1, some m.2⟩ ticks).1.val t} := by
    ext x; simp [eq_comm]
  rw [hs] at hd
  refine ⟨?_, ?_, ?_, ?_, hd.1, hd.2⟩
  · intro p hp
    unfold layoutData layout
    simp [hp]
  · exact fun t ht => layout_val_mem g he h ⟨some m.1, some m.2⟩ ticks hn t ht
  · exact fun t ht hl => layout_lab_mem g h ⟨some m.1, some m.2⟩ ticks t ht hl
  · intro t x hx
    show (layout g h ⟨some m.1, some m.2⟩ ticks).1.lab t = some x
    rw [layout_lab_keep g h _ ticks t (Or.inl (by rw [hx]; simp)), hx]

/-! ## The loop -/

/-- Variants do not share ticks, or ticks do not change their values. -/
def Apart (g : Cfg K R L C) (ls : List (List R)) : Prop := g.divisor = none ∨ ls.Pairwise List.Disjoint

/-- What holds for one variant. -/
structure VarOk (g : Cfg K R L C) (p : Data K → List (R × K × Option L) → C) (h0 : Heap K R L) (m : K × K) (h : Heap K R L) (v : Var K R C) : Prop where
  nodup : v.ticks.Nodup
  ordered : Ordered h0 v.ticks
  new : v.canvas = none → v.data = ⟨some m.1, some m.2⟩ ∧ ∀ t ∈ v.ticks, h.val t = h0.val t
  stored : ∀ c, v.canvas = some c → c = p v.data (h.view v.ticks) ∧ (∀ t ∈ v.ticks, h.val t = h0.val t * g.factor) ∧
    (∀ t ∈ v.ticks, g.labelled t = true → h.lab t ≠ none) ∧
    v.data = adjustaxis g.reg ⟨some m.1, some m.2⟩ ((v.ticks.map fun t => h.val t).map some)

structure LoopOk (g : Cfg K R L C) (p : Data K → List (R × K × Option L) → C) (h0 : Heap K R L) (m : K × K) (h : Heap K R L) (vs : List (Var K R C)) : Prop where
  vars : ∀ v ∈ vs, VarOk g p h0 m h v
  apart : Apart g (vs.map Var.ticks)
  given : ∀ t x, h0.lab t = some x → h.lab t = some x
  unlabelled : ∀ t, g.labelled t = false → h.lab t = h0.lab t

theorem sortVars_perm (vs : List (Var K R C)) : (sortVars vs).Perm vs := List.perm_insertionSort _ _

theorem LoopOk.perm {g : Cfg K R L C} {p : Data K → List (R × K × Option L) → C} {h0 : Heap K R L} {m : K × K} {h : Heap K R L} {vs ws : List (Var K R C)}
    (ho : LoopOk g p h0 m h vs) (hp : ws.Perm vs) : LoopOk g p h0 m h ws := by
  refine ⟨fun v hv => ho.vars v (hp.mem_iff.1 hv), ?_, ho.given, ho.unlabelled⟩
  rcases ho.apart with h1 | h1
  · exact Or.inl h1
  · exact Or.inr (((hp.map Var.ticks).pairwise_iff (fun h => h.symm)).2 h1)

/-- A variant is not affected by the layout of another one. -/
theorem varOk_other (g : Cfg K R L C) (p : Data K → List (R × K × Option L) → C) (h0 : Heap K R L) (m : K × K) (h : Heap K R L) (v w : Var K R C)
    (hw : VarOk g p h0 m h w) (hd : g.divisor = none ∨ List.Disjoint v.ticks w.ticks) (d : Data K) :
    VarOk g p h0 m (layout g h d v.ticks).1 w := by
  have hval : ∀ t ∈ w.ticks, (layout g h d v.ticks).1.val t = h.val t := by
    intro t ht
    apply layout_val_notin
    rcases hd with hd | hd
    · exact Or.inl hd
    · exact Or.inr fun hv => hd hv ht
  refine ⟨hw.nodup, hw.ordered, ?_, ?_⟩
  · intro hc
    obtain ⟨h1, h2⟩ := hw.new hc
    exact ⟨h1, fun t ht => (hval t ht).trans (h2 t ht)⟩
  · intro c hc
    obtain ⟨h1, h2, h3, h4⟩ := hw.stored c hc
    have hlab : ∀ t ∈ w.ticks, (layout g h d v.ticks).1.lab t = h.lab t := by
      intro t ht
      apply layout_lab_keep
      cases hl : g.labelled t with
      | true => exact Or.inl (h3 t ht hl)
      | false => exact Or.inr rfl
    refine ⟨?_, ?_, ?_, ?_⟩
    · rw [h1]
      congr 1
      apply List.map_congr_left
      intro t ht
      rw [hval t ht, hlab t ht]
    · exact fun t ht => (hval t ht).trans (h2 t ht)
    · intro t ht hl
      rw [hlab t ht]; exact h3 t ht hl
    · rw [h4]
      congr 2
      apply List.map_congr_left
      intro t ht
      exact (hval t ht).symm

theorem loop_rest (g : Cfg K R L C) (p : Data K → List (R × K × Option L) → C) (h0 : Heap K R L) (m : K × K) (h : Heap K R L) (v : Var K R C) (vs : List (Var K R C))
    (ho : LoopOk g p h0 m h (v :: vs)) (d : Data K) : LoopOk g p h0 m (layout g h d v.ticks).1 vs := by
  refine ⟨?_, ?_, ?_, ?_⟩
  · intro w hw
    refine varOk_other g p h0 m h v w (ho.vars w (List.mem_cons_of_mem _ hw)) ?_ d
    rcases ho.apart with h1 | h1
    · exact Or.inl h1
    · exact Or.inr ((List.pairwise_cons.1 h1).1 _ (List.mem_map_of_mem hw))
  · rcases ho.apart with h1 | h1
    · exact Or.inl h1
    · exact Or.inr (List.pairwise_cons.1 h1).2
  · intro t x hx
    have := ho.given t x hx
    rw [layout_lab_keep g h d v.ticks t (Or.inl (by rw [this]; simp)), this]
  · intro t ht
    rw [layout_lab_keep g h d v.ticks t (Or.inr ht), ho.unlabelled t ht]

theorem loop_new (g : Cfg K R L C) (p : Data K → List (R × K × Option L) → C) (hp : g.paint = some p) (he : Exact g) (h0 : Heap K R L) (m : K × K) (h : Heap K R L)
    (v : Var K R C) (vs : List (Var K R C)) (ho : LoopOk g p h0 m h (v :: vs)) (hc : v.canvas = none) (rate : K) :
    LoopOk g p h0 m (layout g h v.data v.ticks).1
      ({ v with rate := rate, data := (layout g h v.data v.ticks).2.1, canvas := some (layout g h v.data v.ticks).2.2 } :: vs) := by
  have hr := loop_rest g p h0 m h v vs ho v.data
  have hv := ho.vars v (List.mem_cons_self ..)
  obtain ⟨hdata, hval⟩ := hv.new hc
  refine ⟨?_, ho.apart, hr.given, hr.unlabelled⟩
  intro w hw
  rcases List.mem_cons.1 hw with rfl | hw
  · have hord : Ordered h v.ticks := by
      refine hv.ordered.imp_of_mem ?_
      intro a b ha hb hab
      rw [hval a ha, hval b hb]; exact hab
    refine ⟨hv.nodup, hv.ordered, (fun hn => absurd hn (by simp)), ?_⟩
    intro c hcc
    have hcc' : c = (layout g h v.data v.ticks).2.2 := (Option.some.inj hcc).symm
    refine ⟨?_, ?_, ?_, ?_⟩
    · rw [hcc']
      show (layout g h v.data v.ticks).2.2 = p (layout g h v.data v.ticks).2.1 ((layout g h v.data v.ticks).1.view v.ticks)
      unfold layout
      simp [hp]
    · intro t ht
      rw [layout_val_mem g he h _ _ hv.nodup t ht, hval t ht]
    · exact fun t ht hl => layout_lab_mem g h _ _ t ht hl
    · show (layout g h v.data v.ticks).2.1 = _
      rw [hdata]
      exact layout_data g he h m.1 m.2 v.ticks hord hv.nodup
  · exact hr.vars w hw

theorem loop_ok (g : Cfg K R L C) (p : Data K → List (R × K × Option L) → C) (hp : g.paint = some p) (he : Exact g)
    (hne : ∀ d ts, g.nonempty (p d ts) = true) (h0 : Heap K R L) (m : K × K) (n : Nat) (h : Heap K R L) (vs : List (Var K R C))
    (ho : LoopOk g p h0 m h vs) (h' : Heap K R L) (v : Var K R C) (c : C) (hr : loop g n h vs = .done h' v c) :
    v.canvas = some c ∧ VarOk g p h0 m h' v ∧ (∀ t x, h0.lab t = some x → h'.lab t = some x) ∧ ∃ w ∈ vs, w.ticks = v.ticks := by
  induction n generalizing h vs with
  | zero => simp [loop] at hr
  | succ n ih =>
    cases vs with
    | nil => simp [loop] at hr
    | cons w ws =>
      unfold loop at hr
      cases hcv : w.canvas with
      | some c' =>
        have hcc := ((ho.vars w (List.mem_cons_self ..)).stored c' hcv).1
        have hrdy : ready g w.canvas = some c' := by
          rw [hcv]; exact if_pos (by rw [hcc]; exact hne _ _)
        rw [hrdy] at hr
        simp only [Out.done.injEq] at hr
        obtain ⟨rfl, rfl, rfl⟩ := hr
        exact ⟨hcv, ho.vars w (List.mem_cons_self ..), ho.given, w, List.mem_cons_self .., rfl⟩
      | none =>
        have hrdy : ready g w.canvas = none := by rw [hcv]; rfl
        rw [hrdy] at hr
        simp only at hr
        cases hl : g.ratelayout (layout g h w.data w.ticks).2.2 with
        | none =>
          rw [hl] at hr
          simp only at hr
          obtain ⟨h1, h2, h3, u, hu, hut⟩ := ih _ _ ((loop_rest g p h0 m h w ws ho w.data).perm (sortVars_perm _)) hr
          exact ⟨h1, h2, h3, u, List.mem_cons_of_mem _ ((sortVars_perm _).mem_iff.1 hu), hut⟩
        | some l =>
          rw [hl] at hr
          simp only at hr
          obtain ⟨h1, h2, h3, u, hu, hut⟩ := ih _ _ ((loop_new g p hp he h0 m h w ws ho hcv _).perm (sortVars_perm _)) hr
          refine ⟨h1, h2, h3, ?_⟩
          rcases List.mem_cons.1 ((sortVars_perm _).mem_iff.1 hu) with rfl | hu
          · exact ⟨w, List.mem_cons_self .., hut⟩
          · exact ⟨u, List.mem_cons_of_mem _ hu, hut⟩

/-- The lists of ticks available. -/
def Source.lists : Source K R → List (List R)
  | .manual ticks => [ticks]
  | .variants vs => vs.map Prod.snd

/-- **C116.** Whatever variant is chosen after laying out any number of them, the canvas shows the ticks of the axis where the axis has them, for the
range the axis has; values are those of the parter times the divisor; the range is that of the data extended to the ticks. -/
theorem create_agrees_partial (g : Cfg K R L C) (he : Exact g) (hne : ∀ p, g.paint = some p → ∀ d ts, g.nonempty (p d ts) = true)
    (n : Nat) (fallback : Option K) (h : Heap K R L) (d : Data K) (s : Source K R)
    (hord : ∀ l ∈ s.lists, Ordered h l) (hap : Apart g s.lists)
    (r : Made K R L C) (hr : create g n fallback h d s = some (some r)) :
    r.ticks ∈ s.lists ∧ ∃ m, checkRange d fallback = some m ∧ Agrees g m h r := by
  have hnd : ∀ l ∈ s.lists, l.Nodup := by
    intro l hl
    refine (hord l hl).imp ?_
    rintro a b hab rfl
    exact lt_irrefl _ hab
  unfold create at hr
  cases hm : checkRange d fallback with
  | none => rw [hm] at hr; simp at hr
  | some m =>
    rw [hm] at hr
    have one : ∀ l ∈ s.lists, layoutData g h ⟨some m.1, some m.2⟩ l = r → r.ticks ∈ s.lists ∧ ∃ m', some m = some m' ∧ Agrees g m' h r := by
      rintro l hl rfl
      exact ⟨hl, m, rfl, layout_agrees g he h m l (hord l hl) (hnd l hl)⟩
    match s with
    | .manual ticks =>
      simp only [Option.some.injEq] at hr
      exact one ticks (List.mem_singleton.2 rfl) hr
    | .variants [] => simp at hr
    | .variants [v] =>
      simp only [Option.some.injEq] at hr
      exact one v.2 (List.mem_singleton.2 rfl) hr
    | .variants (v :: w :: vs) =>
      simp only at hr
      cases hp : g.paint with
      | none =>
        rw [hp] at hr
        simp only [Option.isNone_none, if_true, Option.some.injEq] at hr
        exact one v.2 (List.mem_cons_self ..) hr
      | some p =>
        rw [hp] at hr
        rw [if_neg (by simp)] at hr
        set d0 : Data K := ⟨some m.1, some m.2⟩
        have hL : LoopOk g p h m h ((v :: w :: vs).map (start d0)) := by
          refine ⟨?_, ?_, fun t x hx => hx, fun _ _ => rfl⟩
          · intro u hu
            obtain ⟨x, hx, rfl⟩ := List.mem_map.1 hu
            have hx' : x.2 ∈ (Source.variants (v :: w :: vs)).lists := List.mem_map_of_mem hx
            exact ⟨hnd _ hx', hord _ hx', fun _ => ⟨rfl, fun _ _ => rfl⟩, fun c hc => absurd hc (by simp [start])⟩
          · have : ((v :: w :: vs).map (start d0 : _ → Var K R C)).map Var.ticks = (v :: w :: vs).map Prod.snd := by
              rw [List.map_map]; rfl
            rw [this]; exact hap
        cases hl : loop g n h (sortVars ((v :: w :: vs).map (start d0))) with
        | more => rw [hl] at hr; simp [finish] at hr
        | error => rw [hl] at hr; simp [finish] at hr
        | done h' u c =>
          rw [hl] at hr
          simp only [finish, Option.some.injEq] at hr
          obtain ⟨h1, h2, h3, x, hx, hxt⟩ := loop_ok g p hp he (hne p hp) h m n h _ (hL.perm (sortVars_perm _)) h' u c hl
          obtain ⟨s1, s2, s3, s4⟩ := h2.stored c h1
          have hdat : adjustaxis g.reg d0 (u.ticks.map fun t => some (h'.val t)) = u.data := by
            rw [s4, List.map_map]; rfl
          rw [hdat] at hr
          subst hr
          refine ⟨?_, m, rfl, ?_⟩
          · obtain ⟨y, hy, rfl⟩ := List.mem_map.1 ((sortVars_perm _).mem_iff.1 hx)
            show u.ticks ∈ _
            rw [← hxt]
            exact List.mem_map_of_mem hy
          · have hd := adjust_spec g.reg (u.ticks.map fun t => h'.val t) m.1 m.2
            rw [← s4] at hd
            have hs : {x | x ∈ u.ticks.map fun t => h'.val t} = {x | ∃ t ∈ u.ticks, x = h'.val t} := by
              ext x; simp [eq_comm]
            rw [hs] at hd
            refine ⟨?_, s2, s3, h3, hd.1, hd.2⟩
            intro p' hp'
            rw [hp] at hp'
            obtain rfl := Option.some.inj hp'
            exact s1

/-- Ticks are on the axis: for free bounds they are within the range, and positions are between zero and one. -/
theorem create_within (g : Cfg K R L C) (h : Heap K R L) (m : K × K) (hm : m.1 < m.2) (r : Made K R L C) (ha : Agrees g m h r)
    (hmin : g.reg.min = none) (hmax : g.reg.max = none) :
    ∃ mn mx, r.data = ⟨some mn, some mx⟩ ∧ mn ≤ m.1 ∧ m.2 ≤ mx ∧
      ∀ t ∈ r.ticks, mn ≤ r.heap.val t ∧ r.heap.val t ≤ mx ∧ 0 ≤ convert g.reg.reverse mn mx (r.heap.val t) ∧ convert g.reg.reverse mn mx (r.heap.val t) ≤ 1 := by
  obtain ⟨mn, h1, h2⟩ := ha.lower
  obtain ⟨mx, h3, h4⟩ := ha.upper
  rw [hmin] at h2
  rw [hmax] at h4
  simp only [Option.isSome_none, Bool.false_eq_true, if_false] at h2 h4
  have hlo : mn ≤ m.1 := h2.2 (Or.inl rfl)
  have hhi : m.2 ≤ mx := h4.2 (Or.inl rfl)
  refine ⟨mn, mx, ?_, hlo, hhi, ?_⟩
  · cases hd : r.data; rw [hd] at h1 h3; simp_all
  · intro t ht
    have b1 : mn ≤ r.heap.val t := h2.2 (Or.inr ⟨t, ht, rfl⟩)
    have b2 : r.heap.val t ≤ mx := h4.2 (Or.inr ⟨t, ht, rfl⟩)
    have hlt : 0 < mx - mn := by linarith
    refine ⟨b1, b2, ?_, ?_⟩
    · unfold convert
      split
      · exact div_nonneg (by linarith) hlt.le
      · exact div_nonneg (by linarith) hlt.le
    · unfold convert
      split
      · rw [div_le_one hlt]; linarith
      · rw [div_le_one hlt]; linarith

/-! ## The loop ends -/

/-- The number of variants without layout. -/
def waiting (vs : List (Var K R C)) : Nat := vs.countP fun v => v.canvas.isNone

theorem loop_ends (g : Cfg K R L C) (p : Data K → List (R × K × Option L) → C) (hp : g.paint = some p) (hne : ∀ d ts, g.nonempty (p d ts) = true)
    (n : Nat) (h : Heap K R L) (vs : List (Var K R C)) (hs : ∀ v ∈ vs, ∀ c, v.canvas = some c → g.nonempty c = true) (hn : waiting vs < n) :
    loop g n h vs ≠ .more := by
  induction n generalizing h vs with
  | zero => omega
  | succ n ih =>
    cases vs with
    | nil => simp [loop]
    | cons w ws =>
      unfold loop
      cases hcv : w.canvas with
      | some c' =>
        have hrdy : ready g (some c') = some c' := if_pos (hs w (List.mem_cons_self ..) c' hcv)
        rw [hrdy]; simp
      | none =>
        have hw : waiting (w :: ws) = waiting ws + 1 := by simp [waiting, hcv]
        have hrdy : ready g (none : Option C) = none := rfl
        rw [hrdy]
        simp only
        have hperm : ∀ l : List (Var K R C), waiting (sortVars l) = waiting l := fun l => (sortVars_perm l).countP_eq _
        cases g.ratelayout (layout g h w.data w.ticks).2.2 with
        | none =>
          refine ih _ _ ?_ ?_
          · intro v hv
            exact hs v (List.mem_cons_of_mem _ ((sortVars_perm _).mem_iff.1 hv))
          · rw [hperm]; omega
        | some l =>
          refine ih _ _ ?_ ?_
          · intro v hv
            rcases List.mem_cons.1 ((sortVars_perm _).mem_iff.1 hv) with rfl | hv
            · intro c hc
              obtain rfl := Option.some.inj hc
              unfold layout
              simp only [hp]
              exact hne _ _
            · exact hs v (List.mem_cons_of_mem _ hv)
          · rw [hperm]
            simp only [waiting, List.countP_cons, Option.isNone_some, Bool.false_eq_true, if_false, Nat.add_zero] at hn ⊢
            rw [hcv] at hn
            simp at hn
            exact hn

/-- Creation ends: as many passes as there are variants are enough, and one for the last test. -/
theorem create_ends (g : Cfg K R L C) (hne : ∀ p, g.paint = some p → ∀ d ts, g.nonempty (p d ts) = true)
    (fallback : Option K) (h : Heap K R L) (d : Data K) (s : Source K R) (n : Nat) (hn : s.lists.length < n) : create g n fallback h d s ≠ none := by
  unfold create
  cases checkRange d fallback with
  | none => simp
  | some m =>
    match s, hn with
    | .manual ticks, _ => simp
    | .variants [], _ => simp
    | .variants [v], _ => simp
    | .variants (v :: w :: vs), hn =>
      simp only
      cases hp : g.paint with
      | none => simp
      | some p =>
        rw [if_neg (by simp)]
        have := loop_ends g p hp (hne p hp) n h (sortVars ((v :: w :: vs).map (start ⟨some m.1, some m.2⟩)))
          (by
            intro u hu c hc
            obtain ⟨x, -, rfl⟩ := List.mem_map.1 ((sortVars_perm _).mem_iff.1 hu)
            exact absurd hc (by simp [start]))
          (by
            rw [waiting, (sortVars_perm _).countP_eq]
            refine lt_of_le_of_lt List.countP_le_length ?_
            rw [List.length_map]
            simpa [Source.lists] using hn)
        cases hl : loop g n h (sortVars ((v :: w :: vs).map (start ⟨some m.1, some m.2⟩))) with
        | more => exact absurd hl this
        | error => simp [finish]
        | done _ _ _ => simp [finish]

/-! ## Findings -/

/-- **Finding** (`axis.py:154-156`): without a parter, the manual ticks of the axis itself are multiplied by the divisor. When the axis is used in a second
graph, its ticks have the divisor twice. -/
theorem manual_twice (g : Cfg K R L C) (he : Exact g) (n n' : Nat) (fb : Option K) (h : Heap K R L) (d d' : Data K) (ticks : List R) (ho : ticks.Nodup)
    (r r' : Made K R L C) (hr : create g n fb h d (.manual ticks) = some (some r)) (hr' : create g n' fb r.heap d' (.manual ticks) = some (some r'))
    (t : R) (ht : t ∈ ticks) : r'.heap.val t = h.val t * g.factor * g.factor := by
  have key : ∀ (n : Nat) (h : Heap K R L) (d : Data K) (r : Made K R L C), create g n fb h d (.manual ticks) = some (some r) → r.heap.val t = h.val t * g.factor := by
    intro n h d r hr
    unfold create at hr
    cases hm : checkRange d fb with
    | none => rw [hm] at hr; simp at hr
    | some m =>
      rw [hm] at hr
      simp only [Option.some.injEq] at hr
      rw [← hr]
      exact layout_val_mem g he h ⟨some m.1, some m.2⟩ ticks ho t ht
  rw [key _ _ _ _ hr', key _ _ _ _ hr]

/-! ### Examples -/

/-- The canvas is the list of the values and labels painted (and something else: it is never empty); labels are the values. The third tick of a variant
decides about the rating of the layout. -/
def exCfg (divisor : Option (ℚ × ℚ)) : Cfg ℚ Nat ℚ (List (Nat × ℚ × Option ℚ)) where
  reg := ⟨none, none, false⟩
  divisor := divisor
  labelled := fun _ => true
  tex := fun ts t => ((ts.lookup t).map Prod.fst).getD 0
  paint := some fun _ ts => ts
  empty := []
  nonempty := fun _ => true
  ratelayout := fun c => if c.any (fun x => x.1 == 2) then some 10 else some 0

def exHeap : Heap ℚ Nat ℚ := ⟨fun t => if t = 0 then 1 else if t = 2 then 3 else if t = 4 then 5 else 0, fun _ => none⟩

/-- What can be seen: the range, the values of the ticks and the canvas. -/
def seen (r : Option (Option (Made ℚ Nat ℚ (List (Nat × ℚ × Option ℚ))))) : Option ((Option ℚ × Option ℚ) × List ℚ × List (Nat × ℚ × Option ℚ)) :=
  match r with
  | some (some r) => some ((r.data.min, r.data.max), r.ticks.map r.heap.val, r.canvas)
  | _ => none

set_option synthInstance.maxSize 1000 in
/-- Two variants without common ticks, both laid out, with a divisor: the second one is chosen. -/
example : seen (create (exCfg (some (2, 2))) 3 none exHeap ⟨some 0, some 8⟩ (.variants [(0, [1, 2]), (1, [3, 4])])) =
    some ((some 0, some 10), [0, 10], [(3, 0, some 0), (4, 10, some 5)]) := by decide +kernel

example : Apart (exCfg (some (2, 2))) (Source.variants [((0 : ℚ), [1, 2]), (1, [3, 4])]).lists ∧
    ∀ l ∈ (Source.variants [((0 : ℚ), [1, 2]), (1, [3, 4])]).lists, Ordered exHeap l := by
  refine ⟨Or.inr ?_, ?_⟩
  · simp [Source.lists, List.Disjoint]
  · intro l hl
    simp only [Source.lists, List.map_cons, List.map_nil, List.mem_cons, List.not_mem_nil, or_false] at hl
    rcases hl with rfl | rfl <;> simp [Ordered, exHeap]

set_option synthInstance.maxSize 1000 in
/-- **Finding** (`axis.py:147-148, 200`): manual ticks are part of every variant. They are multiplied by the divisor for each variant which is laid out: the manual tick
at `1` (with divisor `2`) is painted at `4` and has the value `4`. -/
theorem manual_shared : ∃ (s : Source ℚ Nat), (∀ l ∈ s.lists, Ordered exHeap l) ∧ Exact (exCfg (some (2, 2))) ∧
    ∃ r, create (exCfg (some (2, 2))) 3 none exHeap ⟨some 0, some 8⟩ s = some (some r) ∧ 0 ∈ r.ticks ∧ exHeap.val 0 = 1 ∧ r.heap.val 0 = 4 ∧
      (0, 4, some 1) ∈ r.canvas ∧ (exCfg (some (2, 2))).factor = 2 := by
  refine ⟨.variants [(0, [1, 0, 2]), (1, [3, 0, 4])], ?_, ?_, ?_⟩
  · intro l hl
    simp only [Source.lists, List.map_cons, List.map_nil, List.mem_cons, List.not_mem_nil, or_false] at hl
    rcases hl with rfl | rfl <;> simp [Ordered, exHeap]
  · rintro d hd
    obtain rfl := Option.some.inj hd
    rfl
  · have h : seen (create (exCfg (some (2, 2))) 3 none exHeap ⟨some 0, some 8⟩ (.variants [(0, [1, 0, 2]), (1, [3, 0, 4])])) =
        some ((some 0, some 10), [0, 4, 10], [(3, 0, some 0), (0, 4, some 1), (4, 10, some 5)]) := by decide +kernel
    have ht : ((create (exCfg (some (2, 2))) 3 none exHeap ⟨some 0, some 8⟩ (.variants [(0, [1, 0, 2]), (1, [3, 0, 4])])).map
        fun r => r.map Made.ticks) = some (some [3, 0, 4]) := by decide +kernel
    cases hr : create (exCfg (some (2, 2))) 3 none exHeap ⟨some 0, some 8⟩ (.variants [(0, [1, 0, 2]), (1, [3, 0, 4])]) with
    | none => rw [hr] at h; simp [seen] at h
    | some r =>
      cases r with
      | none => rw [hr] at h; simp [seen] at h
      | some r =>
        rw [hr] at h ht
        simp only [Option.map_some, Option.some.injEq] at ht
        simp only [seen, Option.some.injEq, Prod.mk.injEq] at h
        obtain ⟨h1, h2, h3⟩ := h
        rw [ht] at h2
        simp only [List.map_cons, List.map_nil, List.cons.injEq, and_true] at h2
        refine ⟨r, rfl, ?_, rfl, h2.2.1, ?_, rfl⟩
        · rw [ht]; simp
        · rw [h3]; simp

/-- **Finding** (`axis.py:135, 144, 148`): the divisor is rounded to ten digits for the ticks, but not for the range: the last tick can be outside of the range. -/
theorem divisor_rounded : ∃ r, create (exCfg (some (31415926535 / 10000000000, 3141592654 / 1000000000))) 1 none exHeap ⟨some 0, some 9⟩ (.manual [1, 2]) = some (some r) ∧
    (∀ x, r.data.max = some x → x < r.heap.val 2) ∧ 2 ∈ r.ticks := by
  refine ⟨_, rfl, ?_, ?_⟩
  · intro x hx
    have : (31415926535 / 10000000000 * 3 : ℚ) = x := by
      have e : (layoutData (exCfg (some (31415926535 / 10000000000, 3141592654 / 1000000000))) exHeap ⟨some 0, some 9⟩ [1, 2]).data.max = some (31415926535 / 10000000000 * 3) := by
        decide +kernel
      exact Option.some.inj (e.symm.trans hx)
    have e2 : (layoutData (exCfg (some (31415926535 / 10000000000, 3141592654 / 1000000000))) exHeap ⟨some 0, some 9⟩ [1, 2]).heap.val 2 = 3141592654 / 1000000000 * 3 := by
      decide +kernel
    rw [← this]
    refine lt_of_lt_of_eq ?_ e2.symm
    norm_num
  · show 2 ∈ [1, 2]
    simp

end PyX.Axis.Create
