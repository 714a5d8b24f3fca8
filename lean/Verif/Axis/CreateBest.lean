import Verif.Axis.CreateProps

/-!
# C116: the variant chosen is the best one
-/

set_option linter.unusedSectionVars false

namespace PyX.Axis.Create

variable {K : Type} [Field K] [LinearOrder K] [IsStrictOrderedRing K] {R L C : Type} [DecidableEq R]

/-! ## Specification -/

/-- The rate of a variant together with the rate of its layout, if it is the first one for which a layout is made; `none` if its layout is not suitable. -/
def total (g : Cfg K R L C) (h : Heap K R L) (d : Data K) (v : K × List R) : Option K :=
  (g.ratelayout (layout g h d v.2).2.2).map fun l => v.1 + l

/-! ## Lemmas -/

/-- Two heaps agree about some ticks. -/
def Same (h h' : Heap K R L) (ticks : List R) : Prop := ∀ t ∈ ticks, h.val t = h'.val t ∧ h.lab t = h'.lab t

theorem Same.view {h h' : Heap K R L} {ticks : List R} (hs : Same h h' ticks) : h.view ticks = h'.view ticks := by
  apply List.map_congr_left
  intro t ht
  rw [(hs t ht).1, (hs t ht).2]

theorem layout_same (g : Cfg K R L C) {h h' : Heap K R L} {ticks : List R} (hs : Same h h' ticks) (hn : ticks.Nodup) (d : Data K) :
    (layout g h d ticks).2.2 = (layout g h' d ticks).2.2 := by
  have he : ends (fun t => h.val t * g.factor) ticks = ends (fun t => h'.val t * g.factor) ticks := by
    cases ticks with
    | nil => rfl
    | cons t ts => simp only [ends, (hs t (List.mem_cons_self ..)).1, (hs _ (List.getLast_mem (List.cons_ne_nil t ts))).1]
  have hl : ∀ t ∈ ticks, (labels g h ticks).lab t = (labels g h' ticks).lab t := by
    intro t ht
    simp only [labels, hs.view, (hs t ht).2]
  have hv : (match g.divisor with
      | none => labels g h ticks
      | some q => { labels g h ticks with val := mulTicks q.2 (labels g h ticks).val ticks } : Heap K R L).view ticks =
      (match g.divisor with
      | none => labels g h' ticks
      | some q => { labels g h' ticks with val := mulTicks q.2 (labels g h' ticks).val ticks } : Heap K R L).view ticks := by
    apply List.map_congr_left
    intro t ht
    cases g.divisor with
    | none => simp only [hl t ht]; rw [show (labels g h ticks).val t = h.val t from rfl, show (labels g h' ticks).val t = h'.val t from rfl, (hs t ht).1]
    | some q =>
      simp only [hl t ht]
      rw [mulTicks_mem _ _ _ hn t ht, mulTicks_mem _ _ _ hn t ht, show (labels g h ticks).val t = h.val t from rfl,
        show (labels g h' ticks).val t = h'.val t from rfl, (hs t ht).1]
  unfold layout
  simp only [he]
  cases g.paint with
  | none => rfl
  | some p => exact congrArg (p _) hv

theorem layout_keeps (g : Cfg K R L C) {h h0 : Heap K R L} {ticks ticks' : List R} (hd : List.Disjoint ticks ticks') (d : Data K) (hs : Same h h0 ticks') :
    Same (layout g h d ticks).1 h0 ticks' := by
  intro t ht
  refine ⟨(layout_val_notin g h d ticks t (Or.inr fun hv => hd hv ht)).trans (hs t ht).1, ?_⟩
  rw [layout_lab, show (labels g h ticks).lab t = h.lab t from if_neg fun hc => hd hc.1 ht]
  exact (hs t ht).2

/-- A variant of the loop is the variant `v`, with or without layout. -/
def Is (g : Cfg K R L C) (h0 : Heap K R L) (d0 : Data K) (h : Heap K R L) (u : Var K R C) (v : K × List R) : Prop :=
  u.ticks = v.2 ∧ ((u.canvas = none ∧ u.rate = v.1 ∧ u.data = d0 ∧ Same h h0 v.2) ∨
    (∃ l, u.canvas = some (layout g h0 d0 v.2).2.2 ∧ g.ratelayout (layout g h0 d0 v.2).2.2 = some l ∧ u.rate = v.1 + l))

structure Fair (g : Cfg K R L C) (h0 : Heap K R L) (d0 : Data K) (all : List (K × List R)) (h : Heap K R L) (us : List (Var K R C)) : Prop where
  apart : (us.map Var.ticks).Pairwise List.Disjoint
  is : ∀ u ∈ us, ∃ v ∈ all, Is g h0 d0 h u v
  has : ∀ v ∈ all, ∀ y, total g h0 d0 v = some y → ∃ u ∈ us, Is g h0 d0 h u v

theorem Fair.perm {g : Cfg K R L C} {h0 : Heap K R L} {d0 : Data K} {all : List (K × List R)} {h : Heap K R L} {us ws : List (Var K R C)}
    (hf : Fair g h0 d0 all h us) (hp : ws.Perm us) : Fair g h0 d0 all h ws :=
  ⟨((hp.map Var.ticks).pairwise_iff (fun h => h.symm)).2 hf.apart, fun u hu => hf.is u (hp.mem_iff.1 hu),
    fun v hv y hy => let ⟨u, hu, h⟩ := hf.has v hv y hy; ⟨u, hp.mem_iff.2 hu, h⟩⟩

theorem Is.keeps {g : Cfg K R L C} {h0 : Heap K R L} {d0 : Data K} {h : Heap K R L} {u : Var K R C} {v : K × List R} (hi : Is g h0 d0 h u v)
    {ticks : List R} (hd : List.Disjoint ticks u.ticks) (d : Data K) : Is g h0 d0 (layout g h d ticks).1 u v := by
  refine ⟨hi.1, ?_⟩
  rcases hi.2 with ⟨h1, h2, h3, h4⟩ | h1
  · rw [hi.1] at hd
    exact Or.inl ⟨h1, h2, h3, layout_keeps g hd d h4⟩
  · exact Or.inr h1

theorem sortVars_sorted (vs : List (Var K R C)) : (sortVars vs).Pairwise fun a b => a.rate ≤ b.rate :=
  @List.pairwise_insertionSort _ (fun a b : Var K R C => a.rate ≤ b.rate) _ ⟨fun a b => le_total a.rate b.rate⟩ ⟨fun _ _ _ h h' => le_trans h h'⟩ vs

theorem loop_best (g : Cfg K R L C) (h0 : Heap K R L) (d0 : Data K) (all : List (K × List R)) (hnd : ∀ v ∈ all, v.2.Nodup)
    (hpos : ∀ c l, g.ratelayout c = some l → 0 ≤ l) (n : Nat) (h : Heap K R L) (us : List (Var K R C)) (hf : Fair g h0 d0 all h us)
    (hsorted : us.Pairwise fun a b => a.rate ≤ b.rate) (hne : ∀ u ∈ us, ∀ c, u.canvas = some c → g.nonempty c = true)
    (hne' : ∀ h d t, g.nonempty (layout g h d t).2.2 = true)
    (h' : Heap K R L) (u : Var K R C) (c : C) (hr : loop g n h us = .done h' u c) :
    ∃ v ∈ all, u.ticks = v.2 ∧ c = (layout g h0 d0 v.2).2.2 ∧ ∃ x, total g h0 d0 v = some x ∧ ∀ w ∈ all, ∀ y, total g h0 d0 w = some y → x ≤ y := by
  induction n generalizing h us with
  | zero => simp [loop] at hr
  | succ n ih =>
    cases us with
    | nil => simp [loop] at hr
    | cons w ws =>
      unfold loop at hr
      have hap := List.pairwise_cons.1 (show (w.ticks :: ws.map Var.ticks).Pairwise List.Disjoint from hf.apart)
      have hdis : ∀ u ∈ ws, List.Disjoint w.ticks u.ticks := fun u hu => hap.1 _ (List.mem_map_of_mem hu)
      obtain ⟨v, hv, hi⟩ := hf.is w (List.mem_cons_self ..)
      rcases hi.2 with ⟨h1, h2, h3, h4⟩ | ⟨l, h1, h2, h3⟩
      · have hrdy : ready g w.canvas = none := by rw [h1]; rfl
        rw [hrdy] at hr
        simp only at hr
        have hcan : (layout g h w.data w.ticks).2.2 = (layout g h0 d0 v.2).2.2 := by
          rw [hi.1, h3]; exact layout_same g h4 (hnd v hv) d0
        cases hl : g.ratelayout (layout g h w.data w.ticks).2.2 with
        | none =>
          rw [hl] at hr
          simp only at hr
          have hf' : Fair g h0 d0 all (layout g h w.data w.ticks).1 ws := by
            refine ⟨hap.2, ?_, ?_⟩
            · intro u hu
              obtain ⟨x, hx, hxi⟩ := hf.is u (List.mem_cons_of_mem _ hu)
              exact ⟨x, hx, hxi.keeps (hdis u hu) _⟩
            · intro x hx y hy
              obtain ⟨u, hu, hui⟩ := hf.has x hx y hy
              rcases List.mem_cons.1 hu with rfl | hu
              · exfalso
                rw [hcan] at hl
                rw [total, ← hui.1, hi.1, hl] at hy
                simp at hy
              · exact ⟨u, hu, hui.keeps (hdis u hu) _⟩
          exact ih _ _ (hf'.perm (sortVars_perm _)) (sortVars_sorted _)
            (fun u hu => hne u (List.mem_cons_of_mem _ ((sortVars_perm _).mem_iff.1 hu))) hr
        | some l =>
          rw [hl] at hr
          simp only at hr
          have hf' : Fair g h0 d0 all (layout g h w.data w.ticks).1
              ({ w with rate := w.rate + l, data := (layout g h w.data w.ticks).2.1, canvas := some (layout g h w.data w.ticks).2.2 } :: ws) := by
            refine ⟨hf.apart, ?_, ?_⟩
            · intro u hu
              rcases List.mem_cons.1 hu with rfl | hu
              · refine ⟨v, hv, hi.1, Or.inr ⟨l, ?_, ?_, ?_⟩⟩
                · exact congrArg some hcan
                · rw [← hcan]; exact hl
                · show w.rate + l = _
                  rw [h2]
              · obtain ⟨x, hx, hxi⟩ := hf.is u (List.mem_cons_of_mem _ hu)
                exact ⟨x, hx, hxi.keeps (hdis u hu) _⟩
            · intro x hx y hy
              obtain ⟨u, hu, hui⟩ := hf.has x hx y hy
              rcases List.mem_cons.1 hu with rfl | hu
              · refine ⟨_, List.mem_cons_self .., hui.1, Or.inr ⟨l, ?_, ?_, ?_⟩⟩
                · show some _ = some _
                  rw [hcan, ← hui.1, hi.1]
                · rw [← hui.1, hi.1, ← hcan]; exact hl
                · rcases hui.2 with ⟨-, k2, -, -⟩ | ⟨l', k1, -, -⟩
                  · show u.rate + l = _
                    rw [k2]
                  · rw [h1] at k1; simp at k1
              · exact ⟨u, List.mem_cons_of_mem _ hu, hui.keeps (hdis u hu) _⟩
          refine ih _ _ (hf'.perm (sortVars_perm _)) (sortVars_sorted _) ?_ hr
          intro u hu c' hc'
          rcases List.mem_cons.1 ((sortVars_perm _).mem_iff.1 hu) with rfl | hu
          · rw [← Option.some.inj hc']; exact hne' _ _ _
          · exact hne u (List.mem_cons_of_mem _ hu) c' hc'
      · have hrdy : ready g w.canvas = some (layout g h0 d0 v.2).2.2 := by
          rw [h1]; exact if_pos (hne' _ _ _)
        rw [hrdy] at hr
        simp only [Out.done.injEq] at hr
        obtain ⟨rfl, rfl, rfl⟩ := hr
        refine ⟨v, hv, hi.1, rfl, v.1 + l, by rw [total, h2]; rfl, ?_⟩
        intro x hx y hy
        obtain ⟨u, hu, hui⟩ := hf.has x hx y hy
        have hle : w.rate ≤ u.rate := by
          rcases List.mem_cons.1 hu with rfl | hu
          · exact le_rfl
          · exact (List.pairwise_cons.1 hsorted).1 u hu
        rw [← h3]
        refine hle.trans ?_
        rw [total, Option.map_eq_some_iff] at hy
        obtain ⟨l', hl', rfl⟩ := hy
        rcases hui.2 with ⟨-, k2, -, -⟩ | ⟨l'', -, k2, k3⟩
        · rw [k2]; linarith [hpos _ _ hl']
        · rw [hl'] at k2
          rw [k3, Option.some.inj k2]

/-! ## Theorem -/

/-- **C116.** Out of several variants which do not share ticks the one created is a best one: it has the least sum of its rate and the rate of its layout, among all variants with a suitable
layout (rates of layouts not being negative); and the canvas is its layout. Only variants which may be the best are laid out. -/
theorem create_best (g : Cfg K R L C) (p : Data K → List (R × K × Option L) → C) (hp : g.paint = some p) (hne : ∀ d ts, g.nonempty (p d ts) = true)
    (hpos : ∀ c l, g.ratelayout c = some l → 0 ≤ l) (n : Nat) (fallback : Option K) (h : Heap K R L) (d : Data K) (vs : List (K × List R))
    (hlen : 2 ≤ vs.length) (hnd : ∀ v ∈ vs, v.2.Nodup) (hap : (vs.map Prod.snd).Pairwise List.Disjoint)
    (r : Made K R L C) (hr : create g n fallback h d (.variants vs) = some (some r)) :
    ∃ m, checkRange d fallback = some m ∧ ∃ v ∈ vs, r.ticks = v.2 ∧ r.canvas = (layout g h ⟨some m.1, some m.2⟩ v.2).2.2 ∧
      ∃ x, total g h ⟨some m.1, some m.2⟩ v = some x ∧ ∀ w ∈ vs, ∀ y, total g h ⟨some m.1, some m.2⟩ w = some y → x ≤ y := by
  match vs, hlen with
  | v :: w :: vs, _ =>
    unfold create at hr
    cases hm : checkRange d fallback with
    | none => rw [hm] at hr; simp at hr
    | some m =>
      rw [hm] at hr
      simp only [hp, Option.isNone_some, Bool.false_eq_true, if_false] at hr
      set d0 : Data K := ⟨some m.1, some m.2⟩
      refine ⟨m, rfl, ?_⟩
      cases hl : loop g n h (sortVars ((v :: w :: vs).map (start d0))) with
      | more => rw [hl] at hr; simp [finish] at hr
      | error => rw [hl] at hr; simp [finish] at hr
      | done h' u c =>
        rw [hl] at hr
        simp only [finish, Option.some.injEq] at hr
        have hf : Fair g h d0 (v :: w :: vs) h ((v :: w :: vs).map (start d0 : _ → Var K R C)) := by
          refine ⟨?_, ?_, ?_⟩
          · rw [List.map_map]; exact hap
          · intro u hu
            obtain ⟨x, hx, rfl⟩ := List.mem_map.1 hu
            exact ⟨x, hx, rfl, Or.inl ⟨rfl, rfl, rfl, fun _ _ => ⟨rfl, rfl⟩⟩⟩
          · intro x hx y _
            exact ⟨_, List.mem_map_of_mem hx, rfl, Or.inl ⟨rfl, rfl, rfl, fun _ _ => ⟨rfl, rfl⟩⟩⟩
        obtain ⟨x, hx, h1, h2, h3⟩ := loop_best g h d0 (v :: w :: vs) hnd hpos n h _ (hf.perm (sortVars_perm _)) (sortVars_sorted _) (by
            intro u hu c hc
            obtain ⟨x, -, rfl⟩ := List.mem_map.1 ((sortVars_perm _).mem_iff.1 hu)
            simp [start] at hc) (by intro h d t; unfold layout; simp only [hp]; exact hne _ _) h' u c hl
        rw [← hr]
        exact ⟨x, hx, h1, h2, h3⟩

/-- Two variants without common ticks: the first one has the better rate, but the second one has the better layout and is chosen. -/
example : (∀ c l, (exCfg none).ratelayout c = some l → 0 ≤ l) ∧ (([((0 : ℚ), [1, 2]), (1, [3, 4])] : List (ℚ × List Nat)).map Prod.snd).Pairwise List.Disjoint ∧
    total (exCfg none) exHeap ⟨some 0, some 8⟩ (0, [1, 2]) = some 10 ∧ total (exCfg none) exHeap ⟨some 0, some 8⟩ (1, [3, 4]) = some 1 ∧
    (create (exCfg none) 3 none exHeap ⟨some 0, some 8⟩ (.variants [(0, [1, 2]), (1, [3, 4])])).map (fun r => r.map Made.ticks) = some (some [3, 4]) := by
  refine ⟨?_, by simp [List.Disjoint], by decide +kernel, by decide +kernel, by decide +kernel⟩
  intro c l h
  simp only [exCfg] at h
  split_ifs at h <;> rw [← Option.some.inj h] <;> norm_num

end PyX.Axis.Create
