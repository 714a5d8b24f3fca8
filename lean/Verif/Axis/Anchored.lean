import Verif.Axis.Props
import Verif.Graph.GraphXY

/-!
# C117: anchored and linked axes

`anchoredaxis` and `linkedaxis` (`pyx/graph/axis/axis.py:580-717`), the axes of `graphxy` made from its arguments (`pyx/graph/graph.py:341-376`).
-/

set_option linter.unusedSectionVars false

namespace PyX.Axis.Anchored

/-! ## Model -/

/-- Axes are numbered in the order of their construction; a linked axis is linked to an axis made before (`axis.py:671, 688-696`). -/
structure Net where
  link : (i : Nat) → Option (Fin i)

/-- The axis whose `axis` and `data` an axis has: `self.data = linkedaxis.data` (`axis.py:694`). -/
def Net.root (N : Net) (i : Nat) : Nat :=
  match N.link i with
  | none => i
  | some j => N.root j
termination_by i

/-- `data` of the axes which are not linked, and `canvas` of all axes: the data it was painted for. -/
structure State (D : Type) where
  data : Nat → D
  canvas : Nat → Option D

variable {D Col X V : Type}

/-- The axis objects: `axis.adjustaxis`, `axis.create` (the data afterwards; `none` for an exception) and `axis.convert`. -/
structure Axes (D Col X V : Type) where
  adjust : Nat → D → Col → D
  make : Nat → D → Option D
  convert : Nat → D → X → V

variable (N : Net) (A : Axes D Col X V)

/-- `create` (`axis.py:655-659` and, for linked axes, `axis.py:701-707`). -/
def create (i : Nat) (s : State D) : Option (State D) :=
  if (s.canvas i).isSome then some s
  else match N.link i with
    | none => (A.make i (s.data i)).map fun d => ⟨Function.update s.data i d, Function.update s.canvas i (some d)⟩
    | some j => (create j s).map fun s' => { s' with canvas := Function.update s'.canvas i (some (s'.data (N.root i))) }
termination_by i

/-- `adjustaxis` (`axis.py:607-611`). -/
def adjust (i : Nat) (c : Col) (s : State D) : State D :=
  if (s.canvas i).isSome then s
  else { s with data := Function.update s.data (N.root i) (A.adjust (N.root i) (s.data (N.root i)) c) }

/-- `convert` (`axis.py:603-605`), the value. -/
def convert (i : Nat) (x : X) (s : State D) : V := A.convert (N.root i) (s.data (N.root i)) x

/-- What is done with axes. Conversions create the axis first (`axis.py:604`). -/
inductive Op (Col : Type) where
  | adjust (i : Nat) (c : Col)
  | create (i : Nat)

def step (s : State D) : Op Col → Option (State D)
  | .adjust i c => some (adjust N A i c s)
  | .create i => create N A i s

def run (ops : List (Op Col)) (s : State D) : Option (State D) := ops.foldlM (step N A) s

/-! ## Specification -/

/-- Everything is given to the root: columns for the axes with the same root, in order. -/
def columns (r : Nat) (ops : List (Op Col)) : List Col := ops.filterMap fun
  | .adjust i c => if N.root i = r then some c else none
  | .create _ => none

def Creates (r : Nat) (ops : List (Op Col)) : Prop := ∃ i, N.root i = r ∧ Op.create i ∈ ops

/-- The state of all axes with the root `r` before and after creation. -/
def Before (r : Nat) (d : D) (s : State D) : Prop := s.data r = d ∧ ∀ i, N.root i = r → s.canvas i = none

def After (r : Nat) (d : D) (s : State D) : Prop := s.data r = d ∧ s.canvas r = some d ∧ ∀ i, N.root i = r → s.canvas i = none ∨ s.canvas i = some d

/-! ## Proofs -/

theorem root_none {i : Nat} (h : N.link i = none) : N.root i = i := by
  rw [Net.root, h]

theorem root_some {i : Nat} {j : Fin i} (h : N.link i = some j) : N.root i = N.root j := by
  rw [Net.root, h]

theorem link_root (i : Nat) : N.link (N.root i) = none ∧ N.root (N.root i) = N.root i := by
  induction i using Nat.strong_induction_on with
  | _ i ih =>
    cases h : N.link i with
    | none => rw [root_none N h]; exact ⟨h, root_none N h⟩
    | some j => rw [root_some N h]; exact ih j j.2

/-- An axis and everything of another root is not changed. -/
theorem create_other (i : Nat) (s s' : State D) (h : create N A i s = some s') (r : Nat) (hr : N.root i ≠ r) :
    s'.data r = s.data r ∧ ∀ k, N.root k = r → s'.canvas k = s.canvas k := by
  induction i using Nat.strong_induction_on generalizing s' with
  | _ i ih =>
    rw [create.eq_def] at h
    by_cases hc : (s.canvas i).isSome
    · rw [if_pos hc] at h
      obtain rfl := Option.some.inj h
      exact ⟨rfl, fun _ _ => rfl⟩
    · rw [if_neg hc] at h
      cases hl : N.link i with
      | none =>
        rw [hl] at h
        rw [root_none N hl] at hr
        simp only [Option.map_eq_some_iff] at h
        obtain ⟨d, -, rfl⟩ := h
        refine ⟨Function.update_of_ne hr.symm _ _, ?_⟩
        intro k hk
        refine Function.update_of_ne ?_ _ _
        rintro rfl
        rw [root_none N hl] at hk
        exact hr hk
      | some j =>
        rw [hl] at h
        simp only [Option.map_eq_some_iff] at h
        obtain ⟨t, ht, rfl⟩ := h
        obtain ⟨h1, h2⟩ := ih j j.2 t ht (by rw [← root_some N hl]; exact hr)
        refine ⟨h1, ?_⟩
        intro k hk
        rw [← h2 k hk]
        refine Function.update_of_ne ?_ _ _
        rintro rfl
        exact hr hk

theorem create_after (i : Nat) (s s' : State D) (h : create N A i s = some s') (d : D) (ha : After N (N.root i) d s) :
    After N (N.root i) d s' ∧ s'.canvas i = some d := by
  induction i using Nat.strong_induction_on generalizing s' with
  | _ i ih =>
    rw [create.eq_def] at h
    by_cases hc : (s.canvas i).isSome
    · rw [if_pos hc] at h
      obtain rfl := Option.some.inj h
      refine ⟨ha, ?_⟩
      rcases ha.2.2 i rfl with h1 | h1
      · rw [h1] at hc; simp at hc
      · exact h1
    · rw [if_neg hc] at h
      cases hl : N.link i with
      | none =>
        rw [root_none N hl] at ha
        rw [ha.2.1] at hc
        simp at hc
      | some j =>
        rw [hl] at h
        simp only [Option.map_eq_some_iff] at h
        obtain ⟨t, ht, rfl⟩ := h
        have hroot := root_some N hl
        obtain ⟨⟨h1, h2, h3⟩, -⟩ := ih j j.2 t ht (by rw [← hroot]; exact ha)
        rw [← hroot] at h1 h2 h3
        have hne : N.root i ≠ i := by
          intro e
          have := (link_root N i).1
          rw [e, hl] at this
          simp at this
        refine ⟨⟨h1, ?_, ?_⟩, ?_⟩
        · simp only
          rw [Function.update_of_ne hne]; exact h2
        · intro k hk
          simp only
          by_cases hki : k = i
          · subst hki
            right
            rw [Function.update_self, h1]
          · rw [Function.update_of_ne hki]
            exact h3 k hk
        · simp only
          rw [Function.update_self, h1]

theorem create_before (i : Nat) (s s' : State D) (h : create N A i s = some s') (d : D) (hb : Before N (N.root i) d s) :
    ∃ d', A.make (N.root i) d = some d' ∧ After N (N.root i) d' s' ∧ s'.canvas i = some d' := by
  induction i using Nat.strong_induction_on generalizing s' with
  | _ i ih =>
    rw [create.eq_def] at h
    rw [if_neg (by rw [hb.2 i rfl]; simp)] at h
    cases hl : N.link i with
    | none =>
      rw [hl] at h
      have hri := root_none N hl
      rw [hri] at hb ⊢
      simp only [Option.map_eq_some_iff] at h
      obtain ⟨d', hd, rfl⟩ := h
      rw [hb.1] at hd
      refine ⟨d', hd, ⟨?_, ?_, ?_⟩, ?_⟩
      · simp
      · simp
      · intro k hk
        simp only
        by_cases hki : k = i
        · subst hki; right; simp
        · rw [Function.update_of_ne hki]
          exact Or.inl (hb.2 k hk)
      · simp
    | some j =>
      rw [hl] at h
      simp only [Option.map_eq_some_iff] at h
      obtain ⟨t, ht, rfl⟩ := h
      have hroot := root_some N hl
      obtain ⟨d', hd, ⟨h1, h2, h3⟩, -⟩ := ih j j.2 t ht (by rw [← hroot]; exact hb)
      rw [← hroot] at hd h1 h2 h3
      have hne : N.root i ≠ i := by
        intro e
        have := (link_root N i).1
        rw [e, hl] at this
        simp at this
      refine ⟨d', hd, ⟨h1, ?_, ?_⟩, ?_⟩
      · simp only
        rw [Function.update_of_ne hne]; exact h2
      · intro k hk
        simp only
        by_cases hki : k = i
        · subst hki
          right
          rw [Function.update_self, h1]
        · rw [Function.update_of_ne hki]
          exact h3 k hk
      · simp only
        rw [Function.update_self, h1]

theorem adjust_other (i : Nat) (c : Col) (s : State D) (r : Nat) (hr : N.root i ≠ r) :
    (adjust N A i c s).data r = s.data r ∧ (adjust N A i c s).canvas = s.canvas := by
  unfold adjust
  split
  · exact ⟨rfl, rfl⟩
  · exact ⟨Function.update_of_ne hr.symm _ _, rfl⟩

theorem adjust_before (i : Nat) (c : Col) (s : State D) (d : D) (hb : Before N (N.root i) d s) : Before N (N.root i) (A.adjust (N.root i) d c) (adjust N A i c s) := by
  unfold adjust
  rw [if_neg (by rw [hb.2 i rfl]; simp)]
  refine ⟨?_, hb.2⟩
  simp [hb.1]

/-- Columns are collected, whichever of the linked axes they are given to. -/
theorem run_before (r : Nat) (ops : List (Op Col)) (hc : ¬ Creates N r ops) (s s' : State D) (h : run N A ops s = some s') (d : D) (hb : Before N r d s) :
    Before N r ((columns N r ops).foldl (A.adjust r) d) s' := by
  induction ops generalizing s d with
  | nil =>
    simp only [run, List.foldlM_nil] at h
    obtain rfl := Option.some.inj h
    exact hb
  | cons op ops ih =>
    have hc' : ¬ Creates N r ops := fun ⟨i, h1, h2⟩ => hc ⟨i, h1, List.mem_cons_of_mem _ h2⟩
    cases op with
    | adjust i c =>
      have hrun : run N A ops (adjust N A i c s) = some s' := h
      by_cases hr : N.root i = r
      · have e : columns N r (.adjust i c :: ops) = c :: columns N r ops := by simp [columns, hr]
        rw [e, List.foldl_cons]
        subst hr
        exact ih hc' _ hrun _ (adjust_before N A i c s d hb)
      · have e : columns N r (.adjust i c :: ops) = columns N r ops := by simp [columns, hr]
        rw [e]
        obtain ⟨h1, h2⟩ := adjust_other N A i c s r hr
        exact ih hc' _ hrun _ ⟨h1.trans hb.1, fun k hk => by rw [h2]; exact hb.2 k hk⟩
    | create i =>
      have e : columns N r (.create i :: ops) = columns N r ops := by simp [columns]
      rw [e]
      have hr : N.root i ≠ r := fun h => hc ⟨i, h, List.mem_cons_self ..⟩
      have hrun : (create N A i s).bind (run N A ops) = some s' := h
      rw [Option.bind_eq_some_iff] at hrun
      obtain ⟨t, ht, hrun⟩ := hrun
      obtain ⟨h1, h2⟩ := create_other N A i s t ht r hr
      exact ih hc' _ hrun _ ⟨h1.trans hb.1, fun k hk => by rw [h2 k hk]; exact hb.2 k hk⟩

theorem run_after (r : Nat) (hrr : N.root r = r) (ops : List (Op Col)) (hc : columns N r ops = []) (s s' : State D) (h : run N A ops s = some s') (d : D) (ha : After N r d s) :
    After N r d s' := by
  induction ops generalizing s with
  | nil =>
    simp only [run, List.foldlM_nil] at h
    obtain rfl := Option.some.inj h
    exact ha
  | cons op ops ih =>
    cases op with
    | adjust i c =>
      have hrun : run N A ops (adjust N A i c s) = some s' := h
      by_cases hr : N.root i = r
      · simp [columns, hr] at hc
      · have e : columns N r (.adjust i c :: ops) = columns N r ops := by simp [columns, hr]
        rw [e] at hc
        obtain ⟨h1, h2⟩ := adjust_other N A i c s r hr
        exact ih hc _ hrun ⟨h1.trans ha.1, by rw [h2]; exact ha.2.1, fun k hk => by rw [h2]; exact ha.2.2 k hk⟩
    | create i =>
      have e : columns N r (.create i :: ops) = columns N r ops := by simp [columns]
      rw [e] at hc
      have hrun : (create N A i s).bind (run N A ops) = some s' := h
      rw [Option.bind_eq_some_iff] at hrun
      obtain ⟨t, ht, hrun⟩ := hrun
      by_cases hr : N.root i = r
      · subst hr
        exact ih hc _ hrun (create_after N A i s t ht d ha).1
      · obtain ⟨h1, h2⟩ := create_other N A i s t ht r hr
        exact ih hc _ hrun ⟨h1.trans ha.1, by rw [h2 r hrr]; exact ha.2.1, fun k hk => by rw [h2 k hk]; exact ha.2.2 k hk⟩

/-- A canvas is never changed. -/
theorem create_keeps (i : Nat) (s s' : State D) (h : create N A i s = some s') (k : Nat) (d : D) (hk : s.canvas k = some d) : s'.canvas k = some d := by
  induction i using Nat.strong_induction_on generalizing s' with
  | _ i ih =>
    rw [create.eq_def] at h
    by_cases hc : (s.canvas i).isSome
    · rw [if_pos hc] at h
      obtain rfl := Option.some.inj h
      exact hk
    · rw [if_neg hc] at h
      have hne : k ≠ i := by
        rintro rfl
        rw [hk] at hc
        simp at hc
      cases hl : N.link i with
      | none =>
        rw [hl] at h
        simp only [Option.map_eq_some_iff] at h
        obtain ⟨d', -, rfl⟩ := h
        exact (Function.update_of_ne hne _ _).trans hk
      | some j =>
        rw [hl] at h
        simp only [Option.map_eq_some_iff] at h
        obtain ⟨t, ht, rfl⟩ := h
        exact (Function.update_of_ne hne _ _).trans (ih j j.2 t ht)

theorem run_keeps (ops : List (Op Col)) (s s' : State D) (h : run N A ops s = some s') (k : Nat) (d : D) (hk : s.canvas k = some d) : s'.canvas k = some d := by
  induction ops generalizing s with
  | nil =>
    simp only [run, List.foldlM_nil] at h
    obtain rfl := Option.some.inj h
    exact hk
  | cons op ops ih =>
    cases op with
    | adjust i c =>
      have hrun : run N A ops (adjust N A i c s) = some s' := h
      refine ih _ hrun ?_
      unfold adjust
      split <;> exact hk
    | create i =>
      have hrun : (create N A i s).bind (run N A ops) = some s' := h
      rw [Option.bind_eq_some_iff] at hrun
      obtain ⟨t, ht, hrun⟩ := hrun
      exact ih _ hrun (create_keeps N A i s t ht k d hk)

theorem run_created (r : Nat) (hrr : N.root r = r) (ops : List (Op Col)) (hc : columns N r ops = []) (s s' : State D) (h : run N A ops s = some s') (d : D) (hb : Before N r d s) :
    (¬ Creates N r ops → Before N r d s') ∧ (Creates N r ops → ∃ d', A.make r d = some d' ∧ After N r d' s' ∧ ∀ i, N.root i = r → Op.create i ∈ ops → s'.canvas i = some d') := by
  constructor
  · intro hn
    have := run_before N A r ops hn s s' h d hb
    rw [hc] at this
    exact this
  · intro hn
    induction ops generalizing s with
    | nil => obtain ⟨i, -, h2⟩ := hn; simp at h2
    | cons op ops ih =>
      cases op with
      | adjust i c =>
        have hrun : run N A ops (adjust N A i c s) = some s' := h
        by_cases hr : N.root i = r
        · simp [columns, hr] at hc
        · have e : columns N r (.adjust i c :: ops) = columns N r ops := by simp [columns, hr]
          rw [e] at hc
          obtain ⟨h1, h2⟩ := adjust_other N A i c s r hr
          obtain ⟨d', g1, g2, g3⟩ := ih hc _ hrun ⟨h1.trans hb.1, fun k hk => by rw [h2]; exact hb.2 k hk⟩ (by
            obtain ⟨k, k1, k2⟩ := hn
            exact ⟨k, k1, by simpa using k2⟩)
          refine ⟨d', g1, g2, ?_⟩
          intro k hk hm
          exact g3 k hk (by simpa using hm)
      | create i =>
        have e : columns N r (.create i :: ops) = columns N r ops := by simp [columns]
        rw [e] at hc
        have hrun : (create N A i s).bind (run N A ops) = some s' := h
        rw [Option.bind_eq_some_iff] at hrun
        obtain ⟨t, ht, hrun⟩ := hrun
        by_cases hr : N.root i = r
        · subst hr
          obtain ⟨d', g1, g2, g3⟩ := create_before N A i s t ht d hb
          refine ⟨d', g1, run_after N A _ hrr ops hc t s' hrun d' g2, ?_⟩
          intro k hk hm
          rcases List.mem_cons.1 hm with hm | hm
          · cases hm
            exact run_keeps N A ops t s' hrun i d' g3
          · exact later ops hc t hrun d' g2 k hk hm
        · obtain ⟨h1, h2⟩ := create_other N A i s t ht r hr
          obtain ⟨d', g1, g2, g3⟩ := ih hc _ hrun ⟨h1.trans hb.1, fun k hk => by rw [h2 k hk]; exact hb.2 k hk⟩ (by
            obtain ⟨k, k1, k2⟩ := hn
            refine ⟨k, k1, ?_⟩
            rcases List.mem_cons.1 k2 with k2 | k2
            · cases k2; exact absurd k1 hr
            · exact k2)
          refine ⟨d', g1, g2, ?_⟩
          intro k hk hm
          rcases List.mem_cons.1 hm with hm | hm
          · cases hm; exact absurd hk hr
          · exact g3 k hk hm
where
  later {r : Nat} {s' : State D} (ops : List (Op Col)) (hc : columns N r ops = []) (s : State D) (h : run N A ops s = some s') (d : D) (ha : After N r d s) (k : Nat) (hk : N.root k = r)
      (hm : Op.create k ∈ ops) : s'.canvas k = some d := by
    induction ops generalizing s with
    | nil => simp at hm
    | cons op ops ih =>
      have hrr : N.root r = r := by rw [← hk]; exact (link_root N k).2
      cases op with
      | adjust i c =>
        have hrun : run N A ops (adjust N A i c s) = some s' := h
        by_cases hr : N.root i = r
        · simp [columns, hr] at hc
        · have e : columns N r (.adjust i c :: ops) = columns N r ops := by simp [columns, hr]
          rw [e] at hc
          obtain ⟨h1, h2⟩ := adjust_other N A i c s r hr
          exact ih hc _ hrun ⟨h1.trans ha.1, by rw [h2]; exact ha.2.1, fun k hk => by rw [h2]; exact ha.2.2 k hk⟩ (by simpa using hm)
      | create i =>
        have e : columns N r (.create i :: ops) = columns N r ops := by simp [columns]
        rw [e] at hc
        have hrun : (create N A i s).bind (run N A ops) = some s' := h
        rw [Option.bind_eq_some_iff] at hrun
        obtain ⟨t, ht, hrun⟩ := hrun
        rcases List.mem_cons.1 hm with hm | hm
        · cases hm
          subst hk
          exact run_keeps N A ops t s' hrun k d (create_after N A k s t ht d ha).2
        · by_cases hr : N.root i = r
          · subst hr
            exact ih hc _ hrun (create_after N A i s t ht d ha).1 hm
          · obtain ⟨h1, h2⟩ := create_other N A i s t ht r hr
            exact ih hc _ hrun ⟨h1.trans ha.1, by rw [h2 r hrr]; exact ha.2.1, fun k hk => by rw [h2 k hk]; exact ha.2.2 k hk⟩ hm

/-- **C117.** Let all columns for the axes linked to the same axis be given before any of them is created. Whichever of the axes the columns were given to, and whichever
axes are created and in whatever order, there is one range for all of them, made from all columns; all axes are painted for this range, and all conversions
at all times after creation are those of this range. -/
theorem linked_agree_partial (r : Nat) (hrr : N.root r = r) (pre post : List (Op Col)) (hpre : ¬ Creates N r pre) (hpost : columns N r post = []) (hcr : Creates N r post)
    (s s' : State D) (d : D) (hb : Before N r d s) (h : run N A (pre ++ post) s = some s') :
    ∃ d', A.make r ((columns N r pre).foldl (A.adjust r) d) = some d' ∧
      (∀ i, N.root i = r → Op.create i ∈ post → s'.canvas i = some d') ∧
      (∀ i, N.root i = r → s'.canvas i = none ∨ s'.canvas i = some d') ∧
      (∀ i, N.root i = r → ∀ x, convert N A i x s' = A.convert r d' x) := by
  have hs : (run N A pre s).bind (run N A post) = some s' := by
    rw [← h]
    show _ = List.foldlM (step N A) s (pre ++ post)
    rw [List.foldlM_append]
    rfl
  rw [Option.bind_eq_some_iff] at hs
  obtain ⟨t, h1, h2⟩ := hs
  obtain ⟨d', g1, g2, g3⟩ := (run_created N A r hrr post hpost t s' h2 _ (run_before N A r pre hpre s t h1 d hb)).2 hcr
  refine ⟨d', g1, g3, g2.2.2, ?_⟩
  intro i hi x
  unfold convert
  rw [hi, g2.1]

/-! ### Regular axes: the order does not matter -/

section regular

variable {K : Type} [Field K] [LinearOrder K] [IsStrictOrderedRing K]

/-- For regular axes the range before creation is that of all numbers in the columns, whatever the order of columns and the axes they were given to. -/
theorem linked_order (a : Nat → Reg K) (make : Nat → Data K → Option (Data K)) (conv : Nat → Data K → X → V) (r : Nat) (ops ops' : List (Op (List (Option K))))
    (hp : (columns N r ops).flatten.Perm (columns N r ops').flatten) (hc : ¬ Creates N r ops) (hc' : ¬ Creates N r ops') (s t t' : State (Data K))
    (hb : Before N r (createdata (a r)) s)
    (h : run N ⟨fun i => adjustaxis (a i), make, conv⟩ ops s = some t) (h' : run N ⟨fun i => adjustaxis (a i), make, conv⟩ ops' s = some t') :
    t.data r = t'.data r ∧ Inv (a r) (t.data r) (numbers (columns N r ops)) := by
  have e := (run_before N _ r ops hc s t h _ hb).1
  have e' := (run_before N _ r ops' hc' s t' h' _ hb).1
  constructor
  · rw [e, e']
    exact history_perm (a r) _ _ hp
  · rw [e]
    exact history_range (a r) _

end regular

/-! ## Findings -/

/-- An axis and one linked to it. -/
def exNet : Net := ⟨fun i => match i with
  | 0 => none
  | 1 => some ⟨0, Nat.one_pos⟩
  | _ + 2 => none⟩

/-- Creation leaves the range as it is. -/
def exAxes : Axes (Data ℚ) (List (Option ℚ)) ℚ (Option ℚ) :=
  ⟨fun _ => adjustaxis ⟨none, none, false⟩, fun _ d => if d.min.isSome then some d else none, fun _ d x => match d.min, d.max with
    | some a, some b => some (Axis.convert false a b x)
    | _, _ => none⟩

def exState : State (Data ℚ) := ⟨fun _ => ⟨none, none⟩, fun _ => none⟩

/-- The hypotheses of the theorem hold. -/
example : exNet.root 0 = 0 ∧ exNet.root 1 = 0 ∧ ¬ Creates exNet 0 [Op.adjust 1 [some (1 : ℚ)], .adjust 0 [some 3]] ∧ Before exNet 0 ⟨none, none⟩ exState ∧
    (run exNet exAxes ([.adjust 1 [some 1], .adjust 0 [some 3]] ++ [.create 1]) exState).map (convert exNet exAxes 0 2) = some (some (1 / 2)) := by
  have h0 : exNet.root 0 = 0 := root_none _ rfl
  have h1 : exNet.root 1 = 0 := (root_some _ (j := ⟨0, Nat.one_pos⟩) rfl).trans h0
  refine ⟨h0, h1, ?_, ⟨rfl, fun _ _ => rfl⟩, by decide +kernel⟩
  rintro ⟨i, -, hi⟩
  simp at hi

/-- **Finding** (`axis.py:607-611, 694`): a column given to a linked axis (for example by plotting into a second graph) after the axis it is linked to has been
created, but before the linked axis itself is created, changes the range of the axis, without a warning: the first axis has been painted for the range from 1 to 3,
but the value 3 is now converted to 2/7. -/
theorem linked_adjust :
    ((run exNet exAxes [.adjust 0 [some 1, some 3], .create 0] exState).map fun s => (convert exNet exAxes 0 3 s, (s.canvas 0).map fun d => (d.min, d.max))) =
      some (some 1, some (some 1, some 3)) ∧
    ((run exNet exAxes [.adjust 0 [some 1, some 3], .create 0, .adjust 1 [some 8]] exState).map fun s => (convert exNet exAxes 0 3 s, (s.canvas 0).map fun d => (d.min, d.max))) =
      some (some (2 / 7), some (some 1, some 3)) := by
  constructor <;> decide +kernel

/-! ### Positions by graphs -/

section positions

variable {K : Type} [Field K] [LinearOrder K] [IsStrictOrderedRing K]

/-- `anchoredaxis.tickpoint` for a linear axis (`axis.py:649-652`). -/
def tickpoint (l : PyX.Graph.XY.LinePos K) (rev : Bool) (mn mx x : K) : K × K := l.tickpoint (Axis.convert rev mn mx x)

/-- `xvtickpoint` of a graph: `self.xvtickpoint = self.axes["x"].tickpoint` (`graph.py:385`). -/
def xvtickpoint (l : PyX.Graph.XY.LinePos K) (rev : Bool) (mn mx v : K) : K × K := tickpoint l rev mn mx v

/-- **Finding** (`graph.py:385, 852`): `xvtickpoint` takes its argument as a value on the axis instead of a graph coordinate; it is right only for axes from 0 to 1. -/
theorem xvtickpoint_wrong (l : PyX.Graph.XY.LinePos K) (hl : l.p1 ≠ l.p2) (mn mx : K) (h : mn < mx) :
    (∀ v, xvtickpoint l false mn mx v = l.tickpoint v) ↔ mn = 0 ∧ mx = 1 := by
  have inj : ∀ u v : K, l.tickpoint u = l.tickpoint v → u = v := by
    intro u v e
    by_contra hne
    apply hl
    simp only [PyX.Graph.XY.LinePos.tickpoint, Prod.mk.injEq] at e
    have hd : u - v ≠ 0 := sub_ne_zero.2 hne
    refine Prod.ext ?_ ?_
    · have : (u - v) * (l.p1.1 - l.p2.1) = 0 := by linear_combination -e.1
      exact sub_eq_zero.1 ((mul_eq_zero.1 this).resolve_left hd)
    · have : (u - v) * (l.p1.2 - l.p2.2) = 0 := by linear_combination -e.2
      exact sub_eq_zero.1 ((mul_eq_zero.1 this).resolve_left hd)
  have hne : mx - mn ≠ 0 := (sub_pos.2 h).ne'
  constructor
  · intro hv
    have h0 := inj _ _ (hv mn)
    have h1 := inj _ _ (hv mx)
    simp only [Axis.convert, Bool.false_eq_true, if_false, sub_self, zero_div] at h0
    simp only [Axis.convert, Bool.false_eq_true, if_false, div_self hne] at h1
    exact ⟨h0.symm, h1.symm⟩
  · rintro ⟨rfl, rfl⟩ v
    simp [xvtickpoint, tickpoint, Axis.convert]

end positions

/-! ## The axes of a graph -/

/-- What a graph has under a name. -/
inductive Slot (α : Type) where
  | absent
  | own (a : α)
  | linked
deriving DecidableEq

/-- Default axes (`graph.py:341-346`). -/
def withDefault {α : Type} (default : α) (x x2 : Option (Option α)) : Option (Option α) :=
  match x, x2 with
  | none, none => some (some default)
  | none, some none => some (some default)
  | none, some (some _) => none
  | some x, _ => some x

/-- Anchored axes (`graph.py:358-363`). -/
def slot {α : Type} : Option (Option α) → Slot α
  | some (some a) => .own a
  | _ => .absent

/-- Linked axes (`graph.py:366-372`). -/
def link {α : Type} (axisat : Bool) : Option (Option α) → Option (Option α) → Option (Slot α × Slot α)
  | none, x2 => some (.linked, slot x2)
  | some x, none => if axisat then some (slot (some x), .absent) else x.map fun a => (.own a, .linked)
  | some x, some x2 => some (slot (some x), slot (some x2))

/-- The axes `x` and `x2` (or `y` and `y2`) of a graph (`graph.py:341-376`). An argument is missing (`none`), `None` (`some none`) or an axis; `axisat` is whether `xaxisat` is given. `none` is
a `KeyError`. Arguments `x_...` for the axes and linked axes as arguments are left out. -/
def setup {α : Type} (default : α) (axisat : Bool) (x x2 : Option (Option α)) : Option (Slot α × Slot α) := link axisat (withDefault default x x2) x2

/-- An axis given by the user is used as it is, `None` means no axis. An axis which is not given is linked to the other one of the pair if the user gave that one, or
if it is the second one (unless the axis is moved inside of the graph); otherwise it is a linear axis. Two axes are never linked to each other. -/
theorem setup_spec {α : Type} (default : α) (axisat : Bool) (x x2 : Option (Option α)) (r : Slot α × Slot α) (h : setup default axisat x x2 = some r) :
    (∀ a, x = some (some a) → r.1 = .own a) ∧ (x = some none → r.1 = .absent) ∧
    (x = none → r.1 = match x2 with
      | some (some _) => .linked
      | _ => .own default) ∧
    (∀ a, x2 = some (some a) → r.2 = .own a) ∧ (x2 = some none → r.2 = .absent) ∧
    (x2 = none → r.2 = if axisat then .absent else .linked) ∧
    (r.1 = .linked → ∃ a, r.2 = .own a) ∧ (r.2 = .linked → ∃ a, r.1 = .own a) := by
  rcases x with _ | _ | a <;> rcases x2 with _ | _ | b <;> cases axisat <;> simp [setup, link, withDefault, slot] at h <;> subst h <;> simp

/-- **Finding** (`graph.py:371-372`): a graph without first axis cannot be made just by `x=None`; a `KeyError` is raised unless `x2` or `xaxisat` is given. -/
theorem setup_raises {α : Type} (default : α) (axisat : Bool) (x x2 : Option (Option α)) :
    setup default axisat x x2 = none ↔ x = some none ∧ x2 = none ∧ axisat = false := by
  rcases x with _ | _ | a <;> rcases x2 with _ | _ | b <;> cases axisat <;> simp [setup, link, withDefault, slot]

example : setup 0 false (none : Option (Option Nat)) (some (some 5)) = some (.linked, .own 5) := by decide

end PyX.Axis.Anchored
