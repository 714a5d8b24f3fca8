import Verif.Graph.Steps
import Mathlib.Data.List.Count
import Mathlib.Order.Basic
import Mathlib.Data.Nat.Init
import Mathlib.Order.Nat

/-!
# C110: a graph does everything once, and in the right order
-/

set_option linter.unusedSectionVars false

namespace PyX.Graph.Steps

variable (axes : List Axis) (title : Nat → Bool)

/-! ## Specification -/

/-- What must and must not have been done (`l`) before something is done. -/
def Pre (l : List Act) : Act → Prop
  | .static _ => (∀ j, .makedynamic j ∉ l) ∧ (∀ j, .adjustdynamic j ∉ l) ∧ ∀ a, .position a ∉ l
  | .makedynamic _ => True
  | .adjustdynamic i => .makedynamic i ∈ l ∧ .static i ∈ l ∧ ∀ a, .position a ∉ l
  | .position a => 3 ≤ a.2 → .create (a.1, a.2 - 2) ∈ l
  | .create a => .position a ∈ l
  | .background => True
  | .insertaxes => (∀ a ∈ axes, .create a ∈ l) ∧ .background ∈ l
  | .select _ => (∀ a ∈ axes, .create a ∈ l) ∧ .background ∈ l ∧ ∀ j, .draw j ∉ l
  | .draw i => .select i ∈ l
  | .keyitem i => .select i ∈ l ∧ title i = true
  | .paintkey => .background ∈ l
  | .output => True

def Good : List Act → Prop
  | [] => True
  | a :: l => Pre axes title l a ∧ Good l

/-! ## The invariant -/

/-- The calls which must have been made for something to be done, the one doing it first. -/
def req : Act → List Call
  | .static _ => [.ranges]
  | .makedynamic _ => [.ranges]
  | .adjustdynamic _ => [.ranges]
  | .position a => [.positioner a, .ranges]
  | .create a => [.create a]
  | .background => [.background]
  | .insertaxes => [.axes]
  | .select _ => [.styles]
  | .draw i => [.plotitem i, .styles]
  | .keyitem i => [.keyitem i]
  | .paintkey => [.key]
  | .output => []

def itemOf : Act → Option Nat
  | .static i => some i
  | .makedynamic i => some i
  | .adjustdynamic i => some i
  | .select i => some i
  | .draw i => some i
  | .keyitem i => some i
  | _ => none

/-- What a finished call has achieved. -/
def Done (s : State) : Call → Prop
  | .ranges => (∃ k, s.didranges = some k ∧ ∀ i, i < k → .static i ∈ s.log ∧ .adjustdynamic i ∈ s.log) ∧ ∀ i, i < s.count → .makedynamic i ∈ s.log
  | .positioner a => .position a ∈ s.log
  | .create a => .create a ∈ s.log
  | .layout => ∀ a ∈ axes, .create a ∈ s.log
  | .background => .background ∈ s.log
  | .axes => .insertaxes ∈ s.log
  | .styles => s.didstyles = some s.count ∧ ∀ i, i < s.count → .select i ∈ s.log
  | .plotitem i => .draw i ∈ s.log
  | .keyitem i => title i = true → .keyitem i ∈ s.log
  | .key => .paintkey ∈ s.log

/-- The invariant while the calls `P` are in progress. -/
structure Inv (P : List Call) (s : State) : Prop where
  once : ∀ a, a ≠ .output → s.log.count a ≤ 1
  called : ∀ a ∈ s.log, ∀ c ∈ req a, c ∈ s.calls ∧ (c ∈ P → (req a).head? = some c)
  good : Good axes title s.log
  done : ∀ c ∈ s.calls, c ∉ P → Done axes title s c
  items : ∀ a ∈ s.log, ∀ i, itemOf a = some i → i < s.count
  ranged : ∀ k, s.didranges = some k → k ≤ s.count ∧ .ranges ∈ s.calls
  styled : ∀ k, s.didstyles = some k → .styles ∈ s.calls

/-- What calls do to the state; `A` is the call in progress itself. -/
structure Ext (A : List Call) (s s' : State) : Prop where
  calls : ∀ c ∈ s.calls, c ∈ s'.calls
  log : ∃ new, s'.log = new ++ s.log ∧ ∀ a ∈ new, ∃ c, (req a).head? = some c ∧ (c ∉ s.calls ∨ c ∈ A)
  count : s'.count = s.count
  ranges : ∀ k, s.didranges = some k → s'.didranges = some k
  styles : ∀ k, s.didstyles = some k → s'.didstyles = some k

theorem Ext.refl (A : List Call) (s : State) : Ext A s s := ⟨fun _ h => h, ⟨[], by simp, by simp⟩, rfl, fun _ h => h, fun _ h => h⟩

theorem Ext.mem {A : List Call} {s s' : State} (h : Ext A s s') {a : Act} (ha : a ∈ s.log) : a ∈ s'.log := by
  obtain ⟨new, e, -⟩ := h.log
  rw [e]; simp [ha]

theorem Ext.trans {A : List Call} {s s' s'' : State} (h : Ext A s s') (h' : Ext A s' s'') : Ext A s s'' := by
  refine ⟨fun c hc => h'.calls c (h.calls c hc), ?_, h'.count.trans h.count, fun k hk => h'.ranges k (h.ranges k hk), fun k hk => h'.styles k (h.styles k hk)⟩
  obtain ⟨n1, e1, f1⟩ := h.log
  obtain ⟨n2, e2, f2⟩ := h'.log
  refine ⟨n2 ++ n1, by rw [e2, e1]; simp, fun a ha => ?_⟩
  rcases List.mem_append.mp ha with ha | ha
  · obtain ⟨c, hc, hd⟩ := f2 a ha
    refine ⟨c, hc, hd.imp (fun hn hc => hn (h.calls c hc)) id⟩
  · exact f1 a ha

theorem Ext.weaken {A : List Call} {s s' : State} (h : Ext [] s s') : Ext A s s' := by
  refine ⟨h.calls, ?_, h.count, h.ranges, h.styles⟩
  obtain ⟨n, e, f⟩ := h.log
  refine ⟨n, e, fun a ha => ?_⟩
  obtain ⟨c, hc, hd⟩ := f a ha
  exact ⟨c, hc, hd.imp id (by simp)⟩

theorem Done.mono {A : List Call} {s s' : State} (h : Ext A s s') (c : Call) (hd : Done axes title s c) : Done axes title s' c := by
  cases c with
  | ranges =>
    obtain ⟨⟨k, h1, h2⟩, h3⟩ := hd
    exact ⟨⟨k, h.ranges k h1, fun i hi => ⟨h.mem (h2 i hi).1, h.mem (h2 i hi).2⟩⟩, fun i hi => h.mem (h3 i (by rw [← h.count]; exact hi))⟩
  | styles =>
    obtain ⟨h1, h2⟩ := hd
    exact ⟨by rw [h.count]; exact h.styles _ h1, fun i hi => h.mem (h2 i (by rw [← h.count]; exact hi))⟩
  | layout => exact fun a ha => h.mem (hd a ha)
  | keyitem i => exact fun ht => h.mem (hd ht)
  | positioner a => exact h.mem hd
  | create a => exact h.mem hd
  | background => exact h.mem hd
  | axes => exact h.mem hd
  | plotitem i => exact h.mem hd
  | key => exact h.mem hd

/-- Doing something. -/
theorem act_inv {P : List Call} {s : State} (h : Inv axes title P s) (a : Act) (hr : ∀ c ∈ req a, c ∈ s.calls ∧ (c ∈ P → (req a).head? = some c)) (hp : Pre axes title s.log a)
    (hn : a = .output ∨ a ∉ s.log) (hi : ∀ i, itemOf a = some i → i < s.count) : Inv axes title P (s.act a) := by
  refine ⟨?_, ?_, ⟨hp, h.good⟩, ?_, ?_, h.ranged, h.styled⟩
  · intro b hb
    simp only [State.act]
    rw [List.count_cons]
    by_cases e : a = b
    · subst e
      have : a ∉ s.log := hn.resolve_left hb
      simp [List.count_eq_zero.mpr this]
    · have := h.once b hb
      simp [e, this]
  · intro b hb c hc
    rcases List.mem_cons.mp hb with rfl | hb
    · exact hr c hc
    · exact h.called b hb c hc
  · intro c hc hP
    have h1 := h.done c hc hP
    cases c with
    | ranges =>
      obtain ⟨⟨k, h1, h2⟩, h3⟩ := h1
      exact ⟨⟨k, h1, fun i hi => ⟨List.mem_cons_of_mem _ (h2 i hi).1, List.mem_cons_of_mem _ (h2 i hi).2⟩⟩, fun i hi => List.mem_cons_of_mem _ (h3 i hi)⟩
    | styles => exact ⟨h1.1, fun i hi => List.mem_cons_of_mem _ (h1.2 i hi)⟩
    | layout => exact fun a ha => List.mem_cons_of_mem _ (h1 a ha)
    | keyitem i => exact fun ht => List.mem_cons_of_mem _ (h1 ht)
    | positioner a => exact List.mem_cons_of_mem _ h1
    | create a => exact List.mem_cons_of_mem _ h1
    | background => exact List.mem_cons_of_mem _ h1
    | axes => exact List.mem_cons_of_mem _ h1
    | plotitem i => exact List.mem_cons_of_mem _ h1
    | key => exact List.mem_cons_of_mem _ h1
  · intro b hb i hb'
    rcases List.mem_cons.mp hb with rfl | hb
    · exact hi i hb'
    · exact h.items b hb i hb'

theorem act_ext (s : State) (a : Act) (c : Call) (hc : (req a).head? = some c) : Ext [c] s (s.act a) :=
  ⟨fun _ h => h, ⟨[a], rfl, fun b hb => by
    obtain rfl := List.mem_singleton.mp hb
    exact ⟨c, hc, Or.inr (by simp)⟩⟩, rfl, fun _ h => h, fun _ h => h⟩

/-- Calls as users of `did` see them. -/
def Spec (P : List Call) (c : Call) (f : State → State) : Prop := ∀ s, Inv axes title P s → Inv axes title P (f s) ∧ Ext [] s (f s) ∧ c ∈ (f s).calls

theorem did_at (P : List Call) (c : Call) (body : State → State) (s : State) (hs : Inv axes title P s)
    (hb : ∀ t, Inv axes title (c :: P) t → c ∈ t.calls → (∀ a ∈ t.log, c ∉ req a) → (c = .ranges → t.didranges = none) → (c = .styles → t.didstyles = none) → t.count = s.count →
      Inv axes title (c :: P) (body t) ∧ Ext [c] t (body t) ∧ Done axes title (body t) c) :
    Inv axes title P (did c body s) ∧ Ext [] s (did c body s) ∧ c ∈ (did c body s).calls := by
  simp only [did]
  by_cases hc : c ∈ s.calls
  · rw [if_pos hc]
    exact ⟨hs, Ext.refl _ _, hc⟩
  · rw [if_neg hc]
    have fresh : ∀ a ∈ s.log, c ∉ req a := fun a ha hr => hc (hs.called a ha c hr).1
    have h1 : Inv axes title (c :: P) { s with calls := c :: s.calls } := by
      refine ⟨hs.once, fun a ha d hd => ⟨List.mem_cons_of_mem _ (hs.called a ha d hd).1, fun hm => ?_⟩, hs.good, fun d hd hn => ?_, hs.items, fun k hk => ⟨(hs.ranged k hk).1, List.mem_cons_of_mem _ (hs.ranged k hk).2⟩, fun k hk => List.mem_cons_of_mem _ (hs.styled k hk)⟩
      · rcases List.mem_cons.mp hm with rfl | hm
        · exact absurd hd (fresh a ha)
        · exact (hs.called a ha d hd).2 hm
      · simp only [List.mem_cons, not_or] at hn
        rcases List.mem_cons.mp hd with rfl | hd
        · exact absurd rfl hn.1
        · have := hs.done d hd hn.2
          cases d <;> exact this
    obtain ⟨h2, h3, h4⟩ := hb _ h1 (List.mem_cons_self ..) fresh
      (fun e => by
        cases hk : s.didranges with
        | none => rfl
        | some k => exact absurd (e ▸ (hs.ranged k hk).2) hc)
      (fun e => by
        cases hk : s.didstyles with
        | none => rfl
        | some k => exact absurd (e ▸ hs.styled k hk) hc)
      rfl
    refine ⟨⟨h2.once, fun a ha d hd => ⟨(h2.called a ha d hd).1, fun hm => (h2.called a ha d hd).2 (List.mem_cons_of_mem _ hm)⟩, h2.good, fun d hd hn => ?_, h2.items, h2.ranged, h2.styled⟩, ?_, h3.calls c (List.mem_cons_self ..)⟩
    · by_cases e : d = c
      · subst e; exact h4
      · exact h2.done d hd (by simp [e, hn])
    · refine ⟨fun d hd => h3.calls d (List.mem_cons_of_mem _ hd), ?_, h3.count, h3.ranges, h3.styles⟩
      obtain ⟨new, e, f⟩ := h3.log
      refine ⟨new, e, fun a ha => ?_⟩
      obtain ⟨d, hd, hor⟩ := f a ha
      refine ⟨d, hd, Or.inl ?_⟩
      rcases hor with hor | hor
      · exact fun hm => hor (List.mem_cons_of_mem _ hm)
      · rw [List.mem_singleton.mp hor]; exact hc

theorem did_spec (P : List Call) (c : Call) (body : State → State) (_hP : c ∉ P)
    (hb : ∀ s, Inv axes title (c :: P) s → c ∈ s.calls → (∀ a ∈ s.log, c ∉ req a) → (c = .ranges → s.didranges = none) → (c = .styles → s.didstyles = none) →
      Inv axes title (c :: P) (body s) ∧ Ext [c] s (body s) ∧ Done axes title (body s) c) : Spec axes title P c (did c body) :=
  fun s hs => did_at axes title P c body s hs fun t h1 h2 h3 h4 h5 _ => hb t h1 h2 h3 h4 h5

/-- Doing something for all plot items. -/
theorem forItems_acts (g : Nat → Act) (n : Nat) (s : State) : forItems (fun i s => s.act (g i)) n s = { s with log := ((List.range n).map g).reverse ++ s.log } := by
  induction n with
  | zero => rfl
  | succ n ih =>
    simp only [forItems]
    rw [ih]
    simp [State.act, List.range_succ]

theorem acts_inv {P : List Call} {s : State} (h : Inv axes title P s) (g : Nat → Act) (c : Call) (hg : ∀ i j, g i = g j → i = j) (n : Nat) (hn : n ≤ s.count)
    (hr : ∀ i, (req (g i)) = [c]) (hc : c ∈ s.calls) (hi : ∀ i, itemOf (g i) = some i) (hf : ∀ i, g i ∉ s.log)
    (hp : ∀ i, i < n → Pre axes title (((List.range i).map g).reverse ++ s.log) (g i)) :
    Inv axes title P (forItems (fun i s => s.act (g i)) n s) ∧ Ext [c] s (forItems (fun i s => s.act (g i)) n s) := by
  induction n with
  | zero => exact ⟨h, Ext.refl _ _⟩
  | succ n ih =>
    obtain ⟨h1, h2⟩ := ih (by omega) (fun i hi => hp i (by omega))
    have e := forItems_acts g n s
    simp only [forItems]
    refine ⟨act_inv axes title h1 (g n) ?_ ?_ (Or.inr ?_) ?_, h2.trans (act_ext _ _ c (by rw [hr]; rfl))⟩
    · intro d hd
      rw [hr] at hd ⊢
      obtain rfl := List.mem_singleton.mp hd
      exact ⟨h2.calls _ hc, fun _ => rfl⟩
    · rw [e]; exact hp n (by omega)
    · rw [e]
      simp only [List.mem_append, List.mem_reverse, List.mem_map, List.mem_range, not_or]
      refine ⟨?_, hf n⟩
      rintro ⟨i, hi, e⟩
      have := hg _ _ e
      omega
    · intro i hi'
      rw [hi] at hi'
      obtain rfl := Option.some.inj hi'
      rw [h2.count]; omega

theorem doranges_spec (P : List Call) (hP : .ranges ∉ P) : Spec axes title P .ranges doranges := by
  refine did_spec axes title P .ranges _ hP fun s hs hc fresh hdr _ => ?_
  have hdr := hdr rfl
  have n1 : ∀ i, Act.static i ∉ s.log := fun i hi => fresh _ hi (by simp [req])
  have n2 : ∀ i, Act.makedynamic i ∉ s.log := fun i hi => fresh _ hi (by simp [req])
  have n3 : ∀ i, Act.adjustdynamic i ∉ s.log := fun i hi => fresh _ hi (by simp [req])
  have n4 : ∀ a, Act.position a ∉ s.log := fun i hi => fresh _ hi (by simp [req])
  simp only
  obtain ⟨i1, e1⟩ := acts_inv axes title hs Act.static .ranges (by simp) s.count (Nat.le_refl _) (fun _ => rfl) hc (fun _ => rfl) n1 (fun i _ => by
    refine ⟨fun j hj => ?_, fun j hj => ?_, fun j hj => ?_⟩ <;> simp [n2, n3, n4] at hj)
  have l1 := forItems_acts Act.static s.count s
  generalize forItems (fun i s => s.act (.static i)) s.count s = s1 at *
  have c1 : s1.count = s.count := by rw [l1]
  obtain ⟨i2, e2⟩ := acts_inv axes title i1 Act.makedynamic .ranges (by simp) s1.count (Nat.le_refl _) (fun _ => rfl) (e1.calls _ hc) (fun _ => rfl) (by rw [l1]; intro i; simp [n2]) (fun i _ => trivial)
  have l2 := forItems_acts Act.makedynamic s1.count s1
  generalize forItems (fun i s => s.act (.makedynamic i)) s1.count s1 = s2 at *
  have c2 : s2.count = s.count := by rw [l2, c1]
  have m1 : ∀ i, i < s.count → Act.static i ∈ s2.log := by rw [l2, l1]; intro i hi; simp [hi]
  have m2 : ∀ i, i < s.count → Act.makedynamic i ∈ s2.log := by rw [l2, c1]; intro i hi; simp [hi]
  obtain ⟨i3, e3⟩ := acts_inv axes title i2 Act.adjustdynamic .ranges (by simp) s2.count (Nat.le_refl _) (fun _ => rfl) (e2.calls _ (e1.calls _ hc)) (fun _ => rfl) (by rw [l2, l1]; intro i; simp [n3]) (fun i hi => by
    rw [c2] at hi
    refine ⟨by simp [m2 i hi], by simp [m1 i hi], fun a ha => ?_⟩
    rw [l2, l1] at ha
    simp [n4] at ha)
  have l3 := forItems_acts Act.adjustdynamic s2.count s2
  generalize forItems (fun i s => s.act (.adjustdynamic i)) s2.count s2 = s3 at *
  have c3 : s3.count = s.count := by rw [l3, c2]
  have m3 : ∀ i, i < s.count → Act.adjustdynamic i ∈ s3.log := by rw [l3, c2]; intro i hi; simp [hi]
  have e := (e1.trans e2).trans e3
  have hd : s3.didranges = none := by rw [l3, l2, l1]; exact hdr
  refine ⟨⟨i3.once, i3.called, i3.good, fun c hc' hn => ?_, i3.items, fun k hk => ?_, i3.styled⟩, ⟨e.calls, e.log, e.count, fun k hk => ?_, e.styles⟩, ?_⟩
  · have := i3.done c hc' hn
    cases c with
    | ranges => exact absurd (List.mem_cons_self ..) hn
    | _ => exact this
  · simp only [Option.some.injEq] at hk
    subst hk
    exact ⟨(Nat.le_refl _), e.calls _ hc⟩
  · rw [hdr] at hk; cases hk
  · refine ⟨⟨s3.count, rfl, fun i hi => ?_⟩, fun i hi => ?_⟩
    · rw [c3] at hi
      exact ⟨e3.mem (m1 i hi), m3 i hi⟩
    · simp only [c3] at hi
      exact e3.mem (m2 i hi)

/-- A step which calls others and then does one thing itself. -/
theorem body_act {P : List Call} {c : Call} {s s' : State} (a : Act) (hr : (req a).head? = some c) (hc : c ∈ s.calls) (fresh : ∀ b ∈ s.log, c ∉ req b)
    (hi : Inv axes title (c :: P) s') (he : Ext [] s s') (hr' : ∀ d ∈ req a, d ∈ s'.calls ∧ (d ∈ c :: P → (req a).head? = some d)) (hp : Pre axes title s'.log a) (hit : ∀ i, itemOf a = some i → i < s'.count) :
    Inv axes title (c :: P) (s'.act a) ∧ Ext [c] s (s'.act a) := by
  have hm : c ∈ req a := by
    cases h : req a with
    | nil => rw [h] at hr; cases hr
    | cons d l => rw [h] at hr; obtain rfl := Option.some.inj hr; simp
  refine ⟨act_inv axes title hi a hr' hp (Or.inr fun ha => ?_) hit, he.weaken.trans (act_ext _ a c hr)⟩
  obtain ⟨new, e, f⟩ := he.log
  rw [e] at ha
  rcases List.mem_append.mp ha with ha | ha
  · obtain ⟨d, hd, hor⟩ := f a ha
    rw [hr] at hd
    obtain rfl := Option.some.inj hd
    rcases hor with hor | hor
    · exact hor hc
    · cases hor
  · exact fresh a ha hm

theorem positioner_spec (y : Bool) (n : Nat) (P : List Call) (hP : .ranges ∉ P) (h1 : ∀ m, m ≤ n → .positioner (y, m) ∉ P) (h2 : ∀ m, m < n → .create (y, m) ∉ P) :
    Spec axes title P (.positioner (y, n)) (doaxispositioner y n) := by
  induction n using Nat.strong_induction_on generalizing P with
  | _ n ih =>
    have small : ∀ s, doaxispositioner y n s = did (.positioner (y, n)) (fun s => (doranges s).act (.position (y, n))) s → n < 3 →
        Inv axes title P s → Inv axes title P (doaxispositioner y n s) ∧ Ext [] s (doaxispositioner y n s) ∧ .positioner (y, n) ∈ (doaxispositioner y n s).calls := by
      intro s e hn hs
      rw [e]
      refine did_spec axes title P _ _ (h1 n (Nat.le_refl _)) (fun s hs hc fresh _ _ => ?_) s hs
      obtain ⟨a1, a2, a3⟩ := doranges_spec axes title (.positioner (y, n) :: P) (by simp [hP]) s hs
      obtain ⟨b1, b2⟩ := body_act axes title (.position (y, n)) rfl hc fresh a1 a2 (by
        intro d hd
        simp only [req, List.mem_cons, List.not_mem_nil, or_false] at hd
        rcases hd with rfl | rfl
        · exact ⟨a2.calls _ hc, fun _ => rfl⟩
        · exact ⟨a3, fun hm => by simp [hP] at hm⟩) (by simp only [Pre]; omega) (by simp [itemOf])
      exact ⟨b1, b2, List.mem_cons_self ..⟩
    match n, ih, h1, h2, small with
    | 0, _, _, _, small => exact fun s hs => small s rfl (by omega) hs
    | 1, _, _, _, small => exact fun s hs => small s rfl (by omega) hs
    | 2, _, _, _, small => exact fun s hs => small s rfl (by omega) hs
    | n + 3, ih, h1, h2, _ =>
      rw [doaxispositioner]
      refine did_spec axes title P _ _ (h1 _ (Nat.le_refl _)) (fun s hs hc fresh _ _ => ?_)
      obtain ⟨a1, a2, a3⟩ := doranges_spec axes title (.positioner (y, n + 3) :: P) (by simp [hP]) s hs
      have hcr : Spec axes title (.positioner (y, n + 3) :: P) (.create (y, n + 1)) (did (.create (y, n + 1)) fun s => (doaxispositioner y (n + 1) s).act (.create (y, n + 1))) := by
        refine did_spec axes title _ _ _ (by simp [h2 (n + 1) (by omega)]) (fun s hs hc fresh _ _ => ?_)
        obtain ⟨b1, b2, b3⟩ := ih (n + 1) (by omega) (.create (y, n + 1) :: .positioner (y, n + 3) :: P) (by simp [hP])
          (fun m hm => by simp [h1 m (by omega)]; omega) (fun m hm => by simp [h2 m (by omega)]; omega) s hs
        have hpos := b1.done _ b3 (by simp [h1 (n + 1) (by omega)])
        obtain ⟨c1, c2⟩ := body_act axes title (.create (y, n + 1)) rfl hc fresh b1 b2 (by
          intro d hd
          simp only [req, List.mem_cons, List.not_mem_nil, or_false] at hd
          subst hd
          exact ⟨b2.calls _ hc, fun _ => rfl⟩) hpos (by simp [itemOf])
        exact ⟨c1, c2, List.mem_cons_self ..⟩
      obtain ⟨b1, b2, b3⟩ := hcr _ a1
      have hcre := b1.done _ b3 (by simp [h2 (n + 1) (by omega)])
      obtain ⟨c1, c2⟩ := body_act axes title (.position (y, n + 3)) rfl hc fresh b1 (a2.trans b2) (by
        intro d hd
        simp only [req, List.mem_cons, List.not_mem_nil, or_false] at hd
        rcases hd with rfl | rfl
        · exact ⟨b2.calls _ (a2.calls _ hc), fun _ => rfl⟩
        · exact ⟨b2.calls _ a3, fun hm => by simp [hP] at hm⟩) (by simp only [Pre]; exact fun _ => hcre) (by simp [itemOf])
      exact ⟨c1, c2, List.mem_cons_self ..⟩

/-- No ranges or axes in progress. -/
def Outer (P : List Call) : Prop := .ranges ∉ P ∧ ∀ a, .positioner a ∉ P ∧ .create a ∉ P

theorem create_spec (a : Axis) (P : List Call) (hP : Outer P) : Spec axes title P (.create a) (doaxiscreate a) := by
  refine did_spec axes title P _ _ (hP.2 a).2 (fun s hs hc fresh _ _ => ?_)
  obtain ⟨b1, b2, b3⟩ := positioner_spec axes title a.1 a.2 (.create a :: P) (by simp [hP.1]) (fun m _ => by simp [(hP.2 _).1])
    (fun m hm => by
      simp only [List.mem_cons, not_or, Call.create.injEq]
      exact ⟨fun e => by rw [← e] at hm; exact absurd hm (Nat.lt_irrefl _), (hP.2 _).2⟩) s hs
  have hpos := b1.done _ b3 (by simp [(hP.2 _).1])
  obtain ⟨c1, c2⟩ := body_act axes title (.create a) rfl hc fresh b1 b2 (by
    intro d hd
    simp only [req, List.mem_cons, List.not_mem_nil, or_false] at hd
    subst hd
    exact ⟨b2.calls _ hc, fun _ => rfl⟩) hpos (by simp [itemOf])
  exact ⟨c1, c2, List.mem_cons_self ..⟩

theorem layout_spec (P : List Call) (hP : Outer P) (hl : .layout ∉ P) : Spec axes title P .layout (dolayout axes) := by
  refine did_spec axes title P _ _ hl (fun s hs hc fresh _ _ => ?_)
  have ho : Outer (.layout :: P) := ⟨by simp [hP.1], fun a => by simp [(hP.2 a).1, (hP.2 a).2]⟩
  have key : ∀ l : List Axis, ∀ s, Inv axes title (.layout :: P) s →
      Inv axes title (.layout :: P) (l.foldl (fun s a => doaxiscreate a s) s) ∧ Ext [] s (l.foldl (fun s a => doaxiscreate a s) s) ∧ ∀ a ∈ l, .create a ∈ (l.foldl (fun s a => doaxiscreate a s) s).log := by
    intro l
    induction l with
    | nil => exact fun s hs => ⟨hs, Ext.refl _ _, by simp⟩
    | cons a l ih =>
      intro s hs
      obtain ⟨a1, a2, a3⟩ := create_spec axes title a (.layout :: P) ho s hs
      obtain ⟨b1, b2, b3⟩ := ih _ a1
      refine ⟨b1, a2.trans b2, fun b hb => ?_⟩
      rcases List.mem_cons.mp hb with rfl | hb
      · exact b2.mem (a1.done _ a3 (ho.2 b).2)
      · exact b3 b hb
  obtain ⟨a1, a2, a3⟩ := key axes s hs
  exact ⟨a1, a2.weaken, a3⟩

theorem background_spec (P : List Call) (hb : .background ∉ P) : Spec axes title P .background dobackground := by
  refine did_spec axes title P _ _ hb (fun s hs hc fresh _ _ => ?_)
  obtain ⟨c1, c2⟩ := body_act axes title .background rfl hc fresh hs (Ext.refl _ _) (by
    intro d hd
    simp only [req, List.mem_cons, List.not_mem_nil, or_false] at hd
    subst hd
    exact ⟨hc, fun _ => rfl⟩) trivial (by simp [itemOf])
  exact ⟨c1, c2, List.mem_cons_self ..⟩

/-- Neither ranges, axes, layout nor background in progress. -/
def Outer2 (P : List Call) : Prop := Outer P ∧ .layout ∉ P ∧ .background ∉ P

theorem layout_background (P : List Call) (hP : Outer2 P) (s : State) (hs : Inv axes title P s) :
    let s' := dobackground (dolayout axes s)
    Inv axes title P s' ∧ Ext [] s s' ∧ (∀ a ∈ axes, .create a ∈ s'.log) ∧ .background ∈ s'.log := by
  obtain ⟨a1, a2, a3⟩ := layout_spec axes title P hP.1 hP.2.1 s hs
  obtain ⟨b1, b2, b3⟩ := background_spec axes title P hP.2.2 _ a1
  exact ⟨b1, a2.trans b2, fun a ha => b2.mem (a1.done _ a3 hP.2.1 a ha), b1.done _ b3 hP.2.2⟩

theorem axes_spec (P : List Call) (hP : Outer2 P) (ha : .axes ∉ P) : Spec axes title P .axes (doaxes axes) := by
  refine did_spec axes title P _ _ ha (fun s hs hc fresh _ _ => ?_)
  have ho : Outer2 (.axes :: P) := ⟨⟨by simp [hP.1.1], fun a => by simp [(hP.1.2 a).1, (hP.1.2 a).2]⟩, by simp [hP.2.1], by simp [hP.2.2]⟩
  obtain ⟨a1, a2, a3, a4⟩ := layout_background axes title _ ho s hs
  obtain ⟨c1, c2⟩ := body_act axes title .insertaxes rfl hc fresh a1 a2 (by
    intro d hd
    simp only [req, List.mem_cons, List.not_mem_nil, or_false] at hd
    subst hd
    exact ⟨a2.calls _ hc, fun _ => rfl⟩) ⟨a3, a4⟩ (by simp [itemOf])
  exact ⟨c1, c2, List.mem_cons_self ..⟩

theorem styles_spec (P : List Call) (hP : Outer2 P) (ha : .styles ∉ P) : Spec axes title P .styles (dostyles axes) := by
  refine did_spec axes title P _ _ ha (fun s hs hc fresh _ hdr => ?_)
  have hdr := hdr rfl
  have ho : Outer2 (.styles :: P) := ⟨⟨by simp [hP.1.1], fun a => by simp [(hP.1.2 a).1, (hP.1.2 a).2]⟩, by simp [hP.2.1], by simp [hP.2.2]⟩
  obtain ⟨a1, a2, a3, a4⟩ := layout_background axes title _ ho s hs
  simp only
  generalize dobackground (dolayout axes s) = s1 at *
  have nsel : ∀ i, Act.select i ∉ s1.log := by
    intro i hm
    obtain ⟨new, e, f⟩ := a2.log
    rw [e] at hm
    rcases List.mem_append.mp hm with hm | hm
    · obtain ⟨d, hd, hor⟩ := f _ hm
      simp only [req, List.head?_cons, Option.some.injEq] at hd
      subst hd
      simp [hc] at hor
    · exact fresh _ hm (by simp [req])
  have ndraw : ∀ i, Act.draw i ∉ s1.log := by
    intro i hm
    have := (a1.called _ hm .styles (by simp [req])).2 (List.mem_cons_self ..)
    simp [req] at this
  obtain ⟨b1, b2⟩ := acts_inv axes title a1 Act.select .styles (by simp) s1.count (Nat.le_refl _) (fun _ => rfl) (a2.calls _ hc) (fun _ => rfl) nsel (fun i _ => by
    refine ⟨fun a ha => by simp [a3 a ha], by simp [a4], fun j hj => by simp [ndraw] at hj⟩)
  have l2 := forItems_acts Act.select s1.count s1
  generalize forItems (fun i s => s.act (.select i)) s1.count s1 = s2 at *
  have c2 : s2.count = s1.count := by rw [l2]
  have e := a2.weaken.trans b2
  refine ⟨⟨b1.once, b1.called, b1.good, fun c hc' hn => ?_, b1.items, b1.ranged, fun k hk => e.calls _ hc⟩, ⟨e.calls, e.log, e.count, e.ranges, fun k hk => ?_⟩, ?_⟩
  · have := b1.done c hc' hn
    cases c with
    | styles => exact absurd (List.mem_cons_self ..) hn
    | _ => exact this
  · rw [hdr] at hk; cases hk
  · refine ⟨rfl, fun i hi => ?_⟩
    simp only [c2] at hi
    simp only [l2]
    simp [hi]

/-- Nothing of the above nor styles in progress. -/
def Outer3 (P : List Call) : Prop := Outer2 P ∧ .styles ∉ P

theorem Outer3.cons {P : List Call} (hP : Outer3 P) (c : Call) (hc : (∃ i, c = .plotitem i) ∨ (∃ i, c = .keyitem i) ∨ c = .key ∨ c = .axes) : Outer3 (c :: P) := by
  obtain ⟨⟨⟨h1, h2⟩, h3, h4⟩, h5⟩ := hP
  rcases hc with ⟨i, rfl⟩ | ⟨i, rfl⟩ | rfl | rfl <;>
  exact ⟨⟨⟨by simp [h1], fun a => by simp [(h2 a).1, (h2 a).2]⟩, by simp [h3], by simp [h4]⟩, by simp [h5]⟩

theorem plotitem_spec (i : Nat) (P : List Call) (hP : Outer3 P) (s : State) (hs : Inv axes title P s) (hlt : i < s.count) :
    Inv axes title P (doplotitem axes i s) ∧ Ext [] s (doplotitem axes i s) ∧ .plotitem i ∈ (doplotitem axes i s).calls := by
  refine did_at axes title P (.plotitem i) _ s hs fun t ht hc fresh _ _ hcount => ?_
  have ho := hP.cons (.plotitem i) (Or.inl ⟨i, rfl⟩)
  obtain ⟨a1, a2, a3⟩ := styles_spec axes title _ ho.1 ho.2 t ht
  obtain ⟨-, hd⟩ := a1.done _ a3 ho.2
  obtain ⟨c1, c2⟩ := body_act axes title (.draw i) rfl hc fresh a1 a2 (by
    intro d hd
    simp only [req, List.mem_cons, List.not_mem_nil, or_false] at hd
    rcases hd with rfl | rfl
    · exact ⟨a2.calls _ hc, fun _ => rfl⟩
    · exact ⟨a3, fun hm => absurd hm ho.2⟩) (hd i (by rw [a2.count, hcount]; exact hlt)) (by
    intro j hj
    simp only [itemOf, Option.some.injEq] at hj
    subst hj
    rw [a2.count, hcount]; exact hlt)
  exact ⟨c1, c2, List.mem_cons_self ..⟩

theorem keyitem_spec (i : Nat) (P : List Call) (hP : Outer3 P) (s : State) (hs : Inv axes title P s) (hlt : i < s.count) :
    Inv axes title P (dokeyitem axes title i s) ∧ Ext [] s (dokeyitem axes title i s) ∧ .keyitem i ∈ (dokeyitem axes title i s).calls := by
  refine did_at axes title P (.keyitem i) _ s hs fun t ht hc fresh _ _ hcount => ?_
  have ho := hP.cons (.keyitem i) (Or.inr (Or.inl ⟨i, rfl⟩))
  obtain ⟨a1, a2, a3⟩ := styles_spec axes title _ ho.1 ho.2 t ht
  obtain ⟨-, hd⟩ := a1.done _ a3 ho.2
  simp only
  by_cases htt : title i = true
  · rw [if_pos htt]
    obtain ⟨c1, c2⟩ := body_act axes title (.keyitem i) rfl hc fresh a1 a2 (by
      intro d hd
      simp only [req, List.mem_cons, List.not_mem_nil, or_false] at hd
      subst hd
      exact ⟨a2.calls _ hc, fun _ => rfl⟩) ⟨hd i (by rw [a2.count, hcount]; exact hlt), htt⟩ (by
      intro j hj
      simp only [itemOf, Option.some.injEq] at hj
      subst hj
      rw [a2.count, hcount]; exact hlt)
    exact ⟨c1, c2, fun _ => List.mem_cons_self ..⟩
  · rw [if_neg htt]
    exact ⟨a1, a2.weaken, fun h => absurd h htt⟩

/-- Calls for all plot items. -/
theorem forItems_calls (P : List Call) (f : Nat → State → State) (c : Nat → Call) (N : Nat)
    (hf : ∀ i s, Inv axes title P s → s.count = N → i < N → Inv axes title P (f i s) ∧ Ext [] s (f i s) ∧ c i ∈ (f i s).calls)
    (n : Nat) (hn : n ≤ N) (s : State) (hs : Inv axes title P s) (hN : s.count = N) :
    Inv axes title P (forItems f n s) ∧ Ext [] s (forItems f n s) ∧ ∀ i, i < n → c i ∈ (forItems f n s).calls := by
  induction n with
  | zero => exact ⟨hs, Ext.refl _ _, fun i hi => absurd hi (Nat.not_lt_zero i)⟩
  | succ n ih =>
    obtain ⟨a1, a2, a3⟩ := ih (by omega)
    obtain ⟨b1, b2, b3⟩ := hf n _ a1 (a2.count.trans hN) (by omega)
    refine ⟨b1, a2.trans b2, fun i hi => ?_⟩
    by_cases e : i = n
    · subst e; exact b3
    · exact b2.calls _ (a3 i (by omega))

theorem doplot_spec (P : List Call) (hP : Outer3 P) (hp : ∀ i, .plotitem i ∉ P) (s : State) (hs : Inv axes title P s) :
    Inv axes title P (doplot axes s) ∧ Ext [] s (doplot axes s) ∧ ∀ i, i < s.count → .draw i ∈ (doplot axes s).log := by
  obtain ⟨a1, a2, a3⟩ := forItems_calls axes title P (doplotitem axes) .plotitem s.count
    (fun i t ht hN hi => plotitem_spec axes title i P hP t ht (by rw [hN]; exact hi)) s.count (Nat.le_refl _) s hs rfl
  exact ⟨a1, a2, fun i hi => a1.done _ (a3 i hi) (hp i)⟩

theorem key_body (P : List Call) (hP : Outer3 P) (hk : ∀ i, .keyitem i ∉ P) (s : State) (hs : Inv axes title (.key :: P) s) (hc : .key ∈ s.calls) (fresh : ∀ a ∈ s.log, Call.key ∉ req a) :
    let s' := (forItems (dokeyitem axes title) (dobackground s).count (dobackground s)).act .paintkey
    Inv axes title (.key :: P) s' ∧ Ext [.key] s s' ∧ ∀ i, i < s.count → title i = true → .keyitem i ∈ s'.log := by
  have ho := hP.cons .key (by simp)
  obtain ⟨a1, a2, a3⟩ := background_spec axes title (.key :: P) ho.1.2.2 s hs
  have hbg := a1.done _ a3 ho.1.2.2
  obtain ⟨b1, b2, b3⟩ := forItems_calls axes title (.key :: P) (dokeyitem axes title) .keyitem (dobackground s).count
    (fun i t ht hN hi => keyitem_spec axes title i _ ho t ht (by rw [hN]; exact hi)) (dobackground s).count (Nat.le_refl _) _ a1 rfl
  obtain ⟨c1, c2⟩ := body_act axes title .paintkey rfl hc fresh b1 (a2.trans b2) (by
    intro d hd
    simp only [req, List.mem_cons, List.not_mem_nil, or_false] at hd
    subst hd
    exact ⟨b2.calls _ (a2.calls _ hc), fun _ => rfl⟩) (b2.mem hbg) (by simp [itemOf])
  exact ⟨c1, c2, fun i hi ht => List.mem_cons_of_mem _ (b1.done _ (b3 i (by rw [a2.count]; exact hi)) (by simp [hk i]) ht)⟩

theorem key_spec (P : List Call) (hP : Outer3 P) (hk : ∀ i, .keyitem i ∉ P) (hk' : .key ∉ P) : Spec axes title P .key (dokey axes title) := by
  refine did_spec axes title P _ _ hk' (fun s hs hc fresh _ _ => ?_)
  obtain ⟨a1, a2, -⟩ := key_body axes title P hP hk s hs hc fresh
  exact ⟨a1, a2, List.mem_cons_self ..⟩

theorem outer_nil : Outer3 [] := ⟨⟨⟨by simp, by simp⟩, by simp, by simp⟩, by simp⟩

theorem finish_spec (s : State) (hs : Inv axes title [] s) :
    Inv axes title [] (finish axes title s) ∧ Ext [] s (finish axes title s) ∧ .background ∈ (finish axes title s).log ∧ .insertaxes ∈ (finish axes title s).log ∧ .paintkey ∈ (finish axes title s).log ∧
      ∀ i, i < s.count → .draw i ∈ (finish axes title s).log := by
  obtain ⟨a1, a2, a3⟩ := background_spec axes title [] (by simp) s hs
  obtain ⟨b1, b2, b3⟩ := axes_spec axes title [] outer_nil.1 (by simp) _ a1
  obtain ⟨c1, c2, c3⟩ := doplot_spec axes title [] outer_nil (by simp) _ b1
  obtain ⟨d1, d2, d3⟩ := key_spec axes title [] outer_nil (by simp) (by simp) _ c1
  refine ⟨d1, ((a2.trans b2).trans c2).trans d2, d2.mem (c2.mem (b2.mem (a1.done _ a3 (by simp)))), d2.mem (c2.mem (b1.done _ b3 (by simp))), d1.done _ d3 (by simp), fun i hi => ?_⟩
  exact d2.mem (c3 i (by rw [b2.count, a2.count]; exact hi))

theorem plot_inv (s s' : State) (hs : Inv axes title [] s) (h : plot s = some s') : Inv axes title [] s' := by
  simp only [plot] at h
  cases hd : s.didstyles with
  | some k => rw [hd] at h; cases h
  | none =>
    rw [hd] at h
    simp only at h
    have hst : .styles ∉ s.calls := by
      intro hc
      obtain ⟨h1, -⟩ := hs.done _ hc (by simp)
      rw [hd] at h1; cases h1
    cases hr : s.didranges with
    | none =>
      rw [hr] at h
      obtain rfl := Option.some.inj h
      have hrc : .ranges ∉ s.calls := by
        intro hc
        obtain ⟨⟨k, h1, -⟩, -⟩ := hs.done _ hc (by simp)
        rw [hr] at h1; cases h1
      refine ⟨hs.once, hs.called, hs.good, fun c hc hn => ?_, fun a ha i hi => Nat.lt_succ_of_lt (hs.items a ha i hi), fun k hk => ?_, fun k hk => hs.styled k (by rw [hd]; exact hk)⟩
      · have := hs.done c hc hn
        cases c with
        | ranges => exact absurd hc hrc
        | styles => exact absurd hc hst
        | _ => exact this
      · simp only [hr] at hk; cases hk
    | some k =>
      rw [hr] at h
      obtain rfl := Option.some.inj h
      have hrk := hs.ranged k hr
      have hfresh : Act.makedynamic s.count ∉ s.log := fun hm => absurd (hs.items _ hm s.count rfl) (by omega)
      refine ⟨?_, ?_, ⟨trivial, hs.good⟩, fun c hc hn => ?_, ?_, fun k' hk' => ?_, fun k hk => hs.styled k (by rw [hd]; exact hk)⟩
      · intro b hb
        simp only [State.act]
        rw [List.count_cons]
        by_cases e : Act.makedynamic s.count = b
        · subst e
          simp [List.count_eq_zero.mpr hfresh]
        · have := hs.once b hb
          simp [e, this]
      · intro b hb c hc
        rcases List.mem_cons.mp hb with rfl | hb
        · simp only [req, List.mem_singleton] at hc
          subst hc
          exact ⟨hrk.2, by simp⟩
        · exact hs.called b hb c hc
      · have h1 := hs.done c hc hn
        cases c with
        | ranges =>
          obtain ⟨⟨k, h1, h2⟩, h3⟩ := h1
          refine ⟨⟨k, hr.symm.trans h1, fun i hi => ⟨List.mem_cons_of_mem _ (h2 i hi).1, List.mem_cons_of_mem _ (h2 i hi).2⟩⟩, fun i hi => ?_⟩
          simp only [State.act] at hi ⊢
          by_cases e : i = s.count
          · subst e; exact List.mem_cons_self ..
          · exact List.mem_cons_of_mem _ (h3 i (by omega))
        | styles => exact absurd hc hst
        | layout => exact fun a ha => List.mem_cons_of_mem _ (h1 a ha)
        | keyitem i => exact fun ht => List.mem_cons_of_mem _ (h1 ht)
        | positioner a => exact List.mem_cons_of_mem _ h1
        | create a => exact List.mem_cons_of_mem _ h1
        | background => exact List.mem_cons_of_mem _ h1
        | axes => exact List.mem_cons_of_mem _ h1
        | plotitem i => exact List.mem_cons_of_mem _ h1
        | key => exact List.mem_cons_of_mem _ h1
      · intro b hb i hi
        simp only [State.act] at hb ⊢
        rcases List.mem_cons.mp hb with rfl | hb
        · simp only [itemOf, Option.some.injEq] at hi
          omega
        · exact Nat.lt_succ_of_lt (hs.items b hb i hi)
      · simp only [State.act, hr, Option.some.injEq] at hk' ⊢
        subst hk'
        exact ⟨by omega, hrk.2⟩

theorem output_inv (s : State) (hs : Inv axes title [] s) : Inv axes title [] (s.act .output) :=
  act_inv axes title hs .output (by simp [req]) trivial (Or.inl rfl) (by simp [itemOf])

theorem step_inv (s : State) (hs : Inv axes title [] s) (op : Op) : Inv axes title [] (step axes title s op) := by
  have ho := outer_nil
  cases op with
  | plot =>
    simp only [step]
    cases h : plot s with
    | none => exact hs
    | some s' => exact plot_inv axes title s s' hs h
  | doranges => exact (doranges_spec axes title [] (by simp) s hs).1
  | doaxiscreate a =>
    simp only [step]
    split_ifs
    · exact (create_spec axes title a [] ho.1.1 s hs).1
    · exact hs
  | dolayout => exact (layout_spec axes title [] ho.1.1 (by simp) s hs).1
  | dobackground => exact (background_spec axes title [] (by simp) s hs).1
  | doaxes => exact (axes_spec axes title [] ho.1 (by simp) s hs).1
  | dostyles => exact (styles_spec axes title [] ho.1 (by simp) s hs).1
  | doplotitem i =>
    simp only [step]
    split_ifs with h
    · exact (plotitem_spec axes title i [] ho s hs h).1
    · exact hs
  | doplot => exact (doplot_spec axes title [] ho (by simp) s hs).1
  | dokeyitem i =>
    simp only [step]
    split_ifs with h
    · exact (keyitem_spec axes title i [] ho s hs h).1
    · exact hs
  | dokey => exact (key_spec axes title [] ho (by simp) (by simp) s hs).1
  | bbox => exact (finish_spec axes title s hs).1
  | writePS => exact output_inv axes title _ (finish_spec axes title s hs).1
  | writePDF => exact output_inv axes title _ (finish_spec axes title s hs).1
  | writeSVG => exact output_inv axes title s hs

theorem init_inv : Inv axes title [] State.init :=
  ⟨by simp [State.init], by simp [State.init], trivial, by simp [State.init], by simp [State.init], by simp [State.init], by simp [State.init]⟩

theorem run_inv (ops : List Op) : Inv axes title [] (run axes title ops) := by
  simp only [run]
  have : ∀ s, Inv axes title [] s → Inv axes title [] (ops.foldl (step axes title) s) := by
    induction ops with
    | nil => exact fun s h => h
    | cons op ops ih => exact fun s h => ih _ (step_inv axes title s h op)
  exact this _ (init_inv axes title)

/-! ## Theorems -/

/-- C110: however a graph is used, nothing is done twice: no plot item adjusts axes, is selected, drawn or put into the key twice, no axis is created twice, and background, axes and key are drawn once. -/
theorem once (ops : List Op) (a : Act) (ha : a ≠ .output) : (run axes title ops).log.count a ≤ 1 := (run_inv axes title ops).once a ha

theorem good_split (l post pre : List Act) (a : Act) (h : Good axes title l) (e : l = post ++ a :: pre) : Pre axes title pre a ∧ Good axes title pre := by
  subst e
  induction post with
  | nil => exact h
  | cons b post ih => exact ih h.2

/-- C110: however a graph is used, everything is done after what it depends on (`Pre`). -/
theorem in_order (ops : List Op) (post pre : List Act) (a : Act) (h : (run axes title ops).log = post ++ a :: pre) : Pre axes title pre a :=
  (good_split axes title _ post pre a (run_inv axes title ops).good h).1

/-- C110: when a plot item is drawn, all axes have been created, the background has been drawn, the item has been selected, and no item is selected afterwards. -/
theorem draw_after (ops : List Op) (post pre : List Act) (i : Nat) (h : (run axes title ops).log = post ++ .draw i :: pre) :
    (∀ a ∈ axes, .create a ∈ pre) ∧ .background ∈ pre ∧ .select i ∈ pre ∧ ∀ j, .select j ∉ post := by
  obtain ⟨h1, h2⟩ := good_split axes title _ post pre _ (run_inv axes title ops).good h
  simp only [Pre] at h1
  obtain ⟨p1, p2, e⟩ := List.append_of_mem h1
  obtain ⟨⟨h3, h4, -⟩, -⟩ := good_split axes title _ p1 p2 _ h2 e
  refine ⟨fun a ha => by rw [e]; simp [h3 a ha], by rw [e]; simp [h4], h1, fun j hj => ?_⟩
  obtain ⟨q1, q2, e'⟩ := List.append_of_mem hj
  have h5 := in_order axes title ops q1 (q2 ++ .draw i :: pre) (.select j) (by rw [h, e']; simp)
  exact h5.2.2 i (by simp)

/-- C110: an axis is placed only after all plot items which adjust axes have done so. -/
theorem axis_after (ops : List Op) (post pre : List Act) (a : Axis) (h : (run axes title ops).log = post ++ .position a :: pre) :
    ∀ j, .static j ∉ post ∧ .adjustdynamic j ∉ post := by
  intro j
  constructor
  · intro hj
    obtain ⟨q1, q2, e'⟩ := List.append_of_mem hj
    exact (in_order axes title ops q1 (q2 ++ .position a :: pre) (.static j) (by rw [h, e']; simp)).2.2 a (by simp)
  · intro hj
    obtain ⟨q1, q2, e'⟩ := List.append_of_mem hj
    exact (in_order axes title ops q1 (q2 ++ .position a :: pre) (.adjustdynamic j) (by rw [h, e']; simp)).2.2 a (by simp)

/-- C110: the bounding box, PostScript and PDF output of a graph contain background, axes, key, and all plot items, each exactly once. -/
theorem output_complete (ops : List Op) (op : Op) (hop : op = .bbox ∨ op = .writePS ∨ op = .writePDF) :
    let s := run axes title (ops ++ [op])
    s.log.count .background = 1 ∧ s.log.count .insertaxes = 1 ∧ s.log.count .paintkey = 1 ∧ (∀ a ∈ axes, s.log.count (.create a) = 1) ∧ ∀ i, i < s.count → s.log.count (.draw i) = 1 := by
  intro s
  have hinv := run_inv axes title (ops ++ [op])
  obtain ⟨h1, h2, h3, h4, h5, h6⟩ := finish_spec axes title _ (run_inv axes title ops)
  have hs : ∀ a, a ∈ (finish axes title (run axes title ops)).log → a ∈ s.log := by
    intro a ha
    simp only [s, run, List.foldl_append, List.foldl_cons, List.foldl_nil] at ha ⊢
    rcases hop with rfl | rfl | rfl
    · exact ha
    · exact List.mem_cons_of_mem _ ha
    · exact List.mem_cons_of_mem _ ha
  have hc : s.count = (run axes title ops).count := by
    have := h2.count
    simp only [s, run, List.foldl_append, List.foldl_cons, List.foldl_nil] at this ⊢
    rcases hop with rfl | rfl | rfl <;> exact this
  have one : ∀ a, a ≠ .output → a ∈ s.log → s.log.count a = 1 := fun a ha hm => Nat.le_antisymm (hinv.once a ha) (List.count_pos_iff.mpr hm)
  refine ⟨one _ (by simp) (hs _ h3), one _ (by simp) (hs _ h4), one _ (by simp) (hs _ h5), fun a ha => one _ (by simp) ?_, fun i hi => one _ (by simp) (hs _ (h6 i (by rw [← hc]; exact hi)))⟩
  have hm := hs _ h4
  obtain ⟨p1, p2, e⟩ := List.append_of_mem hm
  have := (in_order axes title (ops ++ [op]) p1 p2 .insertaxes e).1 a ha
  show _ ∈ s.log
  rw [e]; simp [this]

/-- C110: plot items which were there when the ranges were determined have adjusted the axes. -/
theorem ranges_complete (ops : List Op) (k : Nat) (h : (run axes title ops).didranges = some k) :
    ∀ i, i < k → .static i ∈ (run axes title ops).log ∧ .makedynamic i ∈ (run axes title ops).log ∧ .adjustdynamic i ∈ (run axes title ops).log := by
  have hinv := run_inv axes title ops
  obtain ⟨hk, hc⟩ := hinv.ranged k h
  obtain ⟨⟨k', e, h1⟩, h2⟩ := hinv.done _ hc (by simp)
  rw [h] at e
  obtain rfl := Option.some.inj e
  exact fun i hi => ⟨(h1 i hi).1, h2 i (by omega), (h1 i hi).2⟩

/-- C110: after the styles have been selected no data can be added: `plot` fails. -/
theorem plot_refused (ops : List Op) (h : .styles ∈ (run axes title ops).calls) : plot (run axes title ops) = none := by
  obtain ⟨h1, -⟩ := (run_inv axes title ops).done _ h (by simp)
  simp only [plot, h1]

/-! ### Only `dokey` calls `dokey` -/

def NoKey (f : State → State) : Prop := ∀ s, .key ∈ (f s).calls → .key ∈ s.calls

theorem did_nokey (c : Call) (hc : c ≠ .key) (body : State → State) (hb : NoKey body) : NoKey (did c body) := by
  intro s h
  simp only [did] at h
  split_ifs at h with hm
  · exact h
  · have := hb _ h
    simp only [List.mem_cons] at this
    exact this.resolve_left (fun e => hc e.symm)

theorem forItems_nokey (f : Nat → State → State) (hf : ∀ i, NoKey (f i)) (n : Nat) : NoKey (forItems f n) := by
  induction n with
  | zero => exact fun s h => h
  | succ n ih => exact fun s h => ih s (hf n _ h)

theorem ranges_nokey : NoKey doranges := did_nokey _ (by simp) _ fun s h => by
  simp only [forItems_acts] at h
  exact h

theorem positioner_nokey (y : Bool) (n : Nat) : NoKey (doaxispositioner y n) := by
  induction n using Nat.strong_induction_on with
  | _ n ih =>
    have small : NoKey (did (.positioner (y, n)) fun s => (doranges s).act (.position (y, n))) := did_nokey _ (by simp) _ fun s h => ranges_nokey s h
    match n, ih, small with
    | 0, _, small => exact small
    | 1, _, small => exact small
    | 2, _, small => exact small
    | n + 3, ih, _ =>
      rw [doaxispositioner]
      exact did_nokey _ (by simp) _ fun s h => ranges_nokey s (did_nokey (.create (y, n + 1)) (by simp) (fun s => (doaxispositioner y (n + 1) s).act (.create (y, n + 1))) (fun s h => ih (n + 1) (by omega) s h) _ h)

theorem layout_nokey : NoKey (dolayout axes) := did_nokey _ (by simp) _ fun s h => by
  have : ∀ (l : List Axis) (s : State), .key ∈ (l.foldl (fun s a => doaxiscreate a s) s).calls → .key ∈ s.calls := by
    intro l
    induction l with
    | nil => exact fun s h => h
    | cons a l ih => exact fun s h => did_nokey (.create a) (by simp) (fun s => (doaxispositioner a.1 a.2 s).act (.create a)) (fun s h => positioner_nokey a.1 a.2 s h) s (ih _ h)
  exact this axes s h

theorem background_nokey : NoKey dobackground := did_nokey _ (by simp) _ fun _ h => h

theorem axes_nokey : NoKey (doaxes axes) := did_nokey _ (by simp) _ fun s h => layout_nokey axes s (background_nokey _ h)

theorem styles_nokey : NoKey (dostyles axes) := did_nokey _ (by simp) _ fun s h => by
  simp only [forItems_acts] at h
  exact layout_nokey axes s (background_nokey _ h)

theorem doplot_nokey : NoKey (doplot axes) := fun s h =>
  forItems_nokey (doplotitem axes) (fun _ => did_nokey _ (by simp) _ fun s h => styles_nokey axes s h) s.count s h

/-- C110: the key contains all plot items with a title that were there when it was first drawn. -/
theorem key_complete_partial (ops : List Op) (h : .key ∉ (run axes title ops).calls) (i : Nat) (hi : i < (run axes title ops).count) (ht : title i = true) :
    ∃ pre, (run axes title (ops ++ [.bbox])).log = .paintkey :: pre ∧ .keyitem i ∈ pre := by
  obtain ⟨a1, a2, a3⟩ := background_spec axes title [] (by simp) _ (run_inv axes title ops)
  obtain ⟨b1, b2, b3⟩ := axes_spec axes title [] outer_nil.1 (by simp) _ a1
  obtain ⟨c1, c2, c3⟩ := doplot_spec axes title [] outer_nil (by simp) _ b1
  have hn : .key ∉ (doplot axes (doaxes axes (dobackground (run axes title ops)))).calls := fun hc => h (background_nokey _ (axes_nokey axes _ (doplot_nokey axes _ hc)))
  have hcount : (doplot axes (doaxes axes (dobackground (run axes title ops)))).count = (run axes title ops).count := by rw [c2.count, b2.count, a2.count]
  have e : run axes title (ops ++ [.bbox]) = dokey axes title (doplot axes (doaxes axes (dobackground (run axes title ops)))) := by
    simp only [run, List.foldl_append, List.foldl_cons, List.foldl_nil, step, finish]
  rw [e]
  generalize doplot axes (doaxes axes (dobackground (run axes title ops))) = s at *
  simp only [dokey, did, if_neg hn]
  refine ⟨_, rfl, ?_⟩
  have hs : Inv axes title [.key] { s with calls := .key :: s.calls } := by
    refine ⟨c1.once, fun a ha d hd => ⟨List.mem_cons_of_mem _ (c1.called a ha d hd).1, fun hm => ?_⟩, c1.good, fun d hd hn' => ?_, c1.items, fun k hk => ⟨(c1.ranged k hk).1, List.mem_cons_of_mem _ (c1.ranged k hk).2⟩, fun k hk => List.mem_cons_of_mem _ (c1.styled k hk)⟩
    · obtain rfl := List.mem_singleton.mp hm
      exact absurd (c1.called a ha _ hd).1 hn
    · rcases List.mem_cons.mp hd with rfl | hd
      · exact absurd (List.mem_cons_self ..) hn'
      · have := c1.done d hd (by simp)
        cases d <;> exact this
  obtain ⟨-, -, k3⟩ := key_body axes title [] outer_nil (by simp) _ hs (List.mem_cons_self ..) (fun a ha hr => hn (c1.called a ha _ hr).1)
  have := k3 i (by simp only [hcount]; exact hi) ht
  simp only [State.act, List.mem_cons, reduceCtorEq, false_or] at this
  exact this

/-- The key need not contain plot items added after a graph without any has been finished. -/
theorem key_lost : ∃ ops, (run [] (fun _ => true) (ops ++ [.writePDF])).log.count (.draw 0) = 1 ∧ Act.keyitem 0 ∉ (run [] (fun _ => true) (ops ++ [.writePDF])).log :=
  ⟨[.bbox, .plot], by decide +kernel, by decide +kernel⟩

/-- SVG output does not finish the graph: without an earlier call of `bbox` (which a page with a given bounding box does not need) nothing is drawn. -/
theorem svg_unfinished : ∃ ops, (run [(false, 1), (true, 1)] (fun _ => true) (ops ++ [.writeSVG])).count = 1 ∧ (run [(false, 1), (true, 1)] (fun _ => true) (ops ++ [.writeSVG])).log = [.output] :=
  ⟨[.plot], by decide +kernel, by decide +kernel⟩

/-! ## Examples -/

/-- A graph with axes x, x3 and two plot items, one plotted late. -/
example : (run [(false, 1), (false, 3)] (fun _ => true) [.plot, .doranges, .plot, .writePS]).log.reverse =
    [.static 0, .makedynamic 0, .adjustdynamic 0, .makedynamic 1, .background, .position (false, 1), .create (false, 1), .position (false, 3), .create (false, 3), .insertaxes,
     .select 0, .select 1, .draw 0, .draw 1, .keyitem 0, .keyitem 1, .paintkey, .output] := by decide +kernel

end PyX.Graph.Steps
