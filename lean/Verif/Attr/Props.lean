import Verif.Attr.Model
import Mathlib.Data.List.Basic
import Mathlib.Data.List.Induction
import Mathlib.Data.List.Perm.Basic
import Mathlib.Tactic.Common

/-!
# Properties C09 and C10: attribute lists
-/

namespace PyX.Attr

variable {A C : Type} (S : Sys A C)

/-! ## Specification -/

/-- Attribute `b`, given later, removes attribute `a`. -/
def removes (b a : A) : Bool :=
  match S.kind b with
  | .excl c | .sortBeforeExcl c _ | .clearClass c => S.inst a c
  | .clearAll => true
  | _ => false

/-- Entries that never become part of the result. -/
def isClear (a : A) : Bool :=
  match S.kind a with
  | .clearClass _ | .clearAll => true
  | _ => false

/-- Attributes that put themselves before others. -/
def isSorter (a : A) : Bool :=
  match S.kind a with
  | .sortBefore _ | .sortBeforeExcl _ _ => true
  | _ => false

/-- Attribute `a` has to stand before `x`. -/
def before (a x : A) : Bool :=
  match S.kind a with
  | .sortBefore cs | .sortBeforeExcl _ cs => instAny S x cs
  | _ => false

/-- The attributes that no later entry removes, in the given order. -/
def survivors : List A → List A
  | [] => []
  | a :: l => if isClear S a || l.any (removes S · a) then survivors l else a :: survivors l

/-! ## Lemmas -/

theorem survivors_snoc (l : List A) (b : A) :
    survivors S (l ++ [b]) = (survivors S l).filter (fun x => !removes S b x) ++ (if isClear S b then [] else [b]) := by
  induction l with
  | nil => simp [survivors]
  | cons a l ih =>
    simp only [List.cons_append, survivors, ih, List.any_append, List.any_cons, List.any_nil, Bool.or_false]
    rcases h : isClear S a || l.any (removes S · a) with _ | _ 
    · rcases hb : removes S b a with _ | _
      · simp_all
      · simp_all
    · rw [← Bool.or_assoc, h]; simp

/-- Insertion of `self` before the first element of the classes, and removal of the exclusive ones, as one function. -/
theorem sortExclLoop_eq (self : A) (c : C) (cs : List C) (result l : List A) :
    sortExclLoop S self c cs false result l = result ++ l.filter (fun x => !S.inst x c) := by
  induction l generalizing result with
  | nil => simp [sortExclLoop]
  | cons a l ih =>
    simp only [sortExclLoop, Bool.false_and, Bool.false_eq_true, if_false]
    rw [ih]; cases hi : S.inst a c <;> simp [hi]

theorem sortExclLoop_split (self : A) (c : C) (cs : List C) (result l : List A) :
    ∃ p q, l = p ++ q ∧ (∀ x ∈ p, instAny S x cs = false) ∧ (∀ y, q.head? = some y → instAny S y cs = true) ∧
      sortExclLoop S self c cs true result l =
        result ++ p.filter (fun x => !S.inst x c) ++ [self] ++ q.filter (fun x => !S.inst x c) := by
  induction l generalizing result with
  | nil => exact ⟨[], [], by simp [sortExclLoop]⟩
  | cons a l ih =>
    by_cases h : instAny S a cs = true
    · refine ⟨[], a :: l, rfl, by simp, by simp [h], ?_⟩
      simp only [sortExclLoop, h, Bool.and_self, if_true, sortExclLoop_eq]
      cases hi : S.inst a c <;> simp [hi]
    · obtain ⟨p, q, rfl, hp, hq, e⟩ := ih (if !S.inst a c then result ++ [a] else result)
      refine ⟨a :: p, q, rfl, by simpa [h] using hp, hq, ?_⟩
      simp only [sortExclLoop, h, Bool.and_false, Bool.false_eq_true, if_false, e]
      cases hi : S.inst a c <;> simp [hi]

theorem sortLoop_eq (self : A) (cs : List C) (result l : List A) :
    sortLoop S self cs false result l = result ++ l := by
  induction l generalizing result with
  | nil => simp [sortLoop]
  | cons a l ih => simp [sortLoop, ih]

theorem sortLoop_split (self : A) (cs : List C) (result l : List A) :
    ∃ p q, l = p ++ q ∧ (∀ x ∈ p, instAny S x cs = false) ∧ (∀ y, q.head? = some y → instAny S y cs = true) ∧
      sortLoop S self cs true result l = result ++ p ++ [self] ++ q := by
  induction l generalizing result with
  | nil => exact ⟨[], [], by simp [sortLoop]⟩
  | cons a l ih =>
    by_cases h : instAny S a cs = true
    · exact ⟨[], a :: l, rfl, by simp, by simp [h], by simp [sortLoop, h, sortLoop_eq]⟩
    · obtain ⟨p, q, rfl, hp, hq, e⟩ := ih (result ++ [a])
      refine ⟨a :: p, q, rfl, by simpa [h] using hp, hq, ?_⟩
      simp [sortLoop, h, e]

/-- Effect of one merge step: the removed ones are filtered out and the attribute is put before the first one it has to precede
(not further back than that), or at the end. -/
theorem merge_split (a : A) (l : List A) (hc : isClear S a = false) :
    ∃ p q, l = p ++ q ∧ (∀ x ∈ p, before S a x = false) ∧
      (∀ y, q.head? = some y → before S a y = true) ∧
      merge S a l = p.filter (fun x => !removes S a x) ++ [a] ++ q.filter (fun x => !removes S a x) := by
  unfold merge before removes
  unfold isClear at hc
  cases h : S.kind a with
  | plain => exact ⟨l, [], by simp⟩
  | excl c => exact ⟨l, [], by simp⟩
  | sortBefore cs =>
    obtain ⟨p, q, e, hp, hq, r⟩ := sortLoop_split S a cs [] l
    exact ⟨p, q, e, hp, hq, by simp [r]⟩
  | sortBeforeExcl c cs =>
    obtain ⟨p, q, e, hp, hq, r⟩ := sortExclLoop_split S a c cs [] l
    exact ⟨p, q, e, hp, hq, by simp [r]⟩
  | clearClass c => simp [h] at hc
  | clearAll => simp [h] at hc

theorem merge_clear (a : A) (l : List A) (hc : isClear S a = true) :
    merge S a l = l.filter (fun x => !removes S a x) := by
  unfold merge removes
  unfold isClear at hc
  cases h : S.kind a <;> simp_all

theorem mergeattrs_snoc (l : List A) (a : A) : mergeattrs S (l ++ [a]) = merge S a (mergeattrs S l) := by
  simp [mergeattrs]

/-! ## C09 -/

/-- C09: exactly the attributes that no later entry removes remain. -/
theorem merge_perm (l : List A) : (mergeattrs S l).Perm (survivors S l) := by
  induction l using List.reverseRecOn with
  | nil => exact List.Perm.refl _
  | append_singleton l a ih =>
    rw [mergeattrs_snoc, survivors_snoc]
    cases hc : isClear S a with
    | true => simpa [merge_clear S a _ hc] using ih.filter _
    | false =>
      obtain ⟨p, q, e, -, -, r⟩ := merge_split S a (mergeattrs S l) hc
      rw [r]
      simp only [Bool.false_eq_true, if_false]
      have : (p.filter (fun x => !removes S a x) ++ [a] ++ q.filter (fun x => !removes S a x)).Perm
          ((p ++ q).filter (fun x => !removes S a x) ++ [a]) := by
        rw [List.filter_append, List.append_assoc, List.append_assoc]
        exact List.Perm.append_left _ List.perm_append_comm
      refine this.trans (List.Perm.append_right _ ?_)
      rw [← e]; exact ih.filter _

/-- C09: the attributes that do not sort themselves stay in the given order. -/
theorem merge_order (l : List A) :
    (mergeattrs S l).filter (fun x => !isSorter S x) = (survivors S l).filter (fun x => !isSorter S x) := by
  induction l using List.reverseRecOn with
  | nil => rfl
  | append_singleton l a ih =>
    rw [mergeattrs_snoc, survivors_snoc]
    have comm : ∀ m : List A, (m.filter (fun x => !removes S a x)).filter (fun x => !isSorter S x) =
        (m.filter (fun x => !isSorter S x)).filter (fun x => !removes S a x) := fun m => by
      simp only [List.filter_filter]; congr 1; funext x; exact Bool.and_comm _ _
    cases hc : isClear S a with
    | true => simp [merge_clear S a _ hc, comm, ih]
    | false =>
      obtain ⟨p, q, e, -, hq, r⟩ := merge_split S a (mergeattrs S l) hc
      rw [r]
      simp only [Bool.false_eq_true, if_false, List.filter_append, comm]
      rw [← ih, e]
      simp only [List.filter_append]
      cases hs : isSorter S a with
      | true => simp [hs]
      | false =>
        have : q = [] := by
          cases q with
          | nil => rfl
          | cons y q =>
            have := hq y rfl
            unfold before at this; unfold isSorter at hs
            cases h : S.kind a <;> simp_all
        subst this; simp [hs]

/-- C09: an attribute stands before all attributes it has to precede, except possibly such that sort themselves. -/
theorem merge_sorted (l : List A) :
    (mergeattrs S l).Pairwise fun x a => isSorter S x = false → before S a x = false := by
  induction l using List.reverseRecOn with
  | nil => exact List.Pairwise.nil
  | append_singleton l a ih =>
    rw [mergeattrs_snoc]
    cases hc : isClear S a with
    | true => rw [merge_clear S a _ hc]; exact ih.filter _
    | false =>
      obtain ⟨p, q, e, hp, hq, r⟩ := merge_split S a (mergeattrs S l) hc
      rw [r]
      rw [e] at ih
      obtain ⟨i1, i2, i3⟩ := List.pairwise_append.1 ih
      rw [List.append_assoc, List.pairwise_append]
      refine ⟨i1.filter _, ?_, ?_⟩
      · simp only [List.cons_append, List.nil_append, List.pairwise_cons]
        refine ⟨?_, i2.filter _⟩
        intro y hy hs
        cases q with
        | nil => simp at hy
        | cons z q =>
          have := hq z rfl
          unfold before at this; unfold isSorter at hs
          cases h : S.kind a <;> simp_all
      · intro x hx y hy hs
        simp only [List.cons_append, List.nil_append, List.mem_cons] at hy
        have hx' := (List.mem_filter.1 hx).1
        rcases hy with rfl | hy
        · exact hp x hx'
        · exact i3 x hx' y (List.mem_filter.1 hy).1 hs

/-- Condition on the classes: an attribute does not have to precede itself, and if `a` precedes the sorting attribute `b`, it also
precedes all that `b` precedes. -/
structure Nested : Prop where
  irrefl : ∀ a, before S a a = false
  trans : ∀ a b x, before S a b = true → before S b x = true → before S a x = true

/-- C09: with nested classes every attribute stands before all attributes it has to precede. -/
theorem merge_sorted_nested (hN : Nested S) (l : List A) :
    (mergeattrs S l).Pairwise fun x a => before S a x = false := by
  induction l using List.reverseRecOn with
  | nil => exact List.Pairwise.nil
  | append_singleton l a ih =>
    rw [mergeattrs_snoc]
    cases hc : isClear S a with
    | true => rw [merge_clear S a _ hc]; exact ih.filter _
    | false =>
      obtain ⟨p, q, e, hp, hq, r⟩ := merge_split S a (mergeattrs S l) hc
      rw [r]
      rw [e] at ih
      obtain ⟨i1, i2, i3⟩ := List.pairwise_append.1 ih
      rw [List.append_assoc, List.pairwise_append]
      refine ⟨i1.filter _, ?_, ?_⟩
      · simp only [List.cons_append, List.nil_append, List.pairwise_cons]
        refine ⟨?_, i2.filter _⟩
        intro y hy
        have hy' := (List.mem_filter.1 hy).1
        cases q with
        | nil => simp at hy'
        | cons z q =>
          have hz := hq z rfl
          cases hya : before S y a with
          | false => rfl
          | true =>
            have hyz := hN.trans y a z hya hz
            rcases List.mem_cons.1 hy' with rfl | hy'
            · rw [hN.irrefl] at hyz; cases hyz
            · rw [(List.pairwise_cons.1 i2).1 y hy'] at hyz; cases hyz
      · intro x hx y hy
        simp only [List.cons_append, List.nil_append, List.mem_cons] at hy
        have hx' := (List.mem_filter.1 hx).1
        rcases hy with rfl | hy
        · exact hp x hx'
        · exact i3 x hx' y (List.mem_filter.1 hy).1

/-- Condition on the exclusive classes of sorting attributes: removal is mutual. -/
def Mutual : Prop := ∀ a b, isSorter S a = true → isClear S b = false → removes S a b = false → removes S b a = false

theorem merge_noclear (l : List A) : ∀ x ∈ mergeattrs S l, isClear S x = false := by
  intro x hx
  have := (merge_perm S l).mem_iff.1 hx
  clear hx
  induction l with
  | nil => cases this
  | cons a l ih =>
    unfold survivors at this
    split at this
    · exact ih this
    · rename_i h
      rcases List.mem_cons.1 this with rfl | this
      · simp at h; simpa using h.1
      · exact ih this

theorem merge_norem (hM : Mutual S) (l : List A) : (mergeattrs S l).Pairwise fun x a => removes S a x = false := by
  induction l using List.reverseRecOn with
  | nil => exact List.Pairwise.nil
  | append_singleton l a ih =>
    have hnc := merge_noclear S l
    rw [mergeattrs_snoc]
    cases hc : isClear S a with
    | true => rw [merge_clear S a _ hc]; exact ih.filter _
    | false =>
      obtain ⟨p, q, e, hp, hq, r⟩ := merge_split S a (mergeattrs S l) hc
      rw [r]
      rw [e] at ih hnc
      obtain ⟨i1, i2, i3⟩ := List.pairwise_append.1 ih
      rw [List.append_assoc, List.pairwise_append]
      refine ⟨i1.filter _, ?_, ?_⟩
      · simp only [List.cons_append, List.nil_append, List.pairwise_cons]
        refine ⟨?_, i2.filter _⟩
        intro y hy
        have hy' := List.mem_filter.1 hy
        have hs : isSorter S a = true := by
          cases q with
          | nil => simp at hy
          | cons z q =>
            have := hq z rfl
            unfold before at this; unfold isSorter
            cases h : S.kind a <;> simp_all
        exact hM a y hs (hnc y (by simp [hy'.1])) (by simpa using hy'.2)
      · intro x hx y hy
        simp only [List.cons_append, List.nil_append, List.mem_cons] at hy
        have hx' := List.mem_filter.1 hx
        rcases hy with rfl | hy
        · simpa using hx'.2
        · exact i3 x hx'.1 y (List.mem_filter.1 hy).1

/-- C09: under the two conditions merging a merged list changes nothing. -/
theorem merge_idem (hN : Nested S) (hM : Mutual S) (l : List A) : mergeattrs S (mergeattrs S l) = mergeattrs S l := by
  have h1 := merge_sorted_nested S hN l
  have h2 := merge_norem S hM l
  have h3 := merge_noclear S l
  generalize mergeattrs S l = r at h1 h2 h3
  induction r using List.reverseRecOn with
  | nil => rfl
  | append_singleton r a ih =>
    obtain ⟨p1, -, p3⟩ := List.pairwise_append.1 h1
    obtain ⟨q1, -, q3⟩ := List.pairwise_append.1 h2
    rw [mergeattrs_snoc, ih p1 q1 (fun x hx => h3 x (by simp [hx]))]
    obtain ⟨p, q, e, hp, hq, m⟩ := merge_split S a r (h3 a (by simp))
    have hq0 : q = [] := by
      cases q with
      | nil => rfl
      | cons z q =>
        have := hq z rfl
        rw [p3 z (by simp [e]) a (by simp)] at this; cases this
    subst hq0
    rw [m]
    simp only [List.append_nil] at e
    subst e
    simp only [List.filter_nil, List.append_nil]
    congr 1
    exact List.filter_eq_self.2 fun x hx => by simp [q3 x hx a (by simp)]

/-- Without the conditions idempotence is not given; full claim. -/
def Idempotent : Prop := ∀ l, mergeattrs S (mergeattrs S l) = mergeattrs S l

theorem mem_survivors_any (l : List A) (x : A) (h : x ∈ survivors S l) : x ∈ l := by
  induction l with
  | nil => exact h
  | cons a l ih =>
    unfold survivors at h
    split at h
    · exact List.mem_cons_of_mem _ (ih h)
    · rcases List.mem_cons.1 h with rfl | h
      · exact List.mem_cons_self
      · exact List.mem_cons_of_mem _ (ih h)

theorem survivors_removed (l : List A) (p : A → Bool) (h : ∀ a ∈ l, p a = true →
    isClear S a = true ∨ False) : (survivors S l).filter p = [] := by
  rw [List.filter_eq_nil_iff]
  intro a ha hp
  have hc : isClear S a = false := by
    clear h
    induction l with
    | nil => cases ha
    | cons b l ih =>
      unfold survivors at ha
      split at ha
      · exact ih ha
      · rename_i h
        rcases List.mem_cons.1 ha with rfl | ha
        · simp at h; simpa using h.1
        · exact ih ha
  rcases h a (mem_survivors_any S l a ha) hp with h | h
  · rw [hc] at h; cases h
  · exact h

/-- C09: the last attribute of an exclusive class `c` stays as the only one of this class, if no later entry
removes it. -/
theorem exclusive_last (pre post : List A) (a : A) (c : C)
    (hk : S.kind a = .excl c ∨ ∃ cs, S.kind a = .sortBeforeExcl c cs) (ha : S.inst a c = true)
    (hpost : ∀ b ∈ post, S.inst b c = false ∧ removes S b a = false) :
    (mergeattrs S (pre ++ a :: post)).filter (fun x => S.inst x c) = [a] := by
  have key : (survivors S (pre ++ a :: post)).filter (fun x => S.inst x c) = [a] := by
    induction pre with
    | nil =>
      have h1 : isClear S a = false := by unfold isClear; rcases hk with h | ⟨cs, h⟩ <;> simp [h]
      have h2 : post.any (removes S · a) = false := by
        rw [List.any_eq_false]; intro b hb; simp [(hpost b hb).2]
      simp only [List.nil_append, survivors, h1, h2, Bool.or_self, Bool.false_eq_true, if_false, List.filter_cons, ha, if_true]
      congr 1
      rw [List.filter_eq_nil_iff]
      intro x hx
      simp [(hpost x (mem_survivors_any S post x hx)).1]
    | cons b pre ih =>
      simp only [List.cons_append, survivors]
      split
      · exact ih
      · rename_i h
        simp only [List.filter_cons]
        cases hb : S.inst b c with
        | false => simpa using ih
        | true =>
          exfalso; apply h
          simp only [List.any_append, List.any_cons]
          have : removes S a b = true := by unfold removes; rcases hk with h | ⟨cs, h⟩ <;> simp [h, hb]
          simp [this]
  have := (merge_perm S (pre ++ a :: post)).filter (fun x => S.inst x c)
  rw [key] at this
  exact List.perm_singleton.1 this

/-- C09: `c.clear` removes exactly the attributes of class `c` given before and nothing else. -/
theorem clear_class (pre : List A) (b : A) (c : C) (hb : S.kind b = .clearClass c) :
    mergeattrs S (pre ++ [b]) = (mergeattrs S pre).filter (fun x => !S.inst x c) := by
  rw [mergeattrs_snoc, merge_clear S b _ (by simp [isClear, hb])]
  simp [removes, hb]

/-- C09: attributes that nothing removes all survive in order. -/
theorem plain_all (l : List A) (h : ∀ a ∈ l, S.kind a = .plain) : mergeattrs S l = l := by
  induction l using List.reverseRecOn with
  | nil => rfl
  | append_singleton l a ih =>
    rw [mergeattrs_snoc, ih fun x hx => h x (by simp [hx])]
    simp [merge, h a (by simp)]

/-! ## The text attributes of `pyx/text.py` -/

/-- Some text attributes (`pyx/text.py:413-615`) and stroke styles (`pyx/style.py:130-246`). -/
inductive T
  | boxhalign (n : Nat) | flushhalign (n : Nat) | halign (n : Nat) | mathmode | parbox (n : Nat) | valign (n : Nat)
  | vshift (n : Nat) | size (n : Nat) | halignClear | dash (n : Nat) | linewidth (n : Nat)
deriving DecidableEq, Repr

inductive TC
  | boxhalign | flushhalign | halign | mathmode | parbox | valign | vshift | size | localattr | dash | linewidth | linestyle
deriving DecidableEq, Repr

/-- Class hierarchy and constructor arguments (`pyx/text.py:413,417,428,432,443,448,468,472,496,505,529,533,546,549,585,591`;
`pyx/style.py:138,216`). -/
def textSys : Sys T TC where
  inst
    | .boxhalign _, c => c = .boxhalign || c = .localattr
    | .flushhalign _, c => c = .flushhalign || c = .localattr
    | .halign _, c => c = .halign || c = .boxhalign || c = .flushhalign || c = .localattr
    | .mathmode, c => c = .mathmode || c = .localattr
    | .parbox _, c => c = .parbox
    | .valign _, c => c = .valign
    | .vshift _, c => c = .vshift
    | .size _, c => c = .size
    | .halignClear, _ => false
    | .dash _, c => c = .dash
    | .linewidth _, c => c = .linewidth
  kind
    | .boxhalign _ => .excl .boxhalign
    | .flushhalign _ => .excl .flushhalign
    | .halign _ => .excl .halign
    | .mathmode => .excl .mathmode
    | .parbox _ => .sortBeforeExcl .parbox [.localattr]
    | .valign _ => .sortBeforeExcl .valign [.parbox, .localattr]
    | .vshift _ => .sortBefore [.valign, .parbox, .localattr]
    | .size _ => .sortBefore [.mathmode, .vshift]
    | .halignClear => .clearClass .halign
    | .dash _ => .excl .dash
    | .linewidth _ => .sortBeforeExcl .linewidth [.dash, .linestyle]

/-- Finding: with `valign`, `size`, `vshift` given in this order the font size comes behind the shift that it
should precede, and merging the result again changes it. -/
theorem text_not_idempotent :
    mergeattrs textSys [.valign 0, .size 2, .vshift 1] = [.vshift 1, .valign 0, .size 2] ∧
    mergeattrs textSys [.vshift 1, .valign 0, .size 2] = [.size 2, .vshift 1, .valign 0] := by
  decide

theorem text_idempotent_fails : ¬ Idempotent textSys := by
  intro h
  have := h [.valign 0, .size 2, .vshift 1]
  revert this; decide

/-- Finding: `halign` does not swallow a `boxhalign` given before, although it sets the same alignment (the other way round it is
swallowed). -/
theorem halign_keeps_boxhalign :
    mergeattrs textSys [.boxhalign 0, .halign 1] = [.boxhalign 0, .halign 1] ∧
    mergeattrs textSys [.halign 1, .boxhalign 0] = [.boxhalign 0] := by decide

/-- The same system without `size`. -/
def textSys' : Sys T TC where
  inst := textSys.inst
  kind
    | .size _ => .plain
    | a => textSys.kind a

/-- The conditions hold for the text attributes and stroke styles other than `size`. -/
theorem text_nested : Nested textSys' := by
  constructor
  · intro a; cases a <;> simp [before, instAny, textSys', textSys]
  · intro a b x; cases a <;> cases b <;> simp [before, instAny, textSys', textSys] <;> cases x <;> simp

theorem text_mutual : Mutual textSys' := by
  intro a b; cases a <;> cases b <;> simp [isSorter, isClear, removes, textSys', textSys]

/-- Concrete case for the theorems above. -/
example : mergeattrs textSys' [.mathmode, .vshift 1, .boxhalign 3, .valign 1, .linewidth 1, .dash 2, .linewidth 4, .valign 2] =
    [.vshift 1, .valign 2, .mathmode, .boxhalign 3, .linewidth 4, .dash 2] := by decide

/-! ## C10 and `checkattrs` -/

/-- C10: entry `i mod n` of a cyclic list. -/
theorem select_cyclic (attrs : List A) (i total : Nat) (h : attrs ≠ []) :
    ∃ h' : i % attrs.length < attrs.length, (Change.list attrs true).select i total = some (some attrs[i % attrs.length]) := by
  have hl : 0 < attrs.length := List.length_pos_of_ne_nil h
  refine ⟨Nat.mod_lt _ hl, ?_⟩
  simp [Change.select, selectList, Nat.mod_lt _ hl, Nat.pos_iff_ne_zero.1 hl]

/-- C10: consecutive data sets run through the list and start again. -/
theorem select_period (attrs : List A) (i total : Nat) :
    (Change.list attrs true).select (i + attrs.length) total = (Change.list attrs true).select i total := by
  simp [Change.select, selectList]

/-- C10: a non-cyclic list gives its entries and then nothing. -/
theorem select_noncyclic (attrs : List A) (i total : Nat) :
    (Change.list attrs false).select i total = some attrs[i]? := by
  simp only [Change.select, selectList, Bool.false_eq_true, if_false]
  split
  · rename_i h; simp [h]
  · rename_i h; simp at h; simp [List.getElem?_eq_none h]

/-- What a single entry selects (specification). -/
def pick (index total : Nat) : A ⊕ Change A → Option (Option A)
  | .inl a => some (some a)
  | .inr c => c.select index total

theorem selectLoop_eq (index total : Nat) (result : List A) (l : List (A ⊕ Change A))
    (f : A ⊕ Change A → Option A) (hf : ∀ x ∈ l, pick index total x = some (f x)) :
    selectLoop index total result l = some ((l.mapM f).map (result ++ ·)) := by
  induction l generalizing result with
  | nil => simp [selectLoop]
  | cons x l ih =>
    have hx := hf x (by simp)
    have ih' := fun r => ih r fun y hy => hf y (by simp [hy])
    cases x with
    | inl a =>
      simp only [pick, Option.some.injEq] at hx
      simp only [selectLoop, ih', List.mapM_cons, ← hx]
      cases List.mapM f l <;> simp
    | inr c =>
      simp only [pick] at hx
      simp only [selectLoop, hx, List.mapM_cons]
      cases hfx : f (.inr c) with
      | none => rfl
      | some a =>
        simp only [ih']
        cases List.mapM f l <;> simp

/-- C10: when no selection raises an exception (`f` is what each entry selects), `selectattrs` returns the selected ones in
order, or nothing if one selects nothing. -/
theorem selectattrs_eq (index total : Nat) (l : List (A ⊕ Change A)) (f : A ⊕ Change A → Option A)
    (hf : ∀ x ∈ l, pick index total x = some (f x)) :
    selectattrs (some l) index total = some (l.mapM f) := by
  rw [selectattrs, selectLoop_eq index total [] l f hf]
  cases List.mapM f l <;> simp

example : selectattrs (some [.inl 7, .inr (.list [1, 2, 3] true), .inl 8]) 4 9 = some (some [7, 2, 8]) := by decide
example : selectattrs (some [.inl 7, .inr (.list [1, 2, 3] false), .inl 8]) 4 9 = some none := by decide

theorem firstDiff_filter [DecidableEq A] (p : A → Bool) (l : List A) (h : l.length ≠ (l.filter p).length) :
    (match firstDiff l (l.filter p) with
      | some a => Check.bad a
      | none => match l[(l.filter p).length]? with
        | some a => .bad a
        | none => .indexError) = (match l.find? (fun x => !p x) with | some a => .bad a | none => .indexError) := by
  induction l with
  | nil => simp at h
  | cons a l ih =>
    cases hp : p a with
    | true =>
      simp only [List.filter_cons, hp, if_true, List.length_cons] at h ⊢
      have h' : l.length ≠ (l.filter p).length := fun e => h (by rw [e])
      simpa [firstDiff, hp] using ih h'
    | false =>
      simp only [List.filter_cons, hp, Bool.false_eq_true, if_false, List.find?_cons, Bool.not_false]
      cases hl : l.filter p with
      | nil => simp [firstDiff]
      | cons b bs =>
        have hb : p b = true := (List.mem_filter.1 (by rw [hl]; simp : b ∈ l.filter p)).2
        have : a ≠ b := by rintro rfl; rw [hp] at hb; cases hb
        simp [firstDiff, this]

/-- C10: `checkattrs` accepts exactly the lists of allowed attributes; otherwise the error names the first one that is not
allowed (never an `IndexError`). -/
theorem checkattrs_eq [DecidableEq A] (l : List A) (cs : List C) :
    checkattrs S l cs = match l.find? (fun x => !instAny S x cs) with | some a => .bad a | none => .ok := by
  unfold checkattrs getattrs
  by_cases h : l.length = (l.filter fun x => instAny S x cs).length
  · simp only [h, ne_eq, not_true, if_false]
    have : ∀ x ∈ l, instAny S x cs = true := by
      have := List.length_filter_eq_length_iff.1 h.symm
      exact this
    have : l.find? (fun x => !instAny S x cs) = none := by
      rw [List.find?_eq_none]; intro x hx; simp [this x hx]
    rw [this]
  · simp only [ne_eq, h, not_false_eq_true, if_true]
    refine (firstDiff_filter _ l h).trans ?_
    cases hf : l.find? (fun x => !instAny S x cs) with
    | some a => rfl
    | none =>
      exfalso; apply h
      rw [List.find?_eq_none] at hf
      rw [List.filter_eq_self.2]
      intro a ha; simpa using hf a ha

example : checkattrs textSys [.mathmode, .dash 1, .size 2, .dash 2] [.localattr, .size] = .bad (.dash 1) := by decide

end PyX.Attr
