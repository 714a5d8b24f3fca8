import Verif.Attr.Props

/-!
# C09, C10: attributes given together with defaults (`refineattrs`, `pyx/attr.py:58-65`)
-/

set_option linter.unusedSectionVars false

namespace PyX.Attr

variable {A C : Type} (S : Sys A C)

/-- An attribute stays if no later one removes it. -/
theorem mem_survivors_iff (l : List A) (x : A) : x ∈ survivors S l ↔ ∃ pre post, l = pre ++ x :: post ∧ isClear S x = false ∧ ∀ b ∈ post, removes S b x = false := by
  induction l with
  | nil => simp [survivors]
  | cons a l ih =>
    constructor
    · intro h
      rw [survivors] at h
      split at h
      · obtain ⟨pre, post, rfl, h1, h2⟩ := ih.mp h
        exact ⟨a :: pre, post, rfl, h1, h2⟩
      · next hc =>
        rcases List.mem_cons.mp h with rfl | h
        · simp only [Bool.or_eq_true, List.any_eq_true, not_or, Bool.not_eq_true, not_exists, not_and] at hc
          exact ⟨[], l, rfl, hc.1, hc.2⟩
        · obtain ⟨pre, post, rfl, h1, h2⟩ := ih.mp h
          exact ⟨a :: pre, post, rfl, h1, h2⟩
    · rintro ⟨pre, post, hl, h1, h2⟩
      rw [survivors]
      cases pre with
      | nil =>
        simp only [List.nil_append, List.cons.injEq] at hl
        obtain ⟨rfl, rfl⟩ := hl
        have : (isClear S a || l.any (removes S · a)) = false := by
          simp only [h1, Bool.false_or, List.any_eq_false]
          intro b hb
          simp [h2 b hb]
        rw [if_neg (by rw [this]; simp)]
        exact List.mem_cons_self
      | cons b pre =>
        simp only [List.cons_append, List.cons.injEq] at hl
        have := ih.mpr ⟨pre, post, hl.2, h1, h2⟩
        split
        · exact this
        · exact List.mem_cons_of_mem _ this

/-- **C10**: `None` stays `None`. -/
theorem refine_none [DecidableEq A] (defaults : List A) (allowed : List C) : refineattrs S none defaults allowed = .ok none := rfl

/-- **C10**: attributes are accepted if and only if all of those given are allowed; the defaults are not checked.  The error names the first attribute which is not allowed. -/
theorem refine_allowed [DecidableEq A] (attrs defaults : List A) (allowed : List C) :
    ((∃ r, refineattrs S (some attrs) defaults allowed = .ok r) ↔ ∀ x ∈ attrs, instAny S x allowed = true) ∧
      ∀ pre a post, attrs = pre ++ a :: post → (∀ x ∈ pre, instAny S x allowed = true) → instAny S a allowed = false →
        refineattrs S (some attrs) defaults allowed = .error (.bad a) := by
  constructor
  · unfold refineattrs
    simp only [checkattrs_eq]
    constructor
    · rintro ⟨r, hr⟩
      cases hf : attrs.find? (fun x => !instAny S x allowed) with
      | some a => rw [hf] at hr; simp at hr
      | none =>
        rw [List.find?_eq_none] at hf
        intro x hx
        simpa using hf x hx
    · intro h
      have : attrs.find? (fun x => !instAny S x allowed) = none := by
        rw [List.find?_eq_none]; intro x hx; simp [h x hx]
      rw [this]
      exact ⟨_, rfl⟩
  · rintro pre a post rfl hpre ha
    unfold refineattrs
    simp only [checkattrs_eq]
    have : (pre ++ a :: post).find? (fun x => !instAny S x allowed) = some a := by
      rw [List.find?_append, List.find?_eq_none.mpr (by intro x hx; simp [hpre x hx])]
      simp [ha]
    rw [this]

/-- **C09**: of an exclusive class with an attribute among those given, the last one given stays as the only one; those among the defaults are dropped. -/
theorem refine_given [DecidableEq A] (pre post defaults r : List A) (a : A) (c : C) (allowed : List C) (hk : S.kind a = .excl c ∨ ∃ cs, S.kind a = .sortBeforeExcl c cs)
    (ha : S.inst a c = true) (hpost : ∀ b ∈ post, S.inst b c = false ∧ removes S b a = false) (h : refineattrs S (some (pre ++ a :: post)) defaults allowed = .ok (some r)) :
    r.filter (fun x => S.inst x c) = [a] := by
  unfold refineattrs at h
  simp only at h
  split at h
  · simp only [Except.ok.injEq, Option.some.injEq] at h
    rw [← h, ← List.append_assoc]
    exact exclusive_last S (defaults ++ pre) post a c hk ha hpost
  · simp at h

/-- **C09**: a default stays if and only if no later default and none of the attributes given removes it; what is given stays if and only if nothing given later removes it. -/
theorem refine_mem [DecidableEq A] (attrs defaults r : List A) (allowed : List C) (h : refineattrs S (some attrs) defaults allowed = .ok (some r)) (x : A) :
    x ∈ r ↔ isClear S x = false ∧ ((∃ pre post, defaults = pre ++ x :: post ∧ (∀ b ∈ post, removes S b x = false) ∧ ∀ b ∈ attrs, removes S b x = false) ∨
      ∃ pre post, attrs = pre ++ x :: post ∧ ∀ b ∈ post, removes S b x = false) := by
  unfold refineattrs at h
  simp only at h
  split at h
  · simp only [Except.ok.injEq, Option.some.injEq] at h
    rw [← h, (merge_perm S _).mem_iff, mem_survivors_iff]
    constructor
    · rintro ⟨pre, post, hl, h1, h2⟩
      refine ⟨h1, ?_⟩
      rcases List.append_eq_append_iff.mp hl with ⟨m, hp, hr⟩ | ⟨m, hp, hr⟩
      · exact Or.inr ⟨m, post, hr, h2⟩
      · cases m with
        | nil => exact Or.inr ⟨[], post, by simpa using hr.symm, h2⟩
        | cons y m =>
          simp only [List.cons_append, List.cons.injEq] at hr
          obtain ⟨rfl, rfl⟩ := hr
          exact Or.inl ⟨pre, m, hp, fun b hb => h2 b (List.mem_append_left _ hb), fun b hb => h2 b (List.mem_append_right _ hb)⟩
    · rintro ⟨h1, ⟨pre, post, rfl, h2, h3⟩ | ⟨pre, post, rfl, h2⟩⟩
      · exact ⟨pre, post ++ attrs, by simp, h1, fun b hb => (List.mem_append.mp hb).elim (h2 b) (h3 b)⟩
      · exact ⟨defaults ++ pre, post, by simp, h1, h2⟩
  · simp at h

/-- The default font size is replaced, the default shift stays. -/
example : refineattrs textSys (some [.valign 2, .mathmode]) [.valign 1, .vshift 3] [.localattr, .valign] = .ok (some [.vshift 3, .valign 2, .mathmode]) := by decide
example : refineattrs textSys (some [.mathmode, .dash 1]) [.valign 1] [.localattr] = .error (.bad (.dash 1)) := by decide

/-- Case for `refine_given`. -/
example : ([T.vshift 3, .valign 2, .mathmode]).filter (fun x => textSys.inst x .valign) = [.valign 2] :=
  refine_given textSys [] [.mathmode] [.valign 1, .vshift 3] _ (.valign 2) .valign [.localattr, .valign] (Or.inr ⟨_, rfl⟩) rfl (by decide) (by decide)

end PyX.Attr
