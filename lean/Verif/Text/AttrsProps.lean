import Verif.Text.Attrs
import Mathlib.Tactic.LinearCombination

/-!
# C132: text attributes: properties
-/

set_option linter.unusedSectionVars false

namespace PyX.TextAttr

open PyX.Attr

variable {K : Type}

/-! ## Specification -/

/-- `\PyXBoxHAlign` is set by an attribute. -/
def setsH : TA K → Option K
  | .boxhalign h => some h
  | .halign h _ => some h
  | _ => none

/-- Attributes which shift a text down. -/
def isShift : TA K → Bool
  | .vshift _ _ => true
  | .mathaxis => true
  | _ => false

def isSize : TA K → Bool
  | .size _ => true
  | _ => false

/-- The base lines of all paragraphs are valid. -/
def validPar : TA K → Bool
  | .parbox _ b => decide (1 ≤ b) && decide (b ≤ 3)
  | _ => true

/-- The size of the content when attributes are nested in the given order. -/
def lastSize : ℕ → List (TA K) → ℕ
  | n, [] => n
  | _, .size m :: l => lastSize m l
  | n, _ :: l => lastSize n l

section
variable [Field K]

/-- How far a text is lowered in all: every shift by the height in the size which is valid where it is. -/
def shiftOf (f : Fonts K) : ℕ → List (TA K) → K
  | _, [] => 0
  | _, .size m :: l => shiftOf f m l
  | n, .vshift r h :: l => r * f.zero h n + shiftOf f n l
  | n, .mathaxis :: l => f.axis n + shiftOf f n l
  | n, _ :: l => shiftOf f n l

/-- Plain text: its extents depend on the size and on the mode. -/
def plain (g : ℕ → Bool → Box K) : Tex K := fun s => (g s.loc.size s.loc.math, s)

/-- The part of the state which matters. -/
def view (s : St K) : K × ℕ × Bool × Option K := (s.halign, s.loc.size, s.loc.math, s.loc.flush)

/-- Computations which only look at this part. -/
def Resp (c : Tex K) : Prop := ∀ s s', view s = view s' → (c s).1 = (c s').1 ∧ view (c s).2 = view (c s').2

theorem view_eq {s s' : St K} (h : view s = view s') :
    s.halign = s'.halign ∧ s.loc.size = s'.loc.size ∧ s.loc.math = s'.loc.math ∧ s.loc.flush = s'.loc.flush := by
  simp only [view, Prod.mk.injEq] at h; exact h

theorem plain_resp (g : ℕ → Bool → Box K) : Resp (plain g) := by
  intro s s' h
  obtain ⟨-, h2, h3, -⟩ := view_eq h
  exact ⟨by simp [plain, h2, h3], h⟩

theorem group_resp {c : Tex K} (hc : Resp c) : Resp (group c) := by
  intro s s' h
  obtain ⟨h1, h2, h3, h4⟩ := view_eq h
  obtain ⟨a, b⟩ := hc s s' h
  exact ⟨a, by simp [group, view, (view_eq b).1, h2, h3, h4]⟩

theorem vtop_resp (f : Fonts K) (w : K) {c : Tex K} (hc : Resp c) : Resp (vtop f w c) := by
  intro s s' h
  obtain ⟨a, b⟩ := group_resp hc s s' h
  have h4 := (view_eq (hc s s' h).2).2.2.2
  exact ⟨by simp only [vtop, a, h4], by simpa only [vtop] using b⟩

theorem vbox_resp (f : Fonts K) (w : K) {c : Tex K} (hc : Resp c) : Resp (vbox f w c) := by
  intro s s' h
  obtain ⟨a, b⟩ := group_resp hc s s' h
  have h4 := (view_eq (hc s s' h).2).2.2.2
  exact ⟨by simp only [vbox, a, h4], by simpa only [vbox] using b⟩

theorem valign_resp (v : K) {c : Tex K} (hc : Resp c) : Resp (applyVAlign v c) := by
  intro s s' h
  obtain ⟨a, b⟩ := group_resp hc s s' h
  exact ⟨by simp only [applyVAlign, a], by simpa only [applyVAlign, view] using b⟩

theorem vshift_resp (height : ℕ → K) (r : K) {c : Tex K} (hc : Resp c) : Resp (applyVShift height r c) := by
  intro s s' h
  obtain ⟨h1, h2, h3, h4⟩ := view_eq h
  have key := group_resp hc
    { s with loc := { s.loc with box0 := ⟨0, height s.loc.size, 0⟩, dimVShift := r * height s.loc.size } }
    { s' with loc := { s'.loc with box0 := ⟨0, height s'.loc.size, 0⟩, dimVShift := r * height s'.loc.size } }
    (by simp [view, h1, h2, h3, h4])
  obtain ⟨a, b⟩ := key
  refine ⟨?_, by simpa only [applyVShift, view] using b⟩
  simp only [applyVShift]
  rw [a]
  simp only [group, h2]

theorem middle_resp (f : Fonts K) (w : K) {c : Tex K} (hc : Resp c) : Resp (applyMiddle f w c) := by
  intro s s' h
  obtain ⟨h1, h2, h3, h4⟩ := view_eq h
  obtain ⟨a, b⟩ := group_resp (vtop_resp f w hc) s s' h
  have hb := (view_eq b).1
  have key := group_resp (vbox_resp f w hc)
    { (group (vtop f w c) s).2 with loc := { s.loc with boxVBox := (group (vtop f w c) s).1, dimVBox := 1 / 2 * (group (vtop f w c) s).1.dp } }
    { (group (vtop f w c) s').2 with loc := { s'.loc with boxVBox := (group (vtop f w c) s').1, dimVBox := 1 / 2 * (group (vtop f w c) s').1.dp } }
    (by simp only [view, h2, h3, h4, hb])
  obtain ⟨a', b'⟩ := key
  refine ⟨?_, ?_⟩
  · simp only [applyMiddle]
    simp only [group] at a a' ⊢
    rw [a']
    simp only [a]
  · simp only [applyMiddle, view, group] at b' ⊢
    exact b'

theorem apply_resp (f : Fonts K) (g : ℕ → Bool → Box K) (a : TA K) {c : Tex K} (hc : Resp c) : Resp (apply f (plain g) a c) := by
  cases a with
  | boxhalign h =>
    intro s s' e
    obtain ⟨h1, h2, h3, h4⟩ := view_eq e
    exact hc _ _ (by simp [view, h2, h3, h4])
  | flushhalign x =>
    intro s s' e
    obtain ⟨h1, h2, h3, h4⟩ := view_eq e
    exact hc _ _ (by simp [view, h1, h2, h3])
  | halign h x =>
    intro s s' e
    obtain ⟨h1, h2, h3, h4⟩ := view_eq e
    exact hc _ _ (by simp [view, h2, h3])
  | mathmode =>
    intro s s' e
    obtain ⟨h1, h2, h3, h4⟩ := view_eq e
    obtain ⟨a, b⟩ := group_resp hc { s with loc := { s.loc with math := true } } { s' with loc := { s'.loc with math := true } }
      (by simp [view, h1, h2, h4])
    refine ⟨a, ?_⟩
    have hb := (view_eq b).1
    exact Prod.ext hb (Prod.ext h2 (Prod.ext h3 h4))
  | phantom => exact group_resp hc
  | parbox w b =>
    match b with
    | 0 => exact plain_resp g
    | 1 => exact vtop_resp f w hc
    | 2 => exact middle_resp f w hc
    | 3 => exact vbox_resp f w hc
    | b + 4 => exact plain_resp g
  | valign v => exact valign_resp v hc
  | vshift r h => exact vshift_resp _ r hc
  | mathaxis => exact vshift_resp _ 1 hc
  | size n =>
    intro s s' e
    obtain ⟨h1, h2, h3, h4⟩ := view_eq e
    exact hc _ _ (by simp [view, h1, h3, h4])
  | clear c => exact hc
  | clearAll => exact hc

theorem expr_resp (f : Fonts K) (gw g : ℕ → Bool → Box K) : ∀ l : List (TA K), Resp (expr f (plain gw) l (plain g))
  | [] => plain_resp g
  | a :: l => apply_resp f gw a (expr_resp f gw g l)

/-! ## Order of the attributes -/

/-- The order of the attributes other than sizes. -/
def rank : TA K → ℕ
  | .vshift _ _ => 0
  | .mathaxis => 0
  | .valign _ => 1
  | .parbox _ _ => 2
  | .size _ => 4
  | .clear _ => 4
  | .clearAll => 4
  | _ => 3

theorem before_rank (a x : TA K) (h : isSize a = false) : before (sys K) a x = true ↔ rank a < rank x ∧ rank x ≤ 3 := by
  cases a <;> first | (simp [isSize] at h; done) | (cases x <;> simp [before, instAny, sys, rank])

theorem rank_clear (x : TA K) (h : isClear (sys K) x = false) (hs : isSize x = false) : rank x ≤ 3 := by
  cases x <;> simp_all [isClear, sys, isSize, rank]

theorem isShift_rank (x : TA K) : isShift x = true ↔ rank x = 0 := by
  cases x <;> simp [isShift, rank]

theorem isSize_rank (x : TA K) (h : rank x ≤ 3) : isSize x = false := by
  cases x <;> simp_all [isSize, rank]

theorem merged_order (l : List (TA K)) : (mergeattrs (sys K) l).Pairwise fun x a =>
    isSize x = false → isSize a = false → before (sys K) a x = false := by
  induction l using List.reverseRecOn with
  | nil => exact List.Pairwise.nil
  | append_singleton l a ih =>
    rw [mergeattrs_snoc]
    cases hc : isClear (sys K) a with
    | true => rw [merge_clear _ a _ hc]; exact ih.filter _
    | false =>
      obtain ⟨p, q, e, hp, hq, r⟩ := merge_split (sys K) a (mergeattrs (sys K) l) hc
      rw [r]
      rw [e] at ih
      obtain ⟨i1, i2, i3⟩ := List.pairwise_append.1 ih
      rw [List.append_assoc, List.pairwise_append]
      refine ⟨i1.filter _, ?_, ?_⟩
      · simp only [List.cons_append, List.nil_append, List.pairwise_cons]
        refine ⟨?_, i2.filter _⟩
        intro y hy ha hys
        have hy' := (List.mem_filter.1 hy).1
        cases q with
        | nil => simp at hy'
        | cons z q =>
          have hz := hq z rfl
          cases hya : before (sys K) y a with
          | false => rfl
          | true =>
            rw [before_rank a z ha] at hz
            rw [before_rank y a hys] at hya
            have hzs : isSize z = false := isSize_rank z hz.2
            have hyz : before (sys K) y z = true := (before_rank y z hys).mpr ⟨by omega, hz.2⟩
            rcases List.mem_cons.1 hy' with rfl | hy'
            · omega
            · rw [(List.pairwise_cons.1 i2).1 y hy' hzs hys] at hyz; cases hyz
      · intro x hx y hy hs ht
        simp only [List.cons_append, List.nil_append, List.mem_cons] at hy
        have hx' := (List.mem_filter.1 hx).1
        rcases hy with rfl | hy
        · exact hp x hx'
        · exact i3 x hx' y (List.mem_filter.1 hy).1 hs ht

/-- No shift behind another attribute than shifts and sizes. -/
def Sorted : List (TA K) → Prop
  | [] => True
  | a :: l => (isShift a = true ∨ isSize a = true ∨ ∀ x ∈ l, isShift x = false) ∧ Sorted l

theorem sorted_of_order : ∀ l : List (TA K), (∀ x ∈ l, isClear (sys K) x = false) →
    l.Pairwise (fun x a => isSize x = false → isSize a = false → before (sys K) a x = false) → Sorted l
  | [], _, _ => trivial
  | a :: l, hc, h => by
    rw [List.pairwise_cons] at h
    refine ⟨?_, sorted_of_order l (fun x hx => hc x (List.mem_cons_of_mem _ hx)) h.2⟩
    by_cases h1 : isShift a = true
    · exact Or.inl h1
    · by_cases h2 : isSize a = true
      · exact Or.inr (Or.inl h2)
      · refine Or.inr (Or.inr ?_)
        intro x hx
        have hca := hc a (by simp)
        cases hxs : isShift x with
        | false => rfl
        | true =>
          rw [isShift_rank] at hxs
          have hn : isSize x = false := isSize_rank x (by omega)
          have h2' : isSize a = false := by simpa using h2
          have h1' : rank a ≠ 0 := fun e => h1 ((isShift_rank a).mpr e)
          have := h.1 x hx h2' hn
          rw [(before_rank x a hn).mpr ⟨by omega, rank_clear a hca h2'⟩] at this
          cases this

theorem merged_sorted (l : List (TA K)) : Sorted (mergeattrs (sys K) l) :=
  sorted_of_order _ (merge_noclear (sys K) l) (merged_order l)

/-! ## Shifts -/

theorem shiftOf_none (f : Fonts K) : ∀ (l : List (TA K)) (n : ℕ), (∀ x ∈ l, isShift x = false) → shiftOf f n l = 0
  | [], _, _ => rfl
  | a :: l, n, h => by
    have ha := h a (by simp)
    have ih := fun n => shiftOf_none f l n (fun x hx => h x (List.mem_cons_of_mem _ hx))
    cases a <;> simp_all [shiftOf, isShift]

theorem vshift_eval (height : ℕ → K) (r : K) {c : Tex K} (hc : Resp c) (s : St K) :
    (applyVShift height r c s).1 = lower (r * height s.loc.size) (c s).1 ∧
      (applyVShift height r c s).2.halign = (c s).2.halign := by
  have key := hc { s with loc := { s.loc with box0 := ⟨0, height s.loc.size, 0⟩, dimVShift := r * height s.loc.size } } s rfl
  constructor
  · simp only [applyVShift, group]
    rw [key.1]
  · simp only [applyVShift, group]
    exact (view_eq key.2).1

theorem shift_eval (f : Fonts K) (gw g : ℕ → Bool → Box K) : ∀ (l : List (TA K)) (s : St K), Sorted l →
    (expr f (plain gw) l (plain g) s).1 =
      lower (shiftOf f s.loc.size l) (expr f (plain gw) (l.filter fun a => !isShift a) (plain g) s).1 ∧
    (expr f (plain gw) l (plain g) s).2.halign = (expr f (plain gw) (l.filter fun a => !isShift a) (plain g) s).2.halign
  | [], s, _ => by simp [expr, shiftOf, lower]
  | a :: l, s, h => by
    have ih := fun s => shift_eval f gw g l s h.2
    have hr := expr_resp f gw g l
    by_cases h0 : isShift a = true
    · cases a with
      | vshift r hs =>
        have e : expr f (plain gw) (.vshift r hs :: l) (plain g) s = applyVShift (f.zero hs) r (expr f (plain gw) l (plain g)) s := rfl
        have := vshift_eval (f.zero hs) r hr s
        rw [List.filter_cons_of_neg (by simp [isShift]), e, this.1, this.2, (ih s).1, (ih s).2, shiftOf]
        refine ⟨?_, rfl⟩
        simp only [lower, Box.mk.injEq, true_and]
        constructor <;> ring
      | mathaxis =>
        have e : expr f (plain gw) (.mathaxis :: l) (plain g) s = applyVShift f.axis 1 (expr f (plain gw) l (plain g)) s := rfl
        have := vshift_eval f.axis 1 hr s
        rw [List.filter_cons_of_neg (by simp [isShift]), e, this.1, this.2, (ih s).1, (ih s).2, shiftOf]
        refine ⟨?_, rfl⟩
        simp only [lower, Box.mk.injEq, true_and]
        constructor <;> ring
      | _ => simp [isShift] at h0
    · rcases h.1 with h1 | h1 | h1
      · exact absurd h1 h0
      · cases a with
        | size m =>
          rw [List.filter_cons_of_pos (by simp [isShift])]
          exact ih { s with loc := { s.loc with size := m } }
        | _ => simp [isSize] at h1
      · have hf : (a :: l).filter (fun a => !isShift a) = a :: l := by
          rw [List.filter_eq_self]
          intro x hx
          rcases List.mem_cons.mp hx with rfl | hx
          · simpa using h0
          · simp [h1 x hx]
        have hz : shiftOf f s.loc.size (a :: l) = 0 := by
          apply shiftOf_none
          intro x hx
          rcases List.mem_cons.mp hx with rfl | hx
          · simpa using h0
          · exact h1 x hx
        rw [hf, hz]
        simp [lower]

/-- **C132**: in whichever order the attributes are given, a text with shifts is the text without them (in the merged list), lowered by the sum of the shifts. -/
theorem shifts_lower (f : Fonts K) (gw g : ℕ → Bool → Box K) (attrs : List (TA K)) (s : St K) :
    (typeset f (plain gw) attrs (plain g) s).1 =
      let e := (process (expr f (plain gw) ((mergeattrs (sys K) attrs).filter fun a => !isShift a) (plain g)) s).1
      ⟨e.lt, e.rt, e.ht - shiftOf f s.loc.size (mergeattrs (sys K) attrs), e.dp + shiftOf f s.loc.size (mergeattrs (sys K) attrs)⟩ := by
  obtain ⟨h1, h2⟩ := shift_eval f gw g (mergeattrs (sys K) attrs) s (merged_sorted attrs)
  simp only [typeset, process, group]
  rw [h1, h2]
  rfl

/-! ## Vertical alignment -/

theorem valign_eval (v : K) (c : Tex K) (s : St K) :
    (applyVAlign v c s).1 = ⟨(c s).1.wd, v * ((c s).1.ht + (c s).1.dp), (1 - v) * ((c s).1.ht + (c s).1.dp)⟩ ∧
      (applyVAlign v c s).2.halign = (c s).2.halign := by
  constructor
  · simp only [applyVAlign, group, lower, Box.mk.injEq, true_and]
    constructor <;> ring
  · rfl

/-- Only sizes before the alignment. -/
theorem valign_sizes (f : Fonts K) (gw g : ℕ → Bool → Box K) (v : K) (post : List (TA K)) : ∀ (pre : List (TA K)) (s : St K),
    (∀ a ∈ pre, isSize a = true) →
    let b := (expr f (plain gw) (pre ++ .valign v :: post) (plain g) s).1
    b.ht = v * (b.ht + b.dp) ∧ b.dp = (1 - v) * (b.ht + b.dp)
  | [], s, _ => by
    have := (valign_eval v (expr f (plain gw) post (plain g)) s).1
    have e : expr f (plain gw) ([] ++ .valign v :: post) (plain g) s = applyVAlign v (expr f (plain gw) post (plain g)) s := rfl
    rw [e, this]
    dsimp only
    constructor <;> ring
  | a :: pre, s, h => by
    have ha := h a (by simp)
    cases a with
    | size m => exact valign_sizes f gw g v post pre { s with loc := { s.loc with size := m } } (fun a ha => h a (List.mem_cons_of_mem _ ha))
    | _ => simp [isSize] at ha

/-- **C132**: with `valign(v)` as the last vertical alignment (which is not cleared later), wherever it is in the list, the part `v` of the total height of the text is above the base line, and then the text is lowered by the shifts. -/
theorem valign_box (f : Fonts K) (gw g : ℕ → Bool → Box K) (a b : List (TA K)) (v : K) (s : St K)
    (hb : ∀ x ∈ b, (sys K).inst x .valign = false ∧ removes (sys K) x (.valign v) = false) :
    let e := (typeset f (plain gw) (a ++ .valign v :: b) (plain g) s).1
    let sh := shiftOf f s.loc.size (mergeattrs (sys K) (a ++ .valign v :: b))
    e.ht = v * (e.ht + e.dp) - sh ∧ e.dp = (1 - v) * (e.ht + e.dp) + sh := by
  have hex := exclusive_last (sys K) a b (.valign v) .valign (Or.inr ⟨_, rfl⟩) rfl hb
  have hord := merged_order (a ++ .valign v :: b)
  have hcl := merge_noclear (sys K) (a ++ .valign v :: b)
  have hmem : TA.valign v ∈ mergeattrs (sys K) (a ++ .valign v :: b) := by
    have : TA.valign v ∈ (mergeattrs (sys K) (a ++ .valign v :: b)).filter (fun x => (sys K).inst x .valign) := by rw [hex]; simp
    exact (List.mem_filter.1 this).1
  obtain ⟨p, q, hpq⟩ := List.append_of_mem hmem
  rw [shifts_lower]
  dsimp only
  rw [hpq] at hord hcl hex ⊢
  rw [List.filter_append, List.filter_cons_of_pos (by simp [isShift])]
  have hnov : ∀ x ∈ p, (sys K).inst x .valign = false := by
    intro x hx
    by_contra hcon
    rw [List.filter_append, List.filter_cons_of_pos rfl] at hex
    have h0 : (p.filter fun x => (sys K).inst x .valign) = [] := by
      have hl := congrArg List.length hex
      simp only [List.length_append, List.length_cons, List.length_nil] at hl
      exact List.length_eq_zero_iff.mp (by omega)
    rw [List.filter_eq_nil_iff] at h0
    exact h0 x hx (by simpa using hcon)
  have hs : ∀ x ∈ p.filter (fun a => !isShift a), isSize x = true := by
    intro x hx
    obtain ⟨hx1, hx2⟩ := List.mem_filter.1 hx
    have hc := hcl x (by simp [hx1])
    have hn := hnov x hx1
    cases hsz : isSize x with
    | true => rfl
    | false =>
      have hpair := (List.pairwise_append.1 hord).2.2 x hx1 (.valign v) (by simp) hsz rfl
      have hr := rank_clear x hc hsz
      have h1 : rank x ≠ 0 := fun e => by rw [(isShift_rank x).mpr e] at hx2; cases hx2
      have h2 : rank x ≠ 1 := fun e => by cases x <;> simp_all [rank, sys]
      rw [(before_rank (.valign v) x rfl).mpr ⟨by show 1 < rank x; omega, hr⟩] at hpair
      cases hpair
  have key := valign_sizes f gw g v (q.filter fun a => !isShift a) (p.filter fun a => !isShift a) s hs
  simp only [process, group]
  dsimp only at key
  obtain ⟨k1, k2⟩ := key
  constructor
  · rw [sub_add_add_cancel, ← k1]
  · rw [sub_add_add_cancel, ← k2]

/-! ## Horizontal alignment -/

/-- The last alignment set. -/
def lastH : K → List (TA K) → K
  | h, [] => h
  | h, a :: l => lastH ((setsH a).getD h) l

theorem lastH_idem : ∀ (l : List (TA K)) (h : K), lastH (lastH h l) l = lastH h l := by
  have key : ∀ (l : List (TA K)), (∀ h, lastH h l = h) ∨ ∃ k, ∀ h, lastH h l = k := by
    intro l
    induction l with
    | nil => exact Or.inl fun _ => rfl
    | cons a l ih =>
      rcases ih with ih | ⟨k, ih⟩
      · cases e : setsH a with
        | none => exact Or.inl fun h => by rw [lastH, e]; exact ih _
        | some k => exact Or.inr ⟨k, fun h => by rw [lastH, e]; exact ih _⟩
      · exact Or.inr ⟨k, fun h => by rw [lastH]; exact ih _⟩
  intro l h
  rcases key l with k | ⟨c, k⟩
  · rw [k, k]
  · rw [k, k]

theorem halign_eval (f : Fonts K) (gw g : ℕ → Bool → Box K) : ∀ (l : List (TA K)) (s : St K), (∀ a ∈ l, validPar a = true) →
    (expr f (plain gw) l (plain g) s).2.halign = lastH s.halign l
  | [], s, _ => rfl
  | a :: l, s, h => by
    have ih := fun s => halign_eval f gw g l s (fun a ha => h a (List.mem_cons_of_mem _ ha))
    have hr := expr_resp f gw g l
    have ha := h a (by simp)
    show (apply f (plain gw) a (expr f (plain gw) l (plain g)) s).2.halign = _
    cases a with
    | parbox w b =>
      simp only [validPar, Bool.and_eq_true, decide_eq_true_eq] at ha
      match b, ha with
      | 1, _ => simpa [apply, vtop, group, lastH, setsH] using ih s
      | 2, _ =>
        simp only [apply, applyMiddle, vbox, vtop, group, lastH, setsH, Option.getD_none]
        rw [ih, ih]
        exact lastH_idem l _
      | 3, _ => simpa [apply, vbox, group, lastH, setsH] using ih s
      | b + 4, hb => omega
    | vshift r hs =>
      rw [show apply f (plain gw) (.vshift r hs) (expr f (plain gw) l (plain g)) = applyVShift (f.zero hs) r (expr f (plain gw) l (plain g)) from rfl,
        (vshift_eval (f.zero hs) r hr s).2, ih]
      rfl
    | mathaxis =>
      rw [show apply f (plain gw) .mathaxis (expr f (plain gw) l (plain g)) = applyVShift f.axis 1 (expr f (plain gw) l (plain g)) from rfl,
        (vshift_eval f.axis 1 hr s).2, ih]
      rfl
    | mathmode => simpa [apply, group, lastH, setsH] using ih { s with loc := { s.loc with math := true } }
    | size n => simpa [apply, lastH, setsH] using ih { s with loc := { s.loc with size := n } }
    | boxhalign k => simpa [apply, lastH, setsH] using ih { s with halign := k }
    | halign k x => simpa [apply, lastH, setsH] using ih { halign := k, loc := { s.loc with flush := some x } }
    | flushhalign x => simpa [apply, lastH, setsH] using ih { s with loc := { s.loc with flush := some x } }
    | _ => simpa [apply, applyVAlign, group, lastH, setsH] using ih s

theorem lastH_filter : ∀ (l : List (TA K)) (h : K), lastH h (l.filter fun x => !isSorter (sys K) x) = lastH h l
  | [], _ => rfl
  | a :: l, h => by
    cases hs : isSorter (sys K) a with
    | false => rw [List.filter_cons_of_pos (by simp [hs]), lastH, lastH]; exact lastH_filter l _
    | true =>
      rw [List.filter_cons_of_neg (by simp [hs]), lastH, lastH_filter l]
      have : setsH a = none := by cases a <;> simp_all [isSorter, sys, setsH]
      rw [this]; rfl

theorem lastH_none : ∀ (l : List (TA K)) (h : K), (∀ x ∈ l, setsH x = none) → lastH h l = h
  | [], _, _ => rfl
  | a :: l, h, hl => by
    rw [lastH, hl a (by simp)]
    exact lastH_none l h (fun x hx => hl x (List.mem_cons_of_mem _ hx))

theorem lastH_merge (attrs : List (TA K)) (h : K) : lastH h (mergeattrs (sys K) attrs) = lastH h (survivors (sys K) attrs) := by
  rw [← lastH_filter, merge_order, lastH_filter]

theorem lastH_survivors (x : TA K) (k : K) (hx : setsH x = some k) : ∀ (a b : List (TA K)) (h : K),
    (∀ y ∈ b, setsH y = none ∧ removes (sys K) y x = false) → lastH h (survivors (sys K) (a ++ x :: b)) = k
  | [], b, h, hb => by
    have h1 : isClear (sys K) x = false := by cases x <;> simp_all [setsH, isClear, sys]
    have h2 : b.any (removes (sys K) · x) = false := by
      rw [List.any_eq_false]; intro y hy; simp [(hb y hy).2]
    rw [List.nil_append, survivors, h1, h2, Bool.or_self, if_neg (by simp), lastH, hx]
    exact lastH_none _ _ fun y hy => (hb y (mem_survivors_any _ b y hy)).1
  | y :: a, b, h, hb => by
    rw [List.cons_append, survivors]
    split
    · exact lastH_survivors x k hx a b h hb
    · rw [lastH]; exact lastH_survivors x k hx a b _ hb

theorem mem_merge (attrs : List (TA K)) (x : TA K) (h : x ∈ mergeattrs (sys K) attrs) : x ∈ attrs :=
  mem_survivors_any _ _ _ ((merge_perm (sys K) attrs).mem_iff.1 h)

/-- **C132**: a text is aligned horizontally by the last `halign` or `boxhalign` which no later attribute removes: the part `h` of its width is left of its position. -/
theorem halign_last (f : Fonts K) (gw g : ℕ → Bool → Box K) (a b : List (TA K)) (x : TA K) (h : K) (hx : setsH x = some h) (s : St K)
    (hb : ∀ y ∈ b, setsH y = none ∧ removes (sys K) y x = false) (hv : ∀ y ∈ a ++ x :: b, validPar y = true) :
    let e := (typeset f (plain gw) (a ++ x :: b) (plain g) s).1
    e.lt = h * (e.lt + e.rt) ∧ e.rt = (1 - h) * (e.lt + e.rt) := by
  have key := halign_eval f gw g (mergeattrs (sys K) (a ++ x :: b)) s (fun y hy => hv y (mem_merge _ y hy))
  rw [lastH_merge, lastH_survivors x h hx a b _ hb] at key
  simp only [typeset, process, group]
  rw [key]
  constructor <;> ring

/-- **C132**: the box of an aligned text at `(x, y)`: `x` divides its width in the ratio `h : 1 - h`. -/
theorem corner_anchor (f : Fonts K) (gw g : ℕ → Bool → Box K) (a b : List (TA K)) (x : TA K) (h : K) (hx : setsH x = some h) (s : St K)
    (hb : ∀ y ∈ b, setsH y = none ∧ removes (sys K) y x = false) (hv : ∀ y ∈ a ++ x :: b, validPar y = true) (scale X Y : K) :
    let c := corners scale X Y (typeset f (plain gw) (a ++ x :: b) (plain g) s).1
    X = (1 - h) * c.1.1 + h * c.2.1 ∧ c.2.1 - c.1.1 = ((typeset f (plain gw) (a ++ x :: b) (plain g) s).1.lt + (typeset f (plain gw) (a ++ x :: b) (plain g) s).1.rt) * scale := by
  obtain ⟨h1, h2⟩ := halign_last f gw g a b x h hx s hb hv
  simp only [corners]
  constructor
  · linear_combination scale * h1
  · ring

/-- **C132**: texts without `halign` and `boxhalign` start at their position. -/
theorem halign_default (f : Fonts K) (gw g : ℕ → Bool → Box K) (attrs : List (TA K)) (s : St K) (hs : s.halign = 0)
    (ha : ∀ y ∈ attrs, setsH y = none) (hv : ∀ y ∈ attrs, validPar y = true) : (typeset f (plain gw) attrs (plain g) s).1.lt = 0 := by
  have key := halign_eval f gw g (mergeattrs (sys K) attrs) s (fun y hy => hv y (mem_merge _ y hy))
  rw [lastH_none _ _ (fun x hx => ha x (mem_merge _ x hx)), hs] at key
  simp only [typeset, process, group]
  rw [key, zero_mul]

/-- **C132**: texts do not influence each other: after a text the state of TeX is as before. -/
theorem texts_independent (f : Fonts K) (word : Tex K) (attrs : List (TA K)) (content : Tex K) (s : St K) (hs : s.halign = 0) :
    (typeset f word attrs content s).2 = s := by
  cases s
  simp only at hs
  simp [typeset, process, group, hs]

/-! ## Paragraphs -/

theorem keeps_width (f : Fonts K) (gw : ℕ → Bool → Box K) (a : TA K) (c : Tex K) (hc : Resp c) (w : K) (h : ∀ s, (c s).1.wd = w)
    (ha : ∀ w b, a ≠ .parbox w b) (s : St K) : (apply f (plain gw) a c s).1.wd = w := by
  cases a with
  | parbox w b => exact absurd rfl (ha w b)
  | vshift r hs =>
    rw [show apply f (plain gw) (.vshift r hs) c = applyVShift (f.zero hs) r c from rfl, (vshift_eval (f.zero hs) r hc s).1]
    exact h s
  | mathaxis =>
    rw [show apply f (plain gw) .mathaxis c = applyVShift f.axis 1 c from rfl, (vshift_eval f.axis 1 hc s).1]
    exact h s
  | _ => simp [apply, group, applyVAlign, lower, h]

theorem parbox_eval (f : Fonts K) (gw g : ℕ → Bool → Box K) (w : K) (base : ℕ) (hbase : 1 ≤ base ∧ base ≤ 3) (q : List (TA K)) :
    ∀ (p : List (TA K)) (s : St K), (∀ a ∈ p, ∀ w b, a ≠ .parbox w b) →
      (expr f (plain gw) (p ++ .parbox w base :: q) (plain g) s).1.wd = w
  | [], s, _ => by
    show (apply f (plain gw) (.parbox w base) _ s).1.wd = w
    match base, hbase with
    | 1, _ => rfl
    | 2, _ => rfl
    | 3, _ => rfl
    | b + 4, hb => omega
  | a :: p, s, h => keeps_width f gw a _ (expr_resp f gw g _) w (fun s => parbox_eval f gw g w base hbase q p s
      (fun x hx => h x (List.mem_cons_of_mem _ hx))) (h a (by simp)) s

/-- **C132**: a text with `parbox(w)` (the last one, not cleared) has the width `w`, whatever the other attributes are. -/
theorem parbox_width (f : Fonts K) (gw g : ℕ → Bool → Box K) (a b : List (TA K)) (w : K) (base : ℕ) (hbase : 1 ≤ base ∧ base ≤ 3) (s : St K)
    (hb : ∀ x ∈ b, (sys K).inst x .parbox = false ∧ removes (sys K) x (.parbox w base) = false) :
    let e := (typeset f (plain gw) (a ++ .parbox w base :: b) (plain g) s).1
    e.lt + e.rt = w := by
  have hex := exclusive_last (sys K) a b (.parbox w base) .parbox (Or.inr ⟨_, rfl⟩) rfl hb
  have hmem : TA.parbox w base ∈ mergeattrs (sys K) (a ++ .parbox w base :: b) := by
    have : TA.parbox w base ∈ (mergeattrs (sys K) (a ++ .parbox w base :: b)).filter (fun x => (sys K).inst x .parbox) := by rw [hex]; simp
    exact (List.mem_filter.1 this).1
  obtain ⟨p, q, hpq⟩ := List.append_of_mem hmem
  have hp : ∀ x ∈ p, ∀ w b, x ≠ .parbox w b := by
    intro x hx w' b' e
    rw [hpq, List.filter_append, List.filter_cons_of_pos rfl] at hex
    have h0 : (p.filter fun x => (sys K).inst x .parbox) = [] := by
      have hl := congrArg List.length hex
      simp only [List.length_append, List.length_cons, List.length_nil] at hl
      exact List.length_eq_zero_iff.mp (by omega)
    rw [List.filter_eq_nil_iff] at h0
    exact h0 x hx (by rw [e]; rfl)
  simp only [typeset, process, group]
  rw [hpq, parbox_eval f gw g w base hbase q p s hp]
  ring

/-- **C132**: the width of a `parbox` in the output is the one which was asked for: `width` times 72.27/72 in TeX points, divided by the scale, is `width` again when converted back and scaled. -/
theorem parbox_real [CharZero K] (c scale width : K) (hc : c ≠ 0) (hs : scale ≠ 0) : parWidth c scale width * 72 / c * scale = width := by
  unfold parWidth
  field_simp

/-- **C132**: the base line of a paragraph is that of its first line, that of its last line, or half way between them. -/
theorem parbox_baseline [CharZero K] (f : Fonts K) (gw g : ℕ → Bool → Box K) (w : K) (s : St K) (hm : s.loc.flush = none) :
    let p := f.par w none (g s.loc.size s.loc.math)
    (apply f (plain gw) (.parbox w 1) (plain g) s).1 = ⟨w, p.first, p.total - p.first⟩ ∧
    (apply f (plain gw) (.parbox w 3) (plain g) s).1 = ⟨w, p.total - p.last, p.last⟩ ∧
    (apply f (plain gw) (.parbox w 2) (plain g) s).1.dp = ((p.total - p.first) + p.last) / 2 ∧
    (apply f (plain gw) (.parbox w 2) (plain g) s).1.ht + (apply f (plain gw) (.parbox w 2) (plain g) s).1.dp = p.total := by
  refine ⟨?_, ?_, ?_, ?_⟩
  · simp [apply, vtop, group, plain, hm]
  · simp [apply, vbox, group, plain, hm]
  · simp only [apply, applyMiddle, vtop, vbox, group, plain, lower, hm]
    field_simp
    ring
  · simp only [apply, applyMiddle, vtop, vbox, group, plain, lower, hm]
    ring

/-- **C132**: with an invalid base line the text is lost (the `ValueError` is made but not raised): whatever the text is, the word `None` is typeset. -/
theorem invalid_baseline (f : Fonts K) (gw : ℕ → Bool → Box K) (w : K) (base : ℕ) (h : base = 0 ∨ 4 ≤ base) (content : Tex K) (s : St K) :
    (typeset f (plain gw) [.parbox w base] content s).1 = (typeset f (plain gw) [] (plain gw) s).1 := by
  have : ∀ b : TA K, mergeattrs (sys K) [.parbox w base] = [.parbox w base] := fun _ => rfl
  match base, h with
  | 0, _ => rfl
  | b + 4, _ => rfl
  | 1, h => omega
  | 2, h => omega
  | 3, h => omega

/-! ## Size and mode of the content -/

/-- Whether there is a math mode attribute. -/
def hasMath (l : List (TA K)) : Bool := l.any fun | .mathmode => true | _ => false

theorem content_eval (f : Fonts K) (gw g : ℕ → Bool → Box K) : ∀ (l : List (TA K)) (s : St K), (∀ a ∈ l, ∀ w b, a ≠ .parbox w b) →
    (expr f (plain gw) l (plain g) s).1.wd = (g (lastSize s.loc.size l) (s.loc.math || hasMath l)).wd
  | [], s, _ => by simp [expr, plain, lastSize, hasMath]
  | a :: l, s, h => by
    have ih := fun s => content_eval f gw g l s (fun a ha => h a (List.mem_cons_of_mem _ ha))
    have hr := expr_resp f gw g l
    show (apply f (plain gw) a (expr f (plain gw) l (plain g)) s).1.wd = _
    cases a with
    | parbox w b => exact absurd rfl (h _ (by simp) w b)
    | vshift r hs =>
      rw [show apply f (plain gw) (.vshift r hs) (expr f (plain gw) l (plain g)) = applyVShift (f.zero hs) r (expr f (plain gw) l (plain g)) from rfl,
        (vshift_eval (f.zero hs) r hr s).1]
      simpa [lower, lastSize, hasMath] using ih s
    | mathaxis =>
      rw [show apply f (plain gw) .mathaxis (expr f (plain gw) l (plain g)) = applyVShift f.axis 1 (expr f (plain gw) l (plain g)) from rfl,
        (vshift_eval f.axis 1 hr s).1]
      simpa [lower, lastSize, hasMath] using ih s
    | mathmode => simpa [apply, group, lastSize, hasMath] using ih { s with loc := { s.loc with math := true } }
    | size n => simpa [apply, lastSize, hasMath] using ih { s with loc := { s.loc with size := n } }
    | boxhalign k => simpa [apply, lastSize, hasMath] using ih { s with halign := k }
    | halign k x => simpa [apply, lastSize, hasMath] using ih { halign := k, loc := { s.loc with flush := some x } }
    | flushhalign x => simpa [apply, lastSize, hasMath] using ih { s with loc := { s.loc with flush := some x } }
    | _ => simpa [apply, group, applyVAlign, lower, lastSize, hasMath] using ih s

/-- **C132**: the content is typeset in math mode exactly if there is a `mathmode` which is not cleared, and in the size of the last `size` of the merged list (without paragraphs, where the width shows it). -/
theorem content_env (f : Fonts K) (gw g : ℕ → Bool → Box K) (attrs : List (TA K)) (s : St K) (h : ∀ a ∈ attrs, ∀ w b, a ≠ .parbox w b) :
    let e := (typeset f (plain gw) attrs (plain g) s).1
    e.lt + e.rt = (g (lastSize s.loc.size (mergeattrs (sys K) attrs)) (s.loc.math || hasMath (survivors (sys K) attrs))).wd := by
  have key := content_eval f gw g (mergeattrs (sys K) attrs) s (fun a ha => h a (mem_merge _ a ha))
  have hm : hasMath (mergeattrs (sys K) attrs) = hasMath (survivors (sys K) attrs) := by
    unfold hasMath
    rw [Bool.eq_iff_iff, List.any_eq_true, List.any_eq_true]
    constructor
    · rintro ⟨x, hx, hp⟩; exact ⟨x, (merge_perm (sys K) attrs).mem_iff.1 hx, hp⟩
    · rintro ⟨x, hx, hp⟩; exact ⟨x, (merge_perm (sys K) attrs).mem_iff.2 hx, hp⟩
  simp only [typeset, process, group]
  rw [key, hm]
  ring

end

/-! ## Cases -/

/-- Fonts for the cases: zeros are 6 times the size high, the math axis is at 2. -/
def fonts : Fonts ℚ := ⟨fun _ n => 6 * n, fun n => 2 * n, fun w _ b => ⟨b.ht, b.ht + b.wd / w * 10, b.dp⟩⟩

def start : St ℚ := ⟨0, ⟨1, false, none, 0, ⟨0, 0, 0⟩, 0, ⟨0, 0, 0⟩, 0, ⟨0, 0, 0⟩⟩⟩

/-- A text of width 100, height 7 and depth 3 in size 1, wider in math mode. -/
def word : ℕ → Bool → Box ℚ := fun n m => ⟨(if m then 110 else 100) * n, 7 * n, 3 * n⟩

example : (typeset fonts (plain word) [.mathmode, .valign (1 / 2), .halign (1 / 2) (1 / 2), .size 2, .vshift 1 0] (plain word) start).1 =
    (⟨110, 110, 10 - 6, 10 + 6⟩ : Extents ℚ) := by
  decide +kernel

example : (∀ x ∈ ([.size 2, .mathmode] : List (TA ℚ)), (sys ℚ).inst x .valign = false ∧ removes (sys ℚ) x (.valign 0) = false) ∧
    (∀ y ∈ ([.size 2, .flushhalign 1, .parbox 50 2] : List (TA ℚ)), setsH y = none ∧ removes (sys ℚ) y (.boxhalign 0) = false) := by
  constructor <;> intro x hx <;> simp at hx <;> rcases hx with rfl | rfl | rfl <;> simp [sys, removes, setsH]

/-- **C132**: an alignment of the lines given after `halign` drops the alignment of the box, although it does not set another one. -/
theorem flush_drops_box : (typeset fonts (plain word) [.halign (1 / 2) (1 / 2), .flushhalign 0] (plain word) start).1.lt = 0 ∧
    (typeset fonts (plain word) [.flushhalign 0, .halign (1 / 2) (1 / 2)] (plain word) start).1.lt = 50 := by
  constructor <;> decide +kernel

/-- **C132**: a size does not always precede a shift, and the last size given does not always win: `valign`, `size 1`, `vshift`, `size 2` makes the content in size 1. -/
theorem last_size_lost : lastSize 5 (mergeattrs (sys ℚ) [.valign 0, .size 1, .vshift 1 0, .size 2]) = 1 := by
  simp [mergeattrs, merge, sys, sortLoop, sortExclLoop, instAny, lastSize]

/-! ## Sizes -/

/-- **C132**: sizes are chosen by an index or by a name; an index counts from the start of the list up to `None`, or from the end down to it, and gives a size. -/
theorem size_index {S : Type} [DecidableEq S] (up down : List S) (i : ℤ) :
    let list := up.map some ++ none :: down.map some
    (0 ≤ i → i < up.length → ∃ n, up[i.toNat]? = some n ∧ sizeOf (some i) none list = some (some n)) ∧
    (i < 0 → -(down.length : ℤ) ≤ i → ∃ n, down[(i + down.length).toNat]? = some n ∧ sizeOf (some i) none list = some (some n)) ∧
    (((up.length : ℤ) ≤ i ∨ i < -(down.length : ℤ)) → sizeOf (some i) (none : Option S) list = none) := by
  intro list
  have hin : (none : Option S) ∈ list := by simp [list]
  have hidx : list.idxOf none = up.length := by
    have hnot : (none : Option S) ∉ up.map some := by simp
    simp only [list]
    rw [List.idxOf_append_of_notMem hnot]
    simp
  have hlen : list.length = up.length + down.length + 1 := by simp [list]; omega
  refine ⟨?_, ?_, ?_⟩
  · intro h1 h2
    have hk : i.toNat < up.length := by omega
    refine ⟨up[i.toNat], by simp [hk], ?_⟩
    simp only [sizeOf]
    rw [if_pos hin, hidx, if_pos ⟨h1, h2⟩]
    simp only [list]
    rw [List.getElem?_append_left (by simpa using hk)]
    simp [hk]
  · intro h1 h2
    have hk : (i + down.length).toNat < down.length := by omega
    refine ⟨down[(i + down.length).toNat], by simp [hk], ?_⟩
    simp only [sizeOf]
    rw [if_pos hin, hidx, if_neg (by omega), if_pos ⟨h1, by rw [hlen]; push_cast; omega⟩]
    have e : (i + (list.length : ℤ)).toNat = up.length + ((i + down.length).toNat + 1) := by rw [hlen]; push_cast; omega
    rw [e]
    simp only [list]
    rw [List.getElem?_append_right (by simp)]
    simp [hk]
  · intro h
    simp only [sizeOf]
    rw [if_pos hin, hidx, if_neg (by omega), if_neg]
    rw [hlen]; push_cast; omega

example : sizeOf (some (-4)) none defaultSizes = some (some "tiny") ∧ sizeOf (some 5) none defaultSizes = some (some "Huge") ∧
    sizeOf (some 6) none defaultSizes = none ∧ sizeOf (some (-5)) none defaultSizes = none := by decide

/-! ## `escapestring` -/

/-- The replacement of a character, or the character. -/
def esc1 (c : Char) : List Char := (replacement c).getD [c]

theorem escLoop_eq (t done : List Char) :
    escLoop (done ++ t) done.length = if t.all (fun c => decide (32 ≤ c.toNat ∧ c.toNat < 127)) then some (done ++ t.flatMap esc1) else none := by
  induction t generalizing done with
  | nil =>
    rw [escLoop, dif_neg (by simp)]
    simp
  | cons c t ih =>
    rw [escLoop, dif_pos (by simp)]
    have hget : (done ++ c :: t)[done.length]'(by simp) = c := by simp
    rw [hget]
    by_cases hc : 32 ≤ c.toNat ∧ c.toNat < 127
    · rw [if_neg (not_not.mpr hc)]
      have hall : (c :: t).all (fun c => decide (32 ≤ c.toNat ∧ c.toNat < 127)) = t.all (fun c => decide (32 ≤ c.toNat ∧ c.toNat < 127)) := by
        rw [List.all_cons, decide_eq_true hc, Bool.true_and]
      rw [hall, List.flatMap_cons]
      cases hr : replacement c with
      | none =>
        have := ih (done ++ [c])
        rw [List.append_assoc, List.singleton_append, List.length_append, List.length_singleton] at this
        simp only [this, esc1, hr, Option.getD_none, List.append_assoc]
      | some r =>
        have := ih (done ++ r)
        rw [List.length_append] at this
        have e : List.take done.length (done ++ c :: t) ++ r ++ List.drop (done.length + 1) (done ++ c :: t) = (done ++ r) ++ t := by
          rw [List.take_left, List.drop_append]
          simp
        simp only [e]
        rw [this]
        simp only [esc1, hr, Option.getD_some, List.append_assoc]
    · rw [if_pos hc]
      have hall : (c :: t).all (fun c => decide (32 ≤ c.toNat ∧ c.toNat < 127)) = false := by
        rw [List.all_cons, decide_eq_false hc, Bool.false_and]
      rw [hall]; rfl

/-- **C132**: `escapestring` replaces every special character on its own (replacements are not looked at again); characters which are not printable ASCII raise `ValueError`. -/
theorem escape_spec (s : List Char) :
    escapestring s = if s.all (fun c => decide (32 ≤ c.toNat ∧ c.toNat < 127)) then some (s.flatMap esc1) else none := by
  have := escLoop_eq s []
  simpa [escapestring] using this

/-- Reading of an escaped text: the commands for single characters. -/
def unescape : List Char → Option (Char × List Char)
  | '~' :: l => some (' ', l)
  | '\\' :: '$' :: l => some ('$', l)
  | '\\' :: '&' :: l => some ('&', l)
  | '\\' :: '#' :: l => some ('#', l)
  | '\\' :: '_' :: l => some ('_', l)
  | '\\' :: '%' :: l => some ('%', l)
  | '\\' :: 's' :: 't' :: 'r' :: 'i' :: 'n' :: 'g' :: c :: l => some (c, l)
  | '{' :: '$' :: '<' :: '$' :: '}' :: l => some ('<', l)
  | '{' :: '$' :: '>' :: '$' :: '}' :: l => some ('>', l)
  | '{' :: '$' :: '\\' :: '{' :: '$' :: '}' :: l => some ('{', l)
  | '{' :: '$' :: '\\' :: '}' :: '$' :: '}' :: l => some ('}', l)
  | '{' :: '$' :: '\\' :: 's' :: 'e' :: 't' :: 'm' :: 'i' :: 'n' :: 'u' :: 's' :: '$' :: '}' :: l => some ('\\', l)
  | '{' :: '$' :: '\\' :: 'm' :: 'i' :: 'd' :: '$' :: '}' :: l => some ('|', l)
  | c :: l => if c ∈ ['\\', '{', '}', '$', '&', '#', '_', '%', '^', '~', ' ', '<', '>', '|'] then none else some (c, l)
  | [] => none

theorem unescape_esc1 (c : Char) (l : List Char) : unescape (esc1 c ++ l) = some (c, l) := by
  unfold esc1
  by_cases h : c ∈ [' ', '$', '&', '#', '_', '%', '^', '~', '<', '>', '{', '}', '\\', '|']
  · simp only [List.mem_cons, List.not_mem_nil, or_false] at h
    rcases h with rfl | rfl | rfl | rfl | rfl | rfl | rfl | rfl | rfl | rfl | rfl | rfl | rfl | rfl <;> rfl
  · simp only [List.mem_cons, List.not_mem_nil, or_false, not_or] at h
    obtain ⟨h1, h2, h3, h4, h5, h6, h7, h8, h9, h10, h11, h12, h13, h14⟩ := h
    have hr : replacement c = none := by
      unfold replacement
      split <;> first | rfl | (exfalso; simp_all)
    rw [hr, Option.getD_none, List.singleton_append, unescape.eq_def]
    split <;> simp_all

/-- **C132**: escaped strings are unambiguous: reading the commands gives back the characters one by one; in particular different strings are escaped differently. -/
theorem escape_injective (s t : List Char) (r : List Char) (hs : escapestring s = some r) (ht : escapestring t = some r) : s = t := by
  rw [escape_spec] at hs ht
  split at hs
  · split at ht
    · rw [← ht] at hs
      have e := Option.some.inj hs
      clear hs ht
      rename_i h1 h2
      clear h1 h2
      induction s generalizing t with
      | nil =>
        cases t with
        | nil => rfl
        | cons d t =>
          have := unescape_esc1 d (t.flatMap esc1)
          rw [List.flatMap_cons, List.flatMap_nil] at e
          rw [← e] at this
          simp [unescape] at this
      | cons c s ih =>
        cases t with
        | nil =>
          have := unescape_esc1 c (s.flatMap esc1)
          rw [List.flatMap_cons, List.flatMap_nil] at e
          rw [e] at this
          simp [unescape] at this
        | cons d t =>
          have h1 := unescape_esc1 c (s.flatMap esc1)
          have h2 := unescape_esc1 d (t.flatMap esc1)
          rw [List.flatMap_cons, List.flatMap_cons] at e
          rw [e, h2] at h1
          simp only [Option.some.injEq, Prod.mk.injEq] at h1
          rw [h1.1, ih t h1.2.symm]
    · cases ht
  · cases hs

example : escapestring (lit "a_b {50%}") = some (lit "a\\_b~{$\\{$}50\\%{$\\}$}") := by
  rw [escape_spec]; decide +kernel

end PyX.TextAttr
