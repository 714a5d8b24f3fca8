import Verif.T1.Strip
import Verif.T1.CharstringSpec
import Verif.T1.CodeProps
import Mathlib.Data.List.Forall2
import Mathlib.Tactic.Common
import Mathlib.Tactic.SplitIfs

/-!
# C60: a stripped Type 1 font draws the requested glyphs as the original

The specification is the stack machine of `CharstringSpec`. `gathercalls` keeps stale operands on its stack
and never runs any `OtherSubrs` procedure; the simulation relation says that its stacks start with the
numbers the machine has, wherever those are known.
-/

set_option linter.unusedSectionVars false

namespace PyX.T1

open Spec

/-- The tables of a font as seen by the machine: subroutine numbers are not negative. -/
def prog (F : Font) : Prog where
  subr z := if 0 ≤ z then getsubrcmds F z else none
  glyph := getglyphcmds F
  std := stdGlyph

def R : Val → Int → Prop
  | .int z, w => z = w
  | .dyn _, _ => True

def Pre (l : List Val) (m : List Int) : Prop := ∃ a r, m = a ++ r ∧ List.Forall₂ R l a

theorem Pre.nil (m : List Int) : Pre [] m := ⟨[], m, rfl, .nil⟩

theorem Pre.cons {v : Val} {w : Int} {l : List Val} {m : List Int} (h : R v w) (hp : Pre l m) :
    Pre (v :: l) (w :: m) := by
  obtain ⟨a, r, rfl, h2⟩ := hp
  exact ⟨w :: a, r, rfl, .cons h h2⟩

theorem Pre.uncons {v : Val} {l : List Val} {m : List Int} (hp : Pre (v :: l) m) :
    ∃ w m', m = w :: m' ∧ R v w ∧ Pre l m' := by
  obtain ⟨a, r, rfl, h2⟩ := hp
  cases h2 with
  | cons h h2 => exact ⟨_, _, rfl, h, _, r, rfl, h2⟩

theorem Pre.length {l : List Val} {m : List Int} (hp : Pre l m) : l.length ≤ m.length := by
  obtain ⟨a, r, rfl, h2⟩ := hp
  rw [h2.length_eq]; simp

theorem Pre.take {l : List Val} {m : List Int} (n : Nat) (hp : Pre l m) (hn : n ≤ l.length) :
    List.Forall₂ R (l.take n) (m.take n) := by
  obtain ⟨a, r, rfl, h2⟩ := hp
  rw [List.take_append_of_le_length (by rw [← h2.length_eq]; exact hn)]
  exact List.forall₂_take n h2

theorem Pre.drop {l : List Val} {m : List Int} (n : Nat) (hp : Pre l m) (hn : n ≤ l.length) :
    Pre (l.drop n) (m.drop n) := by
  obtain ⟨a, r, rfl, h2⟩ := hp
  refine ⟨a.drop n, r, ?_, List.forall₂_drop n h2⟩
  rw [List.drop_append_of_le_length (by rw [← h2.length_eq]; exact hn)]

theorem pre_dyn (qs : List Rat) (k : Nat) (m r : List Int) (hm : m.length = k) :
    Pre ((qs.map Val.dyn).take k) (m ++ r) := by
  induction qs generalizing m k with
  | nil => simp; exact Pre.nil _
  | cons q qs ih =>
    cases k with
    | zero => exact Pre.nil _
    | succ k =>
      match m, hm with
      | w :: m, hm =>
        simp only [List.map_cons, List.take_succ_cons, List.cons_append]
        exact Pre.cons trivial (ih k m (by simpa using hm))

def Rel (s : St) (c : GCtx) : Prop := Pre s.stack c.t1 ∧ Pre s.ps c.ps

/-- Two fonts have the same entries for all recorded subroutines and glyphs. -/
def Agree (P P' : Prog) (c : GCtx) : Prop :=
  (∀ z ∈ c.subrs, P'.subr z = P.subr z) ∧ (∀ g ∈ c.seac, P'.glyph g = P.glyph g) ∧ P'.std = P.std

def Grow (c c' : GCtx) : Prop := (∀ z ∈ c.subrs, z ∈ c'.subrs) ∧ (∀ g ∈ c.seac, g ∈ c'.seac)

theorem Grow.refl (c : GCtx) : Grow c c := ⟨fun _ h => h, fun _ h => h⟩
theorem Grow.trans {a b c : GCtx} (h : Grow a b) (h' : Grow b c) : Grow a c :=
  ⟨fun z hz => h'.1 z (h.1 z hz), fun z hz => h'.2 z (h.2 z hz)⟩
theorem Agree.mono {P P' : Prog} {c c' : GCtx} (h : Agree P P' c') (g : Grow c c') : Agree P P' c :=
  ⟨fun z hz => h.1 z (g.1 z hz), fun z hz => h.2.1 z (g.2 z hz), h.2.2⟩

/-- A glyph is drawn as a component. -/
def Component (g : String) (out : List Ev) : Prop := .base g ∈ out ∨ ∃ x y z, .accent g x y z ∈ out

/-- The events only grow, and what `gathercalls` records has happened. -/
def Trace (s s' : St) (c c' : GCtx) : Prop :=
  s.out <+: s'.out ∧ (∀ z ∈ c'.subrs, z ∈ c.subrs ∨ .call z ∈ s'.out) ∧
    (∀ g ∈ c'.seac, g ∈ c.seac ∨ Component g s'.out)

theorem Component.mono {g : String} {a b : List Ev} (h : Component g a) (hp : a <+: b) : Component g b := by
  rcases h with h | ⟨x, y, z, h⟩
  · exact .inl (hp.subset h)
  · exact .inr ⟨x, y, z, hp.subset h⟩

theorem Trace.same {s s' : St} {c c' : GCtx} (h : s.out <+: s'.out) (h1 : c'.subrs = c.subrs)
    (h2 : c'.seac = c.seac) : Trace s s' c c' :=
  ⟨h, fun _ hz => .inl (h1 ▸ hz), fun _ hg => .inl (h2 ▸ hg)⟩

theorem Trace.trans {s1 s2 s3 : St} {c1 c2 c3 : GCtx} (h : Trace s1 s2 c1 c2) (h' : Trace s2 s3 c2 c3) :
    Trace s1 s3 c1 c3 := by
  refine ⟨h.1.trans h'.1, fun z hz => ?_, fun g hg => ?_⟩
  · rcases h'.2.1 z hz with h1 | h1
    · rcases h.2.1 z h1 with h2 | h2
      · exact .inl h2
      · exact .inr (h'.1.subset h2)
    · exact .inr h1
  · rcases h'.2.2 g hg with h1 | h1
    · rcases h.2.2 g h1 with h2 | h2
      · exact .inl h2
      · exact .inr (h2.mono h'.1)
    · exact .inr h1

/-- What one level of `gathercalls` has to achieve for the machine's `run`. -/
def Sim (F : Font) (g : List Tok → GCtx → Option GCtx) (r : Prog → List Tok → St → Option St) : Prop :=
  ∀ ts s s' c, r (prog F) ts s = some s' → Rel s c →
    ∃ c', g ts c = some c' ∧ Rel s' c' ∧ (Grow c c' ∧ Trace s s' c c') ∧ ∀ P', Agree (prog F) P' c' → r P' ts s = some s'

theorem sim_callsubr {F : Font} {g} {r} (h : Sim F g r) (s s' : St) (c : GCtx)
    (hs : callsubr (prog F) (r (prog F)) s = some s') (hr : Rel s c) :
    ∃ c', gatherCallsubr F g c = some c' ∧ Rel s' c' ∧ (Grow c c' ∧ Trace s s' c c') ∧
      ∀ P', Agree (prog F) P' c' → callsubr P' (r P') s = some s' := by
  unfold callsubr at hs
  split at hs
  · rename_i z st e
    rw [Option.bind_eq_some_iff] at hs
    obtain ⟨b, hb, hs⟩ := hs
    have h1 := hr.1
    rw [e] at h1
    obtain ⟨w, t1, e1, hR, hp⟩ := h1.uncons
    have hz : z = w := hR
    subst hz
    have hb' : getsubrcmds F z = some b := by
      simp only [prog] at hb
      split_ifs at hb
      exact hb
    obtain ⟨c', hg, hrel, ⟨hgr, htr⟩, hag⟩ := h b _ s' { c with t1 := t1, subrs := z :: c.subrs } hs ⟨hp, hr.2⟩
    refine ⟨c', ?_, hrel, ?_, ?_⟩
    · unfold gatherCallsubr
      simp only [e1, hb', Option.bind_some]
      exact hg
    · refine ⟨⟨fun x hx => hgr.1 x (List.mem_cons_of_mem _ hx), fun x hx => hgr.2 x hx⟩, ?_⟩
      refine ⟨(List.prefix_append _ _).trans htr.1, fun x hx => ?_, htr.2.2⟩
      rcases htr.2.1 x hx with hx | hx
      · rcases List.mem_cons.1 hx with rfl | hx
        · exact .inr (htr.1.subset (by simp))
        · exact .inl hx
      · exact .inr hx
    · intro P' hP
      unfold callsubr
      simp only [e]
      rw [hP.1 z (hgr.1 z (List.mem_cons_self ..)), hb]
      exact hag P' hP
  · exact absurd hs (by simp)

theorem sim_seac {F : Font} {g} {r} (h : Sim F g r) (s s' : St) (c : GCtx)
    (hs : seac (prog F) (r (prog F)) s = some s') (hr : Rel s c) :
    ∃ c', gatherSeac F g c = some c' ∧ Rel s' c' ∧ (Grow c c' ∧ Trace s s' c c') ∧
      ∀ P', Agree (prog F) P' c' → seac P' (r P') s = some s' := by
  unfold seac at hs
  split at hs
  · rename_i achar bchar ady adx asb e
    simp only [Option.bind_eq_some_iff] at hs
    obtain ⟨an, han, bn, hbn, b, hb, s1, hs1, a, ha, s2, hs2, hs⟩ := hs
    have h1 := hr.1
    rw [e] at h1
    obtain ⟨w, t1, e1, hR, hp⟩ := h1.uncons
    obtain ⟨w', t1', e1', hR', hp'⟩ := hp.uncons
    have hz : achar = w := hR
    have hz' : bchar = w' := hR'
    subst hz hz'
    subst e1'
    obtain ⟨c1, hg1, hrel1, ⟨hgr1, htr1⟩, hag1⟩ := h b _ s1 { c with t1 := t1', seac := bn :: an :: c.seac } hs1
      ⟨Pre.nil _, Pre.nil _⟩
    obtain ⟨c2, hg2, hrel2, ⟨hgr2, htr2⟩, hag2⟩ := h a _ s2 c1 hs2 ⟨Pre.nil _, Pre.nil _⟩
    have hgr : Grow { c with t1 := t1', seac := bn :: an :: c.seac } c2 := hgr1.trans hgr2
    refine ⟨c2, ?_, ?_, ?_, ?_⟩
    · unfold gatherSeac
      have hb' : getglyphcmds F bn = some b := hb
      have ha' : getglyphcmds F an = some a := ha
      have han' : stdGlyph achar = some an := han
      have hbn' : stdGlyph bchar = some bn := hbn
      simp only [e1, han', hbn', hb', Option.bind_some]
      rw [hg1]
      simp only [Option.bind_some, ha']
      exact hg2
    · simp only [Option.some.injEq] at hs
      subst hs
      exact ⟨Pre.nil _, Pre.nil _⟩
    · refine ⟨⟨fun x hx => hgr.1 x hx,
        fun x hx => hgr.2 x (List.mem_cons_of_mem _ (List.mem_cons_of_mem _ hx))⟩, ?_⟩
      simp only [Option.some.injEq] at hs
      subst hs
      have p1 : s.out ++ [.base bn] <+: s2.out := htr1.1.trans ((List.prefix_append _ _).trans htr2.1)
      refine ⟨(List.prefix_append _ _).trans p1, fun x hx => ?_, fun x hx => ?_⟩
      · rcases htr2.2.1 x hx with hx | hx
        · rcases htr1.2.1 x hx with hx | hx
          · exact .inl hx
          · exact .inr (((List.prefix_append _ _).trans htr2.1).subset hx)
        · exact .inr hx
      · rcases htr2.2.2 x hx with hx | hx
        · rcases htr1.2.2 x hx with hx | hx
          · rcases List.mem_cons.1 hx with rfl | hx
            · exact .inr (.inl (p1.subset (by simp)))
            · rcases List.mem_cons.1 hx with rfl | hx
              · exact .inr (.inr ⟨_, _, _, htr2.1.subset (List.mem_append_right _ (List.mem_singleton.2 rfl))⟩)
              · exact .inl hx
          · exact .inr (hx.mono ((List.prefix_append _ _).trans htr2.1))
        · exact .inr hx
    · intro P' hP
      unfold seac
      simp only [e]
      rw [hP.2.2, han, hbn]
      simp only [Option.bind_some]
      rw [hP.2.1 bn (hgr.2 bn (List.mem_cons_self ..)), hb]
      simp only [Option.bind_some]
      rw [hag1 P' (hP.mono hgr2)]
      simp only [Option.bind_some]
      rw [hP.2.1 an (hgr.2 an (List.mem_cons_of_mem _ (List.mem_cons_self ..))), ha]
      simp only [Option.bind_some]
      rw [hag2 P' hP]
      exact hs
  · exact absurd hs (by simp)

theorem fdiv_of_dvd (a b : Int) (h : b ∣ a) : a.fdiv b = a / b := by
  exact Int.fdiv_eq_ediv_of_dvd h

theorem sim_div (s s' : St) (c : GCtx) (hok : okDivisor (.esc 12) s = true) (hs : divide s = some s') (hr : Rel s c) :
    ∃ c', gatherDiv c = some c' ∧ Rel s' c' ∧ (Grow c c' ∧ Trace s s' c c') := by
  unfold divide at hs
  have h1 := hr.1
  split at hs
  · rename_i b a st e
    by_cases hb : b = 0
    · rw [if_pos hb] at hs; exact absurd hs (by simp)
    · rw [if_neg hb] at hs
      rw [e] at h1
      obtain ⟨w, t1, e1, hR, hp⟩ := h1.uncons
      obtain ⟨w', t1', e1', hR', hp'⟩ := hp.uncons
      have hz : b = w := hR
      have hz' : a = w' := hR'
      subst hz hz'
      subst e1'
      refine ⟨{ c with t1 := a.fdiv b :: t1' }, ?_, ?_, ⟨⟨fun _ h => h, fun _ h => h⟩, ?_⟩⟩
      · unfold gatherDiv
        simp only [e1, if_neg hb]
      · simp only [Option.some.injEq] at hs
        subst hs
        refine ⟨Pre.cons ?_ hp', hr.2⟩
        split_ifs with hd
        · exact (fdiv_of_dvd a b hd).symm
        · trivial
      · simp only [Option.some.injEq] at hs
        subst hs
        exact Trace.same (List.prefix_refl _) rfl rfl
  · rename_i b a st e
    split_ifs at hs with hb
    · rw [e] at h1
      obtain ⟨w, t1, e1, hR, hp⟩ := h1.uncons
      obtain ⟨w', t1', e1', hR', hp'⟩ := hp.uncons
      have hz : b = w := hR
      subst hz
      subst e1'
      refine ⟨{ c with t1 := w'.fdiv b :: t1' }, ?_, ?_, ⟨⟨fun _ h => h, fun _ h => h⟩, ?_⟩⟩
      · unfold gatherDiv
        simp only [e1, if_neg hb]
      · simp only [Option.some.injEq] at hs
        subst hs
        exact ⟨Pre.cons trivial hp', hr.2⟩
      · simp only [Option.some.injEq] at hs
        subst hs
        exact Trace.same (List.prefix_refl _) rfl rfl
  · rename_i b a st e
    unfold okDivisor at hok
    rw [e] at hok
    exact absurd hok (by simp)
  · simp at hs

theorem sim_other (other : Other) (s s' : St) (c : GCtx) (hs : callother other s = some s') (hr : Rel s c) :
    ∃ c', gatherOther c = some c' ∧ Rel s' c' ∧ (Grow c c' ∧ Trace s s' c c') := by
  unfold callother at hs
  have h1 := hr.1
  split at hs
  · rename_i o n st e
    by_cases hb : n < 0 ∨ st.length < n.toNat
    · rw [if_pos hb] at hs; exact absurd hs (by simp)
    rw [if_neg hb] at hs
    push Not at hb
    rw [e] at h1
    obtain ⟨w, t1, e1, hR, hp⟩ := h1.uncons
    obtain ⟨w', t1', e1', hR', hp'⟩ := hp.uncons
    have hz' : n = w' := hR'
    subst hz'
    subst e1'
    have hl := hp'.length
    refine ⟨{ c with t1 := t1'.drop n.toNat, ps := t1'.take n.toNat ++ c.ps }, ?_, ?_,
      ⟨⟨fun _ h => h, fun _ h => h⟩, ?_⟩⟩
    · unfold gatherOther
      simp only [e1]
      rw [if_neg (by omega)]
    · simp only [Option.some.injEq] at hs
      subst hs
      refine ⟨hp'.drop _ hb.2, ?_⟩
      show Pre (if o = 3 ∧ n = 1 then _ else _) _
      split_ifs
      · exact ⟨_, _, rfl, hp'.take _ hb.2⟩
      · exact pre_dyn _ _ _ _ (by rw [List.length_take]; omega)
    · simp only [Option.some.injEq] at hs
      subst hs
      exact Trace.same (List.prefix_append _ _) rfl rfl
  · exact absurd hs (by simp)

theorem sim_pop (s s' : St) (c : GCtx) (hs : pop s = some s') (hr : Rel s c) :
    ∃ c', gatherPop c = some c' ∧ Rel s' c' ∧ (Grow c c' ∧ Trace s s' c c') := by
  unfold pop at hs
  have h1 := hr.2
  split at hs
  · rename_i v ps e
    rw [e] at h1
    obtain ⟨w, t1, e1, hR, hp⟩ := h1.uncons
    refine ⟨{ c with t1 := w :: c.t1, ps := t1 }, ?_, ?_, ⟨⟨fun _ h => h, fun _ h => h⟩, ?_⟩⟩
    · unfold gatherPop
      simp only [e1]
    · simp only [Option.some.injEq] at hs
      subst hs
      exact ⟨Pre.cons hR hr.1, hp⟩
    · simp only [Option.some.injEq] at hs
      subst hs
      exact Trace.same (List.prefix_refl _) rfl rfl
  · exact absurd hs (by simp)

theorem sim_step (other : Other) {F : Font} {g} {r} (h : Sim F g r) (t : Tok) (s s' : St) (c : GCtx)
    (hs : step okDivisor other (prog F) (r (prog F)) t s = some s') (hr : Rel s c) :
    ∃ c', gatherStep F g t c = some c' ∧ Rel s' c' ∧ (Grow c c' ∧ Trace s s' c c') ∧
      ∀ P', Agree (prog F) P' c' → step okDivisor other P' (r P') t s = some s' := by
  unfold step at hs
  by_cases hd : s.done ∨ okDivisor t s = false
  · rw [if_pos hd] at hs; exact absurd hs (by simp)
  rw [if_neg hd] at hs
  cases t with
  | num z =>
    simp only [Option.some.injEq] at hs
    refine ⟨{ c with t1 := z :: c.t1 }, rfl, ?_, ⟨⟨fun _ h => h, fun _ h => h⟩, ?_⟩, ?_⟩
    · subst hs; exact ⟨Pre.cons rfl hr.1, hr.2⟩
    · subst hs; exact Trace.same (List.prefix_refl _) rfl rfl
    · intro P' _; unfold step; rw [if_neg hd, ← hs]
  | cmd k =>
    simp only at hs
    by_cases hk : k = 10
    · subst hk
      rw [if_pos rfl] at hs
      obtain ⟨c', h1, h2, h3, h4⟩ := sim_callsubr h s s' c hs hr
      refine ⟨c', h1, h2, h3, fun P' hP => ?_⟩
      unfold step; rw [if_neg hd]; exact h4 P' hP
    · rw [if_neg hk] at hs
      simp only [Option.some.injEq] at hs
      refine ⟨c, ?_, ?_, ⟨Grow.refl c, ?_⟩, fun P' hP => ?_⟩
      · simp only [gatherStep, if_neg hk]
      · subst hs; exact ⟨Pre.nil _, hr.2⟩
      · subst hs; exact Trace.same (List.prefix_append _ _) rfl rfl
      · unfold step; rw [if_neg hd]; simp only [if_neg hk]; rw [hs]
  | esc k =>
    simp only at hs
    by_cases h6 : k = 6
    · subst h6
      rw [if_pos rfl] at hs
      obtain ⟨c', h1, h2, h3, h4⟩ := sim_seac h s s' c hs hr
      refine ⟨c', h1, h2, h3, fun P' hP => ?_⟩
      unfold step; rw [if_neg hd]; exact h4 P' hP
    rw [if_neg h6] at hs
    by_cases h12 : k = 12
    · subst h12
      rw [if_pos rfl] at hs
      obtain ⟨c', h1, h2, h3⟩ := sim_div s s' c (by simpa using fun h => hd (Or.inr h)) hs hr
      refine ⟨c', h1, h2, h3, fun P' hP => ?_⟩
      unfold step; rw [if_neg hd]; exact hs
    rw [if_neg h12] at hs
    by_cases h16 : k = 16
    · subst h16
      rw [if_pos rfl] at hs
      obtain ⟨c', h1, h2, h3⟩ := sim_other other s s' c hs hr
      refine ⟨c', h1, h2, h3, fun P' hP => ?_⟩
      unfold step; rw [if_neg hd]; exact hs
    rw [if_neg h16] at hs
    by_cases h17 : k = 17
    · subst h17
      rw [if_pos rfl] at hs
      obtain ⟨c', h1, h2, h3⟩ := sim_pop s s' c hs hr
      refine ⟨c', h1, h2, h3, fun P' hP => ?_⟩
      unfold step; rw [if_neg hd]; exact hs
    rw [if_neg h17] at hs
    simp only [Option.some.injEq] at hs
    refine ⟨c, ?_, ?_, ⟨Grow.refl c, ?_⟩, fun P' hP => ?_⟩
    · simp only [gatherStep, if_neg h6, if_neg h12, if_neg h16, if_neg h17]
    · subst hs; exact ⟨Pre.nil _, hr.2⟩
    · subst hs; exact Trace.same (List.prefix_append _ _) rfl rfl
    · unfold step; rw [if_neg hd]; simp only [if_neg h6, if_neg h12, if_neg h16, if_neg h17]; rw [hs]

theorem sim_loop (other : Other) {F : Font} {g} {r} (h : Sim F g r) :
    Sim F (gatherLoop (gatherStep F g)) (fun P => loop (step okDivisor other P (r P))) := by
  intro ts
  induction ts with
  | nil =>
    intro s s' c hs hr
    simp only [loop, Option.some.injEq] at hs
    subst hs
    exact ⟨c, rfl, hr, ⟨Grow.refl c, Trace.same (List.prefix_refl _) rfl rfl⟩, fun P' _ => rfl⟩
  | cons t ts ih =>
    intro s s' c hs hr
    simp only [loop] at hs
    by_cases ht : t = .cmd 11
    · rw [if_pos ht] at hs
      split_ifs at hs with h0
      simp only [Option.some.injEq] at hs
      subst hs
      refine ⟨c, ?_, hr, ⟨Grow.refl c, Trace.same (List.prefix_refl _) rfl rfl⟩, fun P' _ => ?_⟩
      · subst ht; subst h0; simp [gatherLoop, gatherStep]
      · simp only [loop, if_pos ht, if_pos h0]
    · rw [if_neg ht, Option.bind_eq_some_iff] at hs
      obtain ⟨s1, h1, h2⟩ := hs
      obtain ⟨c1, hg1, hr1, ⟨hgr1, htr1⟩, ha1⟩ := sim_step other h t s s1 c h1 hr
      obtain ⟨c2, hg2, hr2, ⟨hgr2, htr2⟩, ha2⟩ := ih s1 s' c1 h2 hr1
      refine ⟨c2, ?_, hr2, ⟨hgr1.trans hgr2, htr1.trans htr2⟩, fun P' hP => ?_⟩
      · simp only [gatherLoop, hg1, Option.bind_some, hg2]
      · simp only [loop, if_neg ht]
        rw [ha1 P' (hP.mono hgr2), Option.bind_some]
        exact ha2 P' hP

theorem sim_run (other : Other) (F : Font) (n : Nat) :
    Sim F (gathercalls F n) (fun P => run okDivisor other P n) := by
  induction n with
  | zero => intro ts s s' c hs; simp [run] at hs
  | succ n ih => exact sim_loop other ih

/-! ## The same with `gathercalls` known to succeed

Here divisors may be computed and the two recursion limits are independent. -/

def Sim₂ (F : Font) (g : List Tok → GCtx → Option GCtx) (r : Prog → List Tok → St → Option St) : Prop :=
  ∀ ts s s' c c', r (prog F) ts s = some s' → Rel s c → g ts c = some c' →
    Rel s' c' ∧ Grow c c' ∧ ∀ P', Agree (prog F) P' c' → r P' ts s = some s'

theorem sim₂_callsubr {F : Font} {g} {r} (h : Sim₂ F g r) (s s' : St) (c c' : GCtx)
    (hs : callsubr (prog F) (r (prog F)) s = some s') (hr : Rel s c) (hg : gatherCallsubr F g c = some c') :
    Rel s' c' ∧ Grow c c' ∧ ∀ P', Agree (prog F) P' c' → callsubr P' (r P') s = some s' := by
  unfold callsubr at hs
  split at hs
  · rename_i z st e
    rw [Option.bind_eq_some_iff] at hs
    obtain ⟨b, hb, hs⟩ := hs
    have h1 := hr.1
    rw [e] at h1
    obtain ⟨w, t1, e1, hR, hp⟩ := h1.uncons
    have hz : z = w := hR
    subst hz
    have hb' : getsubrcmds F z = some b := by
      simp only [prog] at hb
      split_ifs at hb
      exact hb
    unfold gatherCallsubr at hg
    simp only [e1, hb', Option.bind_some] at hg
    obtain ⟨hrel, hgr, hag⟩ := h b _ s' { c with t1 := t1, subrs := z :: c.subrs } c' hs ⟨hp, hr.2⟩ hg
    refine ⟨hrel, ?_, ?_⟩
    · exact ⟨fun x hx => hgr.1 x (List.mem_cons_of_mem _ hx), fun x hx => hgr.2 x hx⟩
    · intro P' hP
      unfold callsubr
      simp only [e]
      rw [hP.1 z (hgr.1 z (List.mem_cons_self ..)), hb]
      exact hag P' hP
  · exact absurd hs (by simp)

theorem sim₂_seac {F : Font} {g} {r} (h : Sim₂ F g r) (s s' : St) (c c' : GCtx)
    (hs : seac (prog F) (r (prog F)) s = some s') (hr : Rel s c) (hg : gatherSeac F g c = some c') :
    Rel s' c' ∧ Grow c c' ∧ ∀ P', Agree (prog F) P' c' → seac P' (r P') s = some s' := by
  unfold seac at hs
  split at hs
  · rename_i achar bchar ady adx asb e
    simp only [Option.bind_eq_some_iff] at hs
    obtain ⟨an, han, bn, hbn, b, hb, s1, hs1, a, ha, s2, hs2, hs⟩ := hs
    have h1 := hr.1
    rw [e] at h1
    obtain ⟨w, t1, e1, hR, hp⟩ := h1.uncons
    obtain ⟨w', t1', e1', hR', hp'⟩ := hp.uncons
    have hz : achar = w := hR
    have hz' : bchar = w' := hR'
    subst hz hz'
    subst e1'
    have hb' : getglyphcmds F bn = some b := hb
    have ha' : getglyphcmds F an = some a := ha
    have han' : stdGlyph achar = some an := han
    have hbn' : stdGlyph bchar = some bn := hbn
    unfold gatherSeac at hg
    simp only [e1, han', hbn', hb', Option.bind_some] at hg
    rw [Option.bind_eq_some_iff] at hg
    obtain ⟨c1, hg1, hg2⟩ := hg
    simp only [ha', Option.bind_some] at hg2
    obtain ⟨hrel1, hgr1, hag1⟩ := h b _ s1 _ c1 hs1 ⟨Pre.nil _, Pre.nil _⟩ hg1
    obtain ⟨hrel2, hgr2, hag2⟩ := h a _ s2 c1 c' hs2 ⟨Pre.nil _, Pre.nil _⟩ hg2
    have hgr : Grow { c with t1 := t1', seac := bn :: an :: c.seac } c' := hgr1.trans hgr2
    refine ⟨?_, ?_, ?_⟩
    · simp only [Option.some.injEq] at hs
      subst hs
      exact ⟨Pre.nil _, Pre.nil _⟩
    · exact ⟨fun x hx => hgr.1 x hx,
        fun x hx => hgr.2 x (List.mem_cons_of_mem _ (List.mem_cons_of_mem _ hx))⟩
    · intro P' hP
      unfold seac
      simp only [e]
      rw [hP.2.2, han, hbn]
      simp only [Option.bind_some]
      rw [hP.2.1 bn (hgr.2 bn (List.mem_cons_self ..)), hb]
      simp only [Option.bind_some]
      rw [hag1 P' (hP.mono hgr2)]
      simp only [Option.bind_some]
      rw [hP.2.1 an (hgr.2 an (List.mem_cons_of_mem _ (List.mem_cons_self ..))), ha]
      simp only [Option.bind_some]
      rw [hag2 P' hP]
      exact hs
  · exact absurd hs (by simp)

theorem sim₂_div (s s' : St) (c c' : GCtx) (hs : divide s = some s') (hr : Rel s c)
    (hg : gatherDiv c = some c') : Rel s' c' ∧ Grow c c' := by
  by_cases hd : ∃ b a st, s.stack = .dyn b :: a :: st
  · obtain ⟨b, a, st, e⟩ := hd
    unfold divide at hs
    simp only [e] at hs
    have h1 := hr.1
    rw [e] at h1
    obtain ⟨w, t1, e1, hR, hp⟩ := h1.uncons
    obtain ⟨w', t1', e1', hR', hp'⟩ := hp.uncons
    subst e1'
    unfold gatherDiv at hg
    simp only [e1] at hg
    split_ifs at hg
    split_ifs at hs
    simp only [Option.some.injEq] at hs hg
    subst hs hg
    exact ⟨⟨Pre.cons trivial hp', hr.2⟩, ⟨fun _ h => h, fun _ h => h⟩⟩
  · have hok : okDivisor (.esc 12) s = true := by
      unfold okDivisor
      split
      · rename_i _ b st _ e2
        unfold divide at hs
        rw [e2] at hs
        cases st with
        | nil => simp at hs
        | cons x l => exact absurd ⟨b, x, l, e2⟩ hd
      · rfl
    obtain ⟨c'', h1, h2, h3⟩ := sim_div s s' c hok hs hr
    rw [hg] at h1
    cases h1
    exact ⟨h2, h3.1⟩

theorem sim₂_step (ok : Ok) (other : Other) {F : Font} {g} {r} (h : Sim₂ F g r) (t : Tok) (s s' : St)
    (c c' : GCtx) (hs : step ok other (prog F) (r (prog F)) t s = some s') (hr : Rel s c)
    (hg : gatherStep F g t c = some c') :
    Rel s' c' ∧ Grow c c' ∧ ∀ P', Agree (prog F) P' c' → step ok other P' (r P') t s = some s' := by
  unfold step at hs
  by_cases hd : s.done ∨ ok t s = false
  · rw [if_pos hd] at hs; exact absurd hs (by simp)
  rw [if_neg hd] at hs
  cases t with
  | num z =>
    simp only [Option.some.injEq] at hs
    simp only [gatherStep, Option.some.injEq] at hg
    refine ⟨?_, ?_, ?_⟩
    · subst hs hg; exact ⟨Pre.cons rfl hr.1, hr.2⟩
    · subst hg; exact ⟨fun _ h => h, fun _ h => h⟩
    · intro P' _; unfold step; rw [if_neg hd, ← hs]
  | cmd k =>
    simp only [gatherStep] at hs hg
    by_cases hk : k = 10
    · subst hk
      rw [if_pos rfl] at hs hg
      obtain ⟨h2, h3, h4⟩ := sim₂_callsubr h s s' c c' hs hr hg
      refine ⟨h2, h3, fun P' hP => ?_⟩
      unfold step; rw [if_neg hd]; exact h4 P' hP
    · rw [if_neg hk] at hs hg
      simp only [Option.some.injEq] at hs hg
      subst hg
      refine ⟨?_, Grow.refl c, fun P' hP => ?_⟩
      · subst hs; exact ⟨Pre.nil _, hr.2⟩
      · unfold step; rw [if_neg hd]; simp only [if_neg hk]; rw [hs]
  | esc k =>
    simp only [gatherStep] at hs hg
    by_cases h6 : k = 6
    · subst h6
      rw [if_pos rfl] at hs hg
      obtain ⟨h2, h3, h4⟩ := sim₂_seac h s s' c c' hs hr hg
      refine ⟨h2, h3, fun P' hP => ?_⟩
      unfold step; rw [if_neg hd]; exact h4 P' hP
    rw [if_neg h6] at hs hg
    by_cases h12 : k = 12
    · subst h12
      rw [if_pos rfl] at hs hg
      obtain ⟨h2, h3⟩ := sim₂_div s s' c c' hs hr hg
      refine ⟨h2, h3, fun P' hP => ?_⟩
      unfold step; rw [if_neg hd]; exact hs
    rw [if_neg h12] at hs hg
    by_cases h16 : k = 16
    · subst h16
      rw [if_pos rfl] at hs hg
      obtain ⟨c'', h1, h2, h3⟩ := sim_other other s s' c hs hr
      rw [hg] at h1; cases h1
      refine ⟨h2, h3.1, fun P' hP => ?_⟩
      unfold step; rw [if_neg hd]; exact hs
    rw [if_neg h16] at hs hg
    by_cases h17 : k = 17
    · subst h17
      rw [if_pos rfl] at hs hg
      obtain ⟨c'', h1, h2, h3⟩ := sim_pop s s' c hs hr
      rw [hg] at h1; cases h1
      refine ⟨h2, h3.1, fun P' hP => ?_⟩
      unfold step; rw [if_neg hd]; exact hs
    rw [if_neg h17] at hs hg
    simp only [Option.some.injEq] at hs hg
    subst hg
    refine ⟨?_, Grow.refl c, fun P' hP => ?_⟩
    · subst hs; exact ⟨Pre.nil _, hr.2⟩
    · unfold step; rw [if_neg hd]; simp only [if_neg h6, if_neg h12, if_neg h16, if_neg h17]; rw [hs]

theorem sim₂_loop (ok : Ok) (other : Other) {F : Font} {g} {r} (h : Sim₂ F g r) :
    Sim₂ F (gatherLoop (gatherStep F g)) (fun P => loop (step ok other P (r P))) := by
  intro ts
  induction ts with
  | nil =>
    intro s s' c c' hs hr hg
    simp only [loop, Option.some.injEq] at hs
    simp only [gatherLoop, Option.some.injEq] at hg
    subst hs hg
    exact ⟨hr, Grow.refl c, fun P' _ => rfl⟩
  | cons t ts ih =>
    intro s s' c c' hs hr hg
    simp only [loop] at hs
    by_cases ht : t = .cmd 11
    · rw [if_pos ht] at hs
      split_ifs at hs with h0
      simp only [Option.some.injEq] at hs
      subst hs
      subst ht; subst h0
      simp [gatherLoop, gatherStep] at hg
      subst hg
      exact ⟨hr, Grow.refl c, fun P' _ => by simp [loop]⟩
    · rw [if_neg ht, Option.bind_eq_some_iff] at hs
      obtain ⟨s1, h1, h2⟩ := hs
      simp only [gatherLoop, Option.bind_eq_some_iff] at hg
      obtain ⟨c1, hg1, hg2⟩ := hg
      obtain ⟨hr1, hgr1, ha1⟩ := sim₂_step ok other h t s s1 c c1 h1 hr hg1
      obtain ⟨hr2, hgr2, ha2⟩ := ih s1 s' c1 c' h2 hr1 hg2
      refine ⟨hr2, hgr1.trans hgr2, fun P' hP => ?_⟩
      simp only [loop, if_neg ht]
      rw [ha1 P' (hP.mono hgr2), Option.bind_some]
      exact ha2 P' hP

theorem sim₂_run (ok : Ok) (other : Other) (F : Font) (n m : Nat) :
    Sim₂ F (gathercalls F n) (fun P => run ok other P m) := by
  induction m generalizing n with
  | zero => intro ts s s' c c' hs; simp [run] at hs
  | succ m ih =>
    cases n with
    | zero => intro ts s s' c c' _ _ hg; simp [gathercalls] at hg
    | succ n => exact sim₂_loop ok other (ih n)

/-! ## The written tables -/

theorem le_subrsmax (l : List Int) (z : Int) (h : z ∈ l) : z ≤ subrsmax l := by
  induction l with
  | nil => simp at h
  | cons a l ih =>
    cases l with
    | nil => simp at h; subst h; exact le_refl _
    | cons b l =>
      simp only [subrsmax]
      rcases List.mem_cons.1 h with rfl | h
      · exact le_max_left _ _
      · exact le_trans (ih h) (le_max_right _ _)

theorem mem_adjust (F : Font) (l : List Int) (z : Int) (h : z ∈ l) : z ∈ adjustSubrs F l := by
  unfold adjustSubrs
  split_ifs
  · exact List.mem_append_right _ h
  · exact h

theorem mapM_some_getElem? {α β : Type} (f : α → Option β) (l : List α) (r : List β)
    (h : l.mapM f = some r) (i : Nat) : r[i]? = l[i]?.bind f := by
  induction l generalizing r i with
  | nil => simp at h; subst h; simp
  | cons a l ih =>
    rw [List.mapM_cons] at h
    cases ha : f a with
    | none => rw [ha] at h; simp at h
    | some b =>
      rw [ha] at h
      cases hl : l.mapM f with
      | none => rw [hl] at h; simp at h
      | some bs =>
        rw [hl] at h
        simp at h
        subst h
        cases i with
        | zero => simp [ha]
        | succ i => simpa using ih bs hl i

theorem mapM_isSome {α β : Type} (f : α → Option β) (l : List α) (h : ∀ a ∈ l, (f a).isSome) :
    (l.mapM f).isSome := by
  induction l with
  | nil => simp
  | cons a l ih =>
    rw [List.mapM_cons]
    obtain ⟨b, hb⟩ := Option.isSome_iff_exists.1 (h a (List.mem_cons_self ..))
    obtain ⟨bs, hbs⟩ := Option.isSome_iff_exists.1 (ih fun x hx => h x (List.mem_cons_of_mem _ hx))
    rw [hb, hbs]; simp

/-- Entry `i` of the written array. -/
theorem written_get (F : Font) (l : List Int) (r : List (List Nat)) (h : writtenSubrs F l = some r) (i : Nat) :
    r[i]? = if (i : Int) ≤ subrsmax l then (if (i : Int) ∈ l then F.subrs[i]? else some (emptysubr F))
      else none := by
  unfold writtenSubrs at h
  rw [mapM_some_getElem? _ _ _ h i]
  have hpy : pyIndex F.subrs (i : Int) = F.subrs[i]? := by simp [pyIndex]
  by_cases hi : (i : Int) ≤ subrsmax l
  · rw [if_pos hi, List.getElem?_range (by omega)]
    simp only [Option.bind_some, hpy]
  · rw [if_neg hi, List.getElem?_eq_none (by simp; omega)]
    rfl

/-! ## What `gathercalls` records exists -/

def Known (F : Font) (c : GCtx) : Prop := ∀ z ∈ c.subrs, (pyIndex F.subrs z).isSome

theorem known_step {F : Font} {g} (hg : ∀ ts c c', g ts c = some c' → Known F c → Known F c') (t : Tok)
    (c c' : GCtx) (h : gatherStep F g t c = some c') (hk : Known F c) : Known F c' := by
  cases t with
  | num z => simp only [gatherStep, Option.some.injEq] at h; subst h; exact hk
  | cmd k =>
    simp only [gatherStep] at h
    by_cases h10 : k = 10
    · rw [if_pos h10] at h
      unfold gatherCallsubr at h
      split at h
      · rename_i subr t1 e
        rw [Option.bind_eq_some_iff] at h
        obtain ⟨b, hb, h⟩ := h
        refine hg _ _ _ h ?_
        intro z hz
        rcases List.mem_cons.1 hz with rfl | hz
        · unfold getsubrcmds at hb
          rw [Option.bind_eq_some_iff] at hb
          obtain ⟨x, hx, _⟩ := hb
          rw [hx]; rfl
        · exact hk z hz
      · exact absurd h (by simp)
    · rw [if_neg h10, Option.some.injEq] at h; subst h; exact hk
  | esc k =>
    simp only [gatherStep] at h
    by_cases h6 : k = 6
    · rw [if_pos h6] at h
      unfold gatherSeac at h
      split at h
      · simp only [Option.bind_eq_some_iff] at h
        obtain ⟨an, _, bn, _, b, _, c1, h1, a, _, h2⟩ := h
        exact hg _ _ _ h2 (hg _ _ _ h1 hk)
      · exact absurd h (by simp)
    rw [if_neg h6] at h
    by_cases h12 : k = 12
    · rw [if_pos h12] at h
      unfold gatherDiv at h
      split at h
      · split_ifs at h
        simp only [Option.some.injEq] at h; subst h; exact hk
      · exact absurd h (by simp)
    rw [if_neg h12] at h
    by_cases h16 : k = 16
    · rw [if_pos h16] at h
      unfold gatherOther at h
      split at h
      · split_ifs at h
        simp only [Option.some.injEq] at h; subst h; exact hk
      · exact absurd h (by simp)
    rw [if_neg h16] at h
    by_cases h17 : k = 17
    · rw [if_pos h17] at h
      unfold gatherPop at h
      split at h
      · simp only [Option.some.injEq] at h; subst h; exact hk
      · exact absurd h (by simp)
    rw [if_neg h17, Option.some.injEq] at h; subst h; exact hk

theorem known_loop {F : Font} {st : Tok → GCtx → Option GCtx}
    (hst : ∀ t c c', st t c = some c' → Known F c → Known F c') (ts : List Tok) :
    ∀ c c', gatherLoop st ts c = some c' → Known F c → Known F c' := by
  induction ts with
  | nil => intro c c' h hk; simp only [gatherLoop, Option.some.injEq] at h; subst h; exact hk
  | cons t ts ih =>
    intro c c' h hk
    simp only [gatherLoop, Option.bind_eq_some_iff] at h
    obtain ⟨c1, h1, h2⟩ := h
    exact ih c1 c' h2 (hst t c c1 h1 hk)

theorem known_gather (F : Font) (n : Nat) : ∀ ts c c', gathercalls F n ts c = some c' → Known F c → Known F c' := by
  induction n with
  | zero => intro ts c c' h; simp [gathercalls] at h
  | succ n ih =>
    intro ts
    exact known_loop (fun t c c' h hk => known_step ih t c c' h hk) ts

/-! ## The loop over the requested glyphs -/

theorem grow_step {F : Font} {g} (hg : ∀ ts c c', g ts c = some c' → Grow c c') (t : Tok)
    (c c' : GCtx) (h : gatherStep F g t c = some c') : Grow c c' := by
  cases t with
  | num z => simp only [gatherStep, Option.some.injEq] at h; subst h; exact Grow.refl c
  | cmd k =>
    simp only [gatherStep] at h
    by_cases h10 : k = 10
    · rw [if_pos h10] at h
      unfold gatherCallsubr at h
      split at h
      · rw [Option.bind_eq_some_iff] at h
        obtain ⟨b, hb, h⟩ := h
        have := hg _ _ _ h
        exact ⟨fun x hx => this.1 x (List.mem_cons_of_mem _ hx), fun x hx => this.2 x hx⟩
      · exact absurd h (by simp)
    · rw [if_neg h10, Option.some.injEq] at h; subst h; exact Grow.refl c
  | esc k =>
    simp only [gatherStep] at h
    by_cases h6 : k = 6
    · rw [if_pos h6] at h
      unfold gatherSeac at h
      split at h
      · simp only [Option.bind_eq_some_iff] at h
        obtain ⟨an, _, bn, _, b, _, c1, h1, a, _, h2⟩ := h
        have := (hg _ _ _ h1).trans (hg _ _ _ h2)
        exact ⟨fun x hx => this.1 x hx,
          fun x hx => this.2 x (List.mem_cons_of_mem _ (List.mem_cons_of_mem _ hx))⟩
      · exact absurd h (by simp)
    rw [if_neg h6] at h
    by_cases h12 : k = 12
    · rw [if_pos h12] at h
      unfold gatherDiv at h
      split at h
      · split_ifs at h
        simp only [Option.some.injEq] at h; subst h; exact Grow.refl c
      · exact absurd h (by simp)
    rw [if_neg h12] at h
    by_cases h16 : k = 16
    · rw [if_pos h16] at h
      unfold gatherOther at h
      split at h
      · split_ifs at h
        simp only [Option.some.injEq] at h; subst h; exact Grow.refl c
      · exact absurd h (by simp)
    rw [if_neg h16] at h
    by_cases h17 : k = 17
    · rw [if_pos h17] at h
      unfold gatherPop at h
      split at h
      · simp only [Option.some.injEq] at h; subst h; exact Grow.refl c
      · exact absurd h (by simp)
    rw [if_neg h17, Option.some.injEq] at h; subst h; exact Grow.refl c

theorem grow_loop {st : Tok → GCtx → Option GCtx}
    (hst : ∀ t c c', st t c = some c' → Grow c c') (ts : List Tok) :
    ∀ c c', gatherLoop st ts c = some c' → Grow c c' := by
  induction ts with
  | nil => intro c c' h; simp only [gatherLoop, Option.some.injEq] at h; subst h; exact Grow.refl c
  | cons t ts ih =>
    intro c c' h
    simp only [gatherLoop, Option.bind_eq_some_iff] at h
    obtain ⟨c1, h1, h2⟩ := h
    exact (hst t c c1 h1).trans (ih c1 c' h2)

theorem grow_gather (F : Font) (n : Nat) : ∀ ts c c', gathercalls F n ts c = some c' → Grow c c' := by
  induction n with
  | zero => intro ts c c' h; simp [gathercalls] at h
  | succ n ih =>
    intro ts
    exact grow_loop (fun t c c' h => grow_step ih t c c' h) ts

/-- All sets only grow, and each requested glyph has been gathered on a fresh context. -/
theorem gatherAll_spec (F : Font) (n : Nat) (gs : List String) (sets sets' : List String × List Int)
    (h : gatherAll F n gs sets = some sets') (hk : ∀ z ∈ sets.2, (pyIndex F.subrs z).isSome) :
    (∀ g ∈ sets.1, g ∈ sets'.1) ∧ (∀ z ∈ sets.2, z ∈ sets'.2) ∧
    (∀ z ∈ sets'.2, (pyIndex F.subrs z).isSome) ∧
    ∀ g ∈ gs, ∃ b c c', getglyphcmds F g = some b ∧ c.t1 = [] ∧ c.ps = [] ∧
      gathercalls F n b c = some c' ∧ (∀ g ∈ c'.seac, g ∈ sets'.1) ∧ (∀ z ∈ c'.subrs, z ∈ sets'.2) := by
  induction gs generalizing sets with
  | nil =>
    simp only [gatherAll, Option.some.injEq] at h
    subst h
    exact ⟨fun _ h => h, fun _ h => h, hk, by simp⟩
  | cons g gs ih =>
    simp only [gatherAll, Option.bind_eq_some_iff] at h
    obtain ⟨s1, h1, h2⟩ := h
    simp only [gatherglyphcalls, Option.bind_eq_some_iff, Option.map_eq_some_iff] at h1
    obtain ⟨b, hb, c', hc, rfl⟩ := h1
    have hgr := grow_gather F n _ _ _ hc
    have hkn : Known F c' := known_gather F n _ _ _ hc hk
    obtain ⟨i1, i2, i3, i4⟩ := ih _ h2 hkn
    refine ⟨fun x hx => i1 x (hgr.2 x hx), fun x hx => i2 x (hgr.1 x hx), i3, ?_⟩
    intro x hx
    rcases List.mem_cons.1 hx with rfl | hx
    · exact ⟨b, _, c', hb, rfl, rfl, hc, i1, i2⟩
    · exact i4 x hx

/-! ## The stripped font -/

/-- A glyph is asked for by name or by a character code. -/
def Requested (F : Font) (glyphs : List String) (charcodes : List Int) (g : String) : Prop :=
  g ∈ glyphs ∨ ∃ k ∈ charcodes, pyIndex (encodingList F) k = some (some g)

theorem codeGlyphs_mem (F : Font) (ks : List Int) (cg : List String) (h : codeGlyphs F ks = some cg) (g : String) :
    g ∈ cg ↔ ∃ k ∈ ks, pyIndex (encodingList F) k = some (some g) := by
  induction ks generalizing cg with
  | nil => simp only [codeGlyphs, Option.some.injEq] at h; subst h; simp
  | cons k ks ih =>
    simp only [codeGlyphs, Option.bind_eq_some_iff, Option.map_eq_some_iff] at h
    obtain ⟨o, ho, g', rfl, cg', h', rfl⟩ := h
    simp only [List.mem_cons, ih cg' h', exists_eq_or_imp, ho, Option.some.injEq]
    constructor
    · rintro (rfl | h)
      · exact .inl rfl
      · exact .inr h
    · rintro (rfl | h)
      · exact .inl rfl
      · exact .inr h

/-- The pieces of a successful `getstrippedfont`. -/
theorem stripped_inv {F F' : Font} {n : Nat} {glyphs : List String} {charcodes : List Int}
    (h : getstrippedfont F n glyphs charcodes = some F') :
    ∃ cg sets kept subrs, codeGlyphs F charcodes = some cg ∧
      gatherAll F n (glyphs ++ cg) ([], []) = some sets ∧ kept = ".notdef" :: (sets.1 ++ (glyphs ++ cg)) ∧
      writtenSubrs F (adjustSubrs F sets.2) = some subrs ∧
      F' = ⟨F.lenIV, subrs, F.glyphlist.filter (· ∈ kept), fun g => if g ∈ kept then F.glyphs g else none,
        strippedEncoding F kept⟩ := by
  unfold getstrippedfont at h
  simp only [Option.bind_eq_some_iff, Option.map_eq_some_iff] at h
  obtain ⟨cg, h1, sets, h2, subrs, h3, h4⟩ := h
  exact ⟨cg, sets, _, subrs, h1, h2, rfl, h3, h4.symm⟩

theorem subr_eq {F : Font} {l : List Int} {subrs : List (List Nat)} (gl : List String) (gs) (e)
    (hw : writtenSubrs F l = some subrs) (z : Int) (hz : z ∈ l) :
    (prog ⟨F.lenIV, subrs, gl, gs, e⟩).subr z = (prog F).subr z := by
  simp only [prog]
  by_cases h0 : 0 ≤ z
  · rw [if_pos h0, if_pos h0]
    obtain ⟨i, rfl⟩ := Int.eq_ofNat_of_zero_le h0
    have := written_get F l subrs hw i
    rw [if_pos (le_subrsmax l _ hz), if_pos hz] at this
    have e1 : pyIndex subrs (i : Int) = subrs[i]? := by simp [pyIndex]
    have e2 : pyIndex F.subrs (i : Int) = F.subrs[i]? := by simp [pyIndex]
    simp only [getsubrcmds, e1, e2, this]
    rfl
  · rw [if_neg h0, if_neg h0]

/-- **C60.** Every requested glyph that the machine can execute in the original font is executed in the
stripped font with exactly the same operators and operands, whatever the `OtherSubrs` procedures return and
however deep (`m`) the calls nest. -/
theorem stripped_draws (ok : Ok) (F F' : Font) (n m : Nat) (glyphs : List String) (charcodes : List Int)
    (h : getstrippedfont F n glyphs charcodes = some F') (other : Other) (g : String)
    (hg : Requested F glyphs charcodes g) (d : List Ev) (hd : drawing ok other (prog F) m g = some d) :
    drawing ok other (prog F') m g = some d := by
  obtain ⟨cg, sets, kept, subrs, h1, h2, hkept, h3, rfl⟩ := stripped_inv h
  obtain ⟨_, _, hk, hall⟩ := gatherAll_spec F n _ _ _ h2 (by simp)
  have hmem : g ∈ glyphs ++ cg := by
    rcases hg with hg | hg
    · exact List.mem_append_left _ hg
    · exact List.mem_append_right _ ((codeGlyphs_mem F _ _ h1 g).2 hg)
  obtain ⟨b, c, c', hb, ht1, hps, hc, hs1, hs2⟩ := hall g hmem
  unfold drawing at hd ⊢
  simp only [Option.bind_eq_some_iff, Option.map_eq_some_iff] at hd ⊢
  obtain ⟨b', hb', s', hs', rfl⟩ := hd
  have hbb : b' = b := by
    have : getglyphcmds F g = some b' := hb'
    rw [hb] at this; exact (Option.some.inj this).symm
  subst hbb
  have hgl : ∀ x ∈ kept, (prog ⟨F.lenIV, subrs, F.glyphlist.filter (· ∈ kept),
      fun g => if g ∈ kept then F.glyphs g else none, strippedEncoding F kept⟩).glyph x = (prog F).glyph x := by
    intro x hx
    simp only [prog, getglyphcmds, if_pos hx]
    rfl
  have hgk : g ∈ kept := by
    rw [hkept]; exact List.mem_cons_of_mem _ (List.mem_append_right _ hmem)
  refine ⟨b', (hgl g hgk).trans hb', s', ?_, rfl⟩
  obtain ⟨_, _, hag⟩ := sim₂_run ok other F n m b' _ s' c c' hs' ⟨Pre.nil _, Pre.nil _⟩ hc
  refine hag _ ⟨?_, ?_, rfl⟩
  · intro z hz
    exact subr_eq _ _ _ h3 z (mem_adjust F _ z (hs2 z hz))
  · intro x hx
    refine hgl x ?_
    rw [hkept]
    exact List.mem_cons_of_mem _ (List.mem_append_left _ (hs1 x hx))

theorem flexhint_length {F : Font} (h : hasflexhintsubrs F = true) : 4 ≤ F.subrs.length := by
  unfold hasflexhintsubrs at h
  simp only [Bool.and_eq_true, decide_eq_true_eq] at h
  exact h.1

/-- The array can always be written for recorded subroutines. -/
theorem written_total (F : Font) (l : List Int) (hk : ∀ z ∈ l, (pyIndex F.subrs z).isSome) :
    (writtenSubrs F (adjustSubrs F l)).isSome := by
  unfold writtenSubrs
  refine mapM_isSome _ _ fun i _ => ?_
  split_ifs with hi
  · unfold adjustSubrs at hi
    split_ifs at hi with hf
    · rcases List.mem_append.1 hi with hi | hi
      · have h4 := flexhint_length hf.1
        have : i < 4 := by simp at hi; omega
        simp [pyIndex]
        omega
      · exact hk _ hi
    · exact hk _ hi
  · rfl

theorem codeGlyphs_total (F : Font) (ks : List Int)
    (h : ∀ k ∈ ks, ∃ g, pyIndex (encodingList F) k = some (some g)) : ∃ cg, codeGlyphs F ks = some cg := by
  induction ks with
  | nil => exact ⟨[], rfl⟩
  | cons k ks ih =>
    obtain ⟨g, hg⟩ := h k (List.mem_cons_self ..)
    obtain ⟨cg, hcg⟩ := ih fun x hx => h x (List.mem_cons_of_mem _ hx)
    exact ⟨g :: cg, by simp [codeGlyphs, hg, hcg]⟩

theorem gatherAll_total (F : Font) (n : Nat) (other : Other) (gs : List String) (sets : List String × List Int)
    (h : ∀ g ∈ gs, ∃ d, drawing okDivisor other (prog F) n g = some d) : ∃ sets', gatherAll F n gs sets = some sets' := by
  induction gs generalizing sets with
  | nil => exact ⟨sets, rfl⟩
  | cons g gs ih =>
    obtain ⟨d, hd⟩ := h g (List.mem_cons_self ..)
    unfold drawing at hd
    simp only [Option.bind_eq_some_iff, Option.map_eq_some_iff] at hd
    obtain ⟨b, hb, s', hs', rfl⟩ := hd
    have hb' : getglyphcmds F g = some b := hb
    obtain ⟨c', hc', _⟩ := sim_run other F n b _ s' ⟨[], [], sets.1, sets.2⟩ hs' ⟨Pre.nil _, Pre.nil _⟩
    obtain ⟨sets', hsets⟩ := ih (c'.seac, c'.subrs) fun x hx => h x (List.mem_cons_of_mem _ hx)
    exact ⟨sets', by simp [gatherAll, gatherglyphcalls, hb', hc', hsets]⟩

/-- **C60.** Stripping succeeds whenever the requested codes are encoded and the requested glyphs can be
executed (within the recursion limit `n`). -/
theorem strip_total (F : Font) (n : Nat) (glyphs : List String) (charcodes : List Int) (other : Other)
    (hcodes : ∀ k ∈ charcodes, ∃ g, pyIndex (encodingList F) k = some (some g))
    (hdraw : ∀ g, Requested F glyphs charcodes g → ∃ d, drawing okDivisor other (prog F) n g = some d) :
    ∃ F', getstrippedfont F n glyphs charcodes = some F' := by
  obtain ⟨cg, hcg⟩ := codeGlyphs_total F charcodes hcodes
  obtain ⟨sets, hsets⟩ := gatherAll_total F n other (glyphs ++ cg) ([], []) (by
    intro g hg
    refine hdraw g ?_
    rcases List.mem_append.1 hg with hg | hg
    · exact .inl hg
    · exact .inr ((codeGlyphs_mem F _ _ hcg g).1 hg))
  obtain ⟨_, _, hk, _⟩ := gatherAll_spec F n _ _ _ hsets (by simp)
  obtain ⟨subrs, hs⟩ := Option.isSome_iff_exists.1 (written_total F sets.2 hk)
  unfold getstrippedfont
  simp only [hcg, Option.bind_some, hsets, hs, Option.map_some]
  exact ⟨_, rfl⟩

/-- Negative subroutine and character numbers count from the end, as in Python. -/
theorem pyIndex_neg {α : Type} (l : List α) (k : Nat) : pyIndex l (-(k + 1 : Nat)) = l.reverse[k]? := by
  unfold pyIndex
  rw [if_neg (by omega)]
  by_cases hk : k < l.length
  · rw [if_pos (by omega), List.getElem?_reverse hk]
    congr 1
    omega
  · rw [if_neg (by omega), List.getElem?_eq_none (by rw [List.length_reverse]; omega)]

theorem pyIndex_map {α β : Type} (f : α → β) (l : List α) (k : Int) : pyIndex (l.map f) k = (pyIndex l k).map f := by
  unfold pyIndex
  split_ifs <;> simp_all

/-- **C60.** The encoding: requested codes select the same glyphs as before, all other codes select the same
glyph or nothing; with the standard encoding nothing changes. -/
theorem stripped_encoding (F F' : Font) (n : Nat) (glyphs : List String) (charcodes : List Int)
    (h : getstrippedfont F n glyphs charcodes = some F') :
    (∀ k ∈ charcodes, pyIndex (encodingList F') k = pyIndex (encodingList F) k) ∧
    (∀ k g, pyIndex (encodingList F') k = some (some g) → pyIndex (encodingList F) k = some (some g)) ∧
    (∀ k, (pyIndex (encodingList F') k).isSome = (pyIndex (encodingList F) k).isSome) := by
  obtain ⟨cg, sets, kept, subrs, h1, h2, hkept, h3, rfl⟩ := stripped_inv h
  cases he : F.encoding with
  | none => simp [encodingList, strippedEncoding, he]
  | some e =>
    have hE : encodingList F = e := by simp [encodingList, he]
    have hE' : encodingList ⟨F.lenIV, subrs, F.glyphlist.filter (· ∈ kept),
        fun g => if g ∈ kept then F.glyphs g else none, strippedEncoding F kept⟩ =
        e.map fun g => g.filter (· ∈ kept) := by simp [encodingList, strippedEncoding, he]
    rw [hE, hE']
    refine ⟨?_, ?_, ?_⟩
    · intro k hk
      rw [pyIndex_map]
      cases hx : pyIndex e k with
      | none => rfl
      | some o =>
        cases o with
        | none => rfl
        | some g =>
          have hcg : g ∈ cg := (codeGlyphs_mem F _ _ h1 g).2 ⟨k, hk, by rw [hE]; exact hx⟩
          have : g ∈ kept := by
            rw [hkept]
            exact List.mem_cons_of_mem _ (List.mem_append_right _ (List.mem_append_right _ hcg))
          simp [this]
    · intro k g hx
      rw [pyIndex_map] at hx
      cases hy : pyIndex e k with
      | none => rw [hy] at hx; simp at hx
      | some o =>
        rw [hy] at hx
        simp at hx
        rw [hx.1]
    · intro k
      rw [pyIndex_map]
      simp

/-- **C60.** Which glyphs are written: all requested ones and `.notdef` with their charstrings unchanged, in
the original order; every written charstring is the original one. -/
theorem stripped_glyphs (F F' : Font) (n : Nat) (glyphs : List String) (charcodes : List Int)
    (h : getstrippedfont F n glyphs charcodes = some F') :
    F'.glyphlist.Sublist F.glyphlist ∧
    (∀ g, Requested F glyphs charcodes g ∨ g = ".notdef" →
      F'.glyphs g = F.glyphs g ∧ (g ∈ F.glyphlist → g ∈ F'.glyphlist)) ∧
    (∀ g ∈ F'.glyphlist, F'.glyphs g = F.glyphs g) := by
  obtain ⟨cg, sets, kept, subrs, h1, h2, hkept, h3, rfl⟩ := stripped_inv h
  refine ⟨List.filter_sublist, ?_, ?_⟩
  · intro g hg
    have : g ∈ kept := by
      rw [hkept]
      rcases hg with (hg | hg) | rfl
      · exact List.mem_cons_of_mem _ (List.mem_append_right _ (List.mem_append_left _ hg))
      · exact List.mem_cons_of_mem _ (List.mem_append_right _ (List.mem_append_right _
          ((codeGlyphs_mem F _ _ h1 g).2 hg)))
      · exact List.mem_cons_self ..
    exact ⟨if_pos this, fun hm => List.mem_filter.2 ⟨hm, by simpa using this⟩⟩
  · intro g hg
    have := (List.mem_filter.1 hg).2
    exact if_pos (by simpa using this)

theorem charstring_return (lenIV : Nat) (h : lenIV ≤ 4) :
    charstringDecode lenIV (charstringEncode lenIV [11]) = [11] := by
  exact (charstring_roundtrip_iff lenIV).2 h [11]

/-- **C60.** Entries of the subroutine array: the original ones or (for `lenIV ≤ 4`) a bare `return`. -/
theorem stripped_subrs (F F' : Font) (n : Nat) (glyphs : List String) (charcodes : List Int)
    (h : getstrippedfont F n glyphs charcodes = some F') (hl : F.lenIV ≤ 4) (i : Nat) (hi : i < F'.subrs.length) :
    getsubrcmds F' i = getsubrcmds F i ∨ getsubrcmds F' i = some [.cmd 11] := by
  obtain ⟨cg, sets, kept, subrs, h1, h2, hkept, h3, rfl⟩ := stripped_inv h
  have hw := written_get F _ subrs h3 i
  have hi' : i < subrs.length := hi
  have e1 : pyIndex subrs (i : Int) = subrs[i]? := by simp [pyIndex]
  have e2 : pyIndex F.subrs (i : Int) = F.subrs[i]? := by simp [pyIndex]
  rw [List.getElem?_eq_getElem hi'] at hw
  split_ifs at hw with ha hb
  · left
    simp only [getsubrcmds, e1, e2, ← hw, List.getElem?_eq_getElem hi']
    rfl
  · right
    simp only [getsubrcmds, e1, List.getElem?_eq_getElem hi', hw, Option.bind_some, cmdsOf, emptysubr,
      charstring_return _ hl]
    decide

/-- **C60.** The four flex and hint replacement subroutines are kept all together or not at all. -/
theorem flex_all_or_none (F F' : Font) (n : Nat) (glyphs : List String) (charcodes : List Int)
    (h : getstrippedfont F n glyphs charcodes = some F') (hf : hasflexhintsubrs F = true) :
    (∀ i < 4, F'.subrs[i]? = F.subrs[i]?) ∨
    (∀ i < 4, F'.subrs[i]? = none ∨ F'.subrs[i]? = some (emptysubr F)) := by
  obtain ⟨cg, sets, kept, subrs, h1, h2, hkept, h3, rfl⟩ := stripped_inv h
  have hw := written_get F _ subrs h3
  by_cases hs : ∃ s ∈ sets.2, s < 4
  · left
    intro i hi
    have hm : (i : Int) ∈ adjustSubrs F sets.2 := by
      unfold adjustSubrs
      rw [if_pos ⟨hf, hs⟩]
      refine List.mem_append_left _ ?_
      simp; omega
    show subrs[i]? = _
    rw [hw i, if_pos (le_subrsmax _ _ hm), if_pos hm]
  · right
    intro i hi
    have hm : (i : Int) ∉ adjustSubrs F sets.2 := by
      unfold adjustSubrs
      rw [if_neg fun x => hs x.2]
      intro hm
      exact hs ⟨i, hm, by omega⟩
    show subrs[i]? = none ∨ subrs[i]? = _
    rw [hw i, if_neg hm]
    split_ifs
    · exact .inr rfl
    · exact .inl rfl

theorem gatherAll_used (F : Font) (n : Nat) (other : Other) (gs : List String) (sets sets' : List String × List Int)
    (h : gatherAll F n gs sets = some sets')
    (hd : ∀ g ∈ gs, ∃ d, drawing okDivisor other (prog F) n g = some d) :
    (∀ z ∈ sets'.2, z ∈ sets.2 ∨ ∃ g ∈ gs, ∃ d, drawing okDivisor other (prog F) n g = some d ∧ .call z ∈ d) ∧
    (∀ x ∈ sets'.1, x ∈ sets.1 ∨ ∃ g ∈ gs, ∃ d, drawing okDivisor other (prog F) n g = some d ∧ Component x d) := by
  induction gs generalizing sets with
  | nil =>
    simp only [gatherAll, Option.some.injEq] at h
    subst h
    exact ⟨fun _ h => .inl h, fun _ h => .inl h⟩
  | cons g gs ih =>
    obtain ⟨d, hdg⟩ := hd g (List.mem_cons_self ..)
    have hdg' := hdg
    unfold drawing at hdg
    simp only [Option.bind_eq_some_iff, Option.map_eq_some_iff] at hdg
    obtain ⟨b, hb, s', hs', rfl⟩ := hdg
    have hb' : getglyphcmds F g = some b := hb
    obtain ⟨c', hc', _, ⟨_, htr⟩, _⟩ := sim_run other F n b _ s' ⟨[], [], sets.1, sets.2⟩ hs'
      ⟨Pre.nil _, Pre.nil _⟩
    simp only [gatherAll, gatherglyphcalls, hb', hc', Option.bind_some, Option.map_some] at h
    obtain ⟨i1, i2⟩ := ih _ h fun x hx => hd x (List.mem_cons_of_mem _ hx)
    constructor
    · intro z hz
      rcases i1 z hz with hz | ⟨g', hg', r⟩
      · rcases htr.2.1 z hz with hz | hz
        · exact .inl hz
        · exact .inr ⟨g, List.mem_cons_self .., _, hdg', hz⟩
      · exact .inr ⟨g', List.mem_cons_of_mem _ hg', r⟩
    · intro z hz
      rcases i2 z hz with hz | ⟨g', hg', r⟩
      · rcases htr.2.2 z hz with hz | hz
        · exact .inl hz
        · exact .inr ⟨g, List.mem_cons_self .., _, hdg', hz⟩
      · exact .inr ⟨g', List.mem_cons_of_mem _ hg', r⟩

/-- **C60.** Nothing else is written: a glyph of the stripped font is requested, `.notdef` or a component
drawn by a requested glyph; a subroutine is empty unless a requested glyph calls it or it belongs to the
flex and hint replacement group of which a requested glyph calls a member. -/
theorem stripped_minimal (F F' : Font) (n : Nat) (glyphs : List String) (charcodes : List Int)
    (h : getstrippedfont F n glyphs charcodes = some F') (other : Other)
    (hdraw : ∀ g, Requested F glyphs charcodes g → ∃ d, drawing okDivisor other (prog F) n g = some d) :
    (∀ g ∈ F'.glyphlist, Requested F glyphs charcodes g ∨ g = ".notdef" ∨
      ∃ r d, Requested F glyphs charcodes r ∧ drawing okDivisor other (prog F) n r = some d ∧ Component g d) ∧
    (∀ i : Nat, i < F'.subrs.length → F'.subrs[i]? = some (emptysubr F) ∨
      ∃ r d, Requested F glyphs charcodes r ∧ drawing okDivisor other (prog F) n r = some d ∧
        (.call i ∈ d ∨ (hasflexhintsubrs F = true ∧ i < 4 ∧ ∃ j < 4, .call j ∈ d))) := by
  obtain ⟨cg, sets, kept, subrs, h1, h2, hkept, h3, rfl⟩ := stripped_inv h
  have hreq : ∀ g ∈ glyphs ++ cg, Requested F glyphs charcodes g := by
    intro g hg
    rcases List.mem_append.1 hg with hg | hg
    · exact .inl hg
    · exact .inr ((codeGlyphs_mem F _ _ h1 g).1 hg)
  obtain ⟨u1, u2⟩ := gatherAll_used F n other _ _ _ h2 fun g hg => hdraw g (hreq g hg)
  constructor
  · intro g hg
    have hk := (List.mem_filter.1 hg).2
    simp only [decide_eq_true_eq, hkept] at hk
    rcases List.mem_cons.1 hk with rfl | hk
    · exact .inr (.inl rfl)
    rcases List.mem_append.1 hk with hk | hk
    · rcases u2 g hk with hk | ⟨r, hr, d, hd, hc⟩
      · simp at hk
      · exact .inr (.inr ⟨r, d, hreq r hr, hd, hc⟩)
    · exact .inl (hreq g hk)
  · intro i hi
    have hw := written_get F _ subrs h3 i
    have hi' : i < subrs.length := hi
    show subrs[i]? = _ ∨ _
    by_cases hm : (i : Int) ∈ adjustSubrs F sets.2
    · right
      unfold adjustSubrs at hm
      have key : (i : Int) ∈ sets.2 → ∃ r d, Requested F glyphs charcodes r ∧
          drawing okDivisor other (prog F) n r = some d ∧ .call (i : Int) ∈ d := by
        intro hm
        rcases u1 _ hm with hm | ⟨r, hr, d, hd, hc⟩
        · simp at hm
        · exact ⟨r, d, hreq r hr, hd, hc⟩
      by_cases hf : hasflexhintsubrs F = true ∧ ∃ s ∈ sets.2, s < 4
      · rw [if_pos hf] at hm
        rcases List.mem_append.1 hm with hm | hm
        · obtain ⟨s, hs, hs4⟩ := hf.2
          rcases u1 _ hs with hs | ⟨r, hr, d, hd, hc⟩
          · simp at hs
          · exact ⟨r, d, hreq r hr, hd, .inr ⟨hf.1, by simp at hm; omega, s, hs4, hc⟩⟩
        · obtain ⟨r, d, a1, a2, a3⟩ := key hm
          exact ⟨r, d, a1, a2, .inl a3⟩
      · rw [if_neg hf] at hm
        obtain ⟨r, d, a1, a2, a3⟩ := key hm
        exact ⟨r, d, a1, a2, .inl a3⟩
    · left
      rw [List.getElem?_eq_getElem hi'] at hw
      rw [List.getElem?_eq_getElem hi', hw, if_neg hm]
      split_ifs at hw ⊢
      rfl

/-! ## A concrete font -/

/-- Encrypted form of a command list. -/
def enc (ts : List Tok) : List Nat := charstringEncode 4 ((code ts).getD [])

def demoGlyph (g : String) : Option (List Nat) :=
  if g = "A" then some (enc [.num 10, .num 500, .cmd 13, .num 5, .num 4, .cmd 10, .num 7, .num 2, .esc 12, .cmd 22,
    .num 100, .cmd 6, .cmd 9, .cmd 14])
  else if g = "acute" then some (enc [.num 3, .num 200, .cmd 13, .num 1, .cmd 10, .num 0, .cmd 22, .num 2, .cmd 10,
    .num 50, .num 9, .num 8, .num 0, .cmd 10, .cmd 14])
  else if g = "Aacute" then some (enc [.num 10, .num 500, .cmd 13, .num 3, .num 120, .num 200, .num 65, .num 194,
    .esc 6])
  else if g = "B" then some (enc [.num 10, .num 400, .cmd 13, .num 6, .cmd 10, .cmd 14])
  else if g = ".notdef" then some (enc [.num 0, .num 250, .cmd 13, .cmd 14])
  else none

/-- Flex and hint replacement, a subroutine calling another one through `OtherSubrs` 3, a composite glyph. -/
def demo : Font where
  lenIV := 4
  subrs := flexhintsubrs.map enc ++
    [enc [.num 1, .num 3, .esc 16, .esc 17, .cmd 10, .cmd 11], enc [.num 0, .num 20, .cmd 1, .cmd 11],
     enc [.num 1, .cmd 6, .cmd 11]]
  glyphlist := [".notdef", "A", "B", "Aacute", "acute"]
  glyphs := demoGlyph
  encoding := some [none, some "Aacute", some "B"]

def demoOther : Other := fun o _ _ => if o = 0 then [70, 80] else []

/-- Asking for the composite glyph keeps its two components, subroutines 0 to 5 and drops `B`, subroutine 6. -/
example : ((getstrippedfont demo 10 [] [1]).map fun F => (F.glyphlist, F.subrs == demo.subrs.take 6, F.encoding)) =
    some ([".notdef", "A", "Aacute", "acute"], true, some [none, some "Aacute", none]) := by decide +kernel

example : (drawing okDivisor demoOther (prog demo) 4 "Aacute").map (fun d => (d.filter fun e =>
    match e with | .op (.esc 33) _ => true | .op (.cmd 1) _ => true | .accent .. => true | _ => false)) =
    some [.op (.cmd 1) [0, 20], .accent "acute" 3 120 200, .op (.esc 33) [70, 80]] := by decide +kernel

/-- Asking for `B` alone drops the flex and hint subroutines: six empty ones and number 6. -/
example : ((getstrippedfont demo 10 ["B"] []).map fun F => (F.glyphlist, F.subrs)) =
    some ([".notdef", "B"], List.replicate 6 (emptysubr demo) ++ demo.subrs.drop 6) := by decide +kernel

/-! ## Where the claim fails -/

/-- The claim without the restriction on divisors (`okAll`): stripping succeeds for every
executable glyph. -/
def StripTotal : Prop :=
  ∀ (F : Font) (n : Nat) (glyphs : List String) (other : Other),
    (∀ g ∈ glyphs, ∃ d, drawing okAll other (prog F) n g = some d) →
    ∃ F', getstrippedfont F n glyphs [] = some F'

def halfFont : Font where
  lenIV := 4
  subrs := []
  glyphlist := ["A"]
  glyphs := fun g => if g = "A" then some (enc [.num 10, .num 500, .cmd 13, .num 5, .num 1, .num 2, .esc 12, .esc 12,
    .cmd 22, .cmd 14]) else none
  encoding := none

/-- `5 1 2 div div` moves by 10; `gathercalls` rounds the inner quotient down to 0 and divides by it
(`pyx/font/t1file.py:512-515`). -/
theorem nested_div_fails : ¬ StripTotal := by
  intro h
  obtain ⟨F', hF⟩ := h halfFont 3 ["A"] demoOther (by
    intro g hg
    simp only [List.mem_singleton] at hg
    subst hg
    exact ⟨[.op (.cmd 13) [10, 500], .op (.cmd 22) [10], .op (.cmd 14) []], by decide +kernel⟩)
  have e : (getstrippedfont halfFont 3 ["A"] []).isSome = false := by decide +kernel
  rw [hF] at e
  exact absurd e (by simp)

end PyX.T1
