import Verif.Dvi.Spec
import Mathlib.Algebra.Order.Field.Basic
import Mathlib.Tactic.Ring
import Mathlib.Tactic.NormNum
import Mathlib.Data.Rat.Defs
import Mathlib.Algebra.Order.Ring.Rat

/-!
# Property C28: placement of glyphs and rules (refinement)
-/

set_option linter.unusedSectionVars false

namespace PyX.Dvi

variable {K : Type} [Field K] [LinearOrder K] [IsStrictOrderedRing K]

/-! ## Relation between the two machines -/

/-- `a` agrees with `b` where it is defined. -/
def Reg (a : Option K) (b : K) : Prop := ∀ r, a = some r → r = b

def RPos (s : SPos K) (c : Pos K) : Prop :=
  s.h = c.h ∧ s.v = c.v ∧ Reg s.w c.w ∧ Reg s.x c.x ∧ Reg s.y c.y ∧ Reg s.z c.z

/-- Sum of widths of a run. -/
def runWidth (env : Env K) (id : Nat) (cs : List Nat) : K := (cs.map fun c => (env.width id c).getD 0).sum

/-- The marks of the pending run. -/
def pending (env : Env K) (c : State K) : List (Mark K) :=
  match c.active, c.fontid with
  | some (x, y, cs), some id => expandText env id (x * env.conv) (-y * env.conv) cs
  | _, _ => []

/-- The pending run ends at the current position and belongs to the current font. -/
def ActiveOK (env : Env K) (c : State K) : Prop :=
  ∀ x y cs, c.active = some (x, y, cs) → ∃ id, c.fontid = some id ∧ x + runWidth env id cs = c.pos.h ∧ y = c.pos.v

structure R (env : Env K) (fonts : Int → Font K) (s : SState K) (c : State K) : Prop where
  pos : RPos s.pos c.pos
  stack : List.Forall₂ RPos s.stack c.stack
  font : c.font = s.font
  fontid : c.fontid = s.font.bind fun n => (fonts n).id?
  out : s.out = expandAll env c.out ++ pending env c
  active : ActiveOK env c

/-! ## Lemmas about runs -/

theorem expandText_append (env : Env K) (id : Nat) (x y : K) (cs : List Nat) (c : Nat) :
    expandText env id x y (cs ++ [c]) =
      expandText env id x y cs ++ [.glyph id c (x + runWidth env id cs * env.conv) y] := by
  induction cs generalizing x with
  | nil => simp [expandText, runWidth]
  | cons d cs ih =>
    simp only [List.cons_append, expandText, ih, List.cons.injEq, true_and]
    congr 3
    simp only [runWidth, List.map_cons, List.sum_cons]; ring

theorem expandAll_append (env : Env K) (a b : List (Out K)) :
    expandAll env (a ++ b) = expandAll env a ++ expandAll env b := by
  simp [expandAll]

theorem runWidth_append (env : Env K) (id : Nat) (cs : List Nat) (c : Nat) :
    runWidth env id (cs ++ [c]) = runWidth env id cs + (env.width id c).getD 0 := by
  simp [runWidth]

theorem flush_sim {env : Env K} {fonts : Int → Font K} {s : SState K} {c : State K} (h : R env fonts s c) :
    ∃ c', flush env c = some c' ∧ R env fonts s c' ∧ c'.active = none ∧ c'.pos = c.pos ∧ c'.stack = c.stack := by
  unfold flush
  cases ha : c.active with
  | none => exact ⟨c, rfl, h, ha, rfl, rfl⟩
  | some a =>
    obtain ⟨x, y, cs⟩ := a
    obtain ⟨id, hid, hx, hy⟩ := h.active x y cs ha
    simp only [hid]
    refine ⟨_, rfl, ⟨h.pos, h.stack, h.font, hid.symm.trans h.fontid, ?_, ?_⟩, rfl, rfl, rfl⟩
    · rw [h.out, expandAll_append]
      simp [pending, ha, hid, expandAll, expand]
    · intro x y cs he; cases he

/-- With no pending run, a state with the same marks and a new position is related. -/
theorem R_move {env : Env K} {fonts : Int → Font K} {s s' : SState K} {c c' : State K} (h : R env fonts s c)
    (ha : c.active = none) (hp : RPos s'.pos c'.pos) (hs : List.Forall₂ RPos s'.stack c'.stack)
    (hf : s'.font = s.font) (hf' : c'.font = c.font) (hi : c'.fontid = c.fontid) (ha' : c'.active = none)
    (ho : s'.out = s.out) (ho' : c'.out = c.out) : R env fonts s' c' := by
  refine ⟨hp, hs, ?_, ?_, ?_, ?_⟩
  · rw [hf', hf, h.font]
  · rw [hi, hf, h.fontid]
  · rw [ho, ho', h.out]; simp [pending, ha, ha']
  · intro x y cs he; rw [ha'] at he; cases he

/-! ## Fonts for which the code follows the standard -/

def isSetRule : Cmd → Bool
  | .setRule .. => true
  | _ => false

def isNop : Cmd → Bool
  | .nop => true
  | _ => false

/-- Restrictions on virtual fonts: the font defined first has number 0, packets have no `set_rule` (unless the scale is
1) and no `nop`. -/
def FontOK : Font K → Prop
  | .missing => True
  | .real _ => True
  | .virt _ packet first fonts scale =>
    first = 0 ∧ (∀ c cmds, packet c = some cmds → ∀ x ∈ cmds, isNop x = false ∧ (isSetRule x = false ∨ scale = 1))
      ∧ ∀ n, FontOK (fonts n)

/-! ## Simulation of single commands -/

theorem rule_sim {env : Env K} {fonts : Int → Font K} {s : SState K} {c : State K} (h : R env fonts s c)
    (ha : c.active = none) (a b : K) :
    R env fonts (srule env a b s) (if a > 0 ∧ b > 0 then
      { c with out := c.out ++ [.rule (c.pos.h * env.conv) (-c.pos.v * env.conv) (b * env.conv) (a * env.conv)] }
      else c) := by
  unfold srule
  split
  · refine ⟨h.pos, h.stack, h.font, h.fontid, ?_, ?_⟩
    · simp only [expandAll_append, h.out, pending, ha]
      simp [expandAll, expand, h.pos.1, h.pos.2.1]
    · intro x y cs he; simp only [ha] at he; cases he
  · exact h

theorem putrule_sim {env : Env K} {fonts : Int → Font K} {s : SState K} {c : State K} (h : R env fonts s c)
    (a b scale : K) (adv : Bool) (hs : adv = true → b * scale = b) :
    ∃ c', putrule env scale a b adv c = some c' ∧
      R env fonts (if adv then smoveH b (srule env a b s) else srule env a b s) c' := by
  obtain ⟨c1, e1, h1, ha1, -, -⟩ := flush_sim h
  have h2 := rule_sim h1 ha1 a b
  unfold putrule
  simp only [e1, Option.bind_eq_bind, Option.bind_some]
  cases adv with
  | false =>
    refine ⟨_, rfl, ?_⟩
    simpa using h2
  | true =>
    refine ⟨_, rfl, ?_⟩
    simp only [if_true, hs rfl]
    have ha2 : (if a > 0 ∧ b > 0 then
      { c1 with out := c1.out ++ [.rule (c1.pos.h * env.conv) (-c1.pos.v * env.conv) (b * env.conv) (a * env.conv)] }
      else c1).active = none := by split <;> exact ha1
    refine R_move h2 ha2 ?_ h2.stack rfl rfl rfl ha2 rfl rfl
    obtain ⟨p1, p2, p3⟩ := h2.pos
    exact ⟨by simp [smoveH, p1], p2, p3⟩

theorem usefont_sim {env : Env K} {fonts fonts' : Int → Font K} {s : SState K} {c : State K}
    (h : R env fonts s c) (n : Int) (hm : ∀ f, fonts' n = f → f ≠ .missing) :
    ∃ c', usefont env fonts' n c = some c' ∧ R env fonts' { s with font := some n } c' ∧ c'.active = none
      ∧ c'.stack = c.stack ∧ c'.pos = c.pos := by
  obtain ⟨c1, e1, h1, ha1, hp, hst⟩ := flush_sim h
  unfold usefont
  simp only [e1, Option.bind_eq_bind, Option.bind_some]
  have hm' := hm _ rfl
  have key : R env fonts' { s with font := some n } { c1 with font := some n, fontid := (fonts' n).id? } := by
    refine ⟨h1.pos, h1.stack, rfl, rfl, ?_, ?_⟩
    · show s.out = _
      rw [h1.out]; simp [pending, ha1]
    · intro x y cs he; simp only [ha1] at he; cases he
  cases hf : fonts' n with
  | missing => exact absurd hf hm'
  | real id =>
    rw [hf] at key
    exact ⟨_, rfl, key, ha1, hst, hp⟩
  | virt w p f fs sc =>
    rw [hf] at key
    exact ⟨_, rfl, key, ha1, hst, hp⟩

/-- Simulation statement for typesetting a character in font `f` within font table `fonts`. -/
def CharSim (env : Env K) (fonts : Int → Font K) (n : Int) : Prop :=
  ∀ (s s' : SState K) (c : State K) (ch : Nat) (adv : Bool), s.font = some n → R env fonts s c →
    schar env none (fonts n) ch adv s = some s' →
    ∃ c', putchar env (fonts n) ch adv c = some c' ∧ R env fonts s' c'

theorem moveH_sim {env : Env K} {fonts : Int → Font K} {s : SState K} {c : State K} (h : R env fonts s c)
    (ha : c.active = none) (d : K) : R env fonts (smoveH d s) (moveH d c) := by
  obtain ⟨p1, p2, p3⟩ := h.pos
  exact R_move h ha ⟨by simp [smoveH, moveH, p1], p2, p3⟩ h.stack rfl rfl rfl ha rfl rfl

theorem moveV_sim {env : Env K} {fonts : Int → Font K} {s : SState K} {c : State K} (h : R env fonts s c)
    (ha : c.active = none) (d : K) : R env fonts (smoveV d s) (moveV d c) := by
  obtain ⟨p1, p2, p3⟩ := h.pos
  exact R_move h ha ⟨p1, by simp [smoveV, moveV, p2], p3⟩ h.stack rfl rfl rfl ha rfl rfl

theorem reg_some (r : K) : Reg (some r) r := by intro x hx; cases hx; rfl

theorem step_sim {env : Env K} {fonts : Int → Font K} {scale : K}
    (hchar : ∀ n, CharSim env fonts n) (s s' : SState K) (c : State K) (cmd : Cmd)
    (hn : isNop cmd = false) (hr : isSetRule cmd = false ∨ scale = 1) (h : R env fonts s c)
    (hs : sstep env fonts scale (fun n => schar env none (fonts n)) s cmd = some s') :
    ∃ c', step env fonts scale (fun n => putchar env (fonts n)) c cmd = some c' ∧ R env fonts s' c' := by
  obtain ⟨c1, e1, h1, ha1, hp1, hst1⟩ := flush_sim h
  obtain ⟨q1, q2, q3, q4, q5, q6⟩ := h1.pos
  cases cmd with
  | setChar ch =>
    simp only [sstep] at hs
    cases hf : s.font with
    | none => rw [hf] at hs; cases hs
    | some n =>
      rw [hf] at hs
      obtain ⟨c', e, r⟩ := hchar n s s' c ch true hf h hs
      refine ⟨c', ?_, r⟩
      simp only [step, h.font, hf]; exact e
  | putChar ch =>
    simp only [sstep] at hs
    cases hf : s.font with
    | none => rw [hf] at hs; cases hs
    | some n =>
      rw [hf] at hs
      obtain ⟨c', e, r⟩ := hchar n s s' c ch false hf h hs
      refine ⟨c', ?_, r⟩
      simp only [step, h.font, hf]; exact e
  | setRule a b =>
    have hsc : scale = 1 := by
      rcases hr with hr | hr
      · cases hr
      · exact hr
    obtain ⟨c', e, r⟩ := putrule_sim h ((a : K) * scale) ((b : K) * scale) scale true (by intro _; rw [hsc]; simp)
    simp only [sstep, Option.some.injEq] at hs
    exact ⟨c', e, by rw [← hs]; simpa using r⟩
  | putRule a b =>
    obtain ⟨c', e, r⟩ := putrule_sim h ((a : K) * scale) ((b : K) * scale) scale false (by intro hh; cases hh)
    simp only [sstep, Option.some.injEq] at hs
    exact ⟨c', e, by rw [← hs]; simpa using r⟩
  | nop => cases hn
  | push =>
    simp only [sstep, Option.some.injEq] at hs
    subst hs
    exact ⟨_, rfl, ⟨h.pos, List.Forall₂.cons h.pos h.stack, h.font, h.fontid, h.out, h.active⟩⟩
  | pop =>
    simp only [sstep] at hs
    have hst := h1.stack
    cases hss : s.stack with
    | nil => rw [hss] at hs; cases hs
    | cons p ps =>
      rw [hss] at hs hst
      simp only [Option.some.injEq] at hs
      subst hs
      cases hcs : c1.stack with
      | nil => rw [hcs] at hst; cases hst
      | cons p' ps' =>
        rw [hcs] at hst
        cases hst with
        | cons hp hps =>
          refine ⟨{ c1 with pos := p', stack := ps' }, ?_, ?_⟩
          · simp [step, e1, hcs]
          · exact R_move h1 ha1 hp hps rfl rfl rfl ha1 rfl rfl
  | right b =>
    simp only [sstep, Option.some.injEq] at hs
    subst hs
    exact ⟨moveH (b * scale) c1, by simp [step, e1], moveH_sim h1 ha1 _⟩
  | down b =>
    simp only [sstep, Option.some.injEq] at hs
    subst hs
    exact ⟨moveV (b * scale) c1, by simp [step, e1], moveV_sim h1 ha1 _⟩
  | w0 =>
    simp only [sstep] at hs
    cases hw : s.pos.w with
    | none => rw [hw] at hs; cases hs
    | some d =>
      rw [hw] at hs
      simp only [Option.map_some, Option.some.injEq] at hs
      subst hs
      have := q3 d hw
      subst this
      exact ⟨moveH c1.pos.w c1, by simp [step, e1], moveH_sim h1 ha1 _⟩
  | x0 =>
    simp only [sstep] at hs
    cases hw : s.pos.x with
    | none => rw [hw] at hs; cases hs
    | some d =>
      rw [hw] at hs
      simp only [Option.map_some, Option.some.injEq] at hs
      subst hs
      have := q4 d hw
      subst this
      exact ⟨moveH c1.pos.x c1, by simp [step, e1], moveH_sim h1 ha1 _⟩
  | y0 =>
    simp only [sstep] at hs
    cases hw : s.pos.y with
    | none => rw [hw] at hs; cases hs
    | some d =>
      rw [hw] at hs
      simp only [Option.map_some, Option.some.injEq] at hs
      subst hs
      have := q5 d hw
      subst this
      exact ⟨moveV c1.pos.y c1, by simp [step, e1], moveV_sim h1 ha1 _⟩
  | z0 =>
    simp only [sstep] at hs
    cases hw : s.pos.z with
    | none => rw [hw] at hs; cases hs
    | some d =>
      rw [hw] at hs
      simp only [Option.map_some, Option.some.injEq] at hs
      subst hs
      have := q6 d hw
      subst this
      exact ⟨moveV c1.pos.z c1, by simp [step, e1], moveV_sim h1 ha1 _⟩
  | w b =>
    simp only [sstep, Option.some.injEq] at hs
    subst hs
    refine ⟨_, by simp only [step, e1, Option.map_some]; rfl, ?_⟩
    refine moveH_sim ?_ (by exact ha1) _
    exact R_move h1 ha1 ⟨q1, q2, reg_some _, q4, q5, q6⟩ h1.stack rfl rfl rfl ha1 rfl rfl
  | x b =>
    simp only [sstep, Option.some.injEq] at hs
    subst hs
    refine ⟨_, by simp only [step, e1, Option.map_some]; rfl, ?_⟩
    refine moveH_sim ?_ (by exact ha1) _
    exact R_move h1 ha1 ⟨q1, q2, q3, reg_some _, q5, q6⟩ h1.stack rfl rfl rfl ha1 rfl rfl
  | y b =>
    simp only [sstep, Option.some.injEq] at hs
    subst hs
    refine ⟨_, by simp only [step, e1, Option.map_some]; rfl, ?_⟩
    refine moveV_sim ?_ (by exact ha1) _
    exact R_move h1 ha1 ⟨q1, q2, q3, q4, reg_some _, q6⟩ h1.stack rfl rfl rfl ha1 rfl rfl
  | z b =>
    simp only [sstep, Option.some.injEq] at hs
    subst hs
    refine ⟨_, by simp only [step, e1, Option.map_some]; rfl, ?_⟩
    refine moveV_sim ?_ (by exact ha1) _
    exact R_move h1 ha1 ⟨q1, q2, q3, q4, q5, reg_some _⟩ h1.stack rfl rfl rfl ha1 rfl rfl
  | fnt n =>
    simp only [sstep] at hs
    have hm : ∀ f, fonts n = f → f ≠ .missing := by
      intro f hf hf'; rw [hf, hf'] at hs; cases hs
    have hs' : s' = { s with font := some n } := by
      cases hf : fonts n with
      | missing => exact absurd rfl (hm _ hf)
      | real id => rw [hf] at hs; simp only [Option.some.injEq] at hs; exact hs.symm
      | virt _ _ _ _ _ => rw [hf] at hs; simp only [Option.some.injEq] at hs; exact hs.symm
    obtain ⟨c', e, r, -⟩ := usefont_sim (fonts' := fonts) h n hm
    exact ⟨c', e, hs' ▸ r⟩
  | special t =>
    simp only [sstep, Option.some.injEq] at hs
    subst hs
    simp only [step, special]
    by_cases ht : t.take 4 = [80, 121, 88, 58]
    · rw [if_pos ht, if_pos (show isPyX t = true by simp [isPyX, ht])]
      refine ⟨_, by simp only [e1, Option.bind_eq_bind, Option.bind_some]; rfl, ?_⟩
      refine ⟨h1.pos, h1.stack, h1.font, h1.fontid, ?_, ?_⟩
      · simp only [expandAll_append, h1.out, pending, ha1]
        simp [expandAll, expand, h.pos.1, h.pos.2.1]
      · intro x y cs he; simp only [ha1] at he; cases he
    · rw [if_neg ht, if_neg (show ¬ isPyX t = true by simp [isPyX, ht])]
      exact ⟨c, rfl, h⟩
  | fntdef _ _ _ _ _ =>
    simp only [sstep, Option.some.injEq] at hs
    subst hs
    exact ⟨c, rfl, h⟩

theorem run_sim {env : Env K} {fonts : Int → Font K} {scale : K} (hchar : ∀ n, CharSim env fonts n)
    (cmds : List Cmd) (hc : ∀ x ∈ cmds, isNop x = false ∧ (isSetRule x = false ∨ scale = 1))
    (s s' : SState K) (c : State K) (h : R env fonts s c)
    (hs : cmds.foldlM (sstep env fonts scale fun n => schar env none (fonts n)) s = some s') :
    ∃ c', cmds.foldlM (step env fonts scale fun n => putchar env (fonts n)) c = some c' ∧ R env fonts s' c' := by
  induction cmds generalizing s c with
  | nil =>
    simp only [List.foldlM_nil] at hs ⊢
    cases hs
    exact ⟨c, rfl, h⟩
  | cons cmd cmds ih =>
    simp only [List.foldlM_cons, Option.bind_eq_bind, Option.bind_eq_some_iff] at hs
    obtain ⟨s1, h1, h2⟩ := hs
    obtain ⟨c1, e1, r1⟩ := step_sim hchar s s1 c cmd (hc cmd (by simp)).1 (hc cmd (by simp)).2 h h1
    obtain ⟨c2, e2, r2⟩ := ih (fun x hx => hc x (by simp [hx])) s1 c1 r1 h2
    exact ⟨c2, by simp [List.foldlM_cons, e1, e2], r2⟩

theorem sdx_eq (adv : Bool) (w : Option K) : sdx adv w = dxOf adv w := by
  cases adv <;> rfl

theorem char_sim (env : Env K) (f : Font K) (hf : FontOK f) :
    ∀ (fonts : Int → Font K) (n : Int), fonts n = f → CharSim env fonts n := by
  induction f with
  | missing =>
    intro fonts n e s s' c ch adv _ _ hs
    rw [e] at hs; simp [schar] at hs
  | real id =>
    intro fonts n e s s' c ch adv hfn h hs
    rw [e] at hs ⊢
    simp only [schar, Option.bind_eq_bind, Option.bind_eq_some_iff, Option.some.injEq] at hs
    obtain ⟨dx, hdx, rfl⟩ := hs
    have hid : c.fontid = some id := by rw [h.fontid, hfn]; simp [e, Font.id?]
    rw [sdx_eq] at hdx
    simp only [putchar, hdx, Option.bind_eq_bind, Option.bind_some]
    obtain ⟨p1, p2, p3⟩ := h.pos
    -- the state after appending the character
    generalize ha : runStart c = a
    have hrun : a.1 + runWidth env id a.2.2 = c.pos.h ∧ a.2.1 = c.pos.v := by
      cases hact : c.active with
      | none => simp [← ha, runStart, hact, runWidth]
      | some b =>
        obtain ⟨x, y, cs⟩ := b
        obtain ⟨id', h1, h2, h3⟩ := h.active x y cs hact
        rw [hid] at h1; cases h1
        simp only [← ha, runStart, hact]; exact ⟨h2, h3⟩
    have hpend : pending env c = expandText env id (a.1 * env.conv) (-a.2.1 * env.conv) a.2.2 := by
      cases hact : c.active with
      | none => simp [← ha, runStart, hact, pending, expandText]
      | some b => simp [← ha, runStart, hact, pending, hid]
    -- marks after appending
    have hout : s.out ++ [Mark.glyph id ch (s.pos.h * env.conv) (-s.pos.v * env.conv)] =
        expandAll env c.out ++ expandText env id (a.1 * env.conv) (-a.2.1 * env.conv) (a.2.2 ++ [ch]) := by
      rw [h.out, hpend, expandText_append, List.append_assoc, p1, p2, ← hrun.1, hrun.2]
      simp only [add_mul]
    by_cases hflush : (!adv || env.single) = true
    · rw [if_pos hflush]
      simp only [flush, hid]
      refine ⟨_, rfl, ⟨⟨by simp [smoveH, p1], p2, p3⟩, h.stack, h.font, ?_, ?_, ?_⟩⟩
      · exact hid.symm.trans h.fontid
      · simp only [smoveH, hout, pending, expandAll_append]
        simp [expandAll, expand]
      · intro x y cs he; cases he
    · rw [if_neg hflush]
      have hadv : adv = true := by
        cases adv with
        | true => rfl
        | false => simp at hflush
      subst hadv
      simp only [dxOf, if_true] at hdx
      refine ⟨_, rfl, ⟨⟨by simp [smoveH, p1], p2, p3⟩, h.stack, h.font, h.fontid, ?_, ?_⟩⟩
      · simp only [smoveH, hout, pending, hid]
      · intro x y cs he
        simp only [Option.some.injEq, Prod.mk.injEq] at he
        obtain ⟨rfl, rfl, rfl⟩ := he
        refine ⟨id, hid, ?_, hrun.2⟩
        rw [runWidth_append, hdx, ← add_assoc, hrun.1]; rfl
  | virt width packet first ifonts scale ih =>
    intro fonts n e s s' c ch adv hfn h hs
    obtain ⟨rfl, hpk, hsub⟩ := hf
    rw [e] at hs ⊢
    simp only [schar, Option.bind_eq_bind, Option.bind_eq_some_iff] at hs
    obtain ⟨dx, hdx, cmds, hcm, hs⟩ := hs
    rw [sdx_eq] at hdx
    have hm : ∀ f, ifonts 0 = f → f ≠ .missing := by
      intro f hf hf'; rw [hf, hf'] at hs; cases hs
    have hs2 : ∃ si, cmds.foldlM (sstep env ifonts scale fun n => schar env none (ifonts n))
        { pos := { s.pos with w := none, x := none, y := none, z := none }, stack := [], font := some 0,
          out := s.out } = some si ∧ s' = smoveH dx { s with out := si.out } := by
      cases h0 : ifonts 0 with
      | missing => exact absurd rfl (hm _ h0)
      | real id =>
        rw [h0] at hs
        simp only [Option.bind_eq_some_iff, Option.some.injEq] at hs
        obtain ⟨si, a, b⟩ := hs; exact ⟨si, a, b.symm⟩
      | virt _ _ _ _ _ =>
        rw [h0] at hs
        simp only [Option.bind_eq_some_iff, Option.some.injEq] at hs
        obtain ⟨si, a, b⟩ := hs; exact ⟨si, a, b.symm⟩
    obtain ⟨si, hrun, rfl⟩ := hs2
    -- the packet starts in related states
    have h0 : R env fonts { s with stack := [] } { c with stack := [] } :=
      ⟨h.pos, List.Forall₂.nil, h.font, h.fontid, h.out, h.active⟩
    obtain ⟨c1, e1, r1, a1, st1, p1⟩ := usefont_sim (fonts' := ifonts) h0 0 hm
    have r1' : R env ifonts
        { pos := { s.pos with w := none, x := none, y := none, z := none }, stack := [], font := some 0,
          out := s.out } c1 := by
      refine ⟨⟨r1.pos.1, r1.pos.2.1, ?_, ?_, ?_, ?_⟩, r1.stack, r1.font, r1.fontid, r1.out, r1.active⟩ <;>
        · intro r hr; cases hr
    have hcs : ∀ m, CharSim env ifonts m := fun m => ih m (hsub m) ifonts m rfl
    obtain ⟨c2, e2, r2⟩ := run_sim hcs cmds (hpk ch cmds hcm) _ si c1 r1' hrun
    obtain ⟨c3, e3, r3, a3, -, -⟩ := flush_sim r2
    refine ⟨{ pos := { c.pos with h := c.pos.h + dx }, stack := c.stack, active := none, font := c.font, fontid := c.fontid,
              out := c3.out }, ?_, ?_⟩
    · simp only [putchar, hdx, hcm, e1, e2, e3, Option.bind_eq_bind, Option.bind_some]
    · refine ⟨⟨by simp [smoveH, h.pos.1], h.pos.2.1, h.pos.2.2⟩, h.stack, h.font, h.fontid, ?_, ?_⟩
      · show si.out = _
        rw [r3.out]; simp [pending, a3]
      · intro x y cs he; cases he

/-! ## Property theorems -/

/-- The full claim of C28 (for the standard machine: registers start with 0 in packets). -/
def DviCorrect (K : Type) [Field K] [LinearOrder K] : Prop :=
  ∀ (env : Env K) (fonts : Int → Font K) (cmds : List Cmd) (m : List (Mark K)),
    spage env (some 0) fonts cmds = some m → ∃ o, readpage env fonts cmds = some o ∧ expandAll env o = m

/-- C28, main theorem (partial): whenever the standard machine (with unset registers in packets) accepts a page, the code
accepts it and its text objects and rules show exactly the marks of the standard, in the same order – for every page
program without `nop` and every set of (nested) virtual fonts meeting `FontOK`. -/
theorem readpage_refines_partial (env : Env K) (fonts : Int → Font K) (hf : ∀ n, FontOK (fonts n)) (cmds : List Cmd)
    (hn : ∀ x ∈ cmds, isNop x = false) (m : List (Mark K)) (h : spage env none fonts cmds = some m) :
    ∃ o, readpage env fonts cmds = some o ∧ expandAll env o = m := by
  simp only [spage, Option.bind_eq_bind, Option.bind_eq_some_iff, Option.some.injEq] at h
  obtain ⟨s', hs, rfl⟩ := h
  have h0 : R env fonts { pos := ⟨0, 0, some 0, some 0, some 0, some 0⟩, stack := [], font := none, out := [] }
      { pos := ⟨0, 0, 0, 0, 0, 0⟩, stack := [], active := none, font := none, fontid := none, out := [] } := by
    refine ⟨⟨rfl, rfl, reg_some _, reg_some _, reg_some _, reg_some _⟩, List.Forall₂.nil, rfl, rfl, ?_, ?_⟩
    · simp [expandAll, pending]
    · intro x y cs he; cases he
  obtain ⟨c1, e1, r1⟩ := run_sim (fun n => char_sim env _ (hf n) fonts n rfl) cmds
    (fun x hx => ⟨hn x hx, Or.inr rfl⟩) _ _ _ h0 hs
  obtain ⟨c2, e2, r2, a2, -, -⟩ := flush_sim r1
  refine ⟨c2.out, ?_, ?_⟩
  · simp [readpage, e1, e2]
  · rw [r2.out]; simp [pending, a2]

/-- The machine with unset registers in packets is a restriction of the standard one: where it gives a result, the
standard machine gives the same. -/
def RegS (a b : Option K) : Prop := ∀ r, a = some r → b = some r

def RSPos (s t : SPos K) : Prop :=
  s.h = t.h ∧ s.v = t.v ∧ RegS s.w t.w ∧ RegS s.x t.x ∧ RegS s.y t.y ∧ RegS s.z t.z

structure RS (s t : SState K) : Prop where
  pos : RSPos s.pos t.pos
  stack : List.Forall₂ RSPos s.stack t.stack
  font : t.font = s.font
  out : t.out = s.out

theorem RS_mk {s t s' t' : SState K} (h : RS s t) (hp : RSPos s'.pos t'.pos) (hs : s'.stack = s.stack)
    (ht : t'.stack = t.stack) (hf : t'.font = s'.font) (ho : t'.out = s'.out) : RS s' t' :=
  ⟨hp, by rw [hs, ht]; exact h.stack, hf, ho⟩

theorem regS_some (r : K) : RegS (some r) (some r) := fun _ h => h

def CharSimS (env : Env K) (f : Font K) : Prop :=
  ∀ (s s' t : SState K) (ch : Nat) (adv : Bool), RS s t → schar env none f ch adv s = some s' →
    ∃ t', schar env (some 0) f ch adv t = some t' ∧ RS s' t'

theorem smoveH_simS {s t : SState K} (h : RS s t) (d : K) : RS (smoveH d s) (smoveH d t) := by
  obtain ⟨p1, p2, p3⟩ := h.pos
  exact RS_mk h ⟨by simp [smoveH, p1], p2, p3⟩ rfl rfl h.font h.out

theorem smoveV_simS {s t : SState K} (h : RS s t) (d : K) : RS (smoveV d s) (smoveV d t) := by
  obtain ⟨p1, p2, p3⟩ := h.pos
  exact RS_mk h ⟨p1, by simp [smoveV, p2], p3⟩ rfl rfl h.font h.out

theorem srule_simS {env : Env K} {s t : SState K} (h : RS s t) (a b : K) :
    RS (srule env a b s) (srule env a b t) := by
  unfold srule
  split
  · exact RS_mk h h.pos rfl rfl h.font (by simp [h.out, h.pos.1, h.pos.2.1])
  · exact h

theorem sstep_simS {env : Env K} {fonts : Int → Font K} {scale : K} (hc : ∀ n, CharSimS env (fonts n))
    (s s' t : SState K) (cmd : Cmd) (h : RS s t)
    (hs : sstep env fonts scale (fun n => schar env none (fonts n)) s cmd = some s') :
    ∃ t', sstep env fonts scale (fun n => schar env (some 0) (fonts n)) t cmd = some t' ∧ RS s' t' := by
  obtain ⟨q1, q2, q3, q4, q5, q6⟩ := h.pos
  cases cmd with
  | setChar ch =>
    simp only [sstep, Option.bind_eq_some_iff] at hs
    obtain ⟨n, hn, hs⟩ := hs
    obtain ⟨t', e, r⟩ := hc n s s' t ch true h hs
    exact ⟨t', by simp [sstep, h.font, hn, e], r⟩
  | putChar ch =>
    simp only [sstep, Option.bind_eq_some_iff] at hs
    obtain ⟨n, hn, hs⟩ := hs
    obtain ⟨t', e, r⟩ := hc n s s' t ch false h hs
    exact ⟨t', by simp [sstep, h.font, hn, e], r⟩
  | setRule a b =>
    simp only [sstep, Option.some.injEq] at hs; subst hs
    exact ⟨_, rfl, smoveH_simS (srule_simS h _ _) _⟩
  | putRule a b =>
    simp only [sstep, Option.some.injEq] at hs; subst hs
    exact ⟨_, rfl, srule_simS h _ _⟩
  | nop => simp only [sstep, Option.some.injEq] at hs; subst hs; exact ⟨t, rfl, h⟩
  | push =>
    simp only [sstep, Option.some.injEq] at hs; subst hs
    exact ⟨_, rfl, ⟨h.pos, List.Forall₂.cons h.pos h.stack, h.font, h.out⟩⟩
  | pop =>
    simp only [sstep] at hs ⊢
    have hst := h.stack
    cases hss : s.stack with
    | nil => rw [hss] at hs; cases hs
    | cons p ps =>
      rw [hss] at hs hst
      simp only [Option.some.injEq] at hs; subst hs
      cases hcs : t.stack with
      | nil => rw [hcs] at hst; cases hst
      | cons p' ps' =>
        rw [hcs] at hst
        cases hst with
        | cons hp hps => exact ⟨_, rfl, ⟨hp, hps, h.font, h.out⟩⟩
  | right b => simp only [sstep, Option.some.injEq] at hs; subst hs; exact ⟨_, rfl, smoveH_simS h _⟩
  | down b => simp only [sstep, Option.some.injEq] at hs; subst hs; exact ⟨_, rfl, smoveV_simS h _⟩
  | w0 =>
    simp only [sstep, Option.map_eq_some_iff] at hs ⊢
    obtain ⟨d, hd, rfl⟩ := hs
    exact ⟨_, ⟨d, q3 d hd, rfl⟩, smoveH_simS h d⟩
  | x0 =>
    simp only [sstep, Option.map_eq_some_iff] at hs ⊢
    obtain ⟨d, hd, rfl⟩ := hs
    exact ⟨_, ⟨d, q4 d hd, rfl⟩, smoveH_simS h d⟩
  | y0 =>
    simp only [sstep, Option.map_eq_some_iff] at hs ⊢
    obtain ⟨d, hd, rfl⟩ := hs
    exact ⟨_, ⟨d, q5 d hd, rfl⟩, smoveV_simS h d⟩
  | z0 =>
    simp only [sstep, Option.map_eq_some_iff] at hs ⊢
    obtain ⟨d, hd, rfl⟩ := hs
    exact ⟨_, ⟨d, q6 d hd, rfl⟩, smoveV_simS h d⟩
  | w b =>
    simp only [sstep, Option.some.injEq] at hs; subst hs
    refine ⟨_, rfl, smoveH_simS ?_ _⟩
    exact ⟨⟨q1, q2, regS_some _, q4, q5, q6⟩, h.stack, h.font, h.out⟩
  | x b =>
    simp only [sstep, Option.some.injEq] at hs; subst hs
    refine ⟨_, rfl, smoveH_simS ?_ _⟩
    exact ⟨⟨q1, q2, q3, regS_some _, q5, q6⟩, h.stack, h.font, h.out⟩
  | y b =>
    simp only [sstep, Option.some.injEq] at hs; subst hs
    refine ⟨_, rfl, smoveV_simS ?_ _⟩
    exact ⟨⟨q1, q2, q3, q4, regS_some _, q6⟩, h.stack, h.font, h.out⟩
  | z b =>
    simp only [sstep, Option.some.injEq] at hs; subst hs
    refine ⟨_, rfl, smoveV_simS ?_ _⟩
    exact ⟨⟨q1, q2, q3, q4, q5, regS_some _⟩, h.stack, h.font, h.out⟩
  | fnt n =>
    simp only [sstep] at hs ⊢
    cases hf : fonts n with
    | missing => rw [hf] at hs; cases hs
    | real id =>
      rw [hf] at hs; simp only [Option.some.injEq] at hs; subst hs
      exact ⟨_, rfl, ⟨h.pos, h.stack, rfl, h.out⟩⟩
    | virt _ _ _ _ _ =>
      rw [hf] at hs; simp only [Option.some.injEq] at hs; subst hs
      exact ⟨_, rfl, ⟨h.pos, h.stack, rfl, h.out⟩⟩
  | special u =>
    simp only [sstep, Option.some.injEq] at hs; subst hs
    refine ⟨_, rfl, ?_⟩
    split
    · exact RS_mk h h.pos rfl rfl h.font (by simp [h.out, h.pos.1, h.pos.2.1])
    · exact h
  | fntdef _ _ _ _ _ => simp only [sstep, Option.some.injEq] at hs; subst hs; exact ⟨t, rfl, h⟩

theorem run_simS {env : Env K} {fonts : Int → Font K} {scale : K} (hc : ∀ n, CharSimS env (fonts n))
    (cmds : List Cmd) (s s' t : SState K) (h : RS s t)
    (hs : cmds.foldlM (sstep env fonts scale fun n => schar env none (fonts n)) s = some s') :
    ∃ t', cmds.foldlM (sstep env fonts scale fun n => schar env (some 0) (fonts n)) t = some t' ∧ RS s' t' := by
  induction cmds generalizing s t with
  | nil => simp only [List.foldlM_nil] at hs ⊢; cases hs; exact ⟨t, rfl, h⟩
  | cons cmd cmds ih =>
    simp only [List.foldlM_cons, Option.bind_eq_bind, Option.bind_eq_some_iff] at hs
    obtain ⟨s1, h1, h2⟩ := hs
    obtain ⟨t1, e1, r1⟩ := sstep_simS hc s s1 t cmd h h1
    obtain ⟨t2, e2, r2⟩ := ih s1 t1 r1 h2
    exact ⟨t2, by simp [List.foldlM_cons, e1, e2], r2⟩

theorem char_simS (env : Env K) (f : Font K) : CharSimS env f := by
  induction f with
  | missing => intro s s' t ch adv _ hs; simp [schar] at hs
  | real id =>
    intro s s' t ch adv h hs
    simp only [schar, Option.bind_eq_bind, Option.bind_eq_some_iff, Option.some.injEq] at hs ⊢
    obtain ⟨dx, hdx, rfl⟩ := hs
    refine ⟨_, ⟨dx, hdx, rfl⟩, smoveH_simS ?_ _⟩
    exact ⟨h.pos, h.stack, h.font, by simp [h.out, h.pos.1, h.pos.2.1]⟩
  | virt width packet first ifonts scale ih =>
    intro s s' t ch adv h hs
    simp only [schar, Option.bind_eq_bind, Option.bind_eq_some_iff] at hs ⊢
    obtain ⟨dx, hdx, cmds, hcm, hs⟩ := hs
    have h0 : RS
        { pos := { s.pos with w := none, x := none, y := none, z := none }, stack := [], font := some first,
          out := s.out }
        { pos := { t.pos with w := some 0, x := some 0, y := some 0, z := some 0 }, stack := [], font := some first,
          out := t.out } := by
      refine ⟨⟨h.pos.1, h.pos.2.1, ?_, ?_, ?_, ?_⟩, List.Forall₂.nil, rfl, h.out⟩ <;> · intro r hr; cases hr
    cases hf : ifonts first with
    | missing => rw [hf] at hs; cases hs
    | real id =>
      rw [hf] at hs
      simp only [Option.bind_eq_some_iff, Option.some.injEq] at hs
      obtain ⟨si, a, rfl⟩ := hs
      obtain ⟨ti, e, r⟩ := run_simS ih cmds _ si _ h0 a
      refine ⟨_, ⟨dx, hdx, cmds, hcm, by simp only [e, Option.bind_some]; rfl⟩, smoveH_simS ?_ _⟩
      exact ⟨h.pos, h.stack, h.font, r.out⟩
    | virt _ _ _ _ _ =>
      rw [hf] at hs
      simp only [Option.bind_eq_some_iff, Option.some.injEq] at hs
      obtain ⟨si, a, rfl⟩ := hs
      obtain ⟨ti, e, r⟩ := run_simS ih cmds _ si _ h0 a
      refine ⟨_, ⟨dx, hdx, cmds, hcm, by simp only [e, Option.bind_some]; rfl⟩, smoveH_simS ?_ _⟩
      exact ⟨h.pos, h.stack, h.font, r.out⟩

/-- Where the restricted machine gives a page, the standard machine gives the same page. -/
theorem spage_restrict (env : Env K) (fonts : Int → Font K) (cmds : List Cmd) (m : List (Mark K))
    (h : spage env none fonts cmds = some m) : spage env (some 0) fonts cmds = some m := by
  simp only [spage, Option.bind_eq_bind, Option.bind_eq_some_iff, Option.some.injEq] at h ⊢
  obtain ⟨s', hs, rfl⟩ := h
  obtain ⟨t', e, r⟩ := run_simS (fun n => char_simS env (fonts n)) cmds _ s'
    { pos := ⟨0, 0, some 0, some 0, some 0, some 0⟩, stack := [], font := none, out := [] }
    ⟨⟨rfl, rfl, regS_some _, regS_some _, regS_some _, regS_some _⟩, List.Forall₂.nil, rfl, rfl⟩ hs
  exact ⟨t', e, r.out⟩

theorem foldlM_congr_mem {α β : Type} (f g : β → α → Option β) (l : List α) (h : ∀ b, ∀ a ∈ l, f b a = g b a)
    (b : β) : l.foldlM f b = l.foldlM g b := by
  induction l generalizing b with
  | nil => rfl
  | cons a l ih =>
    simp only [List.foldlM_cons, h b a (by simp)]
    congr 1; funext b'
    exact ih (fun b a ha => h b a (by simp [ha])) b'

/-- Pages that use no virtual font: the two standard machines coincide. -/
theorem spage_novirt (env : Env K) (fonts : Int → Font K) (hv : ∀ n, fonts n = .missing ∨ ∃ id, fonts n = .real id)
    (cmds : List Cmd) (i j : Option K) : spage env i fonts cmds = spage env j fonts cmds := by
  have : (fun n => schar env i (fonts n)) = (fun n => schar env j (fonts n)) := by
    funext n
    rcases hv n with h | ⟨id, h⟩ <;> rw [h] <;> funext c adv st <;> simp [schar]
  simp [spage, this]

/-- C28 for pages without virtual fonts and without `nop`: no further restriction. -/
theorem readpage_refines_novirt (env : Env K) (fonts : Int → Font K)
    (hv : ∀ n, fonts n = .missing ∨ ∃ id, fonts n = .real id) (cmds : List Cmd)
    (hn : ∀ x ∈ cmds, isNop x = false) (m : List (Mark K)) (h : spage env (some 0) fonts cmds = some m) :
    ∃ o, readpage env fonts cmds = some o ∧ expandAll env o = m := by
  refine readpage_refines_partial env fonts ?_ cmds hn m ?_
  · intro n; rcases hv n with h | ⟨id, h⟩ <;> rw [h] <;> trivial
  · rw [spage_novirt env fonts hv cmds none (some 0)]; exact h

/-! ## Findings -/

/-- Widths for the examples: every character of every font is 3 units wide. -/
def exEnv : Env ℚ := ⟨1, false, fun _ _ => some 3⟩

/-- A virtual font at number 0 (packet given), whose font table has real font `7` at number `num` only. -/
def exFonts (scale : ℚ) (num : Int) (packet : List Cmd) : Int → Font ℚ := fun n =>
  if n = 0 then
    .virt (fun _ => some 5) (fun _ => some packet) num (fun k => if k = num then .real 7 else .missing) scale
  else .missing

/-- Finding: in the packet of a virtual font the width of a rule is scaled twice for the advance. -/
theorem vf_setRule_wrong :
    spage exEnv (some 0) (exFonts 2 0 [.setRule 1 1, .setChar 65]) [.fnt 0, .setChar 1]
      = some [.rule 0 0 2 2, .glyph 7 65 2 0] ∧
    (readpage exEnv (exFonts 2 0 [.setRule 1 1, .setChar 65]) [.fnt 0, .setChar 1]).map (expandAll exEnv)
      = some [.rule 0 0 2 2, .glyph 7 65 4 0] := by
  constructor <;> decide +kernel

/-- Finding: the register `w` of the page is still visible in the packet. -/
theorem vf_register_wrong :
    spage exEnv (some 0) (exFonts 1 0 [.w0, .setChar 65]) [.fnt 0, .w 10, .setChar 1]
      = some [.glyph 7 65 10 0] ∧
    (readpage exEnv (exFonts 1 0 [.w0, .setChar 65]) [.fnt 0, .w 10, .setChar 1]).map (expandAll exEnv)
      = some [.glyph 7 65 20 0] := by
  constructor <;> decide +kernel

/-- Finding: a virtual font whose first font has not number 0 makes the page fail. -/
theorem vf_first_wrong :
    spage exEnv (some 0) (exFonts 1 4 [.setChar 65]) [.fnt 0, .setChar 1] = some [.glyph 7 65 0 0] ∧
    readpage exEnv (exFonts 1 4 [.setChar 65]) [.fnt 0, .setChar 1] = none := by
  constructor <;> decide +kernel

/-- Hence the full claim does not hold. -/
theorem dvi_not_correct : ¬ DviCorrect ℚ := by
  intro h
  obtain ⟨o, ho, -⟩ := h _ _ _ _ vf_first_wrong.1
  rw [vf_first_wrong.2] at ho; cases ho

/-- Concrete page: two characters in one run, a push/pop, a rule, a virtual character. -/
example : (readpage exEnv (fun n => if n = 1 then .real 2 else exFonts 2 0 [.right 1, .setChar 65, .putRule 1 1] n)
    [.fnt 1, .setChar 10, .setChar 11, .push, .down 4, .setRule 2 6, .pop, .fnt 0, .setChar 1, .fnt 1, .putChar 12])
    = some [.text 2 0 0 [10, 11], .rule 6 (-4) 6 2, .text 7 8 0 [65], .rule 11 0 2 2, .text 2 11 0 [12]] := by
  decide +kernel

end PyX.Dvi
