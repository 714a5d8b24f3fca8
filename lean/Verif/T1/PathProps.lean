import Verif.T1.Path
import Verif.T1.GlyphSpec
import Verif.T1.StripProps
import Mathlib.Data.List.Induction
import Mathlib.Tactic.Linarith
import Mathlib.Tactic.FieldSimp
import Mathlib.Tactic.SplitIfs
import Mathlib.Tactic.Ring

/-!
# C91: the path of a glyph is the outline described by its charstring
-/

set_option linter.unusedSectionVars false
set_option linter.unusedSimpArgs false

namespace PyX.T1

open Spec

variable {P : Type}

/-! ## What a path means -/

/-- One path item with the meaning of PostScript: `σ` is the current point with the beginning of the subpath. -/
def drawStep (σ : Option (P × P) × List (Seg P)) : PItem P → Option (Option (P × P) × List (Seg P))
  | .moveto p => some (some (p, p), σ.2)
  | .lineto p => σ.1.bind fun q => some (some (p, q.2), σ.2 ++ [.line q.1 p])
  | .curveto a b p => σ.1.bind fun q => some (some (p, q.2), σ.2 ++ [.curve q.1 a b p])
  | .closepath => σ.1.bind fun q => some (some (q.2, q.2), σ.2 ++ [.close q.1 q.2])

def draw (p : List (PItem P)) : Option (Option (P × P) × List (Seg P)) := p.foldlM drawStep (none, [])

/-- The pieces drawn by a path. -/
def segments (p : List (PItem P)) : Option (List (Seg P)) := (draw p).map Prod.snd

theorem draw_append (p q : List (PItem P)) : draw (p ++ q) = (draw p).bind fun σ => q.foldlM drawStep σ := by
  unfold draw
  rw [List.foldlM_append]
  rfl

/-! ## Events only grow -/

def Mono (r : List Tok → St → Option St) : Prop := ∀ ts s s', r ts s = some s' → s.out <+: s'.out

theorem step_prefix (ok : Ok) (other : Other) (Q : Prog) (r : List Tok → St → Option St) (hr : Mono r) (t : Tok)
    (s s' : St) (h : step ok other Q r t s = some s') : s.out <+: s'.out := by
  unfold step at h
  split_ifs at h
  cases t with
  | num z => simp only [Option.some.injEq] at h; subst h; exact List.prefix_refl _
  | cmd k =>
    simp only at h
    split_ifs at h with hk
    · unfold callsubr at h
      split at h
      · rw [Option.bind_eq_some_iff] at h
        obtain ⟨b, _, h⟩ := h
        exact (List.prefix_append _ _).trans (hr _ _ _ h)
      · simp at h
    · simp only [Option.some.injEq] at h; subst h; exact List.prefix_append _ _
  | esc k =>
    simp only at h
    split_ifs at h with h6 h12 h16 h17
    · unfold seac at h
      split at h
      · simp only [Option.bind_eq_some_iff] at h
        obtain ⟨an, _, bn, _, b, _, s1, h1, a, _, s2, h2, h⟩ := h
        simp only [Option.some.injEq] at h
        subst h
        exact ((List.prefix_append _ _).trans (hr _ _ _ h1)).trans ((List.prefix_append _ _).trans (hr _ _ _ h2))
      · simp at h
    · unfold divide at h
      split at h
      · split_ifs at h <;>
        · simp only [Option.some.injEq] at h
          subst h; exact List.prefix_refl _
      · split_ifs at h
        simp only [Option.some.injEq] at h
        subst h; exact List.prefix_refl _
      · split_ifs at h
        simp only [Option.some.injEq] at h
        subst h; exact List.prefix_refl _
      · simp at h
    · unfold callother at h
      split at h
      · split_ifs at h <;>
        · simp only [Option.some.injEq] at h
          subst h; exact List.prefix_append _ _
      · simp at h
    · unfold pop at h
      split at h
      · simp only [Option.some.injEq] at h
        subst h; exact List.prefix_refl _
      · simp at h
    · simp only [Option.some.injEq] at h; subst h; exact List.prefix_append _ _

theorem loop_prefix (f : Tok → St → Option St) (hf : ∀ t s s', f t s = some s' → s.out <+: s'.out) :
    Mono (loop f) := by
  intro ts
  induction ts with
  | nil => intro s s' h; simp only [loop, Option.some.injEq] at h; subst h; exact List.prefix_refl _
  | cons t ts ih =>
    intro s s' h
    simp only [loop] at h
    split_ifs at h
    · simp only [Option.some.injEq] at h; subst h; exact List.prefix_refl _
    · rw [Option.bind_eq_some_iff] at h
      obtain ⟨s1, h1, h2⟩ := h
      exact (hf _ _ _ h1).trans (ih _ _ h2)

theorem run_prefix (ok : Ok) (other : Other) (Q : Prog) (n : Nat) : Mono (run ok other Q n) := by
  induction n with
  | zero => intro ts s s' h; simp [run] at h
  | succ n ih => exact fun ts s s' h => loop_prefix _ (fun t s s' h => step_prefix ok other Q _ ih t s s' h) ts s s' h

theorem geo_append (off : ℚ → ℚ → ℚ → ℚ) (fl : Bool) (a b : List Ev) :
    geo off fl (a ++ b) = (geo off fl a).bind fun γ => b.foldlM (Geo.step off fl) γ := by
  unfold geo
  rw [List.foldlM_append]
  rfl

theorem geo_snoc (off : ℚ → ℚ → ℚ → ℚ) (fl : Bool) (a : List Ev) (e : Ev) (γ γ' : Geo) (h : geo off fl a = some γ)
    (h' : geo off fl (a ++ [e]) = some γ') : γ.step off fl e = some γ' := by
  rw [geo_append, h] at h'
  simpa using h'

theorem geo_prefix (off : ℚ → ℚ → ℚ → ℚ) (fl : Bool) {a b : List Ev} (hp : a <+: b) (γ' : Geo)
    (h : geo off fl b = some γ') : ∃ γ, geo off fl a = some γ := by
  obtain ⟨c, rfl⟩ := hp
  rw [geo_append, Option.bind_eq_some_iff] at h
  obtain ⟨γ, h, _⟩ := h
  exact ⟨γ, h⟩

/-! ## The relation between the two executions -/

def icast (l : List Int) : List ℚ := l.map (Int.cast : Int → ℚ)

def flat (l : List Pt) : List ℚ := l.flatMap fun p => [p.1, p.2]

def flexPts : Option (List Pt × Bool) → List Pt
  | none => []
  | some (l, _) => l

def pending : Option (List Pt × Bool) → Bool
  | some (_, true) => true
  | _ => false

theorem icast_cons {l : List Int} {q : ℚ} {m : List ℚ} (h : icast l = q :: m) :
    ∃ z l', l = z :: l' ∧ (z : ℚ) = q ∧ icast l' = m := by
  cases l with
  | nil => simp [icast] at h
  | cons z l' =>
    simp only [icast, List.map_cons, List.cons.injEq] at h
    exact ⟨z, l', rfl, h.1, h.2⟩

theorem icast_nil {l : List Int} (h : icast l = []) : l = [] := by
  simpa [icast] using h

theorem icast_append (a b : List Int) : icast (a ++ b) = icast a ++ icast b := List.map_append

theorem icast_reverse (a : List Int) : icast a.reverse = (icast a).reverse := by
  simp [icast]

theorem icast_inj {a b : List Int} (h : icast a = icast b) : a = b :=
  List.map_injective_iff.mpr (fun _ _ h => by exact_mod_cast h) h

theorem icast_append_inv {l : List Int} {a b : List ℚ} (h : icast l = a ++ b) :
    ∃ x y, l = x ++ y ∧ icast x = a ∧ icast y = b := by
  obtain ⟨x, y, e, h1, h2⟩ := List.map_eq_append_iff.mp h
  exact ⟨x, y, e, h1, h2⟩

def pcast (p : Int × Int) : Pt := (p.1, p.2)

/-- The path and the drawing agree; inside a flex section the path may have one further moveto. -/
def PathRel (T₀ : Pt → P) (γ : Geo) (p : List (PItem P)) : Prop :=
  ∃ p₀ tl, p = p₀ ++ tl ∧ (tl.length = if pending γ.flex then 1 else 0) ∧
    ∃ σ, draw p₀ = some σ ∧ σ.2 = γ.segs.map (Seg.map T₀) ∧
      (γ.cur.isSome = true → σ.1 = some (T₀ γ.pen, T₀ γ.start))

/-- The geometric part. -/
structure GRel (T₀ : Pt → P) (γ : Geo) (c : UCtx P) : Prop where
  pos : ∀ p, γ.cur = some p → ∃ q, c.pos = some q ∧ pcast q = p
  path : PathRel T₀ γ c.path
  width : (γ.comp = false → c.w.map pcast = γ.width) ∧ (γ.width.isSome → c.w.isSome)
  origin : γ.comp = false → γ.origin = 0
  pen : ∀ p, γ.flex = none → γ.cur = some p → γ.pen = p + γ.origin

structure URel (T₀ : Pt → P) (s : St) (γ : Geo) (c : UCtx P) : Prop where
  t1 : s.done = false → icast c.t1 = s.stack.reverse.map Val.q
  ps : s.done = false → icast c.ps = flat (flexPts γ.flex) ++ s.ps.reverse.map Val.q
  ended : γ.ended = true → c.t1 = [] ∧ c.ps = [] ∧ γ.flex = none
  alive : s.done = false → γ.ended = false
  g : GRel T₀ γ c

theorem GRel.stacks {T₀ : Pt → P} {γ : Geo} {c : UCtx P} (h : GRel T₀ γ c) (a b : List Int) :
    GRel T₀ γ { c with t1 := a, ps := b } := ⟨h.pos, h.path, h.width, h.origin, h.pen⟩

theorem GRel.t1 {T₀ : Pt → P} {γ : Geo} {c : UCtx P} (h : GRel T₀ γ c) (a : List Int) :
    GRel T₀ γ { c with t1 := a } := ⟨h.pos, h.path, h.width, h.origin, h.pen⟩

/-- What drawing commands leave alone. -/
structure Keep (γ γ' : Geo) (c c' : UCtx P) : Prop where
  t1 : c'.t1 = c.t1
  ps : c'.ps = c.ps
  origin : γ'.origin = γ.origin
  ended : γ'.ended = γ.ended
  flex : flexPts γ'.flex = flexPts γ.flex

theorem pathRel_none {T₀ : Pt → P} {γ : Geo} {p : List (PItem P)} (h : PathRel T₀ γ p) (hf : γ.flex = none) :
    ∃ σ, draw p = some σ ∧ σ.2 = γ.segs.map (Seg.map T₀) ∧
      (γ.cur.isSome = true → σ.1 = some (T₀ γ.pen, T₀ γ.start)) := by
  obtain ⟨p₀, tl, e, hl, σ, h1, h2, h3⟩ := h
  rw [hf] at hl
  simp only [pending, Bool.false_eq_true, if_false, List.length_eq_zero_iff] at hl
  subst hl
  rw [List.append_nil] at e
  subst e
  exact ⟨σ, h1, h2, h3⟩

theorem pathRel_intro {T₀ : Pt → P} {γ : Geo} {p : List (PItem P)} (hf : pending γ.flex = false)
    (σ) (h1 : draw p = some σ) (h2 : σ.2 = γ.segs.map (Seg.map T₀))
    (h3 : γ.cur.isSome = true → σ.1 = some (T₀ γ.pen, T₀ γ.start)) : PathRel T₀ γ p :=
  ⟨p, [], (List.append_nil _).symm, by rw [hf]; rfl, σ, h1, h2, h3⟩

theorem pcast_pt (x y : Int) : pt x y = pcast (x, y) := rfl

theorem pcast_add (x y a b : Int) : pcast (x + a, y + b) = pcast (x, y) + ((a : ℚ), (b : ℚ)) := by
  simp [pcast]

theorem g_side {T₀ T : Pt → P} {γ γ' : Geo} {c : UCtx P} (h : GRel T₀ γ c) (hT : ∀ p, T p = T₀ (p + γ.origin))
    (sbx sby wx wy : Int) (he : γ.side ((sbx : ℚ), (sby : ℚ)) ((wx : ℚ), (wy : ℚ)) = some γ') :
    ∃ c', uSide T sbx sby wx wy c = some c' ∧ GRel T₀ γ' c' ∧ Keep γ γ' c c' := by
  unfold Geo.side at he
  by_cases h0 : γ.cur.isSome ∨ γ.flex.isSome
  · rw [if_pos h0] at he; exact absurd he (by simp)
  rw [if_neg h0] at he
  push Not at h0
  have hf : γ.flex = none := by simpa using h0.2
  simp only [Option.some.injEq] at he
  subst he
  obtain ⟨σ, h1, h2, h3⟩ := pathRel_none h.path hf
  refine ⟨_, rfl, ⟨fun p hp => ⟨(sbx, sby), rfl, Option.some.inj hp⟩, ?_, ?_, h.origin, ?_⟩, ⟨rfl, rfl, rfl, rfl, rfl⟩⟩
  · refine pathRel_intro (by rw [hf]; rfl) (some (T (pt sbx sby), T (pt sbx sby)), σ.2) ?_ h2 ?_
    · rw [draw_append, h1]; rfl
    · intro _; rw [hT]; rfl
  · refine ⟨fun hc => ?_, fun _ => rfl⟩
    simp only at hc
    simp only [hc, Bool.false_eq_true, if_false]
    rfl
  · intro p _ hp
    simp only [Option.some.injEq] at hp
    subst hp
    rfl

theorem g_move {T₀ T : Pt → P} {γ γ' : Geo} {c : UCtx P} (h : GRel T₀ γ c) (hT : ∀ p, T p = T₀ (p + γ.origin))
    (dx dy : Int) (he : γ.move ((dx : ℚ), (dy : ℚ)) = some γ') :
    ∃ c', uMove T dx dy c = some c' ∧ GRel T₀ γ' c' ∧ Keep γ γ' c c' := by
  unfold Geo.move at he
  rw [Option.bind_eq_some_iff] at he
  obtain ⟨p, hp, he⟩ := he
  obtain ⟨q, hq, rfl⟩ := h.pos p hp
  refine ⟨_, by unfold uMove; rw [hq]; rfl, ?_⟩
  rcases hf : γ.flex with _ | ⟨pts, b⟩
  · simp only [hf, Option.some.injEq] at he
    subst he
    obtain ⟨σ, h1, h2, h3⟩ := pathRel_none h.path hf
    refine ⟨⟨?_, ?_, h.width, h.origin, ?_⟩, ⟨rfl, rfl, rfl, rfl, by rw [hf]⟩⟩
    · exact fun p hp => ⟨_, rfl, (pcast_add _ _ _ _).trans (Option.some.inj hp)⟩
    · refine pathRel_intro rfl (some (T (pt (q.1 + dx) (q.2 + dy)), T (pt (q.1 + dx) (q.2 + dy))), σ.2)
        ?_ h2 ?_
      · rw [draw_append, h1]; rfl
      · intro _; rw [hT, pcast_pt, pcast_add]
    · intro p _ hp
      simp only [Option.some.injEq] at hp
      subst hp
      rfl
  · cases b with
    | true => simp only [hf] at he; exact absurd he (by simp)
    | false =>
      simp only [hf, Option.some.injEq] at he
      subst he
      obtain ⟨p₀, tl, e, hl, σ, h1, h2, h3⟩ := h.path
      rw [hf] at hl
      simp only [pending, Bool.false_eq_true, if_false, List.length_eq_zero_iff] at hl
      subst hl
      refine ⟨⟨?_, ?_, h.width, h.origin, ?_⟩, ⟨rfl, rfl, rfl, rfl, by rw [hf]; rfl⟩⟩
      · exact fun p hp => ⟨_, rfl, (pcast_add _ _ _ _).trans (Option.some.inj hp)⟩
      · refine ⟨p₀, [.moveto (T (pt (q.1 + dx) (q.2 + dy)))], ?_, rfl, σ, h1, h2, ?_⟩
        · rw [e, List.append_nil]
        · intro _; exact h3 (by rw [hp]; rfl)
      · intro p hp' _
        exact absurd hp' (by simp)

theorem g_line {T₀ T : Pt → P} {γ γ' : Geo} {c : UCtx P} (h : GRel T₀ γ c) (hT : ∀ p, T p = T₀ (p + γ.origin))
    (dx dy : Int) (he : γ.line ((dx : ℚ), (dy : ℚ)) = some γ') :
    ∃ c', uLine T dx dy c = some c' ∧ GRel T₀ γ' c' ∧ Keep γ γ' c c' := by
  unfold Geo.line at he
  rw [Option.bind_eq_some_iff] at he
  obtain ⟨p, hp, he⟩ := he
  split_ifs at he with h0
  have hf : γ.flex = none := by simpa using h0
  simp only [Option.some.injEq] at he
  subst he
  obtain ⟨q, hq, rfl⟩ := h.pos p hp
  refine ⟨_, by unfold uLine; rw [hq]; rfl, ?_⟩
  obtain ⟨σ, h1, h2, h3⟩ := pathRel_none h.path hf
  have h3 := h3 (by rw [hp]; rfl)
  refine ⟨⟨?_, ?_, h.width, h.origin, ?_⟩, ⟨rfl, rfl, rfl, rfl, rfl⟩⟩
  · exact fun p hp => ⟨_, rfl, (pcast_add _ _ _ _).trans (Option.some.inj hp)⟩
  · refine pathRel_intro (by simp only [hf]; rfl) (some (T (pt (q.1 + dx) (q.2 + dy)), T₀ γ.start),
      σ.2 ++ [.line (T₀ γ.pen) (T (pt (q.1 + dx) (q.2 + dy)))]) ?_ ?_ ?_
    · rw [draw_append, h1]
      simp only [Option.bind_some, List.foldlM_cons, List.foldlM_nil, drawStep, h3]
      rfl
    · simp only [List.map_append, h2, hT, pcast_pt, pcast_add]
      rfl
    · intro _; rw [hT, pcast_pt, pcast_add]
  · intro p _ hp
    simp only [Option.some.injEq] at hp
    subst hp
    rfl

theorem g_curve {T₀ T : Pt → P} {γ γ' : Geo} {c : UCtx P} (h : GRel T₀ γ c) (hT : ∀ p, T p = T₀ (p + γ.origin))
    (a₁ a₂ b₁ b₂ c₁ c₂ : Int)
    (he : γ.curve ((a₁ : ℚ), (a₂ : ℚ)) ((b₁ : ℚ), (b₂ : ℚ)) ((c₁ : ℚ), (c₂ : ℚ)) = some γ') :
    ∃ c', uCurve T a₁ a₂ b₁ b₂ c₁ c₂ c = some c' ∧ GRel T₀ γ' c' ∧ Keep γ γ' c c' := by
  unfold Geo.curve at he
  rw [Option.bind_eq_some_iff] at he
  obtain ⟨p, hp, he⟩ := he
  split_ifs at he with h0
  have hf : γ.flex = none := by simpa using h0
  simp only [Option.some.injEq] at he
  subst he
  obtain ⟨q, hq, rfl⟩ := h.pos p hp
  refine ⟨_, by unfold uCurve; rw [hq]; rfl, ?_⟩
  obtain ⟨σ, h1, h2, h3⟩ := pathRel_none h.path hf
  have h3 := h3 (by rw [hp]; rfl)
  refine ⟨⟨?_, ?_, h.width, h.origin, ?_⟩, ⟨rfl, rfl, rfl, rfl, rfl⟩⟩
  · intro p hp
    refine ⟨_, rfl, Eq.trans ?_ (Option.some.inj hp)⟩
    simp only [← add_assoc, pcast_add]
  · refine pathRel_intro (by simp only [hf]; rfl) (some (T (pt (q.1 + a₁ + b₁ + c₁) (q.2 + a₂ + b₂ + c₂)), T₀ γ.start),
      σ.2 ++ [.curve (T₀ γ.pen) (T (pt (q.1 + a₁) (q.2 + a₂))) (T (pt (q.1 + a₁ + b₁) (q.2 + a₂ + b₂)))
        (T (pt (q.1 + a₁ + b₁ + c₁) (q.2 + a₂ + b₂ + c₂)))]) ?_ ?_ ?_
    · rw [draw_append, h1]
      simp only [Option.bind_some, List.foldlM_cons, List.foldlM_nil, drawStep, h3]
      rfl
    · simp only [List.map_append, h2, hT, pcast_pt, pcast_add]
      rfl
    · intro _; rw [hT, pcast_pt, pcast_add, pcast_add, pcast_add]
  · intro p _ hp
    simp only [Option.some.injEq] at hp
    subst hp
    rfl

theorem g_close {T₀ T : Pt → P} {γ γ' : Geo} {c : UCtx P} (h : GRel T₀ γ c) (hT : ∀ p, T p = T₀ (p + γ.origin))
    (he : γ.close = some γ') :
    ∃ c', uClose T c = some c' ∧ GRel T₀ γ' c' ∧ Keep γ γ' c c' := by
  unfold Geo.close at he
  split_ifs at he with h0
  push Not at h0
  have hf : γ.flex = none := by simpa using h0.2
  obtain ⟨p, hp⟩ : ∃ p, γ.cur = some p := by
    rcases e : γ.cur with _ | p
    · rw [e] at h0; simp at h0
    · exact ⟨p, rfl⟩
  simp only [Option.some.injEq] at he
  subst he
  obtain ⟨q, hq, rfl⟩ := h.pos p hp
  refine ⟨_, by unfold uClose; rw [hq]; rfl, ?_⟩
  obtain ⟨σ, h1, h2, h3⟩ := pathRel_none h.path hf
  have h3 := h3 (by rw [hp]; rfl)
  have hpen := h.pen _ hf hp
  refine ⟨⟨?_, ?_, h.width, h.origin, h.pen⟩, ⟨rfl, rfl, rfl, rfl, rfl⟩⟩
  · exact fun p hp' => ⟨q, rfl, Option.some.inj (hp.symm.trans hp')⟩
  · refine pathRel_intro (by simp only [hf]; rfl) (some (T (pt q.1 q.2), T (pt q.1 q.2)),
      σ.2 ++ [.close (T₀ γ.pen) (T₀ γ.start)]) ?_ ?_ ?_
    · rw [draw_append, h1]
      simp only [Option.bind_some, List.foldlM_cons, List.foldlM_nil, drawStep, h3]
      rfl
    · simp only [List.map_append, h2]
      rfl
    · intro _
      rw [hT, pcast_pt, hpen]

theorem g_flexEnd {T₀ T : Pt → P} {fl : Bool} {γ γ' : Geo} {c : UCtx P} (h : GRel T₀ γ c)
    (hT : ∀ p, T p = T₀ (p + γ.origin)) (f x y : Int) (hps : icast c.ps = flat (flexPts γ.flex))
    (he : γ.flexEnd fl ((x : ℚ), (y : ℚ)) = some γ') :
    ∃ c', uProc fl T 0 { c with t1 := [], ps := c.ps ++ [f, x, y] } = some c' ∧ GRel T₀ γ' c' ∧ c'.t1 = [] ∧
      c'.ps = [y, x] ∧ γ'.flex = none ∧ γ'.origin = γ.origin ∧ γ'.ended = γ.ended := by
  unfold Geo.flexEnd at he
  split at he
  rotate_left
  · exact absurd he (by simp)
  rename_i p₁ a₁ a₂ a₃ a₄ a₅ a₆ hf
  by_cases hq : a₆ = ((x : ℚ), (y : ℚ)) ∧ γ.cur = some ((x : ℚ), (y : ℚ))
  rotate_left
  · rw [if_neg hq] at he; exact absurd he (by simp)
  rw [if_pos hq] at he
  simp only [Option.some.injEq] at he
  obtain ⟨hq1, hq2⟩ := hq
  subst he hq1
  rw [hf] at hps
  simp only [flexPts, flat, List.flatMap_cons, List.flatMap_nil, List.cons_append, List.nil_append] at hps
  obtain ⟨z1, l, e1, -, hps⟩ := icast_cons hps
  obtain ⟨z2, l2, e2, -, hps⟩ := icast_cons hps
  obtain ⟨x1, l3, e3, hx1, hps⟩ := icast_cons hps
  obtain ⟨y1, l4, e4, hy1, hps⟩ := icast_cons hps
  obtain ⟨x2, l5, e5, hx2, hps⟩ := icast_cons hps
  obtain ⟨y2, l6, e6, hy2, hps⟩ := icast_cons hps
  obtain ⟨x3, l7, e7, hx3, hps⟩ := icast_cons hps
  obtain ⟨y3, l8, e8, hy3, hps⟩ := icast_cons hps
  obtain ⟨x4, l9, e9, hx4, hps⟩ := icast_cons hps
  obtain ⟨y4, l10, e10, hy4, hps⟩ := icast_cons hps
  obtain ⟨x5, l11, e11, hx5, hps⟩ := icast_cons hps
  obtain ⟨y5, l12, e12, hy5, hps⟩ := icast_cons hps
  obtain ⟨x6, l13, e13, hx6, hps⟩ := icast_cons hps
  obtain ⟨y6, l14, e14, hy6, hps⟩ := icast_cons hps
  have e15 := icast_nil hps
  subst e15 e14 e13 e12 e11 e10 e9 e8 e7 e6 e5 e4 e3 e2
  have hpt : ∀ (u v : Int) (a : Pt), (u : ℚ) = a.1 → (v : ℚ) = a.2 → T (pt u v) = T₀ (a + γ.origin) := by
    intro u v a h1 h2
    rw [hT]
    congr 2
    exact Prod.ext h1 h2
  obtain ⟨p₀, tl, e, hl, σ, h1, h2, h3⟩ := h.path
  rw [hf] at hl
  simp only [pending, Bool.false_eq_true, if_false, List.length_eq_zero_iff] at hl
  subst hl
  rw [List.append_nil] at e
  have h3 := h3 (by rw [hq2]; rfl)
  refine ⟨⟨c.pos, c.w, [], [y, x], c.path ++ (if fl then
      [.curveto (T₀ (a₁ + γ.origin)) (T₀ (a₂ + γ.origin)) (T₀ (a₃ + γ.origin)),
       .curveto (T₀ (a₄ + γ.origin)) (T₀ (a₅ + γ.origin)) (T₀ (((x : ℚ), (y : ℚ)) + γ.origin))]
      else [.lineto (T₀ (((x : ℚ), (y : ℚ)) + γ.origin))])⟩, ?_, ⟨h.pos, ?_, h.width, h.origin, ?_⟩, rfl, rfl, rfl, rfl, rfl⟩
  · unfold uProc
    rw [if_pos rfl, e1]
    cases fl
    · simp [hT, pt]
    · simp only [List.reverse_cons, List.reverse_nil, List.nil_append, List.cons_append,
        flexCurves, Option.bind_some, if_true]
      rw [hpt x1 y1 a₁ hx1 hy1, hpt x2 y2 a₂ hx2 hy2, hpt x3 y3 a₃ hx3 hy3, hpt x4 y4 a₄ hx4 hy4,
        hpt x5 y5 a₅ hx5 hy5, hpt x6 y6 ((x : ℚ), (y : ℚ)) hx6 hy6]
  · refine pathRel_intro rfl (some (T₀ (((x : ℚ), (y : ℚ)) + γ.origin), T₀ γ.start), γ.segs.map (Seg.map T₀) ++ (if fl then
        [.curve (T₀ γ.pen) (T₀ (a₁ + γ.origin)) (T₀ (a₂ + γ.origin)) (T₀ (a₃ + γ.origin)),
         .curve (T₀ (a₃ + γ.origin)) (T₀ (a₄ + γ.origin)) (T₀ (a₅ + γ.origin)) (T₀ (((x : ℚ), (y : ℚ)) + γ.origin))]
        else [.line (T₀ γ.pen) (T₀ (((x : ℚ), (y : ℚ)) + γ.origin))])) ?_ ?_ (fun _ => rfl)
    · rw [draw_append, e, h1]
      cases fl
      · simp [drawStep, h3, h2]
      · simp [drawStep, h3, h2]
    · cases fl
      · simp [Seg.map]
      · simp [Seg.map]
  · intro p _ hp
    simp only at hp
    rw [hq2] at hp
    simp only [Option.some.injEq] at hp
    subst hp
    rfl

def USim (T₀ : Pt → P) (off : ℚ → ℚ → ℚ → ℚ) (fl : Bool) (u : Upd P) (r : List Tok → St → Option St) : Prop :=
  ∀ ts s s' γ γ' c T, r ts s = some s' → geo off fl s.out = some γ → geo off fl s'.out = some γ' →
    URel T₀ s γ c → (s.done = false → ∀ p, T p = T₀ (p + γ.origin)) →
    ∃ c', u T ts c = some c' ∧ URel T₀ s' γ' c' ∧ (s'.done = false → γ'.origin = γ.origin)

theorem mapq_cons {l : List Val} {q : ℚ} {m : List ℚ} (h : l.map Val.q = q :: m) :
    ∃ v l', l = v :: l' ∧ v.q = q ∧ l'.map Val.q = m := by
  cases l with
  | nil => simp at h
  | cons v l' => simp only [List.map_cons, List.cons.injEq] at h; exact ⟨v, l', rfl, h.1, h.2⟩

theorem top_of {c : UCtx P} {l : List Val} (h : icast c.t1 = l.reverse.map Val.q) :
    icast c.t1.reverse = l.map Val.q := by
  rw [icast_reverse, h, ← List.map_reverse, List.reverse_reverse]

theorem rel_other {T₀ T : Pt → P} {off} {fl : Bool} {s s' : St} {γ γ' : Geo} {c : UCtx P} (h : URel T₀ s γ c)
    (hT : ∀ p, T p = T₀ (p + γ.origin)) (hd : s.done = false) (hok : tidy (.esc 16) s = true)
    (hs : callother stdOther s = some s') (hg : geo off fl s.out = some γ) (hg' : geo off fl s'.out = some γ') :
    ∃ c', uOther fl T c = some c' ∧ URel T₀ s' γ' c' ∧ γ'.origin = γ.origin := by
  simp only [tidy, Bool.and_eq_true, List.isEmpty_iff] at hok
  obtain ⟨hps, hok⟩ := hok
  unfold callother at hs
  split at hs
  rotate_left
  · exact absurd hs (by simp)
  rename_i o n st e
  rw [e] at hok
  simp only [decide_eq_true_eq] at hok
  obtain ⟨hlen, hok⟩ := hok
  have ht1 := h.t1 hd
  have hP := h.ps hd
  rw [hps] at hP
  simp only [List.reverse_nil, List.map_nil, List.append_nil] at hP
  have htop := top_of ht1
  rw [e] at htop
  obtain ⟨z1, l1, e1, hz1, htop1⟩ := icast_cons htop
  obtain ⟨z2, l2, e2, hz2, htop2⟩ := icast_cons htop1
  have hz1 : z1 = o := Int.cast_injective (α := ℚ) hz1
  have hz2 : z2 = n := Int.cast_injective (α := ℚ) hz2
  subst hz1 hz2 e2
  have hn : ¬ (z2 < 0 ∨ st.length < z2.toNat) := by
    rintro (h | h)
    · simp only [List.mem_cons, Prod.mk.injEq, List.not_mem_nil, or_false] at hok
      omega
    · omega
  rw [if_neg hn] at hs
  simp only [Option.some.injEq] at hs
  have hl2 : l2.length = z2.toNat := by
    have := congrArg List.length htop2
    simp only [icast, List.length_map] at this
    omega
  have hargs : st.take z2.toNat = st := List.take_of_length_le (by omega)
  have hdrop : st.drop z2.toNat = [] := List.drop_eq_nil_of_le (by omega)
  rw [hargs, hdrop] at hs
  have hlr : icast l2.reverse = st.reverse.map Val.q := by
    rw [icast_reverse, htop2, List.map_reverse]
  have hout : s'.out = s.out ++ [.op (.esc 16) ((z1 : ℚ) :: st.reverse.map Val.q)] := by rw [← hs]
  have hsd : s'.done = false := by rw [← hs]; exact hd
  have hss : s'.stack = [] := by rw [← hs]
  rw [hout] at hg'
  have hst := geo_snoc off fl _ _ _ _ hg hg'
  simp only [Geo.step] at hst
  by_cases hE : γ.ended = true
  · rw [if_pos hE] at hst; exact absurd hst (by simp)
  rw [if_neg hE] at hst
  simp only [Geo.op] at hst
  have hu : uOther fl T c = uProc fl T z1 { c with t1 := [], ps := c.ps ++ l2.reverse } := by
    unfold uOther
    rw [e1]
    simp only
    rw [if_neg (by omega), List.drop_eq_nil_of_le (by simp [hl2]), List.take_of_length_le (by simp [hl2])]
  rw [hu]
  simp only [List.mem_cons, Prod.mk.injEq, List.not_mem_nil, or_false] at hok
  rcases hok with ⟨ho, hn⟩ | ⟨ho, hn⟩ | ⟨ho, hn⟩ | ⟨ho, hn⟩
  · -- flex end
    subst ho hn
    match st, hlen with
    | [vy, vx, vf], _ =>
      simp only [List.reverse_cons, List.reverse_nil, List.nil_append, List.cons_append, List.map_cons, List.map_nil] at hst hlr
      obtain ⟨f, m1, f1, hf, hlr⟩ := icast_cons hlr
      obtain ⟨x, m2, f2, hx, hlr⟩ := icast_cons hlr
      obtain ⟨y, m3, f3, hy, hlr⟩ := icast_cons hlr
      have f4 := icast_nil hlr
      subst f4 f3 f2
      simp only [Geo.proc, Int.cast_zero, if_true] at hst
      rw [← hx, ← hy] at hst
      obtain ⟨c', h1, h2, h3, h4, h5, h6, h7⟩ := g_flexEnd h.g hT f x y hP hst
      refine ⟨c', by rw [f1]; exact h1, ⟨?_, ?_, ?_, fun _ => by rw [h7]; simpa using hE, h2⟩, h6⟩
      · intro _; rw [h3, hss]; rfl
      · intro _
        rw [h4, h5, ← hs]
        have hne : ¬ ((0 : Int) = 3 ∧ (3 : Int) = 1) := by omega
        rw [if_neg hne]
        simp [stdOther, icast, flat, flexPts, Val.q, hx, hy]
      · intro hh; rw [h7] at hh; exact absurd hh hE
  · -- flex start
    subst ho hn
    match st, hlen with
    | [], _ =>
      have : l2 = [] := by simpa using hl2
      subst this
      simp only [List.reverse_nil, List.map_nil, Geo.proc, Int.cast_one, if_true] at hst
      split_ifs at hst with h0
      push Not at h0
      have hf : γ.flex = none := by simpa using h0.1
      simp only [Option.some.injEq] at hst
      subst hst
      refine ⟨{ c with t1 := [], ps := c.ps ++ [] }, by rfl, ⟨?_, ?_, ?_, fun _ => by simpa using hE, ?_⟩, rfl⟩
      · intro _; rw [hss]; rfl
      · intro _
        rw [hf] at hP
        rw [← hs]
        simp [hP, flat, flexPts, stdOther]
      · intro hh; exact absurd hh hE
      · obtain ⟨σ, h1, h2, h3⟩ := pathRel_none h.g.path hf
        exact ⟨h.g.pos, pathRel_intro rfl σ h1 h2 h3, h.g.width, h.g.origin, fun p hp _ => absurd hp (by simp)⟩
  · -- flex point
    subst ho hn
    match st, hlen with
    | [], _ =>
      have : l2 = [] := by simpa using hl2
      subst this
      simp only [List.reverse_nil, List.map_nil, Geo.proc] at hst
      rw [if_neg (by norm_num), if_pos (by norm_num)] at hst
      split at hst
      rotate_left
      · exact absurd hst (by simp)
      rename_i pts p hf hp
      simp only [Option.some.injEq] at hst
      subst hst
      obtain ⟨q, hq, rfl⟩ := h.g.pos p hp
      obtain ⟨p₀, tl, e', hl, σ, h1, h2, h3⟩ := h.g.path
      rw [hf] at hl
      simp only [pending, if_true] at hl
      match tl, hl with
      | [m], _ =>
      refine ⟨{ c with t1 := [], ps := c.ps ++ [q.1, q.2], path := p₀ }, ?_, ⟨?_, ?_, ?_, fun _ => by simpa using hE, ?_⟩, rfl⟩
      · unfold uProc
        rw [if_neg (by omega), if_pos rfl]
        simp only [e']
        rw [if_neg (by simp)]
        simp only [hq, Option.bind_some, List.reverse_nil, List.append_nil, List.dropLast_concat]
      · intro _; rw [hss]; rfl
      · intro _
        simp only
        rw [icast_append, hP, hf, ← hs]
        simp [flat, flexPts, stdOther, icast, pcast]
      · intro hh; exact absurd hh hE
      · exact ⟨h.g.pos, pathRel_intro rfl σ h1 h2 (fun _ => h3 (by rw [hp]; rfl)), h.g.width, h.g.origin,
          fun p hp _ => absurd hp (by simp)⟩
  · -- hint replacement
    subst ho hn
    match st, hlen with
    | [v], _ =>
      simp only [List.reverse_cons, List.reverse_nil, List.nil_append, List.map_cons, List.map_nil] at hst hlr
      obtain ⟨z, m1, f1, hz, hlr⟩ := icast_cons hlr
      have f4 := icast_nil hlr
      subst f4
      simp only [Geo.proc] at hst
      rw [if_pos (by norm_num)] at hst
      simp only [Option.some.injEq] at hst
      subst hst
      refine ⟨{ c with t1 := [], ps := c.ps ++ [z] }, ?_, ⟨?_, ?_, ?_, fun _ => by simpa using hE, h.g.stacks _ _⟩, rfl⟩
      · unfold uProc
        rw [if_neg (by omega), if_neg (by omega), f1]
      · intro _; rw [hss]; rfl
      · intro _
        simp only
        rw [icast_append, hP, ← hs]
        simp [icast, hz]
      · intro hh; exact absurd hh hE

/-- The commands that only take their operands from the stack. -/
def uPlain (T : Pt → P) (t : Tok) (c : UCtx P) : Option (UCtx P) :=
  match t with
  | .num _ => none
  | .cmd k => uCmd T k c
  | .esc k => uEsc T k c

theorem g_plain {T₀ T : Pt → P} {fl : Bool} {γ γ' : Geo} {c : UCtx P} (t : Tok) (h16 : t ≠ .esc 16)
    (h : GRel T₀ γ c) (hT : ∀ p, T p = T₀ (p + γ.origin)) (hst : γ.op fl t (icast c.t1) = some γ') :
    ∃ c', uPlain T t c = some c' ∧ GRel T₀ γ' c' ∧ c'.t1 = [] ∧ c'.ps = c.ps ∧ γ'.origin = γ.origin ∧
      flexPts γ'.flex = flexPts γ.flex ∧ (t ≠ .cmd 14 → γ'.ended = γ.ended) := by
  generalize hq : icast c.t1 = q at hst
  unfold Geo.op at hst
  split at hst
  · obtain ⟨a, l0, e0, ha, hq0⟩ := icast_cons hq
    obtain ⟨b, l1, e1, hb, hq1⟩ := icast_cons hq0
    have el := icast_nil hq1
    subst el e1
    subst ha hb
    obtain ⟨c', h1, h2, h3⟩ := g_side (h.t1 []) hT a 0 b 0 (by simpa only [Int.cast_zero] using hst)
    exact ⟨c', by simp only [uPlain, uCmd, uEsc, e0]; exact h1, h2, h3.t1, h3.ps, h3.origin, h3.flex, fun _ => h3.ended⟩
  · obtain ⟨a, l0, e0, ha, hq0⟩ := icast_cons hq
    obtain ⟨b, l1, e1, hb, hq1⟩ := icast_cons hq0
    obtain ⟨d, l2, e2, hd, hq2⟩ := icast_cons hq1
    obtain ⟨e, l3, e3, he, hq3⟩ := icast_cons hq2
    have el := icast_nil hq3
    subst el e3 e2 e1
    subst ha hb hd he
    obtain ⟨c', h1, h2, h3⟩ := g_side (h.t1 []) hT a b d e (by simpa only [Int.cast_zero] using hst)
    exact ⟨c', by simp only [uPlain, uCmd, uEsc, e0]; exact h1, h2, h3.t1, h3.ps, h3.origin, h3.flex, fun _ => h3.ended⟩
  · obtain ⟨a, l0, e0, ha, hq0⟩ := icast_cons hq
    obtain ⟨b, l1, e1, hb, hq1⟩ := icast_cons hq0
    have el := icast_nil hq1
    subst el e1
    subst ha hb
    obtain ⟨c', h1, h2, h3⟩ := g_move (h.t1 []) hT a b (by simpa only [Int.cast_zero] using hst)
    exact ⟨c', by simp only [uPlain, uCmd, uEsc, e0]; exact h1, h2, h3.t1, h3.ps, h3.origin, h3.flex, fun _ => h3.ended⟩
  · obtain ⟨a, l0, e0, ha, hq0⟩ := icast_cons hq
    have el := icast_nil hq0
    subst el 
    subst ha
    obtain ⟨c', h1, h2, h3⟩ := g_move (h.t1 []) hT a 0 (by simpa only [Int.cast_zero] using hst)
    exact ⟨c', by simp only [uPlain, uCmd, uEsc, e0]; exact h1, h2, h3.t1, h3.ps, h3.origin, h3.flex, fun _ => h3.ended⟩
  · obtain ⟨a, l0, e0, ha, hq0⟩ := icast_cons hq
    have el := icast_nil hq0
    subst el 
    subst ha
    obtain ⟨c', h1, h2, h3⟩ := g_move (h.t1 []) hT 0 a (by simpa only [Int.cast_zero] using hst)
    exact ⟨c', by simp only [uPlain, uCmd, uEsc, e0]; exact h1, h2, h3.t1, h3.ps, h3.origin, h3.flex, fun _ => h3.ended⟩
  · obtain ⟨a, l0, e0, ha, hq0⟩ := icast_cons hq
    obtain ⟨b, l1, e1, hb, hq1⟩ := icast_cons hq0
    have el := icast_nil hq1
    subst el e1
    subst ha hb
    obtain ⟨c', h1, h2, h3⟩ := g_line (h.t1 []) hT a b (by simpa only [Int.cast_zero] using hst)
    exact ⟨c', by simp only [uPlain, uCmd, uEsc, e0]; exact h1, h2, h3.t1, h3.ps, h3.origin, h3.flex, fun _ => h3.ended⟩
  · obtain ⟨a, l0, e0, ha, hq0⟩ := icast_cons hq
    have el := icast_nil hq0
    subst el 
    subst ha
    obtain ⟨c', h1, h2, h3⟩ := g_line (h.t1 []) hT a 0 (by simpa only [Int.cast_zero] using hst)
    exact ⟨c', by simp only [uPlain, uCmd, uEsc, e0]; exact h1, h2, h3.t1, h3.ps, h3.origin, h3.flex, fun _ => h3.ended⟩
  · obtain ⟨a, l0, e0, ha, hq0⟩ := icast_cons hq
    have el := icast_nil hq0
    subst el 
    subst ha
    obtain ⟨c', h1, h2, h3⟩ := g_line (h.t1 []) hT 0 a (by simpa only [Int.cast_zero] using hst)
    exact ⟨c', by simp only [uPlain, uCmd, uEsc, e0]; exact h1, h2, h3.t1, h3.ps, h3.origin, h3.flex, fun _ => h3.ended⟩
  · obtain ⟨a, l0, e0, ha, hq0⟩ := icast_cons hq
    obtain ⟨b, l1, e1, hb, hq1⟩ := icast_cons hq0
    obtain ⟨d, l2, e2, hd, hq2⟩ := icast_cons hq1
    obtain ⟨e, l3, e3, he, hq3⟩ := icast_cons hq2
    obtain ⟨f, l4, e4, hf, hq4⟩ := icast_cons hq3
    obtain ⟨g, l5, e5, hg, hq5⟩ := icast_cons hq4
    have el := icast_nil hq5
    subst el e5 e4 e3 e2 e1
    subst ha hb hd he hf hg
    obtain ⟨c', h1, h2, h3⟩ := g_curve (h.t1 []) hT a b d e f g (by simpa only [Int.cast_zero] using hst)
    exact ⟨c', by simp only [uPlain, uCmd, uEsc, e0]; exact h1, h2, h3.t1, h3.ps, h3.origin, h3.flex, fun _ => h3.ended⟩
  · obtain ⟨a, l0, e0, ha, hq0⟩ := icast_cons hq
    obtain ⟨b, l1, e1, hb, hq1⟩ := icast_cons hq0
    obtain ⟨d, l2, e2, hd, hq2⟩ := icast_cons hq1
    obtain ⟨e, l3, e3, he, hq3⟩ := icast_cons hq2
    have el := icast_nil hq3
    subst el e3 e2 e1
    subst ha hb hd he
    obtain ⟨c', h1, h2, h3⟩ := g_curve (h.t1 []) hT a 0 b d 0 e (by simpa only [Int.cast_zero] using hst)
    exact ⟨c', by simp only [uPlain, uCmd, uEsc, e0]; exact h1, h2, h3.t1, h3.ps, h3.origin, h3.flex, fun _ => h3.ended⟩
  · obtain ⟨a, l0, e0, ha, hq0⟩ := icast_cons hq
    obtain ⟨b, l1, e1, hb, hq1⟩ := icast_cons hq0
    obtain ⟨d, l2, e2, hd, hq2⟩ := icast_cons hq1
    obtain ⟨e, l3, e3, he, hq3⟩ := icast_cons hq2
    have el := icast_nil hq3
    subst el e3 e2 e1
    subst ha hb hd he
    obtain ⟨c', h1, h2, h3⟩ := g_curve (h.t1 []) hT 0 a b d e 0 (by simpa only [Int.cast_zero] using hst)
    exact ⟨c', by simp only [uPlain, uCmd, uEsc, e0]; exact h1, h2, h3.t1, h3.ps, h3.origin, h3.flex, fun _ => h3.ended⟩
  · have el := icast_nil hq
    have hc : { c with t1 := [] } = c := by rw [← el]
    obtain ⟨c', h1, h2, h3⟩ := g_close (h.t1 []) hT hst
    rw [hc] at h1
    exact ⟨c', by simp only [uPlain, uCmd]; exact h1, h2, h3.t1, h3.ps, h3.origin, h3.flex, fun _ => h3.ended⟩
  · obtain ⟨a, l0, e0, ha, hq0⟩ := icast_cons hq
    obtain ⟨b, l1, e1, hb, hq1⟩ := icast_cons hq0
    have el := icast_nil hq1
    subst el e1
    subst ha hb
    cases hst
    exact ⟨{ c with t1 := [] }, by simp only [uPlain, uCmd, uEsc, e0], h.t1 [], rfl, rfl, rfl, rfl, fun _ => rfl⟩
  · obtain ⟨a, l0, e0, ha, hq0⟩ := icast_cons hq
    obtain ⟨b, l1, e1, hb, hq1⟩ := icast_cons hq0
    have el := icast_nil hq1
    subst el e1
    subst ha hb
    cases hst
    exact ⟨{ c with t1 := [] }, by simp only [uPlain, uCmd, uEsc, e0], h.t1 [], rfl, rfl, rfl, rfl, fun _ => rfl⟩
  · have el := icast_nil hq
    cases hst
    exact ⟨c, by simp only [uPlain, uEsc], h, el, rfl, rfl, rfl, fun _ => rfl⟩
  · obtain ⟨a, l0, e0, ha, hq0⟩ := icast_cons hq
    obtain ⟨b, l1, e1, hb, hq1⟩ := icast_cons hq0
    obtain ⟨d, l2, e2, hd, hq2⟩ := icast_cons hq1
    obtain ⟨e, l3, e3, he, hq3⟩ := icast_cons hq2
    obtain ⟨f, l4, e4, hf, hq4⟩ := icast_cons hq3
    obtain ⟨g, l5, e5, hg, hq5⟩ := icast_cons hq4
    have el := icast_nil hq5
    subst el e5 e4 e3 e2 e1
    subst ha hb hd he hf hg
    cases hst
    exact ⟨{ c with t1 := [] }, by simp only [uPlain, uCmd, uEsc, e0], h.t1 [], rfl, rfl, rfl, rfl, fun _ => rfl⟩
  · obtain ⟨a, l0, e0, ha, hq0⟩ := icast_cons hq
    obtain ⟨b, l1, e1, hb, hq1⟩ := icast_cons hq0
    obtain ⟨d, l2, e2, hd, hq2⟩ := icast_cons hq1
    obtain ⟨e, l3, e3, he, hq3⟩ := icast_cons hq2
    obtain ⟨f, l4, e4, hf, hq4⟩ := icast_cons hq3
    obtain ⟨g, l5, e5, hg, hq5⟩ := icast_cons hq4
    have el := icast_nil hq5
    subst el e5 e4 e3 e2 e1
    subst ha hb hd he hf hg
    cases hst
    exact ⟨{ c with t1 := [] }, by simp only [uPlain, uCmd, uEsc, e0], h.t1 [], rfl, rfl, rfl, rfl, fun _ => rfl⟩
  · obtain ⟨a, l0, e0, ha, hq0⟩ := icast_cons hq
    obtain ⟨b, l1, e1, hb, hq1⟩ := icast_cons hq0
    have el := icast_nil hq1
    subst el e1
    subst ha hb
    unfold Geo.setcur at hst
    split_ifs at hst with h0
    cases hst
    refine ⟨{ c with t1 := [], pos := some (a, b) }, by simp only [uPlain, uEsc, e0],
      ⟨?_, h.path, h.width, h.origin, h.pen⟩, rfl, rfl, rfl, rfl, fun _ => rfl⟩
    exact fun p hp => ⟨_, rfl, Option.some.inj (h0.1.symm.trans hp)⟩
  · exact absurd rfl h16
  · have el := icast_nil hq
    split_ifs at hst with h0
    have hf : γ.flex = none := by simpa using h0
    cases hst
    exact ⟨c, by simp only [uPlain, uCmd], ⟨h.pos, h.path, h.width, h.origin, h.pen⟩, el, rfl, rfl, rfl,
      fun h => absurd rfl h⟩
  · exact absurd hst (by simp)

theorem divide_inv {s s' : St} (h : divide s = some s') : ∃ b a st v, s.stack = b :: a :: st ∧ b.q ≠ 0 ∧
    s' = { s with stack := v :: st } ∧ v.q = a.q / b.q := by
  unfold divide at h
  split at h
  · rename_i b a st e
    by_cases hb : b = 0
    · rw [if_pos hb] at h; exact absurd h (by simp)
    rw [if_neg hb] at h
    simp only [Option.some.injEq] at h
    refine ⟨_, _, _, _, e, ?_, h.symm, ?_⟩
    · simpa [Val.q] using hb
    · split_ifs with hd
      · obtain ⟨k, rfl⟩ := hd
        rw [Int.mul_ediv_cancel_left _ hb]
        have : (b : ℚ) ≠ 0 := by exact_mod_cast hb
        simp only [Val.q, Int.cast_mul]
        field_simp
      · rfl
  · rename_i b a st e
    by_cases hb : b = 0
    · rw [if_pos hb] at h; exact absurd h (by simp)
    rw [if_neg hb] at h
    simp only [Option.some.injEq] at h
    exact ⟨_, _, _, _, e, by simpa [Val.q] using hb, h.symm, rfl⟩
  · rename_i b a st e
    by_cases hb : b = 0
    · rw [if_pos hb] at h; exact absurd h (by simp)
    rw [if_neg hb] at h
    simp only [Option.some.injEq] at h
    exact ⟨_, _, _, _, e, hb, h.symm, rfl⟩
  · exact absurd h (by simp)

theorem fdiv_exact (a b : Int) (hb : b ≠ 0) (h : ((a : ℚ) / b).den = 1) : ((a.fdiv b : Int) : ℚ) = (a : ℚ) / b := by
  have hb' : (b : ℚ) ≠ 0 := by exact_mod_cast hb
  have hz : (((a : ℚ) / b).num : ℚ) = (a : ℚ) / b := (Rat.den_eq_one_iff _).mp h
  have : a = ((a : ℚ) / b).num * b := by
    have : (a : ℚ) = ((a : ℚ) / b).num * b := by rw [hz]; field_simp
    exact_mod_cast this
  generalize ((a : ℚ) / b).num = z at hz this
  rw [← hz, this, Int.mul_fdiv_cancel _ hb]

theorem rel_div {T₀ : Pt → P} {s s' : St} {γ : Geo} {c : UCtx P} (h : URel T₀ s γ c) (hd : s.done = false)
    (hok : tidy (.esc 12) s = true) (hs : divide s = some s') :
    ∃ c', uDiv c = some c' ∧ URel T₀ s' γ c' := by
  have hE := h.alive hd
  obtain ⟨b, a, st, v, e, hb, rfl, hv⟩ := divide_inv hs
  have htop := top_of (h.t1 hd)
  rw [e] at htop
  obtain ⟨z1, l1, e1, hz1, htop1⟩ := icast_cons htop
  obtain ⟨z2, l2, e2, hz2, htop2⟩ := icast_cons htop1
  subst e2
  simp only [tidy, e, decide_eq_true_eq] at hok
  rw [← hz1] at hb
  have hb' : z1 ≠ 0 := by exact_mod_cast hb
  rw [← hz1, ← hz2] at hok hv
  refine ⟨{ c with t1 := (z2.fdiv z1 :: l2).reverse }, ?_, ⟨?_, h.ps, ?_, h.alive, h.g.t1 _⟩⟩
  · unfold uDiv
    rw [e1]
    simp only [if_neg hb']
  · intro _
    have := fdiv_exact z2 z1 hb' hok
    simp only [icast_reverse, List.map_reverse, List.map_cons, hv, ← htop2, ← this]
    rfl
  · intro hh; rw [hE] at hh; exact absurd hh (by simp)

theorem rel_pop {T₀ : Pt → P} {s s' : St} {γ : Geo} {c : UCtx P} (h : URel T₀ s γ c) (hd : s.done = false)
    (hs : pop s = some s') : ∃ c', uPop c = some c' ∧ URel T₀ s' γ c' := by
  have hE := h.alive hd
  unfold pop at hs
  split at hs
  rotate_left
  · exact absurd hs (by simp)
  rename_i v ps e
  simp only [Option.some.injEq] at hs
  subst hs
  have hP := h.ps hd
  rw [e, List.reverse_cons, List.map_append, ← List.append_assoc] at hP
  obtain ⟨x, y, e1, hx, hy⟩ := icast_append_inv hP
  obtain ⟨z, l, e2, hz, hl⟩ := icast_cons hy
  have := icast_nil hl
  subst this e2
  refine ⟨{ c with t1 := c.t1 ++ [z], ps := x }, ?_, ⟨?_, ?_, ?_, h.alive, h.g.stacks _ _⟩⟩
  · unfold uPop
    rw [e1]
    simp
  · intro _
    simp only [icast_append, h.t1 hd, List.reverse_cons, List.map_append]
    simp [icast, hz]
  · intro _; exact hx
  · intro hh; rw [hE] at hh; exact absurd hh (by simp)

theorem rel_plain {T₀ T : Pt → P} {off} {fl : Bool} {s : St} {γ γ' : Geo} {c : UCtx P} (t : Tok) (h16 : t ≠ .esc 16)
    (h : URel T₀ s γ c) (hT : ∀ p, T p = T₀ (p + γ.origin)) (hd : s.done = false) (hok : tidy t s = true)
    (hg : geo off fl s.out = some γ) (hg' : geo off fl (plain t s).out = some γ') :
    ∃ c', uPlain T t c = some c' ∧ URel T₀ (plain t s) γ' c' ∧ γ'.origin = γ.origin := by
  have hst := geo_snoc off fl _ _ _ _ hg hg'
  simp only [Geo.step] at hst
  by_cases hE : γ.ended = true
  · rw [if_pos hE] at hst; exact absurd hst (by simp)
  rw [if_neg hE, ← h.t1 hd] at hst
  obtain ⟨c', h1, h2, h3, h4, h5, h6, h7⟩ := g_plain t h16 h.g hT hst
  refine ⟨c', h1, ⟨?_, ?_, ?_, ?_, h2⟩, h5⟩
  · intro _; rw [h3]; rfl
  · intro _; rw [h4, h6]; exact h.ps hd
  · intro hh
    by_cases ht : t = .cmd 14
    · subst ht
      simp only [tidy, List.isEmpty_iff] at hok
      have hf : γ.flex = none ∧ γ'.flex = none := by
        generalize icast c.t1 = q at hst
        cases q with
        | nil =>
          simp only [Geo.op] at hst
          split_ifs at hst with h0
          cases hst
          exact ⟨by simpa using h0, by simpa using h0⟩
        | cons a l => simp [Geo.op] at hst
      refine ⟨h3, ?_, hf.2⟩
      have := h.ps hd
      rw [hok, hf.1] at this
      rw [h4]
      exact icast_nil this
    · rw [h7 ht] at hh
      exact absurd hh hE
  · intro hh
    simp only [plain, Bool.or_eq_false_iff, decide_eq_false_iff_not] at hh
    rw [h7 hh.2]
    simpa using hE

/-- Where PyX puts the accent of a composite glyph. -/
def pyxOffset (_sb adx asb : ℚ) : ℚ := adx - asb

theorem rel_callsubr {T₀ T : Pt → P} {off} {fl : Bool} {F : Font} {u : Upd P} {r : List Tok → St → Option St}
    (hr : Mono r) (hsim : USim T₀ off fl u r) {s s' : St} {γ γ' : Geo} {c : UCtx P} (h : URel T₀ s γ c)
    (hT : ∀ p, T p = T₀ (p + γ.origin)) (hd : s.done = false) (hs : callsubr (prog F) r s = some s')
    (hg : geo off fl s.out = some γ) (hg' : geo off fl s'.out = some γ') :
    ∃ c', uCallsubr F u T c = some c' ∧ URel T₀ s' γ' c' ∧ (s'.done = false → γ'.origin = γ.origin) := by
  unfold callsubr at hs
  split at hs
  rotate_left
  · exact absurd hs (by simp)
  rename_i z st e
  rw [Option.bind_eq_some_iff] at hs
  obtain ⟨b, hb, hs⟩ := hs
  have htop := top_of (h.t1 hd)
  rw [e] at htop
  obtain ⟨z1, l1, e1, hz1, htop1⟩ := icast_cons htop
  have hz1 : z1 = z := Int.cast_injective (α := ℚ) hz1
  subst hz1
  simp only [prog] at hb
  split_ifs at hb with hz
  obtain ⟨γ1, hg1⟩ := geo_prefix off fl (hr _ _ _ hs) γ' hg'
  have hst := geo_snoc off fl _ _ _ _ hg hg1
  simp only [Geo.step] at hst
  by_cases hE : γ.ended = true
  · rw [if_pos hE] at hst; exact absurd hst (by simp)
  rw [if_neg hE] at hst
  cases hst
  obtain ⟨c', h1, h2, h3⟩ := hsim b _ s' γ γ' { c with t1 := l1.reverse } T hs hg1 hg'
    ⟨fun _ => by
      simp only [icast_reverse, htop1]
      rw [List.map_reverse], h.ps, fun hh => absurd hh hE, h.alive, h.g.t1 _⟩ (fun _ => hT)
  refine ⟨c', ?_, h2, h3⟩
  unfold uCallsubr
  rw [e1]
  simp only [hb, Option.bind_some]
  exact h1

theorem rel_seac {T₀ T : Pt → P} {fl : Bool} {F : Font} {u : Upd P} {r : List Tok → St → Option St}
    (hr : Mono r) (hsim : USim T₀ pyxOffset fl u r) {s s' : St} {γ γ' : Geo} {c : UCtx P} (h : URel T₀ s γ c)
    (hT : ∀ p, T p = T₀ (p + γ.origin)) (hd : s.done = false) (hok : tidy (.esc 6) s = true)
    (hs : seac (prog F) r s = some s')
    (hg : geo pyxOffset fl s.out = some γ) (hg' : geo pyxOffset fl s'.out = some γ') :
    ∃ c', uSeac F u T c = some c' ∧ URel T₀ s' γ' c' ∧ (s'.done = false → γ'.origin = γ.origin) := by
  unfold seac at hs
  split at hs
  rotate_left
  · exact absurd hs (by simp)
  rename_i achar bchar ady adx asb e
  simp only [Option.bind_eq_some_iff] at hs
  obtain ⟨an, han, bn, hbn, b, hb, s1, hs1, a, ha, s2, hs2, hs⟩ := hs
  simp only [Option.some.injEq] at hs
  subst hs
  simp only at hg'
  simp only [tidy, List.isEmpty_iff] at hok
  have ht1 := h.t1 hd
  rw [e] at ht1
  simp only [List.reverse_cons, List.reverse_nil, List.nil_append, List.cons_append, List.map_cons, List.map_nil] at ht1
  obtain ⟨zs, l1, e1, hzs, ht1⟩ := icast_cons ht1
  obtain ⟨zx, l2, e2, hzx, ht1⟩ := icast_cons ht1
  obtain ⟨zy, l3, e3, hzy, ht1⟩ := icast_cons ht1
  obtain ⟨zb, l4, e4, hzb, ht1⟩ := icast_cons ht1
  obtain ⟨za, l5, e5, hza, ht1⟩ := icast_cons ht1
  have e6 := icast_nil ht1
  have hza : za = achar := Int.cast_injective (α := ℚ) hza
  have hzb : zb = bchar := Int.cast_injective (α := ℚ) hzb
  subst e6 e5 e4 e3 e2 hza hzb
  -- the base glyph
  obtain ⟨γ2, hg2⟩ := geo_prefix pyxOffset fl (hr _ _ _ hs2) γ' hg'
  obtain ⟨γ1, hg1⟩ := geo_prefix pyxOffset fl (List.prefix_append _ _) γ2 hg2
  obtain ⟨γb, hgb⟩ := geo_prefix pyxOffset fl (hr _ _ _ hs1) γ1 hg1
  have hstb := geo_snoc pyxOffset fl _ _ _ _ hg hgb
  have hsta := geo_snoc pyxOffset fl _ _ _ _ hg1 hg2
  simp only [Geo.step] at hstb hsta
  split_ifs at hstb with h0
  push Not at h0
  obtain ⟨hcomp, hend, hfl⟩ := h0
  have hcomp : γ.comp = false := by simpa using hcomp
  have hfl : γ.flex = none := by simpa using hfl
  simp only [Option.some.injEq] at hstb
  have hps0 : c.ps = [] := by
    have := h.ps hd
    rw [hok, hfl] at this
    exact icast_nil this
  have ho : γ.origin = 0 := h.g.origin hcomp
  subst hstb
  have hpr : PathRel T₀ { γ with comp := true, cur := none } c.path := by
    obtain ⟨σ, h1, h2, h3⟩ := pathRel_none h.g.path hfl
    exact pathRel_intro (by simp only [hfl]; rfl) σ h1 h2 (fun hh => absurd hh (by simp))
  obtain ⟨c1, hc1, hR1, ho1⟩ := hsim b _ s1 _ γ1 { c with t1 := [] } T hs1 hgb hg1
    ⟨fun _ => rfl, fun _ => by simp only [hps0, hfl]; rfl, fun hh => absurd hh hend, fun _ => h.alive hd,
      ⟨fun p hp => absurd hp (by simp), hpr, ⟨fun hh => absurd hh (by simp), h.g.width.2⟩, fun hh => absurd hh (by simp),
       fun p _ hp => absurd hp (by simp)⟩⟩ (fun _ => hT)
  -- the accent
  split_ifs at hsta with h0
  simp only [Option.some.injEq] at hsta
  obtain ⟨ht1', hps', hfl'⟩ := hR1.ended h0.2
  have hpr2 : PathRel T₀ γ2 c1.path := by
    obtain ⟨σ, h1, h2, h3⟩ := pathRel_none hR1.g.path hfl'
    rw [← hsta]
    exact pathRel_intro (by simp only [hfl']; rfl) σ h1 h2 (fun hh => absurd hh (by simp))
  obtain ⟨c2, hc2, hR2, -⟩ := hsim a _ s2 γ2 γ' c1 (fun p => T (p.1 + (zx - zs : Int), p.2 + zy)) hs2 hg2 hg'
    ⟨fun _ => by rw [ht1']; rfl, fun _ => by rw [hps', ← hsta]; simp only [hfl']; rfl,
      fun hh => by rw [← hsta] at hh; exact absurd hh (by simp), fun _ => by rw [← hsta],
      ⟨fun p hp => by rw [← hsta] at hp; exact absurd hp (by simp), hpr2,
       ⟨fun hh => by rw [← hsta] at hh; simp only at hh; rw [h0.1] at hh; exact absurd hh (by simp),
        fun hh => hR1.g.width.2 (by rw [← hsta] at hh; exact hh)⟩,
       fun hh => by rw [← hsta] at hh; simp only at hh; rw [h0.1] at hh; exact absurd hh (by simp),
       fun p _ hp => by rw [← hsta] at hp; exact absurd hp (by simp)⟩⟩
    (fun _ p => by
      rw [hT, ho, ← hsta]
      congr 1
      simp [pyxOffset, ← hzs, ← hzx, ← hzy, Prod.ext_iff])
  refine ⟨c2, ?_, ⟨fun hh => absurd hh (by simp), fun hh => absurd hh (by simp), hR2.ended, fun hh => absurd hh (by simp), hR2.g⟩,
    fun hh => absurd hh (by simp)⟩
  unfold uSeac
  rw [e1]
  simp only
  have hb' : getglyphcmds F bn = some b := hb
  have ha' : getglyphcmds F an = some a := ha
  have han' : stdGlyph za = some an := han
  have hbn' : stdGlyph zb = some bn := hbn
  rw [han', hbn']
  simp only [Option.bind_some, hb', hc1, ha']
  exact hc2

theorem rel_step {T₀ T : Pt → P} {fl : Bool} {F : Font} {u : Upd P} {r : List Tok → St → Option St}
    (hr : Mono r) (hsim : USim T₀ pyxOffset fl u r) (t : Tok) {s s' : St} {γ γ' : Geo} {c : UCtx P}
    (h : URel T₀ s γ c) (hT : s.done = false → ∀ p, T p = T₀ (p + γ.origin))
    (hs : step tidy stdOther (prog F) r t s = some s')
    (hg : geo pyxOffset fl s.out = some γ) (hg' : geo pyxOffset fl s'.out = some γ') :
    ∃ c', uStep F fl u T t c = some c' ∧ URel T₀ s' γ' c' ∧ (s'.done = false → γ'.origin = γ.origin) := by
  unfold step at hs
  by_cases hd : s.done ∨ tidy t s = false
  · rw [if_pos hd] at hs; exact absurd hs (by simp)
  rw [if_neg hd] at hs
  push Not at hd
  have hdone : s.done = false := by simpa using hd.1
  have hok : tidy t s = true := by simpa using hd.2
  have hT := hT hdone
  cases t with
  | num z =>
    simp only [Option.some.injEq] at hs
    subst hs
    rw [hg] at hg'
    cases hg'
    refine ⟨{ c with t1 := c.t1 ++ [z] }, rfl, ⟨?_, h.ps, ?_, h.alive, h.g.t1 _⟩, fun _ => rfl⟩
    · intro _
      simp only [icast_append, h.t1 hdone, List.reverse_cons, List.map_append]
      rfl
    · intro hh; rw [h.alive hdone] at hh; exact absurd hh (by simp)
  | cmd k =>
    simp only at hs
    by_cases hk : k = 10
    · rw [if_pos hk] at hs
      simp only [uStep, if_pos hk]
      exact rel_callsubr hr hsim h hT hdone hs hg hg'
    · rw [if_neg hk] at hs
      simp only [Option.some.injEq] at hs
      subst hs
      simp only [uStep, if_neg hk]
      obtain ⟨c', h1, h2, h3⟩ := rel_plain (.cmd k) (by simp) h hT hdone hok hg hg'
      exact ⟨c', h1, h2, fun _ => h3⟩
  | esc k =>
    simp only at hs
    by_cases h6 : k = 6
    · subst h6
      rw [if_pos rfl] at hs
      exact rel_seac hr hsim h hT hdone hok hs hg hg'
    rw [if_neg h6] at hs
    by_cases h12 : k = 12
    · subst h12
      rw [if_pos rfl] at hs
      obtain ⟨c', h1, h2⟩ := rel_div h hdone hok hs
      obtain ⟨_, _, _, _, _, _, e, _⟩ := divide_inv hs
      have : s'.out = s.out := by rw [e]
      rw [this, hg] at hg'
      cases hg'
      exact ⟨c', h1, h2, fun _ => rfl⟩
    rw [if_neg h12] at hs
    by_cases h16 : k = 16
    · subst h16
      rw [if_pos rfl] at hs
      obtain ⟨c', h1, h2, h3⟩ := rel_other h hT hdone hok hs hg hg'
      exact ⟨c', h1, h2, fun _ => h3⟩
    rw [if_neg h16] at hs
    by_cases h17 : k = 17
    · subst h17
      rw [if_pos rfl] at hs
      obtain ⟨c', h1, h2⟩ := rel_pop h hdone hs
      have : s'.out = s.out := by
        unfold pop at hs
        split at hs
        · simp only [Option.some.injEq] at hs; rw [← hs]
        · exact absurd hs (by simp)
      rw [this, hg] at hg'
      cases hg'
      exact ⟨c', h1, h2, fun _ => rfl⟩
    rw [if_neg h17] at hs
    simp only [Option.some.injEq] at hs
    subst hs
    simp only [uStep, if_neg h6, if_neg h12, if_neg h16, if_neg h17]
    obtain ⟨c', h1, h2, h3⟩ := rel_plain (.esc k) (by simpa using h16) h hT hdone hok hg hg'
    exact ⟨c', h1, h2, fun _ => h3⟩

theorem rel_loop {T₀ : Pt → P} {fl : Bool} {F : Font} {u : Upd P} {r : List Tok → St → Option St}
    (hr : Mono r) (hsim : USim T₀ pyxOffset fl u r) :
    USim T₀ pyxOffset fl (fun T => uLoop (uStep F fl u T)) (loop (step tidy stdOther (prog F) r)) := by
  intro ts
  induction ts with
  | nil =>
    intro s s' γ γ' c T hs hg hg' h hT
    simp only [loop, Option.some.injEq] at hs
    subst hs
    rw [hg] at hg'
    cases hg'
    exact ⟨c, rfl, h, fun _ => rfl⟩
  | cons t ts ih =>
    intro s s' γ γ' c T hs hg hg' h hT
    simp only [loop] at hs
    by_cases ht : t = .cmd 11
    · rw [if_pos ht] at hs
      split_ifs at hs with h0
      simp only [Option.some.injEq] at hs
      subst hs ht h0
      rw [hg] at hg'
      cases hg'
      refine ⟨c, ?_, h, fun _ => rfl⟩
      simp [uLoop, uStep, uCmd]
    · rw [if_neg ht, Option.bind_eq_some_iff] at hs
      obtain ⟨s1, h1, h2⟩ := hs
      have hm : Mono (loop (step tidy stdOther (prog F) r)) :=
        loop_prefix _ (fun t s s' h => step_prefix tidy stdOther (prog F) r hr t s s' h)
      obtain ⟨γ1, hg1⟩ := geo_prefix pyxOffset fl (hm _ _ _ h2) γ' hg'
      obtain ⟨c1, e1, hR1, ho1⟩ := rel_step hr hsim t h hT h1 hg hg1
      have hd : s.done = false := by
        unfold step at h1
        by_contra hh
        rw [if_pos (Or.inl (by simpa using hh))] at h1
        exact absurd h1 (by simp)
      obtain ⟨c2, e2, hR2, ho2⟩ := ih s1 s' γ1 γ' c1 T h2 hg1 hg' hR1 (fun hh p => by rw [ho1 hh]; exact hT hd p)
      refine ⟨c2, ?_, hR2, ?_⟩
      · simp only [uLoop, e1, Option.bind_some]
        exact e2
      · intro hh
        have : s1.done = false := by
          by_contra hc
          have hc : s1.done = true := by simpa using hc
          cases ts with
          | nil => simp only [loop, Option.some.injEq] at h2; rw [h2, hh] at hc; exact absurd hc (by simp)
          | cons t' ts' =>
            simp only [loop] at h2
            split_ifs at h2
            · simp only [Option.some.injEq] at h2; rw [h2, hh] at hc; exact absurd hc (by simp)
            · rw [Option.bind_eq_some_iff] at h2
              obtain ⟨_, h2, _⟩ := h2
              unfold step at h2
              rw [if_pos (Or.inl hc)] at h2
              exact absurd h2 (by simp)
        rw [ho2 hh, ho1 this]

theorem rel_run (T₀ : Pt → P) (fl : Bool) (F : Font) (n : Nat) :
    USim T₀ pyxOffset fl (updatepath F fl n) (run tidy stdOther (prog F) n) := by
  induction n with
  | zero => intro ts s s' γ γ' c T hs; simp [run] at hs
  | succ n ih =>
    intro ts s s' γ γ' c T hs hg hg' h hT
    exact rel_loop (run_prefix tidy stdOther (prog F) n) ih ts s s' γ γ' c T hs hg hg' h hT

/-! ## The theorems -/

/-- General form: whatever the place given to accents, the path drawn by PyX consists of the pieces of the
outline with the accent at `adx - asb`. -/
theorem path_of_drawing (F : Font) (fl : Bool) (n : Nat) (T : Pt → P) (g : String) (evs : List Ev) (γ : Geo)
    (hd : drawing tidy stdOther (prog F) n g = some evs) (hγ : geo pyxOffset fl evs = some γ) :
    ∃ b c, getglyphcmds F g = some b ∧ updatepath F fl n T b ⟨none, none, [], [], []⟩ = some c ∧ GRel T γ c ∧
      (γ.ended = true → γ.flex = none) := by
  unfold drawing at hd
  rw [Option.bind_eq_some_iff] at hd
  obtain ⟨b, hb, hd⟩ := hd
  rw [Option.map_eq_some_iff] at hd
  obtain ⟨s', hs, rfl⟩ := hd
  have h0 : URel T ⟨[], [], [], false⟩ Geo.init ⟨none, none, [], [], []⟩ :=
    ⟨fun _ => rfl, fun _ => rfl, fun h => absurd h (by simp [Geo.init]), fun _ => rfl,
      ⟨fun p hp => absurd hp (by simp [Geo.init]), pathRel_intro rfl (none, []) rfl rfl (fun h => absurd h (by simp [Geo.init])),
       ⟨fun _ => rfl, fun h => absurd h (by simp [Geo.init])⟩, fun _ => rfl, fun p _ hp => absurd hp (by simp [Geo.init])⟩⟩
  obtain ⟨c, hc, hR, -⟩ := rel_run T fl F n b _ s' Geo.init γ _ T hs rfl hγ h0
    (fun _ p => by rw [show Geo.init.origin = (0 : Pt) from rfl, add_zero])
  exact ⟨b, c, hb, hc, hR.g, fun h => (hR.ended h).2.2⟩

theorem comp_step {off} {fl : Bool} {γ γ' : Geo} {e : Ev} (h : γ.step off fl e = some γ') (hc : γ.comp = true) :
    γ'.comp = true ∧ γ'.sb = γ.sb := by
  cases e with
  | op t args =>
    simp only [Geo.step] at h
    split_ifs at h
    unfold Geo.op at h
    split at h <;> first
      | (unfold Geo.side at h
         by_cases h0 : γ.cur.isSome ∨ γ.flex.isSome
         · rw [if_pos h0] at h; exact absurd h (by simp)
         · rw [if_neg h0] at h
           simp only [Option.some.injEq] at h
           subst h
           exact ⟨hc, by simp only [hc, if_true]⟩)
      | (unfold Geo.move at h
         rw [Option.bind_eq_some_iff] at h
         obtain ⟨p, -, h⟩ := h
         split at h
         · simp only [Option.some.injEq] at h; subst h; exact ⟨hc, rfl⟩
         · simp only [Option.some.injEq] at h; subst h; exact ⟨hc, rfl⟩
         · exact absurd h (by simp))
      | (unfold Geo.line at h
         rw [Option.bind_eq_some_iff] at h
         obtain ⟨p, -, h⟩ := h
         split_ifs at h
         simp only [Option.some.injEq] at h; subst h; exact ⟨hc, rfl⟩)
      | (unfold Geo.curve at h
         rw [Option.bind_eq_some_iff] at h
         obtain ⟨p, -, h⟩ := h
         split_ifs at h
         simp only [Option.some.injEq] at h; subst h; exact ⟨hc, rfl⟩)
      | (unfold Geo.close at h
         split_ifs at h
         simp only [Option.some.injEq] at h; subst h; exact ⟨hc, rfl⟩)
      | (unfold Geo.setcur at h
         split_ifs at h
         simp only [Option.some.injEq] at h; subst h; exact ⟨hc, rfl⟩)
      | (have hcnt : ∀ l, γ.counter l = some γ' → γ'.comp = true ∧ γ'.sb = γ.sb := by
           intro l hl
           unfold Geo.counter at hl
           split at hl
           · split_ifs at hl
             simp only [Option.some.injEq] at hl; subst hl; exact ⟨hc, rfl⟩
           · exact absurd hl (by simp)
         unfold Geo.proc at h
         split at h
         · split_ifs at h
           · simp only [Option.some.injEq] at h; subst h; exact ⟨hc, rfl⟩
           · split at h
             · simp only [Option.some.injEq] at h; subst h; exact ⟨hc, rfl⟩
             · exact absurd h (by simp)
           · exact hcnt _ h
         · split_ifs at h
           · simp only [Option.some.injEq] at h; subst h; exact ⟨hc, rfl⟩
           · exact hcnt _ h
         · split_ifs at h
           · unfold Geo.flexEnd at h
             split at h
             · split_ifs at h <;>
               · simp only [Option.some.injEq] at h; subst h; exact ⟨hc, rfl⟩
             · exact absurd h (by simp)
           · exact hcnt _ h
         · exact hcnt _ h)
      | (split_ifs at h
         simp only [Option.some.injEq] at h; subst h; exact ⟨hc, rfl⟩)
      | (simp only [Option.some.injEq] at h; subst h; exact ⟨hc, rfl⟩)
      | (exact absurd h (by simp))
  | call _ =>
    simp only [Geo.step] at h
    split_ifs at h
    simp only [Option.some.injEq] at h; subst h; exact ⟨hc, rfl⟩
  | base _ =>
    simp only [Geo.step, hc, true_or, if_true] at h
    exact absurd h (by simp)
  | accent _ a b d =>
    simp only [Geo.step] at h
    split_ifs at h
    simp only [Option.some.injEq] at h; subst h; exact ⟨hc, rfl⟩

/-- The place of the accent matters for composite glyphs only. -/
theorem geo_off (off off' : ℚ → ℚ → ℚ → ℚ) (fl : Bool) (evs : List Ev) : ∀ γ, geo off fl evs = some γ →
    (γ.comp = true → ∀ adx asb, off γ.sb adx asb = off' γ.sb adx asb) → geo off' fl evs = some γ := by
  induction evs using List.reverseRecOn with
  | nil => intro γ h _; exact h
  | append_singleton a e ih =>
    intro γ h hoff
    have h0 := h
    rw [geo_append, Option.bind_eq_some_iff] at h
    obtain ⟨γ0, hg0, hst⟩ := h
    have hst : γ0.step off fl e = some γ := by simpa using hst
    have h1 : geo off' fl a = some γ0 := ih γ0 hg0 (fun hc => by
      obtain ⟨hc', hsb⟩ := comp_step hst hc
      rw [← hsb]
      exact hoff hc')
    rw [geo_append, h1]
    have : γ0.step off' fl e = some γ := by
      rw [← hst]
      cases e with
      | op t args => rfl
      | call _ => rfl
      | base _ => rfl
      | accent _ asb adx ady =>
        simp only [Geo.step] at hst ⊢
        split_ifs with hc
        · rw [if_pos hc] at hst
          simp only [Option.some.injEq] at hst
          have hsb : γ.sb = γ0.sb := by rw [← hst]
          have := hoff (by rw [← hst]; exact hc.1) adx asb
          rw [hsb] at this
          rw [this]
        · rfl
    simpa using this

/-- A glyph is composite when its drawing has components. -/
theorem comp_of_base {off} {fl : Bool} (evs : List Ev) (hb : ∀ b, Ev.base b ∉ evs) : ∀ γ, geo off fl evs = some γ →
    γ.comp = false := by
  induction evs using List.reverseRecOn with
  | nil => intro γ h; simp only [geo, List.foldlM_nil] at h; cases h; rfl
  | append_singleton a e ih =>
    intro γ h
    rw [geo_append, Option.bind_eq_some_iff] at h
    obtain ⟨γ0, hg0, hst⟩ := h
    have hst : γ0.step off fl e = some γ := by simpa using hst
    have h0 := ih (fun b hh => hb b (List.mem_append_left _ hh)) γ0 hg0
    cases e with
    | op t args =>
      simp only [Geo.step] at hst
      split_ifs at hst
      by_contra hc
      have hc : γ.comp = true := by simpa using hc
      unfold Geo.op at hst
      split at hst <;> first
        | (unfold Geo.side at hst
           by_cases h1 : γ0.cur.isSome ∨ γ0.flex.isSome
           · rw [if_pos h1] at hst; exact absurd hst (by simp)
           · rw [if_neg h1] at hst
             simp only [Option.some.injEq] at hst
             rw [← hst] at hc
             simp only [h0] at hc
             exact absurd hc (by simp))
        | (unfold Geo.move at hst
           rw [Option.bind_eq_some_iff] at hst
           obtain ⟨p, -, hst⟩ := hst
           split at hst
           · simp only [Option.some.injEq] at hst; rw [← hst] at hc; simp [h0] at hc
           · simp only [Option.some.injEq] at hst; rw [← hst] at hc; simp [h0] at hc
           · exact absurd hst (by simp))
        | (unfold Geo.line at hst
           rw [Option.bind_eq_some_iff] at hst
           obtain ⟨p, -, hst⟩ := hst
           split_ifs at hst
           simp only [Option.some.injEq] at hst; rw [← hst] at hc; simp [h0] at hc)
        | (unfold Geo.curve at hst
           rw [Option.bind_eq_some_iff] at hst
           obtain ⟨p, -, hst⟩ := hst
           split_ifs at hst
           simp only [Option.some.injEq] at hst; rw [← hst] at hc; simp [h0] at hc)
        | (unfold Geo.close at hst
           split_ifs at hst
           simp only [Option.some.injEq] at hst; rw [← hst] at hc; simp [h0] at hc)
        | (unfold Geo.setcur at hst
           split_ifs at hst
           simp only [Option.some.injEq] at hst; rw [← hst, h0] at hc; exact absurd hc (by simp))
        | (have hcnt : ∀ l, γ0.counter l = some γ → False := by
             intro l hl
             unfold Geo.counter at hl
             split at hl
             · split_ifs at hl
               simp only [Option.some.injEq] at hl; rw [← hl, h0] at hc; exact absurd hc (by simp)
             · exact absurd hl (by simp)
           unfold Geo.proc at hst
           split at hst
           · split_ifs at hst
             · simp only [Option.some.injEq] at hst; rw [← hst] at hc; simp [h0] at hc
             · split at hst
               · simp only [Option.some.injEq] at hst; rw [← hst] at hc; simp [h0] at hc
               · exact absurd hst (by simp)
             · exact hcnt _ hst
           · split_ifs at hst
             · simp only [Option.some.injEq] at hst; rw [← hst, h0] at hc; exact absurd hc (by simp)
             · exact hcnt _ hst
           · split_ifs at hst
             · unfold Geo.flexEnd at hst
               split at hst
               · split_ifs at hst <;>
                 · simp only [Option.some.injEq] at hst; rw [← hst] at hc; simp [h0] at hc
               · exact absurd hst (by simp)
             · exact hcnt _ hst
           · exact hcnt _ hst)
        | (split_ifs at hst
           simp only [Option.some.injEq] at hst; rw [← hst] at hc; simp [h0] at hc)
        | (simp only [Option.some.injEq] at hst; rw [← hst, h0] at hc; exact absurd hc (by simp))
        | (exact absurd hst (by simp))
    | call _ =>
      simp only [Geo.step] at hst
      split_ifs at hst
      simp only [Option.some.injEq] at hst; rw [← hst]; exact h0
    | base b => exact absurd (List.mem_append_right _ (List.mem_singleton.mpr rfl)) (hb b)
    | accent _ a b d =>
      simp only [Geo.step, h0, Bool.false_eq_true, false_and, if_false] at hst
      exact absurd hst (by simp)

theorem outline_inv {off} {fl : Bool} {evs : List Ev} {segs : List (Seg Pt)} {w : Pt}
    (h : outline off fl evs = some (segs, w)) :
    ∃ γ, geo off fl evs = some γ ∧ γ.ended = true ∧ γ.width = some w ∧ γ.segs = segs := by
  unfold outline at h
  rw [Option.bind_eq_some_iff] at h
  obtain ⟨γ, hγ, h⟩ := h
  split_ifs at h with he
  rw [Option.map_eq_some_iff] at h
  obtain ⟨w', hw, h⟩ := h
  cases h
  exact ⟨γ, hγ, he, hw, rfl⟩

/-- Composite glyphs whose left sidebearing point is `0`. -/
theorem composite_path_partial (F : Font) (fl : Bool) (n : Nat) (T W : Pt → P) (g : String) (evs : List Ev)
    (segs : List (Seg Pt)) (w : Pt) (hd : drawing tidy stdOther (prog F) n g = some evs)
    (ho : outline seacOffset fl evs = some (segs, w)) (hsb : ∀ γ, geo seacOffset fl evs = some γ → γ.sb = 0) :
    ∃ p w', getglyphpath F fl n T W g = some (p, w') ∧ segments p = some (segs.map (Seg.map T)) := by
  obtain ⟨γ, hγ, he, hw, hs⟩ := outline_inv ho
  have hγ' := geo_off _ pyxOffset fl evs γ hγ (fun _ adx asb => by
    rw [hsb γ hγ]; simp only [seacOffset, pyxOffset, zero_add])
  obtain ⟨b, c, hb, hc, hR, hf⟩ := path_of_drawing F fl n T g evs γ hd hγ'
  obtain ⟨σ, h1, h2, -⟩ := pathRel_none hR.path (hf he)
  obtain ⟨w', hw'⟩ := Option.isSome_iff_exists.mp (hR.width.2 (by rw [hw]; rfl))
  refine ⟨c.path, W (pt w'.1 w'.2), ?_, ?_⟩
  · simp only [getglyphpath, hb, hc, hw', Option.bind_some, Option.map_some]
  · simp only [segments, h1, Option.map_some, h2, hs]

/-- The path of a glyph without components draws the outline described by its charstring, and its width is
that of the charstring; both transformed. -/
theorem glyph_path (F : Font) (fl : Bool) (n : Nat) (T W : Pt → P) (g : String) (evs : List Ev)
    (segs : List (Seg Pt)) (w : Pt) (hd : drawing tidy stdOther (prog F) n g = some evs)
    (ho : outline seacOffset fl evs = some (segs, w)) (hb : ∀ b, Ev.base b ∉ evs) :
    ∃ p, getglyphpath F fl n T W g = some (p, W w) ∧ segments p = some (segs.map (Seg.map T)) := by
  obtain ⟨γ, hγ, he, hw, hs⟩ := outline_inv ho
  have hcomp := comp_of_base evs hb γ hγ
  have hγ' := geo_off _ pyxOffset fl evs γ hγ (fun h => by rw [hcomp] at h; exact absurd h (by simp))
  obtain ⟨b, c, hb, hc, hR, hf⟩ := path_of_drawing F fl n T g evs γ hd hγ'
  obtain ⟨σ, h1, h2, -⟩ := pathRel_none hR.path (hf he)
  have hwd := hR.width.1 hcomp
  rw [hw, Option.map_eq_some_iff] at hwd
  obtain ⟨w', hw', rfl⟩ := hwd
  refine ⟨c.path, ?_, ?_⟩
  · simp only [getglyphpath, hb, hc, hw', Option.bind_some, Option.map_some]
    rfl
  · simp only [segments, h1, Option.map_some, h2, hs]

/-! ## A concrete case -/

/-- A glyph with a flex section, a hint replacement and a quotient; an accent; two composite glyphs; glyphs with a
fractional quotient, with counter hints, with operands left below those of `callothersubr`. -/
def fontGlyph (g : String) : Option (List Nat) :=
  let flex : List Tok := [.num 1, .cmd 10, .num 50, .num 10, .cmd 21, .num 2, .cmd 10, .num (-20), .num (-10), .cmd 21,
    .num 2, .cmd 10, .num 10, .num 5, .cmd 21, .num 2, .cmd 10, .num 10, .num 5, .cmd 21, .num 2, .cmd 10,
    .num 10, .num (-2), .cmd 21, .num 2, .cmd 10, .num 20, .num (-5), .cmd 21, .num 2, .cmd 10,
    .num 20, .num (-3), .cmd 21, .num 2, .cmd 10, .num 50, .num 113, .num 0, .num 0, .cmd 10]
  if g = "A" then some (enc ([.num 10, .num 500, .cmd 13, .num 5, .num 4, .cmd 10, .num 6, .num 2, .esc 12, .cmd 22]
    ++ flex ++ [.num 7, .cmd 7, .cmd 9, .cmd 14]))
  else if g = "acute" then some (enc [.num 3, .num 200, .cmd 13, .num 9, .cmd 22, .num 5, .num 6, .cmd 5, .cmd 9, .cmd 14])
  else if g = "Aacute" then some (enc [.num 0, .num 510, .cmd 13, .num 3, .num 100, .num 200, .num 65, .num 194, .esc 6])
  else if g = "aacute" then some (enc [.num 10, .num 510, .cmd 13, .num 3, .num 100, .num 200, .num 65, .num 194, .esc 6])
  else if g = "half" then some (enc [.num 10, .num 500, .cmd 13, .num 7, .num 2, .esc 12, .cmd 22, .num 100, .cmd 6,
    .cmd 9, .cmd 14])
  else if g = "counter" then some (enc ([.num 13, .num 500, .cmd 13, .num 0, .num 20, .num 2, .num 13, .esc 16, .num 0, .cmd 22]
    ++ flex ++ [.cmd 9, .cmd 14]))
  else if g = "below" then some (enc [.num 10, .num 500, .cmd 13, .num 7, .num 5, .num 1, .num 3, .esc 16, .esc 17, .cmd 10,
    .cmd 6, .cmd 9, .cmd 14])
  else none

def fontDemo : Font where
  lenIV := 4
  subrs := flexhintsubrs.map enc ++ [enc [.num 1, .num 3, .esc 16, .esc 17, .cmd 10, .cmd 11], enc [.cmd 11]]
  glyphlist := ["A", "acute", "Aacute", "aacute", "half", "counter", "below"]
  glyphs := fontGlyph
  encoding := none

def theOutline (ok : Ok) (g : String) : Option (List (Seg Pt) × Pt) :=
  (drawing ok stdOther (prog fontDemo) 5 g).bind (outline seacOffset true)

def thePath (g : String) : Option (List (Seg Pt) × Pt) :=
  (getglyphpath fontDemo true 5 id id g).bind fun r => (segments r.1).map fun l => (l, r.2)

/-- The hypotheses of `glyph_path` hold for `A`: two curves of the flex section, a line and the closing line. -/
example : (drawing tidy stdOther (prog fontDemo) 5 "A").isSome ∧
    (drawing tidy stdOther (prog fontDemo) 5 "A").map (fun l => l.filter fun e => match e with | .base _ => true | _ => false) = some [] ∧
    theOutline tidy "A" = some ([.curve (13, 0) (43, 0) (53, 5) (63, 10), .curve (63, 10) (73, 8) (93, 3) (113, 0),
      .line (113, 0) (113, 7), .close (113, 7) (13, 0)], (500, 0)) ∧
    thePath "A" = theOutline tidy "A" := by decide +kernel

/-- Without flex a line replaces the curves. -/
example : (getglyphpath fontDemo false 5 id id "A").bind (fun r => segments r.1) =
    some [.line (13, 0) (113, 0), .line (113, 0) (113, 7), .close (113, 7) (13, 0)] := by decide +kernel

/-- The hypotheses of `composite_path_partial` hold for `Aacute`. -/
example : ((drawing tidy stdOther (prog fontDemo) 5 "Aacute").bind fun l => (geo seacOffset true l).map Geo.sb) = some 0 ∧
    (theOutline tidy "Aacute").map Prod.fst = (thePath "Aacute").map Prod.fst ∧
    (thePath "Aacute").map (fun r => r.1.drop 4) = some [.line (109, 200) (114, 206), .close (114, 206) (109, 200)] := by
  decide +kernel

/-! ## Where the claim fails -/

/-- The claim for the charstrings allowed by `ok`. -/
def GlyphPathRight (ok : Ok) : Prop :=
  ∀ (F : Font) (n : Nat) (g : String) (evs : List Ev) (segs : List (Seg Pt)) (w : Pt),
    drawing ok stdOther (prog F) n g = some evs → outline seacOffset true evs = some (segs, w) →
    ∃ p, getglyphpath F true n id id g = some (p, w) ∧ segments p = some segs

theorem refute (ok : Ok) (g : String) (r : List (Seg Pt) × Pt) (h : theOutline ok g = some r) (hp : thePath g ≠ some r) :
    ¬ GlyphPathRight ok := by
  intro hh
  unfold theOutline at h
  rw [Option.bind_eq_some_iff] at h
  obtain ⟨evs, hd, ho⟩ := h
  obtain ⟨p, h1, h2⟩ := hh fontDemo 5 g evs r.1 r.2 hd ho
  apply hp
  simp only [thePath, h1, Option.bind_some, h2, Option.map_some]

/-- The width reported for a composite glyph is that of its accent (`pyx/font/t1file.py:164-165, 188, 918`). -/
theorem composite_width_wrong : ¬ GlyphPathRight tidy ∧ (theOutline tidy "Aacute").map Prod.snd = some (510, 0) ∧
    (thePath "Aacute").map Prod.snd = some (200, 0) := by
  have h : (theOutline tidy "Aacute").isSome := by decide +kernel
  obtain ⟨r, hr⟩ := Option.isSome_iff_exists.mp h
  refine ⟨refute tidy "Aacute" r hr (fun h => ?_), by decide +kernel, by decide +kernel⟩
  have e : (theOutline tidy "Aacute" == thePath "Aacute") = false := by decide +kernel
  rw [hr, h] at e
  simp at e

/-- The accent of a composite glyph with a left sidebearing is displaced by it (`pyx/font/t1file.py:187`). -/
theorem accent_place_wrong :
    (theOutline tidy "aacute").map (fun r => r.1.drop 4) = some [.line (119, 200) (124, 206), .close (124, 206) (119, 200)] ∧
    (thePath "aacute").map (fun r => r.1.drop 4) = some [.line (109, 200) (114, 206), .close (114, 206) (109, 200)] := by
  decide +kernel

/-- Quotients are rounded down: `7 2 div hmoveto` moves by 3 (`pyx/font/t1file.py:510`). -/
theorem fraction_wrong :
    (theOutline okAll "half").map Prod.fst = some [.line (27 / 2, 0) (227 / 2, 0), .close (227 / 2, 0) (27 / 2, 0)] ∧
    (thePath "half").map Prod.fst = some [.line (13, 0) (113, 0), .close (113, 0) (13, 0)] := by decide +kernel

/-- Counter hints stay on the stack of results and are taken for points of a later flex section
(`pyx/font/t1file.py:533-534, 538, 543`). -/
theorem counter_wrong :
    (theOutline okAll "counter").map (fun r => r.1.take 1) = some [.curve (13, 0) (43, 0) (53, 5) (63, 10)] ∧
    (thePath "counter").map (fun r => r.1.take 1) = some [.curve (13, 0) (63, 10) (43, 0) (53, 5)] := by decide +kernel

/-- `7 5 1 3 callothersubr pop callsubr`: the lowest number 7 is taken for the operand of the procedure
(`pyx/font/t1file.py:534`), so that subroutine 7 is looked for, which does not exist. -/
theorem below_wrong :
    (theOutline okAll "below").map Prod.fst = some [.line (10, 0) (17, 0), .close (17, 0) (10, 0)] ∧
    getglyphpath fontDemo true 5 id id "below" = (none : Option (List (PItem Pt) × Pt)) := by decide +kernel

end PyX.T1
