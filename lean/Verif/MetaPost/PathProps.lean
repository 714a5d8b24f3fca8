import Verif.MetaPost.PathWalk
import Mathlib.Data.List.Forall2
import Mathlib.Algebra.Order.Ring.Rat
import Mathlib.Tactic.Linarith

/-!
# C92: a MetaPost-like path draws one segment per link
-/

set_option linter.unusedSectionVars false

namespace PyX.MetaPost

variable {K : Type} [Field K] [LinearOrder K] [IsStrictOrderedRing K]

/-! ## Specification: what the items of a path draw -/

/-- A straight line or a Bezier curve. -/
inductive Seg (K : Type) where
  | line (a b : K × K)
  | curve (a c d b : K × K)
deriving DecidableEq

/-- First point of the subpath, current point, segments drawn. -/
structure Pen (K : Type) where
  start : K × K
  cur : K × K
  segs : List (Seg K)

/-- Closing a subpath draws a line unless its first point has been reached. -/
def Pen.draw (s : Pen K) : Item K → Pen K
  | .moveto p => ⟨p, p, s.segs⟩
  | .lineto p => ⟨s.start, p, s.segs ++ [.line s.cur p]⟩
  | .curveto a b p => ⟨s.start, p, s.segs ++ [.curve s.cur a b p]⟩
  | .closepath => ⟨s.start, s.start, if s.cur = s.start then s.segs else s.segs ++ [.line s.cur s.start]⟩

def pen (l : List (Item K)) : Pen K := l.foldl Pen.draw ⟨0, 0, []⟩

/-- Position of knot `i`. -/
def pos (es : Elems K) (i : ℕ) : K × K := ((initial es i).x, (initial es i).y)

/-- The segment that the link behind knot `i` asks for. -/
def Asks (es : Elems K) (i : ℕ) (s : Seg K) : Prop :=
  match link es i with
  | none => False
  | some (.line _) => s = .line (pos es i) (pos es ((i + 1) % es.length))
  | some (.control a b) => s = .curve (pos es i) a b (pos es ((i + 1) % es.length))
  | some (.tension _ _) => ∃ a b, s = .curve (pos es i) a b (pos es ((i + 1) % es.length))

/-- The knots among the first `n` with a link behind them. -/
def linkedKnots (es : Elems K) (n : ℕ) : List ℕ := (List.range n).filter fun i => (link es i).isSome

/-- The items draw exactly the segments asked for, in this order. -/
def Draws (es : Elems K) (items : List (Item K)) : Prop :=
  List.Forall₂ (Asks es) (linkedKnots es es.length) (pen items).segs

/-! ## The control points chosen in the end -/

theorem fixed_iff (t : Typ) : t.fixed = true ↔ t = .endpoint ∨ t = .explicit := by cases t <;> simp [Typ.fixed]

/-- Explicit control points are not touched. -/
theorem final_explicit {E : Env K} {m : ℕ} {ks ks' : Table K} (hm : 0 < m) (h : makeChoices E m ks = some ks')
    (i : ℕ) (hi : i < m) (he : (ready E m ks i).rt = .explicit) : Same m (ready E m ks) ks' i := by
  obtain ⟨off, o, n, ks1, ks2, hb, h1, h2, h3, rfl, h5, -, h7, h8⟩ := makeChoices_covers hm h i hi
  have hs := h7 o h1 (by omega)
  have he1 := (R_eq hs.1).1
  rw [he] at he1
  obtain ⟨-, -, -, -, -, s⟩ := walkStep_spec (Nat.mod_lt _ hm) h5
  rcases s with hS | ⟨-, hn, -, hx, -⟩
  · exfalso
    by_cases e : o = off
    · subst e
      have := hS.free
      rw [← he1] at this
      simp [Typ.fixed] at this
    · obtain ⟨-, -, -, h4⟩ := runLength_spec hS.len
      have := (h4 (o - off) (by omega) (by omega)).2
      rw [add_mod_mod', show off + (o - off) = o by omega, ← he1] at this
      simp at this
  · obtain rfl : o = off := by omega
    have h9 := h8 o le_rfl (by omega)
    rw [hx he1.symm] at h9
    exact hs.trans h9

/-- Every curve left to choose is given control points in a run. -/
theorem final_free {E : Env K} {m : ℕ} {ks ks' : Table K} (hm : 0 < m) (h : makeChoices E m ks = some ks')
    (i : ℕ) (hi : i < m) (he : (ready E m ks i).rt.fixed = false) :
    (ks' i).rt = .explicit ∧ (ks' ((i + 1) % m)).lt = .explicit := by
  obtain ⟨off, o, n, ks1, ks2, hb, h1, h2, h3, rfl, h5, -, h7, h8⟩ := makeChoices_covers hm h i hi
  have hs := h7 o h1 (by omega)
  have he1 := (R_eq hs.1).1
  obtain ⟨-, -, -, -, -, s⟩ := walkStep_spec (Nat.mod_lt _ hm) h5
  rcases s with hS | ⟨hf, hn, -, -, -⟩
  · obtain ⟨_, _, _, -, -, -, hk⟩ := hS.run
    obtain ⟨c, -, hr, hl⟩ := hk (o - off) (by omega)
    rw [add_mod_mod', show off + (o - off) = o by omega] at hr
    rw [show ∀ a, a + (o - off) + 1 = a + ((o - off) + 1) by intro a; omega, add_mod_mod',
      show off + (o - off + 1) = o + 1 by omega] at hl
    have e : ((((breakpoint m (joined E m ks m)).1 + o) % m) + 1) % m =
        ((breakpoint m (joined E m ks m)).1 + (o + 1)) % m := by rw [Nat.mod_add_mod, Nat.add_assoc]
    replace h8 := h8 o h1 h2
    have h9 := (L_eq h8.2).1
    rw [e] at h9 ⊢
    constructor
    · rw [← (R_eq h8.1).1]; exact congrArg Prod.fst hr
    · rw [← h9]; exact congrArg Prod.fst hl
  · exfalso
    obtain rfl : o = off := by omega
    rw [← he1, he] at hf
    simp at hf

/-! ## Links, and joining -/

theorem link_none {es : Elems K} {i : ℕ} (h : es.length ≤ i) : link es i = none := by
  simp [link, List.getD, h]

theorem linkStep_R {E : Env K} {m i : ℕ} {l : Option (Link K)} {ks ks' : Table K} (h : linkStep E m i l ks = some ks')
    {a : ℕ} (h1 : a ≠ i) (h2 : l = some (.line true) → a ≠ (i + 1) % m) : (ks' a).R = (ks a).R := by
  cases l with
  | none => simp only [linkStep, Option.some.injEq] at h; rw [h]
  | some l => exact setKnots_R h h1 fun e => h2 (by rw [e])

theorem linkStep_L {E : Env K} {m i : ℕ} {l : Option (Link K)} {ks ks' : Table K} (h : linkStep E m i l ks = some ks')
    {a : ℕ} (h1 : a ≠ (i + 1) % m) (h2 : l = some (.line true) → a ≠ i) : (ks' a).L = (ks a).L := by
  cases l with
  | none => simp only [linkStep, Option.some.injEq] at h; rw [h]
  | some l => exact setKnots_L h h1 fun e => h2 (by rw [e])

theorem succ_mod_inj {m i j : ℕ} (hi : i < m) (hj : j < m) (h : (i + 1) % m = (j + 1) % m) : i = j := by
  rw [Nat.add_comm i, Nat.add_comm j] at h
  exact mod_inj hi hj h

/-- Control points given explicitly survive the later links, unless a line that keeps angles follows. -/
theorem linked_control {E : Env K} {es : Elems K} {ks : Table K} (h : linked E es es.length = some ks) {i : ℕ}
    (hi : i < es.length) {a b : K × K} (hl : link es i = some (.control a b))
    (hk : i + 1 < es.length → link es (i + 1) ≠ some (.line true))
    (hk0 : i = 0 → link es (es.length - 1) ≠ some (.line true)) :
    (ks i).R = (.explicit, some a.1, some a.2) ∧
      (ks ((i + 1) % es.length)).L = (.explicit, some b.1, some b.2) := by
  obtain ⟨ks1, h1⟩ := linked_le h (show i + 1 ≤ es.length by omega)
  obtain ⟨ks0, h0, h01⟩ := linked_succ h1
  rw [hl] at h01
  refine linked_inv (fun ks => (ks i).R = (.explicit, some a.1, some a.2) ∧
      (ks ((i + 1) % es.length)).L = (.explicit, some b.1, some b.2)) (show i + 1 ≤ es.length by omega) h1 h
    (setKnots_control (E := E) h01) ?_
  intro t ht1 ht2 ks ks' hq hs
  constructor
  · rw [linkStep_R hs (by omega), hq.1]
    intro hkeep he
    by_cases e : t + 1 < es.length
    · rw [Nat.mod_eq_of_lt e] at he; omega
    · have : t + 1 = es.length := by omega
      rw [this, Nat.mod_self] at he
      refine hk0 he ?_
      rw [← this, Nat.add_sub_cancel]
      exact hkeep
  · rw [linkStep_L hs, hq.2]
    · intro he
      have := succ_mod_inj hi ht2 he
      omega
    · intro hkeep he
      rw [Nat.mod_eq_of_lt (by omega)] at he
      exact hk (by omega) (by rw [he]; exact hkeep)

/-- Knots that are joined are connected by explicit control points. -/
theorem joinStep_self {E : Env K} {ks : Table K} {i j : ℕ} (hA : ¬Apart E (ks i) (ks j)) :
    (joinStep E ks i j i).rt = .explicit ∧ (joinStep E ks i j j).lt = .explicit := by
  unfold Apart at hA
  push Not at hA
  unfold joinStep
  rw [if_pos ⟨by simpa using hA.1, hA.2⟩]
  constructor
  · rw [mL_rt, mod_same]
    change (mod (mod _ _ _) _ _ _).rt = _
    by_cases e : i = j
    · rw [← e, mod_same]
      have : ((mod (mod (mod ks i fun k => k.setR .explicit k.rx k.ry) i fun k =>
        if k.lt = .opn then k.setL .curl (some 1) k.ly else k) i (fun k => k.setL .explicit k.lx k.ly)) i).rt =
          .explicit := by
        rw [mod_same]
        change (mod _ _ _ _).rt = _
        rw [mod_same]
        rw [mod_same]
        split_ifs <;> rfl
      rw [if_neg (by rw [this]; simp), this]
    · rw [mod_ne _ _ e, mod_ne _ _ e, mod_same]
      rw [mod_same]
      split_ifs <;> rfl
  · rw [mod_same]
    change (mod _ _ _ _).lt = _
    rw [mR_lt]
    have h1 := iR_L (mod (mod (mod ks i fun k => k.setR .explicit k.rx k.ry) i fun k =>
        if k.lt = .opn then k.setL .curl (some 1) k.ly else k) j (fun k => k.setL .explicit k.lx k.ly))
        j j (fun _ => .curl) (fun _ => some 1) (fun k => k.ry) (fun k => k.rt = .opn)
    rw [(L_eq h1).1, mod_same]
    rfl

/-- A side joined to its neighbour, or left to choose. -/
theorem joinStep_gap (E : Env K) (m : ℕ) (ks : Table K) (t i : ℕ) (ht : t < m) (hi : i < m)
    (h : (ks i).rt.fixed = false ∨ ((ks i).rt = .explicit ∧ (ks ((i + 1) % m)).lt = .explicit)) :
    ((joinStep E ks t ((t + 1) % m) i).rt.fixed = false ∨ ((joinStep E ks t ((t + 1) % m) i).rt = .explicit ∧
      (joinStep E ks t ((t + 1) % m) ((i + 1) % m)).lt = .explicit)) := by
  by_cases hA : Apart E (ks t) (ks ((t + 1) % m))
  · rw [joinStep_apart hA]; exact h
  by_cases hti : t = i
  · subst hti
    exact Or.inr (joinStep_self hA)
  · have hne : (i + 1) % m ≠ (t + 1) % m := fun he => hti (succ_mod_inj ht hi he.symm)
    rcases h with h | ⟨h1, h2⟩
    · left
      rcases joinStep_R E ks t ((t + 1) % m) i (Or.inl (Ne.symm hti)) with e | ⟨-, -, e⟩
      · rw [(R_eq e).1]; exact h
      · have : (joinStep E ks t ((t + 1) % m) i).rt = .curl := congrArg Prod.fst e
        rw [this]; rfl
    · right
      constructor
      · rcases joinStep_R E ks t ((t + 1) % m) i (Or.inl (Ne.symm hti)) with e | ⟨-, ho, e⟩
        · rw [(R_eq e).1]; exact h1
        · rw [h1] at ho; simp at ho
      · rcases joinStep_L E ks t ((t + 1) % m) ((i + 1) % m) (Or.inl hne) with e | ⟨-, ho, e⟩
        · rw [(L_eq e).1]; exact h2
        · rw [h2] at ho; simp at ho

/-- The explicit curves are ready as they are. -/
theorem ready_explicit {E : Env K} {m : ℕ} {ks : Table K} (hm : 0 < m) {i : ℕ} (hi : i < m)
    (h1 : (ks i).rt = .explicit) (h2 : (ks ((i + 1) % m)).lt = .explicit) : Same m ks (ready E m ks) i := by
  have hj : Same m ks (joined E m ks m) i := by
    refine joined_inv (fun ks' => Same m ks ks' i) m (Same.refl _ _ _) ?_
    intro t ht ks' hq
    have e1 : (ks' i).rt = .explicit := by rw [← (R_eq hq.1).1, h1]
    have e2 : (ks' ((i + 1) % m)).lt = .explicit := by rw [← (L_eq hq.2).1, h2]
    refine hq.trans ?_
    by_cases hti : t = i
    · subst hti
      rw [joinStep_apart (Or.inl (by rw [e1]; rfl))]
      exact Same.refl _ _ _
    · have hne : (i + 1) % m ≠ (t + 1) % m := fun he => hti (succ_mod_inj ht hi he.symm)
      constructor
      · rcases joinStep_R E ks' t ((t + 1) % m) i (Or.inl (Ne.symm hti)) with e | ⟨-, ho, -⟩
        · exact e.symm
        · rw [e1] at ho; simp at ho
      · rcases joinStep_L E ks' t ((t + 1) % m) ((i + 1) % m) (Or.inl hne) with e | ⟨-, ho, -⟩
        · exact e.symm
        · rw [e2] at ho; simp at ho
  have e1 : (joined E m ks m i).rt = .explicit := by rw [← (R_eq hj.1).1, h1]
  obtain ⟨-, -, -, hb⟩ := breakpoint_spec hm (joined E m ks m)
  rcases hb with hb | ⟨hb, -, -⟩
  · unfold ready; rw [hb]; exact hj
  · have := (hb i hi).2
    rw [e1] at this; simp at this

/-- In the end, a curve that was explicit or left to choose has explicit control points. -/
theorem final_gap {E : Env K} {m : ℕ} {ks ks' : Table K} (hm : 0 < m) (h : makeChoices E m ks = some ks')
    (i : ℕ) (hi : i < m)
    (hg : (ks i).rt.fixed = false ∨ ((ks i).rt = .explicit ∧ (ks ((i + 1) % m)).lt = .explicit)) :
    (ks' i).rt = .explicit ∧ (ks' ((i + 1) % m)).lt = .explicit := by
  have hj := joined_inv (E := E) (m := m) (fun ks => (ks i).rt.fixed = false ∨
    ((ks i).rt = .explicit ∧ (ks ((i + 1) % m)).lt = .explicit)) m hg fun t ht ks hq => joinStep_gap E m ks t i ht hi hq
  obtain ⟨-, -, b3, b4⟩ := breakpoint_spec hm (joined E m ks m)
  have hr : (ready E m ks i).R = (joined E m ks m i).R := (b3 i).2
  rcases hj with hj | ⟨hj1, hj2⟩
  · exact final_free hm h i hi (by rw [(R_eq hr).1]; exact hj)
  · have hs := final_explicit hm h i hi (by rw [(R_eq hr).1]; exact hj1)
    rcases b4 with b4 | ⟨b4, -, -⟩
    · unfold ready at hs
      rw [b4] at hs
      exact ⟨by rw [← (R_eq hs.1).1]; exact hj1, by rw [← (L_eq hs.2).1]; exact hj2⟩
    · have := (b4 i hi).2
      rw [hj1] at this; simp at this

/-! ## Drawing -/

/-- Everything that happens when a path is made. -/
theorem path_inv {E : Env K} {es : Elems K} {items : List (Item K)} (h : path E es = some items) :
    0 < es.length ∧ ∃ ks ks' l c, linked E es es.length = some ks ∧ makeChoices E es.length ks = some ks' ∧
      drawn es ks' (es.length - 1) = some l ∧
      closing (isClosed E es) (ks' (es.length - 1)) (ks' 0) (link es (es.length - 1)) = some c ∧ items = l ++ c ∧
      ∀ a, (ks' a).P = pos es a := by
  unfold path at h
  split_ifs at h with he
  simp only [Option.bind_eq_some_iff, Option.map_eq_some_iff] at h
  obtain ⟨ks, h1, ks', h2, l, h3, c, h4, h5⟩ := h
  have hm : 0 < es.length := List.length_pos_iff.mpr he
  exact ⟨hm, ks, ks', l, c, h1, h2, h3, h4, h5.symm, fun a => by rw [makeChoices_P hm h2, linked_P h1]; rfl⟩

theorem pen_append (l : List (Item K)) (a : Item K) : pen (l ++ [a]) = (pen l).draw a := by
  simp [pen]

theorem linkedKnots_succ (es : Elems K) (n : ℕ) :
    linkedKnots es (n + 1) = linkedKnots es n ++ if (link es n).isSome then [n] else [] := by
  unfold linkedKnots
  rw [List.range_succ, List.filter_append, List.filter_singleton]
  cases (link es n).isSome <;> rfl

theorem curve_spec {k k' : Knot K} {it : Item K} (h : curve k k' = some it) :
    ∃ a b, it = .curveto a b (k'.x, k'.y) ∧ k.rx = some a.1 ∧ k.ry = some a.2 ∧ k'.lx = some b.1 ∧ k'.ly = some b.2 := by
  simp only [curve, Option.bind_eq_some_iff, Option.map_eq_some_iff] at h
  obtain ⟨a, ha, b, hb, c, hc, d, hd, h⟩ := h
  exact ⟨(a, b), (c, d), h.symm, ha, hb, hc, hd⟩

/-- Explicit control points of the link behind knot `i` are those stored in the table. -/
def Kept (es : Elems K) (ks : Table K) (i : ℕ) : Prop :=
  ∀ a b, link es i = some (.control a b) →
    (ks i).R = (.explicit, some a.1, some a.2) ∧ (ks ((i + 1) % es.length)).L = (.explicit, some b.1, some b.2)

/-- `A i s` holds for the line or the curve that is drawn for the link behind knot `i`. -/
def Fits (es : Elems K) (ks : Table K) (A : ℕ → Seg K → Prop) (i : ℕ) : Prop :=
  (∀ keep, link es i = some (.line keep) → A i (.line (pos es i) (pos es ((i + 1) % es.length)))) ∧
  ∀ l a b, link es i = some l → (∀ keep, l ≠ .line keep) → (ks i).rx = some a.1 → (ks i).ry = some a.2 →
    (ks ((i + 1) % es.length)).lx = some b.1 → (ks ((i + 1) % es.length)).ly = some b.2 →
    A i (.curve (pos es i) a b (pos es ((i + 1) % es.length)))

/-- A curve drawn for a link. -/
theorem curve_fits {es : Elems K} {ks : Table K} {A : ℕ → Seg K → Prop} {i : ℕ} {it : Item K} {l : Link K}
    (hl : link es i = some l) (hn : ∀ keep, l ≠ .line keep) (hA : Fits es ks A i) (hP : ∀ a, (ks a).P = pos es a)
    (h : curve (ks i) (ks ((i + 1) % es.length)) = some it) :
    ∃ a b, it = .curveto a b (pos es ((i + 1) % es.length)) ∧
      A i (.curve (pos es i) a b (pos es ((i + 1) % es.length))) := by
  obtain ⟨a, b, e, h1, h2, h3, h4⟩ := curve_spec h
  refine ⟨a, b, ?_, hA.2 l a b hl hn h1 h2 h3 h4⟩
  rw [e]; congr 1; exact hP _

/-- Explicit control points that were kept make the segment the link asks for. -/
theorem kept_fits {es : Elems K} {ks : Table K} {i : ℕ} (hK : Kept es ks i) : Fits es ks (Asks es) i := by
  constructor
  · intro keep hl
    unfold Asks
    rw [hl]
  · intro l a b hl hn h1 h2 h3 h4
    unfold Asks
    cases l with
    | line keep => exact absurd rfl (hn keep)
    | tension t t' => rw [hl]; exact ⟨a, b, rfl⟩
    | control p q =>
      rw [hl]
      obtain ⟨k1, k2⟩ := hK p q hl
      simp only [Knot.R, Knot.L, Prod.mk.injEq] at k1 k2
      rw [k1.2.1, Option.some.injEq] at h1
      rw [k1.2.2, Option.some.injEq] at h2
      rw [k2.2.1, Option.some.injEq] at h3
      rw [k2.2.2, Option.some.injEq] at h4
      simp only
      rw [show a = p from Prod.ext h1.symm h2.symm, show b = q from Prod.ext h3.symm h4.symm]

/-- The items up to knot `n` draw the links before it. -/
theorem drawn_spec {es : Elems K} {ks : Table K} {A : ℕ → Seg K → Prop} (hP : ∀ a, (ks a).P = pos es a) (n : ℕ)
    (hn : n < es.length) (hA : ∀ i < n, Fits es ks A i) (l : List (Item K)) (h : drawn es ks n = some l) :
    List.Forall₂ A (linkedKnots es n) (pen l).segs ∧ (pen l).cur = pos es n ∧
      ((∀ i < n, (link es i).isSome) → (pen l).start = pos es 0) := by
  induction n generalizing l with
  | zero =>
    simp only [drawn, Option.some.injEq] at h
    rw [← h]
    exact ⟨List.Forall₂.nil, hP 0, fun _ => hP 0⟩
  | succ n ih =>
    simp only [drawn, Option.bind_eq_some_iff, Option.map_eq_some_iff] at h
    obtain ⟨l0, h0, it, hit, h⟩ := h
    obtain ⟨i1, i2, i3⟩ := ih (by omega) (fun i hi => hA i (by omega)) l0 h0
    rw [← h, pen_append, linkedKnots_succ]
    have hp : ((ks (n + 1)).x, (ks (n + 1)).y) = pos es (n + 1) := hP _
    have hmod : (n + 1) % es.length = n + 1 := Nat.mod_eq_of_lt hn
    rcases hl : link es n with _ | l
    · rw [hl] at hit
      simp only [drawLink, Option.some.injEq] at hit
      rw [← hit, hp]
      refine ⟨by simpa [Pen.draw] using i1, rfl, fun hall => ?_⟩
      have := hall n (by omega)
      rw [hl] at this; simp at this
    · rw [hl] at hit
      have happ : ∀ s, A n s → List.Forall₂ A
          (linkedKnots es n ++ if (some l).isSome then [n] else []) ((pen l0).segs ++ [s]) := by
        intro s hs
        exact List.rel_append i1 (List.Forall₂.cons hs List.Forall₂.nil)
      have hcurve : (∀ keep, l ≠ .line keep) → drawLink (ks n) (ks (n + 1)) (some l) = curve (ks n) (ks (n + 1)) →
          List.Forall₂ A (linkedKnots es n ++ if (some l).isSome then [n] else []) ((pen l0).draw it).segs ∧
          ((pen l0).draw it).cur = pos es (n + 1) ∧
          ((∀ i < n + 1, (link es i).isSome) → ((pen l0).draw it).start = pos es 0) := by
        intro hn' hd
        rw [hd] at hit
        have hit' : curve (ks n) (ks ((n + 1) % es.length)) = some it := by rw [hmod]; exact hit
        obtain ⟨a, b, e1, e2⟩ := curve_fits hl hn' (hA n (by omega)) hP hit'
        rw [hmod] at e1 e2
        rw [e1]
        refine ⟨?_, rfl, fun hall => i3 fun i hi => hall i (by omega)⟩
        simp only [Pen.draw]
        rw [i2]
        exact happ _ e2
      cases l with
      | line keep =>
        simp only [drawLink, Option.some.injEq] at hit
        rw [← hit, hp]
        refine ⟨?_, rfl, fun hall => i3 fun i hi => hall i (by omega)⟩
        simp only [Pen.draw]
        rw [i2]
        refine happ _ ?_
        have := (hA n (by omega)).1 keep hl
        rwa [hmod] at this
      | control a b => exact hcurve (fun _ => by simp) rfl
      | tension a b => exact hcurve (fun _ => by simp) rfl

/-- The link behind the last knot, if it is a curve, leaves the path closed or to be closed by a chosen curve. -/
theorem last_gap {E : Env K} {es : Elems K} {ks : Table K} (hm : 0 < es.length) (h : linked E es es.length = some ks)
    {l : Link K} (hl : link es (es.length - 1) = some l) (hn : ∀ keep, l ≠ .line keep) :
    (ks (es.length - 1)).rt.fixed = false ∨
      ((ks (es.length - 1)).rt = .explicit ∧ (ks ((es.length - 1 + 1) % es.length)).lt = .explicit) := by
  have hm' : es.length - 1 + 1 = es.length := by omega
  rw [← hm'] at h
  obtain ⟨ks0, h0, h1⟩ := linked_succ h
  rw [hl] at h1
  cases l with
  | line keep => exact absurd rfl (hn keep)
  | control a b =>
    right
    obtain ⟨e1, e2⟩ := setKnots_control (E := E) h1
    exact ⟨congrArg Prod.fst e1, congrArg Prod.fst e2⟩
  | tension a b =>
    left
    obtain ⟨e1, -, e3, -⟩ := setKnots_tension (E := E) h1
    have : (ks (es.length - 1)).rt = (ks0 (es.length - 1)).rt := congrArg Prod.fst e3
    rw [this]; exact e1

/-- What is drawn, in terms of the final table of knots. -/
theorem draws_gen {E : Env K} {es : Elems K} {items : List (Item K)} (h : path E es = some items)
    (hline : ∀ keep, link es (es.length - 1) ≠ some (.line keep))
    (hgap : (link es (es.length - 1)).isSome → ∀ i < es.length, (link es i).isSome) :
    0 < es.length ∧ ∃ ks ks', linked E es es.length = some ks ∧ makeChoices E es.length ks = some ks' ∧
      (∀ a, (ks' a).P = pos es a) ∧
      ∀ A, (∀ i < es.length, Fits es ks' A i) → List.Forall₂ A (linkedKnots es es.length) (pen items).segs := by
  obtain ⟨hm, ks, ks', l, c, h1, h2, h3, h4, rfl, hP⟩ := path_inv h
  refine ⟨hm, ks, ks', h1, h2, hP, fun A hA => ?_⟩
  have hm' : es.length - 1 + 1 = es.length := by omega
  obtain ⟨d1, d2, d3⟩ := drawn_spec hP (es.length - 1) (by omega) (fun i hi => hA i (by omega)) l h3
  rw [← hm', linkedKnots_succ]
  rcases hl : link es (es.length - 1) with _ | lk
  · rw [hl] at h4
    simp only [closing, Option.some.injEq] at h4
    rw [← h4]
    simpa using d1
  · have hn : ∀ keep, lk ≠ .line keep := fun keep e => hline keep (by rw [hl, e])
    have hg := final_gap hm h2 (es.length - 1) (by omega) (last_gap hm h1 hl hn)
    rw [hm', Nat.mod_self] at hg
    have hc : closing (isClosed E es) (ks' (es.length - 1)) (ks' 0) (some lk) =
        (curve (ks' (es.length - 1)) (ks' 0)).map
          fun c => if isClosed E es = true then [c, Item.closepath] else [c] := by
      cases lk with
      | line keep => exact absurd rfl (hn keep)
      | control a b => simp only [closing]; rw [if_pos hg.2]
      | tension a b => simp only [closing]; rw [if_pos hg.2]
    rw [hl, hc] at h4
    simp only [Option.map_eq_some_iff] at h4
    obtain ⟨it, hit, h4⟩ := h4
    have hit' : curve (ks' (es.length - 1)) (ks' ((es.length - 1 + 1) % es.length)) = some it := by
      rw [hm', Nat.mod_self]; exact hit
    obtain ⟨a, b, e1, e2⟩ := curve_fits hl hn (hA _ (by omega)) hP hit'
    rw [hm', Nat.mod_self] at e1 e2
    have hall := hgap (by rw [hl]; rfl)
    have hstart := d3 fun i hi => hall i (by omega)
    have happ : List.Forall₂ A (linkedKnots es (es.length - 1) ++ if (some lk).isSome then [es.length - 1] else [])
        ((pen l).segs ++ [.curve (pos es (es.length - 1)) a b (pos es 0)]) :=
      List.rel_append d1 (List.Forall₂.cons e2 List.Forall₂.nil)
    have h5 : pen (l ++ [it]) = ⟨pos es 0, pos es 0, (pen l).segs ++ [.curve (pos es (es.length - 1)) a b (pos es 0)]⟩ := by
      rw [pen_append, e1]
      simp only [Pen.draw]
      rw [d2, hstart]
    rw [← h4]
    by_cases hclosed : isClosed E es = true
    · rw [if_pos hclosed, show l ++ [it, Item.closepath] = (l ++ [it]) ++ [Item.closepath] by simp, pen_append, h5]
      simp only [Pen.draw, if_true]
      simpa using happ
    · rw [if_neg hclosed, h5]
      simpa using happ

/-- **C92.** A path draws one segment per link, from knot to knot, with the control points that were given. Missing: a
line that closes the path (never drawn, see `closing_line_missing`), explicit control points before a line that keeps
angles (see `control_overwritten`), and closing links of paths with gaps. -/
theorem draws_links_partial (E : Env K) (es : Elems K) (items : List (Item K)) (h : path E es = some items)
    (hline : ∀ keep, link es (es.length - 1) ≠ some (.line keep))
    (hgap : (link es (es.length - 1)).isSome → ∀ i < es.length, (link es i).isSome)
    (hkeep : ∀ i a b, link es i = some (.control a b) → i + 1 < es.length → link es (i + 1) ≠ some (.line true)) :
    Draws es items := by
  obtain ⟨hm, ks, ks', h1, h2, -, hd⟩ := draws_gen h hline hgap
  refine hd _ fun i hi => kept_fits ?_
  intro a b hl
  obtain ⟨e1, e2⟩ := linked_control h1 hi hl (hkeep i a b hl) (fun _ => hline true)
  have t1 : (ks i).rt = .explicit := congrArg Prod.fst e1
  have t2 : (ks ((i + 1) % es.length)).lt = .explicit := congrArg Prod.fst e2
  have s1 := ready_explicit (E := E) hm hi t1 t2
  have s2 := final_explicit hm h2 i hi (by rw [← (R_eq s1.1).1]; exact t1)
  have s := s1.trans s2
  exact ⟨by rw [← s.1]; exact e1, by rw [← s.2]; exact e2⟩

/-- **C92.** A closed path of curves ends with `closepath`: it has no ends, and all its corners are joined. -/
theorem closed_curves (E : Env K) (es : Elems K) (items : List (Item K)) (h : path E es = some items)
    (hk : ∀ i < es.length, (initial es i).lt ≠ .endpoint ∧ (initial es i).rt ≠ .endpoint)
    (hl : ∀ i < es.length, ∃ l, link es i = some l ∧ ∀ keep, l ≠ .line keep) :
    ∃ l, items = l ++ [.closepath] ∧ (pen l).cur = pos es 0 ∧ (pen l).cur = (pen l).start := by
  obtain ⟨hm, ks, ks', l, c, h1, h2, h3, h4, rfl, hP⟩ := path_inv h
  have hT : ∀ n ≤ es.length, ∀ ks, linked E es n = some ks → ∀ i < es.length,
      (ks i).lt ≠ .endpoint ∧ (ks i).rt ≠ .endpoint := by
    intro n hn ks hks
    refine linked_inv (fun ks => ∀ i < es.length, (ks i).lt ≠ .endpoint ∧ (ks i).rt ≠ .endpoint) (Nat.zero_le n)
      (rfl : linked E es 0 = some (initial es)) hks hk ?_
    intro t _ ht ks ks' hq hs i hi
    obtain ⟨lk, e, hn'⟩ := hl t (by omega)
    rw [e] at hs
    constructor
    · by_cases hj : i = (t + 1) % es.length
      · cases lk with
        | line keep => exact absurd rfl (hn' keep)
        | control a b =>
          have e1 : (ks' ((t + 1) % es.length)).lt = .explicit := congrArg Prod.fst (setKnots_control (E := E) hs).2
          rw [hj, e1]; simp
        | tension a b =>
          obtain ⟨-, -, -, e1⟩ := setKnots_tension (E := E) hs
          have e2 : (ks' ((t + 1) % es.length)).lt = (ks ((t + 1) % es.length)).lt := congrArg Prod.fst e1
          rw [hj, e2, ← hj]
          exact (hq i hi).1
      · rw [(L_eq (linkStep_L hs hj (fun e' => absurd (Option.some.inj e') (hn' true)))).1]
        exact (hq i hi).1
    · by_cases hj : i = t
      · subst hj
        cases lk with
        | line keep => exact absurd rfl (hn' keep)
        | control a b =>
          have e1 : (ks' i).rt = .explicit := congrArg Prod.fst (setKnots_control (E := E) hs).1
          rw [e1]; simp
        | tension a b =>
          obtain ⟨-, -, e1, -⟩ := setKnots_tension (E := E) hs
          have e2 : (ks' i).rt = (ks i).rt := congrArg Prod.fst e1
          rw [e2]
          exact (hq i hi).2
      · rw [(R_eq (linkStep_R hs hj (fun e' => absurd (Option.some.inj e') (hn' true)))).1]
        exact (hq i hi).2
  have hcl : isClosed E es = true := by
    unfold isClosed
    rw [List.all_eq_true]
    intro i hi
    rw [List.mem_range] at hi
    obtain ⟨ks0, h0⟩ := linked_le h1 (le_of_lt hi)
    have := hT i (le_of_lt hi) ks0 h0 i hi
    rw [h0]
    simp [this.1, this.2]
  obtain ⟨lk, hlk, hn⟩ := hl (es.length - 1) (by omega)
  have hm' : es.length - 1 + 1 = es.length := by omega
  have hg := final_gap hm h2 (es.length - 1) (by omega) (last_gap hm h1 hlk hn)
  rw [hm', Nat.mod_self] at hg
  rw [hlk, hcl] at h4
  have hc : closing true (ks' (es.length - 1)) (ks' 0) (some lk) =
      (curve (ks' (es.length - 1)) (ks' 0)).map fun c => [c, Item.closepath] := by
    cases lk with
    | line keep => exact absurd rfl (hn keep)
    | control a b => simp only [closing]; rw [if_pos hg.2]; rfl
    | tension a b => simp only [closing]; rw [if_pos hg.2]; rfl
  rw [hc] at h4
  simp only [Option.map_eq_some_iff] at h4
  obtain ⟨it, hit, h4⟩ := h4
  refine ⟨l ++ [it], by rw [← h4]; simp, ?_, ?_⟩
  all_goals
    obtain ⟨a, b, e1, -⟩ := curve_spec hit
    have hp : ((ks' 0).x, (ks' 0).y) = pos es 0 := hP 0
    rw [pen_append, e1, hp]
  · rfl
  · refine Eq.symm (?_ : (pen l).start = pos es 0)
    have : ∀ n < es.length, ∀ l, drawn es ks' n = some l → (pen l).start = pos es 0 := by
      intro n
      induction n with
      | zero =>
        intro _ l hl
        simp only [drawn, Option.some.injEq] at hl
        rw [← hl]
        exact hP 0
      | succ n ih =>
        intro hn l hd
        simp only [drawn, Option.bind_eq_some_iff, Option.map_eq_some_iff] at hd
        obtain ⟨l0, h0, it, hit, hd⟩ := hd
        obtain ⟨lk, hlk, hnn⟩ := hl n (by omega)
        rw [hlk] at hit
        have hit' : curve (ks' n) (ks' (n + 1)) = some it := by
          cases lk with
          | line keep => exact absurd rfl (hnn keep)
          | control a b => exact hit
          | tension a b => exact hit
        obtain ⟨a, b, e1, -⟩ := curve_spec hit'
        rw [← hd, pen_append, e1]
        exact ih (by omega) l0 h0
    exact this _ (by omega) l h3

/-! ## Examples and violations -/

/-- Some parameters: control points on the chord. -/
def sampleEnv : Env ℚ where
  arg x y := x + 2 * y
  solve R k := some ((R.x k, R.y k), (R.x (k + 1), R.y (k + 1)))
  eps := 1 / 100000

/-- A closed path of a curve with given control points and two curves to choose. -/
def sampleElems : Elems ℚ :=
  [(smoothknot 0 0, some (.control (1, 1) (2, 1))), (smoothknot 3 0, some (tensioncurve 1 false none none)),
   (roughknot 0 5 1 none none none, some (tensioncurve 2 true (some (1 / 2)) none))]

example : path sampleEnv sampleElems = some [.moveto (0, 0), .curveto (1, 1) (2, 1) (3, 0), .curveto (3, 0) (0, 5) (0, 5),
    .curveto (0, 5) (0, 0) (0, 0), .closepath] := by decide +kernel

/-- An open path with a line that keeps angles. -/
def openElems : Elems ℚ :=
  [(beginknot 0 0 1 none, some (tensioncurve 1 false none none)), (smoothknot 3 0, some (.line true)),
   (roughknot 5 5 1 none none none, some (.control (5, 6) (6, 6))), (endknot 7 7 1 none, none)]

example : path sampleEnv openElems = some [.moveto (0, 0), .curveto (0, 0) (3, 0) (3, 0), .lineto (5, 5),
    .curveto (5, 6) (6, 6) (7, 7)] := by decide +kernel

/-- A triangle. -/
def triangle : Elems ℚ :=
  [(roughknot 0 0 1 none none none, some (.line false)), (roughknot 1 0 1 none none none, some (.line false)),
   (roughknot 0 1 1 none none none, some (.line false))]

/-- **C92, violated.** The line that closes a path is never drawn: of this triangle, only two sides are. -/
theorem closing_line_missing : path sampleEnv triangle = some [.moveto (0, 0), .lineto (1, 0), .lineto (0, 1)] ∧
    ∀ items, path sampleEnv triangle = some items → ¬Draws triangle items := by
  have h : path sampleEnv triangle = some [.moveto (0, 0), .lineto (1, 0), .lineto (0, 1)] := by decide +kernel
  refine ⟨h, fun items hi hd => ?_⟩
  rw [h, Option.some.injEq] at hi
  have := hd.length_eq
  rw [← hi] at this
  revert this
  decide +kernel

/-- A curve with given control points, and a line that keeps angles. -/
def arrow : Elems ℚ :=
  [(beginknot 0 0 1 none, some (.control (0, 1) (0, 2))), (roughknot 0 3 1 none none none, some (.line true)),
   (roughknot 10 3 1 none none none, some (.line false)), (endknot 12 0 1 none, none)]

/-- **C92, violated.** A line that keeps angles overwrites a control point given for the curve before it: its first
coordinate is replaced by the angle of the line (`10` with the parameters used here). -/
theorem control_overwritten : path sampleEnv arrow = some [.moveto (0, 0), .curveto (0, 1) (10, 2) (0, 3), .lineto (10, 3),
    .lineto (12, 0)] := by
  decide +kernel

/-- A line that keeps angles at the end of an open path. -/
def lastLine (keep : Bool) : Elems ℚ :=
  [(beginknot 0 0 1 none, some (tensioncurve 1 false none none)), (roughknot 3 0 1 none none none, some (.line keep)),
   (endknot 5 5 1 none, none)]

/-- **C92, violated.** A path whose last link is a line that keeps angles cannot be made: the end knot is taken for the
start of a further curve. -/
theorem last_line_keepangles : path sampleEnv (lastLine true) = none ∧ path sampleEnv (lastLine false) ≠ none := by
  decide +kernel

/-- A smooth knot between a curve and a line. -/
def smoothLine : Elems ℚ :=
  [(beginknot 0 0 1 none, some (tensioncurve 1 false none none)), (smoothknot 3 0, some (.line false)),
   (endknot 5 5 1 none, none)]

/-- The same with the knot the manual says it is changed to. -/
def roughLine : Elems ℚ :=
  [(beginknot 0 0 1 none, some (tensioncurve 1 false none none)), (roughknot 3 0 1 none none none, some (.line false)),
   (endknot 5 5 1 none, none)]

/-- **C92, violated.** A smooth knot before a line is documented to be changed to a rough knot; instead an exception is
raised. -/
theorem smooth_before_line : path sampleEnv smoothLine = none ∧ path sampleEnv roughLine =
    some [.moveto (0, 0), .curveto (0, 0) (3, 0) (3, 0), .lineto (5, 5)] := by
  decide +kernel

/-- Parameters that reveal the type of the start of the run: curl or open. -/
def startEnv : Env ℚ :=
  { sampleEnv with solve := fun R _ => match R.start with
    | .given v => some ((1, v), (0, 0))
    | .curl c => some ((2, c), (0, 0))
    | .cycle => some ((3, 0), (0, 0)) }

/-- A knot between a line and a curve. -/
def lineThen (k : Knot ℚ) : Elems ℚ :=
  [(beginknot 0 0 1 none, some (.line false)), (k, some (tensioncurve 1 false none none)), (endknot 5 5 1 none, none)]

/-- **C92, violated.** A smooth knot behind a line is documented to be changed to a rough knot with curl 1; instead the
curve starts as if the knot were the first one of a cycle. -/
theorem smooth_behind_line : path startEnv (lineThen (smoothknot 3 0)) =
      some [.moveto (0, 0), .lineto (3, 0), .curveto (3, 0) (0, 0) (5, 5)] ∧
    path startEnv (lineThen (roughknot 3 0 1 none none none)) =
      some [.moveto (0, 0), .lineto (3, 0), .curveto (2, 1) (0, 0) (5, 5)] := by
  decide +kernel

/-- A closed path with one line. -/
def halfMoon : Elems ℚ :=
  [(roughknot 0 0 1 none none none, some (.line false)), (roughknot 3 0 1 none none none, some (tensioncurve 1 false none none))]

/-- **C92, violated.** A closed path with a line is not closed: its first knot becomes two ends. -/
theorem line_not_closed : path sampleEnv halfMoon = some [.moveto (0, 0), .lineto (3, 0), .curveto (3, 0) (0, 0) (0, 0)] := by
  decide +kernel

end PyX.MetaPost
