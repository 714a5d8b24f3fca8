import Verif.Path.RelProps
import Mathlib.Data.List.Induction

/-!
# The same path in PostScript and PDF (C47)
-/

set_option linter.unusedSectionVars false

namespace PyX.Path

open Real PyX.NormPath

noncomputable section

/-- The line or curve drawn by an item. -/
def drawItem : Item ℝ → Draw
  | .line l => .line (l.x1, l.y1)
  | .curve c => .curve (c.x1, c.y1) (c.x2, c.y2) (c.x3, c.y3)

/-- The lines and curves, without the item of the first `moveto`. -/
def drawsOf (hidden : Bool) (is : List (Item ℝ)) : List Draw := (if hidden then is.drop 1 else is).map drawItem

/-- What a sub-path draws: the closing line is not drawn separately. -/
def figs (hidden : Bool) (s : Sub) : List Figure :=
  match s.items with
  | [] => []
  | i :: is =>
    if s.closed then [⟨i.begin_, drawsOf hidden (i :: is).dropLast, true⟩]
    else if (drawsOf hidden (i :: is)).isEmpty then [] else [⟨i.begin_, drawsOf hidden (i :: is), false⟩]

def allFigs (hidden : Bool) : List Sub → List Figure
  | [] => []
  | s :: ss => figs hidden s ++ allFigs false ss

/-- Closed sub-paths contain at least an item and the closing line. -/
def WF (s : Sub) : Prop := s.closed = true → 1 < s.items.length ∧ (s.items.getLast?.map isLine).getD false = true

theorem allFigs_append (hidden : Bool) (pre : List Sub) (s : Sub) :
    allFigs hidden (pre ++ [s]) = allFigs hidden pre ++ figs (hidden && pre.isEmpty) s := by
  induction pre generalizing hidden with
  | nil => simp [allFigs]
  | cons a as ih =>
    simp only [List.cons_append, allFigs, List.append_assoc]
    rw [ih false]
    simp

/-! ## PDF operators draw the figures -/

theorem foldl_pdfItem (is : List (Item ℝ)) (s : Pen) (h : s.fresh = false) :
    ∃ s', ((is.map pdfItem).foldl pdfStep (.pen s)) = .pen s' ∧ s'.done = s.done ∧ s'.start = s.start ∧ s'.draws = s.draws ++ is.map drawItem ∧ s'.fresh = false := by
  induction is generalizing s with
  | nil => exact ⟨s, rfl, rfl, rfl, by simp, h⟩
  | cons i is ih =>
    cases i with
    | line l =>
      obtain ⟨s', g1, g2, g3, g4, g5⟩ := ih (s.lineTo (l.x1, l.y1)) rfl
      exact ⟨s', g1, g2, g3, by rw [g4]; simp [Pen.lineTo, drawItem], g5⟩
    | curve c =>
      obtain ⟨s', g1, g2, g3, g4, g5⟩ := ih (s.curveTo (c.x1, c.y1) (c.x2, c.y2) (c.x3, c.y3)) rfl
      exact ⟨s', g1, g2, g3, by rw [g4]; simp [Pen.curveTo, drawItem], g5⟩

theorem begin_cons (i : Item ℝ) (is : List (Item ℝ)) (c : Bool) (k : Option (Line ℝ)) : Sub.begin_ ⟨i :: is, c, k⟩ = some i.begin_ := by
  cases k <;> rfl

theorem subPDF_spec (hidden : Bool) (s : Sub) (hw : WF s) (st : PenState) (hst : st ≠ .error) :
    ∃ ops, subPDF hidden s = .ok ops ∧ (ops.foldl pdfStep st).figures = st.figures ++ figs hidden s ∧ ops.foldl pdfStep st ≠ .error := by
  obtain ⟨items, closed, skipped⟩ := s
  cases items with
  | nil =>
    refine ⟨[], ?_, by simp [figs], hst⟩
    cases skipped <;> rfl
  | cons i is =>
    have hm : ∃ s, pdfStep st (.m i.begin_) = .pen s ∧ s.fresh = false ∧ s.draws = [] ∧ s.start = i.begin_ ∧ s.done = st.figures := by
      cases st with
      | empty => exact ⟨_, rfl, rfl, rfl, rfl, rfl⟩
      | pen s => exact ⟨_, rfl, rfl, rfl, rfl, rfl⟩
      | error => exact absurd rfl hst
    obtain ⟨s, hs, hf, hd, hb, hdone⟩ := hm
    have hmap : ∀ its : List (Item ℝ), ((if hidden then its.drop 1 else its).map drawItem) = drawsOf hidden its := fun _ => rfl
    cases closed with
    | true =>
      obtain ⟨w1, w2⟩ := hw rfl
      have hsh : shown ⟨i :: is, true, skipped⟩ = .ok (i :: is).dropLast := by
        simp only [shown, Bool.true_and] at w1 w2 ⊢
        rw [if_pos w2, if_pos w1]
      refine ⟨.m i.begin_ :: ((if hidden then (i :: is).dropLast.drop 1 else (i :: is).dropLast).map pdfItem) ++ [.h], ?_, ?_⟩
      · simp only [subPDF, begin_cons, hsh]
        rfl
      · rw [List.foldl_append, List.foldl_cons (l := List.map _ _), hs]
        obtain ⟨s', g1, g2, g3, g4, g5⟩ := foldl_pdfItem (if hidden then (i :: is).dropLast.drop 1 else (i :: is).dropLast) s hf
        rw [g1]
        simp only [List.foldl_cons, List.foldl_nil, pdfStep, PenState.need]
        refine ⟨?_, by simp⟩
        change s'.close.figures = _
        simp only [Pen.close, g5, Pen.figures, figs]
        simp only [Bool.false_eq_true, if_false, if_true, List.isEmpty_nil, List.append_nil]
        rw [g2, g3, g4, hd, hdone, hb, hmap, List.nil_append]
    | false =>
      have hsh : shown ⟨i :: is, false, skipped⟩ = .ok (i :: is) := by simp [shown]
      refine ⟨.m i.begin_ :: ((if hidden then (i :: is).drop 1 else (i :: is)).map pdfItem), ?_, ?_⟩
      · simp only [subPDF, begin_cons, hsh]
        simp
      · rw [List.foldl_cons, hs]
        obtain ⟨s', g1, g2, g3, g4, g5⟩ := foldl_pdfItem (if hidden then (i :: is).drop 1 else (i :: is)) s hf
        rw [g1]
        refine ⟨?_, by simp⟩
        rw [hmap, hd, List.nil_append] at g4
        change s'.figures = _
        simp only [Pen.figures, figs, Bool.false_eq_true, if_false]
        rw [g2, g3, g4, hdone, hb]

theorem subsPDF_spec (hidden : Bool) (ss : List Sub) (hw : ∀ s ∈ ss, WF s) (st : PenState) (hst : st ≠ .error) :
    ∃ ops, subsPDF hidden ss = .ok ops ∧ (ops.foldl pdfStep st).figures = st.figures ++ allFigs hidden ss ∧ ops.foldl pdfStep st ≠ .error := by
  induction ss generalizing hidden st with
  | nil => exact ⟨[], rfl, by simp [allFigs], hst⟩
  | cons s ss ih =>
    obtain ⟨o1, a1, a2, a3⟩ := subPDF_spec hidden s (hw s List.mem_cons_self) st hst
    obtain ⟨o2, b1, b2, b3⟩ := ih false (fun s hs => hw s (List.mem_cons_of_mem _ hs)) (o1.foldl pdfStep st) a3
    refine ⟨o1 ++ o2, by simp only [subsPDF, a1, b1], ?_, by rw [List.foldl_append]; exact b3⟩
    rw [List.foldl_append, b2, a2, allFigs, List.append_assoc]

/-! ## Sub-paths without epsilon -/

variable (roots : ℝ → ℝ → ℝ → ℝ → List ℝ) (n : ℕ)

theorem append_none (s : Sub) (i : Item ℝ) : s.append roots none (n + 1) i = (s.push i, none) := rfl

theorem extend_none (s : Sub) (is : List (Item ℝ)) : s.extend roots none (n + 1) is = (⟨s.items ++ is, s.closed, s.skipped⟩, none) := by
  induction is generalizing s with
  | nil => simp [Sub.extend, Sub.extendWith]
  | cons i is ih =>
    have := ih (s.push i)
    simp only [Sub.extend] at this ⊢
    simp only [Sub.extendWith, append_none, this]
    simp [Sub.push]

theorem close_none (s : Sub) (h1 : s.closed = false) (h2 : s.items ≠ []) (h3 : s.skipped = none) :
    ∃ l, s.close roots none (n + 1) = (⟨s.items ++ [.line l], true, none⟩, none) := by
  obtain ⟨items, closed, skipped⟩ := s
  cases items with
  | nil => exact absurd rfl h2
  | cons i is =>
    subst h1 h3
    obtain ⟨j, hj⟩ : ∃ j, (i :: is).getLast? = some j := ⟨_, List.getLast?_cons ..⟩
    simp only [Sub.close, List.head?_cons, hj, append_none, Sub.flush, Sub.push]
    exact ⟨_, rfl⟩

theorem make_none (is : List (Item ℝ)) : Sub.make roots none (n + 1) is false = (⟨is, false, none⟩, none) := by
  simp [Sub.make, extend_none, Sub.fresh]

theorem reversed_none (is : List (Item ℝ)) (k : Option (Line ℝ)) :
    Sub.reversed roots none (n + 1) ⟨is, false, k⟩ = (⟨is.reverse.map Item.reversed, false, none⟩, none) := by
  simp [Sub.reversed, make_none]

/-! ## The invariant -/

/-- Where a path is: `begin_`: after a moveto other than the first; `open_`: in a sub-path; `closed`: after closing. -/
inductive Mode
  | begin_
  | open_
  | closed

/-- Paths of which the PDF output is right: no closing of sub-paths without any items apart from the first one, no closing twice; after closing a
moveto or arc. -/
def good : Mode → List PItem → Prop
  | _, [] => True
  | m, .multilineto [] :: is => m ≠ .closed ∧ good m is
  | m, .multicurveto [] :: is => m ≠ .closed ∧ good m is
  | _, .moveto _ :: is => good .begin_ is
  | _, .rmoveto _ :: is => good .begin_ is
  | _, .arc _ _ _ _ _ :: is => good .open_ is
  | _, .arcn _ _ _ _ _ :: is => good .open_ is
  | m, .closepath :: is => m = .open_ ∧ good .closed is
  | _, .arct _ _ _ :: _ => False
  | m, _ :: is => m ≠ .closed ∧ good .open_ is

/-- The first item. -/
def goodPath : List PItem → Prop
  | [] => True
  | .moveto _ :: is => good .open_ is
  | .arc x y r a1 a2 :: is => good (if arctobezierpath x y r a1 a2 = [] then .begin_ else .open_) is
  | .arcn x y r a1 a2 :: is => good (if arcnCurves x y r a1 a2 = [] then .begin_ else .open_) is
  | _ => False

/-- Normpath, context and pen agree. -/
structure Inv (m : Mode) (np : NP) (c : Ctx) (s : Pen) : Prop where
  cur : s.cur = c.cur
  rest : ∃ pre last, np.subs = pre ++ [last] ∧ (∀ x ∈ pre, WF x) ∧ WF last ∧ last.skipped = none ∧
    match m with
    | .begin_ => last.items = [] ∧ last.closed = false ∧ s.done = allFigs np.hidden pre ∧ s.draws = [] ∧ s.start = s.cur ∧ s.fresh = false ∧
        (np.hidden && pre.isEmpty) = false
    | .open_ => (∃ i is, last.items = i :: is ∧ i.begin_ = s.start) ∧ last.closed = false ∧ s.done = allFigs np.hidden pre ∧
        s.draws = drawsOf (np.hidden && pre.isEmpty) last.items ∧ s.fresh = false
    | .closed => last.closed = true ∧ s.done = allFigs np.hidden (pre ++ [last]) ∧ s.draws = [] ∧ s.start = s.cur ∧ s.fresh = true

theorem figs_fresh (hidden : Bool) (k : Option (Line ℝ)) : figs hidden ⟨[], false, k⟩ = [] := rfl

/-- The figures drawn up to now. -/
theorem inv_figures (m : Mode) (np : NP) (c : Ctx) (s : Pen) (h : Inv m np c s) :
    (∀ x ∈ np.subs, WF x) ∧ s.figures = allFigs np.hidden np.subs := by
  obtain ⟨pre, last, h1, h2, h3, _, h4⟩ := h.rest
  refine ⟨?_, ?_⟩
  · intro x hx
    rw [h1, List.mem_append, List.mem_singleton] at hx
    rcases hx with hx | rfl
    · exact h2 x hx
    · exact h3
  · rw [h1]
    cases m with
    | begin_ =>
      obtain ⟨a1, a2, a3, a4, -⟩ := h4
      rw [allFigs_append, Pen.figures, a3, a4]
      simp [figs, a1]
    | open_ =>
      obtain ⟨⟨i, is, a1, a5⟩, a2, a3, a4, -⟩ := h4
      rw [allFigs_append, Pen.figures, a3, a4, ← a5]
      simp [figs, a1, a2]
    | closed =>
      obtain ⟨a1, a2, a3, -⟩ := h4
      rw [← a2, Pen.figures, a3]
      simp

theorem onLast_eq (np : NP) (pre : List Sub) (last : Sub) (h : np.subs = pre ++ [last]) (f : Sub → Out) (s' : Sub) (hf : f last = (s', none)) :
    onLast np f = .ok ⟨pre ++ [s'], np.hidden⟩ := by
  simp only [onLast, h, List.getLast?_append, List.getLast?_singleton, Option.some_or, hf, lift, Except.map, List.dropLast_concat]

/-- Adding drawn items to an open sub-path. -/
theorem inv_draw (m : Mode) (np : NP) (c c' : Ctx) (s s' : Pen) (h : Inv m np c s) (hm : m ≠ .closed) (f : Sub → Out) (i : Item ℝ) (is : List (Item ℝ))
    (hf : ∀ s, f s = (⟨s.items ++ i :: is, s.closed, s.skipped⟩, none)) (hb : i.begin_ = c.cur) (hs1 : s'.cur = c'.cur) (hs2 : s'.done = s.done)
    (hs3 : s'.start = s.start) (hs4 : s'.draws = s.draws ++ (i :: is).map drawItem) (hs5 : s'.fresh = false) :
    ∃ np', onLast np f = .ok np' ∧ Inv .open_ np' c' s' := by
  obtain ⟨pre, last, h1, h2, h3, h5, h4⟩ := h.rest
  refine ⟨_, onLast_eq np pre last h1 f _ (hf last), hs1, pre, _, rfl, h2, ?_, h5, ?_⟩
  · have hlc : last.closed = false := by
      cases m with
      | begin_ => exact h4.2.1
      | open_ => exact h4.2.1
      | closed => exact absurd rfl hm
    intro hc
    simp only [hlc] at hc
    cases hc
  · cases m with
    | begin_ =>
      obtain ⟨a1, a2, a3, a4, a5, a6, a7⟩ := h4
      refine ⟨⟨i, is, by simp [a1], by rw [hs3, a5, h.cur, hb]⟩, a2, by rw [hs2, a3], ?_, hs5⟩
      simp only
      rw [hs4, a4, a1, a7]
      rfl
    | open_ =>
      obtain ⟨⟨j, js, a1, a5⟩, a2, a3, a4, a6⟩ := h4
      refine ⟨⟨j, js ++ i :: is, by simp [a1], by rw [hs3, a5]⟩, a2, by rw [hs2, a3], ?_, hs5⟩
      simp only
      rw [hs4, a4, a1]
      unfold drawsOf
      cases (np.hidden && pre.isEmpty) <;> simp
    | closed => exact absurd rfl hm

/-- A new sub-path with items. -/
theorem inv_add (m : Mode) (np : NP) (c c' : Ctx) (s s' : Pen) (h : Inv m np c s) (i : Item ℝ) (is : List (Item ℝ))
    (hb : i.begin_ = s'.start) (hs1 : s'.cur = c'.cur) (hs2 : s'.done = s.figures)
    (hs4 : s'.draws = (i :: is).map drawItem) (hs5 : s'.fresh = false) :
    Inv .open_ ⟨np.subs ++ [⟨i :: is, false, none⟩], np.hidden⟩ c' s' := by
  obtain ⟨g1, g2⟩ := inv_figures m np c s h
  obtain ⟨pre, last, h1, -⟩ := h.rest
  refine ⟨hs1, np.subs, _, rfl, g1, ?_, rfl, ⟨i, is, rfl, hb⟩, rfl, by rw [hs2, g2], ?_, hs5⟩
  · intro hc; simp at hc
  · rw [hs4, h1]
    simp [drawsOf]

/-- A new empty sub-path. -/
theorem inv_move (m : Mode) (np : NP) (c c' : Ctx) (s : Pen) (p : Pt) (h : Inv m np c s) (hc : c'.cur = p) :
    ∃ np', addSub np (movetoSub roots none (n + 1) p) = .ok np' ∧ Inv .begin_ np' c' (s.moveTo p) := by
  obtain ⟨g1, g2⟩ := inv_figures m np c s h
  obtain ⟨pre, last, h1, -⟩ := h.rest
  refine ⟨⟨np.subs ++ [Sub.fresh], np.hidden⟩, rfl, hc.symm, np.subs, _, rfl, g1, ?_, rfl, rfl, rfl, ?_, rfl, rfl, rfl, ?_⟩
  · intro hc; simp [Sub.fresh] at hc
  · exact g2
  · rw [h1]; simp

theorem curves_spec (s : Pen) (cs : List (Curve ℝ)) :
    (s.curves cs).done = s.done ∧ (s.curves cs).draws = s.draws ++ (cs.map Item.curve).map drawItem := by
  unfold Pen.curves
  induction cs generalizing s with
  | nil => simp
  | cons c cs ih =>
    obtain ⟨h1, h2⟩ := ih (s.curveTo (c.x1, c.y1) (c.x2, c.y2) (c.x3, c.y3))
    rw [List.foldl_cons, h1, h2]
    refine ⟨rfl, ?_⟩
    simp [Pen.curveTo, drawItem]

theorem lines_spec (A : Arcs) (ps : List Pt) (cur : Pt) (s : Pen) :
    ∃ s', ((ps.map PsOp.lineto).foldl (psStep A) (.pen s)) = .pen s' ∧ s'.done = s.done ∧ s'.start = s.start ∧
      s'.draws = s.draws ++ (lineItems cur ps).map drawItem ∧ s'.cur = ps.getLast?.getD s.cur ∧ (ps ≠ [] → s'.fresh = false) := by
  induction ps generalizing s cur with
  | nil => exact ⟨s, rfl, rfl, rfl, by simp [lineItems], rfl, fun h => absurd rfl h⟩
  | cons p ps ih =>
    obtain ⟨s', h1, h2, h3, h4, h5, h6⟩ := ih p (s.lineTo p)
    refine ⟨s', h1, h2, h3, ?_, ?_, ?_⟩
    · rw [h4]; simp [lineItems, drawItem, lineItem, Pen.lineTo]
    · rw [h5]
      cases ps with
      | nil => rfl
      | cons q qs => rw [List.getLast?_cons_cons]; simp [List.getLast?_cons]
    · intro _
      cases ps with
      | nil => simp only [List.map_nil, List.foldl_nil, PenState.pen.injEq] at h1; rw [← h1]; rfl
      | cons q qs => exact h6 (by simp)

theorem curveItems_spec (A : Arcs) (ps : List (Pt × Pt × Pt)) (cur : Pt) (s : Pen) :
    ∃ s', ((ps.map fun q => PsOp.curveto q.1 q.2.1 q.2.2).foldl (psStep A) (.pen s)) = .pen s' ∧ s'.done = s.done ∧ s'.start = s.start ∧
      s'.draws = s.draws ++ (curveItems cur ps).map drawItem ∧ s'.cur = (ps.getLast?.map fun q => q.2.2).getD s.cur ∧ (ps ≠ [] → s'.fresh = false) := by
  induction ps generalizing s cur with
  | nil => exact ⟨s, rfl, rfl, rfl, by simp [curveItems], rfl, fun h => absurd rfl h⟩
  | cons p ps ih =>
    obtain ⟨s', h1, h2, h3, h4, h5, h6⟩ := ih p.2.2 (s.curveTo p.1 p.2.1 p.2.2)
    refine ⟨s', h1, h2, h3, ?_, ?_, ?_⟩
    · rw [h4]; simp [curveItems, drawItem, curveItem, Pen.curveTo]
    · rw [h5]
      cases ps with
      | nil => rfl
      | cons q qs => rw [List.getLast?_cons_cons]; simp [List.getLast?_cons]
    · intro _
      cases ps with
      | nil => simp only [List.map_nil, List.foldl_nil, PenState.pen.injEq] at h1; rw [← h1]; rfl
      | cons q qs => exact h6 (by simp)

/-- The interpreter draws arcs as the code does. -/
structure SameArcs (A : Arcs) : Prop where
  arc : A.arc = arctobezierpath
  arcn : A.arcn = arcnCurves

theorem lineItem_begin (p q : Pt) : (lineItem p q).begin_ = p := rfl

/-- An arc in a path. -/
theorem inv_arc (m : Mode) (np : NP) (c : Ctx) (s : Pen) (h : Inv m np c s) (p q : Pt) (cs : List (Curve ℝ)) :
    ∃ np1 np', arcStart roots none (n + 1) np c.cur p = .ok np1 ∧ onLast np1 (fun s => s.extend roots none (n + 1) (cs.map .curve)) = .ok np' ∧
      Inv .open_ np' ⟨q, c.first⟩ { (s.lineTo p).curves cs with cur := q } := by
  have h1 := h.rest
  obtain ⟨pre, last, h1, h2, h3, h5, h4⟩ := h1
  obtain ⟨k1, k2⟩ := curves_spec (s.lineTo p) cs
  have k3 := curves_start (s.lineTo p) cs
  have k4 := curves_fresh (s.lineTo p) cs rfl
  have hl : np.subs.getLast? = some last := by rw [h1]; simp
  by_cases hc : last.closed = true
  · have ha : arcStart roots none (n + 1) np c.cur p = .ok ⟨np.subs ++ [⟨[lineItem c.cur p], false, none⟩], np.hidden⟩ := by
      simp only [arcStart, hl, hc, if_true, make_none, addSub, lift, Except.map]
    have hm : m = .closed := by
      cases m with
      | begin_ => rw [h4.2.1] at hc; cases hc
      | open_ => rw [h4.2.1] at hc; cases hc
      | closed => rfl
    subst hm
    obtain ⟨b1, b2, b3, b4, b5⟩ := h4
    have hfig : s.figures = s.done := by simp [Pen.figures, b3]
    refine ⟨_, _, ha, onLast_eq _ np.subs _ rfl _ _ (extend_none roots n _ _), ?_⟩
    refine inv_add .closed np c ⟨q, c.first⟩ s _ h (lineItem c.cur p) (cs.map .curve) ?_ rfl ?_ ?_ k4
    · simp only
      rw [k3, lineItem_begin, ← h.cur]
      exact b4.symm
    · simp only
      rw [k1, hfig]; rfl
    · simp only
      rw [k2]
      simp [Pen.lineTo, b3, drawItem, lineItem]
  · have hm : m ≠ .closed := by
      rintro rfl
      exact hc h4.1
    have hc' : last.closed = false := by simpa using hc
    obtain ⟨np1, e1, e2⟩ := inv_draw m np c ⟨p, c.first⟩ s (s.lineTo p) h hm (fun s => s.append roots none (n + 1) (lineItem c.cur p)) (lineItem c.cur p) []
      (fun s => append_none roots n s _) (lineItem_begin _ _) rfl rfl rfl rfl rfl
    have ha : arcStart roots none (n + 1) np c.cur p = .ok np1 := by
      simp only [arcStart, hl, hc', Bool.false_eq_true, if_false]
      exact e1
    obtain ⟨pre1, last1, f1, f2, f3, f5, ⟨j, js, f6, f7⟩, f8, f9, f10, f11⟩ := e2.rest
    refine ⟨np1, _, ha, onLast_eq np1 pre1 last1 f1 _ _ (extend_none roots n _ _), rfl, pre1, _, rfl, f2, ?_, f5, ?_⟩
    · intro hx
      simp only [f8] at hx
      cases hx
    · refine ⟨⟨j, js ++ cs.map .curve, by simp [f6], by simp only; rw [f7, k3]⟩, f8, by simp only; rw [k1, f9], ?_, k4⟩
      simp only
      rw [k2, f10, f6]
      unfold drawsOf
      cases (np1.hidden && pre1.isEmpty) <;> simp

/-- The mode after a good item, as in `good`. -/
def nextMode (m : Mode) : PItem → Mode
  | .multilineto [] => m
  | .multicurveto [] => m
  | .moveto _ => .begin_
  | .rmoveto _ => .begin_
  | .closepath => .closed
  | _ => .open_

theorem good_next (m : Mode) (i : PItem) (is : List PItem) (h : good m (i :: is)) :
    good (nextMode m i) is ∧ isArct i = false ∧ (m = .closed → (∃ p, i = .moveto p) ∨ (∃ p, i = .rmoveto p) ∨ (∃ x y r a1 a2, i = .arc x y r a1 a2) ∨
      (∃ x y r a1 a2, i = .arcn x y r a1 a2)) ∧ (i = .closepath → m = .open_) := by
  cases i with
  | closepath => exact ⟨h.2, rfl, fun e => by subst e; exact absurd h.1 (by simp), fun _ => h.1⟩
  | moveto p => exact ⟨h, rfl, fun _ => Or.inl ⟨p, rfl⟩, fun e => by cases e⟩
  | rmoveto p => exact ⟨h, rfl, fun _ => Or.inr (Or.inl ⟨p, rfl⟩), fun e => by cases e⟩
  | arc x y r a1 a2 => exact ⟨h, rfl, fun _ => Or.inr (Or.inr (Or.inl ⟨x, y, r, a1, a2, rfl⟩)), fun e => by cases e⟩
  | arcn x y r a1 a2 => exact ⟨h, rfl, fun _ => Or.inr (Or.inr (Or.inr ⟨x, y, r, a1, a2, rfl⟩)), fun e => by cases e⟩
  | arct p1 p2 r => exact absurd h (by simp [good])
  | lineto p => exact ⟨h.2, rfl, fun e => absurd e h.1, fun e => by cases e⟩
  | curveto p1 p2 p3 => exact ⟨h.2, rfl, fun e => absurd e h.1, fun e => by cases e⟩
  | rlineto d => exact ⟨h.2, rfl, fun e => absurd e h.1, fun e => by cases e⟩
  | rcurveto d1 d2 d3 => exact ⟨h.2, rfl, fun e => absurd e h.1, fun e => by cases e⟩
  | multilineto ps => cases ps <;> exact ⟨h.2, rfl, fun e => absurd e h.1, fun e => by cases e⟩
  | multicurveto ps => cases ps <;> exact ⟨h.2, rfl, fun e => absurd e h.1, fun e => by cases e⟩

theorem inv_step (A : Arcs) (hA : SameArcs A) (m : Mode) (np : NP) (c : Ctx) (s : Pen) (h : Inv m np c s) (hfirst : s.start = c.first) (i : PItem)
    (is : List PItem) (hg : good m (i :: is)) :
    ∃ np' s', updatenormpath roots none (n + 1) np c i = .ok np' ∧ (itemPS i).foldl (psStep A) (.pen s) = .pen s' ∧
      Inv (nextMode m i) np' (advance c i) s' ∧ s'.start = (advance c i).first := by
  obtain ⟨-, ga, gc, gcl⟩ := good_next m i is hg
  have hcur := h.cur
  cases i with
  | arct p1 p2 r => cases ga
  | closepath =>
    have := gcl rfl
    subst this
    obtain ⟨pre, last, h1, h2, h3, h5, ⟨j, js, h6, h7⟩, h8, h9, h10, h11⟩ := h.rest
    obtain ⟨l, hl⟩ := close_none roots n last h8 (by rw [h6]; simp) h5
    refine ⟨_, _, onLast_eq np pre last h1 _ _ hl, rfl, ⟨?_, pre, _, rfl, h2, ?_, rfl, rfl, ?_, ?_, ?_, ?_⟩, ?_⟩
    · simp only [Pen.close, h11, advance]; exact hfirst
    · intro _
      simp only
      refine ⟨by rw [h6]; simp, ?_⟩
      simp [isLine]
    · rw [allFigs_append]
      simp only [Pen.close, h11, Bool.false_eq_true, if_false, h9]
      congr 1
      simp only [h6, List.cons_append, figs, if_true]
      rw [h7, ← List.cons_append, List.dropLast_concat, ← h6, ← h10]
    · simp [Pen.close, h11]
    · simp [Pen.close, h11]
    · simp [Pen.close, h11]
    · simp only [Pen.close, h11, advance]; exact hfirst
  | moveto p =>
    obtain ⟨np', e1, e2⟩ := inv_move roots n m np c ⟨p, p⟩ s p h rfl
    exact ⟨np', _, e1, rfl, e2, rfl⟩
  | rmoveto d =>
    obtain ⟨np', e1, e2⟩ := inv_move roots n m np c ⟨c.cur + d, c.cur + d⟩ s (c.cur + d) h rfl
    refine ⟨np', _, e1, rfl, ?_, ?_⟩
    · simp only; rw [hcur]; exact e2
    · simp only; rw [hcur]; rfl
  | lineto p =>
    have hm : m ≠ .closed := fun e => by rcases gc e with ⟨_, x⟩ | ⟨_, x⟩ | ⟨_, _, _, _, _, x⟩ | ⟨_, _, _, _, _, x⟩ <;> cases x
    obtain ⟨np', e1, e2⟩ := inv_draw m np c ⟨p, c.first⟩ s (s.lineTo p) h hm (fun s => s.append roots none (n + 1) (lineItem c.cur p)) (lineItem c.cur p) []
      (fun s => append_none roots n s _) rfl rfl rfl rfl rfl rfl
    exact ⟨np', _, e1, rfl, e2, hfirst⟩
  | curveto p1 p2 p3 =>
    have hm : m ≠ .closed := fun e => by rcases gc e with ⟨_, x⟩ | ⟨_, x⟩ | ⟨_, _, _, _, _, x⟩ | ⟨_, _, _, _, _, x⟩ <;> cases x
    obtain ⟨np', e1, e2⟩ := inv_draw m np c ⟨p3, c.first⟩ s (s.curveTo p1 p2 p3) h hm (fun s => s.append roots none (n + 1) (curveItem c.cur p1 p2 p3))
      (curveItem c.cur p1 p2 p3) [] (fun s => append_none roots n s _) rfl rfl rfl rfl rfl rfl
    exact ⟨np', _, e1, rfl, e2, hfirst⟩
  | rlineto d =>
    have hm : m ≠ .closed := fun e => by rcases gc e with ⟨_, x⟩ | ⟨_, x⟩ | ⟨_, _, _, _, _, x⟩ | ⟨_, _, _, _, _, x⟩ <;> cases x
    obtain ⟨np', e1, e2⟩ := inv_draw m np c ⟨c.cur + d, c.first⟩ s (s.lineTo (s.cur + d)) h hm
      (fun s => s.append roots none (n + 1) (lineItem c.cur (c.cur.1 + d.1, c.cur.2 + d.2))) (lineItem c.cur (c.cur.1 + d.1, c.cur.2 + d.2)) []
      (fun s => append_none roots n s _) rfl (by rw [hcur]; rfl) rfl rfl (by rw [hcur]; rfl) rfl
    exact ⟨np', _, e1, rfl, e2, hfirst⟩
  | rcurveto d1 d2 d3 =>
    have hm : m ≠ .closed := fun e => by rcases gc e with ⟨_, x⟩ | ⟨_, x⟩ | ⟨_, _, _, _, _, x⟩ | ⟨_, _, _, _, _, x⟩ <;> cases x
    obtain ⟨np', e1, e2⟩ := inv_draw m np c ⟨c.cur + d3, c.first⟩ s (s.curveTo (s.cur + d1) (s.cur + d2) (s.cur + d3)) h hm
      (fun s => s.append roots none (n + 1) (curveItem c.cur (c.cur.1 + d1.1, c.cur.2 + d1.2) (c.cur.1 + d2.1, c.cur.2 + d2.2) (c.cur.1 + d3.1, c.cur.2 + d3.2)))
      (curveItem c.cur (c.cur.1 + d1.1, c.cur.2 + d1.2) (c.cur.1 + d2.1, c.cur.2 + d2.2) (c.cur.1 + d3.1, c.cur.2 + d3.2)) []
      (fun s => append_none roots n s _) rfl (by rw [hcur]; rfl) rfl rfl (by rw [hcur]; rfl) rfl
    exact ⟨np', _, e1, rfl, e2, hfirst⟩
  | arc x y r a1 a2 =>
    obtain ⟨np1, np', e1, e2, e3⟩ := inv_arc roots n m np c s h (arcpoint x y r a1) (arcpoint x y r a2) (arctobezierpath x y r a1 a2)
    refine ⟨np', _, by simp only [updatenormpath, e1, e2], rfl, ?_, ?_⟩
    · rw [hA.arc]; exact e3
    · simp only; rw [curves_start]; exact hfirst
  | arcn x y r a1 a2 =>
    obtain ⟨np1, np', e1, e2, e3⟩ := inv_arc roots n m np c s h (arcpoint x y r a1) (arcpoint x y r a2) (arcnCurves x y r a1 a2)
    refine ⟨np', _, by simp only [updatenormpath, e1, e2], rfl, ?_, ?_⟩
    · rw [hA.arcn]; exact e3
    · simp only; rw [curves_start]; exact hfirst
  | multilineto ps =>
    have hm : m ≠ .closed := fun e => by rcases gc e with ⟨_, x⟩ | ⟨_, x⟩ | ⟨_, _, _, _, _, x⟩ | ⟨_, _, _, _, _, x⟩ <;> cases x
    cases ps with
    | nil =>
      obtain ⟨pre, last, h1, -⟩ := h.rest
      refine ⟨np, s, ?_, rfl, h, hfirst⟩
      simp only [updatenormpath, lineItems]
      rw [onLast_eq np pre last h1 _ last rfl, ← h1]
    | cons p ps =>
      obtain ⟨s', k1, k2, k3, k4, k5, k6⟩ := lines_spec A (p :: ps) c.cur s
      obtain ⟨np', e1, e2⟩ := inv_draw m np c (advance c (.multilineto (p :: ps))) s s' h hm (fun s => s.extend roots none (n + 1) (lineItems c.cur (p :: ps)))
        (lineItem c.cur p) (lineItems p ps) (fun s => extend_none roots n s _) rfl (by rw [k5, hcur]; rfl) k2 k3 k4 (k6 (by simp))
      exact ⟨np', s', e1, k1, e2, by rw [k3]; exact hfirst⟩
  | multicurveto ps =>
    have hm : m ≠ .closed := fun e => by rcases gc e with ⟨_, x⟩ | ⟨_, x⟩ | ⟨_, _, _, _, _, x⟩ | ⟨_, _, _, _, _, x⟩ <;> cases x
    cases ps with
    | nil =>
      obtain ⟨pre, last, h1, -⟩ := h.rest
      refine ⟨np, s, ?_, rfl, h, hfirst⟩
      simp only [updatenormpath, curveItems]
      rw [onLast_eq np pre last h1 _ last rfl, ← h1]
    | cons p ps =>
      obtain ⟨s', k1, k2, k3, k4, k5, k6⟩ := curveItems_spec A (p :: ps) c.cur s
      obtain ⟨np', e1, e2⟩ := inv_draw m np c (advance c (.multicurveto (p :: ps))) s s' h hm (fun s => s.extend roots none (n + 1) (curveItems c.cur (p :: ps)))
        (curveItem c.cur p.1 p.2.1 p.2.2) (curveItems p.2.2 ps) (fun s => extend_none roots n s _) rfl (by rw [k5, hcur]; rfl) k2 k3 k4 (k6 (by simp))
      exact ⟨np', s', e1, k1, e2, by rw [k3]; exact hfirst⟩

theorem inv_loop (A : Arcs) (hA : SameArcs A) (m : Mode) (np : NP) (c : Ctx) (s : Pen) (h : Inv m np c s) (hfirst : s.start = c.first)
    (is : List PItem) (hg : good m is) :
    ∃ np' m' c' s', normLoop roots none (n + 1) np c is = .ok np' ∧ (outputPS is).foldl (psStep A) (.pen s) = .pen s' ∧ Inv m' np' c' s' := by
  induction is generalizing m np c s with
  | nil => exact ⟨np, m, c, s, rfl, rfl, h⟩
  | cons i is ih =>
    obtain ⟨g1, ga, -⟩ := good_next m i is hg
    obtain ⟨np', s', e1, e2, e3, e4⟩ := inv_step roots n A hA m np c s h hfirst i is hg
    obtain ⟨np2, m2, c2, s2, d1, d2, d3⟩ := ih _ np' (advance c i) s' e3 e4 g1
    refine ⟨np2, m2, c2, s2, ?_, ?_, d3⟩
    · simp only [normLoop, expand_noarct c.cur i ga, updatenormpaths, e1]
      exact d1
    · simp only [outputPS, List.flatMap_cons, List.foldl_append]
      rw [e2]
      exact d2

/-! ## The first item -/

theorem arctobezierpath_nil (x y r a1 a2 : ℝ) (h : arctobezierpath x y r a1 a2 = []) : arcpoint x y r a1 = arcpoint x y r a2 := by
  by_contra hne
  have hr : r ≠ 0 := by rintro rfl; exact hne (by simp [arcpoint])
  have ha : a1 ≠ a2 := by rintro rfl; exact hne rfl
  have := (arctobezierpath_spec x y r a1 a2 hr ha).1
  rw [h] at this
  cases this

theorem arctobezierpath_head (x y r a1 a2 : ℝ) (c : Curve ℝ) (cs : List (Curve ℝ)) (h : arctobezierpath x y r a1 a2 = c :: cs) :
    c.begin_ = arcpoint x y r a1 := by
  have hr : r ≠ 0 := by rintro rfl; simp [arctobezierpath] at h
  have ha : a1 ≠ a2 := by
    rintro rfl
    have hpi := pi_pos
    simp [arctobezierpath, bezierEndAngle, show ¬ radians a1 + 2 * π < radians a1 by linarith] at h
  have := (arctobezierpath_spec x y r a1 a2 hr ha).1
  rw [h] at this
  simpa using this

theorem arcnCurves_head (x y r a1 a2 : ℝ) (c : Curve ℝ) (cs : List (Curve ℝ)) (h : arcnCurves x y r a1 a2 = c :: cs) :
    c.begin_ = arcpoint x y r a1 := by
  unfold arcnCurves at h
  cases hl : arctobezierpath x y r a2 a1 using List.reverseRecOn with
  | nil => rw [hl] at h; simp at h
  | append_singleton l d =>
    rw [hl] at h
    simp only [List.reverse_append, List.reverse_cons, List.reverse_nil, List.nil_append, List.singleton_append, List.map_cons, List.cons.injEq] at h
    have hr : r ≠ 0 := by rintro rfl; simp [arctobezierpath] at hl
    have ha : a2 ≠ a1 := by
      rintro rfl
      have hpi := pi_pos
      simp [arctobezierpath, bezierEndAngle, show ¬ radians a2 + 2 * π < radians a2 by linarith] at hl
    have := (arctobezierpath_spec x y r a2 a1 hr ha).2.1
    rw [hl] at this
    simp only [List.getLast?_append, List.getLast?_singleton, Option.some_or, Option.map_some, Option.some.injEq] at this
    rw [← h.1, ← this]
    rfl

theorem arcnCurves_nil (x y r a1 a2 : ℝ) (h : arcnCurves x y r a1 a2 = []) : arcpoint x y r a1 = arcpoint x y r a2 := by
  unfold arcnCurves at h
  simp only [List.map_eq_nil_iff, List.reverse_eq_nil_iff] at h
  exact (arctobezierpath_nil x y r a2 a1 h).symm

theorem inv_curves (p q : Pt) (cs : List (Curve ℝ)) (hq : cs = [] → p = q) (hp : ∀ c cs', cs = c :: cs' → c.begin_ = p) :
    Inv (if cs = [] then .begin_ else .open_) ⟨[⟨cs.map .curve, false, none⟩], false⟩ ⟨q, p⟩ { (Pen.mk [] p [] false p).curves cs with cur := q } := by
  refine ⟨rfl, [], _, rfl, by simp, (by intro h; cases h), rfl, ?_⟩
  obtain ⟨k1, k2⟩ := curves_spec (Pen.mk [] p [] false p) cs
  cases cs with
  | nil => exact ⟨rfl, rfl, rfl, rfl, hq rfl, rfl, rfl⟩
  | cons c cs =>
    rw [if_neg (by simp)]
    refine ⟨⟨.curve c, cs.map .curve, rfl, ?_⟩, rfl, by simp only; rw [k1]; rfl, ?_, curves_fresh _ _ rfl⟩
    · simp only
      rw [curves_start]
      exact hp c cs rfl
    · simp only
      rw [k2]
      rfl

theorem inv_first (A : Arcs) (hA : SameArcs A) (i : PItem) (is : List PItem) (hg : goodPath (i :: is)) :
    ∃ m np c s, createnormpath roots none (n + 1) i = .ok np ∧ createcontext i = .ok c ∧ (itemPS i).foldl (psStep A) .empty = .pen s ∧
      Inv m np c s ∧ s.start = c.first ∧ good m is := by
  cases i with
  | moveto p =>
    refine ⟨.open_, ⟨[⟨[.line ⟨p.1, p.2, p.1, p.2⟩], false, none⟩], true⟩, ⟨p, p⟩, ⟨[], p, [], false, p⟩, ?_, rfl, rfl, ⟨rfl, [], _, rfl, by simp, ?_, rfl, ⟨_, _, rfl, rfl⟩, rfl, rfl, rfl, rfl⟩,
      rfl, hg⟩
    · simp only [createnormpath, make_none, lift]
      rfl
    · intro h; cases h
  | arc x y r a1 a2 =>
    refine ⟨_, ⟨[⟨(arctobezierpath x y r a1 a2).map .curve, false, none⟩], false⟩, ⟨arcpoint x y r a2, arcpoint x y r a1⟩, _, ?_, rfl, rfl, ?_, ?_, hg⟩
    · simp only [createnormpath, make_none, lift]
      rfl
    · rw [hA.arc]
      exact inv_curves _ _ _ (arctobezierpath_nil x y r a1 a2) (arctobezierpath_head x y r a1 a2)
    · simp only
      rw [curves_start]
  | arcn x y r a1 a2 =>
    refine ⟨_, ⟨[⟨(arcnCurves x y r a1 a2).map .curve, false, none⟩], false⟩, ⟨arcpoint x y r a2, arcpoint x y r a1⟩, _, ?_, rfl, rfl, ?_, ?_, hg⟩
    · simp only [createnormpath, make_none, lift, reversed_none, Except.map, arcnCurves, List.map_map, ← List.map_reverse]
      rfl
    · rw [hA.arcn]
      exact inv_curves _ _ _ (arcnCurves_nil x y r a1 a2) (arcnCurves_head x y r a1 a2)
    · simp only
      rw [curves_start]
  | _ => exact absurd hg (by simp [goodPath])

/-- C47: for good paths (see `good`), the PDF operators draw exactly the figures of the PostScript operators, for an interpreter drawing arcs by the same Bezier
curves, and no PDF operator misses a current point.  Missing for the full claim: paths as in `pdf_line_after_close` and `pdf_close_raises`, for which it
is false, and tangent arcs. -/
theorem pdf_eq_ps_partial (A : Arcs) (hA : SameArcs A) (is : List PItem) (hg : goodPath is) :
    ∃ ops, outputPDF roots (n + 1) is = .ok ops ∧ (runPDF ops).figures = (runPS A (outputPS is)).figures ∧ runPDF ops ≠ .error ∧
      runPS A (outputPS is) ≠ .error := by
  cases is with
  | nil => exact ⟨[], rfl, rfl, by simp [runPDF], by simp [runPS, outputPS]⟩
  | cons i is =>
    obtain ⟨m, np, c, s, e1, e2, e3, e4, e5, e6⟩ := inv_first roots n A hA i is hg
    obtain ⟨np', m', c', s', d1, d2, d3⟩ := inv_loop roots n A hA m np c s e4 e5 is e6
    obtain ⟨f1, f2⟩ := inv_figures m' np' c' s' d3
    obtain ⟨ops, o1, o2, o3⟩ := subsPDF_spec np'.hidden np'.subs f1 .empty (by simp)
    have hps : runPS A (outputPS (i :: is)) = .pen s' := by
      simp only [runPS, outputPS, List.flatMap_cons, List.foldl_append]
      rw [e3]
      exact d2
    refine ⟨ops, ?_, ?_, o3, by rw [hps]; simp⟩
    · simp only [outputPDF, normpath, e1, e2, d1, o1]
    · rw [hps]
      simp only [runPDF, PenState.figures] at o2 ⊢
      rw [o2, f2]
      rfl

/-- A closed triangle, an arc begun by itself and a further sub-path with relative items. -/
example : goodPath [.moveto (0, 0), .lineto (1, 0), .lineto (1, 1), .closepath, .arc 0 0 1 0 90, .rlineto (1, 2), .closepath, .moveto (3, 3), .curveto (0, 1) (1, 1) (2, 2)] := by
  simp [goodPath, good]

/-- An interpreter as assumed. -/
example : SameArcs ⟨arctobezierpath, arcnCurves, fun _ p1 _ _ => (p1, [], p1)⟩ := ⟨rfl, rfl⟩

/-- C47 does not hold for a line after closing a sub-path: in PDF the line is missing (`normpath.py:876-877`, `normpath.py:1418-1420`). -/
theorem pdf_line_after_close (A : Arcs) :
    ∃ ops, outputPDF roots (n + 1) [.moveto (0, 0), .lineto (1, 0), .lineto (1, 1), .closepath, .lineto (2, 2)] = .ok ops ∧
      (runPDF ops).figures = [⟨(0, 0), [.line (1, 0), .line (1, 1), .line (0, 0)], true⟩] ∧
      (runPS A (outputPS [.moveto (0, 0), .lineto (1, 0), .lineto (1, 1), .closepath, .lineto (2, 2)])).figures =
        [⟨(0, 0), [.line (1, 0), .line (1, 1)], true⟩, ⟨(0, 0), [.line (2, 2)], false⟩] := by
  refine ⟨[.m (0, 0), .l (1, 0), .l (1, 1), .l (0, 0), .h], rfl, ?_, ?_⟩
  · simp [runPDF, pdfStep, PenState.moveTo, PenState.need, PenState.figures, Pen.figures, Pen.close, Pen.lineTo]
  · simp [runPS, outputPS, itemPS, psStep, PenState.moveTo, PenState.need, PenState.figures, Pen.figures, Pen.close, Pen.lineTo, PenState.close]

/-- C47: closing after a moveto other than the first, or closing twice, raises an exception when writing PDF but not for PostScript. -/
theorem pdf_close_raises (A : Arcs) :
    outputPDF roots (n + 1) [.moveto (0, 0), .lineto (1, 0), .moveto (2, 2), .closepath] = .error (.norm .closeEmpty) ∧
    outputPDF roots (n + 1) [.moveto (0, 0), .lineto (1, 0), .closepath, .closepath] = .error (.norm .closeClosed) ∧
    (runPS A (outputPS [.moveto (0, 0), .lineto (1, 0), .moveto (2, 2), .closepath])).figures =
      [⟨(0, 0), [.line (1, 0)], false⟩, ⟨(2, 2), [], true⟩] ∧
    (runPS A (outputPS [.moveto (0, 0), .lineto (1, 0), .closepath, .closepath])).figures = [⟨(0, 0), [.line (1, 0)], true⟩] := by
  refine ⟨rfl, rfl, ?_, ?_⟩
  · simp [runPS, outputPS, itemPS, psStep, PenState.moveTo, PenState.need, PenState.figures, Pen.figures, Pen.close, Pen.lineTo, PenState.close, Pen.moveTo]
  · simp [runPS, outputPS, itemPS, psStep, PenState.moveTo, PenState.need, PenState.figures, Pen.figures, Pen.close, Pen.lineTo, PenState.close]

end

end PyX.Path
