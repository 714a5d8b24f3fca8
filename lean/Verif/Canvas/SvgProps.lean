import Verif.Canvas.Svg
import Verif.Canvas.PdfProps

/-!
# C120: the SVG file of a canvas tree shows the picture of the tree
-/

set_option linter.unusedSectionVars false

namespace PyX.Canvas

variable {K P F : Type} [Field K] [LinearOrder K] [PathLike K P] [DecidableEq F]

/-! ## Conditions on trees -/

/-- Not an opacity of zero. -/
def Style.visible : Style K → Prop
  | .opacity v => v ≠ 0
  | _ => True

/-- An opacity. -/
def Style.isOpacity : Style K → Bool
  | .opacity _ => true
  | _ => false

/-- A style which is written to the attributes only. -/
def Style.ctxFree : Style K → Bool
  | .linewidth _ | .color _ | .pattern _ | .opacity _ => false
  | _ => true

mutual
/-- Conditions for SVG.  Of decorated paths: the types of styles as checked by `deco.filled` and
`deco.stroked`; no path which is both filled and stroked where a part of the stroke is left out; no own
opacities of fillings and strokes of one path; no colours, opacities and line widths for stroke or filling
only if there are ornaments.  No opacity zero. -/
def SvgOK : Item K P F → Prop
  | .text _ _ _ => True
  | .field _ => True
  | .dp _ sp sty fs ss orn =>
    (∀ t ∈ sty, t.visible) ∧ (∀ f, fs = some f → ∀ t ∈ f, t.isFill = true) ∧
    (∀ l, ss = some l → ∀ t ∈ l, t.isRule = false) ∧ (sp.isSome = true → fs = none ∨ ss = none) ∧
    (∀ f l, fs = some f → ss = some l → (∀ t ∈ f, t.isOpacity = false) ∧ ∀ t ∈ l, t.isOpacity = false) ∧
    (orn.isEmpty = false → (∀ t ∈ fs.getD [], t.ctxFree = true) ∧ ∀ t ∈ ss.getD [], t.ctxFree = true) ∧ SvgOKs orn
  | .cv attrs items => (∀ t ∈ stylesOf attrs, t.visible) ∧ SvgOKs items
def SvgOKs : Items K P F → Prop
  | .nil => True
  | .cons i l => SvgOK i ∧ SvgOKs l
end

/-! ## Coordinates -/

theorem flip_flip : (flipT : Trafo K).mul flipT = Trafo.one := by
  ext <;> simp [flipT, Trafo.mul, Trafo.one]

theorem svgAttr_eq (t : Trafo K) : t.svgAttr = (flipT : Trafo K).mul (t.mul flipT) := by
  ext <;> simp [flipT, Trafo.mul, Trafo.svgAttr]

theorem svgMark_place (t : Trafo K) (cl : List P) (k : Mark K P F) :
    svgMark (place t cl k) = place t.svgAttr (cl.map svgData) (svgMark k) := by
  have h1 : (flipT : Trafo K).mul ((t.mul k.T).mul flipT) = t.svgAttr.mul ((flipT : Trafo K).mul (k.T.mul flipT)) := by
    ext <;> simp [flipT, Trafo.mul, Trafo.svgAttr] <;> ring
  have h2 : (flipT : Trafo K).mul t = t.svgAttr.mul flipT := by
    ext <;> simp [flipT, Trafo.mul, Trafo.svgAttr]
  have h3 : ∀ p : P, PathLike.transformed (PathLike.transformed p t) flipT =
      PathLike.transformed (PathLike.transformed p flipT) t.svgAttr := fun p => by
    rw [PathLike.transformed_mul, h2, ← PathLike.transformed_mul]
  simp [svgMark, place, h1, Function.comp_def, h3, svgData]

namespace SVG

/-! ## Runs -/

theorem run_append (a b : List (STok K P F)) (s : St K P F) : run (a ++ b) s = (run a s).bind (run b) := by
  induction a generalizing s with
  | nil => rfl
  | cons t a ih =>
    rw [List.cons_append, run, run]
    cases step s t with
    | none => rfl
    | some s' => simp only [Option.bind_some]; exact ih s'

theorem run_seq {a b : List (STok K P F)} {s s' : St K P F} {r : Option (St K P F)} (ha : run a s = some s')
    (hb : run b s' = r) : run (a ++ b) s = r := by
  rw [run_append, ha, Option.bind_some, hb]

/-- The stream makes the marks `ms` and leaves everything else. -/
def Draws (toks : List (STok K P F)) (g : GS K P) (ms : List (Mark K P F)) : Prop :=
  ∀ st o, run toks ⟨g, st, o⟩ = some ⟨g, st, o ++ ms.map fun k => place g.ctm g.clips (svgMark k)⟩

theorem Draws.nil (g : GS K P) : Draws ([] : List (STok K P F)) g [] := fun st o => by simp [run]

theorem Draws.append {a b : List (STok K P F)} {g : GS K P} {ma mb : List (Mark K P F)} (ha : Draws a g ma)
    (hb : Draws b g mb) : Draws (a ++ b) g (ma ++ mb) := fun st o => by
  refine run_seq (ha st o) ((hb st _).trans ?_)
  simp

/-- A group without clip and transformation. -/
theorem Draws.group {inner : List (STok K P F)} {g : GS K P} {ms : List (Mark K P F)} {a : At K P}
    (hc : a.clip = none) (ht : a.transform = none) (h : Draws inner (enter g a) ms) :
    Draws ([.g a] ++ inner ++ [.endg]) g ms := fun st o => by
  have h0 : run [STok.g a] (⟨g, st, o⟩ : St K P F) = some ⟨enter g a, g :: st, o⟩ := rfl
  rw [List.append_assoc]
  refine run_seq h0 (run_seq (h (g :: st) o) ?_)
  have e1 : (enter g a).ctm = g.ctm := by simp [enter, ht, mul_one]
  have e2 : (enter g a).clips = g.clips := by simp [enter, hc]
  simp only [run, step, Option.bind_some, e1, e2]

theorem enter_empty (g : GS K P) (a : At K P) (h : a.isEmpty = true) : enter g a = g := by
  simp only [At.isEmpty, Bool.and_eq_true, Option.isNone_iff_eq_none, List.isEmpty_iff] at h
  obtain ⟨⟨⟨⟨⟨⟨⟨⟨⟨h1, h2⟩, h3⟩, h4⟩, h5⟩, h6⟩, h7⟩, h8⟩, h9⟩, h10⟩ := h
  simp [enter, h1, h2, h3, h4, h5, h6, h7, h8, h9, h10, mul_one]

theorem Draws.wrap {inner : List (STok K P F)} {g : GS K P} {ms : List (Mark K P F)} {a : At K P}
    (hc : a.clip = none) (ht : a.transform = none) (h : Draws inner (enter g a) ms) : Draws (svgWrap a inner) g ms := by
  unfold svgWrap
  split
  · rename_i he
    rw [enter_empty g a he] at h
    exact h
  · exact Draws.group hc ht h

/-! ## Styles -/

/-- The context and the properties in force are those of the style. -/
structure Sync (c : SCtx K) (y : Sty K) (g : GS K P) : Prop where
  clw : c.lw = y.lw
  lw : g.lw = y.lw
  dash : dashOf g.dasharray g.dashoffset = dashOf y.dash.1 y.dash.2
  param : g.param = y.param
  rule : g.rule = y.rule
  scol : c.strokeattr = true → c.strokecolor = y.scol
  fcol : c.fillattr = true → c.fillcolor = y.fcol
  sop : c.strokeattr = true → c.strokeopacity = y.sop
  fop : c.fillattr = true → c.fillopacity = y.fop

theorem svgDash_sync (w0 : K) (c : SCtx K) (y : Sty K) (g : GS K P) (a : At K P) (l : List K) (o : K) (rel : Bool)
    (h : c.lw = y.lw) :
    dashOf (enter g (svgDash w0 c.lw a l o rel)).dasharray (enter g (svgDash w0 c.lw a l o rel)).dashoffset =
      dashOf (if rel then l.map (fun e => e * y.lw / w0) else l) o := by
  have e : dashNumbers w0 c.lw l rel = if rel then l.map (fun e => e * y.lw / w0) else l := by
    rw [dashNumbers, h]
  unfold svgDash
  split
  · rename_i hn
    rw [e, List.isEmpty_iff] at hn
    simp [enter, dashOf, hn]
  · simp [enter, e]

theorem svgDash_other (w0 lw : K) (a : At K P) (l : List K) (o : K) (rel : Bool) :
    (svgDash w0 lw a l o rel).strokeWidth = a.strokeWidth ∧ (svgDash w0 lw a l o rel).params = a.params ∧
    (svgDash w0 lw a l o rel).fillRule = a.fillRule ∧ (svgDash w0 lw a l o rel).stroke = a.stroke ∧
    (svgDash w0 lw a l o rel).fill = a.fill ∧ (svgDash w0 lw a l o rel).opacity = a.opacity ∧
    (svgDash w0 lw a l o rel).clip = a.clip ∧ (svgDash w0 lw a l o rel).transform = a.transform := by
  unfold svgDash
  split <;> simp

theorem sync_style (w0 : K) {c : SCtx K} {y : Sty K} {g : GS K P} {a : At K P} (h : Sync c y (enter g a)) (s : Style K) :
    Sync (svgCtx1 c s) (y.apply w0 true s) (enter g (svgStyle w0 c a s)) := by
  obtain ⟨h1, h2, h3, h4, h5, h6, h7, h8, h9⟩ := h
  cases s with
  | linewidth w => exact ⟨rfl, rfl, h3, h4, h5, h6, h7, h8, h9⟩
  | dash l o rel =>
    have e := svgDash_other w0 c.lw a l o rel
    refine ⟨h1, ?_, svgDash_sync w0 c y g a l o rel h1, ?_, ?_, h6, h7, h8, h9⟩
    · rw [← show _ = (y.apply w0 true (.dash l o rel)).lw from h2]
      simp only [svgStyle, enter, e.1]
    · rw [← show _ = (y.apply w0 true (.dash l o rel)).param from h4]
      simp only [svgStyle, enter, e.2.1]
    · rw [← show _ = (y.apply w0 true (.dash l o rel)).rule from h5]
      simp only [svgStyle, enter, e.2.2.1]
  | linestyle cap l o rel =>
    have e := svgDash_other w0 c.lw { a with params := a.params ++ [(0, cap)] } l o rel
    refine ⟨h1, ?_, svgDash_sync w0 c y g _ l o rel h1, ?_, ?_, h6, h7, h8, h9⟩
    · rw [← show _ = (y.apply w0 true (.linestyle cap l o rel)).lw from h2]
      simp only [svgStyle, enter, e.1]
    · show _ = Function.update y.param 0 cap
      rw [← h4]
      simp only [svgStyle, enter, e.2.1, List.foldl_append, List.foldl_cons, List.foldl_nil]
    · rw [← show _ = (y.apply w0 true (.linestyle cap l o rel)).rule from h5]
      simp only [svgStyle, enter, e.2.2.1]
  | param k v =>
    refine ⟨h1, h2, h3, ?_, h5, h6, h7, h8, h9⟩
    show _ = Function.update y.param k v
    rw [← h4]
    simp only [svgStyle, enter, List.foldl_append, List.foldl_cons, List.foldl_nil]
  | color n =>
    refine ⟨h1, h2, h3, h4, h5, ?_, ?_, h8, h9⟩
    · intro e
      have e : c.strokeattr = true := e
      simp [svgCtx1, svgColor, Sty.apply, e]
    · intro e
      have e : c.fillattr = true := e
      simp [svgCtx1, svgColor, Sty.apply, e]
  | pattern n =>
    refine ⟨h1, h2, h3, h4, h5, ?_, ?_, h8, h9⟩
    · intro e
      have e : c.strokeattr = true := e
      simp [svgCtx1, svgColor, Sty.apply, e]
    · intro e
      have e : c.fillattr = true := e
      simp [svgCtx1, svgColor, Sty.apply, e]
  | fillrule b => exact ⟨h1, h2, h3, h4, rfl, h6, h7, h8, h9⟩
  | opacity v =>
    refine ⟨h1, h2, h3, h4, h5, h6, h7, ?_, ?_⟩
    · intro e
      have e : c.strokeattr = true := e
      simp [svgCtx1, svgOpacity, Sty.apply, e]
    · intro e
      have e : c.fillattr = true := e
      simp [svgCtx1, svgOpacity, Sty.apply, e]

theorem sync_styles (w0 : K) {c : SCtx K} {y : Sty K} {g : GS K P} {a : At K P} (h : Sync c y (enter g a))
    (l : List (Style K)) : Sync (svgCtx c l) (y.applyAll w0 true l) (enter g (svgStyles w0 c a l)) := by
  induction l generalizing c y a with
  | nil => exact h
  | cons s l ih => exact ih (sync_style w0 h s)

/-- Styles do not touch colours, opacity, clip and transformation of an element. -/
theorem svgStyles_other (w0 : K) (c : SCtx K) (a : At K P) (l : List (Style K)) :
    (svgStyles w0 c a l).stroke = a.stroke ∧ (svgStyles w0 c a l).fill = a.fill ∧
    (svgStyles w0 c a l).opacity = a.opacity ∧ (svgStyles w0 c a l).clip = a.clip ∧
    (svgStyles w0 c a l).transform = a.transform := by
  induction l generalizing c a with
  | nil => exact ⟨rfl, rfl, rfl, rfl, rfl⟩
  | cons s l ih =>
    obtain ⟨h1, h2, h3, h4, h5⟩ := ih (svgCtx1 c s) (svgStyle w0 c a s)
    rw [svgStyles, h1, h2, h3, h4, h5]
    cases s with
    | dash l o rel =>
      have e := svgDash_other w0 c.lw a l o rel
      exact ⟨e.2.2.2.1, e.2.2.2.2.1, e.2.2.2.2.2.1, e.2.2.2.2.2.2.1, e.2.2.2.2.2.2.2⟩
    | linestyle cap l o rel =>
      have e := svgDash_other w0 c.lw { a with params := a.params ++ [(0, cap)] } l o rel
      exact ⟨e.2.2.2.1, e.2.2.2.2.1, e.2.2.2.2.2.1, e.2.2.2.2.2.2.1, e.2.2.2.2.2.2.2⟩
    | _ => exact ⟨rfl, rfl, rfl, rfl, rfl⟩

/-- The flags are kept, and what they exclude. -/
theorem svgCtx_flags (c : SCtx K) (l : List (Style K)) : (svgCtx c l).strokeattr = c.strokeattr ∧
    (svgCtx c l).fillattr = c.fillattr ∧
    (c.strokeattr = false → (svgCtx c l).strokecolor = c.strokecolor ∧ (svgCtx c l).strokeopacity = c.strokeopacity) ∧
    (c.fillattr = false → (svgCtx c l).fillcolor = c.fillcolor ∧ (svgCtx c l).fillopacity = c.fillopacity) := by
  induction l generalizing c with
  | nil => exact ⟨rfl, rfl, fun _ => ⟨rfl, rfl⟩, fun _ => ⟨rfl, rfl⟩⟩
  | cons s l ih =>
    obtain ⟨h1, h2, h3, h4⟩ := ih (svgCtx1 c s)
    rw [svgCtx, h1, h2]
    have e1 : (svgCtx1 c s).strokeattr = c.strokeattr := by cases s <;> rfl
    have e2 : (svgCtx1 c s).fillattr = c.fillattr := by cases s <;> rfl
    refine ⟨e1, e2, fun h => ?_, fun h => ?_⟩
    · obtain ⟨h5, h6⟩ := h3 (e1.trans h)
      rw [h5, h6]
      cases s <;> simp [svgCtx1, svgColor, svgOpacity, h]
    · obtain ⟨h5, h6⟩ := h4 (e2.trans h)
      rw [h5, h6]
      cases s <;> simp [svgCtx1, svgColor, svgOpacity, h]

theorem svgCtx_free (c : SCtx K) (l : List (Style K)) (h : ∀ t ∈ l, t.ctxFree = true) : svgCtx c l = c := by
  induction l generalizing c with
  | nil => rfl
  | cons s l ih =>
    have hs := h s (by simp)
    have e : svgCtx1 c s = c := by cases s <;> first | rfl | simp [Style.ctxFree] at hs
    rw [svgCtx, e, ih _ fun t ht => h t (List.mem_cons_of_mem _ ht)]

theorem op_same (w0 : K) (y : Sty K) (l : List (Style K)) (h : ∀ t ∈ l, t.isOpacity = false) :
    (y.applyAll w0 true l).sop = y.sop ∧ (y.applyAll w0 true l).fop = y.fop := by
  induction l generalizing y with
  | nil => exact ⟨rfl, rfl⟩
  | cons s l ih =>
    have hs := h s (by simp)
    have e := ih (y.apply w0 true s) fun t ht => h t (List.mem_cons_of_mem _ ht)
    have e' : (y.apply w0 true s).sop = y.sop ∧ (y.apply w0 true s).fop = y.fop := by
      cases s <;> first | exact ⟨rfl, rfl⟩ | simp [Style.isOpacity] at hs
    exact ⟨e.1.trans e'.1, e.2.trans e'.2⟩

theorem op_eq (w0 : K) (y : Sty K) (l : List (Style K)) (h : y.sop = y.fop) :
    (y.applyAll w0 true l).sop = (y.applyAll w0 true l).fop := by
  induction l generalizing y with
  | nil => exact h
  | cons s l ih =>
    refine ih (y.apply w0 true s) ?_
    cases s <;> first | exact h | rfl

theorem op_visible (w0 : K) (y : Sty K) (l : List (Style K)) (h : y.fop ≠ 0) (hl : ∀ t ∈ l, t.visible) :
    (y.applyAll w0 true l).fop ≠ 0 := by
  induction l generalizing y with
  | nil => exact h
  | cons s l ih =>
    refine ih (y.apply w0 true s) ?_ fun t ht => hl t (List.mem_cons_of_mem _ ht)
    have hs := hl s (by simp)
    cases s <;> first | exact h | exact hs

/-! ## Paths -/

theorem setOpacity_op (g : GS K P) (v : K) (a : At K P) (hg : g.op = 1) (ha : a.opacity = none) :
    (enter g (setOpacity v a)).op = v := by
  unfold setOpacity
  split
  · rename_i h; simp [enter, hg, ha, h]
  · simp [enter, hg]

theorem setOpacity_other (g : GS K P) (v : K) (a : At K P) :
    enter g (setOpacity v a) = { enter g a with op := (enter g (setOpacity v a)).op } := by
  unfold setOpacity
  split <;> rfl

theorem place_fill (g : GS K P) (y : Sty K) (p : P) :
    place g.ctm g.clips (svgMark (fillMark y p : Mark K P F)) = ⟨.fill y.rule y.fcol y.fop, svgData p, g.ctm, g.clips⟩ := by
  simp [place, svgMark, fillMark, Ink.norm, one_mul, flip_flip, mul_one, svgData]

theorem place_stroke (g : GS K P) (y : Sty K) (p : P) :
    place g.ctm g.clips (svgMark (strokeMark y p : Mark K P F)) =
      ⟨.stroke y.scol y.sop y.lw (dashOf y.dash.1 y.dash.2) y.param, svgData p, g.ctm, g.clips⟩ := by
  simp [place, svgMark, strokeMark, Ink.norm, one_mul, flip_flip, mul_one, svgData]

/-- The outer state: nothing is painted by default. -/
structure Plain (g : GS K P) : Prop where
  stroke : g.stroke = .no
  fill : g.fill = .no
  op : g.op = 1

theorem plain_styles (w0 : K) {g : GS K P} (h : Plain g) (c : SCtx K) (l : List (Style K)) :
    Plain (enter g (svgStyles w0 c ({} : At K P) l)) := by
  obtain ⟨e1, e2, e3, -, -⟩ := svgStyles_other w0 c ({} : At K P) l
  exact ⟨by simp [enter, e1, h.stroke], by simp [enter, e2, h.fill], by simp [enter, e3, h.op]⟩

theorem enter_none (g : GS K P) : enter g {} = g := by
  simp [enter, mul_one]

theorem sync_weaken {c : SCtx K} {y : Sty K} {g : GS K P} (h : Sync c y g) (sa fa : Bool)
    (hs : sa = true → c.strokeattr = true) (hf : fa = true → c.fillattr = true) :
    Sync { c with strokeattr := sa, fillattr := fa } y g :=
  ⟨h.clw, h.lw, h.dash, h.param, h.rule, fun e => h.scol (hs e), fun e => h.fcol (hf e),
    fun e => h.sop (hs e), fun e => h.fop (hf e)⟩

/-- Context flags. -/
structure Both (c : SCtx K) : Prop where
  sa : c.strokeattr = true
  fa : c.fillattr = true

theorem both_svgCtx {c : SCtx K} (h : Both c) (l : List (Style K)) : Both (svgCtx c l) :=
  ⟨(svgCtx_flags c l).1.trans h.sa, (svgCtx_flags c l).2.1.trans h.fa⟩

theorem stroke_draws (w0 : K) {c : SCtx K} {y : Sty K} {g : GS K P} (h : Sync c y g) (hb : Both c) (hp : Plain g) (p : P)
    (l : List (Style K)) : Draws (svgStroke w0 c p l : List (STok K P F)) g [strokeMark (y.applyAll w0 true l) p] := by
  intro st o
  have h' := sync_weaken h true false (fun _ => hb.sa) (by simp)
  have hc : ({ c with strokeattr := true, fillattr := false } : SCtx K) = { c with fillattr := false } := by rw [← hb.sa]
  rw [hc, ← enter_none g] at h'
  have hs := sync_styles w0 h' l
  have hfl := svgCtx_flags { c with fillattr := false } l
  have hq := plain_styles w0 hp { c with fillattr := false } l
  obtain ⟨e1, e2, e3, e4, e5⟩ := svgStyles_other w0 { c with fillattr := false } ({} : At K P) l
  have hsa : (svgCtx { c with fillattr := false } l).strokeattr = true := hfl.1.trans hb.sa
  simp only [svgStroke, run, step, Option.bind_some, List.map_cons, List.map_nil, place_stroke, Option.some.injEq,
    St.mk.injEq, true_and, List.append_cancel_left_eq]
  rw [setOpacity_other, setOpacity_op g _ _ hp.op (by simpa using e3)]
  have hso : (svgStrokeCtx c l).strokeopacity = (y.applyAll w0 true l).sop := hs.sop hsa
  have hsc : (svgStrokeCtx c l).strokecolor = (y.applyAll w0 true l).scol := hs.scol hsa
  have d1 := hs.lw
  have d2 := hs.dash
  have d3 := hs.param
  have d4 := hq.fill
  simp only [enter] at d1 d2 d3 d4
  simp [paint, enter, d1, d2, d3, d4, hso, hsc, e4, e5, mul_one]

theorem fill_draws (w0 : K) {c : SCtx K} {y : Sty K} {g : GS K P} (h : Sync c y g) (hb : Both c) (hp : Plain g) (p : P)
    (l : List (Style K)) : Draws (svgFill w0 c p l : List (STok K P F)) g [fillMark (y.applyAll w0 true l) p] := by
  intro st o
  have h' := sync_weaken h false true (by simp) (fun _ => hb.fa)
  have hc : ({ c with strokeattr := false, fillattr := true } : SCtx K) = { c with strokeattr := false } := by rw [← hb.fa]
  rw [hc, ← enter_none g] at h'
  have hs := sync_styles w0 h' l
  have hfl := svgCtx_flags { c with strokeattr := false } l
  have hq := plain_styles w0 hp { c with strokeattr := false } l
  obtain ⟨e1, e2, e3, e4, e5⟩ := svgStyles_other w0 { c with strokeattr := false } ({} : At K P) l
  have hfa : (svgCtx { c with strokeattr := false } l).fillattr = true := hfl.2.1.trans hb.fa
  simp only [svgFill, run, step, Option.bind_some, List.map_cons, List.map_nil, place_fill, Option.some.injEq,
    St.mk.injEq, true_and, List.append_cancel_left_eq]
  rw [setOpacity_other, setOpacity_op g _ _ hp.op (by simpa using e3)]
  have hso : (svgFillCtx c l).fillopacity = (y.applyAll w0 true l).fop := hs.fop hfa
  have hsc : (svgFillCtx c l).fillcolor = (y.applyAll w0 true l).fcol := hs.fcol hfa
  have d1 := hs.rule
  have d4 := hq.stroke
  simp only [enter] at d1 d4
  simp [paint, enter, d1, d4, hso, hsc, e4, e5, mul_one]

/-- Styles of fillings set the fill rule at most. -/
theorem fillStyles_at (w0 : K) (c : SCtx K) (a : At K P) (y : Sty K) (r : Bool) (f : List (Style K))
    (hf : ∀ t ∈ f, t.isFill = true) (hr : a.fillRule.getD r = y.rule) :
    ∃ q : Option Bool, svgStyles w0 c a f = { a with fillRule := q } ∧ q.getD r = (y.applyAll w0 true f).rule := by
  induction f generalizing c a y with
  | nil => exact ⟨a.fillRule, rfl, hr⟩
  | cons s f ih =>
    have hs := hf s (by simp)
    have hf' : ∀ t ∈ f, t.isFill = true := fun t ht => hf t (List.mem_cons_of_mem _ ht)
    rw [svgStyles]
    cases s with
    | color n => exact ih _ _ (y.apply w0 true (.color n)) hf' hr
    | pattern n => exact ih _ _ (y.apply w0 true (.pattern n)) hf' hr
    | opacity v => exact ih _ _ (y.apply w0 true (.opacity v)) hf' hr
    | fillrule b =>
      obtain ⟨q, h1, h2⟩ := ih c { a with fillRule := some b } (y.apply w0 true (.fillrule b)) hf' rfl
      exact ⟨q, h1, h2⟩
    | _ => simp [Style.isFill] at hs

theorem strokeStyles_rule (w0 : K) (c : SCtx K) (a : At K P) (l : List (Style K)) (h : ∀ t ∈ l, t.isRule = false) :
    (svgStyles w0 c a l).fillRule = a.fillRule := by
  induction l generalizing c a with
  | nil => rfl
  | cons s l ih =>
    rw [svgStyles, ih _ _ fun t ht => h t (List.mem_cons_of_mem _ ht)]
    have hs := h s (by simp)
    cases s with
    | fillrule b => simp [Style.isRule] at hs
    | dash l o rel => exact (svgDash_other w0 c.lw a l o rel).2.2.1
    | linestyle cap l o rel => exact (svgDash_other w0 c.lw { a with params := a.params ++ [(0, cap)] } l o rel).2.2.1
    | _ => rfl

/-- What has to be drawn of a path. -/
def marks (w0 : K) (y : Sty K) (path : P) (sp : Option P) (fs ss : Option (List (Style K))) : List (Mark K P F) :=
  (fs.toList.map fun f => fillMark (y.applyAll w0 true f) path) ++
    (ss.toList.map fun s => strokeMark (y.applyAll w0 true s) (sp.getD path))

theorem both_draws (w0 : K) {c : SCtx K} {y : Sty K} {g : GS K P} (h : Sync c y g) (hb : Both c) (hp : Plain g)
    (hy : y.sop = y.fop) (p : P) (fs ss : Option (List (Style K))) (hf : ∀ f, fs = some f → ∀ t ∈ f, t.isFill = true)
    (hl : ∀ l, ss = some l → ∀ t ∈ l, t.isRule = false)
    (ho : ∀ f l, fs = some f → ss = some l → (∀ t ∈ f, t.isOpacity = false) ∧ ∀ t ∈ l, t.isOpacity = false) :
    Draws (svgPaths w0 c p none fs ss : List (STok K P F)) g (marks w0 y p none fs ss) := by
  intro st o
  -- the stroke styles
  have h1 := sync_weaken h true false (fun _ => hb.sa) (by simp)
  have hc1 : ({ c with strokeattr := true, fillattr := false } : SCtx K) = { c with fillattr := false } := by rw [← hb.sa]
  rw [hc1, ← enter_none g] at h1
  have hs := sync_styles w0 h1 (ss.getD [])
  have hfl := svgCtx_flags { c with fillattr := false } (ss.getD [])
  have hsa : (svgCtx { c with fillattr := false } (ss.getD [])).strokeattr = true := hfl.1.trans hb.sa
  obtain ⟨e1, e2, e3, e4, e5⟩ := svgStyles_other w0 { c with fillattr := false } ({} : At K P) (ss.getD [])
  have hru := strokeStyles_rule w0 { c with fillattr := false } ({} : At K P) (ss.getD []) (by
    cases ss with
    | none => simp
    | some l => exact hl l rfl)
  -- the fill styles
  obtain ⟨q, k1, k2⟩ := fillStyles_at w0 { svgStrokeCtx c (ss.getD []) with strokeattr := false }
    (svgStyles w0 { c with fillattr := false } ({} : At K P) (ss.getD [])) y g.rule (fs.getD []) (by
    cases fs with
    | none => simp
    | some f => exact hf f rfl) (by rw [hru]; exact h.rule)
  have hfl2 := svgCtx_flags { svgStrokeCtx c (ss.getD []) with strokeattr := false } (fs.getD [])
  -- context afterwards
  have c1 : (svgBothCtx c fs ss).strokecolor = (y.applyAll w0 true (ss.getD [])).scol :=
    ((hfl2.2.2.1 rfl).1).trans (hs.scol hsa)
  have c2 : (svgBothCtx c fs ss).strokeopacity = (y.applyAll w0 true (ss.getD [])).sop :=
    ((hfl2.2.2.1 rfl).2).trans (hs.sop hsa)
  -- fill colours: start from a context which has the values of `c`
  have hfc : (svgStrokeCtx c (ss.getD [])).fillcolor = y.fcol ∧ (svgStrokeCtx c (ss.getD [])).fillopacity = y.fop := by
    have := hfl.2.2.2 rfl
    exact ⟨this.1.trans (h.fcol hb.fa), this.2.trans (h.fop hb.fa)⟩
  have fcs : ∀ (f : List (Style K)) (c' : SCtx K) (y' : Sty K), c'.fillattr = true → c'.fillcolor = y'.fcol →
      c'.fillopacity = y'.fop →
      (svgCtx c' f).fillcolor = (y'.applyAll w0 true f).fcol ∧ (svgCtx c' f).fillopacity = (y'.applyAll w0 true f).fop := by
    intro f
    induction f with
    | nil => intro c' y' _ h2 h3; exact ⟨h2, h3⟩
    | cons s f ih =>
      intro c' y' hfa' h2 h3
      refine ih (svgCtx1 c' s) (y'.apply w0 true s) ?_ ?_ ?_
      · cases s <;> exact hfa'
      · cases s <;> simp [svgCtx1, svgColor, svgOpacity, Sty.apply, hfa', h2]
      · cases s <;> simp [svgCtx1, svgColor, svgOpacity, Sty.apply, hfa', h3]
  have c34 := fcs (fs.getD []) { svgStrokeCtx c (ss.getD []) with strokeattr := false } y rfl hfc.1 hfc.2
  have c3 : (svgBothCtx c fs ss).fillcolor = (y.applyAll w0 true (fs.getD [])).fcol := c34.1
  have c4 : (svgBothCtx c fs ss).fillopacity = (y.applyAll w0 true (fs.getD [])).fop := c34.2
  have hop : ¬ ((svgBothCtx c fs ss).strokeopacity ≠ (svgBothCtx c fs ss).fillopacity ∧ ss.isSome = true ∧ fs.isSome = true) := by
    rintro ⟨n, hss, hff⟩
    obtain ⟨l, rfl⟩ := Option.isSome_iff_exists.mp hss
    obtain ⟨f, rfl⟩ := Option.isSome_iff_exists.mp hff
    have := ho f l rfl rfl
    apply n
    rw [c2, c4]
    exact (op_same w0 y l this.2).1.trans (hy.trans (op_same w0 y f this.1).2.symm)
  have d1 := hs.lw
  have d2 := hs.dash
  have d3 := hs.param
  simp only [enter] at d1 d2 d3
  simp only [svgPaths, svgBoth, if_neg hop, run, step, Option.bind_some, Option.some.injEq,
    St.mk.injEq, true_and, List.append_cancel_left_eq]
  have hA : (svgBothAttrs w0 c fs ss : At K P).opacity = none := by
    simp only [svgBothAttrs, k1]
    cases ss <;> cases fs <;> simp_all
  cases ss with
  | none =>
    cases fs with
    | none =>
      simp only [svgBothAttrs, k1, marks]
      simp_all [paint, enter, hp.stroke, hp.fill]
    | some f =>
      simp only [Option.isSome_none, Option.isSome_some, Bool.false_eq_true, if_false, if_true, marks,
        Option.toList_none, Option.toList_some, List.map_cons, List.map_nil, List.append_nil, place_fill]
      rw [setOpacity_other, setOpacity_op g _ _ hp.op hA]
      simp only [svgBothAttrs, k1]
      simp_all [paint, enter, hp.stroke, mul_one]
  | some l =>
    cases fs with
    | none =>
      simp only [Option.isSome_none, Option.isSome_some, Bool.false_eq_true, if_false, if_true, marks,
        Option.toList_none, Option.toList_some, List.map_cons, List.map_nil, List.nil_append, place_stroke]
      rw [setOpacity_other, setOpacity_op g _ _ hp.op hA]
      simp only [svgBothAttrs, k1]
      simp_all [paint, enter, hp.fill, mul_one]
    | some f =>
      have hno := ho f l rfl rfl
      have hoo : (svgBothCtx c (some f) (some l)).fillopacity = (svgBothCtx c (some f) (some l)).strokeopacity := by
        by_contra e
        exact hop ⟨fun e' => e e'.symm, rfl, rfl⟩
      have hset : ∀ a : At K P, setOpacity (svgBothCtx c (some f) (some l)).fillopacity
          (setOpacity (svgBothCtx c (some f) (some l)).strokeopacity a) =
          setOpacity (svgBothCtx c (some f) (some l)).strokeopacity a := by
        intro a
        rw [hoo]
        unfold setOpacity
        split <;> rfl
      simp only [Option.isSome_some, if_true, hset, marks,
        Option.toList_some, List.map_cons, List.map_nil, List.nil_append, List.singleton_append, place_stroke, place_fill]
      rw [setOpacity_other, setOpacity_op g _ _ hp.op hA]
      simp only [svgBothAttrs, k1]
      have e6 : (y.applyAll w0 true f).fop = (svgBothCtx c (some f) (some l)).strokeopacity := by rw [← hoo, c4]; rfl
      have e7 : (y.applyAll w0 true l).sop = (svgBothCtx c (some f) (some l)).strokeopacity := by rw [c2]; rfl
      simp only [Option.getD_some] at *
      simp [paint, enter, mul_one, d1, d2, d3, e4, e5, e6, e7, c1, c3, k2]

theorem split_draws (w0 : K) {c : SCtx K} {y : Sty K} {g : GS K P} (h : Sync c y g) (hb : Both c) (hp : Plain g)
    (p q : P) (fs ss : Option (List (Style K))) (hx : fs = none ∨ ss = none) :
    Draws (svgPaths w0 c p (some q) fs ss : List (STok K P F)) g (marks w0 y p (some q) fs ss) := by
  cases ss with
  | none =>
    cases fs with
    | none => exact Draws.nil g
    | some f =>
      have e : svgStrokeCtx c [] = c := by
        cases c
        have : _ = true := hb.fa
        simp only at this
        subst this
        rfl
      simp only [svgPaths, marks, Option.getD_none, e, List.nil_append, Option.toList_some, Option.toList_none,
        List.map_cons, List.map_nil, List.append_nil]
      exact fill_draws w0 h hb hp p f
  | some l =>
    cases fs with
    | none =>
      simp only [svgPaths, marks, Option.getD_some, List.append_nil, Option.toList_some, Option.toList_none,
        List.map_cons, List.map_nil, List.nil_append]
      exact stroke_draws w0 h hb hp q l
    | some f => rcases hx with h | h <;> exact absurd h (by simp)

/-! ## Trees -/

/-- What holds when an item is written. -/
structure Inv (c : SCtx K) (y : Sty K) (g : GS K P) : Prop where
  sync : Sync c y g
  both : Both c
  plain : Plain g
  ops : y.sop = y.fop
  vis : y.fop ≠ 0

theorem inv_styles (w0 : K) {c : SCtx K} {y : Sty K} {g : GS K P} (h : Inv c y g) (l : List (Style K))
    (hl : ∀ t ∈ l, t.visible) :
    Inv (svgCtx c l) (y.applyAll w0 true l) (enter g (svgStyles w0 c ({} : At K P) l)) :=
  ⟨sync_styles w0 (by rw [enter_none]; exact h.sync) l, both_svgCtx h.both l, plain_styles w0 h.plain c l,
    op_eq w0 y l h.ops, op_visible w0 y l h.vis hl⟩

theorem ornCtx_free {c : SCtx K} (hb : Both c) (sp : Option P) (fs ss : Option (List (Style K)))
    (hf : ∀ t ∈ fs.getD [], t.ctxFree = true) (hs : ∀ t ∈ ss.getD [], t.ctxFree = true) : svgOrnCtx c sp fs ss = c := by
  have e1 : ∀ l : List (Style K), (∀ t ∈ l, t.ctxFree = true) → svgStrokeCtx c l = c := by
    intro l hl
    rw [svgStrokeCtx, svgCtx_free _ l hl]
    have := hb.fa
    cases c
    simp only at this
    subst this
    rfl
  have e2 : ∀ l : List (Style K), (∀ t ∈ l, t.ctxFree = true) → svgFillCtx c l = c := by
    intro l hl
    rw [svgFillCtx, svgCtx_free _ l hl]
    have := hb.sa
    cases c
    simp only at this
    subst this
    rfl
  cases sp with
  | none => rw [svgOrnCtx, svgBothCtx, e1 _ hs, e2 _ hf]
  | some q =>
    cases fs with
    | none => rw [svgOrnCtx, e1 _ hs]
    | some f => rw [svgOrnCtx, e1 _ hs, e2 f hf]

/-- The properties of the groups of a canvas. -/
theorem groups_draws {inner : List (STok K P F)} {g : GS K P} {ms : List (Mark K P F)} {cv : CV K P} {a : At K P}
    (hc : a.clip = none) (ht : a.transform = none) (hcv : cv.hasTrafo = false → cv.trafo = Trafo.one)
    (h : ∀ T cl, Draws inner { enter g a with ctm := T, clips := cl } ms) :
    Draws (svgGroups cv a inner) g (ms.map (place cv.trafo cv.clip.toList)) := by
  intro st o
  have e1 : (Trafo.one : Trafo K).svgAttr = Trafo.one := by ext <;> simp [Trafo.svgAttr, Trafo.one]
  have e0 : ∀ k : Mark K P F, place g.ctm g.clips (svgMark (place cv.trafo cv.clip.toList k)) =
      place (g.ctm.mul cv.trafo.svgAttr) ((cv.clip.toList.map fun p => PathLike.transformed (svgData p) g.ctm) ++ g.clips)
        (svgMark k) := by
    intro k
    rw [svgMark_place, PS.place_place, List.map_map]
    rfl
  simp only [List.map_map, Function.comp_def, e0]
  unfold svgGroups
  cases hcl : cv.clip with
  | none =>
    simp only [Option.toList_none, List.map_nil, List.nil_append]
    cases hh : cv.hasTrafo with
    | true =>
      simp only [if_true]
      have h0 : run [STok.g { a with transform := some cv.trafo.svgAttr }] (⟨g, st, o⟩ : St K P F) =
          some ⟨{ enter g a with ctm := g.ctm.mul cv.trafo.svgAttr, clips := g.clips }, g :: st, o⟩ := by
        simp [run, step, enter, hc]
      rw [List.append_assoc]
      refine run_seq h0 (run_seq (h _ _ _ _) ?_)
      simp [run, step]
    | false =>
      simp only [Bool.false_eq_true, if_false]
      have h0 : run [STok.g a] (⟨g, st, o⟩ : St K P F) =
          some ⟨{ enter g a with ctm := g.ctm.mul cv.trafo.svgAttr, clips := g.clips }, g :: st, o⟩ := by
        simp [run, step, enter, hc, ht, hcv hh, e1]
      rw [List.append_assoc]
      refine run_seq h0 (run_seq (h _ _ _ _) ?_)
      simp [run, step]
  | some p =>
    simp only [Option.toList_some, List.map_cons, List.map_nil, List.singleton_append]
    cases hh : cv.hasTrafo with
    | true =>
      simp only [if_true]
      have h0 : run [STok.g { a with clip := some (svgData p) }, STok.g { transform := some cv.trafo.svgAttr }]
          (⟨g, st, o⟩ : St K P F) =
          some ⟨{ enter g a with ctm := g.ctm.mul cv.trafo.svgAttr,
                                 clips := PathLike.transformed (svgData p) g.ctm :: g.clips },
            { enter g a with clips := PathLike.transformed (svgData p) g.ctm :: g.clips } :: g :: st, o⟩ := by
        simp [run, step, enter, ht, mul_one]
      rw [List.append_assoc]
      refine run_seq h0 (run_seq (h _ _ _ _) ?_)
      simp [run, step]
    | false =>
      simp only [Bool.false_eq_true, if_false]
      have h0 : run [STok.g { a with clip := some (svgData p) }] (⟨g, st, o⟩ : St K P F) =
          some ⟨{ enter g a with ctm := g.ctm.mul cv.trafo.svgAttr,
                                 clips := PathLike.transformed (svgData p) g.ctm :: g.clips }, g :: st, o⟩ := by
        simp [run, step, enter, ht, mul_one, hcv hh, e1]
      show run ([STok.g { a with clip := some (svgData p) }] ++ (inner ++ [.endg])) _ = _
      refine run_seq h0 (run_seq (h _ _ _ _) ?_)
      simp [run, step]

theorem inv_move {c : SCtx K} {y : Sty K} {g : GS K P} (h : Inv c y g) (T : Trafo K) (cl : List P) :
    Inv c y { g with ctm := T, clips := cl } :=
  ⟨⟨h.sync.clw, h.sync.lw, h.sync.dash, h.sync.param, h.sync.rule, h.sync.scol, h.sync.fcol, h.sync.sop, h.sync.fop⟩,
    h.both, ⟨h.plain.stroke, h.plain.fill, h.plain.op⟩, h.ops, h.vis⟩

mutual
theorem item_draws (w0 : K) (tap : Bool) (i : Item K P F) (c : SCtx K) (y : Sty K) (g : GS K P)
    (hw : WF i) (hr : SvgOK i) (h : Inv c y g) : Draws (svgItem w0 tap c i) g (pic w0 true tap y i) := by
  cases i with
  | text f t1 s =>
    rw [svgItem, pic]
    by_cases ht : (tap && t1) = true
    · rw [if_pos ht, if_pos ht]
      have := both_draws (F := F) w0 h.sync h.both h.plain h.ops s (some []) none (by simp) (by simp) (by simp)
      exact this
    · rw [if_neg ht, if_neg ht]
      intro st o
      have h1 := h.sync.fcol h.both.fa
      have h2 := h.sync.fop h.both.fa
      simp [svgText, h1, h2, h.vis, run, step, enter, h.plain.stroke, h.plain.op, mul_one, place, svgMark, Ink.norm,
        one_mul, flip_flip, svgData]
  | field r =>
    rw [svgItem, pic]
    exact Draws.nil g
  | dp path sp sty fs ss orn =>
    rw [WF] at hw
    rw [SvgOK] at hr
    obtain ⟨hr1, hr2, hr3, hr4, hr5, hr6, hr7⟩ := hr
    rw [svgItem, pic]
    have hi := inv_styles w0 h sty hr1
    obtain ⟨-, -, -, e4, e5⟩ := svgStyles_other w0 c ({} : At K P) sty
    refine Draws.wrap e4 e5 (Draws.append ?_ ?_)
    · cases sp with
      | none => exact both_draws w0 hi.sync hi.both hi.plain hi.ops path fs ss hr2 hr3 hr5
      | some q => exact split_draws w0 hi.sync hi.both hi.plain path q fs ss (hr4 rfl)
    · cases orn with
      | nil =>
        rw [svgItems, pics]
        exact Draws.nil _
      | cons i l =>
        have hf := hr6 rfl
        rw [ornCtx_free hi.both sp fs ss hf.1 hf.2]
        exact items_draws w0 tap (.cons i l) _ _ _ hw hr7 hi
  | cv attrs items =>
    rw [WF] at hw
    rw [SvgOK] at hr
    rw [svgItem, pic]
    obtain ⟨cv, hcv⟩ := Option.isSome_iff_exists.mp hw.1
    have hof : cvOf attrs = cv := by rw [cvOf, hcv]; rfl
    have hpl : (fun k : Mark K P F => attrs.foldl Mark.attr k) = place cv.trafo cv.clip.toList :=
      funext fun k => build_attr attrs cv hcv k
    rw [hpl, hof]
    by_cases hi : items.isEmpty = true
    · rw [if_pos hi]
      cases items with
      | nil => rw [pics]; exact Draws.nil g
      | cons i l => simp [Items.isEmpty] at hi
    · rw [if_neg hi]
      by_cases ha : attrs = []
      · subst ha
        simp only [build, Option.some.injEq] at hcv
        subst hcv
        have e0 : (stylesOf ([] : List (Attr K P))) = [] := rfl
        have e1 : y.applyAll w0 true [] = y := rfl
        have e2 : (place Trafo.one [] : Mark K P F → Mark K P F) = id := by
          funext k
          cases k
          simp [place, one_mul, PathLike.transformed_one]
        simp only [List.isEmpty_nil, if_true, e0, e1, Option.toList_none, e2, List.map_id_fun, id_eq]
        exact items_draws w0 tap items c y g hw.2 hr.2 h
      · rw [if_neg (by simpa using ha)]
        obtain ⟨-, -, -, e4, e5⟩ := svgStyles_other w0 c ({} : At K P) (stylesOf attrs)
        refine groups_draws e4 e5 (build_hasTrafo attrs cv hcv) fun T cl => ?_
        exact items_draws w0 tap items _ _ _ hw.2 hr.2 (inv_move (inv_styles w0 h _ hr.1) T cl)
theorem items_draws (w0 : K) (tap : Bool) (l : Items K P F) (c : SCtx K) (y : Sty K) (g : GS K P)
    (hw : WFs l) (hr : SvgOKs l) (h : Inv c y g) : Draws (svgItems w0 tap c l) g (pics w0 true tap y l) := by
  cases l with
  | nil =>
    rw [svgItems, pics]
    exact Draws.nil g
  | cons i l =>
    rw [WFs] at hw
    rw [SvgOKs] at hr
    rw [svgItems, pics]
    exact Draws.append (item_draws w0 tap i c y g hw.1 hr.1 h) (items_draws w0 tap l c y g hw.2 hr.2 h)
end

/-! ## Elements are closed -/

/-- A well-formed stream leaves the state. -/
def Closed (toks : List (STok K P F)) : Prop :=
  ∀ (s s' : St K P F), run toks s = some s' → s'.gs = s.gs ∧ s'.stack = s.stack

/-- Depth of open groups; `none` if a group is closed which has not been opened. -/
def depth : ℕ → List (STok K P F) → Option ℕ
  | n, [] => some n
  | n, .g _ :: l => depth (n + 1) l
  | 0, .endg :: _ => none
  | n + 1, .endg :: l => depth n l
  | n, .path _ _ :: l => depth n l
  | n, .text _ _ _ :: l => depth n l

theorem depth_append (a b : List (STok K P F)) (n : ℕ) : depth n (a ++ b) = (depth n a).bind fun m => depth m b := by
  induction a generalizing n with
  | nil => rfl
  | cons t a ih =>
    cases t with
    | g x => exact ih (n + 1)
    | endg =>
      cases n with
      | zero => rfl
      | succ n => exact ih n
    | path x p => exact ih n
    | text x f p => exact ih n

theorem depth_stack (toks : List (STok K P F)) (n m : ℕ) (h : depth n toks = some m) (s s' : St K P F)
    (hs : run toks s = some s') (hn : n ≤ (s.gs :: s.stack).length - 1) :
    (s'.gs :: s'.stack).drop m = (s.gs :: s.stack).drop n ∧ m ≤ s'.stack.length := by
  induction toks generalizing n s with
  | nil =>
    simp only [depth, run, Option.some.injEq] at h hs
    subst h; subst hs
    exact ⟨rfl, by simpa using hn⟩
  | cons t l ih =>
    rw [run, Option.bind_eq_some_iff] at hs
    obtain ⟨s1, h1, h2⟩ := hs
    cases t with
    | g a =>
      simp only [step, Option.some.injEq] at h1
      subst h1
      obtain ⟨e, e'⟩ := ih (n + 1) h _ h2 (by simpa using hn)
      exact ⟨by simpa using e, e'⟩
    | endg =>
      cases n with
      | zero => simp [depth] at h
      | succ n =>
        simp only [step] at h1
        cases hst : s.stack with
        | nil => simp [hst] at hn
        | cons g st =>
          simp only [hst, Option.some.injEq] at h1
          subst h1
          obtain ⟨e, e'⟩ := ih n h _ h2 (by simpa [hst] using hn)
          exact ⟨by simpa [hst] using e, e'⟩
    | path a p =>
      simp only [step, Option.some.injEq] at h1
      subst h1
      exact ih n h { s with out := s.out ++ paint (enter s.gs a) p } h2 hn
    | text a f p =>
      simp only [step] at h1
      split at h1
      · exact absurd h1 (by simp)
      · simp only [Option.some.injEq] at h1
        subst h1
        have := ih n h (St.mk s.gs s.stack _) h2
        exact this hn

/-- Every group is closed. -/
def Matched (toks : List (STok K P F)) : Prop := ∀ n, depth n toks = some n

theorem Matched.nil : Matched ([] : List (STok K P F)) := fun _ => rfl

theorem Matched.append {a b : List (STok K P F)} (ha : Matched a) (hb : Matched b) : Matched (a ++ b) := fun n => by
  rw [depth_append, ha n]
  exact hb n

theorem Matched.group {inner : List (STok K P F)} (a : At K P) (h : Matched inner) :
    Matched ([.g a] ++ inner ++ [.endg]) := fun n => by
  rw [List.append_assoc, depth_append]
  show depth (n + 1) (inner ++ [.endg]) = some n
  rw [depth_append, h (n + 1)]
  rfl

theorem paths_matched (w0 : K) (c : SCtx K) (p : P) (sp : Option P) (fs ss : Option (List (Style K))) :
    Matched (svgPaths w0 c p sp fs ss : List (STok K P F)) := fun n => by
  unfold svgPaths
  cases sp with
  | none =>
    simp only [svgBoth]
    split <;> rfl
  | some q => cases fs <;> cases ss <;> rfl

mutual
theorem item_matched (w0 : K) (tap : Bool) (c : SCtx K) (i : Item K P F) : Matched (svgItem w0 tap c i) := by
  cases i with
  | text f t1 s =>
    rw [svgItem]
    split
    · exact paths_matched _ _ _ _ _ _
    · exact fun n => rfl
  | field r => rw [svgItem]; exact Matched.nil
  | dp path sp sty fs ss orn =>
    rw [svgItem, svgWrap]
    have h := Matched.append (paths_matched (F := F) w0 (svgCtx c sty) path sp fs ss)
      (items_matched w0 tap (svgOrnCtx (svgCtx c sty) sp fs ss) orn)
    split
    · exact h
    · exact Matched.group _ h
  | cv attrs items =>
    rw [svgItem]
    split
    · exact Matched.nil
    · split
      · exact items_matched w0 tap c items
      · have h := items_matched w0 tap (svgCtx c (stylesOf attrs)) items
        unfold svgGroups
        split
        · rename_i p _
          split
          · have := Matched.group { svgStyles w0 c ({} : At K P) (stylesOf attrs) with clip := some (svgData p) }
              (Matched.group { transform := some (cvOf attrs).trafo.svgAttr } h)
            simpa using this
          · exact Matched.group _ h
        · split
          · exact Matched.group _ h
          · exact Matched.group _ h
theorem items_matched (w0 : K) (tap : Bool) (c : SCtx K) (l : Items K P F) : Matched (svgItems w0 tap c l) := by
  cases l with
  | nil => rw [svgItems]; exact Matched.nil
  | cons i l => rw [svgItems]; exact Matched.append (item_matched w0 tap c i) (items_matched w0 tap c l)
end

end SVG

/-- **C120.**  In the SVG of any tree each group is closed, and whatever the tree contains, the properties in
force after it are those in force before it. -/
theorem svg_state_restored (w0 : K) (tap : Bool) (c : SCtx K) (i : Item K P F) :
    SVG.depth 0 (svgItem w0 tap c i) = some 0 ∧
    ∀ s s' : SVG.St K P F, SVG.run (svgItem w0 tap c i) s = some s' → s'.gs = s.gs ∧ s'.stack = s.stack := by
  refine ⟨SVG.item_matched w0 tap c i 0, fun s s' h => ?_⟩
  have := (SVG.depth_stack _ 0 0 (SVG.item_matched w0 tap c i 0) s s' h (by simp)).1
  simpa using this

/-- **C120.**  A viewer of the SVG file of a tree draws the picture of the tree, upside down as the `y` axis
of the file is: the marks in their order, with their transformations, clip paths, styles and opacities. -/
theorem svg_picture_partial (w0 : K) (tap : Bool) (i : Item K P F) (c : SCtx K) (y : Sty K) (s : SVG.St K P F)
    (hw : WF i) (hr : SvgOK i) (h : SVG.Inv c y s.gs) :
    ∃ s', SVG.run (svgItem w0 tap c i) s = some s' ∧ s'.gs = s.gs ∧ s'.stack = s.stack ∧
      s'.out = s.out ++ (pic w0 true tap y i).map fun k => place s.gs.ctm s.gs.clips (svgMark k) :=
  ⟨_, SVG.item_draws w0 tap i c y s.gs hw hr h s.stack s.out, rfl, rfl, rfl⟩

/-! ## The `viewBox` -/

section box
variable [IsStrictOrderedRing K]
open BBox (Mem)

theorem lwAfter_fill (lw : K) (l : List (Style K)) (h : ∀ t ∈ l, t.isFill = true) : lwAfter lw l = lw := by
  induction l generalizing lw with
  | nil => rfl
  | cons s l ih =>
    have hs := h s (by simp)
    have h' : ∀ t ∈ l, t.isFill = true := fun t ht => h t (List.mem_cons_of_mem _ ht)
    cases s <;> first | exact ih lw h' | simp [Style.isFill] at hs

theorem lwAfter_free (lw : K) (l : List (Style K)) (h : ∀ t ∈ l, t.ctxFree = true) : lwAfter lw l = lw := by
  induction l generalizing lw with
  | nil => rfl
  | cons s l ih =>
    have hs := h s (by simp)
    have h' : ∀ t ∈ l, t.ctxFree = true := fun t ht => h t (List.mem_cons_of_mem _ ht)
    cases s <;> first | exact ih lw h' | simp [Style.ctxFree] at hs

/-- What a decorated path adds contains what was there and the strokes and fillings. -/
theorem svgDpBox_mem (w0 : K) (y : Sty K) (hy : 0 ≤ y.lw) (path : P) (sp : Option P) (fs ss : Option (List (Style K)))
    (hs : ∀ l, ss = some l → ∀ s ∈ l, s.widthOK) (hf : ∀ f, fs = some f → ∀ t ∈ f, t.isFill = true) (b : BBox K) (z : K × K)
    (h : Mem z.1 z.2 b ∨ (∃ f, fs = some f ∧ PathLike.inside path z) ∨
      (∃ l, ss = some l ∧ ∃ x', PathLike.inside (sp.getD path) x' ∧
        |z.1 - x'.1| ≤ (y.applyAll w0 true l).lw / 2 ∧ |z.2 - x'.2| ≤ (y.applyAll w0 true l).lw / 2)) :
    Mem z.1 z.2 (svgDpBox y.lw path sp fs ss b) := by
  have hst : ∀ l, ss = some l → ∀ (p : P) x', PathLike.inside p x' →
      |z.1 - x'.1| ≤ (y.applyAll w0 true l).lw / 2 → |z.2 - x'.2| ≤ (y.applyAll w0 true l).lw / 2 →
      Mem z.1 z.2 (strokeBox (lwAfter y.lw l) p) := by
    intro l hl p x' hx h1 h2
    rw [lw_applyAll] at h1 h2
    exact stroke_mem p _ (lwAfter_nonneg _ _ hy (hs l hl)) z x' hx h1 h2
  have hfl : ∀ l, ss = some l → PathLike.inside path z → Mem z.1 z.2 (strokeBox (lwAfter y.lw l) path) := by
    intro l hl hx
    have h0 := lwAfter_nonneg _ _ hy (hs l hl)
    refine stroke_mem path _ h0 z z hx ?_ ?_ <;> rw [sub_self, abs_zero] <;> linarith
  have hff : ∀ lw : K, lwAfter lw (fs.getD []) = lw := by
    intro lw
    cases fs with
    | none => rfl
    | some f => exact lwAfter_fill lw f (hf f rfl)
  unfold svgDpBox
  cases sp with
  | none =>
    cases ss with
    | none =>
      rcases h with h | ⟨f, -, hx⟩ | ⟨l, hl, -⟩
      · exact mem_iadd (Or.inl h)
      · exact mem_iadd (Or.inr (inside_mem path z hx))
      · simp at hl
    | some l =>
      simp only [Option.isSome_some, if_true, Option.getD_some, hff]
      refine mem_iadd ?_
      rcases h with h | ⟨f, -, hx⟩ | ⟨l', hl, x', hx, h1, h2⟩
      · exact Or.inl h
      · exact Or.inr (hfl l rfl hx)
      · simp only [Option.some.injEq] at hl
        subst hl
        exact Or.inr (hst l rfl _ x' hx h1 h2)
  | some q =>
    have h1 : Mem z.1 z.2 b ∨ (∃ l, ss = some l ∧ ∃ x', PathLike.inside q x' ∧
        |z.1 - x'.1| ≤ (y.applyAll w0 true l).lw / 2 ∧ |z.2 - x'.2| ≤ (y.applyAll w0 true l).lw / 2) →
        Mem z.1 z.2 (match (generalizing := false) ss with
          | some l => BBox.iadd b (strokeBox (lwAfter y.lw l) q)
          | none => b) := by
      intro h
      cases ss with
      | none =>
        rcases h with h | ⟨l, hl, -⟩
        · exact h
        · simp at hl
      | some l =>
        refine mem_iadd ?_
        rcases h with h | ⟨l', hl, x', hx, h1, h2⟩
        · exact Or.inl h
        · simp only [Option.some.injEq] at hl
          subst hl
          exact Or.inr (hst l rfl _ x' hx h1 h2)
    cases fs with
    | none =>
      rcases h with h | ⟨f, hf, -⟩ | h
      · exact h1 (Or.inl h)
      · simp at hf
      · exact h1 (Or.inr h)
    | some f =>
      simp only [Option.isSome_some, if_true]
      refine mem_iadd ?_
      rcases h with h | ⟨f, -, hx⟩ | h
      · exact Or.inl (h1 (Or.inl h))
      · exact Or.inr (inside_mem path z hx)
      · exact Or.inl (h1 (Or.inr h))

mutual
theorem svg_sound_item (w0 : K) (tap : Bool) (i : Item K P F) (y : Sty K) (hy : 0 ≤ y.lw) (b : BBox K) (hw : WF i)
    (hr : SvgOK i) (hb : BoxOK i) (z : K × K) (hz : Mem z.1 z.2 b ∨ ∃ k ∈ pic w0 true tap y i, k.seen z) :
    Mem z.1 z.2 (svgBox y.lw i b) := by
  cases i with
  | text f t1 s =>
    rw [svgBox]
    refine mem_iadd ?_
    rcases hz with h | ⟨k, hk, hz⟩
    · exact Or.inl h
    · rw [pic] at hk
      have : PathLike.inside s z := by
        split at hk <;> (
          simp only [List.mem_singleton] at hk
          subst hk
          obtain ⟨⟨x, hx, e⟩, -⟩ := hz
          rw [← e]
          show PathLike.inside s ((Trafo.one : Trafo K).apply x)
          rw [one_apply]
          exact hx)
      exact Or.inr (inside_mem s z this)
  | field r =>
    rw [svgBox]
    rcases hz with h | ⟨k, hk, hz⟩
    · exact h
    · rw [pic] at hk
      simp at hk
  | dp path sp sty fs ss orn =>
    rw [WF] at hw
    rw [SvgOK] at hr
    rw [BoxOK] at hb
    have hy' : 0 ≤ (y.applyAll w0 true sty).lw := by rw [lw_applyAll]; exact lwAfter_nonneg _ _ hy hb.2.1
    have hdp : (Mem z.1 z.2 b ∨ ∃ k ∈ (fs.toList.map fun f => (fillMark ((y.applyAll w0 true sty).applyAll w0 true f) path : Mark K P F)) ++
        (ss.toList.map fun s => strokeMark ((y.applyAll w0 true sty).applyAll w0 true s) (sp.getD path)), k.seen z) →
        Mem z.1 z.2 (svgDpBox (lwAfter y.lw sty) path sp fs ss b) := by
      intro h
      rw [← lw_applyAll w0 true]
      refine svgDpBox_mem w0 _ hy' path sp fs ss hb.2.2.1 hr.2.1 b z ?_
      rcases h with h | ⟨k, hk, hz⟩
      · exact Or.inl h
      · right
        simp only [List.mem_append, List.mem_map, Option.mem_toList] at hk
        rcases hk with ⟨f, hf, rfl⟩ | ⟨l, hl, rfl⟩
        · left
          obtain ⟨⟨x, hx, e⟩, -⟩ := hz
          have e : (Trafo.one : Trafo K).apply x = z := e
          rw [one_apply] at e
          subst e
          exact ⟨f, hf, hx⟩
        · right
          obtain ⟨⟨x, hx, e⟩, -⟩ := hz
          have e : (Trafo.one : Trafo K).apply x = z := e
          rw [one_apply] at e
          subst e
          exact ⟨l, hl, hx⟩
    rw [svgBox]
    rw [pic] at hz
    cases ho : orn.isEmpty with
    | true =>
      rw [if_pos rfl]
      refine hdp ?_
      rcases hz with h | ⟨k, hk, hz⟩
      · exact Or.inl h
      · rw [List.mem_append] at hk
        rcases hk with hk | hk
        · exact Or.inr ⟨k, hk, hz⟩
        · cases orn with
          | nil => rw [pics] at hk; simp at hk
          | cons i l => simp [Items.isEmpty] at ho
    | false =>
      rw [if_neg (by simp)]
      have hfree := hr.2.2.2.2.2.1 ho
      have elw : svgOrnLw (lwAfter y.lw sty) fs ss = lwAfter y.lw sty := by
        rw [svgOrnLw, lwAfter_free _ _ hfree.2, lwAfter_free _ _ hfree.1]
      rw [elw]
      refine mem_iadd ?_
      rcases hz with h | ⟨k, hk, hz⟩
      · exact Or.inl (hdp (Or.inl h))
      · rw [List.mem_append] at hk
        rcases hk with hk | hk
        · exact Or.inl (hdp (Or.inr ⟨k, hk, hz⟩))
        · right
          have := svg_sound_items w0 tap orn (y.applyAll w0 true sty) hy' none hw hr.2.2.2.2.2.2 hb.2.2.2 z
            (Or.inr ⟨k, hk, hz⟩)
          rw [lw_applyAll] at this
          exact mem_one this
  | cv attrs items =>
    rw [WF] at hw
    rw [SvgOK] at hr
    rw [BoxOK] at hb
    obtain ⟨cv, hcv⟩ := Option.isSome_iff_exists.mp hw.1
    have hof : cvOf attrs = cv := by rw [cvOf, hcv]; rfl
    have hy' : 0 ≤ (y.applyAll w0 true (stylesOf attrs)).lw := by
      rw [lw_applyAll]; exact lwAfter_nonneg _ _ hy hb.2.1
    rw [svgBox, hof]
    rw [pic] at hz
    cases ho : items.isEmpty with
    | true =>
      rw [if_pos rfl]
      rcases hz with h | ⟨k, hk, hz⟩
      · exact h
      · cases items with
        | nil => rw [pics] at hk; simp at hk
        | cons i l => simp [Items.isEmpty] at ho
    | false =>
      rw [if_neg (by simp)]
      have key : (∃ k ∈ (pics w0 true tap (y.applyAll w0 true (stylesOf attrs)) items).map
            (fun k => attrs.foldl Mark.attr k), k.seen z) →
          Mem z.1 z.2 (BBox.transformed (svgBoxes (lwAfter y.lw (stylesOf attrs)) items none) cv.trafo) ∧
          ∀ p ∈ cv.clip.toList, PathLike.inside p z := by
        rintro ⟨k, hk, hz⟩
        rw [List.mem_map] at hk
        obtain ⟨k', hk', rfl⟩ := hk
        rw [build_attr attrs cv hcv] at hz
        obtain ⟨z', hz', rfl, hcl⟩ := seen_place (build_det attrs cv hcv hb.1) _ _ _ hz
        have := svg_sound_items w0 tap items (y.applyAll w0 true (stylesOf attrs)) hy' none hw.2 hr.2 hb.2.2 z'
          (Or.inr ⟨k', hk', hz'⟩)
        rw [lw_applyAll] at this
        exact ⟨BBox.transformed_contains _ cv.trafo _ _ this, hcl⟩
      unfold cvBox
      cases hc : cv.clip with
      | none => exact mem_iadd (hz.imp id fun h => (key h).1)
      | some p =>
        refine mem_iadd (hz.imp id fun h => ?_)
        rw [BBox.imul_eq_mul, BBox.mem_mul]
        exact ⟨(key h).1, inside_mem p z ((key h).2 p (by rw [hc]; simp))⟩
theorem svg_sound_items (w0 : K) (tap : Bool) (l : Items K P F) (y : Sty K) (hy : 0 ≤ y.lw) (b : BBox K) (hw : WFs l)
    (hr : SvgOKs l) (hb : BoxOKs l) (z : K × K) (hz : Mem z.1 z.2 b ∨ ∃ k ∈ pics w0 true tap y l, k.seen z) :
    Mem z.1 z.2 (svgBoxes y.lw l b) := by
  cases l with
  | nil =>
    rw [svgBoxes]
    rcases hz with h | ⟨k, hk, -⟩
    · exact h
    · rw [pics] at hk; simp at hk
  | cons i l =>
    rw [WFs] at hw
    rw [SvgOKs] at hr
    rw [BoxOKs] at hb
    rw [svgBoxes]
    refine svg_sound_items w0 tap l y hy _ hw.2 hr.2 hb.2 z ?_
    rcases hz with h | ⟨k, hk, hz⟩
    · exact Or.inl (svg_sound_item w0 tap i y hy b hw.1 hr.1 hb.1 z (Or.inl h))
    · rw [pics, List.mem_append] at hk
      rcases hk with hk | hk
      · exact Or.inl (svg_sound_item w0 tap i y hy b hw.1 hr.1 hb.1 z (Or.inr ⟨k, hk, hz⟩))
      · exact Or.inr ⟨k, hk, hz⟩
end

theorem inside_flip (p : P) (x : K × K) (h : PathLike.inside (PathLike.transformed p (flipT : Trafo K)) x) :
    PathLike.inside p (x.1, -x.2) := by
  rw [PathLike.inside_transformed] at h
  obtain ⟨x', hx, e⟩ := h
  have e1 : x.1 = x'.1 := by rw [← e]; simp [flipT, Trafo.apply]
  have e2 : x.2 = -x'.2 := by rw [← e]; simp [flipT, Trafo.apply]
  rw [e1, e2, neg_neg]
  exact hx

/-- A mark of the file is seen where the mark of the picture is seen, upside down. -/
theorem seen_flip (k : Mark K P F) (z : K × K) (h : (svgMark k).seen z) : k.seen (z.1, -z.2) := by
  obtain ⟨⟨x, hx, e⟩, hc⟩ := h
  refine ⟨⟨(x.1, -x.2), ?_, ?_⟩, fun p hp => ?_⟩
  · obtain ⟨ink, path, T, clips⟩ := k
    cases ink with
    | fill r c o => exact inside_flip path x hx
    | text f c o => exact inside_flip path x hx
    | field => exact inside_flip path x hx
    | stroke c o w d q =>
      obtain ⟨x', h0, h1, h2⟩ := hx
      refine ⟨(x'.1, -x'.2), inside_flip path x' h0, h1, ?_⟩
      have : -x.2 - -x'.2 = -(x.2 - x'.2) := by ring
      show |(-x.2) - (-x'.2)| ≤ _
      rw [this, abs_neg]
      exact h2
  · have e : ((flipT : Trafo K).mul (k.T.mul flipT)).apply x = z := e
    rw [← e]
    simp [flipT, Trafo.mul, Trafo.apply]
    ring
  · exact inside_flip p z (hc _ (List.mem_map_of_mem hp))

/-- **C120.**  The attribute `viewBox` of the SVG file contains everything which can be seen of the picture,
strokes with their line width, in the coordinates of the file. -/
theorem svg_viewBox_contains_partial (w0 : K) (tap : Bool) (i : Item K P F) (c : SCtx K) (y : Sty K) (g : SVG.GS K P) (hy : 0 ≤ y.lw)
    (hw : WF i) (hr : SvgOK i) (hb : BoxOK i) (h : SVG.Inv c y g) (h0 : g.ctm = Trafo.one) (h1 : g.clips = [])
    (s' : SVG.St K P F) (hs : SVG.run (svgItem w0 tap c i) ⟨g, [], []⟩ = some s') (m : Mark K P F) (hm : m ∈ s'.out)
    (z : K × K) (hz : m.seen z) :
    ∃ x y' w h, viewBox (svgBox c.lw i none) = some (x, y', w, h) ∧ x ≤ z.1 ∧ z.1 ≤ x + w ∧ y' ≤ z.2 ∧ z.2 ≤ y' + h := by
  rw [SVG.item_draws w0 tap i c y g hw hr h [] [], Option.some.injEq] at hs
  subst hs
  simp only [List.nil_append, List.mem_map] at hm
  obtain ⟨k, hk, rfl⟩ := hm
  have e : (place Trafo.one [] (svgMark k) : Mark K P F) = svgMark k := by
    simp [place, one_mul, PathLike.transformed_one]
  rw [h0, h1, e] at hz
  have := svg_sound_item w0 tap i y hy none hw hr hb (z.1, -z.2) (Or.inr ⟨k, hk, seen_flip k z hz⟩)
  rw [← h.sync.clw] at this
  cases hq : svgBox c.lw i none with
  | none => rw [hq] at this; exact this.elim
  | some q =>
    rw [hq] at this
    obtain ⟨a1, a2, a3, a4⟩ := this
    simp only at a1 a2 a3 a4
    exact ⟨_, _, _, _, rfl, a1, by linarith, by linarith, by linarith⟩

end box

/-! ## Example and deviations -/

/-- The context `svgwriter.context()` and the state at the start of the page: `fill` is `none` on the root
element, `stroke` is by default. -/
def sctx0 : SCtx ℚ := ⟨1, true, true, .dev 0, .dev 0, 1, 1⟩
def sst0 : SVG.St ℚ (List (ℚ × ℚ)) ℕ :=
  ⟨⟨Trafo.one, [], 1, [], 0, fun _ => 0, false, .no, .no, 1⟩, [], []⟩

theorem sinv0 : SVG.Inv sctx0 sty0 sst0.gs :=
  ⟨⟨rfl, rfl, rfl, rfl, rfl, fun _ => rfl, fun _ => rfl, fun _ => rfl, fun _ => rfl⟩, ⟨rfl, rfl⟩, ⟨rfl, rfl, rfl⟩, rfl,
    one_ne_zero⟩

/-- The example of `PsProps` meets the hypotheses. -/
example : ∃ s', SVG.run (svgItem 1 false sctx0 (.cv [] demo)) sst0 = some s' ∧
    s'.out = (pic 1 true false sty0 (.cv [] demo)).map (fun k => place Trafo.one [] (svgMark k)) := by
  obtain ⟨s', h1, -, -, h2⟩ := svg_picture_partial 1 false (.cv [] demo) sctx0 sty0 sst0
    ⟨rfl, ⟨trivial, ⟨rfl, trivial, trivial, trivial⟩, trivial, trivial⟩⟩
    ⟨fun _ h => by simp [stylesOf] at h, trivial, ⟨fun t h => by simp [stylesOf] at h; subst h; trivial,
      ⟨fun t h => by simp at h; subst h; trivial, fun f h t ht => by simp at h; subst h; simp at ht,
        fun l h t ht => by simp at h; subst h; simp at ht; subst ht; rfl, fun h => by simp at h,
        fun f l h h' => by
          simp at h h'; subst h; subst h'
          exact ⟨by simp, fun t ht => by simp at ht; subst ht; rfl⟩, fun h => by simp [Items.isEmpty] at h, trivial⟩,
      trivial, trivial⟩, trivial, trivial⟩ sinv0
  exact ⟨s', h1, h2⟩

/-- What the viewer draws for the example. -/
example : (SVG.run (svgItem 1 false sctx0 (.cv [] demo)) sst0).map (fun s => s.out.map fun k => k.path.map k.T.apply) =
    some [[(0, 0)], [(2, -4), (6, -4), (6, -8), (2, -8)], [(2, -4), (6, -4), (6, -8), (2, -8)], [(4, -6)], [(5, -5)]] := by
  decide +kernel

/-- The full statement: without conditions on styles. -/
def SvgPicture : Prop :=
  ∀ (tap : Bool) (items : Items ℚ (List (ℚ × ℚ)) ℕ), WFs items →
    ∃ s', SVG.run (svgItem 1 tap sctx0 (.cv [] items)) sst0 = some s' ∧
      s'.out.map (fun k => k.ink.key) = (pic 1 true tap sty0 (.cv [] items)).map (fun k => k.ink.key)

/-- If the path of the stroke is not the path of the filling (an arrow at the end of a filled path), the
stroke is written first and the filling covers it (`pyx/deco.py:320-338`); in PostScript and PDF the filling
comes first. -/
theorem svg_stroke_below : ¬ SvgPicture := by
  intro h
  obtain ⟨s', h1, h2⟩ := h false (.cons (.dp sq (some sq) [] (some []) (some []) .nil) .nil) ⟨trivial, trivial⟩
  have h3 : ((SVG.run (svgItem 1 false sctx0 (.cv [] (.cons (.dp sq (some sq) [] (some []) (some []) .nil) .nil))) sst0).map
      fun s => s.out.map fun k => k.ink.key) = some [(1, false, 1, .dev 0), (0, false, 0, .dev 0)] := by decide +kernel
  rw [h1, Option.map_some, h2] at h3
  exact absurd h3 (by decide +kernel)

/-- The opacity of an ink. -/
def Ink.opacity : Ink ℚ ℕ → ℚ
  | .fill _ _ o => o
  | .stroke _ o _ _ _ => o
  | .text _ _ o => o
  | .field => 1

/-- Ornaments get the styles of the stroke (`pyx/deco.py:314,371`): an ornament without colour on a path
stroked in colour 5 is of colour 5. -/
theorem svg_ornament_styles :
    let i : Item ℚ (List (ℚ × ℚ)) ℕ := .dp sq none [] none (some [.color 5]) (.cons (.dp sq none [] none (some []) .nil) .nil)
    (SVG.run (svgItem 1 false sctx0 i) sst0).map (fun s => s.out.map fun k => k.ink.key.2.2.2) = some [.dev 5, .dev 5] ∧
    (pic 1 true false sty0 i).map (fun k => k.ink.key.2.2.2) = [.dev 5, .dev 0] := by
  constructor <;> decide +kernel

/-- A text of opacity zero is drawn opaque (`pyx/font/font.py:729-730`). -/
theorem svg_text_opaque :
    let i : Item ℚ (List (ℚ × ℚ)) ℕ := .cv [.style (.opacity 0)] (.cons (.text 3 true [(0, 0)]) .nil)
    (SVG.run (svgItem 1 false sctx0 i) sst0).map (fun s => s.out.map fun k => k.ink.opacity) = some [1] ∧
    (pic 1 true false sty0 i).map (fun k => k.ink.opacity) = [0] := by
  constructor <;> decide +kernel

/-- A stroke of opacity 1/2 on an opaque filling: the path is written twice, the stroke first, and the
dictionary used for both keeps the opacity, so the filling is transparent too (`pyx/deco.py:347-359`). -/
theorem svg_opacity_stale :
    let i : Item ℚ (List (ℚ × ℚ)) ℕ := .dp sq none [] (some []) (some [.opacity (1/2)]) .nil
    (SVG.run (svgItem 1 false sctx0 i) sst0).map (fun s => s.out.map fun k => (k.ink.key.1, k.ink.opacity)) =
      some [(1, 1/2), (0, 1/2)] ∧
    (pic 1 true false sty0 i).map (fun k => (k.ink.key.1, k.ink.opacity)) = [(0, 1), (1, 1/2)] := by
  constructor <;> decide +kernel

/-- A fill rule given to `deco.filled` is used in SVG, other than in PostScript and PDF
(`ps_fillrule_ignored`, `pdf_fillrule_ignored`). -/
theorem svg_fillrule_used :
    let i : Item ℚ (List (ℚ × ℚ)) ℕ := one1 (.dp sq none [] (some [.fillrule true]) none .nil)
    (SVG.run (svgItem 1 false sctx0 i) sst0).map (fun s => s.out.map fun k => k.ink.key) =
      some ((pic 1 true false sty0 i).map fun k => k.ink.key) := by
  decide +kernel

end PyX.Canvas
