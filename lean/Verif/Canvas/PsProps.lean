import Verif.Canvas.Spec
import Verif.Trafo.Props

/-!
# C33, C34 (PostScript): the stream of a canvas tree draws the picture of the tree
-/

set_option linter.unusedSectionVars false

namespace PyX.Canvas

variable {K P F : Type} [Field K] [LinearOrder K] [PathLike K P] [DecidableEq F]

theorem one_mul (t : Trafo K) : Trafo.one.mul t = t := by
  simp [Trafo.one, Trafo.mul]

theorem mul_one (t : Trafo K) : t.mul Trafo.one = t := by
  simp [Trafo.one, Trafo.mul]

/-! ## Canvas attributes -/

/-- Is the attribute a clip? -/
def Attr.isClip : Attr K P → Bool
  | .clip _ => true
  | _ => false


/-- The attributes, applied from left to right, place a mark where the canvas built from them does. -/
theorem build_attr (attrs : List (Attr K P)) (cv : CV K P) (h : build attrs = some cv) (k : Mark K P F) :
    attrs.foldl Mark.attr k = place cv.trafo cv.clip.toList k := by
  induction attrs generalizing cv k with
  | nil =>
    simp only [build, Option.some.injEq] at h
    subst h
    cases k
    simp [place, PathLike.transformed_one, one_mul]
  | cons a l ih =>
    rw [build, Option.bind_eq_some_iff] at h
    obtain ⟨c, hc, ha⟩ := h
    rw [List.foldl_cons, ih c hc]
    cases a with
    | trafo t =>
      simp only [buildStep, Option.some.injEq] at ha
      subst ha
      simp [place, Mark.attr, Trafo.mul_assoc, PathLike.transformed_mul]
    | clip p =>
      simp only [buildStep] at ha
      split at ha
      · exact absurd ha (by simp)
      · rename_i hn
        simp only [Option.some.injEq] at ha
        subst ha
        rw [Option.not_isSome_iff_eq_none] at hn
        simp [place, Mark.attr, hn]
    | style s =>
      simp only [buildStep, Option.some.injEq] at ha
      subst ha
      simp [Mark.attr]

/-- Without transformations among the attributes none is written. -/
theorem build_hasTrafo (attrs : List (Attr K P)) (cv : CV K P) (h : build attrs = some cv)
    (ht : cv.hasTrafo = false) : cv.trafo = Trafo.one := by
  induction attrs generalizing cv with
  | nil =>
    simp only [build, Option.some.injEq] at h
    subst h
    rfl
  | cons a l ih =>
    rw [build, Option.bind_eq_some_iff] at h
    obtain ⟨c, hc, ha⟩ := h
    cases a with
    | trafo t =>
      simp only [buildStep, Option.some.injEq] at ha
      subst ha
      simp at ht
    | clip p =>
      simp only [buildStep] at ha
      split at ha
      · exact absurd ha (by simp)
      · simp only [Option.some.injEq] at ha
        subst ha
        exact ih c hc ht
    | style s =>
      simp only [buildStep, Option.some.injEq] at ha
      subst ha
      exact ih c hc ht

/-- Canvas construction fails exactly if more than one clip is given. -/
theorem build_isSome (attrs : List (Attr K P)) :
    (build attrs).isSome ↔ (attrs.filter Attr.isClip).length ≤ 1 := by
  have key : ∀ attrs : List (Attr K P),
      (build attrs = none ∧ 2 ≤ (attrs.filter Attr.isClip).length) ∨
      ∃ c, build attrs = some c ∧ (attrs.filter Attr.isClip).length = c.clip.toList.length := by
    intro attrs
    induction attrs with
    | nil => right; exact ⟨_, rfl, rfl⟩
    | cons a l ih =>
      rcases ih with ⟨h, hl⟩ | ⟨c, h, hl⟩
      · left
        refine ⟨by rw [build, h]; rfl, ?_⟩
        rw [List.filter_cons]
        split
        · rw [List.length_cons]; omega
        · exact hl
      · cases a with
        | trafo t =>
          right
          refine ⟨{ c with trafo := c.trafo.mul t, hasTrafo := true }, by rw [build, h]; rfl, ?_⟩
          simpa [Attr.isClip] using hl
        | style s => right; exact ⟨c, by rw [build, h]; rfl, by simpa [Attr.isClip] using hl⟩
        | clip p =>
          cases hc : c.clip with
          | some q =>
            left
            refine ⟨by rw [build, h]; simp [buildStep, hc], ?_⟩
            rw [List.filter_cons]
            simp only [Attr.isClip, if_true, List.length_cons, hl, hc]
            simp
          | none =>
            right
            refine ⟨{ c with clip := some (PathLike.transformed p c.trafo) }, by rw [build, h]; simp [buildStep, hc], ?_⟩
            rw [List.filter_cons]
            simp only [Attr.isClip, if_true, List.length_cons, hl, hc]
            simp
  rcases key attrs with ⟨h, hl⟩ | ⟨c, h, hl⟩
  · rw [h]; simp only [Option.isSome_none, Bool.false_eq_true, false_iff]; omega
  · rw [h, hl]
    cases c.clip <;> simp

/-! ## Conditions on trees -/

mutual
/-- No canvas has more than one clip. -/
def WF : Item K P F → Prop
  | .text _ _ _ => True
  | .field _ => True
  | .dp _ _ _ _ _ orn => WFs orn
  | .cv attrs items => (build attrs).isSome ∧ WFs items
def WFs : Items K P F → Prop
  | .nil => True
  | .cons i l => WF i ∧ WFs l
end

/-- Is it a fill rule? -/
def Style.isRule : Style K → Bool
  | .fillrule _ => true
  | _ => false

mutual
/-- No fill rule is given as a style of a filling only, as in `deco.filled([fillrule.even_odd])`. -/
def NoRule : Item K P F → Prop
  | .text _ _ _ => True
  | .field _ => True
  | .dp _ _ _ fs _ orn => (∀ f, fs = some f → ∀ s ∈ f, s.isRule = false) ∧ NoRules orn
  | .cv _ items => NoRules items
def NoRules : Items K P F → Prop
  | .nil => True
  | .cons i l => NoRule i ∧ NoRules l
end

mutual
/-- Does the item select a font which is still selected after it? -/
def shows (tap : Bool) : Item K P F → Bool
  | .text _ t1 _ => !(tap && t1)
  | .field _ => false
  | .dp _ _ sty _ _ orn => sty.isEmpty && showss tap orn
  | .cv attrs items => attrs.isEmpty && showss tap items
def showss (tap : Bool) : Items K P F → Bool
  | .nil => false
  | .cons i l => shows tap i || showss tap l
end

/-- Is it a text output as a text? -/
def isText (tap : Bool) : Item K P F → Bool
  | .text _ t1 _ => !(tap && t1)
  | .dp _ _ _ _ _ _ => false
  | .field _ => false
  | .cv _ _ => false

mutual
/-- After a text of a canvas no canvas (and no decorated path) without attributes containing texts is
inserted.  `known`: the canvas has remembered a font. -/
def FontOK (tap : Bool) (known : Bool) : Item K P F → Prop
  | .text _ _ _ => True
  | .field _ => True
  | .dp _ _ sty _ _ orn => (known = true → sty = [] → showss tap orn = false) ∧ FontOKs tap known orn
  | .cv attrs items => (known = true → attrs = [] → showss tap items = false) ∧ FontOKs tap known items
def FontOKs (tap : Bool) (known : Bool) : Items K P F → Prop
  | .nil => True
  | .cons i l => FontOK tap known i ∧ FontOKs tap (known || isText tap i) l
end

namespace PS

theorem run_append (a b : List (PTok K P F)) (s : St K P F) : run (a ++ b) s = (run a s).bind (run b) := by
  induction a generalizing s with
  | nil => rfl
  | cons t a ih =>
    rw [List.cons_append, run, run]
    cases step s t with
    | none => rfl
    | some s' => simp only [Option.bind_some]; exact ih s'

theorem run_seq {a b : List (PTok K P F)} {s s' : St K P F} {r : Option (St K P F)} (ha : run a s = some s')
    (hb : run b s' = r) : run (a ++ b) s = r := by
  rw [run_append, ha, Option.bind_some, hb]

theorem run_one (t : PTok K P F) (s : St K P F) : run [t] s = step s t := by
  show (step s t).bind (run []) = _
  cases step s t <;> rfl

/-- The graphics state with a given style. -/
def setSty (g : GS K P F) (y : Sty K) : GS K P F :=
  { g with lw := y.lw, dash := y.dash, param := y.param, col := y.fcol, op := y.fop }

/-- The context and the graphics state are those of the style. -/
structure Sync (c : PCtx K F) (y : Sty K) (g : GS K P F) : Prop where
  clw : c.lw = y.lw
  crule : c.rule = y.rule
  col : y.scol = y.fcol
  lw : g.lw = y.lw
  dash : g.dash = y.dash
  param : g.param = y.param
  gcol : g.col = y.fcol
  op : y.sop = y.fop
  gop : g.op = y.fop

theorem psCtx_font (c : PCtx K F) (l : List (Style K)) : (psCtx c l).font = c.font := by
  induction l generalizing c with
  | nil => rfl
  | cons s l ih =>
    rw [psCtx, ih]
    cases s <;> rfl

theorem sync_set {c : PCtx K F} {y : Sty K} {g g' : GS K P F} (h : Sync c y g') : Sync c y (setSty g y) :=
  ⟨h.clw, h.crule, h.col, rfl, rfl, rfl, rfl, h.op, rfl⟩

theorem set_sync {c : PCtx K F} {y : Sty K} {g : GS K P F} (h : Sync c y g) : setSty g y = g := by
  simp [setSty, ← h.lw, ← h.dash, ← h.param, ← h.gcol, ← h.gop]

theorem sync_apply (w0 : K) {c : PCtx K F} {y : Sty K} {g : GS K P F} (h : Sync c y g) (s : Style K) :
    Sync (psCtx1 c s) (y.apply w0 true s) (setSty g (y.apply w0 true s)) := by
  obtain ⟨h1, h2, h3, h4, h5, h6, h7, h8, h9⟩ := h
  cases s <;> constructor <;> first | rfl | assumption

theorem sync_applyAll (w0 : K) {c : PCtx K F} {y : Sty K} {g : GS K P F} (h : Sync c y g) (l : List (Style K)) :
    Sync (psCtx c l) (y.applyAll w0 true l) (setSty g (y.applyAll w0 true l)) := by
  induction l generalizing c y g with
  | nil => exact sync_set h
  | cons s l ih => exact ih (g := setSty g (y.apply w0 true s)) (sync_apply w0 h s)

theorem run_style (w0 : K) {c : PCtx K F} {y : Sty K} {s : St K P F} (h : Sync c y s.gs) (t : Style K) :
    run (psStyle w0 c t) s = some { s with gs := setSty s.gs (y.apply w0 true t) } := by
  obtain ⟨h1, h2, h3, h4, h5, h6, h7, h8, h9⟩ := h
  cases t <;>
    simp [run, psStyle, step, setSty, Sty.apply, dashNumbers, ← h4, ← h5, ← h6, ← h7, ← h9, h1]

theorem run_styles (w0 : K) {c : PCtx K F} {y : Sty K} {s : St K P F} (h : Sync c y s.gs) (l : List (Style K)) :
    run (psStyles w0 c l) s = some { s with gs := setSty s.gs (y.applyAll w0 true l) } := by
  induction l generalizing c y s with
  | nil =>
    have := set_sync h
    simp only [psStyles, run, Sty.applyAll, List.foldl_nil, this]
  | cons t l ih =>
    rw [psStyles, run_append, run_style w0 h t, Option.bind_some, ih (sync_apply w0 h t)]
    rfl

/-- The font part of the invariant. -/
def FSync (known : Bool) (c : PCtx K F) (g : GS K P F) : Prop :=
  (known = false → c.font = none) ∧ ∀ f, c.font = some f → g.font = some f

/-- After a stream: the graphics state is the same up to font and current path, the stack is the same
and the marks `ms`, placed, have been made. -/
def Draws (toks : List (PTok K P F)) (s : St K P F) (ms : List (Mark K P F)) (fo : Option F) : Prop :=
  ∃ pa, run toks s = some ⟨{ s.gs with font := fo, path := pa }, s.stack,
    s.out ++ ms.map (place s.gs.ctm s.gs.clips)⟩

theorem Draws.nil (s : St K P F) : Draws [] s [] s.gs.font := ⟨s.gs.path, by simp [run]⟩

theorem Draws.append {a b : List (PTok K P F)} {s : St K P F} {ma mb : List (Mark K P F)} {fo fo' : Option F}
    (ha : Draws a s ma fo)
    (hb : ∀ s' : St K P F, (∃ pa, s'.gs = { s.gs with font := fo, path := pa }) → Draws b s' mb fo') :
    Draws (a ++ b) s (ma ++ mb) fo' := by
  obtain ⟨pa, h⟩ := ha
  obtain ⟨pa', h'⟩ := hb ⟨{ s.gs with font := fo, path := pa }, s.stack,
    s.out ++ ma.map (place s.gs.ctm s.gs.clips)⟩ ⟨pa, rfl⟩
  refine ⟨pa', ?_⟩
  rw [run_append, h, Option.bind_some, h']
  simp

theorem sync_fp {c : PCtx K F} {y : Sty K} {g : GS K P F} (h : Sync c y g) (fo : Option F)
    (pa : List (P × Trafo K)) : Sync c y { g with font := fo, path := pa } := by
  obtain ⟨h1, h2, h3, h4, h5, h6, h7, h8, h9⟩ := h
  exact ⟨h1, h2, h3, h4, h5, h6, h7, h8, h9⟩

/-- Styles, something and `grestore` after a `gsave`. -/
theorem wrap_draws (w0 : K) {c : PCtx K F} {y : Sty K} {s : St K P F} (h : Sync c y s.gs)
    (l : List (Style K)) (inner : List (PTok K P F)) (ms : List (Mark K P F)) (fo : Option F)
    (hi : ∀ s' : St K P F, s'.gs = setSty s.gs (y.applyAll w0 true l) → Draws inner s' ms fo) :
    Draws (psWrap l (psStyles w0 c l) inner) s ms (if l.isEmpty then fo else s.gs.font) := by
  unfold psWrap
  cases l with
  | nil => exact hi s (set_sync h).symm
  | cons t l =>
    simp only [List.isEmpty_cons, Bool.false_eq_true, if_false]
    obtain ⟨pa, hr⟩ := hi ⟨setSty s.gs (y.applyAll w0 true (t :: l)), s.gs :: s.stack, s.out⟩ rfl
    refine ⟨s.gs.path, ?_⟩
    rw [List.append_assoc, List.append_assoc, run_append]
    have h0 : run [PTok.gsave] s = some ⟨s.gs, s.gs :: s.stack, s.out⟩ := rfl
    rw [h0, Option.bind_some, run_append,
      run_styles (s := (⟨s.gs, s.gs :: s.stack, s.out⟩ : St K P F)) w0 h (t :: l), Option.bind_some,
      run_append, hr]
    rfl

theorem fill_run (c : PCtx K F) (y : Sty K) (s : St K P F) (p : P) (hc : c.rule = y.rule)
    (hcol : s.gs.col = y.fcol) (hop : s.gs.op = y.fop) (hp : s.gs.path = [(p, s.gs.ctm)]) :
    run (psFill c) s = some ⟨{ s.gs with path := [] }, s.stack,
      s.out ++ [place s.gs.ctm s.gs.clips (fillMark y p)]⟩ := by
  unfold psFill
  rw [hc]
  cases hr : y.rule <;> simp [run, step, paint, hp, fillMark, place, mul_one, hcol, hop, hr]

theorem stroke_run (y : Sty K) (s : St K P F) (p : P) (hl : s.gs.lw = y.lw) (hd : s.gs.dash = y.dash)
    (hpa : s.gs.param = y.param) (hcol : s.gs.col = y.scol) (hop : s.gs.op = y.sop) (hp : s.gs.path = [(p, s.gs.ctm)]) :
    run [.stroke] s = some ⟨{ s.gs with path := [] }, s.stack,
      s.out ++ [place s.gs.ctm s.gs.clips (strokeMark y p)]⟩ := by
  simp [run, step, paint, hp, strokeMark, place, mul_one, hcol, hop, hl, hd, hpa]

theorem rule_applyAll (w0 : K) (ps : Bool) (y : Sty K) (l : List (Style K)) (h : ∀ s ∈ l, s.isRule = false) :
    (y.applyAll w0 ps l).rule = y.rule := by
  induction l generalizing y with
  | nil => rfl
  | cons t l ih =>
    have h1 : (y.applyAll w0 ps (t :: l)) = (y.apply w0 ps t).applyAll w0 ps l := rfl
    rw [h1, ih _ fun s hs => h s (List.mem_cons_of_mem _ hs)]
    have ht := h t (by simp)
    cases t <;> first | rfl | simp [Style.isRule] at ht

/-- The marks of the filling part. -/
def fillMarks (w0 : K) (y : Sty K) (path : P) (sp : Option P) (fs ss : Option (List (Style K))) :
    List (Mark K P F) :=
  match fs with
  | none => []
  | some f =>
    match ss, sp with
    | some s, none => [fillMark (y.applyAll w0 true f) path, strokeMark (y.applyAll w0 true s) path]
    | _, _ => [fillMark (y.applyAll w0 true f) path]

/-- The marks of the stroking part. -/
def strokeMarks (w0 : K) (y : Sty K) (path : P) (sp : Option P) (fs ss : Option (List (Style K))) :
    List (Mark K P F) :=
  match ss with
  | none => []
  | some s => if sp.isSome || fs.isNone then [strokeMark (y.applyAll w0 true s) (sp.getD path)] else []

theorem marks_eq (w0 : K) (y : Sty K) (path : P) (sp : Option P) (fs ss : Option (List (Style K))) :
    (fillMarks w0 y path sp fs ss ++ strokeMarks w0 y path sp fs ss : List (Mark K P F)) =
      (fs.toList.map fun f => fillMark (y.applyAll w0 true f) path) ++
      (ss.toList.map fun s => strokeMark (y.applyAll w0 true s) (sp.getD path)) := by
  cases fs <;> cases ss <;> cases sp <;> simp [fillMarks, strokeMarks]

theorem fill_simple (w0 : K) {c : PCtx K F} {y : Sty K} {s : St K P F} (h : Sync c y s.gs) (path : P)
    (f : List (Style K)) (hf : ∀ t ∈ f, t.isRule = false) :
    Draws ([.newpath, .path path] ++ psWrap f (psStyles w0 c f) (psFill c)) s
      [fillMark (y.applyAll w0 true f) path] s.gs.font := by
  have h0 : run [PTok.newpath, .path path] s =
      some ⟨{ s.gs with path := [(path, s.gs.ctm)] }, s.stack, s.out⟩ := rfl
  have hs : Sync c y ({ s.gs with path := [(path, s.gs.ctm)] } : GS K P F) := sync_fp h s.gs.font _
  obtain ⟨pa, hw⟩ := wrap_draws (s := (⟨{ s.gs with path := [(path, s.gs.ctm)] }, s.stack, s.out⟩ : St K P F))
    w0 hs f (psFill c) [fillMark (y.applyAll w0 true f) path] s.gs.font (by
      intro s' hs'
      refine ⟨[], ?_⟩
      rw [fill_run c (y.applyAll w0 true f) s' path (by rw [rule_applyAll _ _ _ _ hf]; exact h.crule)
        (by rw [hs']; rfl) (by rw [hs']; rfl) (by rw [hs']; rfl)]
      rw [hs']
      rfl)
  refine ⟨pa, ?_⟩
  rw [run_append, h0, Option.bind_some, hw]
  simp

theorem fillPart_draws (w0 : K) {c : PCtx K F} {y : Sty K} {s : St K P F} (h : Sync c y s.gs) (path : P)
    (sp : Option P) (fs ss : Option (List (Style K)))
    (hf : ∀ f, fs = some f → ∀ t ∈ f, t.isRule = false) :
    Draws (psFillPart w0 c path sp fs ss) s (fillMarks w0 y path sp fs ss) s.gs.font := by
  cases fs with
  | none => exact Draws.nil s
  | some f =>
    have hf := hf f rfl
    cases ss with
    | none => cases sp <;> exact fill_simple w0 h path f hf
    | some l =>
      cases sp with
      | some sp => exact fill_simple w0 h path f hf
      | none =>
        simp only [psFillPart, fillMarks]
        have h0 : run [PTok.newpath, .path path, .gsave] s = some ⟨{ s.gs with path := [(path, s.gs.ctm)] },
          ({ s.gs with path := [(path, s.gs.ctm)] } : GS K P F) :: s.stack, s.out⟩ := rfl
        have hs : Sync c y ({ s.gs with path := [(path, s.gs.ctm)] } : GS K P F) := sync_fp h s.gs.font _
        obtain ⟨pa, hw⟩ := wrap_draws (s := (⟨{ s.gs with path := [(path, s.gs.ctm)] }, s.stack,
            s.out ++ [place s.gs.ctm s.gs.clips (fillMark (y.applyAll w0 true f) path)]⟩ : St K P F))
          w0 hs l [.stroke] [strokeMark (y.applyAll w0 true l) path] s.gs.font (by
            intro s' hs'
            refine ⟨[], ?_⟩
            have hy := sync_applyAll w0 hs l
            rw [stroke_run (y.applyAll w0 true l) s' path (by rw [hs']; rfl) (by rw [hs']; rfl)
              (by rw [hs']; rfl) (by rw [hs', hy.col]; rfl) (by rw [hs', hy.op]; rfl) (by rw [hs']; rfl)]
            rw [hs']
            rfl)
        refine ⟨pa, ?_⟩
        rw [List.append_assoc, List.append_assoc, List.append_assoc, run_append, h0, Option.bind_some,
          run_append, run_styles (s := (⟨{ s.gs with path := [(path, s.gs.ctm)] },
            ({ s.gs with path := [(path, s.gs.ctm)] } : GS K P F) :: s.stack, s.out⟩ : St K P F)) w0 hs f,
          Option.bind_some, run_append,
          fill_run c (y.applyAll w0 true f) _ path (by rw [rule_applyAll _ _ _ _ hf]; exact h.crule) rfl rfl rfl,
          Option.bind_some, run_append]
        have hg : ∀ (g g' : GS K P F) st o, run [PTok.grestore] (⟨g, g' :: st, o⟩ : St K P F) = some ⟨g', st, o⟩ :=
          fun _ _ _ _ => rfl
        rw [hg, Option.bind_some]
        have e : ∀ (g : GS K P F) (yy : Sty K), (setSty g yy).ctm = g.ctm ∧ (setSty g yy).clips = g.clips :=
          fun _ _ => ⟨rfl, rfl⟩
        simp only [e]
        rw [hw]
        simp

theorem strokePart_draws (w0 : K) {c : PCtx K F} {y : Sty K} {s : St K P F} (h : Sync c y s.gs) (path : P)
    (sp : Option P) (fs ss : Option (List (Style K))) :
    Draws (psStrokePart w0 c path sp fs ss) s (strokeMarks w0 y path sp fs ss) s.gs.font := by
  cases ss with
  | none => exact Draws.nil s
  | some l =>
    simp only [psStrokePart, strokeMarks]
    split
    · have := wrap_draws w0 h l [.newpath, .path (sp.getD path), .stroke]
        [strokeMark (y.applyAll w0 true l) (sp.getD path)] s.gs.font (by
          intro s' hs'
          refine ⟨[], ?_⟩
          have hy := sync_applyAll w0 h l
          have h0 : run [PTok.newpath, .path (sp.getD path), .stroke] s' = run [.stroke]
            ⟨{ s'.gs with path := [(sp.getD path, s'.gs.ctm)] }, s'.stack, s'.out⟩ := rfl
          rw [h0, stroke_run (y.applyAll w0 true l) _ (sp.getD path) (by rw [hs']; rfl) (by rw [hs']; rfl)
              (by rw [hs']; rfl) (by rw [hs', hy.col]; rfl) (by rw [hs', hy.op]; rfl) (by rw [hs'])]
          rw [hs']
          rfl)
      simpa using this
    · exact Draws.nil s

theorem place_place (T t : Trafo K) (cl c : List P) (k : Mark K P F) :
    place T cl (place t c k) = place (T.mul t) ((c.map fun p => PathLike.transformed p T) ++ cl) k := by
  simp [place, Trafo.mul_assoc, PathLike.transformed_mul]

/-- Entering a canvas with attributes. -/
theorem begin_run (w0 : K) {c : PCtx K F} {y : Sty K} {s : St K P F} (h : Sync c y s.gs)
    (attrs : List (Attr K P)) (cv : CV K P) (hcv : build attrs = some cv) :
    ∃ pa, run (psBegin cv (psStyles w0 c (stylesOf attrs))) s =
      some ⟨{ setSty s.gs (y.applyAll w0 true (stylesOf attrs)) with
        ctm := s.gs.ctm.mul cv.trafo,
        clips := (cv.clip.toList.map fun p => PathLike.transformed p s.gs.ctm) ++ s.gs.clips,
        path := pa }, s.gs :: s.stack, s.out⟩ := by
  unfold psBegin
  have h0 : run [PTok.gsave] s = some ⟨s.gs, s.gs :: s.stack, s.out⟩ := rfl
  rw [List.append_assoc, List.append_assoc, run_append, h0, Option.bind_some, run_append,
      run_styles (s := (⟨s.gs, s.gs :: s.stack, s.out⟩ : St K P F)) w0 h (stylesOf attrs), Option.bind_some,
      run_append]
  have ht := build_hasTrafo attrs cv hcv
  cases hc : cv.clip with
  | none =>
    refine ⟨s.gs.path, ?_⟩
    simp only [run, Option.bind_some]
    cases hb : cv.hasTrafo with
    | true => simp [run, step, setSty]
    | false => simp [run, setSty, ht hb, mul_one]
  | some p =>
    refine ⟨[(p, s.gs.ctm)], ?_⟩
    simp only [run, step, setSty, Option.bind_some, List.nil_append]
    cases hb : cv.hasTrafo with
    | true => simp [run, step]
    | false => simp [run, ht hb, mul_one]

theorem fsync_psCtx {known : Bool} {c : PCtx K F} {g g' : GS K P F} (h : FSync known c g) (hg : g'.font = g.font)
    (l : List (Style K)) : FSync known (psCtx c l) g' := by
  unfold FSync
  rw [psCtx_font, hg]
  exact h

theorem wrap_draws' (w0 : K) {c : PCtx K F} {y : Sty K} {s : St K P F} (h : Sync c y s.gs)
    (l : List (Style K)) (inner : List (PTok K P F)) (ms : List (Mark K P F)) (Q : Option F → Prop)
    (hi : ∀ s' : St K P F, s'.gs = setSty s.gs (y.applyAll w0 true l) → ∃ fo, Draws inner s' ms fo ∧ Q fo) :
    ∃ fo, Draws (psWrap l (psStyles w0 c l) inner) s ms fo ∧ (l ≠ [] → fo = s.gs.font) ∧ (l = [] → Q fo) := by
  cases l with
  | nil =>
    obtain ⟨fo, h1, h2⟩ := hi s (set_sync h).symm
    exact ⟨fo, h1, by simp, fun _ => h2⟩
  | cons t l =>
    refine ⟨s.gs.font, ?_, fun _ => rfl, by simp⟩
    unfold psWrap
    simp only [List.isEmpty_cons, Bool.false_eq_true, if_false]
    obtain ⟨fo, ⟨pa, hr⟩, -⟩ := hi ⟨setSty s.gs (y.applyAll w0 true (t :: l)), s.gs :: s.stack, s.out⟩ rfl
    refine ⟨s.gs.path, ?_⟩
    rw [List.append_assoc, List.append_assoc, run_append]
    have h0 : run [PTok.gsave] s = some ⟨s.gs, s.gs :: s.stack, s.out⟩ := rfl
    rw [h0, Option.bind_some, run_append,
      run_styles (s := (⟨s.gs, s.gs :: s.stack, s.out⟩ : St K P F)) w0 h (t :: l), Option.bind_some,
      run_append, hr]
    rfl

/-- The caller's context still knows the right font. -/
theorem fsync_caller {known : Bool} {c : PCtx K F} {g : GS K P F} (hk : FSync known c g) {fo : Option F}
    (b sh : Prop) (hb : b → fo = g.font) (hn : ¬ b → sh → fo = g.font) (hs : known = true → ¬ b → sh) :
    FSync known c { g with font := fo } := by
  refine ⟨hk.1, fun f e => ?_⟩
  have hg := hk.2 f e
  show fo = some f
  by_cases h : b
  · rw [hb h]; exact hg
  · cases known with
    | false => rw [hk.1 rfl] at e; exact absurd e (by simp)
    | true => rw [hn h (hs rfl h)]; exact hg

mutual
theorem item_draws (w0 : K) (tap : Bool) (i : Item K P F) (c : PCtx K F) (y : Sty K) (s : St K P F)
    (known : Bool) (hw : WF i) (hr : NoRule i) (hf : FontOK tap known i) (h : Sync c y s.gs)
    (hk : FSync known c s.gs) :
    ∃ fo, Draws (psItem w0 tap c i).1 s (pic w0 true tap y i) fo ∧
      (shows tap i = false → fo = s.gs.font) ∧
      FSync (known || isText tap i) (psItem w0 tap c i).2 { s.gs with font := fo } ∧
      (psItem w0 tap c i).2.lw = c.lw ∧ (psItem w0 tap c i).2.rule = c.rule := by
  cases i with
  | text f t1 o =>
    rw [psItem, pic, shows, isText]
    by_cases ht : (tap && t1) = true
    · rw [if_pos ht, if_pos ht]
      refine ⟨s.gs.font, ⟨[], ?_⟩, fun _ => rfl, ?_, rfl, rfl⟩
      · have h0 : run [PTok.newpath, .path o] s =
            some ⟨{ s.gs with path := [(o, s.gs.ctm)] }, s.stack, s.out⟩ := rfl
        have h1 := fill_run c y ⟨{ s.gs with path := [(o, s.gs.ctm)] }, s.stack, s.out⟩ o h.crule h.gcol h.gop rfl
        rw [run_append, h0, Option.bind_some, h1]
        rfl
      · rw [ht]; simpa using hk
    · rw [if_neg ht, if_neg ht]
      refine ⟨some f, ⟨s.gs.path, ?_⟩, fun e => by simp [ht] at e, ?_, rfl, rfl⟩
      · unfold psText
        by_cases hcf : c.font = some f
        · have hgf := hk.2 f hcf
          rw [if_pos hcf]
          simp only [List.nil_append, run, step, hgf, Option.bind_some, List.map_cons, List.map_nil, place,
            mul_one, h.gcol, h.gop, Option.some.injEq, List.map_nil, List.nil_append]
          rw [← h.gcol, ← h.gop, ← hgf]
        · rw [if_neg hcf]
          simp [run, step, place, mul_one, h.gcol, h.gop]
      · refine ⟨fun e => ?_, fun f' e => e⟩
        simp [ht] at e
  | field r =>
    rw [psItem, pic, shows, isText]
    refine ⟨s.gs.font, Draws.nil s, fun _ => rfl, by simpa using hk, rfl, rfl⟩
  | dp path sp sty fs ss orn =>
    rw [WF] at hw
    rw [NoRule] at hr
    rw [FontOK] at hf
    rw [psItem, pic, shows, isText, ← marks_eq]
    have hs' := sync_applyAll w0 h sty
    obtain ⟨fo, h1, h2, h3⟩ := wrap_draws' w0 h sty (psFillPart w0 (psCtx c sty) path sp fs ss ++
          psStrokePart w0 (psCtx c sty) path sp fs ss ++ (psItems w0 tap (psCtx c sty) orn).1)
        (fillMarks w0 (y.applyAll w0 true sty) path sp fs ss ++
            strokeMarks w0 (y.applyAll w0 true sty) path sp fs ss ++
            pics w0 true tap (y.applyAll w0 true sty) orn)
        (fun fo => showss tap orn = false → fo = s.gs.font) (by
      intro s' e
      rw [← e] at hs'
      obtain ⟨pa1, d1⟩ := fillPart_draws w0 hs' path sp fs ss hr.1
      obtain ⟨pa2, d2⟩ := strokePart_draws
        (s := (⟨{ s'.gs with path := pa1 }, s'.stack, s'.out ++
          (fillMarks w0 (y.applyAll w0 true sty) path sp fs ss).map (place s'.gs.ctm s'.gs.clips)⟩ : St K P F))
        w0 (sync_fp hs' s'.gs.font pa1) path sp fs ss
      obtain ⟨fo, ⟨pa3, d3⟩, hfo, -, -⟩ := items_draws w0 tap orn (psCtx c sty) (y.applyAll w0 true sty)
        ⟨{ s'.gs with path := pa2 }, s'.stack, s'.out ++
          (fillMarks w0 (y.applyAll w0 true sty) path sp fs ss).map (place s'.gs.ctm s'.gs.clips) ++
          (strokeMarks w0 (y.applyAll w0 true sty) path sp fs ss).map (place s'.gs.ctm s'.gs.clips)⟩
        known hw hr.2 hf.2 (sync_fp hs' s'.gs.font pa2)
        (fsync_psCtx hk (by show s'.gs.font = _; rw [e]; rfl) sty)
      refine ⟨fo, ⟨pa3, ?_⟩, ?_⟩
      · rw [List.append_assoc]
        refine run_seq d1 (run_seq d2 (d3.trans ?_))
        simp
      · intro hsh
        rw [hfo hsh]
        show s'.gs.font = s.gs.font
        rw [e]; rfl)
    refine ⟨fo, h1, ?_, ?_, rfl, rfl⟩
    · intro e
      by_cases he : sty = []
      · exact h3 he (by simpa [he] using e)
      · exact h2 he
    · simp only [Bool.or_false]
      exact fsync_caller hk (sty ≠ []) (showss tap orn = false) h2 (fun a b => h3 (not_not.mp a) b)
        (fun a b => hf.1 a (not_not.mp b))
  | cv attrs items =>
    rw [WF] at hw
    rw [NoRule] at hr
    rw [FontOK] at hf
    rw [psItem, pic, shows, isText]
    obtain ⟨cv, hcv⟩ := Option.isSome_iff_exists.mp hw.1
    have hof : cvOf attrs = cv := by rw [cvOf, hcv]; rfl
    have hpl : (fun k : Mark K P F => attrs.foldl Mark.attr k) = place cv.trafo cv.clip.toList :=
      funext fun k => build_attr attrs cv hcv k
    rw [hpl]
    by_cases hi : items.isEmpty = true
    · refine ⟨s.gs.font, ?_, fun _ => rfl, ?_, rfl, rfl⟩
      · cases items with
        | nil => rw [pics]; exact Draws.nil s
        | cons i l => simp [Items.isEmpty] at hi
      · simpa using hk
    · rw [if_neg hi]
      by_cases ha : attrs = []
      · subst ha
        simp only [build, Option.some.injEq] at hcv
        subst hcv
        have e0 : (stylesOf ([] : List (Attr K P))) = [] := rfl
        have e1 : y.applyAll w0 true [] = y := rfl
        simp only [List.isEmpty_nil, if_true, e0, e1]
        obtain ⟨fo, d, hfo, -, -⟩ := items_draws w0 tap items c y s known hw.2 hr hf.2 h hk
        have e2 : (place Trafo.one [] : Mark K P F → Mark K P F) = id := by
          funext k
          cases k
          simp [place, one_mul, PathLike.transformed_one]
        refine ⟨fo, ?_, ?_, ?_, trivial, trivial⟩
        · simp only [Option.toList_none, e2, List.map_id_fun, id_eq]
          exact d
        · simpa using hfo
        · simp only [Bool.or_false]
          exact fsync_caller hk False (showss tap items = false) False.elim (fun _ => hfo)
            (fun a _ => hf.1 a rfl)
      · rw [if_neg (by simpa using ha), hof]
        refine ⟨s.gs.font, ⟨s.gs.path, ?_⟩, fun _ => rfl, ?_, rfl, rfl⟩
        · obtain ⟨pa, hb⟩ := begin_run w0 h attrs cv hcv
          have hs' := sync_applyAll w0 h (stylesOf attrs)
          obtain ⟨fo, ⟨pa', d⟩, -, -, -⟩ := items_draws w0 tap items (psCtx c (stylesOf attrs))
            (y.applyAll w0 true (stylesOf attrs))
            ⟨{ setSty s.gs (y.applyAll w0 true (stylesOf attrs)) with
              ctm := s.gs.ctm.mul cv.trafo,
              clips := (cv.clip.toList.map fun p => PathLike.transformed p s.gs.ctm) ++ s.gs.clips,
              path := pa }, s.gs :: s.stack, s.out⟩ known hw.2 hr hf.2
            ⟨hs'.clw, hs'.crule, hs'.col, hs'.lw, hs'.dash, hs'.param, hs'.gcol, hs'.op, hs'.gop⟩ (fsync_psCtx hk rfl _)
          rw [List.append_assoc]
          refine run_seq hb (run_seq d ?_)
          simp only [Option.bind_some, run, step, List.map_map]
          congr 3
          refine List.map_congr_left fun k _ => ?_
          rw [Function.comp_apply, place_place]
        · simpa using hk
theorem items_draws (w0 : K) (tap : Bool) (l : Items K P F) (c : PCtx K F) (y : Sty K) (s : St K P F)
    (known : Bool) (hw : WFs l) (hr : NoRules l) (hf : FontOKs tap known l) (h : Sync c y s.gs)
    (hk : FSync known c s.gs) :
    ∃ fo, Draws (psItems w0 tap c l).1 s (pics w0 true tap y l) fo ∧
      (showss tap l = false → fo = s.gs.font) ∧
      (psItems w0 tap c l).2.lw = c.lw ∧ (psItems w0 tap c l).2.rule = c.rule := by
  cases l with
  | nil =>
    rw [psItems, pics]
    exact ⟨s.gs.font, Draws.nil s, fun _ => rfl, rfl, rfl⟩
  | cons i l =>
    rw [WFs] at hw
    rw [NoRules] at hr
    rw [FontOKs] at hf
    rw [psItems, pics, showss]
    obtain ⟨fo, ⟨pa, d⟩, hfo, hk', hl, hru⟩ := item_draws w0 tap i c y s known hw.1 hr.1 hf.1 h hk
    have hsy : Sync (psItem w0 tap c i).2 y s.gs := ⟨hl.trans h.clw, hru.trans h.crule, h.col, h.lw, h.dash, h.param, h.gcol, h.op, h.gop⟩
    obtain ⟨fo', ⟨pa', d'⟩, hfo', hl', hru'⟩ := items_draws w0 tap l (psItem w0 tap c i).2 y
      ⟨{ s.gs with font := fo, path := pa }, s.stack, s.out ++ (pic w0 true tap y i).map (place s.gs.ctm s.gs.clips)⟩
      (known || isText tap i) hw.2 hr.2 hf.2 (sync_fp hsy fo pa) hk'
    refine ⟨fo', ⟨pa', ?_⟩, ?_, hl'.trans hl, hru'.trans hru⟩
    · rw [run_append, d, Option.bind_some]
      refine Eq.trans d' ?_
      simp
    · intro e
      rw [Bool.or_eq_false_iff] at e
      rw [hfo' e.2]
      exact hfo e.1
end

/-! ## Every tree: saves and restores -/

/-- Operators which change nothing but font, current path and page. -/
def plain : PTok K P F → Bool
  | .newpath | .path _ | .fill | .eofill | .stroke | .selectfont _ | .show _ => true
  | _ => false

/-- Not a save or restore. -/
def noStack : PTok K P F → Bool
  | .gsave | .grestore => false
  | _ => true

/-- Balanced streams. -/
inductive Balanced : List (PTok K P F) → Prop
  | nil : Balanced []
  | tok (t : PTok K P F) (h : noStack t = true) : Balanced [t]
  | app {a b : List (PTok K P F)} : Balanced a → Balanced b → Balanced (a ++ b)
  | wrap {a : List (PTok K P F)} : Balanced a → Balanced ([.gsave] ++ a ++ [.grestore])

/-- Streams in which everything but font and current path is changed between a save and its restore
only. -/
inductive Neutral : List (PTok K P F) → Prop
  | nil : Neutral []
  | tok (t : PTok K P F) (h : plain t = true) : Neutral [t]
  | app {a b : List (PTok K P F)} : Neutral a → Neutral b → Neutral (a ++ b)
  | wrap {a : List (PTok K P F)} : Balanced a → Neutral ([.gsave] ++ a ++ [.grestore])

theorem Neutral.balanced {a : List (PTok K P F)} (h : Neutral a) : Balanced a := by
  induction h with
  | nil => exact .nil
  | tok t ht => exact .tok t (by cases t <;> simp_all [plain, noStack])
  | app _ _ h1 h2 => exact .app h1 h2
  | wrap h => exact .wrap h

theorem run_app_inv {a b : List (PTok K P F)} {s s' : St K P F} (h : run (a ++ b) s = some s') :
    ∃ m, run a s = some m ∧ run b m = some s' := by
  rw [run_append] at h
  exact Option.bind_eq_some_iff.mp h

theorem Balanced.stack {a : List (PTok K P F)} (h : Balanced a) : ∀ s s' : St K P F, run a s = some s' →
    s'.stack = s.stack := by
  induction h with
  | nil => intro s s' h; simp only [run, Option.some.injEq] at h; rw [h]
  | tok t ht =>
    intro s s' h
    rw [run_one] at h
    cases t <;> simp only [noStack, Bool.false_eq_true] at ht <;> simp only [step, paint] at h <;>
      first
      | (simp only [Option.some.injEq] at h; rw [← h])
      | (split at h <;> simp only [Option.some.injEq, reduceCtorEq] at h; rw [← h])
  | app _ _ h1 h2 =>
    intro s s' h
    obtain ⟨m, ha, hb⟩ := run_app_inv h
    rw [h2 _ _ hb, h1 _ _ ha]
  | wrap _ ih =>
    intro s s' h
    obtain ⟨m, h1, h2⟩ := run_app_inv h
    obtain ⟨m', h3, h4⟩ := run_app_inv h1
    have e : m' = ⟨s.gs, s.gs :: s.stack, s.out⟩ := by
      simp only [run, step, Option.bind_some, Option.some.injEq] at h3
      exact h3.symm
    have hs := ih _ _ h4
    rw [e] at hs
    simp only [run, step, hs, Option.bind_some, Option.some.injEq] at h2
    rw [← h2]

theorem Neutral.state {a : List (PTok K P F)} (h : Neutral a) : ∀ s s' : St K P F, run a s = some s' →
    s'.stack = s.stack ∧ ∃ fo pa, s'.gs = { s.gs with font := fo, path := pa } := by
  intro s s' hr
  refine ⟨h.balanced.stack s s' hr, ?_⟩
  induction h generalizing s s' with
  | nil => simp only [run, Option.some.injEq] at hr; rw [← hr]; exact ⟨_, _, rfl⟩
  | tok t ht =>
    rw [run_one] at hr
    cases t <;> simp only [plain, Bool.false_eq_true] at ht <;> simp only [step, paint] at hr <;>
      first
      | (simp only [Option.some.injEq] at hr; rw [← hr]; exact ⟨_, _, rfl⟩)
      | (split at hr <;> simp only [Option.some.injEq, reduceCtorEq] at hr; rw [← hr]; exact ⟨_, _, rfl⟩)
  | app _ _ h1 h2 =>
    obtain ⟨m, ha, hb⟩ := run_app_inv hr
    obtain ⟨fo, pa, e⟩ := h1 _ _ ha
    obtain ⟨fo', pa', e'⟩ := h2 _ _ hb
    exact ⟨fo', pa', by rw [e', e]⟩
  | wrap hb =>
    obtain ⟨m, h1, h2⟩ := run_app_inv hr
    obtain ⟨m', h3, h4⟩ := run_app_inv h1
    have e : m' = ⟨s.gs, s.gs :: s.stack, s.out⟩ := by
      simp only [run, step, Option.bind_some, Option.some.injEq] at h3
      exact h3.symm
    have hs := hb.stack _ _ h4
    rw [e] at hs
    simp only [run, step, hs, Option.bind_some, Option.some.injEq] at h2
    rw [← h2]
    exact ⟨_, _, rfl⟩

theorem styles_balanced (w0 : K) (c : PCtx K F) (l : List (Style K)) :
    Balanced (psStyles w0 c l : List (PTok K P F)) := by
  induction l generalizing c with
  | nil => exact .nil
  | cons t l ih =>
    rw [psStyles]
    refine .app ?_ (ih _)
    cases t <;> simp only [psStyle] <;> first
      | exact .tok _ rfl
      | exact .nil
      | exact .app (.tok _ rfl) (.tok _ rfl)

theorem wrap_neutral (w0 : K) (c : PCtx K F) (l : List (Style K)) {inner : List (PTok K P F)} (h : Neutral inner) :
    Neutral (psWrap l (psStyles w0 c l) inner) := by
  unfold psWrap
  split
  · exact h
  · rw [List.append_assoc [PTok.gsave]]
    exact .wrap (.app (styles_balanced w0 c l) h.balanced)

theorem fill_neutral (c : PCtx K F) : Neutral (psFill c : List (PTok K P F)) := by
  unfold psFill
  split <;> exact .tok _ rfl

theorem fillPart_neutral (w0 : K) (c : PCtx K F) (path : P) (sp : Option P) (fs ss : Option (List (Style K))) :
    Neutral (psFillPart w0 c path sp fs ss) := by
  cases fs with
  | none => exact .nil
  | some f =>
    have h1 : Neutral ([.newpath, .path path] ++ psWrap f (psStyles w0 c f) (psFill c)) :=
      .app (.app (.tok _ rfl) (.tok _ rfl)) (wrap_neutral w0 c f (fill_neutral c))
    cases ss with
    | none => cases sp <;> exact h1
    | some l =>
      cases sp with
      | some sp => exact h1
      | none =>
        simp only [psFillPart]
        have e : [PTok.newpath, .path path, .gsave] ++ psStyles w0 c f ++ psFill c ++ [.grestore] ++
            psWrap l (psStyles w0 c l) [.stroke] = [PTok.newpath] ++ ([PTok.path path] ++
            (([PTok.gsave] ++ (psStyles w0 c f ++ psFill c) ++ [.grestore]) ++
            psWrap l (psStyles w0 c l) [.stroke])) := by simp
        rw [e]
        exact .app (.tok _ rfl) (.app (.tok _ rfl) (.app
          (.wrap (.app (styles_balanced w0 c f) (fill_neutral c).balanced))
          (wrap_neutral w0 c l (.tok _ rfl))))

theorem strokePart_neutral (w0 : K) (c : PCtx K F) (path : P) (sp : Option P) (fs ss : Option (List (Style K))) :
    Neutral (psStrokePart w0 c path sp fs ss) := by
  cases ss with
  | none => exact .nil
  | some l =>
    simp only [psStrokePart]
    split
    · exact wrap_neutral w0 c l (.app (a := [_]) (.tok _ rfl) (.app (a := [_]) (.tok _ rfl) (.tok _ rfl)))
    · exact .nil

mutual
theorem item_neutral (w0 : K) (tap : Bool) (c : PCtx K F) (i : Item K P F) :
    Neutral (psItem w0 tap c i).1 := by
  cases i with
  | text f t1 o =>
    rw [psItem]
    split
    · exact .app (.app (a := [_]) (.tok _ rfl) (.tok _ rfl)) (fill_neutral c)
    · unfold psText
      refine .app ?_ (.tok _ rfl)
      split
      · exact .nil
      · exact .tok _ rfl
  | field r => rw [psItem]; exact .nil
  | dp path sp sty fs ss orn =>
    rw [psItem]
    exact wrap_neutral w0 c sty (.app (.app (fillPart_neutral ..) (strokePart_neutral ..))
      (items_neutral w0 tap _ orn))
  | cv attrs items =>
    rw [psItem]
    split
    · exact .nil
    · split
      · exact items_neutral w0 tap c items
      · unfold psBegin
        rw [List.append_assoc [PTok.gsave], List.append_assoc [PTok.gsave],
          List.append_assoc [PTok.gsave]]
        refine .wrap (.app (.app (.app (styles_balanced ..) ?_) ?_) (items_neutral w0 tap _ items).balanced)
        · cases (cvOf attrs).clip with
          | none => exact .nil
          | some p => exact .app (a := [_]) (.tok _ rfl) (.app (a := [_]) (.tok _ rfl) (.tok _ rfl))
        · split
          · exact .tok _ rfl
          · exact .nil
theorem items_neutral (w0 : K) (tap : Bool) (c : PCtx K F) (l : Items K P F) :
    Neutral (psItems w0 tap c l).1 := by
  cases l with
  | nil => rw [psItems]; exact .nil
  | cons i l => rw [psItems]; exact .app (item_neutral w0 tap c i) (items_neutral w0 tap _ l)
end

end PS

/-! ## C33 and C34 for PostScript -/

/-- **C33.**  In the PostScript stream of any tree every `gsave` has its `grestore`, and once an item (in
particular an inserted canvas) has been drawn the graphics state is as before, except for the selected
font and the current path. -/
theorem ps_state_restored (w0 : K) (tap : Bool) (c : PCtx K F) (i : Item K P F) (s s' : PS.St K P F)
    (h : PS.run (psItem w0 tap c i).1 s = some s') :
    s'.stack = s.stack ∧ ∃ fo pa, s'.gs = { s.gs with font := fo, path := pa } :=
  (PS.item_neutral w0 tap c i).state s s' h

/-- **C33, C34.**  The PostScript stream of a canvas tree runs without error and makes exactly the marks
of the picture of the tree, in order: every path and text with the product of the transformations of
the canvases around it, all their clips, and the style in force.  Missing: fill rules in the fill
styles of a path (`ps_fillrule_ignored`), texts in canvases without attributes after texts
(`ps_wrong_font`). -/
theorem ps_picture_partial (w0 : K) (tap : Bool) (attrs : List (Attr K P)) (items : Items K P F) (c : PCtx K F)
    (y : Sty K) (s : PS.St K P F) (hw : WF (.cv attrs items)) (hr : NoRules items)
    (hf : FontOKs tap false items) (hc : c.font = none) (h : PS.Sync c y s.gs) :
    ∃ s', PS.run (psItem w0 tap c (.cv attrs items)).1 s = some s' ∧
      s'.stack = s.stack ∧ (∃ fo pa, s'.gs = { s.gs with font := fo, path := pa }) ∧
      s'.out = s.out ++ (pic w0 true tap y (.cv attrs items)).map (place s.gs.ctm s.gs.clips) := by
  obtain ⟨fo, ⟨pa, hd⟩, -⟩ := PS.item_draws w0 tap (.cv attrs items) c y s false hw (by rw [NoRule]; exact hr)
    (by rw [FontOK]; exact ⟨fun e => by simp at e, hf⟩) h ⟨fun _ => hc, fun f e => by rw [hc] at e; simp at e⟩
  exact ⟨_, hd, rfl, ⟨_, _, rfl⟩, rfl⟩

/-! ## Instance and witnesses -/

/-- Paths as lists of points. -/
instance pointPath : PathLike ℚ (List (ℚ × ℚ)) where
  transformed p t := p.map t.apply
  bbox p := p.foldl (fun b x => BBox.includepoint b x.1 x.2) none
  inside p x := x ∈ p
  transformed_mul p s t := by simp [List.map_map, Function.comp_def, Trafo.mul_apply]
  transformed_one p := by
    have : (Trafo.one : Trafo ℚ).apply = id := by funext x; simp [Trafo.one, Trafo.apply]
    rw [this, List.map_id]
  inside_transformed p t y := by simp
  inside_bbox p x h := by
    have key : ∀ (p : List (ℚ × ℚ)) (b : BBox ℚ), (x ∈ p ∨ ∃ q, b = some q ∧ q.llx ≤ x.1 ∧ x.1 ≤ q.urx ∧
        q.lly ≤ x.2 ∧ x.2 ≤ q.ury) → ∃ q, p.foldl (fun b x => BBox.includepoint b x.1 x.2) b = some q ∧
        q.llx ≤ x.1 ∧ x.1 ≤ q.urx ∧ q.lly ≤ x.2 ∧ x.2 ≤ q.ury := by
      intro p
      induction p with
      | nil => rintro b (h | h); · simp at h
               exact h
      | cons z p ih =>
        intro b h
        rw [List.foldl_cons]
        refine ih _ ?_
        rcases h with h | ⟨q, rfl, h⟩
        · rcases List.mem_cons.mp h with rfl | h
          · right
            cases b with
            | none => exact ⟨_, rfl, by simp⟩
            | some q => exact ⟨_, rfl, by simp⟩
          · exact Or.inl h
        · right
          refine ⟨_, rfl, ?_⟩
          simp only [le_max_iff, min_le_iff]
          exact ⟨Or.inl h.1, Or.inl h.2.1, Or.inl h.2.2.1, Or.inl h.2.2.2⟩
    exact key p none (Or.inl h)

/-- What a viewer sees of the ink: fill rule and colour, colour and width, or font and colour. -/
def Ink.key : Ink ℚ ℕ → ℕ × Bool × ℚ × Col
  | .fill r c _ => (0, r, 0, c)
  | .stroke c _ w _ _ => (1, false, w, c)
  | .text f c _ => (f + 2, false, 0, c)
  | .field => (0, false, 0, .dev 0)

/-- The context, graphics state and style at the beginning of a page. -/
def ctx0 : PCtx ℚ ℕ := ⟨1, none, false⟩
def st0 : PS.St ℚ (List (ℚ × ℚ)) ℕ := ⟨⟨Trafo.one, [], 1, ([], 0), fun _ => 0, .dev 0, 1, none, []⟩, [], []⟩
def sty0 : Sty ℚ := ⟨1, ([], 0), fun _ => 0, false, .dev 0, .dev 0, 1, 1⟩

theorem sync0 : PS.Sync ctx0 sty0 st0.gs := ⟨rfl, rfl, rfl, rfl, rfl, rfl, rfl, rfl, rfl⟩

/-- A square. -/
def sq : List (ℚ × ℚ) := [(0, 0), (2, 0), (2, 2), (0, 2)]

/-- A text, a canvas moved, clipped and with a wide line containing a filled and stroked square and a
text of another size, and a text again. -/
def demo : Items ℚ (List (ℚ × ℚ)) ℕ :=
  .cons (.text 10 true [(0, 0)])
  (.cons (.cv [.trafo (Trafo.translate 1 2), .clip sq, .trafo ⟨2, 0, 0, 2, 0, 0⟩, .style (.linewidth 3)]
    (.cons (.dp sq none [.color 5] (some []) (some [.dash [1, 2] 0 true]) .nil)
    (.cons (.text 12 true [(1, 1)]) .nil)))
  (.cons (.text 10 true [(5, 5)]) .nil))

/-- The hypotheses of `ps_picture_partial` hold for it. -/
example : ∃ s', PS.run (psItem 1 false ctx0 (.cv [] demo)).1 st0 = some s' ∧
    s'.out = (pic 1 true false sty0 (.cv [] demo)).map (place Trafo.one []) := by
  obtain ⟨s', h1, -, -, h2⟩ := ps_picture_partial 1 false [] demo ctx0 sty0 st0
    ⟨rfl, ⟨trivial, ⟨rfl, trivial, trivial, trivial⟩, trivial, trivial⟩⟩
    ⟨trivial, ⟨⟨fun f h s hs => by
      simp only [Option.some.injEq] at h; subst h; simp at hs, trivial⟩, trivial, trivial⟩, trivial, trivial⟩
    ⟨trivial, ⟨fun _ h => by simp at h, ⟨⟨fun _ h => by simp at h, trivial⟩, trivial, trivial⟩⟩, trivial, trivial⟩
    rfl sync0
  exact ⟨s', h1, h2⟩

/-- The marks of the example: place, clips, and ink. -/
example : (pic 1 true false sty0 (.cv [] demo)).map (fun k => k.path.map k.T.apply) =
    [[(0, 0)], [(2, 4), (6, 4), (6, 8), (2, 8)], [(2, 4), (6, 4), (6, 8), (2, 8)], [(4, 6)], [(5, 5)]] := by
  decide +kernel

example : (pic 1 true false sty0 (.cv [] demo)).map (fun k => k.clips) =
    [[], [[(0, 0), (4, 0), (4, 4), (0, 4)]], [[(0, 0), (4, 0), (4, 4), (0, 4)]],
     [[(0, 0), (4, 0), (4, 4), (0, 4)]], []] := by
  decide +kernel

example : (pic 1 true false sty0 (.cv [] demo)).map (fun k => k.ink.key) =
    [(12, false, 0, .dev 0), (0, false, 0, .dev 5), (1, false, 3, .dev 5), (14, false, 0, .dev 0),
     (12, false, 0, .dev 0)] := by decide +kernel

/-- The full statement: without conditions on fill rules and fonts. -/
def PsPicture : Prop :=
  ∀ (tap : Bool) (items : Items ℚ (List (ℚ × ℚ)) ℕ), WFs items →
    ∃ s', PS.run (psItem 1 tap ctx0 (.cv [] items)).1 st0 = some s' ∧
      s'.out.map (fun k => k.ink.key) = (pic 1 true tap sty0 (.cv [] items)).map (fun k => k.ink.key)

/-- A fill rule given to `deco.filled` is ignored: the context it is stored in is thrown away
(`pyx/deco.py:151-156,174-179`). -/
theorem ps_fillrule_ignored : ¬ PsPicture := by
  intro h
  obtain ⟨s', h1, h2⟩ := h false (.cons (.dp sq none [] (some [.fillrule true]) none .nil) .nil)
    ⟨trivial, trivial⟩
  have h3 : PS.run (psItem 1 false ctx0 (.cv [] (.cons (.dp sq none [] (some [.fillrule true]) none .nil) .nil))).1
      st0 = some ⟨{ st0.gs with path := [(sq, Trafo.one)] }, [], [⟨.fill false (.dev 0) 1, sq, Trafo.one, []⟩]⟩ := rfl
  rw [h3, Option.some.injEq] at h1
  subst h1
  exact absurd h2 (by decide +kernel)

/-- A canvas without attributes works on a copy of the context (`pyx/canvas.py:195`) but writes neither
`gsave` nor `grestore`: the font selected in it stays selected while the context of the caller still
holds the old one.  The third text is set in the font of the second. -/
theorem ps_wrong_font : ∃ items : Items ℚ (List (ℚ × ℚ)) ℕ, WFs items ∧ NoRules items ∧
    ∃ s', PS.run (psItem 1 false ctx0 (.cv [] items)).1 st0 = some s' ∧
      s'.out.map (fun k => k.ink.key.1) = [12, 14, 14] ∧
      (pic 1 true false sty0 (.cv [] items)).map (fun k => k.ink.key.1) = [12, 14, 12] := by
  refine ⟨.cons (.text 10 true [(0, 0)]) (.cons (.cv [] (.cons (.text 12 true [(1, 0)]) .nil))
    (.cons (.text 10 true [(2, 0)]) .nil)), ⟨trivial, ⟨rfl, trivial, trivial⟩, trivial, trivial⟩,
    ⟨trivial, ⟨trivial, trivial⟩, trivial, trivial⟩, _, rfl, ?_, ?_⟩ <;> decide +kernel

end PyX.Canvas
