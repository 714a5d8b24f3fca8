import Verif.Canvas.PsProps

/-!
# C33, C34 (PDF): the stream of a canvas tree draws the picture of the tree, text sections are well formed
-/

set_option linter.unusedSectionVars false

namespace PyX.Canvas

variable {K P F : Type} [Field K] [LinearOrder K] [PathLike K P] [DecidableEq F]

/-- Is it a pattern? -/
def Style.isPattern : Style K → Bool
  | .pattern _ => true
  | _ => false

/-- Is it a plain colour or an opacity? -/
def Style.isColor : Style K → Bool
  | .color _ => true
  | .opacity _ => true
  | _ => false

mutual
/-- No patterns; styles of fillings are plain colours and opacities (no fill rules); with `textaspath` all fonts have
a font file. -/
def PdfOK (tap : Bool) : Item K P F → Prop
  | .text _ t1 _ => tap = true → t1 = true
  | .field _ => True
  | .dp _ _ sty fs ss orn => (∀ t ∈ sty, t.isPattern = false) ∧ (∀ f, fs = some f → ∀ t ∈ f, t.isColor = true) ∧
      (∀ f, ss = some f → ∀ t ∈ f, t.isPattern = false) ∧ PdfOKs tap orn
  | .cv attrs items => (∀ t ∈ stylesOf attrs, t.isPattern = false) ∧ PdfOKs tap items
def PdfOKs (tap : Bool) : Items K P F → Prop
  | .nil => True
  | .cons i l => PdfOK tap i ∧ PdfOKs tap l
end

namespace PDF

theorem run_append (b : Bool) (x y : List (DTok K P F)) (s : St K P F) :
    run b (x ++ y) s = (run b x s).bind (run b y) := by
  induction x generalizing s with
  | nil => rfl
  | cons t x ih =>
    rw [List.cons_append, run, run]
    cases step b s t with
    | none => rfl
    | some s' => simp only [Option.bind_some]; exact ih s'

theorem run_seq {b : Bool} {x y : List (DTok K P F)} {s s' : St K P F} {r : Option (St K P F)}
    (ha : run b x s = some s') (hb : run b y s' = r) : run b (x ++ y) s = r := by
  rw [run_append, ha, Option.bind_some, hb]

theorem run_one (b : Bool) (t : DTok K P F) (s : St K P F) : run b [t] s = step b s t := by
  show (step b s t).bind (run b []) = _
  cases step b s t <;> rfl

/-- The graphics state with a given style: stroke and fill colours only if asked for. -/
def setSty (sa fa : Bool) (g : GS K P F) (y : Sty K) : GS K P F :=
  { g with lw := y.lw, dash := y.dash, param := y.param,
           scol := if sa then y.scol else g.scol, fcol := if fa then y.fcol else g.fcol,
           sop := if sa then y.sop else g.sop, fop := if fa then y.fop else g.fop }

/-- The context and the graphics state are those of the style. -/
structure Sync (c : DCtx K F) (y : Sty K) (g : GS K P F) : Prop where
  clw : c.lw = y.lw
  crule : c.rule = y.rule
  lw : g.lw = y.lw
  dash : g.dash = y.dash
  param : g.param = y.param
  scol : c.strokeattr = true → g.scol = y.scol
  fcol : c.fillattr = true → g.fcol = y.fcol
  fpat : g.fpat = false
  sop : c.strokeattr = true → g.sop = y.sop
  fop : c.fillattr = true → g.fop = y.fop

theorem pdfCtx_inv (c : DCtx K F) (l : List (Style K)) : (pdfCtx c l).font = c.font ∧
    (pdfCtx c l).strokeattr = c.strokeattr ∧ (pdfCtx c l).fillattr = c.fillattr ∧
    (pdfCtx c l).trafo = c.trafo := by
  induction l generalizing c with
  | nil => exact ⟨rfl, rfl, rfl, rfl⟩
  | cons s l ih =>
    rw [pdfCtx]
    obtain ⟨h1, h2, h3, h4⟩ := ih (pdfCtx1 c s)
    rw [h1, h2, h3, h4]
    cases s <;> exact ⟨rfl, rfl, rfl, rfl⟩

theorem set_sync {c : DCtx K F} {y : Sty K} {g : GS K P F} (h : Sync c y g) :
    setSty c.strokeattr c.fillattr g y = g := by
  obtain ⟨h1, h2, h3, h4, h5, h6, h7, h8, h9, h10⟩ := h
  unfold setSty
  ext : 1
  all_goals simp only [h3, h4, h5]
  · cases hs : c.strokeattr
    · rfl
    · exact (h6 hs).symm
  · cases hs : c.fillattr
    · rfl
    · exact (h7 hs).symm
  · cases hs : c.strokeattr
    · rfl
    · exact (h9 hs).symm
  · cases hs : c.fillattr
    · rfl
    · exact (h10 hs).symm

theorem sync_apply (w0 : K) {c : DCtx K F} {y : Sty K} {g : GS K P F} (h : Sync c y g) (s : Style K)
    (hs : s.isPattern = false) :
    Sync (pdfCtx1 c s) (y.apply w0 false s) (setSty c.strokeattr c.fillattr g (y.apply w0 false s)) := by
  obtain ⟨h1, h2, h3, h4, h5, h6, h7, h8, h9, h10⟩ := h
  cases s with
  | pattern n => simp [Style.isPattern] at hs
  | _ =>
    (refine ⟨?_, ?_, rfl, rfl, rfl, ?_, ?_, h8, ?_, ?_⟩ <;> first
        | rfl
        | assumption
        | (intro e; simp only [pdfCtx1] at e; simp only [setSty, e, if_true]))

theorem run_style (w0 : K) {c : DCtx K F} {y : Sty K} {s : St K P F} (h : Sync c y s.gs) (t : Style K)
    (ht : t.isPattern = false) :
    run false (pdfStyle w0 c t) s =
      some { s with gs := setSty c.strokeattr c.fillattr s.gs (y.apply w0 false t) } := by
  have hss := set_sync h
  obtain ⟨h1, h2, h3, h4, h5, h6, h7, h8, h9, h10⟩ := h
  cases t with
  | pattern n => simp [Style.isPattern] at ht
  | color n =>
    simp only [pdfStyle, pdfColor]
    cases hs : c.strokeattr <;> cases hf : c.fillattr <;>
      simp [run, step, setSty, Sty.apply, ← h3, ← h4, ← h5, h8] <;>
      first
      | rw [← h8]
      | exact ⟨h9 hs, h10 hf⟩
      | exact h9 hs
      | exact h10 hf
  | opacity v =>
    simp only [pdfStyle, pdfOpacity]
    cases hs : c.strokeattr <;> cases hf : c.fillattr <;>
      simp [run, step, setSty, Sty.apply, ← h3, ← h4, ← h5] <;>
      first
      | exact ⟨h6 hs, h7 hf⟩
      | exact h6 hs
      | exact h7 hf
  | _ =>
    have e3 : (if c.strokeattr = true then y.sop else s.gs.sop) = s.gs.sop := by
      split
      · exact (h9 (by assumption)).symm
      · rfl
    have e4 : (if c.fillattr = true then y.fop else s.gs.fop) = s.gs.fop := by
      split
      · exact (h10 (by assumption)).symm
      · rfl
    have e1 : (if c.strokeattr = true then y.scol else s.gs.scol) = s.gs.scol := by
      split
      · exact (h6 (by assumption)).symm
      · rfl
    have e2 : (if c.fillattr = true then y.fcol else s.gs.fcol) = s.gs.fcol := by
      split
      · exact (h7 (by assumption)).symm
      · rfl
    simp [run, pdfStyle, step, setSty, Sty.apply, dashNumbers, h1, ← h3, ← h4, ← h5, e1, e2, e3, e4]

theorem sync_applyAll (w0 : K) {c : DCtx K F} {y : Sty K} {g : GS K P F} (h : Sync c y g) (l : List (Style K))
    (hl : ∀ t ∈ l, t.isPattern = false) :
    Sync (pdfCtx c l) (y.applyAll w0 false l) (setSty c.strokeattr c.fillattr g (y.applyAll w0 false l)) := by
  induction l generalizing c y g with
  | nil =>
    show Sync c y (setSty c.strokeattr c.fillattr g y)
    rw [set_sync h]
    exact h
  | cons s l ih =>
    have h1 := sync_apply w0 h s (hl s (by simp))
    have hc : (pdfCtx1 c s).strokeattr = c.strokeattr ∧ (pdfCtx1 c s).fillattr = c.fillattr := by
      cases s <;> exact ⟨rfl, rfl⟩
    have h2 := ih h1 fun t ht => hl t (List.mem_cons_of_mem _ ht)
    rw [hc.1, hc.2] at h2
    have e : ∀ (sa fa : Bool) (g : GS K P F) (y y' : Sty K),
        setSty sa fa (setSty sa fa g y) y' = setSty sa fa g y' := by
      intro sa fa g y y'
      cases sa <;> cases fa <;> rfl
    rw [e] at h2
    exact h2

theorem run_styles (w0 : K) {c : DCtx K F} {y : Sty K} {s : St K P F} (h : Sync c y s.gs) (l : List (Style K))
    (hl : ∀ t ∈ l, t.isPattern = false) :
    run false (pdfStyles w0 c l) s =
      some { s with gs := setSty c.strokeattr c.fillattr s.gs (y.applyAll w0 false l) } := by
  induction l generalizing c y s with
  | nil =>
    have := set_sync h
    show some s = _
    show _ = some { s with gs := setSty c.strokeattr c.fillattr s.gs y }
    rw [this]
  | cons t l ih =>
    have hc : (pdfCtx1 c t).strokeattr = c.strokeattr ∧ (pdfCtx1 c t).fillattr = c.fillattr := by
      cases t <;> exact ⟨rfl, rfl⟩
    rw [pdfStyles, run_append, run_style w0 h t (hl t (by simp)), Option.bind_some,
      ih (sync_apply w0 h t (hl t (by simp))) fun t ht => hl t (List.mem_cons_of_mem _ ht), hc.1, hc.2]
    have e : ∀ (sa fa : Bool) (g : GS K P F) (y y' : Sty K),
        setSty sa fa (setSty sa fa g y) y' = setSty sa fa g y' := by
      intro sa fa g y y'
      cases sa <;> cases fa <;> rfl
    simp only [e]
    rfl

/-- `q`, styles, something, `Q`. -/
theorem wrap_run (w0 : K) {c : DCtx K F} {y : Sty K} {s : St K P F} (h : Sync c y s.gs) (hx : s.text = false)
    (l : List (Style K)) (hl : ∀ t ∈ l, t.isPattern = false) (inner : List (DTok K P F)) (g' : GS K P F)
    (pa : List P) (o : List (Mark K P F))
    (hi : ∀ st, run false inner ⟨setSty c.strokeattr c.fillattr s.gs (y.applyAll w0 false l), st, s.path, false, s.out⟩ =
      some ⟨g', st, pa, false, o⟩) :
    run false (pdfWrap l (pdfStyles w0 c l) inner) s =
      some ⟨if l.isEmpty then g' else s.gs, s.stack, pa, false, o⟩ := by
  unfold pdfWrap
  obtain ⟨gs, stack, path, text, out⟩ := s
  simp only at hx
  subst hx
  cases l with
  | nil =>
    simp only [List.isEmpty_nil, if_true]
    have := hi stack
    rw [show y.applyAll w0 false [] = y from rfl, set_sync h] at this
    exact this
  | cons t l =>
    simp only [List.isEmpty_cons, Bool.false_eq_true, if_false]
    rw [List.append_assoc, List.append_assoc]
    have h0 : run false [DTok.q] (⟨gs, stack, path, false, out⟩ : St K P F) =
      some ⟨gs, gs :: stack, path, false, out⟩ := by simp [run, step]
    refine run_seq h0 (run_seq (run_styles (s := (⟨gs, gs :: stack, path, false, out⟩ : St K P F)) w0 h (t :: l) hl)
      (run_seq (hi (gs :: stack)) ?_))
    simp [run, step]

theorem color_fill (y : Sty K) (w0 : K) (l : List (Style K)) (h : ∀ t ∈ l, t.isColor = true) :
    ∃ sc fc so fo, y.applyAll w0 false l = { y with scol := sc, fcol := fc, sop := so, fop := fo } := by
  induction l generalizing y with
  | nil => exact ⟨y.scol, y.fcol, y.sop, y.fop, rfl⟩
  | cons t l ih =>
    have ht := h t (by simp)
    cases t with
    | color c =>
      obtain ⟨sc, fc, so, fo, e⟩ := ih { y with scol := .dev c, fcol := .dev c } fun t ht => h t (List.mem_cons_of_mem _ ht)
      exact ⟨sc, fc, so, fo, e⟩
    | opacity v =>
      obtain ⟨sc, fc, so, fo, e⟩ := ih { y with sop := v, fop := v } fun t ht => h t (List.mem_cons_of_mem _ ht)
      exact ⟨sc, fc, so, fo, e⟩
    | _ => simp [Style.isColor] at ht

theorem color_ctx (c : DCtx K F) (l : List (Style K)) (h : ∀ t ∈ l, t.isColor = true) : pdfCtx c l = c := by
  induction l generalizing c with
  | nil => rfl
  | cons t l ih =>
    have ht := h t (by simp)
    rw [pdfCtx]
    cases t with
    | color n => exact ih _ fun t ht => h t (List.mem_cons_of_mem _ ht)
    | opacity n => exact ih _ fun t ht => h t (List.mem_cons_of_mem _ ht)
    | _ => simp [Style.isColor] at ht

theorem color_noPattern (l : List (Style K)) (h : ∀ t ∈ l, t.isColor = true) : ∀ t ∈ l, t.isPattern = false := by
  intro t ht
  have := h t ht
  cases t <;> simp_all [Style.isColor, Style.isPattern]

/-- Dropping the obligation to set stroke or fill colours. -/
theorem sync_weaken {c : DCtx K F} {y : Sty K} {g : GS K P F} (h : Sync c y g) (sa fa : Bool)
    (hs : sa = true → c.strokeattr = true) (hf : fa = true → c.fillattr = true) :
    Sync { c with strokeattr := sa, fillattr := fa } y g :=
  ⟨h.clw, h.crule, h.lw, h.dash, h.param, fun e => h.scol (hs e), fun e => h.fcol (hf e), h.fpat,
    fun e => h.sop (hs e), fun e => h.fop (hf e)⟩

/-- The marks of the filling part. -/
def fillMarks (w0 : K) (y : Sty K) (path : P) (sp : Option P) (fs ss : Option (List (Style K))) :
    List (Mark K P F) :=
  match fs with
  | none => []
  | some f =>
    match ss, sp with
    | some s, none => [fillMark (y.applyAll w0 false f) path, strokeMark (y.applyAll w0 false s) path]
    | _, _ => [fillMark (y.applyAll w0 false f) path]

/-- The marks of the stroking part. -/
def strokeMarks (w0 : K) (y : Sty K) (path : P) (sp : Option P) (fs ss : Option (List (Style K))) :
    List (Mark K P F) :=
  match ss with
  | none => []
  | some s => if sp.isSome || fs.isNone then [strokeMark (y.applyAll w0 false s) (sp.getD path)] else []

theorem marks_eq (w0 : K) (y : Sty K) (path : P) (sp : Option P) (fs ss : Option (List (Style K))) :
    (fillMarks w0 y path sp fs ss ++ strokeMarks w0 y path sp fs ss : List (Mark K P F)) =
      (fs.toList.map fun f => fillMark (y.applyAll w0 false f) path) ++
      (ss.toList.map fun s => strokeMark (y.applyAll w0 false s) (sp.getD path)) := by
  cases fs <;> cases ss <;> cases sp <;> simp [fillMarks, strokeMarks]

/-- After a stream: the graphics state is the same up to the font and the marks `ms`, placed, have
been made. -/
def Draws (toks : List (DTok K P F)) (s : St K P F) (ms : List (Mark K P F)) (fo : Option F) : Prop :=
  run false toks s = some ⟨{ s.gs with font := fo }, s.stack, [], s.text,
    s.out ++ ms.map (place s.gs.ctm s.gs.clips)⟩

theorem Draws.nil (s : St K P F) (h : s.path = []) : Draws [] s [] s.gs.font := by
  unfold Draws
  rw [← h]
  simp [run]

theorem fill_simple (w0 : K) {c : DCtx K F} {y : Sty K} {s : St K P F} (h : Sync c y s.gs)
    (hsa : c.strokeattr = true) (hfa : c.fillattr = true) (hx : s.text = false) (hp : s.path = []) (path : P)
    (f : List (Style K)) (hf : ∀ t ∈ f, t.isColor = true) :
    Draws ([.path path] ++ pdfWrap f (pdfFillStyles w0 c f) (pdfFill c)) s
      [fillMark (y.applyAll w0 false f) path] s.gs.font := by
  obtain ⟨gs, stack, pa, text, out⟩ := s
  simp only at hx hp h
  subst hx hp
  have h0 : run false [DTok.path path] (⟨gs, stack, [], false, out⟩ : St K P F) =
      some ⟨gs, stack, [path], false, out⟩ := by simp [run, step]
  have h' := sync_weaken h false true (by simp) (fun _ => hfa)
  obtain ⟨sc, fc, so, fo, e⟩ := color_fill y w0 f hf
  have hc : ({ c with strokeattr := false, fillattr := true } : DCtx K F) = { c with strokeattr := false } := by
    rw [← hfa]
  rw [hc] at h'
  unfold Draws
  refine run_seq h0 (Eq.trans (wrap_run (s := (⟨gs, stack, [path], false, out⟩ : St K P F)) w0 h' rfl f
    (color_noPattern f hf) (pdfFill c) (setSty false c.fillattr gs (y.applyAll w0 false f)) []
    (out ++ [place gs.ctm gs.clips (fillMark (y.applyAll w0 false f) path)]) ?_) ?_)
  · intro st
    unfold pdfFill
    rw [h.crule, e, hfa]
    cases hr : y.rule <;> simp [run, step, paint, fillMark, place, mul_one, setSty, hr]
  · cases f with
    | nil =>
      simp only [List.isEmpty_nil, if_true, List.map_cons, List.map_nil]
      have : setSty false c.fillattr gs (y.applyAll w0 false []) = gs := set_sync h'
      rw [this]
    | cons t f => simp

theorem fillPart_draws (w0 : K) {c : DCtx K F} {y : Sty K} {s : St K P F} (h : Sync c y s.gs)
    (hsa : c.strokeattr = true) (hfa : c.fillattr = true) (hx : s.text = false) (hp : s.path = []) (path : P)
    (sp : Option P) (fs ss : Option (List (Style K)))
    (hf : ∀ f, fs = some f → ∀ t ∈ f, t.isColor = true) (hl : ∀ f, ss = some f → ∀ t ∈ f, t.isPattern = false) :
    Draws (pdfFillPart w0 c path sp fs ss) s (fillMarks w0 y path sp fs ss) s.gs.font := by
  cases fs with
  | none => exact Draws.nil s hp
  | some f =>
    have hf := hf f rfl
    cases ss with
    | none => cases sp <;> exact fill_simple w0 h hsa hfa hx hp path f hf
    | some l =>
      have hl := hl l rfl
      cases sp with
      | some sp => exact fill_simple w0 h hsa hfa hx hp path f hf
      | none =>
        simp only [pdfFillPart, fillMarks]
        obtain ⟨gs, stack, pa, text, out⟩ := s
        simp only at hx hp h
        subst hx hp
        have h0 : run false [DTok.path path, .q] (⟨gs, stack, [], false, out⟩ : St K P F) =
            some ⟨gs, gs :: stack, [path], false, out⟩ := by simp [run, step]
        have h1 := sync_weaken h false true (by simp) (fun _ => hfa)
        have hc : ({ c with strokeattr := false, fillattr := true } : DCtx K F) = { c with strokeattr := false } := by
          rw [← hfa]
        rw [hc] at h1
        have hcf : pdfFillCtx c f = c := by
          unfold pdfFillCtx
          rw [color_ctx _ f hf, ← hsa]
        obtain ⟨sc, fc, so, fo, e⟩ := color_fill y w0 f hf
        have h2 := sync_weaken h true false (fun _ => hsa) (by simp)
        have hc2 : ({ c with strokeattr := true, fillattr := false } : DCtx K F) = { c with fillattr := false } := by
          rw [← hsa]
        rw [hc2] at h2
        have h3 : Sync { c with fillattr := false } y (setSty false c.fillattr gs (y.applyAll w0 false f)) := by
          rw [e]
          exact ⟨h2.clw, h2.crule, rfl, rfl, rfl, h2.scol, fun e => by simp at e, h2.fpat, h2.sop, fun e => by simp at e⟩
        have r1 := run_styles (s := (⟨gs, gs :: stack, [path], false, out⟩ : St K P F)) w0 h1 f (color_noPattern f hf)
        have r2 := run_styles (s := (⟨setSty false c.fillattr gs (y.applyAll w0 false f), gs :: stack, [path], false, out⟩ :
          St K P F)) w0 h3 l hl
        unfold Draws
        rw [hcf, List.append_assoc, List.append_assoc, List.append_assoc]
        refine run_seq h0 (run_seq r1 (run_seq r2 ?_))
        rw [h.crule]
        have er : (y.applyAll w0 false f).rule = y.rule := by rw [e]
        cases hr : y.rule <;>
          simp [run, step, paint, fillMark, strokeMark, strokeInk, place, mul_one, setSty, hfa, hsa, hr, er]

theorem strokePart_draws (w0 : K) {c : DCtx K F} {y : Sty K} {s : St K P F} (h : Sync c y s.gs)
    (hsa : c.strokeattr = true) (hx : s.text = false) (hp : s.path = []) (path : P)
    (sp : Option P) (fs ss : Option (List (Style K))) (hl : ∀ f, ss = some f → ∀ t ∈ f, t.isPattern = false) :
    Draws (pdfStrokePart w0 c path sp fs ss) s (strokeMarks w0 y path sp fs ss) s.gs.font := by
  cases ss with
  | none => exact Draws.nil s hp
  | some l =>
    have hl := hl l rfl
    simp only [pdfStrokePart, strokeMarks]
    split
    · obtain ⟨gs, stack, pa, text, out⟩ := s
      simp only at hx hp h
      subst hx hp
      have h2 := sync_weaken h true false (fun _ => hsa) (by simp)
      have hc2 : ({ c with strokeattr := true, fillattr := false } : DCtx K F) = { c with fillattr := false } := by
        rw [← hsa]
      rw [hc2] at h2
      refine Eq.trans (wrap_run (s := (⟨gs, stack, [], false, out⟩ : St K P F)) w0 h2 rfl l hl
        [.path (sp.getD path), .S] (setSty c.strokeattr false gs (y.applyAll w0 false l)) []
        (out ++ [place gs.ctm gs.clips (strokeMark (y.applyAll w0 false l) (sp.getD path))]) ?_) ?_
      · intro st
        simp [run, step, paint, strokeMark, strokeInk, place, mul_one, setSty, hsa]
      · cases l with
        | nil =>
          simp only [List.isEmpty_nil, if_true, List.map_cons, List.map_nil]
          have : setSty c.strokeattr false gs (y.applyAll w0 false []) = gs := set_sync h2
          rw [this]
        | cons t f => simp
    · exact Draws.nil s hp

/-- Entering a canvas with attributes. -/
theorem begin_run (w0 : K) {c : DCtx K F} {y : Sty K} {s : St K P F} (h : Sync c y s.gs)
    (hsa : c.strokeattr = true) (hfa : c.fillattr = true) (hx : s.text = false) (hp : s.path = [])
    (attrs : List (Attr K P)) (cv : CV K P) (hcv : build attrs = some cv)
    (hl : ∀ t ∈ stylesOf attrs, t.isPattern = false) :
    run false (pdfBegin cv (pdfStyles w0 c (stylesOf attrs))) s =
      some ⟨{ setSty true true s.gs (y.applyAll w0 false (stylesOf attrs)) with
        ctm := s.gs.ctm.mul cv.trafo,
        clips := (cv.clip.toList.map fun p => PathLike.transformed p s.gs.ctm) ++ s.gs.clips },
        s.gs :: s.stack, [], false, s.out⟩ := by
  unfold pdfBegin
  obtain ⟨gs, stack, pa, text, out⟩ := s
  simp only at hx hp h
  subst hx hp
  have h0 : run false [DTok.q] (⟨gs, stack, [], false, out⟩ : St K P F) =
      some ⟨gs, gs :: stack, [], false, out⟩ := by simp [run, step]
  rw [List.append_assoc, List.append_assoc]
  refine run_seq h0 (run_seq (run_styles (s := (⟨gs, gs :: stack, [], false, out⟩ : St K P F)) w0 h _ hl) ?_)
  rw [hsa, hfa]
  have ht := build_hasTrafo attrs cv hcv
  cases hc : cv.clip with
  | none =>
    cases hb : cv.hasTrafo with
    | true => simp [run, step, setSty]
    | false => simp [run, setSty, ht hb, mul_one]
  | some p =>
    cases hb : cv.hasTrafo with
    | true => simp [run, step, setSty]
    | false => simp [run, step, setSty, ht hb, mul_one]

/-- Context and interpreter agree. -/
structure Inv (c : DCtx K F) (y : Sty K) (g : GS K P F) (tx : Bool) : Prop where
  sync : Sync c y g
  sa : c.strokeattr = true
  fa : c.fillattr = true
  tr : c.trafo = g.ctm
  font0 : tx = false → c.font = none
  font1 : ∀ f, c.font = some f → g.font = some f

theorem fill_run (c : DCtx K F) (y : Sty K) (gs : GS K P F) (stack : List (GS K P F)) (out : List (Mark K P F))
    (p : P) (hc : c.rule = y.rule) (hy : gs.fcol = y.fcol) (ho : gs.fop = y.fop) :
    Draws ([.path p] ++ pdfFill c) ⟨gs, stack, [], false, out⟩ [fillMark y p] gs.font := by
  unfold Draws pdfFill
  rw [hc]
  cases hr : y.rule <;> simp [run, step, paint, fillMark, place, mul_one, hr, ← hy, ← ho]

mutual
theorem item_draws (w0 : K) (tap : Bool) (i : Item K P F) (c : DCtx K F) (y : Sty K) (g : GS K P F) (tx : Bool)
    (hw : WF i) (hr : PdfOK tap i) (h : Inv c y g tx) (hx : tx = (i.requiretextregion && !tap)) :
    ∃ fo fo' fl, (∀ st o, Draws (pdfItem w0 tap c i).1 ⟨g, st, [], tx, o⟩ (pic w0 false tap y i) fo) ∧
      (pdfItem w0 tap c i).2 = { c with font := fo', fillstyles := fl } ∧
      (tx = false → fo' = none) ∧ (∀ f, fo' = some f → fo = some f) := by
  cases i with
  | text f t1 o =>
    rw [PdfOK] at hr
    rw [pdfItem, pic]
    simp only [Item.requiretextregion, Bool.true_and] at hx
    by_cases ht : (tap && t1) = true
    · rw [if_pos ht, if_pos ht]
      have hx' : tx = false := by
        rw [Bool.and_eq_true] at ht
        rw [hx, ht.1]; rfl
      refine ⟨g.font, c.font, c.fillstyles, ?_, rfl, h.font0, h.font1⟩
      intro st ou
      rw [hx']
      exact fill_run c y g st ou o h.sync.crule (h.sync.fcol h.fa) (h.sync.fop h.fa)
    · rw [if_neg ht, if_neg ht]
      have htap : tap = false := by
        cases tap with
        | false => rfl
        | true => rw [hr rfl] at ht; simp at ht
      rw [htap] at hx
      refine ⟨some f, some f, c.fillstyles, ?_, rfl, fun e => by rw [hx] at e; simp at e, fun f e => e⟩
      intro st ou
      obtain ⟨h1, h2, h3, h4, h6, h7⟩ := h
      subst hx
      unfold pdfText Draws
      have hfc := h1.fcol h3
      have hfo := h1.fop h3
      by_cases hcf : c.font = some f
      · have hgf := h7 f hcf
        rw [if_pos hcf]
        simp [run, step, hgf, place, mul_one, ← hfc, ← hfo]
        rw [← hgf]
      · rw [if_neg hcf]
        simp [run, step, place, mul_one, ← hfc, ← hfo]
  | field r =>
    rw [pdfItem, pic]
    refine ⟨g.font, c.font, c.fillstyles, ?_, rfl, h.font0, h.font1⟩
    intro st ou
    unfold Draws
    simp [run, step, place, mul_one, h.tr]
  | dp path sp sty fs ss orn =>
    rw [WF] at hw
    rw [PdfOK] at hr
    rw [pdfItem, pic, ← marks_eq]
    obtain ⟨hr1, hr2, hr3, hr4⟩ := hr
    have hx : tx = false := hx
    subst hx
    have hs' := sync_applyAll w0 h.sync sty hr1
    have hc := pdfCtx_inv c sty
    rw [h.sa, h.fa] at hs'
    have hsa : (pdfCtx c sty).strokeattr = true := hc.2.1.trans h.sa
    have hfa : (pdfCtx c sty).fillattr = true := hc.2.2.1.trans h.fa
    have hf0 : (pdfCvCtx (pdfCtx c sty) Trafo.one []).font = none := hc.1.trans (h.font0 rfl)
    obtain ⟨fo, hfo⟩ := items_draws w0 tap false orn (pdfCvCtx (pdfCtx c sty) Trafo.one [])
      (y.applyAll w0 false sty) (setSty true true g (y.applyAll w0 false sty)) hw hr4
      ⟨⟨hs'.clw, hs'.crule, hs'.lw, hs'.dash, hs'.param, hs'.scol, hs'.fcol, hs'.fpat, hs'.sop, hs'.fop⟩, hsa, hfa,
        by show (pdfCtx c sty).trafo.mul Trafo.one = g.ctm
           rw [mul_one, hc.2.2.2, h.tr],
        fun _ => hf0, fun f e => by rw [hf0] at e; simp at e⟩ (fun _ => rfl)
    refine ⟨if sty.isEmpty then fo else g.font, c.font, _, ?_, rfl, h.font0, fun f e => by
      rw [h.font0 rfl] at e; simp at e⟩
    intro stk ou
    unfold Draws
    refine Eq.trans (wrap_run (s := ⟨g, stk, [], false, ou⟩) w0 h.sync rfl sty hr1 _
      { setSty true true g (y.applyAll w0 false sty) with font := fo } []
      (ou ++ (fillMarks w0 (y.applyAll w0 false sty) path sp fs ss ++
          strokeMarks w0 (y.applyAll w0 false sty) path sp fs ss ++
          pics w0 false tap (y.applyAll w0 false sty) orn).map (place g.ctm g.clips)) ?_) ?_
    · intro st
      rw [h.sa, h.fa]
      have d1 := fillPart_draws (s := ⟨setSty true true g (y.applyAll w0 false sty), st, [], false, ou⟩)
        w0 hs' hsa hfa rfl rfl path sp fs ss hr2 hr3
      have d2 := strokePart_draws
        (s := (⟨setSty true true g (y.applyAll w0 false sty), st, [], false, ou ++
          (fillMarks w0 (y.applyAll w0 false sty) path sp fs ss).map (place g.ctm g.clips)⟩ : St K P F))
        w0 hs' hsa rfl rfl path sp fs ss hr3
      have d3 := hfo st (ou ++
          (fillMarks w0 (y.applyAll w0 false sty) path sp fs ss).map (place g.ctm g.clips) ++
          (strokeMarks w0 (y.applyAll w0 false sty) path sp fs ss).map (place g.ctm g.clips))
      rw [List.append_assoc]
      refine run_seq d1 (run_seq d2 (d3.trans ?_))
      simp [setSty]
    · cases sty with
      | nil =>
        have := set_sync h.sync
        rw [h.sa, h.fa] at this
        simp only [List.isEmpty_nil, if_true]
        rw [show y.applyAll w0 false [] = y from rfl, this]
      | cons t l => simp
  | cv attrs items =>
    rw [WF] at hw
    rw [PdfOK] at hr
    have hx : tx = false := hx
    subst hx
    rw [pdfItem, pic]
    obtain ⟨cv, hcv⟩ := Option.isSome_iff_exists.mp hw.1
    have hof : cvOf attrs = cv := by rw [cvOf, hcv]; rfl
    have hpl : (fun k : Mark K P F => attrs.foldl Mark.attr k) = place cv.trafo cv.clip.toList :=
      funext fun k => build_attr attrs cv hcv k
    rw [hpl, hof]
    have hfn : c.font = none := h.font0 rfl
    by_cases hi : items.isEmpty = true
    · rw [if_pos hi, if_pos hi]
      refine ⟨g.font, c.font, c.fillstyles, ?_, rfl, h.font0, h.font1⟩
      intro st ou
      cases items with
      | nil => rw [pics]; exact Draws.nil _ rfl
      | cons i l => simp [Items.isEmpty] at hi
    · rw [if_neg hi, if_neg hi]
      by_cases ha : attrs = []
      · subst ha
        simp only [build, Option.some.injEq] at hcv
        subst hcv
        have e0 : (stylesOf ([] : List (Attr K P))) = [] := rfl
        have e1 : y.applyAll w0 false [] = y := rfl
        simp only [List.isEmpty_nil, if_true, e0, e1]
        obtain ⟨fo, hfo⟩ := items_draws w0 tap false items (pdfCvCtx c Trafo.one []) y g hw.2 hr.2
          ⟨⟨h.sync.clw, h.sync.crule, h.sync.lw, h.sync.dash, h.sync.param, h.sync.scol, h.sync.fcol, h.sync.fpat, h.sync.sop, h.sync.fop⟩,
            h.sa, h.fa, by show c.trafo.mul Trafo.one = _; rw [mul_one, h.tr], h.font0, h.font1⟩
          (fun _ => rfl)
        have e2 : (place Trafo.one [] : Mark K P F → Mark K P F) = id := by
          funext k
          cases k
          simp [place, one_mul, PathLike.transformed_one]
        refine ⟨fo, c.font, _, ?_, rfl, fun _ => hfn, fun f e => by rw [hfn] at e; simp at e⟩
        simp only [Option.toList_none, e2, List.map_id_fun, id_eq]
        exact hfo
      · rw [if_neg (by simpa using ha)]
        refine ⟨g.font, c.font, _, ?_, rfl, h.font0, fun f e => by rw [hfn] at e; simp at e⟩
        intro st ou
        have hs0 : Sync (pdfCvCtx c cv.trafo (stylesOf attrs)) y g :=
          ⟨h.sync.clw, h.sync.crule, h.sync.lw, h.sync.dash, h.sync.param, h.sync.scol, h.sync.fcol, h.sync.fpat, h.sync.sop, h.sync.fop⟩
        have hb := begin_run (s := ⟨g, st, [], false, ou⟩) w0 hs0 h.sa h.fa rfl rfl attrs cv hcv hr.1
        have hs' := sync_applyAll w0 hs0 (stylesOf attrs) hr.1
        have hc := pdfCtx_inv (pdfCvCtx c cv.trafo (stylesOf attrs)) (stylesOf attrs)
        have hsa : (pdfCvCtx c cv.trafo (stylesOf attrs)).strokeattr = true := h.sa
        have hfa : (pdfCvCtx c cv.trafo (stylesOf attrs)).fillattr = true := h.fa
        rw [hsa, hfa] at hs'
        have hf0 : (pdfCtx (pdfCvCtx c cv.trafo (stylesOf attrs)) (stylesOf attrs)).font = none := hc.1.trans hfn
        obtain ⟨fo, hfo⟩ := items_draws w0 tap false items
          (pdfCtx (pdfCvCtx c cv.trafo (stylesOf attrs)) (stylesOf attrs))
          (y.applyAll w0 false (stylesOf attrs))
          { setSty true true g (y.applyAll w0 false (stylesOf attrs)) with
            ctm := g.ctm.mul cv.trafo,
            clips := (cv.clip.toList.map fun p => PathLike.transformed p g.ctm) ++ g.clips } hw.2 hr.2
          ⟨⟨hs'.clw, hs'.crule, hs'.lw, hs'.dash, hs'.param, hs'.scol, hs'.fcol, hs'.fpat, hs'.sop, hs'.fop⟩,
            hc.2.1.trans h.sa, hc.2.2.1.trans h.fa,
            by rw [hc.2.2.2]; show c.trafo.mul cv.trafo = _; rw [h.tr],
            fun _ => hf0, fun f e => by rw [hf0] at e; simp at e⟩ (fun _ => rfl)
        unfold Draws
        rw [List.append_assoc]
        refine run_seq hb (run_seq (hfo _ _) ?_)
        simp [run, step, List.map_map, Function.comp_def, PS.place_place]
theorem items_draws (w0 : K) (tap tr : Bool) (l : Items K P F) (c : DCtx K F) (y : Sty K) (g : GS K P F)
    (hw : WFs l) (hr : PdfOKs tap l) (h : Inv c y g tr) (htt : tap = true → tr = false) :
    ∃ fo, ∀ st o, run false (pdfItems w0 tap tr c l).1 ⟨g, st, [], tr, o⟩ =
      some ⟨{ g with font := fo }, st, [], false,
        o ++ (pics w0 false tap y l).map (place g.ctm g.clips)⟩ := by
  cases l with
  | nil =>
    rw [pdfItems, pics]
    refine ⟨g.font, fun st o => ?_⟩
    cases tr <;> simp [run, step]
  | cons i l =>
    rw [WFs] at hw
    rw [PdfOKs] at hr
    rw [pdfItems, pics]
    -- the operator between two items
    have hreg : ∀ st o, run false (region (K := K) (P := P) (F := F) tap tr i.requiretextregion).1
        (⟨g, st, [], tr, o⟩ : St K P F) =
        some ⟨g, st, [], i.requiretextregion && !tap, o⟩ := by
      intro st o
      unfold region
      cases tap with
      | true => simp [htt rfl, run]
      | false => cases i.requiretextregion <;> cases tr <;> simp [run, step]
    have hreg2 : (region (K := K) (P := P) (F := F) tap tr i.requiretextregion).2 =
        (i.requiretextregion && !tap) := by
      unfold region
      cases tap with
      | true => simp [htt rfl]
      | false => cases i.requiretextregion <;> simp
    have hctx : ∃ fo'', regionCtx tap tr i.requiretextregion c = { c with font := fo'' } ∧
        ((i.requiretextregion && !tap) = false → fo'' = none) ∧ (∀ f, fo'' = some f → g.font = some f) := by
      unfold regionCtx
      by_cases hb : (!tap && !i.requiretextregion && tr) = true
      · rw [if_pos hb]
        exact ⟨none, rfl, fun _ => rfl, fun f e => by simp at e⟩
      · rw [if_neg hb]
        refine ⟨c.font, rfl, fun e => h.font0 ?_, h.font1⟩
        cases hta : tap with
        | true => exact htt hta
        | false =>
          rw [hta] at hb e
          cases htr : tr with
          | false => rfl
          | true =>
            rw [htr] at hb
            cases hq : i.requiretextregion with
            | false => rw [hq] at hb; simp at hb
            | true => rw [hq] at e; simp at e
    obtain ⟨fo'', hc1, hc2, hc3⟩ := hctx
    have hinv : Inv (regionCtx tap tr i.requiretextregion c) y g (i.requiretextregion && !tap) := by
      rw [hc1]
      exact ⟨⟨h.sync.clw, h.sync.crule, h.sync.lw, h.sync.dash, h.sync.param, h.sync.scol, h.sync.fcol, h.sync.fpat, h.sync.sop, h.sync.fop⟩,
        h.sa, h.fa, h.tr, hc2, hc3⟩
    rw [hreg2]
    obtain ⟨fo, fo', fl, d1, d2, d3, d4⟩ := item_draws w0 tap i (regionCtx tap tr i.requiretextregion c) y
        g (i.requiretextregion && !tap) hw.1 hr.1 hinv rfl
    obtain ⟨fo2, e1⟩ := items_draws w0 tap (i.requiretextregion && !tap) l
      (pdfItem w0 tap (regionCtx tap tr i.requiretextregion c) i).2 y { g with font := fo } hw.2 hr.2 (by
        rw [d2, hc1]
        exact ⟨⟨h.sync.clw, h.sync.crule, h.sync.lw, h.sync.dash, h.sync.param, h.sync.scol, h.sync.fcol,
          h.sync.fpat, h.sync.sop, h.sync.fop⟩, h.sa, h.fa, h.tr, d3, d4⟩) (by intro e; rw [e]; simp)
    refine ⟨fo2, fun st o => ?_⟩
    rw [List.append_assoc]
    refine run_seq (hreg st o) (run_seq (d1 st o) ((e1 st _).trans ?_))
    simp
end

/-! ## Every tree: saves and restores, text sections -/

/-- Operators which change nothing but font, current path, text section and page. -/
def plain : DTok K P F → Bool
  | .path _ | .f | .fstar | .S | .B | .Bstar | .BT | .ET | .Tf _ | .Tj _ | .field _ _ _ => true
  | _ => false

/-- Not a save or restore. -/
def noStack : DTok K P F → Bool
  | .q | .Q => false
  | _ => true

/-- Balanced streams. -/
inductive Balanced : List (DTok K P F) → Prop
  | nil : Balanced []
  | tok (t : DTok K P F) (h : noStack t = true) : Balanced [t]
  | app {a b : List (DTok K P F)} : Balanced a → Balanced b → Balanced (a ++ b)
  | wrap {a : List (DTok K P F)} : Balanced a → Balanced ([.q] ++ a ++ [.Q])

/-- Streams in which everything but the font is changed between a save and its restore only. -/
inductive Neutral : List (DTok K P F) → Prop
  | nil : Neutral []
  | tok (t : DTok K P F) (h : plain t = true) : Neutral [t]
  | app {a b : List (DTok K P F)} : Neutral a → Neutral b → Neutral (a ++ b)
  | wrap {a : List (DTok K P F)} : Balanced a → Neutral ([.q] ++ a ++ [.Q])

theorem Neutral.balanced {a : List (DTok K P F)} (h : Neutral a) : Balanced a := by
  induction h with
  | nil => exact .nil
  | tok t ht => exact .tok t (by cases t <;> simp_all [plain, noStack])
  | app _ _ h1 h2 => exact .app h1 h2
  | wrap h => exact .wrap h

theorem run_app_inv {x : Bool} {a b : List (DTok K P F)} {s s' : St K P F} (h : run x (a ++ b) s = some s') :
    ∃ m, run x a s = some m ∧ run x b m = some s' := by
  rw [run_append] at h
  exact Option.bind_eq_some_iff.mp h

theorem step_q {x : Bool} {s s' : St K P F} (h : run x [.q] s = some s') :
    s' = ⟨s.gs, s.gs :: s.stack, s.path, s.text, s.out⟩ := by
  rw [run_one] at h
  simp only [step] at h
  split at h
  · exact absurd h (by simp)
  · exact (Option.some.inj h).symm

theorem step_Q {x : Bool} {s s' : St K P F} {g : GS K P F} {st : List (GS K P F)} (hs : s.stack = g :: st)
    (h : run x [.Q] s = some s') : s' = ⟨g, st, s.path, s.text, s.out⟩ := by
  rw [run_one] at h
  simp only [step, hs] at h
  split at h
  · exact absurd h (by simp)
  · exact (Option.some.inj h).symm

theorem Balanced.stack {x : Bool} {a : List (DTok K P F)} (h : Balanced a) :
    ∀ s s' : St K P F, run x a s = some s' → s'.stack = s.stack := by
  induction h with
  | nil => intro s s' h; simp only [run, Option.some.injEq] at h; rw [h]
  | tok t ht =>
    intro s s' h
    rw [run_one] at h
    cases t <;> simp only [noStack, Bool.false_eq_true] at ht <;> simp only [step, paint] at h <;>
      (repeat' split at h) <;> simp only [Option.some.injEq, reduceCtorEq] at h <;> rw [← h]
  | app _ _ h1 h2 =>
    intro s s' h
    obtain ⟨m, ha, hb⟩ := run_app_inv h
    rw [h2 _ _ hb, h1 _ _ ha]
  | wrap _ ih =>
    intro s s' h
    obtain ⟨m, h1, h2⟩ := run_app_inv h
    obtain ⟨m', h3, h4⟩ := run_app_inv h1
    have hs := ih _ _ h4
    rw [step_q h3] at hs
    rw [step_Q hs h2]

theorem Neutral.state {x : Bool} {a : List (DTok K P F)} (h : Neutral a) : ∀ s s' : St K P F,
    run x a s = some s' → s'.stack = s.stack ∧ ∃ fo, s'.gs = { s.gs with font := fo } := by
  intro s s' hr
  refine ⟨h.balanced.stack s s' hr, ?_⟩
  induction h generalizing s s' with
  | nil => simp only [run, Option.some.injEq] at hr; rw [← hr]; exact ⟨_, rfl⟩
  | tok t ht =>
    rw [run_one] at hr
    cases t <;> simp only [plain, Bool.false_eq_true] at ht <;> simp only [step, paint] at hr <;>
      (repeat' split at hr) <;> simp only [Option.some.injEq, reduceCtorEq] at hr <;> rw [← hr] <;>
      exact ⟨_, rfl⟩
  | app _ _ h1 h2 =>
    obtain ⟨m, ha, hb⟩ := run_app_inv hr
    obtain ⟨fo, e⟩ := h1 _ _ ha
    obtain ⟨fo', e'⟩ := h2 _ _ hb
    exact ⟨fo', by rw [e', e]⟩
  | wrap hb =>
    obtain ⟨m, h1, h2⟩ := run_app_inv hr
    obtain ⟨m', h3, h4⟩ := run_app_inv h1
    have hs := hb.stack _ _ h4
    rw [step_q h3] at hs
    rw [step_Q hs h2]
    exact ⟨_, rfl⟩

/-- Operators allowed in text sections, and only there. -/
def textOnly : DTok K P F → Bool
  | .Tf _ | .Tj _ => true
  | _ => false

/-- Are the text sections well formed?  `b`: inside a section at the beginning; the result tells whether
inside one at the end.  Sections are not nested, fonts and texts occur inside only, and nothing else
does. -/
def sections (b : Bool) : List (DTok K P F) → Option Bool
  | [] => some b
  | .BT :: l => if b then none else sections true l
  | .ET :: l => if b then sections false l else none
  | t :: l => if textOnly t = b then sections b l else none

theorem sections_append (b : Bool) (x y : List (DTok K P F)) :
    sections b (x ++ y) = (sections b x).bind fun b' => sections b' y := by
  induction x generalizing b with
  | nil => rfl
  | cons t x ih =>
    cases t <;> simp only [List.cons_append, sections] <;> split <;> first | exact ih _ | rfl

/-- Operators of no text section. -/
def outside : DTok K P F → Bool
  | .BT | .ET | .Tf _ | .Tj _ => false
  | _ => true

theorem sections_outside (x : List (DTok K P F)) (h : ∀ t ∈ x, outside t = true) : sections false x = some false := by
  induction x with
  | nil => rfl
  | cons t x ih =>
    have ht := h t (by simp)
    have hx := ih fun t ht => h t (List.mem_cons_of_mem _ ht)
    cases t <;> simp only [outside, Bool.false_eq_true] at ht <;> simpa [sections, textOnly] using hx

theorem styles_tok (w0 : K) (c : DCtx K F) (l : List (Style K)) :
    ∀ t ∈ (pdfStyles w0 c l : List (DTok K P F)), outside t = true ∧ noStack t = true := by
  induction l generalizing c with
  | nil => intro t ht; simp [pdfStyles] at ht
  | cons s l ih =>
    intro t ht
    rw [pdfStyles, List.mem_append] at ht
    rcases ht with ht | ht
    · cases s <;> simp only [pdfStyle, pdfColor, pdfPattern, pdfOpacity, List.mem_cons, List.mem_append, List.not_mem_nil,
          or_false] at ht <;> (repeat' split at ht) <;> (try simp at ht) <;>
        first
        | (subst ht; exact ⟨rfl, rfl⟩)
        | (rcases ht with rfl | rfl <;> exact ⟨rfl, rfl⟩)
    · exact ih _ t ht

theorem balanced_of {x : List (DTok K P F)} (h : ∀ t ∈ x, noStack t = true) : Balanced x := by
  induction x with
  | nil => exact .nil
  | cons t x ih => exact .app (a := [t]) (.tok t (h t (by simp))) (ih fun t ht => h t (List.mem_cons_of_mem _ ht))

theorem styles_balanced (w0 : K) (c : DCtx K F) (l : List (Style K)) :
    Balanced (pdfStyles w0 c l : List (DTok K P F)) := balanced_of fun t ht => (styles_tok w0 c l t ht).2

theorem wrap_neutral (w0 : K) (c : DCtx K F) (l : List (Style K)) {inner : List (DTok K P F)} (h : Neutral inner) :
    Neutral (pdfWrap l (pdfStyles w0 c l) inner) := by
  unfold pdfWrap
  split
  · exact h
  · rw [List.append_assoc [DTok.q]]
    exact .wrap (.app (styles_balanced w0 c l) h.balanced)

theorem fill_neutral (c : DCtx K F) : Neutral (pdfFill c : List (DTok K P F)) := by
  unfold pdfFill
  split <;> exact .tok _ rfl

theorem fillPart_neutral (w0 : K) (c : DCtx K F) (path : P) (sp : Option P) (fs ss : Option (List (Style K))) :
    Neutral (pdfFillPart w0 c path sp fs ss) := by
  cases fs with
  | none => exact .nil
  | some f =>
    have h1 : Neutral ([.path path] ++ pdfWrap f (pdfFillStyles w0 c f) (pdfFill c)) :=
      .app (.tok _ rfl) (wrap_neutral w0 _ f (fill_neutral c))
    cases ss with
    | none => cases sp <;> exact h1
    | some l =>
      cases sp with
      | some sp => exact h1
      | none =>
        simp only [pdfFillPart]
        have e : [DTok.path path, .q] ++ pdfFillStyles w0 c f ++ pdfStrokeStyles w0 (pdfFillCtx c f) l ++
            (if c.rule then [.Bstar] else [.B]) ++ [.Q] = [DTok.path path] ++
            ([DTok.q] ++ (pdfFillStyles w0 c f ++ (pdfStrokeStyles w0 (pdfFillCtx c f) l ++
            (if c.rule then [.Bstar] else [.B]))) ++ [.Q]) := by simp
        rw [e]
        refine .app (.tok _ rfl) (.wrap (.app (styles_balanced ..) (.app (styles_balanced ..) ?_)))
        split <;> exact .tok _ rfl

theorem strokePart_neutral (w0 : K) (c : DCtx K F) (path : P) (sp : Option P) (fs ss : Option (List (Style K))) :
    Neutral (pdfStrokePart w0 c path sp fs ss) := by
  cases ss with
  | none => exact .nil
  | some l =>
    simp only [pdfStrokePart]
    split
    · exact wrap_neutral w0 _ l (.app (a := [_]) (.tok _ rfl) (.tok _ rfl))
    · exact .nil

mutual
theorem item_neutral (w0 : K) (tap : Bool) (c : DCtx K F) (i : Item K P F) :
    Neutral (pdfItem w0 tap c i).1 := by
  cases i with
  | text f t1 o =>
    rw [pdfItem]
    split
    · exact .app (.tok _ rfl) (fill_neutral c)
    · unfold pdfText
      refine .app ?_ (.tok _ rfl)
      split
      · exact .nil
      · exact .tok _ rfl
  | field r => rw [pdfItem]; exact .tok _ rfl
  | dp path sp sty fs ss orn =>
    rw [pdfItem]
    exact wrap_neutral w0 c sty (.app (.app (fillPart_neutral ..) (strokePart_neutral ..))
      (items_neutral w0 tap false _ orn))
  | cv attrs items =>
    rw [pdfItem]
    split
    · exact .nil
    · split
      · exact items_neutral w0 tap false _ items
      · unfold pdfBegin
        rw [List.append_assoc [DTok.q], List.append_assoc [DTok.q],
          List.append_assoc [DTok.q]]
        refine .wrap (.app (.app (.app (styles_balanced ..) ?_) ?_) (items_neutral w0 tap false _ items).balanced)
        · cases (cvOf attrs).clip with
          | none => exact .nil
          | some p => exact .app (a := [_]) (.tok _ rfl) (.tok _ rfl)
        · split
          · exact .tok _ rfl
          · exact .nil
theorem items_neutral (w0 : K) (tap tr : Bool) (c : DCtx K F) (l : Items K P F) :
    Neutral (pdfItems w0 tap tr c l).1 := by
  cases l with
  | nil =>
    rw [pdfItems]
    cases tr
    · exact .nil
    · exact .tok _ rfl
  | cons i l =>
    rw [pdfItems]
    refine .app (.app ?_ (item_neutral w0 tap _ i)) (items_neutral w0 tap _ _ l)
    unfold region
    cases tap <;> cases tr <;> cases i.requiretextregion <;> first | exact .nil | exact .tok _ rfl
end

theorem wrap_sections (w0 : K) (c : DCtx K F) (l : List (Style K)) {inner : List (DTok K P F)}
    (h : sections false inner = some false) : sections false (pdfWrap l (pdfStyles w0 c l) inner) = some false := by
  unfold pdfWrap
  split
  · exact h
  · have h1 := sections_outside (pdfStyles w0 c l : List (DTok K P F)) fun t ht => (styles_tok w0 c l t ht).1
    rw [sections_append, sections_append, sections_append]
    simp [sections, textOnly, h, h1]

theorem fill_outside (c : DCtx K F) : sections false (pdfFill c : List (DTok K P F)) = some false := by
  unfold pdfFill
  split <;> simp [sections, textOnly]

theorem fillPart_sections (w0 : K) (c : DCtx K F) (path : P) (sp : Option P) (fs ss : Option (List (Style K))) :
    sections false (pdfFillPart w0 c path sp fs ss) = some false := by
  cases fs with
  | none => rfl
  | some f =>
    have h1 : sections false ([.path path] ++ pdfWrap f (pdfFillStyles w0 c f) (pdfFill c)) = some false := by
      rw [sections_append]
      have := wrap_sections (P := P) w0 { c with strokeattr := false } f (fill_outside c)
      simpa [sections, textOnly, pdfFillStyles] using this
    cases ss with
    | none => cases sp <;> exact h1
    | some l =>
      cases sp with
      | some sp => exact h1
      | none =>
        simp only [pdfFillPart]
        refine sections_outside _ fun t ht => ?_
        simp only [List.mem_append, List.mem_cons, List.not_mem_nil, or_false] at ht
        rcases ht with ((((rfl | rfl) | ht) | ht) | ht) | rfl
        · rfl
        · rfl
        · exact (styles_tok w0 _ _ t ht).1
        · exact (styles_tok w0 _ _ t ht).1
        · split at ht <;> simp at ht <;> rw [ht] <;> rfl
        · rfl

theorem strokePart_sections (w0 : K) (c : DCtx K F) (path : P) (sp : Option P) (fs ss : Option (List (Style K))) :
    sections false (pdfStrokePart w0 c path sp fs ss) = some false := by
  cases ss with
  | none => rfl
  | some l =>
    simp only [pdfStrokePart]
    split
    · exact wrap_sections w0 _ l (by simp [sections, textOnly])
    · rfl

mutual
/-- With `textaspath` all fonts have a font file. -/
def T1OK (tap : Bool) : Item K P F → Prop
  | .text _ t1 _ => tap = true → t1 = true
  | .field _ => True
  | .dp _ _ _ _ _ orn => T1OKs tap orn
  | .cv _ items => T1OKs tap items
def T1OKs (tap : Bool) : Items K P F → Prop
  | .nil => True
  | .cons i l => T1OK tap i ∧ T1OKs tap l
end

mutual
theorem item_sections (w0 : K) (tap : Bool) (c : DCtx K F) (i : Item K P F) (ht : T1OK tap i) :
    sections (i.requiretextregion && !tap) (pdfItem w0 tap c i).1 = some (i.requiretextregion && !tap) := by
  cases i with
  | text f t1 o =>
    rw [T1OK] at ht
    rw [pdfItem]
    cases tap with
    | true =>
      rw [ht rfl]
      simp only [Bool.and_true, if_true, Bool.not_true, Bool.and_false]
      rw [sections_append]
      have := fill_outside (P := P) c
      simpa [sections, textOnly] using this
    | false =>
      simp only [Bool.false_and, Bool.false_eq_true, if_false, Item.requiretextregion, Bool.not_false, Bool.and_true]
      unfold pdfText
      split <;> simp [sections, textOnly]
  | field r => rw [pdfItem]; rfl
  | dp path sp sty fs ss orn =>
    rw [T1OK] at ht
    rw [pdfItem]
    refine wrap_sections w0 c sty ?_
    rw [sections_append, sections_append, fillPart_sections]
    simp only [Option.bind_some]
    rw [strokePart_sections, Option.bind_some, items_sections w0 tap false _ orn ht (fun _ => rfl)]
  | cv attrs items =>
    rw [T1OK] at ht
    rw [pdfItem]
    show sections false _ = some false
    split
    · rfl
    · split
      · exact items_sections w0 tap false _ items ht (fun _ => rfl)
      · unfold pdfBegin
        rw [sections_append, sections_append, sections_outside, Option.bind_some,
          items_sections w0 tap false _ items ht (fun _ => rfl)]
        · rfl
        · intro t ht
          simp only [List.mem_append, List.mem_cons, List.not_mem_nil, or_false] at ht
          rcases ht with ((rfl | ht) | ht) | ht
          · rfl
          · exact (styles_tok w0 _ _ t ht).1
          · cases hc : (cvOf attrs).clip with
            | none => rw [hc] at ht; simp at ht
            | some p =>
              rw [hc] at ht
              simp at ht
              rcases ht with rfl | rfl <;> rfl
          · split at ht
            · simp at ht; rw [ht]; rfl
            · simp at ht
theorem items_sections (w0 : K) (tap tr : Bool) (c : DCtx K F) (l : Items K P F) (ht : T1OKs tap l)
    (htt : tap = true → tr = false) : sections tr (pdfItems w0 tap tr c l).1 = some false := by
  cases l with
  | nil =>
    rw [pdfItems]
    cases tr <;> rfl
  | cons i l =>
    rw [T1OKs] at ht
    rw [pdfItems]
    have h1 : sections tr (region (K := K) (P := P) (F := F) tap tr i.requiretextregion).1 =
        some (i.requiretextregion && !tap) := by
      unfold region
      cases tap with
      | true => simp [htt rfl, sections]
      | false => cases i.requiretextregion <;> cases tr <;> simp [sections]
    have h2 : (region (K := K) (P := P) (F := F) tap tr i.requiretextregion).2 =
        (i.requiretextregion && !tap) := by
      unfold region
      cases tap with
      | true => simp [htt rfl]
      | false => cases i.requiretextregion <;> simp
    rw [sections_append, sections_append, h1, Option.bind_some, item_sections w0 tap _ i ht.1, Option.bind_some,
      h2]
    exact items_sections w0 tap _ _ l ht.2 (by intro e; rw [e]; simp)
end

end PDF

/-! ## C33 and C34 for PDF -/

/-- **C33.**  In the PDF stream of any tree every `q` has its `Q`, and once an item has been drawn the
graphics state is as before, except for the selected font. -/
theorem pdf_state_restored (w0 : K) (strict tap : Bool) (c : DCtx K F) (i : Item K P F) (s s' : PDF.St K P F)
    (h : PDF.run strict (pdfItem w0 tap c i).1 s = some s') :
    s'.stack = s.stack ∧ ∃ fo, s'.gs = { s.gs with font := fo } :=
  (PDF.item_neutral w0 tap c i).state s s' h

/-- **C33.**  The text sections of the stream of any tree are never nested, contain nothing but font
selections and texts, and all texts are inside of them.  Missing: `textaspath` with fonts without a
font file (`pdf_text_outside`). -/
theorem pdf_text_sections_partial (w0 : K) (tap : Bool) (c : DCtx K F) (attrs : List (Attr K P)) (items : Items K P F)
    (ht : PDF.T1OKs tap items) : PDF.sections false (pdfItem w0 tap c (.cv attrs items)).1 = some false :=
  PDF.item_sections w0 tap c (.cv attrs items) (by rw [PDF.T1OK]; exact ht)

/-- **C33, C34.**  The PDF stream of a canvas tree runs without error and makes exactly the marks of the
picture of the tree, in order.  Missing: fill rules in the fill styles of a path
(`pdf_fillrule_ignored`), patterns (`pdf_pattern_error`), `textaspath` with fonts without a font file
(`pdf_text_outside`); and the interpreter has to allow saving and parameters between path construction
and painting (`pdf_path_object`). -/
theorem pdf_picture_partial (w0 : K) (tap : Bool) (attrs : List (Attr K P)) (items : Items K P F) (c : DCtx K F)
    (y : Sty K) (s : PDF.St K P F) (hw : WF (.cv attrs items)) (hr : PdfOK tap (.cv attrs items))
    (hc : c.font = none) (hsa : c.strokeattr = true) (hfa : c.fillattr = true) (htr : c.trafo = s.gs.ctm)
    (hp : s.path = []) (hx : s.text = false) (h : PDF.Sync c y s.gs) :
    ∃ s', PDF.run false (pdfItem w0 tap c (.cv attrs items)).1 s = some s' ∧
      s'.stack = s.stack ∧ s'.path = [] ∧ s'.text = false ∧ (∃ fo, s'.gs = { s.gs with font := fo }) ∧
      s'.out = s.out ++ (pic w0 false tap y (.cv attrs items)).map (place s.gs.ctm s.gs.clips) := by
  obtain ⟨fo, _, _, hd, -⟩ := PDF.item_draws w0 tap (.cv attrs items) c y s.gs false hw hr
    ⟨h, hsa, hfa, htr, fun _ => hc, fun f e => by rw [hc] at e; simp at e⟩ rfl
  obtain ⟨gs, stack, pa, text, out⟩ := s
  simp only at hp hx
  subst hp hx
  exact ⟨_, hd stack out, rfl, rfl, rfl, ⟨_, rfl⟩, rfl⟩

/-! ## Instance and witnesses -/

/-- The context and state at the beginning of a page. -/
def dctx0 : DCtx ℚ ℕ := ⟨1, none, false, false, true, true, Trafo.one, []⟩
def dst0 : PDF.St ℚ (List (ℚ × ℚ)) ℕ :=
  ⟨⟨Trafo.one, [], 1, ([], 0), fun _ => 0, .dev 0, .dev 0, false, 1, 1, none⟩, [], [], false, []⟩

theorem dsync0 : PDF.Sync dctx0 sty0 dst0.gs := ⟨rfl, rfl, rfl, rfl, rfl, fun _ => rfl, fun _ => rfl, rfl,
  fun _ => rfl, fun _ => rfl⟩

/-- The hypotheses of `pdf_picture_partial` hold for the example of `PsProps`. -/
example : ∃ s', PDF.run false (pdfItem 1 false dctx0 (.cv [] demo)).1 dst0 = some s' ∧
    s'.out = (pic 1 false false sty0 (.cv [] demo)).map (place Trafo.one []) := by
  obtain ⟨s', h1, -, -, -, -, h2⟩ := pdf_picture_partial 1 false [] demo dctx0 sty0 dst0
    ⟨rfl, ⟨trivial, ⟨rfl, trivial, trivial, trivial⟩, trivial, trivial⟩⟩
    ⟨fun t h => by simp [stylesOf] at h, fun h => by simp at h,
      ⟨fun t h => by simp [stylesOf] at h; subst h; rfl,
        ⟨fun t h => by simp at h; subst h; rfl, fun f h => by simp at h; subst h; simp,
          fun f h => by simp at h; subst h; intro t ht; simp at ht; subst ht; rfl, trivial⟩,
        fun h => by simp at h, trivial⟩, fun h => by simp at h, trivial⟩
    rfl rfl rfl rfl rfl rfl dsync0
  exact ⟨s', h1, h2⟩

/-- Names of operators. -/
def DTok.name {K P F : Type} : DTok K P F → String
  | .q => "q" | .Q => "Q" | .path _ => "path" | .clip => "W n" | .cm _ => "cm" | .w _ => "w" | .d _ _ => "d"
  | .param _ _ => "param" | .sc _ => "sc" | .fc _ => "fc" | .cs => "cs" | .scn _ => "scn" | .f => "f"
  | .fstar => "f*" | .S => "S" | .B => "B" | .Bstar => "B*" | .BT => "BT" | .ET => "ET" | .Tf _ => "Tf"
  | .CA _ => "CA" | .ca _ => "ca" | .Tj _ => "Tj" | .field _ _ _ => "field"

/-- Its stream. -/
example : (pdfItem 1 false dctx0 (.cv [] demo)).1.map DTok.name =
    ["BT", "Tf", "Tj", "ET", "q", "w", "path", "W n", "cm", "q", "sc", "fc", "path", "q", "d", "B", "Q", "Q",
     "BT", "Tf", "Tj", "ET", "Q", "BT", "Tf", "Tj", "ET"] := by
  decide +kernel

/-- A tree with a given path item only. -/
def one1 (i : Item ℚ (List (ℚ × ℚ)) ℕ) : Item ℚ (List (ℚ × ℚ)) ℕ := .cv [] (.cons i .nil)

/-- A fill rule given to `deco.filled` is ignored in PDF as well (`pyx/deco.py:239-241,264-267`). -/
theorem pdf_fillrule_ignored : ∃ s', PDF.run false (pdfItem 1 false dctx0
      (one1 (.dp sq none [] (some [.fillrule true]) none .nil))).1 dst0 = some s' ∧
      s'.out.map (fun k => k.ink.key) ≠
        (pic 1 false false sty0 (one1 (.dp sq none [] (some [.fillrule true]) none .nil))).map fun k => k.ink.key := by
  refine ⟨_, rfl, ?_⟩
  decide +kernel

/-- Path objects contain `q`, colours etc. between construction and painting of the path
(`pyx/deco.py:244-271`), which the PDF reference does not allow: an interpreter which insists fails on
any path filled with a colour, and on any path stroked and filled. -/
theorem pdf_path_object :
    PDF.run true (pdfItem 1 false dctx0 (one1 (.dp sq none [] (some [.color 1]) none .nil))).1 dst0 = none ∧
    PDF.run true (pdfItem 1 false dctx0 (one1 (.dp sq none [] (some []) (some []) .nil))).1 dst0 = none :=
  ⟨rfl, rfl⟩

/-- `context.colorspace` stays `Pattern` after a colour has been set (`pyx/pattern.py:152-154`,
`pyx/color.py`): the second pattern is then selected without its colour space, an error. -/
theorem pdf_pattern_error :
    PDF.run false (pdfItem 1 false dctx0
      (.cv [.style (.pattern 1), .style (.color 2), .style (.pattern 3)]
        (.cons (.dp sq none [] (some []) none .nil) .nil))).1 dst0 = none := rfl

/-- With `textaspath` the canvas never opens a text section (`pyx/canvas.py:233`), but a font without a
font file is output as a text all the same (`pyx/font/font.py:606-609`). -/
theorem pdf_text_outside (f : ℕ) (o : List (ℚ × ℚ)) :
    PDF.sections false (pdfItem 1 true dctx0 (one1 (.text f false o))).1 = none ∧
    PDF.run false (pdfItem 1 true dctx0 (one1 (.text f false o))).1 dst0 = none := by
  constructor <;> rfl

/-- The fill styles of the form fields of a stream. -/
def fieldStyles : List (DTok ℚ (List (ℚ × ℚ)) ℕ) → List (List (Style ℚ))
  | [] => []
  | .field _ st _ :: l => st :: fieldStyles l
  | _ :: l => fieldStyles l

/-- The list `context.fillstyles` is shared by all copies of the context (`pyx/canvas.py:225`): a form
field gets the colour of a canvas drawn before which it is not part of. -/
theorem pdf_field_styles_leak :
    fieldStyles (pdfItem 1 false dctx0 (.cv [] (.cons (.cv [.style (.color 7)] (.cons (.field sq) .nil))
      (.cons (.field sq) .nil)))).1 = [[.color 7], [.color 7]] := by
  decide +kernel

end PyX.Canvas
