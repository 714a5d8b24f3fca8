import Verif.Path.Spec

/-!
# Relative path items (C48)
-/

set_option linter.unusedSectionVars false

namespace PyX.Path

open Real PyX.NormPath

noncomputable section

/-! ## Specification: replacing the relative items -/

/-- The context after an item. -/
def after (c : Ctx) (i : PItem) : Ctx :=
  match expand c.cur i with
  | .ok js => js.foldl advance c
  | .error _ => c

/-- The absolute item at the current point. -/
def absItem (cur : Pt) : PItem → PItem
  | .rmoveto d => .moveto (cur + d)
  | .rlineto d => .lineto (cur + d)
  | .rcurveto d1 d2 d3 => .curveto (cur + d1) (cur + d2) (cur + d3)
  | i => i

def absolute (c : Ctx) : List PItem → List PItem
  | [] => []
  | i :: is => absItem c.cur i :: absolute (after c i) is

/-- The path with all relative items replaced by absolute ones. -/
def absPath : List PItem → List PItem
  | [] => []
  | i :: is =>
    match createcontext i with
    | .ok c => i :: absolute c is
    | .error _ => i :: is

/-- No relative item is left. -/
def isRelative : PItem → Bool
  | .rmoveto _ | .rlineto _ | .rcurveto _ _ _ => true
  | _ => false

theorem absolute_absolute (c : Ctx) (is : List PItem) : ∀ i ∈ absolute c is, isRelative i = false := by
  induction is generalizing c with
  | nil => intro i hi; simp [absolute] at hi
  | cons j js ih =>
    intro i hi
    simp only [absolute, List.mem_cons] at hi
    rcases hi with rfl | hi
    · cases j <;> rfl
    · exact ih _ i hi

/-- All items of the replaced path are absolute, if the path begins as required. -/
theorem absPath_absolute (i : PItem) (is : List PItem) (c : Ctx) (h : createcontext i = .ok c) :
    ∀ j ∈ absPath (i :: is), isRelative j = false := by
  intro j hj
  simp only [absPath, h, List.mem_cons] at hj
  rcases hj with rfl | hj
  · cases j <;> first | rfl | simp [createcontext] at h
  · exact absolute_absolute c is j hj

/-! ## Lemmas -/

theorem expand_abs (c : Ctx) (i : PItem) :
    (isRelative i = false ∧ absItem c.cur i = i) ∨
    (isRelative i = true ∧ expand c.cur i = .ok [i] ∧ expand c.cur (absItem c.cur i) = .ok [absItem c.cur i]) := by
  cases i <;> simp [isRelative, absItem, expand]

theorem advance_abs (c : Ctx) (i : PItem) : advance c (absItem c.cur i) = advance c i := by
  cases i <;> rfl

theorem updatebbox_abs (b : BBox ℝ) (c : Ctx) (i : PItem) : updatebbox b c (absItem c.cur i) = updatebbox b c i := by
  cases i <;> rfl

theorem updatebboxes_snd (s : BBox ℝ × Ctx) (js : List PItem) : (updatebboxes s js).2 = js.foldl advance s.2 := by
  induction js generalizing s with
  | nil => rfl
  | cons j js ih =>
    simp only [updatebboxes, List.foldl_cons] at ih ⊢
    rw [ih]

theorem bboxLoop_abs (s : BBox ℝ × Ctx) (is : List PItem) : bboxLoop s (absolute s.2 is) = bboxLoop s is := by
  induction is generalizing s with
  | nil => rfl
  | cons i is ih =>
    simp only [absolute, bboxLoop]
    rcases expand_abs s.2 i with ⟨_, h⟩ | ⟨_, h1, h2⟩
    · rw [h]
      unfold after
      cases he : expand s.2.cur i with
      | error e => rfl
      | ok js =>
        simp only
        rw [← updatebboxes_snd]
        exact ih _
    · unfold after
      rw [h1, h2]
      simp only
      have h3 : updatebboxes s [absItem s.2.cur i] = updatebboxes s [i] := by
        simp only [updatebboxes, List.foldl_cons, List.foldl_nil, updatebbox_abs, advance_abs]
      rw [h3, ← updatebboxes_snd]
      exact ih _

/-- C48: the bounding box does not change when the relative items are replaced. -/
theorem bbox_absolute (is : List PItem) : bbox (absPath is) = bbox is := by
  cases is with
  | nil => rfl
  | cons i is =>
    simp only [absPath]
    cases hc : createcontext i with
    | error e => rfl
    | ok c =>
      simp only [bbox, hc]
      cases hb : createbbox i with
      | error e => rfl
      | ok b => exact bboxLoop_abs (b, c) is

variable (roots : ℝ → ℝ → ℝ → ℝ → List ℝ) (eps : Option ℝ) (n : ℕ)

theorem updatenormpath_abs (np : NP) (c : Ctx) (i : PItem) :
    updatenormpath roots eps n np c (absItem c.cur i) = updatenormpath roots eps n np c i := by
  cases i <;> rfl

theorem updatenormpaths_snd (np np' : NP) (c c' : Ctx) (js : List PItem) (h : updatenormpaths roots eps n np c js = .ok (np', c')) :
    c' = js.foldl advance c := by
  induction js generalizing np c with
  | nil => simp only [updatenormpaths, Except.ok.injEq, Prod.mk.injEq] at h; exact h.2.symm
  | cons j js ih =>
    simp only [updatenormpaths] at h
    cases hu : updatenormpath roots eps n np c j with
    | error e => rw [hu] at h; simp at h
    | ok np1 =>
      rw [hu] at h
      exact ih _ _ h

theorem normLoop_abs (np : NP) (c : Ctx) (is : List PItem) : normLoop roots eps n np c (absolute c is) = normLoop roots eps n np c is := by
  induction is generalizing np c with
  | nil => rfl
  | cons i is ih =>
    simp only [absolute, normLoop]
    rcases expand_abs c i with ⟨_, h⟩ | ⟨_, h1, h2⟩
    · rw [h]
      unfold after
      cases he : expand c.cur i with
      | error e => rfl
      | ok js =>
        simp only
        cases hu : updatenormpaths roots eps n np c js with
        | error e => rfl
        | ok s =>
          simp only
          rw [← updatenormpaths_snd roots eps n np s.1 c s.2 js hu]
          exact ih _ _
    · unfold after
      rw [h1, h2]
      simp only
      have h3 : updatenormpaths roots eps n np c [absItem c.cur i] = updatenormpaths roots eps n np c [i] := by
        simp only [updatenormpaths, updatenormpath_abs, advance_abs]
      rw [h3]
      cases hu : updatenormpaths roots eps n np c [i] with
      | error e => rfl
      | ok s =>
        simp only
        rw [← updatenormpaths_snd roots eps n np s.1 c s.2 [i] hu]
        exact ih _ _

/-- C48: the normpath does not change when the relative items are replaced. -/
theorem normpath_absolute (is : List PItem) : normpath roots eps n (absPath is) = normpath roots eps n is := by
  cases is with
  | nil => rfl
  | cons i is =>
    simp only [absPath]
    cases hc : createcontext i with
    | error e => rfl
    | ok c =>
      simp only [normpath, hc]
      cases hb : createnormpath roots eps n i with
      | error e => rfl
      | ok b => exact normLoop_abs roots eps n b c is

/-- C48: the PDF output does not change when the relative items are replaced. -/
theorem pdf_absolute (is : List PItem) : outputPDF roots n (absPath is) = outputPDF roots n is := by
  simp only [outputPDF, normpath_absolute]

/-! ## PostScript -/

/-- The interpreter's tangent arcs end where those of the code end. -/
def ArctEnds (A : Arcs) : Prop :=
  ∀ cur p1 p2 r js, arctItems cur p1 p2 r = .ok js → (A.arct cur p1 p2 r).2.2 = (js.foldl advance ⟨cur, cur⟩).cur

/-- The context knows the state of the interpreter. -/
def Knows (st : PenState) (c : Ctx) : Prop := ∃ s, st = .pen s ∧ s.cur = c.cur ∧ s.start = c.first ∧ (s.fresh = true → s.cur = s.start)

theorem foldl_lineto (A : Arcs) (ps : List Pt) (s : Pen) :
    ∃ s', ((ps.map PsOp.lineto).foldl (psStep A) (.pen s)) = .pen s' ∧ s'.cur = ps.getLast?.getD s.cur ∧ s'.start = s.start ∧
      (s'.fresh = true → ps = [] ∧ s' = s) := by
  induction ps generalizing s with
  | nil => exact ⟨s, rfl, rfl, rfl, fun _ => ⟨rfl, rfl⟩⟩
  | cons p ps ih =>
    obtain ⟨s', h1, h2, h3, h4⟩ := ih (s.lineTo p)
    refine ⟨s', h1, ?_, h3, fun h => ?_⟩
    swap
    · have := (h4 h).2
      rw [this] at h
      cases h
    rw [h2]
    cases ps with
    | nil => rfl
    | cons q qs => rw [List.getLast?_cons_cons]; simp [List.getLast?_cons]

theorem foldl_curveto (A : Arcs) (ps : List (Pt × Pt × Pt)) (s : Pen) :
    ∃ s', ((ps.map fun q => PsOp.curveto q.1 q.2.1 q.2.2).foldl (psStep A) (.pen s)) = .pen s' ∧
      s'.cur = (ps.getLast?.map fun q => q.2.2).getD s.cur ∧ s'.start = s.start ∧ (s'.fresh = true → ps = [] ∧ s' = s) := by
  induction ps generalizing s with
  | nil => exact ⟨s, rfl, rfl, rfl, fun _ => ⟨rfl, rfl⟩⟩
  | cons p ps ih =>
    obtain ⟨s', h1, h2, h3, h4⟩ := ih (s.curveTo p.1 p.2.1 p.2.2)
    refine ⟨s', h1, ?_, h3, fun h => ?_⟩
    swap
    · have := (h4 h).2
      rw [this] at h
      cases h
    rw [h2]
    cases ps with
    | nil => rfl
    | cons q qs => rw [List.getLast?_cons_cons]; simp [List.getLast?_cons]

theorem curves_start (s : Pen) (cs : List (Curve ℝ)) : (s.curves cs).start = s.start := by
  unfold Pen.curves
  induction cs generalizing s with
  | nil => rfl
  | cons c cs ih => rw [List.foldl_cons, ih]; rfl

/-- The current point does not depend on the begin of the sub-path. -/
theorem advance_cur (c d : Ctx) (h : c.cur = d.cur) (i : PItem) (hi : i ≠ .closepath) : (advance c i).cur = (advance d i).cur := by
  cases i <;> simp_all [advance]

theorem advance_first (c : Ctx) (i : PItem) (h : (∃ p, i = .lineto p) ∨ (∃ x y r a1 a2, i = .arc x y r a1 a2) ∨ (∃ x y r a1 a2, i = .arcn x y r a1 a2)) :
    (advance c i).first = c.first := by
  rcases h with ⟨p, rfl⟩ | ⟨x, y, r, a1, a2, rfl⟩ | ⟨x, y, r, a1, a2, rfl⟩ <;> rfl

/-- The items of a tangent arc: a line, or a line and an arc. -/
theorem arctItems_form (cur p1 p2 : Pt) (r : ℝ) (js : List PItem) (h : arctItems cur p1 p2 r = .ok js) :
    (∃ p, js = [.lineto p]) ∨ (∃ p x y r a1 a2, js = [.lineto p, .arc x y r a1 a2]) ∨ (∃ p x y r a1 a2, js = [.lineto p, .arcn x y r a1 a2]) := by
  unfold arctItems at h
  simp only at h
  split_ifs at h <;> simp only [Except.ok.injEq] at h <;> subst h
  all_goals
    first
      | exact Or.inl ⟨_, rfl⟩
      | exact Or.inr (Or.inl ⟨_, _, _, _, _, _, rfl⟩)
      | exact Or.inr (Or.inr ⟨_, _, _, _, _, _, rfl⟩)

theorem arct_after (cur : Pt) (c : Ctx) (_hc : c.cur = cur) (p1 p2 : Pt) (r : ℝ) (js : List PItem) (h : arctItems cur p1 p2 r = .ok js) :
    (js.foldl advance c).cur = (js.foldl advance ⟨cur, cur⟩).cur ∧ (js.foldl advance c).first = c.first := by
  obtain ⟨p, rfl⟩ | ⟨p, x, y, r, a1, a2, rfl⟩ | ⟨p, x, y, r, a1, a2, rfl⟩ := arctItems_form _ _ _ _ _ h <;> exact ⟨rfl, rfl⟩

theorem curves_fresh (s : Pen) (cs : List (Curve ℝ)) (h : s.fresh = false) : (s.curves cs).fresh = false := by
  unfold Pen.curves
  induction cs generalizing s with
  | nil => exact h
  | cons c cs ih => rw [List.foldl_cons]; exact ih _ rfl

/-- The context follows the PostScript interpreter. -/
theorem knows_step (A : Arcs) (hA : ArctEnds A) (st : PenState) (c : Ctx) (hk : Knows st c) (i : PItem) (js : List PItem)
    (he : expand c.cur i = .ok js) : Knows ((itemPS i).foldl (psStep A) st) (after c i) := by
  obtain ⟨s, rfl, h1, h2, h0⟩ := hk
  unfold after
  rw [he]
  simp only
  cases i with
  | arct p1 p2 r =>
    simp only [expand] at he
    obtain ⟨e1, e2⟩ := arct_after c.cur c rfl p1 p2 r js he
    refine ⟨_, rfl, ?_, ?_, ?_⟩
    · simp only
      rw [e1, h1, hA _ _ _ _ _ he]
    · simp only
      rw [curves_start, e2]
      exact h2
    · simp only
      rw [curves_fresh]
      · intro h; cases h
      · rfl
  | multilineto ps =>
    simp only [expand, Except.ok.injEq] at he
    subst he
    obtain ⟨s', g1, g2, g3, g4⟩ := foldl_lineto A ps s
    exact ⟨s', g1, by rw [g2, h1]; rfl, by rw [g3, h2]; rfl, fun h => by have e := (g4 h).2; rw [e] at h ⊢; exact h0 h⟩
  | multicurveto ps =>
    simp only [expand, Except.ok.injEq] at he
    subst he
    obtain ⟨s', g1, g2, g3, g4⟩ := foldl_curveto A ps s
    exact ⟨s', g1, by rw [g2, h1]; rfl, by rw [g3, h2]; rfl, fun h => by have e := (g4 h).2; rw [e] at h ⊢; exact h0 h⟩
  | closepath =>
    simp only [expand, Except.ok.injEq] at he
    subst he
    refine ⟨_, rfl, ?_, ?_, ?_⟩ <;> unfold Pen.close <;> split_ifs with hf
    · exact (h0 hf).trans h2
    · exact h2
    · exact h2
    · exact h2
    · exact h0
    · exact fun _ => rfl
  | arc x y r a1 a2 =>
    simp only [expand, Except.ok.injEq] at he
    subst he
    exact ⟨_, rfl, rfl, by simp only; rw [curves_start]; exact h2, by simp only; rw [curves_fresh _ _ rfl]; intro h; cases h⟩
  | arcn x y r a1 a2 =>
    simp only [expand, Except.ok.injEq] at he
    subst he
    exact ⟨_, rfl, rfl, by simp only; rw [curves_start]; exact h2, by simp only; rw [curves_fresh _ _ rfl]; intro h; cases h⟩
  | moveto p =>
    simp only [expand, Except.ok.injEq] at he
    subst he
    exact ⟨_, rfl, rfl, rfl, fun h => by cases h⟩
  | lineto p =>
    simp only [expand, Except.ok.injEq] at he
    subst he
    exact ⟨_, rfl, rfl, h2, fun h => by cases h⟩
  | curveto p1 p2 p3 =>
    simp only [expand, Except.ok.injEq] at he
    subst he
    exact ⟨_, rfl, rfl, h2, fun h => by cases h⟩
  | rmoveto d =>
    simp only [expand, Except.ok.injEq] at he
    subst he
    exact ⟨_, rfl, congrArg (· + d) h1, congrArg (· + d) h1, fun h => by cases h⟩
  | rlineto d =>
    simp only [expand, Except.ok.injEq] at he
    subst he
    exact ⟨_, rfl, congrArg (· + d) h1, h2, fun h => by cases h⟩
  | rcurveto d1 d2 d3 =>
    simp only [expand, Except.ok.injEq] at he
    subst he
    exact ⟨_, rfl, congrArg (· + d3) h1, h2, fun h => by cases h⟩

theorem step_abs (A : Arcs) (st : PenState) (c : Ctx) (hk : Knows st c) (i : PItem) :
    (itemPS (absItem c.cur i)).foldl (psStep A) st = (itemPS i).foldl (psStep A) st := by
  obtain ⟨s, rfl, h1, h2, h0⟩ := hk
  cases i <;> simp [absItem, itemPS, psStep, PenState.need, PenState.moveTo, h1]

theorem runPS_abs (A : Arcs) (hA : ArctEnds A) (st : PenState) (b : BBox ℝ) (c : Ctx) (hk : Knows st c) (is : List PItem) (q : BBox ℝ)
    (hb : bboxLoop (b, c) is = .ok q) :
    ((absolute c is).flatMap itemPS).foldl (psStep A) st = (is.flatMap itemPS).foldl (psStep A) st := by
  induction is generalizing st b c with
  | nil => rfl
  | cons i is ih =>
    simp only [absolute, List.flatMap_cons, List.foldl_append]
    rw [step_abs A st c hk i]
    simp only [bboxLoop] at hb
    cases he : expand c.cur i with
    | error e => rw [he] at hb; simp at hb
    | ok js =>
      rw [he] at hb
      simp only at hb
      have hk' := knows_step A hA st c hk i js he
      have h3 := updatebboxes_snd (b, c) js
      have h4 : after c i = js.foldl advance c := by simp only [after, he]
      simp only at h3
      rw [← h4] at h3
      apply ih _ (updatebboxes (b, c) js).1 _ hk'
      rw [← h3]
      exact hb

theorem knows_create (A : Arcs) (i : PItem) (c : Ctx) (h : createcontext i = .ok c) : Knows ((itemPS i).foldl (psStep A) .empty) c := by
  cases i <;> simp only [createcontext, Except.ok.injEq, reduceCtorEq] at h <;> subst h
  · exact ⟨_, rfl, rfl, rfl, fun h => by cases h⟩
  · exact ⟨_, rfl, rfl, by simp only; rw [curves_start], by simp only; rw [curves_fresh _ _ rfl]; intro h; cases h⟩
  · exact ⟨_, rfl, rfl, by simp only; rw [curves_start], by simp only; rw [curves_fresh _ _ rfl]; intro h; cases h⟩

/-- C48: the PostScript operators draw the same when the relative items are replaced, whatever the arcs of the interpreter are (as long as its
tangent arcs end at the same point as those of PyX). -/
theorem ps_absolute (A : Arcs) (hA : ArctEnds A) (is : List PItem) (q : BBox ℝ) (hb : bbox is = .ok q) :
    runPS A (outputPS (absPath is)) = runPS A (outputPS is) := by
  cases is with
  | nil => rfl
  | cons i is =>
    simp only [absPath]
    cases hc : createcontext i with
    | error e => rfl
    | ok c =>
      simp only [bbox, hc] at hb
      cases hcb : createbbox i with
      | error e => rw [hcb] at hb; simp at hb
      | ok b =>
        rw [hcb] at hb
        simp only [runPS, outputPS, List.flatMap_cons, List.foldl_append]
        exact runPS_abs A hA _ b c (knows_create A i c hc) is q hb

/-- C48: after each prefix of a path, the context of the code is the state of the PostScript interpreter: current point and begin of the sub-path. -/
theorem context_follows_ps (A : Arcs) (hA : ArctEnds A) (i : PItem) (is : List PItem) (q : BBox ℝ) (hb : bbox (i :: is) = .ok q) :
    ∃ c, createcontext i = .ok c ∧ Knows (runPS A (outputPS (i :: is))) (is.foldl after c) := by
  simp only [bbox] at hb
  cases hc : createcontext i with
  | error e =>
    rw [hc] at hb
    cases hcb : createbbox i <;> rw [hcb] at hb <;> simp at hb
  | ok c =>
    refine ⟨c, rfl, ?_⟩
    rw [hc] at hb
    cases hcb : createbbox i with
    | error e => rw [hcb] at hb; simp at hb
    | ok b =>
      rw [hcb] at hb
      simp only at hb
      simp only [runPS, outputPS, List.flatMap_cons, List.foldl_append]
      have hk := knows_create A i c hc
      clear hc hcb
      generalize (itemPS i).foldl (psStep A) PenState.empty = st at *
      clear i
      induction is generalizing st b c with
      | nil => exact hk
      | cons i is ih =>
        simp only [List.flatMap_cons, List.foldl_append, List.foldl_cons]
        simp only [bboxLoop] at hb
        cases he : expand c.cur i with
        | error e => rw [he] at hb; simp at hb
        | ok js =>
          rw [he] at hb
          simp only at hb
          have hk' := knows_step A hA st c hk i js he
          have h3 := updatebboxes_snd (b, c) js
          have h4 : after c i = js.foldl advance c := by simp only [after, he]
          simp only at h3
          rw [← h4] at h3
          apply ih _ (updatebboxes (b, c) js).1 _ _ hk'
          rw [← h3]
          exact hb

/-! ## SVG -/

def isArct : PItem → Bool
  | .arct _ _ _ => true
  | _ => false

theorem expand_noarct (cur : Pt) (i : PItem) (h : isArct i = false) : expand cur i = .ok [i] := by
  cases i <;> first | rfl | simp [isArct] at h

/-- The SVG commands of an item without `arct` do not depend on the context. -/
theorem itemSVG_ctx (inv first : Bool) (c d : Ctx) (i : PItem) : (itemSVG inv first c i).1 = (itemSVG inv first d i).1 := by
  cases i <;> rfl

/-- The commands of a path without `arct`. -/
theorem svgLoop_eq (inv first : Bool) (c d : Ctx) (is : List PItem) (h : ∀ i ∈ is, isArct i = false) :
    svgLoop inv first c is = svgLoop inv first d is := by
  induction is generalizing first c d with
  | nil => rfl
  | cons i is ih =>
    simp only [svgLoop, expand_noarct _ i (h i List.mem_cons_self)]
    have h1 : (itemsSVG inv first c [i]).1 = (itemsSVG inv first d [i]).1 := by
      simp only [itemsSVG, itemSVG_ctx inv first c d]
    rw [h1, ih false (itemsSVG inv first c [i]).2 (itemsSVG inv first d [i]).2 fun j hj => h j (List.mem_cons_of_mem _ hj)]

end

end PyX.Path
