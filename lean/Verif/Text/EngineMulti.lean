import Verif.Text.EngineProps

/-!
# C130: failed texts, and the engine which starts again
-/

set_option linter.unusedSectionVars false

namespace PyX.TexEngine

open PyX.TexMsg

variable {π : Type}

/-! ## A small TeX -/

/-- An error message for the expression `bad`. -/
def complain (expr : Str) : Str := if expr = lit "bad" then lit "! Undefined control sequence.\n" else []

/-- The number of texts in a sequence of commands. -/
def countBoxes : List Cmd → ℕ
  | [] => 0
  | .box _ _ _ :: l => countBoxes l + 1
  | _ :: l => countBoxes l

/-- What this TeX does for its last command; the page of a text is its expression. -/
def sampleReply (n : ℕ) : Option Cmd → Reply Str
  | some (.box expr p i) =>
    ⟨complain expr ++ lit "PyXBox:page=" ++ str p ++ lit ",lt=0.0pt,rt=10.0pt,ht=7.0pt,dp=0.0pt:\n" ++ pageOut p ++ lit "\n*" ++ marker i ++ lit "\n",
      true, [(pageId p, expr)]⟩
  | some (.run expr i) => ⟨complain expr ++ lit "*" ++ marker i ++ lit "\n", true, []⟩
  | some (.finish _) => ⟨lit "Output written on texput.dvi (" ++ str n ++ lit " pages, 400 bytes).\n", true, []⟩
  | none => ⟨[], true, []⟩

/-- A TeX which complains about the expression `bad` and typesets everything. -/
def sampleTex : Tex Str := fun h => sampleReply (countBoxes h) h.getLast?

/-- The expression of a command. -/
def Cmd.expr : Cmd → Str
  | .run e _ => e
  | .box e _ _ => e
  | .finish e => e

/-- The expression of the last command. -/
def sampleContent (h : List Cmd) : Str := (h.getLast?.map Cmd.expr).getD []

theorem sample_ships : Ships sampleTex sampleContent where
  box h expr page id := by simp [sampleTex, sampleReply, sampleContent, Cmd.expr]
  run h expr id := by simp [sampleTex, sampleReply]
  finish h expr := by simp [sampleTex, sampleReply]

/-- TeX without message parsers. -/
def sampleCfg (ipc : Bool) : Cfg where
  encodable := fun _ => true
  texipc := ipc
  startExprs := [(lit "start", [])]
  begindoc := none
  endExpr := lit "\\end"
  endParsers := []
  preambleParsers := []
  runParsers := []

/-- The texts `a` and `b`. -/
def goodOps : List Op := [.preamble (lit "p") [], .text (lit "a") [], .text (lit "b") []]

/-- The texts `a`, `bad` and `c`. -/
def failOps : List Op := [.text (lit "a") [], .text (lit "bad") [], .text (lit "c") []]

example : TextsOk (sampleCfg false) sampleTex {} goodOps :=
  ⟨⟨0, by decide +kernel⟩, ⟨1, by decide +kernel⟩, trivial⟩

example : (runOps (sampleCfg false) sampleTex goodOps).state = .typeset ∧
    (executeDone (sampleCfg false) sampleTex (runOps (sampleCfg false) sampleTex goodOps)).2 = .ok () ∧
    (doFinish (sampleCfg false) sampleTex (runOps (sampleCfg false) sampleTex goodOps)).1.boxes.map (·.canvas) =
      [some (lit "a"), some (lit "b")] := by decide +kernel

/-- The end is refused when the number of pages is not the expected one. -/
example : (executeDone (sampleCfg false) (fun h => sampleReply 7 h.getLast?) (runOps (sampleCfg false) sampleTex goodOps)).2 = .error .texResult := by
  decide +kernel

/-- **C130.**  The text after a failed text shows the page of the failed text: the texts are `a`, `bad` (which raises `TexResultError`) and `c`. At the end `ValueError` is raised; when the drawing is written again, the third text silently shows `bad`. -/
theorem failed_text_shifts :
    (text (sampleCfg false) sampleTex (runOps (sampleCfg false) sampleTex (failOps.take 1)) (lit "bad") []).2 = .error .texResult ∧
    (runOps (sampleCfg false) sampleTex failOps).boxes.map (fun b => (sampleContent b.sent, b.canvas)) = [(lit "a", none), (lit "c", none)] ∧
    (dvicanvas (sampleCfg false) sampleTex (runOps (sampleCfg false) sampleTex failOps) 1).2 = .error .value ∧
    (dvicanvas (sampleCfg false) sampleTex (runOps (sampleCfg false) sampleTex (failOps ++ [.canvas 1])) 1).2 = .ok (some (lit "bad")) := by
  decide +kernel

/-- **C130.**  With `texipc`, all texts after a failed text fail: with an `AttributeError` if the first text failed, with a `DVIError` otherwise. -/
theorem failed_text_ipc :
    (text (sampleCfg true) sampleTex (runOps (sampleCfg true) sampleTex [.text (lit "a") [], .text (lit "bad") []]) (lit "c") []).2 = .error .dvi ∧
    (text (sampleCfg true) sampleTex (runOps (sampleCfg true) sampleTex [.text (lit "bad") []]) (lit "c") []).2 = .error .attribute ∧
    Lost (runOps (sampleCfg true) sampleTex [.text (lit "bad") []]) ∧
    (runOps (sampleCfg true) sampleTex goodOps).boxes.map (·.canvas) = [some (lit "a"), some (lit "b")] := by
  refine ⟨by decide +kernel, by decide +kernel, ?_, by decide +kernel⟩
  intro p hp
  have : (runOps (sampleCfg true) sampleTex [.text (lit "bad") []]).dvi = .unopened := by decide +kernel
  rw [this] at hp; simp at hp

/-! ## What a new instance is told -/

/-- The expressions of a sequence of commands. -/
def exprs (l : List Cmd) : List Str := l.map Cmd.expr

theorem executeRun_ok {cfg : Cfg} {tex : Tex π} {new : State} {e e' : Eng π} {expr : Str} {ps : List Parser}
    (h : executeRun cfg tex new e expr ps = (e', .ok ())) :
    e.state = .preamble ∧ e'.state = new ∧ exprs e'.log = exprs e.log ++ [expr] ∧ e'.boxes = e.boxes := by
  rw [executeRun] at h
  split at h
  · simp at h
  · rename_i h1
    push Not at h1
    split at h
    · simp at h
    · simp only [Prod.mk.injEq] at h
      obtain ⟨rfl, -⟩ := h
      exact ⟨h1, rfl, by simp [exprs, Cmd.expr], rfl⟩

theorem executeAll_ok {cfg : Cfg} {tex : Tex π} {l : List (Str × List Parser)} {e e' : Eng π} (hs : e.state = .preamble)
    (h : executeAll cfg tex l e = (e', .ok ())) :
    e'.state = .preamble ∧ exprs e'.log = exprs e.log ++ l.map (·.1) ∧ e'.boxes = e.boxes := by
  induction l generalizing e with
  | nil =>
    rw [executeAll] at h
    simp only [Prod.mk.injEq, and_true] at h
    subst h
    exact ⟨hs, by simp, rfl⟩
  | cons x l ih =>
    rw [executeAll] at h
    split at h
    · simp at h
    · rename_i e1 u h1
      obtain ⟨-, h2, h3, h4⟩ := executeRun_ok h1
      obtain ⟨h5, h6, h7⟩ := ih h2 h
      exact ⟨h5, by rw [h6, h3]; simp, h7.trans h4⟩

theorem ensureStarted_ok {cfg : Cfg} {tex : Tex π} {e e' : Eng π} (h : ensureStarted cfg tex e = (e', .ok ())) :
    (e.state = .start → e'.state = .preamble ∧ exprs e'.log = exprs e.log ++ cfg.startExprs.map (·.1) ∧ e'.boxes = e.boxes) ∧
    (e.state ≠ .start → e' = e) := by
  rw [ensureStarted] at h
  by_cases hs : e.state = .start
  · rw [if_pos hs, doStart, if_neg (by simpa using hs)] at h
    exact ⟨fun _ => executeAll_ok (e := { e with state := .preamble }) rfl h, fun h' => absurd hs h'⟩
  · rw [if_neg hs] at h
    simp only [Prod.mk.injEq, and_true] at h
    exact ⟨fun h' => absurd h' hs, fun _ => h.symm⟩

/-- What a new engine is told at first. -/
def startOf (cfg : Cfg) (e : Eng π) : List Str := if e.state = .start then cfg.startExprs.map (·.1) else []

theorem preamble_ok {cfg : Cfg} {tex : Tex π} {e e' : Eng π} {expr : Str} {ps : List Parser} (h : preamble cfg tex e expr ps = (e', .ok ())) :
    e'.state = .preamble ∧ exprs e'.log = exprs e.log ++ startOf cfg e ++ [expr] ∧ e'.boxes = e.boxes := by
  rw [preamble] at h
  split at h
  · simp at h
  · rename_i e1 u h1
    obtain ⟨h2, h3⟩ := ensureStarted_ok h1
    obtain ⟨h4, h5, h6, h7⟩ := executeRun_ok h
    refine ⟨h5, ?_⟩
    rw [h6, h7, startOf]
    by_cases hs : e.state = .start
    · obtain ⟨-, h8, h9⟩ := h2 hs
      rw [if_pos hs, h8, h9]; exact ⟨rfl, rfl⟩
    · rw [if_neg hs, h3 hs]; exact ⟨by simp, rfl⟩

theorem replay_ok {cfg : Cfg} {tex : Tex π} {l : List (Str × List Parser)} {e e' : Eng π} (hs : e.state = .start ∨ e.state = .preamble)
    (h : replay cfg tex l e = (e', .ok ())) :
    (e'.state = .start ∨ e'.state = .preamble) ∧ exprs e'.log ++ startOf cfg e' = exprs e.log ++ startOf cfg e ++ l.map (·.1) ∧
      e'.boxes = e.boxes := by
  induction l generalizing e with
  | nil =>
    rw [replay] at h
    simp only [Prod.mk.injEq, and_true] at h
    subst h
    exact ⟨hs, by simp, rfl⟩
  | cons x l ih =>
    rw [replay] at h
    split at h
    · simp at h
    · rename_i e1 u h1
      obtain ⟨h2, h3, h4⟩ := preamble_ok h1
      obtain ⟨h5, h6, h7⟩ := ih (Or.inr h2) h
      refine ⟨h5, ?_, h7.trans h4⟩
      rw [h6, h3, show startOf cfg e1 = [] by rw [startOf, if_neg (by rw [h2]; simp)]]
      simp

theorem goTypeset_ok {cfg : Cfg} {tex : Tex π} {e e' : Eng π} (h : goTypeset cfg tex e = (e', .ok ())) :
    exprs e'.log = exprs e.log ++ (cfg.begindoc.map (·.1)).toList ∧ e'.boxes = e.boxes := by
  rw [goTypeset] at h
  split at h
  · rename_i hb
    split at h
    · simp at h
    · simp only [Prod.mk.injEq, and_true] at h
      subst h
      rw [hb]; exact ⟨by simp, rfl⟩
  · rename_i x hb
    obtain ⟨-, -, h3, h4⟩ := executeRun_ok h
    rw [hb]; exact ⟨h3, h4⟩

theorem doTypeset_ok {cfg : Cfg} {tex : Tex π} {e e' : Eng π} {expr : Str} {ps : List Parser} {ext : List ℚ}
    (hs : e.state = .start ∨ e.state = .preamble) (h : doTypeset cfg tex e expr ps = (e', .ok ext)) :
    exprs e'.log = exprs e.log ++ startOf cfg e ++ (cfg.begindoc.map (·.1)).toList ++ [expr] ∧ e'.boxes = e.boxes := by
  rw [doTypeset] at h
  split at h
  · simp at h
  · rename_i e1 u h1
    obtain ⟨h2, h3⟩ := ensureStarted_ok h1
    have key : (e1.state = .start ∨ e1.state = .preamble) ∧ exprs e1.log = exprs e.log ++ startOf cfg e ∧ e1.boxes = e.boxes := by
      rw [startOf]
      by_cases hst : e.state = .start
      · obtain ⟨h7, h8, h9⟩ := h2 hst
        rw [if_pos hst]; exact ⟨Or.inr h7, h8, h9⟩
      · rw [if_neg hst, h3 hst]; exact ⟨hs, by simp, rfl⟩
    split at h
    · simp at h
    · rename_i e2 u2 h4
      rw [ensureTypeset, if_pos key.1] at h4
      obtain ⟨h5, h6⟩ := goTypeset_ok h4
      rcases executeText_cases cfg tex e2 expr ps with ⟨-, -, h7⟩ | ⟨-, err, h7⟩
      · rw [h] at h7
        simp only at h7
        subst h7
        refine ⟨?_, by rw [← key.2.2, ← h6]⟩
        rw [← key.2.1, ← h5]
        simp [exprs, Cmd.expr]
      · rw [h] at h7; simp at h7

/-- **C130.**  A text after TeX was finished starts a new TeX, which is told the same as the first one, all preambles in their order, and the text. -/
theorem restart_inputs (cfg : Cfg) (tex : Tex π) (m m' : Multi π) (hd : m.inst.state = .done) (expr : Str) (ps : List Parser) (i : ℕ)
    (h : mtext cfg tex m expr ps = (m', .ok i)) :
    exprs m'.inst.log = cfg.startExprs.map (·.1) ++ m.preambles.map (·.1) ++ (cfg.begindoc.map (·.1)).toList ++ [expr] ∧
    i = 0 ∧ m'.inst.boxes.length = 1 ∧ m'.preambles = m.preambles := by
  have h0 := ((done_stays cfg tex m.inst hd).1 expr ps)
  rw [mtext, if_pos (by rw [h0])] at h
  simp only [reset, if_true] at h
  split at h
  · simp at h
  · rename_i m1 u h1
    simp only [Prod.mk.injEq] at h1
    obtain ⟨rfl, h2⟩ := h1
    simp only at h
    have h3 := replay_ok (e := ({} : Eng π)) (Or.inl rfl) (show replay cfg tex m.preambles {} = ((replay cfg tex m.preambles {}).1, .ok ()) from Prod.ext rfl h2)
    obtain ⟨h4, h5, h6⟩ := h3
    generalize (replay cfg tex m.preambles {}).1 = e at *
    simp only [Prod.mk.injEq] at h
    obtain ⟨rfl, h7⟩ := h
    obtain ⟨h8, h9, h10⟩ := (text_counts cfg tex e expr ps).1 i h7
    have hb : e.boxes = [] := h6
    refine ⟨?_, by rw [h10, hb]; rfl, by simp only; rw [h8, hb]; rfl, rfl⟩
    simp only
    rw [text, if_neg (by rcases h4 with h4 | h4 <;> rw [h4] <;> simp)] at h7 ⊢
    split at h7
    · simp at h7
    · rename_i e1 ext h11
      obtain ⟨h12, -⟩ := doTypeset_ok h4 h11
      rw [(addBox_state _ _ _ _ _).2.2, h12, h5]
      simp [exprs, startOf]

/-- The drawing was written after the text `a`, then there is the text `b`. -/
example : (mtext (sampleCfg false) sampleTex
      { inst := runOps (sampleCfg false) sampleTex (goodOps ++ [.finish]), preambles := [(lit "p", [])] } (lit "x") []).2 = .ok 0 := by
  decide +kernel

/-- The parser does not raise `TexDoneError`. -/
def NoDone (ps : List Parser) : Prop := ∀ t ∈ ps, ∀ s, t s ≠ .error .texDone

theorem NoDone.append {ps qs : List Parser} (h : NoDone ps) (h' : NoDone qs) : NoDone (ps ++ qs) := by
  intro t ht
  simp only [List.mem_append] at ht
  rcases ht with ht | ht
  · exact h t ht
  · exact h' t ht

theorem parseAll_noDone {ps : List Parser} (h : NoDone ps) (s : Str) : parseAll ps s ≠ .error .texDone := by
  induction ps generalizing s with
  | nil => simp [parseAll]
  | cons t ps ih =>
    rw [parseAll]
    split
    · rename_i e he
      intro h1
      simp only [Except.error.injEq] at h1
      subst h1
      exact h t (by simp) s he
    · exact ih (fun t' ht' => h t' (by simp [ht'])) _

theorem finishParse_noDone {ps : List Parser} (h : NoDone ps) (s : Str) : finishParse ps s ≠ .error .texDone := by
  rw [finishParse]
  split
  · rename_i e he
    intro h1
    simp only [Except.error.injEq] at h1
    subst h1
    exact parseAll_noDone h s he
  · split <;> simp

theorem checkRun_noDone {ps : List Parser} (h : NoDone ps) (id : ℕ) (s : Str) : checkRun id ps s ≠ .error .texDone := by
  rw [checkRun]
  split
  · exact finishParse_noDone h _
  · simp

theorem checkText_noDone {ps : List Parser} (h : NoDone ps) (id page : ℕ) (s : Str) : checkText id page ps s ≠ .error .texDone := by
  rw [checkText]
  split
  · split
    · simp
    · rw [checkPage]
      split
      · simp
      · split
        · split
          · rename_i e he
            intro h1
            simp only [Except.error.injEq] at h1
            subst h1
            exact finishParse_noDone h _ he
          · simp
        · simp
  · simp

theorem executeRun_noDone {ps : List Parser} (h : NoDone ps) (cfg : Cfg) (tex : Tex π) (new : State) (e : Eng π) (expr : Str) :
    (executeRun cfg tex new e expr ps).2 ≠ .error .texDone := by
  rw [executeRun]
  split
  · simp
  · split
    · simp
    · simp only [answered]
      split
      · exact checkRun_noDone h _ _
      · simp

theorem executeText_noDone {ps : List Parser} (h : NoDone ps) (cfg : Cfg) (tex : Tex π) (e : Eng π) (expr : Str) :
    (executeText cfg tex e expr ps).2 ≠ .error .texDone := by
  rw [executeText]
  split
  · simp
  · split
    · simp
    · simp only [answered]
      split
      · exact checkText_noDone h _ _ _
      · simp

/-- No parser of the settings raises `TexDoneError`. -/
structure CfgNoDone (cfg : Cfg) : Prop where
  start : ∀ x ∈ cfg.startExprs, NoDone x.2
  begindoc : ∀ x ∈ cfg.begindoc, NoDone x.2
  pre : NoDone cfg.preambleParsers
  run : NoDone cfg.runParsers

theorem executeAll_noDone (cfg : Cfg) (tex : Tex π) (l : List (Str × List Parser)) (h : ∀ x ∈ l, NoDone x.2) (e : Eng π) :
    (executeAll cfg tex l e).2 ≠ .error .texDone := by
  induction l generalizing e with
  | nil => simp [executeAll]
  | cons x l ih =>
    have h1 := executeRun_noDone (h x (by simp)) cfg tex .preamble e x.1
    rw [executeAll]
    split
    · rename_i h2; rw [h2] at h1; exact h1
    · exact ih (fun y hy => h y (by simp [hy])) _

theorem ensureStarted_noDone {cfg : Cfg} (C : CfgNoDone cfg) (tex : Tex π) (e : Eng π) : (ensureStarted cfg tex e).2 ≠ .error .texDone := by
  rw [ensureStarted]
  split
  · rw [doStart]
    split
    · simp
    · exact executeAll_noDone cfg tex _ C.start _
  · simp

theorem ensureTypeset_noDone {cfg : Cfg} (C : CfgNoDone cfg) (tex : Tex π) (e : Eng π) : (ensureTypeset cfg tex e).2 ≠ .error .texDone := by
  rw [ensureTypeset]
  split
  · rw [goTypeset]
    split
    · split <;> simp
    · rename_i x hx; exact executeRun_noDone (C.begindoc x (by rw [hx]; rfl)) _ _ _ _ _
  · simp

theorem preamble_noDone {cfg : Cfg} (C : CfgNoDone cfg) (tex : Tex π) (e : Eng π) (expr : Str) {ps : List Parser} (h : NoDone ps) :
    (preamble cfg tex e expr ps).2 ≠ .error .texDone := by
  have h1 := ensureStarted_noDone C tex e
  rw [preamble]
  split
  · rename_i h2; rw [h2] at h1; exact h1
  · exact executeRun_noDone (C.pre.append h) _ _ _ _ _

theorem replay_noDone {cfg : Cfg} (C : CfgNoDone cfg) (tex : Tex π) (l : List (Str × List Parser)) (h : ∀ x ∈ l, NoDone x.2) (e : Eng π) :
    (replay cfg tex l e).2 ≠ .error .texDone := by
  induction l generalizing e with
  | nil => simp [replay]
  | cons x l ih =>
    have h1 := preamble_noDone C tex e x.1 (h x (by simp))
    rw [replay]
    split
    · rename_i h2; rw [h2] at h1; exact h1
    · exact ih (fun y hy => h y (by simp [hy])) _

theorem readPage_noDone (pages : List (List ℕ × π)) (en : Bool) (id : Option (List ℕ)) (d : Dvi) :
    (readPage pages en id d).2 ≠ .error .texDone := by
  rw [readPage.eq_def]
  split
  · simp
  · simp
  · simp
  · split
    · split <;> simp
    · split <;> simp

theorem text_noDone {cfg : Cfg} (C : CfgNoDone cfg) (tex : Tex π) (e : Eng π) (hd : e.state ≠ .done) (expr : Str) {ps : List Parser}
    (h : NoDone ps) : (text cfg tex e expr ps).2 ≠ .error .texDone := by
  have key : (doTypeset cfg tex e expr (cfg.runParsers ++ ps)).2 ≠ .error .texDone := by
    have h1 := ensureStarted_noDone C tex e
    rw [doTypeset]
    split
    · rename_i h2; rw [h2] at h1; simpa using h1
    · rename_i e1 u h2
      have h3 := ensureTypeset_noDone C tex e1
      split
      · rename_i h4; rw [h4] at h3; simpa using h3
      · exact executeText_noDone (C.run.append h) _ _ _ _
  rw [text, if_neg hd]
  split
  · rename_i h2; rw [h2] at key; simpa using key
  · rename_i e1 ext h2
    rw [addBox]
    split
    · have h3 := readPage_noDone (shipped tex e1.log) false (some (pageId e1.page))
        (if (decide (e.state = .start ∨ e.state = .preamble)) = true then .reading 0 else e1.dvi)
      split
      · rename_i h4; rw [h4] at h3; simpa using h3
      · simp
    · simp

theorem replay_state (cfg : Cfg) (tex : Tex π) (l : List (Str × List Parser)) (e : Eng π) (h : e.state ≠ .done) :
    (replay cfg tex l e).1.state ≠ .done := by
  induction l generalizing e with
  | nil => exact h
  | cons x l ih =>
    have h1 := (preamble_quiet cfg tex e x.1 x.2).alive h
    rw [replay]
    split
    · rename_i h2; rw [h2] at h1; exact h1
    · rename_i h2; rw [h2] at h1; exact ih _ h1

/-- **C130.**  `MultiEngine.text` raises no `TexDoneError` (unless a message parser does): TeX starts again. -/
theorem restarts {cfg : Cfg} (C : CfgNoDone cfg) (tex : Tex π) (m : Multi π) (hp : ∀ x ∈ m.preambles, NoDone x.2) (expr : Str)
    {ps : List Parser} (h : NoDone ps) : (mtext cfg tex m expr ps).2 ≠ .error .texDone := by
  rw [mtext]
  split
  · have h1 := replay_noDone C tex m.preambles hp {}
    have h2 := replay_state cfg tex m.preambles {} (by simp)
    simp only [reset, if_true]
    split
    · rename_i h3
      simp only [Prod.mk.injEq] at h3
      rw [h3.2] at h1
      simpa using h1
    · rename_i m1 u h3
      simp only [Prod.mk.injEq] at h3
      obtain ⟨rfl, -⟩ := h3
      exact text_noDone C tex _ h2 expr h
  · rename_i h1; exact h1

example : CfgNoDone (sampleCfg false) := ⟨by simp [sampleCfg, NoDone], by simp [sampleCfg], by simp [sampleCfg, NoDone], by simp [sampleCfg, NoDone]⟩

/-- **C130.**  A preamble which was refused since there are texts already is kept nevertheless, and is executed when TeX starts again. -/
theorem refused_preamble (cfg : Cfg) (tex : Tex π) (m : Multi π) (h : m.inst.state = .typeset ∨ m.inst.state = .done) (expr : Str) (ps : List Parser) :
    mpreamble cfg tex m expr ps = ({ m with preambles := m.preambles ++ [(expr, ps)] }, .error .assertion) := by
  rw [mpreamble, preamble_late cfg tex m.inst h]

/-- The preambles `bad` (which raises `TexResultError`) and `p`, a text, and the end. -/
def lostMulti : Multi Str :=
  { inst := (doFinish (sampleCfg false) sampleTex
      (runOps (sampleCfg false) sampleTex [.preamble (lit "bad") [], .preamble (lit "p") [], .text (lit "a") []])).1
    preambles := [(lit "bad", []), (lit "p", [])] }

/-- **C130.**  If a preamble fails when TeX starts again, the first text raises the exception of the preamble, and the next ones are typeset without the preambles after it. -/
theorem lost_preambles :
    (mpreamble (sampleCfg false) sampleTex (mpreamble (sampleCfg false) sampleTex {} (lit "bad") []).1 (lit "p") []).1.preambles.map (·.1) =
      lostMulti.preambles.map (·.1) ∧
    lostMulti.inst.state = .done ∧
    (mtext (sampleCfg false) sampleTex lostMulti (lit "b") []).2 = .error .texResult ∧
    (mtext (sampleCfg false) sampleTex (mtext (sampleCfg false) sampleTex lostMulti (lit "b") []).1 (lit "c") []).2 = .ok 0 ∧
    exprs (mtext (sampleCfg false) sampleTex (mtext (sampleCfg false) sampleTex lostMulti (lit "b") []).1 (lit "c") []).1.inst.log =
      [lit "start", lit "bad", lit "c"] := by decide +kernel

end PyX.TexEngine
