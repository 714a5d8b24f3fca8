import Verif.Text.EngineMsg
import Mathlib.Data.List.Infix
import Mathlib.Data.List.Range

/-!
# C130: states of the engine and pages of the texts
-/

set_option linter.unusedSectionVars false

namespace PyX.TexEngine

open PyX.TexMsg

variable {π : Type}

/-! ## Specification -/

/-- The number of the page if the last command typesets a text. -/
def lastBox (h : List Cmd) : Option ℕ :=
  match h.getLast? with
  | some (.box _ p _) => some p
  | _ => none

/-- The commands sent up to each text, for all texts which were sent to TeX. -/
def boxHist (l : List Cmd) : List (List Cmd) := (l.inits.drop 1).filter fun h => (lastBox h).isSome

/-- The numbers of the markers in a sequence of commands. -/
def ids : List Cmd → List ℕ
  | [] => []
  | .run _ i :: l => i :: ids l
  | .box _ _ i :: l => i :: ids l
  | .finish _ :: l => ids l

/-- TeX puts each text on a page of its own (with the number it was given as the fourth counter), and makes no other pages: this is what `\ProcessPyXBox` is for. What is on the page depends on everything TeX was told. -/
structure Ships (tex : Tex π) (content : List Cmd → π) : Prop where
  box : ∀ h expr page id, (tex (h ++ [.box expr page id])).ship = [(pageId page, content (h ++ [.box expr page id]))]
  run : ∀ h expr id, (tex (h ++ [.run expr id])).ship = []
  finish : ∀ h expr, (tex (h ++ [.finish expr])).ship = []

/-- The calls of a user. -/
inductive Op
  | preamble (expr : Str) (ps : List Parser)
  | text (expr : Str) (ps : List Parser)
  | finish
  | canvas (i : ℕ)

/-- An engine after a call. -/
def step (cfg : Cfg) (tex : Tex π) (e : Eng π) : Op → Eng π
  | .preamble expr ps => (preamble cfg tex e expr ps).1
  | .text expr ps => (text cfg tex e expr ps).1
  | .finish => (doFinish cfg tex e).1
  | .canvas i => (dvicanvas cfg tex e i).1

/-- An engine after a sequence of calls (whether they raised exceptions or not). -/
def runOps (cfg : Cfg) (tex : Tex π) (l : List Op) : Eng π := l.foldl (step cfg tex) {}

/-! ## Commands -/

theorem inits_snoc {α : Type} (l : List α) (c : α) : (l ++ [c]).inits.drop 1 = l.inits.drop 1 ++ [l ++ [c]] := by
  rw [List.inits_append]
  cases l with
  | nil => simp
  | cons a l => simp

theorem boxHist_box (l : List Cmd) (expr : Str) (p i : ℕ) :
    boxHist (l ++ [.box expr p i]) = boxHist l ++ [l ++ [.box expr p i]] := by
  rw [boxHist, inits_snoc, List.filter_append]
  simp [boxHist, lastBox]

theorem boxHist_run (l : List Cmd) (expr : Str) (i : ℕ) : boxHist (l ++ [.run expr i]) = boxHist l := by
  rw [boxHist, inits_snoc, List.filter_append]
  simp [boxHist, lastBox]

theorem boxHist_finish (l : List Cmd) (expr : Str) : boxHist (l ++ [.finish expr]) = boxHist l := by
  rw [boxHist, inits_snoc, List.filter_append]
  simp [boxHist, lastBox]

theorem ids_append (l l' : List Cmd) : ids (l ++ l') = ids l ++ ids l' := by
  induction l with
  | nil => rfl
  | cons c l ih => cases c <;> simp [ids, ih]

theorem shipped_snoc (tex : Tex π) (l : List Cmd) (c : Cmd) : shipped tex (l ++ [c]) = shipped tex l ++ (tex (l ++ [c])).ship := by
  rw [shipped, inits_snoc, List.flatMap_append]
  simp [shipped]

/-- The pages in the DVI file are those of the texts. -/
theorem shipped_eq {tex : Tex π} {content : List Cmd → π} (S : Ships tex content) (l : List Cmd) :
    shipped tex l = (boxHist l).map fun h => (pageId ((lastBox h).getD 0), content h) := by
  induction l using List.reverseRecOn with
  | nil => rfl
  | append_singleton l c ih =>
    rw [shipped_snoc, ih]
    cases c with
    | run expr i => rw [S.run, boxHist_run]; simp
    | finish expr => rw [S.finish, boxHist_finish]; simp
    | box expr p i => rw [S.box, boxHist_box]; simp [lastBox]

/-! ## Calls which make no pages -/

/-- What starting, preambles and the begin of the document leave as it was. -/
structure Quiet (e e' : Eng π) : Prop where
  page : e'.page = e.page
  boxes : e'.boxes = e.boxes
  need : e'.need = e.need
  dvi : e'.dvi = e.dvi
  hist : boxHist e'.log = boxHist e.log
  ids : ids e.log = (List.range e.executeid).map (· + 1) → ids e'.log = (List.range e'.executeid).map (· + 1)
  mono : e.state.rank ≤ e'.state.rank
  alive : e.state ≠ .done → e'.state ≠ .done

theorem Quiet.refl (e : Eng π) : Quiet e e := ⟨rfl, rfl, rfl, rfl, rfl, id, le_rfl, id⟩

theorem Quiet.trans {a b c : Eng π} (h : Quiet a b) (h' : Quiet b c) : Quiet a c :=
  ⟨h'.page.trans h.page, h'.boxes.trans h.boxes, h'.need.trans h.need, h'.dvi.trans h.dvi, h'.hist.trans h.hist,
    fun x => h'.ids (h.ids x), h.mono.trans h'.mono, fun x => h'.alive (h.alive x)⟩

theorem executeRun_quiet (cfg : Cfg) (tex : Tex π) (new : State) (hn : new = .preamble ∨ new = .typeset) (e : Eng π) (expr : Str)
    (ps : List Parser) : Quiet e (executeRun cfg tex new e expr ps).1 := by
  rw [executeRun]
  split
  · exact Quiet.refl e
  · rename_i h
    split
    · exact Quiet.refl e
    · push Not at h
      refine ⟨rfl, rfl, rfl, rfl, boxHist_run _ _ _, ?_, ?_, ?_⟩
      · intro hi
        simp only [ids_append, hi, ids, List.range_succ, List.map_append, List.map_cons, List.map_nil]
      · rw [h]; rcases hn with rfl | rfl <;> simp [State.rank]
      · intro _; rcases hn with rfl | rfl <;> simp

theorem executeAll_quiet (cfg : Cfg) (tex : Tex π) (l : List (Str × List Parser)) (e : Eng π) : Quiet e (executeAll cfg tex l e).1 := by
  induction l generalizing e with
  | nil => exact Quiet.refl e
  | cons x l ih =>
    have h1 := executeRun_quiet cfg tex .preamble (Or.inl rfl) e x.1 x.2
    rw [executeAll]
    split
    · rename_i e' err h; rw [h] at h1; exact h1
    · rename_i e' u h; rw [h] at h1; exact h1.trans (ih e')

theorem doStart_quiet (cfg : Cfg) (tex : Tex π) (e : Eng π) : Quiet e (doStart cfg tex e).1 := by
  rw [doStart]
  split
  · exact Quiet.refl e
  · rename_i h
    push Not at h
    refine Quiet.trans (b := { e with state := .preamble }) ⟨rfl, rfl, rfl, rfl, rfl, id, ?_, by simp⟩ (executeAll_quiet cfg tex _ _)
    rw [h]; simp [State.rank]

theorem ensureStarted_quiet (cfg : Cfg) (tex : Tex π) (e : Eng π) : Quiet e (ensureStarted cfg tex e).1 := by
  rw [ensureStarted]
  split
  · exact doStart_quiet cfg tex e
  · exact Quiet.refl e

theorem goTypeset_quiet (cfg : Cfg) (tex : Tex π) (e : Eng π) : Quiet e (goTypeset cfg tex e).1 := by
  rw [goTypeset]
  split
  · split
    · exact Quiet.refl e
    · rename_i h
      push Not at h
      refine ⟨rfl, rfl, rfl, rfl, rfl, id, ?_, by simp⟩
      rw [h]; simp [State.rank]
  · exact executeRun_quiet cfg tex .typeset (Or.inr rfl) e _ _

theorem ensureTypeset_quiet (cfg : Cfg) (tex : Tex π) (e : Eng π) : Quiet e (ensureTypeset cfg tex e).1 := by
  rw [ensureTypeset]
  split
  · exact goTypeset_quiet cfg tex e
  · exact Quiet.refl e

theorem preamble_quiet (cfg : Cfg) (tex : Tex π) (e : Eng π) (expr : Str) (ps : List Parser) : Quiet e (preamble cfg tex e expr ps).1 := by
  have h1 := ensureStarted_quiet cfg tex e
  rw [preamble]
  split
  · rename_i h; rw [h] at h1; exact h1
  · rename_i h; rw [h] at h1; exact h1.trans (executeRun_quiet cfg tex .preamble (Or.inl rfl) _ _ _)

/-! ## The states of all engines -/

/-- What holds after every sequence of calls. -/
structure Inv (cfg : Cfg) (e : Eng π) : Prop where
  pages : (boxHist e.log).map (fun h => (lastBox h).getD 0) = (List.range e.page).map (· + 1)
  ids : ids e.log = (List.range e.executeid).map (· + 1)
  early : e.state = .start ∨ e.state = .preamble → e.page = 0 ∧ e.boxes = [] ∧ e.dvi = .unopened
  sent : (e.boxes.map (·.sent)).Sublist (boxHist e.log)
  need : e.need = if cfg.texipc then [] else List.range e.boxes.length
  noipc : cfg.texipc = false → e.state ≠ .done → e.dvi = .unopened
  pos : ∀ p, e.dvi = .reading p → e.state ≠ .done → p ≤ e.page

theorem Inv.init (cfg : Cfg) : Inv cfg ({} : Eng π) :=
  ⟨rfl, rfl, fun _ => ⟨rfl, rfl, rfl⟩, List.Sublist.slnil, by simp, fun _ _ => rfl, fun p h => by simp at h⟩

theorem Inv.quiet {cfg : Cfg} {e e' : Eng π} (h : Inv cfg e) (q : Quiet e e') : Inv cfg e' := by
  have hd : e'.state ≠ .done → e.state ≠ .done := by
    intro h1 h2
    have := q.mono
    rw [h2] at this
    revert this h1
    cases e'.state <;> simp [State.rank]
  refine ⟨by rw [q.hist, q.page]; exact h.pages, q.ids h.ids, ?_, by rw [q.boxes, q.hist]; exact h.sent,
    by rw [q.need, q.boxes]; exact h.need, ?_, ?_⟩
  · intro h1
    rw [q.page, q.boxes, q.dvi]
    apply h.early
    have := q.mono
    revert this h1
    cases e'.state <;> cases e.state <;> simp [State.rank]
  · intro h1 h2; rw [q.dvi]; exact h.noipc h1 (hd h2)
  · intro p h1 h2; rw [q.page]; exact h.pos p (by rw [← q.dvi]; exact h1) (hd h2)

theorem Inv.length {cfg : Cfg} {e : Eng π} (h : Inv cfg e) : (boxHist e.log).length = e.page := by
  have := congrArg List.length h.pages
  simpa using this

theorem Inv.le {cfg : Cfg} {e : Eng π} (h : Inv cfg e) : e.boxes.length ≤ e.page := by
  have := h.sent.length_le
  rw [h.length] at this
  simpa using this

/-- `_execute` for a text: the engine is left as it was, or the text has been sent. -/
theorem executeText_cases (cfg : Cfg) (tex : Tex π) (e : Eng π) (expr : Str) (ps : List Parser) :
    (e.state = .typeset ∧ cfg.encodable expr = true ∧ (executeText cfg tex e expr ps).1 =
        { e with page := e.page + 1, executeid := e.executeid + 1, log := e.log ++ [.box expr (e.page + 1) (e.executeid + 1)] }) ∨
      ((executeText cfg tex e expr ps).1 = e ∧ ∃ err, (executeText cfg tex e expr ps).2 = .error err) := by
  rw [executeText]
  by_cases h : e.state = .typeset
  · rw [if_neg (by simpa using h)]
    by_cases h2 : cfg.encodable expr = false
    · rw [if_pos h2]; exact Or.inr ⟨rfl, _, rfl⟩
    · rw [if_neg h2]; exact Or.inl ⟨h, by simpa using h2, rfl⟩
  · rw [if_pos h]; exact Or.inr ⟨rfl, _, rfl⟩

theorem Inv.executeText {cfg : Cfg} {e : Eng π} (h : Inv cfg e) (tex : Tex π) (expr : Str) (ps : List Parser) :
    Inv cfg (executeText cfg tex e expr ps).1 := by
  rcases executeText_cases cfg tex e expr ps with ⟨h1, -, h2⟩ | ⟨h2, -⟩
  · rw [h2]
    refine ⟨?_, ?_, ?_, ?_, h.need, h.noipc, ?_⟩
    · simp only [boxHist_box, List.map_append, h.pages, List.range_succ, List.map_cons, List.map_nil]
      simp [lastBox]
    · simp only [ids_append, h.ids, TexEngine.ids, List.range_succ, List.map_append, List.map_cons, List.map_nil]
    · intro h3; simp only at h3; rw [h1] at h3; simp at h3
    · simp only [boxHist_box]
      exact h.sent.trans (List.sublist_append_left _ _)
    · intro p h3 h4; exact (h.pos p h3 h4).trans (by simp)
  · rw [h2]; exact h

theorem Inv.doTypeset {cfg : Cfg} {e : Eng π} (h : Inv cfg e) (tex : Tex π) (expr : Str) (ps : List Parser) :
    Inv cfg (doTypeset cfg tex e expr ps).1 := by
  have q1 := ensureStarted_quiet cfg tex e
  rw [TexEngine.doTypeset]
  split
  · rename_i h1; rw [h1] at q1; exact h.quiet q1
  · rename_i e1 u h1
    rw [h1] at q1
    have q2 := ensureTypeset_quiet cfg tex e1
    split
    · rename_i h2; rw [h2] at q2; exact (h.quiet q1).quiet q2
    · rename_i h2; rw [h2] at q2; exact Inv.executeText ((h.quiet q1).quiet q2) tex expr ps

/-- `do_typeset`: the text is sent or not. -/
theorem doTypeset_cases (cfg : Cfg) (tex : Tex π) (e : Eng π) (expr : Str) (ps : List Parser) :
    (∃ e₁, Quiet e e₁ ∧ e₁.state = .typeset ∧ (doTypeset cfg tex e expr ps).1 =
        { e₁ with page := e₁.page + 1, executeid := e₁.executeid + 1, log := e₁.log ++ [.box expr (e₁.page + 1) (e₁.executeid + 1)] }) ∨
      (Quiet e (doTypeset cfg tex e expr ps).1 ∧ ∃ err, (doTypeset cfg tex e expr ps).2 = .error err) := by
  have q1 := ensureStarted_quiet cfg tex e
  rw [doTypeset]
  split
  · rename_i h1; rw [h1] at q1; exact Or.inr ⟨q1, _, rfl⟩
  · rename_i e1 u h1
    rw [h1] at q1
    have q2 := ensureTypeset_quiet cfg tex e1
    split
    · rename_i h2; rw [h2] at q2; exact Or.inr ⟨q1.trans q2, _, rfl⟩
    · rename_i e2 u2 h2
      rw [h2] at q2
      rcases executeText_cases cfg tex e2 expr ps with ⟨h3, -, h4⟩ | ⟨h4, h5⟩
      · exact Or.inl ⟨e2, q1.trans q2, h3, h4⟩
      · exact Or.inr ⟨by rw [h4]; exact q1.trans q2, h5⟩

theorem readPage_reading {pages : List (List ℕ × π)} {en : Bool} {id : Option (List ℕ)} {d : Dvi} {p : ℕ}
    (h : (readPage pages en id d).1 = .reading p) : d = .reading p ∨ (∃ q, d = .reading q ∧ q < pages.length ∧ p = q + 1) := by
  cases d with
  | unopened => simp [readPage] at h
  | closed => simp [readPage] at h
  | garbled => simp [readPage] at h
  | reading q =>
    rw [readPage] at h
    split at h
    · split at h
      · simp at h
      · exact Or.inl h
    · rename_i x hx
      split at h
      · simp at h
      · simp only [Dvi.reading.injEq] at h
        obtain ⟨hq, -⟩ := List.getElem?_eq_some_iff.mp hx
        exact Or.inr ⟨q, rfl, hq, h.symm⟩

theorem shipped_length {cfg : Cfg} {tex : Tex π} {content : List Cmd → π} (S : Ships tex content) {e : Eng π} (h : Inv cfg e) :
    (shipped tex e.log).length = e.page := by
  rw [shipped_eq S]; simpa using h.length

theorem Inv.addBox {cfg : Cfg} {tex : Tex π} {content : List Cmd → π} (S : Ships tex content) {e : Eng π} (h : Inv cfg e)
    (first : Bool) (ext : List ℚ) (hs : e.state = .typeset) (hl : ((e.boxes.map (·.sent)) ++ [e.log]).Sublist (boxHist e.log)) :
    Inv cfg (addBox cfg tex first e ext).1 := by
  have hlen := shipped_length S h
  rw [TexEngine.addBox]
  have early : ∀ {P : Prop}, e.state = .start ∨ e.state = .preamble → P := by
    intro P h1; rw [hs] at h1; simp at h1
  split
  · rename_i hi
    have hpos : ∀ p, (readPage (shipped tex e.log) false (some (pageId e.page)) (if first then .reading 0 else e.dvi)).1 = .reading p →
        p ≤ e.page := by
      intro p hp
      rcases readPage_reading hp with h1 | ⟨q, h1, h2, rfl⟩
      · split at h1
        · simp only [Dvi.reading.injEq] at h1; omega
        · exact h.pos p h1 (by rw [hs]; simp)
      · rw [hlen] at h2; omega
    split
    · rename_i d err hd
      rw [hd] at hpos
      refine ⟨h.pages, h.ids, fun h1 => early h1, h.sent, h.need, fun h1 => by rw [hi] at h1; simp at h1, fun p hp _ => hpos p hp⟩
    · rename_i d c hd
      rw [hd] at hpos
      refine ⟨h.pages, h.ids, fun h1 => early h1, ?_, ?_, fun h1 => by rw [hi] at h1; simp at h1, fun p hp _ => hpos p hp⟩
      · simpa using hl
      · have := h.need; rw [if_pos hi] at this ⊢; exact this
  · rename_i hi
    refine ⟨h.pages, h.ids, fun h1 => early h1, by simpa using hl, ?_, h.noipc, h.pos⟩
    have := h.need
    rw [if_neg hi] at this ⊢
    simp [this, List.range_succ]

theorem Inv.text {cfg : Cfg} {tex : Tex π} {content : List Cmd → π} (S : Ships tex content) {e : Eng π} (h : Inv cfg e) (expr : Str)
    (ps : List Parser) : Inv cfg (text cfg tex e expr ps).1 := by
  rw [TexEngine.text]
  split
  · exact h
  · have h1 := Inv.doTypeset h tex expr (cfg.runParsers ++ ps)
    have h2 := doTypeset_cases cfg tex e expr (cfg.runParsers ++ ps)
    split
    · rename_i h3; rw [h3] at h1; exact h1
    · rename_i e' ext h3
      rw [h3] at h1 h2
      rcases h2 with ⟨e₁, q, h4, h5⟩ | ⟨-, err, h5⟩
      · refine Inv.addBox S h1 _ _ (by simp only at h5; rw [h5]; exact h4) ?_
        simp only at h5
        subst h5
        simp only [boxHist_box]
        exact List.Sublist.append (by rw [q.boxes, q.hist]; exact h.sent) (List.Sublist.refl _)
      · simp at h5

theorem executeDone_cases (cfg : Cfg) (tex : Tex π) (e : Eng π) :
    (e.state = .typeset ∧ (executeDone cfg tex e).1 = { e with log := e.log ++ [.finish cfg.endExpr], state := .done }) ∨
      (e.state ≠ .typeset ∧ executeDone cfg tex e = (e, .error .assertion)) := by
  rw [executeDone]
  by_cases h : e.state = .typeset
  · rw [if_neg (by simpa using h)]; exact Or.inl ⟨h, rfl⟩
  · rw [if_pos h]; exact Or.inr ⟨h, rfl⟩

theorem Inv.executeDone {cfg : Cfg} {e : Eng π} (h : Inv cfg e) (tex : Tex π) : Inv cfg (executeDone cfg tex e).1 := by
  rcases executeDone_cases cfg tex e with ⟨h1, h2⟩ | ⟨h1, h2⟩
  · rw [h2]
    refine ⟨by simp only [boxHist_finish]; exact h.pages, by simp only [ids_append, TexEngine.ids, List.append_nil]; exact h.ids,
      fun h3 => by simp at h3, by simp only [boxHist_finish]; exact h.sent, h.need, fun _ h3 => by simp at h3, fun p _ h3 => by simp at h3⟩
  · rw [h2]; exact h

theorem setCanvas_sent (l : List (Box π)) (i : ℕ) (c : Option π) : (setCanvas l i c).map (·.sent) = l.map (·.sent) := by
  unfold setCanvas
  induction l generalizing i with
  | nil => cases i <;> rfl
  | cons b l ih => cases i with
    | zero => rfl
    | succ i => simp [ih]

theorem readBoxes_sent (pages : List (List ℕ × π)) (l : List ℕ) (n : ℕ) (d : Dvi) (bs : List (Box π)) :
    ((readBoxes pages l n d bs).1.2).map (·.sent) = bs.map (·.sent) := by
  induction l generalizing n d bs with
  | nil => rfl
  | cons i l ih =>
    rw [readBoxes]
    split
    · rfl
    · rw [ih, setCanvas_sent]

theorem readDvi_sent (tex : Tex π) (e : Eng π) : ((readDvi tex e).1.boxes).map (·.sent) = e.boxes.map (·.sent) := by
  rw [readDvi]
  split
  · rename_i d bs err h
    have := readBoxes_sent (shipped tex e.log) e.need 1 (if e.need = [] then e.dvi else .reading 0) e.boxes
    rw [h] at this; exact this
  · rename_i d bs u h
    have := readBoxes_sent (shipped tex e.log) e.need 1 (if e.need = [] then e.dvi else .reading 0) e.boxes
    rw [h] at this; exact this

theorem readDvi_rest (tex : Tex π) (e : Eng π) : (readDvi tex e).1.state = e.state ∧ (readDvi tex e).1.page = e.page ∧
    (readDvi tex e).1.executeid = e.executeid ∧ (readDvi tex e).1.log = e.log ∧ (readDvi tex e).1.need = e.need := by
  rw [readDvi]
  split <;> exact ⟨rfl, rfl, rfl, rfl, rfl⟩

theorem Inv.readDvi {cfg : Cfg} {e : Eng π} (h : Inv cfg e) (tex : Tex π) (hs : e.state = .done) : Inv cfg (readDvi tex e).1 := by
  obtain ⟨h1, h2, h3, h4, h5⟩ := readDvi_rest tex e
  have h6 := readDvi_sent tex e
  have h7 : (TexEngine.readDvi tex e).1.boxes.length = e.boxes.length := by
    have := congrArg List.length h6
    simpa using this
  refine ⟨by rw [h4, h2]; exact h.pages, by rw [h4, h3]; exact h.ids, ?_, by rw [h4, h6]; exact h.sent, by rw [h5, h7]; exact h.need, ?_, ?_⟩
  · rw [h1, hs]; simp
  · rw [h1, hs]; simp
  · rw [h1, hs]; simp

theorem Inv.doFinish {cfg : Cfg} {e : Eng π} (h : Inv cfg e) (tex : Tex π) : Inv cfg (doFinish cfg tex e).1 := by
  rw [TexEngine.doFinish]
  split
  · exact h
  · have q := ensureTypeset_quiet cfg tex e
    split
    · rename_i h1; rw [h1] at q; exact h.quiet q
    · rename_i e1 u h1
      rw [h1] at q
      have h2 := Inv.executeDone (h.quiet q) tex
      have h3 := executeDone_cases cfg tex e1
      split
      · rename_i h4; rw [h4] at h2; exact h2
      · rename_i e2 u2 h4
        rw [h4] at h2 h3
        rcases h3 with ⟨-, h5⟩ | ⟨-, h5⟩
        · exact Inv.readDvi h2 tex (by simp only at h5; rw [h5])
        · simp at h5

theorem Inv.step {cfg : Cfg} {tex : Tex π} {content : List Cmd → π} (S : Ships tex content) {e : Eng π} (h : Inv cfg e) (op : Op) :
    Inv cfg (step cfg tex e op) := by
  cases op with
  | preamble expr ps => exact h.quiet (preamble_quiet cfg tex e expr ps)
  | text expr ps => exact Inv.text S h expr ps
  | finish => exact Inv.doFinish h tex
  | canvas i =>
    have h1 := Inv.doFinish h tex
    rw [TexEngine.step, dvicanvas]
    split
    · exact h
    · split
      · exact h
      · split
        · rename_i h2; rw [h2] at h1; exact h1
        · rename_i h2; rw [h2] at h1; exact h1

theorem Inv.run {cfg : Cfg} {tex : Tex π} {content : List Cmd → π} (S : Ships tex content) (l : List Op) : Inv cfg (runOps cfg tex l) := by
  induction l using List.reverseRecOn with
  | nil => exact Inv.init cfg
  | append_singleton l op ih => rw [runOps, List.foldl_append]; exact Inv.step S ih op

/-! ## States -/

/-- **C130.**  After the first text preambles are refused (by an `AssertionError`) and change nothing. -/
theorem preamble_late (cfg : Cfg) (tex : Tex π) (e : Eng π) (h : e.state = .typeset ∨ e.state = .done) (expr : Str) (ps : List Parser) :
    preamble cfg tex e expr ps = (e, .error .assertion) := by
  have h1 : e.state ≠ .start ∧ e.state ≠ .preamble := by rcases h with h | h <;> rw [h] <;> simp
  rw [preamble, ensureStarted, if_neg h1.1]
  simp only
  rw [executeRun, if_pos h1.2]

/-- **C130.**  When TeX has been finished, texts raise `TexDoneError`, and no call changes the engine or its texts. -/
theorem done_stays (cfg : Cfg) (tex : Tex π) (e : Eng π) (h : e.state = .done) :
    (∀ expr ps, text cfg tex e expr ps = (e, .error .texDone)) ∧ doFinish cfg tex e = (e, .ok ()) ∧ ∀ op, step cfg tex e op = e := by
  have h1 : ∀ expr ps, text cfg tex e expr ps = (e, .error .texDone) := fun expr ps => by rw [text, if_pos h]
  have h2 : doFinish cfg tex e = (e, .ok ()) := by rw [doFinish, if_pos h]
  refine ⟨h1, h2, fun op => ?_⟩
  cases op with
  | preamble expr ps => rw [step, preamble_late cfg tex e (Or.inr h)]
  | text expr ps => rw [step, h1]
  | finish => rw [step, h2]
  | canvas i =>
    rw [step, dvicanvas]
    split
    · rfl
    · split
      · rfl
      · rw [h2]

theorem addBox_state (cfg : Cfg) (tex : Tex π) (first : Bool) (e : Eng π) (ext : List ℚ) :
    (addBox cfg tex first e ext).1.state = e.state ∧ (addBox cfg tex first e ext).1.page = e.page ∧
      (addBox cfg tex first e ext).1.log = e.log := by
  rw [addBox]
  split
  · split <;> exact ⟨rfl, rfl, rfl⟩
  · exact ⟨rfl, rfl, rfl⟩

theorem text_state (cfg : Cfg) (tex : Tex π) (e : Eng π) (expr : Str) (ps : List Parser) :
    e.state.rank ≤ (text cfg tex e expr ps).1.state.rank := by
  rw [text]
  split
  · exact le_rfl
  · have h2 := doTypeset_cases cfg tex e expr (cfg.runParsers ++ ps)
    have key : e.state.rank ≤ (doTypeset cfg tex e expr (cfg.runParsers ++ ps)).1.state.rank := by
      rcases h2 with ⟨e₁, q, -, h5⟩ | ⟨q, -⟩
      · rw [h5]; exact q.mono
      · exact q.mono
    split
    · rename_i h3; rw [h3] at key; exact key
    · rename_i h3; rw [h3] at key; rw [(addBox_state _ _ _ _ _).1]; exact key

theorem finish_state (cfg : Cfg) (tex : Tex π) (e : Eng π) : e.state.rank ≤ (doFinish cfg tex e).1.state.rank := by
  rw [doFinish]
  split
  · exact le_rfl
  · have q := ensureTypeset_quiet cfg tex e
    split
    · rename_i h1; rw [h1] at q; exact q.mono
    · rename_i e1 u h1
      rw [h1] at q
      have h3 := executeDone_cases cfg tex e1
      have key : e1.state.rank ≤ (executeDone cfg tex e1).1.state.rank := by
        rcases h3 with ⟨h4, h5⟩ | ⟨-, h5⟩
        · rw [h4, h5]; simp [State.rank]
        · rw [h5]
      split
      · rename_i h4; rw [h4] at key; exact q.mono.trans key
      · rename_i h4; rw [h4] at key; rw [(readDvi_rest _ _).1]; exact q.mono.trans key

/-- **C130.**  The state never goes back. -/
theorem state_mono (cfg : Cfg) (tex : Tex π) (e : Eng π) (op : Op) : e.state.rank ≤ (step cfg tex e op).state.rank := by
  cases op with
  | preamble expr ps => exact (preamble_quiet cfg tex e expr ps).mono
  | text expr ps => exact text_state cfg tex e expr ps
  | finish => exact finish_state cfg tex e
  | canvas i =>
    have h1 := finish_state cfg tex e
    rw [step, dvicanvas]
    split
    · exact le_rfl
    · split
      · exact le_rfl
      · split
        · rename_i h2; rw [h2] at h1; exact h1
        · rename_i h2; rw [h2] at h1; exact h1

/-- **C130.**  Every expression sent to TeX has a marker of its own: the numbers are 1, 2, …, and the pages are numbered 1, 2, … as well. -/
theorem numbered {cfg : Cfg} {tex : Tex π} {content : List Cmd → π} (S : Ships tex content) (l : List Op) :
    ids (runOps cfg tex l).log = (List.range (runOps cfg tex l).executeid).map (· + 1) ∧
    (boxHist (runOps cfg tex l).log).map (fun h => (lastBox h).getD 0) = (List.range (runOps cfg tex l).page).map (· + 1) :=
  ⟨(Inv.run S l).ids, (Inv.run S l).pages⟩

/-! ## The pages at the end -/

theorem setCanvas_get (l : List (Box π)) (i j : ℕ) (c : Option π) :
    (setCanvas l i c)[j]? = if i = j then l[j]?.map (fun b => { b with canvas := c }) else l[j]? := by
  rw [setCanvas, List.getElem?_modify]
  split
  · simp_all
  · simp_all

theorem readBoxes_range (pages : List (List ℕ × π)) (c : ℕ → π) (N : ℕ) (hp : ∀ k < N, pages[k]? = some (pageId (k + 1), c k))
    (m s : ℕ) (hs : s + m ≤ N) (bs : List (Box π)) :
    ∃ bs', readBoxes pages (List.range' s m) (s + 1) (.reading s) bs = ((.reading (s + m), bs'), .ok ()) ∧
      ∀ j, bs'[j]? = if s ≤ j ∧ j < s + m then bs[j]?.map (fun b => { b with canvas := some (c j) }) else bs[j]? := by
  induction m generalizing s bs with
  | zero => exact ⟨bs, rfl, fun j => by rw [if_neg (by omega)]⟩
  | succ m ih =>
    rw [List.range'_succ, readBoxes, readPage, hp s (by omega)]
    simp only [ne_eq, not_true_eq_false, and_false, if_false, Option.some.injEq]
    obtain ⟨bs', h1, h2⟩ := ih (s + 1) (by omega) (setCanvas bs s (some (c s)))
    refine ⟨bs', by rw [h1, show s + 1 + m = s + (m + 1) by omega], fun j => ?_⟩
    rw [h2, setCanvas_get]
    by_cases h3 : s = j
    · subst h3
      rw [if_neg (by omega), if_pos rfl, if_pos (by omega)]
    · rw [if_neg h3]
      by_cases h4 : s + 1 ≤ j ∧ j < s + 1 + m
      · rw [if_pos h4, if_pos (by omega)]
      · rw [if_neg h4, if_neg (by omega)]

theorem shipped_get {cfg : Cfg} {tex : Tex π} {content : List Cmd → π} (S : Ships tex content) {e : Eng π} (h : Inv cfg e) (k : ℕ)
    (hk : k < e.page) : (shipped tex e.log)[k]? = some (pageId (k + 1), content ((boxHist e.log)[k]'(by rw [h.length]; exact hk))) := by
  rw [shipped_eq S, List.getElem?_map, List.getElem?_eq_getElem (by rw [h.length]; exact hk)]
  have h1 := congrArg (fun l => l[k]?) h.pages
  simp only [List.getElem?_map, List.getElem?_eq_getElem (show k < (boxHist e.log).length by rw [h.length]; exact hk),
    List.getElem?_range hk, Option.map_some, Option.some.injEq] at h1
  simp [h1]

/-- **C130.**  At the end the n-th text gets what TeX put on the n-th page, whatever texts failed before; and if pages are left, `ValueError` is raised. -/
theorem pages_by_count {cfg : Cfg} {tex : Tex π} {content : List Cmd → π} (S : Ships tex content) (hi : cfg.texipc = false) (l : List Op)
    (hs : (runOps cfg tex l).state = .typeset) (hd : (executeDone cfg tex (runOps cfg tex l)).2 = .ok ()) :
    (∀ (i : ℕ) (b : Box π), (runOps cfg tex l).boxes[i]? = some b →
      (doFinish cfg tex (runOps cfg tex l)).1.boxes[i]? =
        some { b with canvas := ((boxHist (runOps cfg tex l).log)[i]?).map content }) ∧
    (doFinish cfg tex (runOps cfg tex l)).2 =
      if (runOps cfg tex l).boxes = [] ∨ (runOps cfg tex l).boxes.length = (runOps cfg tex l).page then .ok () else .error .value := by
  have I := Inv.run (cfg := cfg) S l
  generalize runOps cfg tex l = e at *
  have hfin : doFinish cfg tex e = readDvi tex { e with log := e.log ++ [.finish cfg.endExpr], state := .done } := by
    rw [doFinish, if_neg (by rw [hs]; simp), ensureTypeset, if_neg (by rw [hs]; simp)]
    simp only
    rcases executeDone_cases cfg tex e with ⟨-, h2⟩ | ⟨h1, -⟩
    · rw [show executeDone cfg tex e = ({ e with log := e.log ++ [.finish cfg.endExpr], state := .done }, .ok ()) from Prod.ext h2 hd]
    · exact absurd hs h1
  have hship : shipped tex (e.log ++ [.finish cfg.endExpr]) = shipped tex e.log := by
    rw [shipped_eq S, shipped_eq S, boxHist_finish]
  have hneed := I.need
  rw [hi] at hneed
  simp only [Bool.false_eq_true, if_false] at hneed
  have hle := I.le
  have hpg : ∀ k < e.page, (shipped tex e.log)[k]? = some (pageId (k + 1), (fun k => content ((boxHist e.log)[k]?.getD [])) k) := by
    intro k hk
    rw [shipped_get S I k hk]
    simp [List.getElem?_eq_getElem (show k < (boxHist e.log).length by rw [I.length]; exact hk)]
  obtain ⟨bs', hr, hb⟩ := readBoxes_range (shipped tex e.log) _ e.page hpg e.boxes.length 0 (by omega) e.boxes
  simp only [Nat.zero_add] at hr
  have hdvi : e.dvi = .unopened := I.noipc hi (by rw [hs]; simp)
  rw [hfin]
  simp only [readDvi, hship, hneed]
  by_cases h0 : e.boxes = []
  · simp only [h0, List.length_nil, List.range_zero, if_true, hdvi, readBoxes, furtherPages, true_or]
    exact ⟨fun i b h => by simp at h, trivial⟩
  · have hlen : 0 < e.boxes.length := List.length_pos_iff.mpr h0
    rw [if_neg (by simpa using h0), List.range_eq_range', hr]
    refine ⟨fun i b hib => ?_, ?_⟩
    · simp only
      obtain ⟨hil, -⟩ := List.getElem?_eq_some_iff.mp hib
      rw [hb, if_pos (by omega), hib]
      simp [List.getElem?_eq_getElem (show i < (boxHist e.log).length by rw [I.length]; omega)]
    · simp only [furtherPages, readPage]
      by_cases hpe : e.boxes.length = e.page
      · rw [if_pos (Or.inr hpe)]
        have : (shipped tex e.log)[e.boxes.length]? = none := by
          rw [List.getElem?_eq_none_iff, shipped_length S I]; omega
        rw [this]; rfl
      · rw [if_neg (show ¬ (e.boxes = [] ∨ e.boxes.length = e.page) by tauto), hpg e.boxes.length (by omega)]
        simp

/-- A text fails, or there is one more text: a text which was sent but failed has taken a page. -/
theorem text_counts (cfg : Cfg) (tex : Tex π) (e : Eng π) (expr : Str) (ps : List Parser) :
    (∀ i, (text cfg tex e expr ps).2 = .ok i → (text cfg tex e expr ps).1.boxes.length = e.boxes.length + 1 ∧
      (text cfg tex e expr ps).1.page = e.page + 1 ∧ i = e.boxes.length) ∧
    (∀ err, (text cfg tex e expr ps).2 = .error err → (text cfg tex e expr ps).1.boxes = e.boxes ∧
      ((text cfg tex e expr ps).1.page = e.page ∨ (text cfg tex e expr ps).1.page = e.page + 1)) := by
  rw [text]
  by_cases hd : e.state = .done
  · rw [if_pos hd]; exact ⟨fun i h => by simp at h, fun err _ => ⟨rfl, Or.inl rfl⟩⟩
  · rw [if_neg hd]
    have h2 := doTypeset_cases cfg tex e expr (cfg.runParsers ++ ps)
    split
    · rename_i e' err h3
      rw [h3] at h2
      refine ⟨fun i h => by simp at h, fun err _ => ?_⟩
      rcases h2 with ⟨e₁, q, -, h5⟩ | ⟨q, -⟩
      · simp only at h5; subst h5; exact ⟨q.boxes, Or.inr (by simp [q.page])⟩
      · exact ⟨q.boxes, Or.inl q.page⟩
    · rename_i e' ext h3
      rw [h3] at h2
      rcases h2 with ⟨e₁, q, -, h5⟩ | ⟨-, err, h5⟩
      · simp only at h5
        have hb : e'.boxes = e.boxes := by rw [h5]; exact q.boxes
        have hp : e'.page = e.page + 1 := by rw [h5]; simp [q.page]
        rw [addBox]
        split
        · split
          · exact ⟨fun i h => by simp at h, fun err _ => ⟨hb, Or.inr hp⟩⟩
          · refine ⟨fun i h => ⟨by simp [hb], hp, ?_⟩, fun err h => by simp at h⟩
            simp only [Except.ok.injEq] at h; rw [← h, hb]
        · refine ⟨fun i h => ⟨by simp [hb], hp, ?_⟩, fun err h => by simp at h⟩
          simp only [Except.ok.injEq] at h; rw [← h, hb]
      · simp at h5

/-- All texts of a sequence of calls were made without an exception. -/
def TextsOk (cfg : Cfg) (tex : Tex π) : Eng π → List Op → Prop
  | _, [] => True
  | e, .text expr ps :: l => (∃ i, (text cfg tex e expr ps).2 = .ok i) ∧ TextsOk cfg tex (text cfg tex e expr ps).1 l
  | e, op :: l => TextsOk cfg tex (step cfg tex e op) l

theorem finish_counts (cfg : Cfg) (tex : Tex π) (e : Eng π) : (doFinish cfg tex e).1.boxes.length = e.boxes.length ∧
    (doFinish cfg tex e).1.page = e.page := by
  rw [doFinish]
  split
  · exact ⟨rfl, rfl⟩
  · have q := ensureTypeset_quiet cfg tex e
    split
    · rename_i h1; rw [h1] at q; exact ⟨by rw [q.boxes], q.page⟩
    · rename_i e1 u h1
      rw [h1] at q
      have h3 := executeDone_cases cfg tex e1
      have key : (executeDone cfg tex e1).1.boxes.length = e.boxes.length ∧ (executeDone cfg tex e1).1.page = e.page := by
        rcases h3 with ⟨h4, h5⟩ | ⟨-, h5⟩
        · rw [h5]; exact ⟨by rw [← q.boxes], q.page⟩
        · rw [h5]; exact ⟨by rw [← q.boxes], q.page⟩
      split
      · rename_i h4; rw [h4] at key; exact key
      · rename_i e2 u2 h4
        rw [h4] at key
        have h6 := congrArg List.length (readDvi_sent tex e2)
        simp only [List.length_map] at h6
        exact ⟨h6.trans key.1, (readDvi_rest tex e2).2.1.trans key.2⟩

theorem step_counts (cfg : Cfg) (tex : Tex π) (e : Eng π) (op : Op) (hop : ∀ expr ps, op ≠ .text expr ps) :
    (step cfg tex e op).boxes.length = e.boxes.length ∧ (step cfg tex e op).page = e.page := by
  have h1 := finish_counts cfg tex e
  cases op with
  | preamble expr ps =>
    have q := preamble_quiet cfg tex e expr ps
    exact ⟨by rw [step, q.boxes], q.page⟩
  | text expr ps => exact absurd rfl (hop expr ps)
  | finish => exact h1
  | canvas i =>
    rw [step, dvicanvas]
    split
    · exact ⟨rfl, rfl⟩
    · split
      · exact ⟨rfl, rfl⟩
      · split
        · rename_i h2; rw [h2] at h1; exact h1
        · rename_i h2; rw [h2] at h1; exact h1

theorem textsOk_counts (cfg : Cfg) (tex : Tex π) (l : List Op) (e : Eng π) (h : TextsOk cfg tex e l) (he : e.boxes.length = e.page) :
    (l.foldl (step cfg tex) e).boxes.length = (l.foldl (step cfg tex) e).page := by
  induction l generalizing e with
  | nil => exact he
  | cons op l ih =>
    rw [List.foldl_cons]
    by_cases hop : ∃ expr ps, op = .text expr ps
    · obtain ⟨expr, ps, rfl⟩ := hop
      rw [TextsOk] at h
      obtain ⟨⟨i, h1⟩, h2⟩ := h
      obtain ⟨h3, h4, -⟩ := (text_counts cfg tex e expr ps).1 i h1
      exact ih _ h2 (by rw [step, h3, h4, he])
    · have hop' : ∀ expr ps, op ≠ .text expr ps := fun expr ps h' => hop ⟨expr, ps, h'⟩
      have h' : TextsOk cfg tex (step cfg tex e op) l := by
        cases op with
        | text expr ps => exact absurd rfl (hop' expr ps)
        | preamble expr ps => exact h
        | finish => exact h
        | canvas i => exact h
      obtain ⟨h3, h4⟩ := step_counts cfg tex e op hop'
      exact ih _ h' (by rw [h3, h4, he])

/-- **C130.**  If no text failed, every text gets the page TeX made for it, and the end is reached without an exception. -/
theorem own_pages_partial {cfg : Cfg} {tex : Tex π} {content : List Cmd → π} (S : Ships tex content) (hi : cfg.texipc = false) (l : List Op)
    (hl : TextsOk cfg tex {} l) (hs : (runOps cfg tex l).state = .typeset) (hd : (executeDone cfg tex (runOps cfg tex l)).2 = .ok ()) :
    (doFinish cfg tex (runOps cfg tex l)).2 = .ok () ∧
    ∀ (i : ℕ) (b : Box π), (runOps cfg tex l).boxes[i]? = some b →
      (doFinish cfg tex (runOps cfg tex l)).1.boxes[i]? = some { b with canvas := some (content b.sent) } := by
  have I := Inv.run (cfg := cfg) S l
  have hc : (runOps cfg tex l).boxes.length = (runOps cfg tex l).page := textsOk_counts cfg tex l {} hl rfl
  obtain ⟨h1, h2⟩ := pages_by_count S hi l hs hd
  refine ⟨by rw [h2, if_pos (Or.inr hc)], fun i b hb => ?_⟩
  have hsent : (runOps cfg tex l).boxes.map (·.sent) = boxHist (runOps cfg tex l).log :=
    I.sent.eq_of_length (by rw [I.length, List.length_map, hc])
  rw [h1 i b hb, ← hsent, List.getElem?_map, hb]
  rfl

/-- **C130.**  If the end fails (an unexpected message at the end, for example), no text is read, now or later. -/
theorem failed_end (cfg : Cfg) (tex : Tex π) (e : Eng π) (err : Err) (hs : e.state = .typeset) (hd : (executeDone cfg tex e).2 = .error err) :
    (doFinish cfg tex e).2 = .error err ∧ (doFinish cfg tex e).1.boxes = e.boxes ∧ (doFinish cfg tex e).1.state = .done ∧
    ∀ (i : ℕ) (b : Box π), e.boxes[i]? = some b → b.canvas = none →
      dvicanvas cfg tex (doFinish cfg tex e).1 i = ((doFinish cfg tex e).1, .ok none) := by
  have hfin : doFinish cfg tex e = ({ e with log := e.log ++ [.finish cfg.endExpr], state := .done }, .error err) := by
    rw [doFinish, if_neg (by rw [hs]; simp), ensureTypeset, if_neg (by rw [hs]; simp)]
    simp only
    rcases executeDone_cases cfg tex e with ⟨-, h2⟩ | ⟨h1, -⟩
    · rw [show executeDone cfg tex e = ({ e with log := e.log ++ [.finish cfg.endExpr], state := .done }, .error err) from Prod.ext h2 hd]
    · exact absurd hs h1
  refine ⟨by rw [hfin], by rw [hfin], by rw [hfin], fun i b hb hc => ?_⟩
  rw [hfin, dvicanvas]
  simp [hb, hc, doFinish]

/-! ## `texipc` -/

theorem pageId_inj {m n : ℕ} (h : pageId m = pageId n) : m = n := by
  simpa [pageId] using h

/-- **C130.**  With `texipc`, a text is returned only with its own page. -/
theorem ipc_own {cfg : Cfg} {tex : Tex π} {content : List Cmd → π} (S : Ships tex content) (hi : cfg.texipc = true) (l : List Op)
    (expr : Str) (ps : List Parser) (i : ℕ) (e' : Eng π) (h : text cfg tex (runOps cfg tex l) expr ps = (e', .ok i)) :
    ∃ b, e'.boxes[i]? = some b ∧ b.sent = e'.log ∧ b.canvas = some (content e'.log) := by
  have I := Inv.run (cfg := cfg) S l
  generalize runOps cfg tex l = e at *
  rw [text] at h
  split at h
  · simp at h
  · have h1 := Inv.doTypeset I tex expr (cfg.runParsers ++ ps)
    have h2 := doTypeset_cases cfg tex e expr (cfg.runParsers ++ ps)
    split at h
    · simp at h
    · rename_i e1 ext h3
      rw [h3] at h1 h2
      rcases h2 with ⟨e₁, q, h4, h5⟩ | ⟨-, err, h5⟩
      · simp only at h1 h5
        have hlast : (boxHist e1.log)[e1.page - 1]? = some e1.log := by
          have hl := h1.length
          have : boxHist e1.log = boxHist e₁.log ++ [e1.log] := by rw [h5]; exact boxHist_box _ _ _ _
          rw [this] at hl ⊢
          simp only [List.length_append, List.length_cons, List.length_nil] at hl
          rw [List.getElem?_append_right (by omega)]
          have : e1.page - 1 - (boxHist e₁.log).length = 0 := by omega
          rw [this]; rfl
        rw [addBox, if_pos hi] at h
        generalize (if (decide (e.state = .start ∨ e.state = .preamble)) = true then Dvi.reading 0 else e1.dvi) = d at h
        cases d with
        | unopened => simp [readPage] at h
        | closed => simp [readPage] at h
        | garbled => simp [readPage] at h
        | reading p =>
          rw [readPage] at h
          cases hp : (shipped tex e1.log)[p]? with
          | none => rw [hp] at h; simp at h
          | some x =>
            rw [hp] at h
            simp only at h
            by_cases hx : pageId e1.page = x.1
            · rw [if_neg (by simp [hx])] at h
              simp only [Prod.mk.injEq, Except.ok.injEq] at h
              obtain ⟨rfl, rfl⟩ := h
              obtain ⟨hlt, -⟩ := List.getElem?_eq_some_iff.mp hp
              rw [shipped_length S h1] at hlt
              have hg := shipped_get S h1 p hlt
              rw [hp] at hg
              simp only [Option.some.injEq] at hg
              have hpp : e1.page = p + 1 := pageId_inj (by rw [hx, hg])
              refine ⟨⟨some x.2, e1.log, ext⟩, by simp, rfl, ?_⟩
              rw [hg]
              have : (boxHist e1.log)[p]? = some e1.log := by rw [← hlast]; congr 1; omega
              obtain ⟨hlt2, h6⟩ := List.getElem?_eq_some_iff.mp this
              simp [h6]
            · rw [if_pos (by simp [hx])] at h
              simp at h
      · simp at h5

/-- The DVI file will not give the page of a new text. -/
def Lost (e : Eng π) : Prop := ∀ p, e.dvi = .reading p → p < e.page

/-- **C130.**  With `texipc`, after one text failed when it had been sent to TeX, every further text fails. -/
theorem ipc_lost {cfg : Cfg} {tex : Tex π} {content : List Cmd → π} (S : Ships tex content) (hi : cfg.texipc = true) (l : List Op) :
    (∀ expr ps err, (text cfg tex (runOps cfg tex l) expr ps).2 = .error err →
      (text cfg tex (runOps cfg tex l) expr ps).1.page = (runOps cfg tex l).page + 1 →
      Lost (text cfg tex (runOps cfg tex l) expr ps).1 ∧ (text cfg tex (runOps cfg tex l) expr ps).1.state = .typeset) ∧
    (Lost (runOps cfg tex l) → (runOps cfg tex l).state = .typeset → ∀ expr ps,
      (∃ err, (text cfg tex (runOps cfg tex l) expr ps).2 = .error err) ∧ Lost (text cfg tex (runOps cfg tex l) expr ps).1 ∧
      (text cfg tex (runOps cfg tex l) expr ps).1.state = .typeset) := by
  have I := Inv.run (cfg := cfg) S l
  generalize runOps cfg tex l = e at *
  constructor
  · intro expr ps err herr hpage
    rw [text] at herr hpage ⊢
    by_cases hd : e.state = .done
    · rw [if_pos hd] at hpage; simp at hpage
    · rw [if_neg hd] at herr hpage ⊢
      have I' := Inv.doTypeset I tex expr (cfg.runParsers ++ ps)
      have h2 := doTypeset_cases cfg tex e expr (cfg.runParsers ++ ps)
      generalize hT : doTypeset cfg tex e expr (cfg.runParsers ++ ps) = T at *
      obtain ⟨e1, r⟩ := T
      cases r with
      | error err' =>
        simp only at herr hpage I' h2 ⊢
        rcases h2 with ⟨e₁, q, h4, h5⟩ | ⟨q, -⟩
        · subst h5
          refine ⟨fun p hp => ?_, h4⟩
          have h6 := (I.quiet q).pos p hp (by rw [h4]; simp)
          simp only; omega
        · rw [q.page] at hpage; omega
      | ok ext =>
        simp only at herr hpage I' h2 ⊢
        rcases h2 with ⟨e₁, q, h4, h5⟩ | ⟨-, err', h5⟩
        · rw [(addBox_state _ _ _ _ _).1]
          refine ⟨fun p hp => ?_, by rw [h5]; exact h4⟩
          rw [(addBox_state _ _ _ _ _).2.1]
          have hbound : ∀ q', (if (decide (e.state = .start ∨ e.state = .preamble)) = true then Dvi.reading 0 else e1.dvi) = .reading q' →
              q' < e1.page := by
            intro q' hq'
            have hp1 : e1.page = e₁.page + 1 := by rw [h5]
            split at hq'
            · simp only [Dvi.reading.injEq] at hq'; omega
            · have h6 : e1.dvi = e₁.dvi := by rw [h5]
              have h7 := (I.quiet q).pos q' (by rw [← h6]; exact hq') (by rw [h4]; simp)
              omega
          rw [addBox, if_pos hi] at herr hp
          generalize (if (decide (e.state = .start ∨ e.state = .preamble)) = true then Dvi.reading 0 else e1.dvi) = d at herr hp hbound
          cases d with
          | unopened => simp [readPage] at hp
          | closed => simp [readPage] at hp
          | garbled => simp [readPage] at hp
          | reading q' =>
            have hb := hbound q' rfl
            obtain ⟨x, hx⟩ : ∃ x, (shipped tex e1.log)[q']? = some x :=
              ⟨_, List.getElem?_eq_getElem (by rw [shipped_length S I']; exact hb)⟩
            rw [readPage, hx] at herr hp
            simp only at herr hp
            by_cases hne : pageId e1.page = x.1
            · rw [if_neg (by simp [hne])] at herr
              simp at herr
            · rw [if_pos (by simp [hne])] at hp
              simp at hp
        · simp at h5
  · intro hlost hs expr ps
    rw [text, if_neg (by rw [hs]; simp)]
    have I' := Inv.doTypeset I tex expr (cfg.runParsers ++ ps)
    have hT : doTypeset cfg tex e expr (cfg.runParsers ++ ps) = executeText cfg tex e expr (cfg.runParsers ++ ps) := by
      rw [doTypeset, ensureStarted, if_neg (by rw [hs]; simp)]
      simp only
      rw [ensureTypeset, if_neg (by rw [hs]; simp)]
    rw [hT] at I' ⊢
    rcases executeText_cases cfg tex e expr (cfg.runParsers ++ ps) with ⟨-, -, h2⟩ | ⟨h2, err, h3⟩
    · generalize hX : executeText cfg tex e expr (cfg.runParsers ++ ps) = X at *
      obtain ⟨e1, r⟩ := X
      simp only at h2 I'
      have hlost1 : Lost e1 := fun p hp => by
        rw [h2] at hp ⊢
        have := hlost p hp
        simp only; omega
      have hst1 : e1.state = .typeset := by rw [h2]; exact hs
      cases r with
      | error err => exact ⟨⟨err, rfl⟩, hlost1, hst1⟩
      | ok ext =>
        simp only
        rw [(addBox_state _ _ _ _ _).1, addBox, if_pos hi, if_neg (by simp [hs])]
        cases hd : e1.dvi with
        | unopened => exact ⟨⟨_, rfl⟩, fun p hp => by simp [readPage] at hp, hst1⟩
        | closed => exact ⟨⟨_, rfl⟩, fun p hp => by simp [readPage] at hp, hst1⟩
        | garbled => exact ⟨⟨_, rfl⟩, fun p hp => by simp [readPage] at hp, hst1⟩
        | reading p =>
          have hp1 : p < e.page := hlost p (by rw [h2] at hd; exact hd)
          have hpe : e1.page = e.page + 1 := by rw [h2]
          have hg := shipped_get S I' p (by omega)
          rw [readPage, hg]
          simp only
          rw [if_pos ⟨by simp, by
            simp only [ne_eq, Option.some.injEq]
            intro hx
            have := pageId_inj hx
            omega⟩]
          exact ⟨⟨_, rfl⟩, fun p hp => by simp at hp, hst1⟩
    · generalize hX : executeText cfg tex e expr (cfg.runParsers ++ ps) = X at *
      obtain ⟨e1, r⟩ := X
      simp only at h2 h3
      subst h2 h3
      exact ⟨⟨err, rfl⟩, hlost, hs⟩

end PyX.TexEngine
