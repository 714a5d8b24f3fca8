import Mathlib.Data.List.Basic
import Mathlib.Tactic.Common

set_option linter.unusedSectionVars false

/-!
# Which engine typesets a text (`text.py:1790-1844`, `canvas.py:103-131, 401-424`)

`text.set` makes a new engine which is used by the functions of the module `text` and by canvases.  Axes take it from the graph (`graph/graph.py:157-161, 359-364, 827-831`) or their painter
(`graph/axis/painter.py:34-47`), keys from a canvas of their own (`graph/key.py:74-85`).

Engines are numbered in the order in which they are made by `text.set`; what they do is in C130 (TeX) and in the modules for the `UnicodeEngine`.  Whether the constructor of an engine succeeds is given.
Warnings of `set` for deprecated arguments are not modelled.  `str.lower` is that of ASCII (no other character has one of the letters of the names as lower case).
-/

namespace PyX.TextDefault

/-- The classes of engines. -/
inductive Cls
  | tex
  | latex
  | unicode
  deriving DecidableEq

/-- Values of arguments: `None`, classes of engines, strings. -/
inductive Arg
  | none
  | cls (c : Cls)
  | str (s : List Char)
  deriving DecidableEq

/-- The truth value of an argument. -/
def Arg.truthy : Arg → Bool
  | .none => false
  | .cls _ => true
  | .str s => !s.isEmpty

inductive Err
  | assertion
  | attribute
  | key
  | type
  | construct
  deriving DecidableEq

/-- Names of keyword arguments. -/
inductive Key
  | engine
  | cls
  | mode
  | other (n : ℕ)
  deriving DecidableEq

/-- The call which makes an engine. -/
structure Call where
  cls : Cls
  args : List Arg
  kwargs : List (Key × Arg)
  deriving DecidableEq

/-- The globals of the module (`text.py:1790-1806, 1827`): the engines made up to now, and the engines of `defaulttextengine` and the bound methods. -/
structure Module where
  made : List Call
  default : ℕ
  text : ℕ
  textPt : ℕ
  preamble : ℕ
  reset : ℕ
  deriving DecidableEq

/-- The value of a named parameter with default `None` of a Python function, from the positional argument and the keyword arguments. -/
def param (pos : Option Arg) (kw : List (Key × Arg)) (k : Key) : Except Err Arg :=
  match pos, kw.lookup k with
  | some _, some _ => .error .type
  | some a, none => .ok a
  | none, some a => .ok a
  | none, none => .ok .none

/-- `{"tex": TexEngine, "latex": LatexEngine}[mode.lower()]` (`text.py:1832`). -/
def byMode : Arg → Except Err Arg
  | .str s =>
    if s.map Char.toLower = ['t', 'e', 'x'] then .ok (.cls .tex)
    else if s.map Char.toLower = ['l', 'a', 't', 'e', 'x'] then .ok (.cls .latex) else .error .key
  | _ => .error .attribute

/-- The choice of the engine (`text.py:1828-1836`). -/
def choose (engine cls mode : Arg) : Except Err Arg :=
  if mode ≠ .none then
    if cls ≠ .none then .error .assertion
    else if engine ≠ .none then .error .assertion
    else byMode mode
  else if cls ≠ .none then
    if engine.truthy then .error .assertion else .ok cls
  else .ok engine

/-- The call of the engine for the arguments of `set` (`text.py:1809-1837`). -/
def call (pos : List Arg) (kw : List (Key × Arg)) : Except Err Call :=
  (param pos[0]? kw .engine).bind fun e => (param pos[1]? kw .cls).bind fun c => (param pos[2]? kw .mode).bind fun m => (choose e c m).bind fun x =>
    match x with
    | .cls k => .ok ⟨k, pos.drop 3, kw.filter fun a => a.1 ≠ .engine ∧ a.1 ≠ .cls ∧ a.1 ≠ .mode⟩
    | _ => .error .type

/-- `set` (`text.py:1809-1841`). -/
def set (works : Call → Bool) (pos : List Arg) (kw : List (Key × Arg)) (m : Module) : Module × Option Err :=
  match call pos kw with
  | .error e => (m, some e)
  | .ok c =>
    if works c then
      let n := m.made.length
      (⟨m.made ++ [c], n, n, n, n, n⟩, none)
    else (m, some .construct)

/-- An axis of a graph: the engines of its painters (if any) and that of the graph. -/
structure Axis where
  painter : Option ℕ
  link : Option ℕ
  graph : ℕ
  deriving DecidableEq

/-- A canvas or a graph with its axes. -/
structure Canvas where
  engine : ℕ
  axes : List Axis
  deriving DecidableEq

structure World where
  mod : Module
  canvases : List Canvas
  deriving DecidableEq

inductive Op
  | set (pos : List Arg) (kw : List (Key × Arg))
  | canvas (textengine : Option ℕ)
  | graph (axes : List (Option ℕ × Option ℕ))
  | settextengine (canvas engine : ℕ)

/-- What the user does: `text.set`, `canvas.canvas` (`canvas.py:125-131`), a graph with its axes (`graph.py:160-161, 359-364`), `settextengine` (`canvas.py:401-404`). -/
def step (works : Call → Bool) (w : World) : Op → World
  | .set pos kw => ⟨(set works pos kw w.mod).1, w.canvases⟩
  | .canvas e => ⟨w.mod, w.canvases ++ [⟨e.getD w.mod.default, []⟩]⟩
  | .graph axes => ⟨w.mod, w.canvases ++ [⟨w.mod.default, axes.map fun p => ⟨p.1, p.2, w.mod.default⟩⟩]⟩
  | .settextengine k e => ⟨w.mod, w.canvases.modify k fun c => ⟨e, c.axes⟩⟩

def run (works : Call → Bool) (w : World) (ops : List Op) : World := ops.foldl (step works) w

/-- `axiscanvas` (`painter.py:37-47`). -/
def axiscanvas (painter : Option ℕ) (graph : ℕ) : ℕ :=
  match painter with
  | some e => e
  | none => graph

/-- The engine of labels and title of an axis (`painter.py:199, 330`; `axis.py:147`). -/
def Axis.labels (a : Axis) : ℕ := axiscanvas a.painter a.graph

/-- The engine of an axis linked to it (`axis.py:47-51, 691, 702`): `axiscanvas(self.painter, graphtextengine)`, and `linkpainter.paint` on this canvas. -/
def Axis.linked (a : Axis) : ℕ := axiscanvas a.painter a.graph

/-- The engine of `canvas.text` and `canvas.text_pt` (`canvas.py:406-424`). -/
def textEngine (w : World) (k : ℕ) : Option ℕ := (w.canvases[k]?).map Canvas.engine

/-- The engine of the titles in the key of a graph (`key.py:76, 85`). -/
def keyEngine (w : World) (_k : ℕ) : ℕ := w.mod.default

/-! ## `set` -/

theorem param_none (kw : List (Key × Arg)) (k : Key) (h : ∀ a ∈ kw, a.1 ≠ k) : param none kw k = .ok .none ∧ ∀ a, param (some a) kw k = .ok a := by
  have : kw.lookup k = none := by
    rw [List.lookup_eq_none_iff]
    intro p hp
    have := h p hp
    simpa using fun e => this e.symm
  constructor
  · simp [param, this]
  · intro a; simp [param, this]

/-- **C178.**  `text.set(engine, name=value, …)` makes the engine with the keyword arguments; afterwards it is the default engine, and `text`, `text_pt`, `preamble` and `reset` are its methods. -/
theorem set_engine (works : Call → Bool) (c : Cls) (kw : List (Key × Arg)) (hkw : ∀ a ∈ kw, ∃ n, a.1 = .other n) (m : Module) (hw : works ⟨c, [], kw⟩ = true) :
    set works [.cls c] kw m = (⟨m.made ++ [⟨c, [], kw⟩], m.made.length, m.made.length, m.made.length, m.made.length, m.made.length⟩, none) := by
  have hn : ∀ k, (∀ n, k ≠ .other n) → ∀ a ∈ kw, a.1 ≠ k := by
    intro k hk a ha e
    obtain ⟨n, hn⟩ := hkw a ha
    exact hk n (e.symm.trans hn)
  have h1 := (param_none kw .engine (hn _ (by simp))).2 (.cls c)
  have h2 := (param_none kw .cls (hn _ (by simp))).1
  have h3 := (param_none kw .mode (hn _ (by simp))).1
  have hf : (kw.filter fun a => a.1 ≠ .engine ∧ a.1 ≠ .cls ∧ a.1 ≠ .mode) = kw := by
    rw [List.filter_eq_self]
    intro a ha
    obtain ⟨n, hn⟩ := hkw a ha
    simp [hn]
  have : call [.cls c] kw = .ok ⟨c, [], kw⟩ := by
    unfold call
    simp only [List.getElem?_cons_zero, List.getElem?_cons_succ, List.getElem?_nil, h1, h2, h3, Except.bind, choose, hf]
    rfl
  simp [set, this, hw]

/-- **C178 (refuted: positional arguments of the engine).**  The documentation lists positional arguments of the engine after the class; they are taken for `cls`, and the call fails. -/
theorem positional_refused (works : Call → Bool) (c : Cls) (x : Arg) (hx : x ≠ .none) (rest : List Arg) (kw : List (Key × Arg)) (m : Module) :
    ∃ e, set works (.cls c :: x :: rest) kw m = (m, some e) := by
  have : ∃ e, call (.cls c :: x :: rest) kw = .error e := by
    unfold call
    rcases h1 : param (some (.cls c)) kw .engine with e | a
    · exact ⟨e, by simp [h1, Except.bind]⟩
    rcases h2 : param (some x) kw .cls with e | b
    · exact ⟨e, by simp [h1, h2, Except.bind]⟩
    have ha : a = .cls c := by
      unfold param at h1
      split at h1 <;> simp_all
    have hb : b = x := by
      unfold param at h2
      split at h2 <;> simp_all
    subst ha hb
    rcases h3 : param rest[0]? kw .mode with e | d
    · exact ⟨e, by simp [h1, h2, h3, Except.bind]⟩
    refine ⟨.assertion, ?_⟩
    have : choose (.cls c) b d = .error .assertion := by
      unfold choose
      by_cases hd : d = .none <;> simp [hd, hx, Arg.truthy]
    simp [h1, h2, h3, Except.bind, this]
  obtain ⟨e, he⟩ := this
  exact ⟨e, by simp [set, he]⟩

/-- **C178.**  They arrive after two `None`. -/
theorem positional_after (c : Cls) (args : List Arg) : call (.cls c :: .none :: .none :: args) [] = .ok ⟨c, args, []⟩ := by
  simp [call, param, choose, Except.bind]

/-- **C178 (mode).**  The deprecated `mode` selects TeX or LaTeX in arbitrary capitalization, and nothing else, and only alone. -/
theorem mode_iff (e c : Arg) (s : List Char) (x : Arg) : choose e c (.str s) = .ok x ↔
    e = .none ∧ c = .none ∧ (s.map Char.toLower = "tex".toList ∧ x = .cls .tex ∨ s.map Char.toLower = "latex".toList ∧ x = .cls .latex) := by
  have t1 : "tex".toList = ['t', 'e', 'x'] := rfl
  have t2 : "latex".toList = ['l', 'a', 't', 'e', 'x'] := rfl
  rw [t1, t2]
  unfold choose byMode
  by_cases hc : c = .none <;> by_cases he : e = .none <;> simp [hc, he]
  by_cases h1 : s.map Char.toLower = ['t', 'e', 'x']
  · simp only [h1, if_true, Except.ok.injEq, true_and]
    constructor
    · rintro rfl; exact .inl rfl
    · rintro (rfl | ⟨h, _⟩)
      · rfl
      · simp at h
  · by_cases h2 : s.map Char.toLower = ['l', 'a', 't', 'e', 'x']
    · simp only [h2, if_true, Except.ok.injEq, true_and]
      constructor
      · rintro h; right; simp at h; exact h.symm
      · rintro (⟨h, _⟩ | rfl)
        · simp at h
        · simp
    · simp [h1, h2]

/-- **C178.**  The deprecated `cls` is the same as `engine`. -/
theorem cls_same (c : Cls) : call [] [(.cls, .cls c)] = call [.cls c] [] := by cases c <;> rfl

/-- **C178.**  If `set` fails everything stays as it was; otherwise there is one engine more, and it is used. -/
theorem set_outcome (works : Call → Bool) (pos : List Arg) (kw : List (Key × Arg)) (m m' : Module) (e : Option Err) (h : set works pos kw m = (m', e)) :
    (e ≠ none → m' = m) ∧ (e = none → ∃ c, works c = true ∧ m'.made = m.made ++ [c] ∧ m'.made[m'.default]? = some c) := by
  unfold set at h
  rcases hc : call pos kw with x | c
  · rw [hc] at h
    simp only [Prod.mk.injEq] at h
    exact ⟨fun _ => h.1.symm, fun he => absurd (h.2.trans he) (by simp)⟩
  · rw [hc] at h
    by_cases hw : works c = true
    · simp only [hw, if_true, Prod.mk.injEq] at h
      refine ⟨fun he => absurd h.2.symm he, fun _ => ⟨c, hw, ?_, ?_⟩⟩
      · rw [← h.1]
      · rw [← h.1]; simp
    · simp only [hw, if_false, Prod.mk.injEq, Bool.false_eq_true] at h
      exact ⟨fun _ => h.1.symm, fun he => absurd (h.2.trans he) (by simp)⟩

/-! ## Histories -/

/-- The functions of the module are methods of the default engine. -/
def Agree (m : Module) : Prop := m.text = m.default ∧ m.textPt = m.default ∧ m.preamble = m.default ∧ m.reset = m.default

theorem set_agree (works : Call → Bool) (pos : List Arg) (kw : List (Key × Arg)) (m : Module) (h : Agree m) : Agree (set works pos kw m).1 := by
  unfold set
  split
  · exact h
  · split
    · exact ⟨rfl, rfl, rfl, rfl⟩
    · exact h

theorem step_agree (works : Call → Bool) (w : World) (o : Op) (h : Agree w.mod) : Agree (step works w o).mod := by
  cases o with
  | set pos kw => exact set_agree works pos kw w.mod h
  | canvas e => exact h
  | graph axes => exact h
  | settextengine k e => exact h

/-- **C178.**  Whatever has been done, and whichever calls of `set` have failed, `text.text`, `text.text_pt`, `text.preamble` and `text.reset` are methods of one engine, the default one. -/
theorem functions_agree (works : Call → Bool) (w : World) (ops : List Op) (h : Agree w.mod) : Agree (run works w ops).mod := by
  unfold run
  induction ops generalizing w with
  | nil => exact h
  | cons o ops ih => exact ih _ (step_agree works w o h)

/-- The engine given by the last `settextengine` for a canvas, if any. -/
def lastGiven (k : ℕ) : List Op → Option ℕ
  | [] => none
  | o :: ops => (lastGiven k ops).or (match o with
    | .settextengine k' e => if k' = k then some e else none
    | _ => none)

theorem step_canvas (works : Call → Bool) (w : World) (o : Op) (k : ℕ) (c : Canvas) (h : w.canvases[k]? = some c) :
    (step works w o).canvases[k]? = some ⟨(lastGiven k [o]).getD c.engine, c.axes⟩ := by
  have hlt := (List.getElem?_eq_some_iff.mp h).1
  cases o with
  | set pos kw => simpa [step, lastGiven] using h
  | canvas e => simpa [step, lastGiven, List.getElem?_append_left hlt] using h
  | graph axes => simpa [step, lastGiven, List.getElem?_append_left hlt] using h
  | settextengine k' e =>
    simp only [step, List.getElem?_modify, h, lastGiven]
    by_cases hk : k' = k <;> simp [hk]

/-- **C178.**  The texts of a canvas are typeset by the engine of the last `settextengine`, and without that by the one the canvas had in the beginning, however often the default engine is changed.  The axes
of a graph stay as they were made. -/
theorem canvas_engine (works : Call → Bool) (w : World) (ops : List Op) (k : ℕ) (c : Canvas) (h : w.canvases[k]? = some c) :
    (run works w ops).canvases[k]? = some ⟨(lastGiven k ops).getD c.engine, c.axes⟩ := by
  unfold run
  induction ops generalizing w c with
  | nil => simpa [lastGiven] using h
  | cons o ops ih =>
    rw [List.foldl_cons, ih _ _ (step_canvas works w o k c h)]
    simp only [lastGiven]
    rcases lastGiven k ops with _ | e <;> simp

/-- **C178.**  A canvas begins with the given engine, or the default one of that time. -/
theorem canvas_begin (works : Call → Bool) (w : World) (e : Option ℕ) (ops : List Op) (h : ∀ o ∈ ops, ∀ e', o ≠ .settextengine w.canvases.length e') :
    textEngine (run works (step works w (.canvas e)) ops) w.canvases.length = some (e.getD w.mod.default) := by
  have hc : (step works w (.canvas e)).canvases[w.canvases.length]? = some ⟨e.getD w.mod.default, []⟩ := by simp [step]
  have hl : lastGiven w.canvases.length ops = none := by
    induction ops with
    | nil => rfl
    | cons o ops ih =>
      simp only [lastGiven, ih fun o ho => h o (by simp [ho]), Option.none_or]
      cases o with
      | settextengine k' e' =>
        have : k' ≠ w.canvases.length := by rintro rfl; exact h _ (by simp) e' rfl
        simp [this]
      | _ => rfl
  unfold textEngine
  rw [canvas_engine works _ ops _ _ hc, hl]
  rfl

/-- **C178 (axes).**  The labels of each axis are typeset by the engine of its painter, and without one by the default one of the time at which the graph was made. -/
theorem axis_engine (works : Call → Bool) (w : World) (axes : List (Option ℕ × Option ℕ)) (ops : List Op) :
    ∃ c, (run works (step works w (.graph axes)) ops).canvases[w.canvases.length]? = some c ∧
      c.axes.map Axis.labels = axes.map fun p => p.1.getD w.mod.default := by
  have hc : (step works w (.graph axes)).canvases[w.canvases.length]? = some ⟨w.mod.default, axes.map fun p => ⟨p.1, p.2, w.mod.default⟩⟩ := by simp [step]
  refine ⟨_, canvas_engine works _ ops _ _ hc, ?_⟩
  rw [List.map_map]
  refine List.map_congr_left ?_
  rintro ⟨p, l⟩ _
  cases p <;> rfl

/-! ## What does not hold -/

/-- The module after the import: the default engine. -/
def initial : World := ⟨⟨[⟨.tex, [], []⟩], 0, 0, 0, 0, 0⟩, []⟩

/-- **C178 (refuted: engines of graphs).**  After `g.settextengine` for a graph its texts are typeset by the new engine, but not the labels of its axes, nor its key, although the graph is the only
one and nothing has been drawn up to now. -/
theorem graph_engine_ignored : ∃ (works : Call → Bool) (ops : List Op), textEngine (run works initial ops) 0 = some 1 ∧ keyEngine (run works initial ops) 0 = 0 ∧
    ((run works initial ops).canvases[0]?).map (fun c => c.axes.map Axis.labels) = some [0, 0] :=
  ⟨fun _ => true, [.graph [(none, none), (none, none)], .settextengine 0 1], by decide⟩

/-- **C178 (refuted: one engine for a graph).**  If the default engine is changed between making and drawing a graph the labels of the axes and the key are typeset by different engines. -/
theorem key_engine_differs : ∃ (works : Call → Bool) (ops : List Op), textEngine (run works initial ops) 0 = some 0 ∧ keyEngine (run works initial ops) 0 = 1 ∧
    ((run works initial ops).canvases[0]?).map (fun c => c.axes.map Axis.labels) = some [0, 0] :=
  ⟨fun _ => true, [.graph [(none, none), (none, none)], .set [.cls .unicode] []], by decide⟩

/-- **C178 (refuted: engines of link painters).**  A linked axis with an engine for its painter uses it only if the axis it is linked to has the same engine. -/
theorem link_engine_iff (a : Axis) (e : ℕ) (_h : a.link = some e) : a.linked = e ↔ a.labels = e := Iff.rfl

theorem link_engine_ignored : ∃ a : Axis, a.link = some 1 ∧ a.linked = 0 := ⟨⟨none, some 1, 0⟩, rfl, rfl⟩

/-- An engine with an option, and then a wrong call. -/
example : (run (fun _ => true) initial [.canvas none, .set [.cls .latex] [(.other 0, .str ['x'])], .canvas none, .set [.cls .tex, .str ['a']] []]) =
    ⟨⟨[⟨.tex, [], []⟩, ⟨.latex, [], [(.other 0, .str ['x'])]⟩], 1, 1, 1, 1, 1⟩, [⟨0, []⟩, ⟨1, []⟩]⟩ := by decide

example : choose .none .none (.str "LaTeX".toList) = .ok (.cls .latex) := (mode_iff _ _ _ _).mpr ⟨rfl, rfl, .inr ⟨by decide, rfl⟩⟩

example : Agree initial.mod := ⟨rfl, rfl, rfl, rfl⟩

end PyX.TextDefault
