import Verif.Path.PdfProps

/-!
# C159: writing normpaths (`normpath.outputPS`, `outputPDF`, `returnSVGdata`, `path`; `pyx/normpath.py:1263-1282, 1397-1447, 1841-1847, 1988-1999`)
-/

set_option linter.unusedSectionVars false
set_option linter.unusedSimpArgs false

namespace PyX.Path.NormOutput

open PyX.NormPath PyX.Path

noncomputable section

/-- `outputPS` of the items (`normpath.py:353-354, 675-676`). -/
def psItem : Item ℝ → PsOp
  | .line l => .lineto (l.x1, l.y1)
  | .curve c => .curveto (c.x1, c.y1) (c.x2, c.y2) (c.x3, c.y3)

/-- `normsubpath.outputPS` (`normpath.py:1397-1411`); `shown` is the same as for PDF. -/
def subPS (s : Sub) : Except PErr (List PsOp) :=
  match s.begin_, s.items with
  | _, [] => .ok []
  | none, _ => .ok [] -- does not occur
  | some b, _ =>
    match shown s with
    | .ok is => .ok (.moveto b :: is.map psItem ++ if s.closed then [.closepath] else [])
    | .error e => .error e

/-- `normpath.outputPS` (`normpath.py:1988-1991`). -/
def subsPS : List Sub → Except PErr (List PsOp)
  | [] => .ok []
  | s :: ss =>
    match subPS s, subsPS ss with
    | .ok a, .ok b => .ok (a ++ b)
    | .error e, _ => .error e
    | _, .error e => .error e

/-- `returnSVGdata` of the items (`normpath.py:359-362, 681-684`). -/
def svgItem (inv : Bool) : Item ℝ → SvgOp
  | .line l => .L (flipIf inv (l.x1, l.y1))
  | .curve c => .C (flipIf inv (c.x1, c.y1)) (flipIf inv (c.x2, c.y2)) (flipIf inv (c.x3, c.y3))

/-- `normsubpath.returnSVGdata` (`normpath.py:1429-1447`). -/
def subSVG (inv : Bool) (s : Sub) : Except PErr (List SvgOp) :=
  match s.begin_, s.items with
  | _, [] => .ok []
  | none, _ => .ok [] -- does not occur
  | some b, _ =>
    match shown s with
    | .ok is => .ok (.M (flipIf inv b) :: is.map (svgItem inv) ++ if s.closed then [.Z] else [])
    | .error e => .error e

/-- `normpath.returnSVGdata` (`normpath.py:1997-1998`). -/
def subsSVG (inv : Bool) : List Sub → Except PErr (List SvgOp)
  | [] => .ok []
  | s :: ss =>
    match subSVG inv s, subsSVG inv ss with
    | .ok a, .ok b => .ok (a ++ b)
    | .error e, _ => .error e
    | _, .error e => .error e

/-- `pathitem` (`normpath.py:321-323, 590-592`). -/
def pathItem : Item ℝ → PItem
  | .line l => .lineto (l.x1, l.y1)
  | .curve c => .curveto (c.x1, c.y1) (c.x2, c.y2) (c.x3, c.y3)

/-- `normsubpath.pathitems` (`normpath.py:1263-1282`). -/
def subItems (s : Sub) : List PItem :=
  match s.begin_, s.items with
  | _, [] => []
  | none, _ => [] -- does not occur
  | some b, _ =>
    .moveto b :: ((if s.closed && (s.items.getLast?.map isLine).getD false then s.items.dropLast else s.items).map pathItem ++ if s.closed then [.closepath] else [])

/-- `normpath.path` (`normpath.py:1841-1847`). -/
def toPath (ss : List Sub) : List PItem := ss.flatMap subItems

/-! ## What is expected -/

/-- The lines and curves drawn from a point, and the last point; arcs of SVG are not expected. -/
def trace : Pt → List Draw → Option (List (Item ℝ) × Pt)
  | c, [] => some ([], c)
  | c, .line p :: ds => (trace p ds).map fun r => (.line ⟨c.1, c.2, p.1, p.2⟩ :: r.1, r.2)
  | c, .curve p1 p2 p3 :: ds => (trace p3 ds).map fun r => (.curve ⟨c.1, c.2, p1.1, p1.2, p2.1, p2.2, p3.1, p3.2⟩ :: r.1, r.2)
  | _, .svgArc _ _ _ _ :: _ => none

open Classical in
/-- The line which closing adds. -/
def closing (p q : Pt) : List (Item ℝ) := if p = q then [] else [.line ⟨p.1, p.2, q.1, q.2⟩]

/-- All lines and curves of a figure, including the line which closes it. -/
def items (f : Figure) : Option (List (Item ℝ)) :=
  (trace f.start f.draws).map fun r => r.1 ++ if f.closed then closing r.2 f.start else []

/-- A well-formed sub-path: each item begins where the one before ends; a closed one ends at its begin, and its last line has a length and is not alone. -/
structure WellFormed (s : Sub) : Prop where
  chain : s.items.IsChain fun i j => i.end_ = j.begin_
  back : s.closed = true → ∀ i ∈ s.items.head?, ∀ j ∈ s.items.getLast?, j.end_ = i.begin_
  long : s.closed = true → ∀ l, Item.line l ∈ s.items.getLast? → (Item.line l).begin_ ≠ (Item.line l).end_
  empty : s.closed = true → s.items ≠ []

/-- The lines and curves of the sub-paths which are not empty, and whether they are closed. -/
def contents (ss : List Sub) : List (Option (List (Item ℝ)) × Bool) := (ss.filter fun s => !s.items.isEmpty).map fun s => (some s.items, s.closed)

/-- The figures have these lines and curves. -/
def Shows (fs : List Figure) (ss : List Sub) : Prop := fs.map (fun f => (items f, f.closed)) = contents ss

/-! ## Proofs -/

theorem trace_items : ∀ (is : List (Item ℝ)) (c : Pt) (_ : ∀ i ∈ is.head?, i.begin_ = c) (_ : is.IsChain fun i j => i.end_ = j.begin_),
    trace c (is.map drawItem) = some (is, (is.getLast?.map fun i => i.end_).getD c)
  | [], c, _, _ => rfl
  | i :: is, c, h1, h2 => by
    have hc : i.begin_ = c := h1 i (by simp)
    subst hc
    have ih := trace_items is i.end_ (fun j hj => by
      cases is with
      | nil => simp at hj
      | cons j' is =>
        simp only [List.head?_cons, Option.mem_def, Option.some.injEq] at hj
        subst hj
        exact (List.isChain_cons_cons.mp h2).1.symm) (by
      cases is with
      | nil => exact List.isChain_nil
      | cons j' is => exact (List.isChain_cons_cons.mp h2).2)
    have hlast : ((i :: is).getLast?.map fun i => i.end_).getD i.begin_ = (is.getLast?.map fun i => i.end_).getD i.end_ := by
      cases is with
      | nil => rfl
      | cons j is =>
        rw [List.getLast?_cons_cons]
        cases h : (j :: is).getLast? with
        | none => simp at h
        | some k => rfl
    rw [hlast]
    cases i with
    | line l =>
      rw [List.map_cons, drawItem, trace]
      change (trace (Item.line l).end_ (is.map drawItem)).map _ = _
      rw [ih]
      rfl
    | curve k =>
      rw [List.map_cons, drawItem, trace]
      change (trace (Item.curve k).end_ (is.map drawItem)).map _ = _
      rw [ih]
      rfl

/-- The figure of a sub-path. -/
def figure (s : Sub) (i : Item ℝ) : Figure :=
  ⟨i.begin_, (if s.closed && (s.items.getLast?.map isLine).getD false then s.items.dropLast else s.items).map drawItem, s.closed⟩

theorem chain_dropLast {l : List (Item ℝ)} (h : l.IsChain fun i j => i.end_ = j.begin_) : l.dropLast.IsChain fun i j => i.end_ = j.begin_ := by
  exact h.prefix (List.dropLast_prefix l)

theorem figure_items {s : Sub} (h : WellFormed s) {i : Item ℝ} {is : List (Item ℝ)} (hi : s.items = i :: is) : items (figure s i) = some s.items ∧ (figure s i).closed = s.closed := by
  refine ⟨?_, rfl⟩
  unfold items figure
  dsimp only
  cases hc : s.closed with
  | false =>
    simp only [Bool.false_and, Bool.false_eq_true, if_false]
    rw [trace_items s.items i.begin_ (by rw [hi]; simp) h.chain]
    simp
  | true =>
    simp only [Bool.true_and, if_true]
    have hback : ∀ j ∈ s.items.getLast?, j.end_ = i.begin_ := fun j hj => h.back hc i (by rw [hi]; simp) j hj
    cases hl : s.items.getLast? with
    | none => rw [hi] at hl; simp at hl
    | some j =>
      cases j with
      | curve k =>
        simp only [Option.map_some, isLine, Option.getD_some, Bool.false_eq_true, if_false]
        rw [trace_items s.items i.begin_ (by rw [hi]; simp) h.chain, hl]
        simp only [Option.map_some, Option.getD_some, hback _ hl, closing, if_true, List.append_nil]
      | line l =>
        simp only [Option.map_some, isLine, Option.getD_some, if_true]
        have hsplit : s.items = s.items.dropLast ++ [Item.line l] := by
          have := List.dropLast_append_getLast? (l := s.items) (.line l) hl
          exact this.symm
        have hne : s.items.dropLast ≠ [] := by
          intro he
          rw [he, List.nil_append, hi] at hsplit
          have hil : i = Item.line l := by simp at hsplit; exact hsplit.1
          have h1 := h.long hc l hl
          rw [hback _ hl, hil] at h1
          exact h1 rfl
        have hhead : ∀ x ∈ s.items.dropLast.head?, x.begin_ = i.begin_ := by
          intro x hx
          cases hd : s.items.dropLast with
          | nil => exact absurd hd hne
          | cons y ys =>
            rw [hd] at hx hsplit
            simp only [List.head?_cons, Option.mem_def, Option.some.injEq] at hx
            rw [hi, List.cons_append] at hsplit
            rw [← hx, (List.cons.inj hsplit).1]
        rw [trace_items _ i.begin_ hhead (chain_dropLast h.chain)]
        have hlast : (s.items.dropLast.getLast?.map fun i => i.end_).getD i.begin_ = (Item.line l).begin_ := by
          have hch := h.chain
          rw [hsplit] at hch
          have := (List.isChain_append.mp hch).2.2
          cases hg : s.items.dropLast.getLast? with
          | none => exact absurd (List.getLast?_eq_none_iff.mp hg) hne
          | some y => exact this y hg (.line l) (by simp)
        have hl' := h.long hc l hl
        have hb := hback _ hl
        simp only [Option.map_some, Option.some.injEq]
        rw [hlast]
        unfold closing
        rw [if_neg (by rw [← hb]; exact hl')]
        have : (Item.line ⟨(Item.line l).begin_.1, (Item.line l).begin_.2, i.begin_.1, i.begin_.2⟩ : Item ℝ) = .line l := by
          rw [← hb]
          rfl
        rw [this]
        exact hsplit.symm

/-- Operators of a format. -/
structure Format (Op : Type) where
  step : PenState → Op → PenState
  M : Pt → Op
  item : Item ℝ → Op
  Z : Op
  /-- How the format changes points. -/
  f : Pt → Pt
  moves : ∀ st p, step st (M p) = st.moveTo (f p)
  draws : ∀ s i, step (.pen s) (item i) = .pen ⟨s.done, s.start, s.draws ++ [(drawItem i).image f], false, f i.end_⟩
  closes : ∀ s, step (.pen s) Z = .pen s.close

theorem fold_items {Op : Type} (F : Format Op) (is : List (Item ℝ)) : ∀ (s : Pen), s.fresh = false →
    ∃ s', (is.map F.item).foldl F.step (.pen s) = .pen s' ∧ s'.done = s.done ∧ s'.start = s.start ∧ s'.draws = s.draws ++ (is.map drawItem).map (Draw.image F.f) ∧ s'.fresh = false := by
  induction is with
  | nil => intro s h; exact ⟨s, rfl, rfl, rfl, by simp, h⟩
  | cons i is ih =>
    intro s h
    rw [List.map_cons, List.foldl_cons, F.draws]
    obtain ⟨s', g1, g2, g3, g4, g5⟩ := ih ⟨s.done, s.start, s.draws ++ [(drawItem i).image F.f], false, F.f i.end_⟩ rfl
    exact ⟨s', g1, g2, g3, by rw [g4]; simp, g5⟩

theorem fold_sub {Op : Type} (F : Format Op) (b : Pt) (is : List (Item ℝ)) (closed : Bool) (hne : is ≠ [] ∨ closed = true) (st : PenState) (hst : st ≠ .error) :
    ((F.M b :: is.map F.item ++ if closed then [F.Z] else []).foldl F.step st).figures = st.figures ++ [Figure.image F.f ⟨b, is.map drawItem, closed⟩] ∧
    (F.M b :: is.map F.item ++ if closed then [F.Z] else []).foldl F.step st ≠ .error := by
  have hm : ∃ s, F.step st (F.M b) = .pen s ∧ s.fresh = false ∧ s.draws = [] ∧ s.start = F.f b ∧ s.done = st.figures := by
    rw [F.moves]
    cases st with
    | empty => exact ⟨_, rfl, rfl, rfl, rfl, rfl⟩
    | pen s => exact ⟨_, rfl, rfl, rfl, rfl, rfl⟩
    | error => exact absurd rfl hst
  obtain ⟨s, hs, hf, hd, hb, hdone⟩ := hm
  obtain ⟨s', g1, g2, g3, g4, g5⟩ := fold_items F is s hf
  rw [List.cons_append, List.foldl_cons, hs, List.foldl_append, g1]
  cases closed with
  | true =>
    simp only [if_true, List.foldl_cons, List.foldl_nil, F.closes]
    refine ⟨?_, by simp⟩
    change s'.close.figures = _
    simp only [Pen.close, g5, Pen.figures, Bool.false_eq_true, if_false, List.isEmpty_nil, if_true, List.append_nil, g2, g3, g4, hd, hdone, hb, List.nil_append, Figure.image]
  | false =>
    simp only [Bool.false_eq_true, if_false, List.foldl_nil]
    refine ⟨?_, by simp⟩
    change s'.figures = _
    have he : s'.draws.isEmpty = false := by
      rw [g4, hd, List.nil_append]
      cases is with
      | nil => simp at hne
      | cons a l => rfl
    rw [Pen.figures, he, g2, g3, g4, hd, hdone, hb, List.nil_append]
    rfl

theorem shown_ok {s : Sub} (h : WellFormed s) : shown s = .ok (if s.closed && (s.items.getLast?.map isLine).getD false then s.items.dropLast else s.items) := by
  unfold shown
  by_cases hc : (s.closed && (s.items.getLast?.map isLine).getD false) = true
  · rw [if_pos hc, if_pos hc]
    rw [if_pos]
    rw [Bool.and_eq_true] at hc
    cases hi : s.items with
    | nil => exact absurd hi (h.empty hc.1)
    | cons i is =>
      cases is with
      | cons j is => simp
      | nil =>
        exfalso
        cases i with
        | curve c => rw [hi] at hc; simp [isLine] at hc
        | line l =>
          exact h.long hc.1 l (by rw [hi]; simp) (h.back hc.1 (.line l) (by rw [hi]; simp) (.line l) (by rw [hi]; simp)).symm
  · rw [if_neg hc, if_neg hc]

theorem figure_drawn {s : Sub} {i : Item ℝ} {is : List (Item ℝ)} (hi : s.items = i :: is) :
    (if s.closed && (s.items.getLast?.map isLine).getD false then s.items.dropLast else s.items) ≠ [] ∨ s.closed = true := by
  cases hc : s.closed with
  | true => exact Or.inr rfl
  | false => left; simp [hi]

/-- All figures of a path. -/
def figures (ss : List Sub) : List Figure := ss.flatMap fun s => match s.items with
  | [] => []
  | i :: _ => [figure s i]

theorem figures_shows : ∀ (ss : List Sub) (_ : ∀ s ∈ ss, WellFormed s), Shows (figures ss) ss
  | [], _ => rfl
  | s :: ss, h => by
    have ih := figures_shows ss fun s hs => h s (by simp [hs])
    unfold Shows figures contents at *
    rw [List.flatMap_cons, List.map_append, ih]
    cases hi : s.items with
    | nil => simp [hi]
    | cons i is =>
      obtain ⟨h1, h2⟩ := figure_items (h s (by simp)) hi
      simp [List.filter_cons, hi, h1, h2]

theorem begin_some {s : Sub} {i : Item ℝ} {is : List (Item ℝ)} (hi : s.items = i :: is) : s.begin_ = some i.begin_ := by
  obtain ⟨its, c, k⟩ := s
  dsimp only at hi
  subst hi
  exact begin_cons i is c k

/-- What the code of a format writes. -/
structure Writes {Op : Type} (F : Format Op) (sub : Sub → Except PErr (List Op)) (subs : List Sub → Except PErr (List Op)) : Prop where
  empty : ∀ s, s.items = [] → sub s = .ok []
  one : ∀ s i is its, s.items = i :: is → shown s = .ok its → sub s = .ok (F.M i.begin_ :: its.map F.item ++ if s.closed then [F.Z] else [])
  nil : subs [] = .ok []
  cons : ∀ s ss a b, sub s = .ok a → subs ss = .ok b → subs (s :: ss) = .ok (a ++ b)

theorem writes_all {Op : Type} (F : Format Op) {sub : Sub → Except PErr (List Op)} {subs : List Sub → Except PErr (List Op)} (hw : Writes F sub subs) :
    ∀ (ss : List Sub) (_ : ∀ s ∈ ss, WellFormed s) (st : PenState) (_ : st ≠ .error),
    ∃ ops, subs ss = .ok ops ∧ (ops.foldl F.step st).figures = st.figures ++ (figures ss).map (Figure.image F.f) ∧ ops.foldl F.step st ≠ .error
  | [], _, st, hst => ⟨[], hw.nil, by simp [figures], hst⟩
  | s :: ss, h, st, hst => by
    cases hi : s.items with
    | nil =>
      obtain ⟨ops, h1, h2, h3⟩ := writes_all F hw ss (fun s hs => h s (by simp [hs])) st hst
      refine ⟨ops, ?_, ?_, h3⟩
      · rw [hw.cons s ss [] ops (hw.empty s hi) h1, List.nil_append]
      · rw [h2]
        simp [figures, hi]
    | cons i is =>
      have hsub := hw.one s i is _ hi (shown_ok (h s (by simp)))
      obtain ⟨g1, g2⟩ := fold_sub F i.begin_ _ s.closed (figure_drawn hi) st hst
      obtain ⟨ops, h1, h2, h3⟩ := writes_all F hw ss (fun s hs => h s (by simp [hs])) _ g2
      refine ⟨_, hw.cons s ss _ ops hsub h1, ?_, by rw [List.foldl_append]; exact h3⟩
      rw [List.foldl_append, h2, g1]
      simp [figures, hi, figure]

def formatPS (A : Arcs) : Format PsOp where
  step := psStep A
  M := .moveto
  item := psItem
  Z := .closepath
  f := id
  moves := fun _ _ => rfl
  draws := fun s i => by cases i <;> rfl
  closes := fun _ => rfl

def formatPDF : Format PdfOp where
  step := pdfStep
  M := .m
  item := pdfItem
  Z := .h
  f := id
  moves := fun _ _ => rfl
  draws := fun s i => by cases i <;> rfl
  closes := fun _ => rfl

def formatSVG (inv : Bool) : Format SvgOp where
  step := svgStep
  M := fun p => .M (flipIf inv p)
  item := svgItem inv
  Z := .Z
  f := flipIf inv
  moves := fun _ _ => rfl
  draws := fun s i => by cases i <;> rfl
  closes := fun _ => rfl

theorem writes_ps (A : Arcs) : Writes (formatPS A) subPS subsPS where
  empty := fun s hs => by unfold subPS; rw [hs]
  one := fun s i is its hi hs => by unfold subPS; rw [begin_some hi, hi]; dsimp only; rw [hs]; rfl
  nil := rfl
  cons := fun s ss a b ha hb => by rw [subsPS, ha, hb]

theorem writes_pdf : Writes formatPDF (subPDF false) (subsPDF false) where
  empty := fun s hs => by unfold subPDF; rw [hs]
  one := fun s i is its hi hs => by unfold subPDF; rw [begin_some hi, hi]; dsimp only; rw [hs]; rfl
  nil := rfl
  cons := fun s ss a b ha hb => by rw [subsPDF, ha, hb]

theorem writes_svg (inv : Bool) : Writes (formatSVG inv) (subSVG inv) (subsSVG inv) where
  empty := fun s hs => by unfold subSVG; rw [hs]
  one := fun s i is its hi hs => by unfold subSVG; rw [begin_some hi, hi]; dsimp only; rw [hs]; rfl
  nil := rfl
  cons := fun s ss a b ha hb => by rw [subsSVG, ha, hb]

theorem image_id (f : Figure) (h : ∀ d ∈ f.draws, ∀ r l s p, d ≠ .svgArc r l s p) : Figure.image id f = f := by
  obtain ⟨a, ds, c⟩ := f
  unfold Figure.image
  congr 1
  conv_rhs => rw [← List.map_id ds]
  apply List.map_congr_left
  intro d hd
  cases d with
  | line p => rfl
  | curve p q r => rfl
  | svgArc r l s p => exact absurd rfl (h _ hd r l s p)

theorem images_id (ss : List Sub) : (figures ss).map (Figure.image id) = figures ss := by
  conv_rhs => rw [← List.map_id (figures ss)]
  apply List.map_congr_left
  intro f hf
  refine image_id f fun d hd r l b p he => ?_
  unfold figures at hf
  rw [List.mem_flatMap] at hf
  obtain ⟨s, _, hs⟩ := hf
  cases hi : s.items with
  | nil => rw [hi] at hs; simp at hs
  | cons i is =>
    rw [hi] at hs
    simp only [List.mem_singleton] at hs
    subst hs
    unfold figure at hd
    rw [List.mem_map] at hd
    obtain ⟨j, _, rfl⟩ := hd
    cases j <;> cases he

/-- **C159.** PostScript: a normpath is written such that exactly its lines and curves are drawn, sub-path by sub-path, closed if and only if they are closed. -/
theorem normpath_ps (A : Arcs) (ss : List Sub) (h : ∀ s ∈ ss, WellFormed s) : ∃ ops, subsPS ss = .ok ops ∧ Shows (runPS A ops).figures ss ∧ runPS A ops ≠ .error := by
  obtain ⟨ops, h1, h2, h3⟩ := writes_all (formatPS A) (writes_ps A) ss h .empty (by simp)
  refine ⟨ops, h1, ?_, h3⟩
  have : (runPS A ops).figures = figures ss := by
    have h2 : (runPS A ops).figures = _ := h2
    rw [h2]
    change [] ++ (figures ss).map (Figure.image id) = _
    rw [images_id, List.nil_append]
  rw [this]
  exact figures_shows ss h

/-- **C159.** PDF. -/
theorem normpath_pdf (ss : List Sub) (h : ∀ s ∈ ss, WellFormed s) : ∃ ops, subsPDF false ss = .ok ops ∧ Shows (runPDF ops).figures ss ∧ runPDF ops ≠ .error := by
  obtain ⟨ops, h1, h2, h3⟩ := writes_all formatPDF writes_pdf ss h .empty (by simp)
  refine ⟨ops, h1, ?_, h3⟩
  have : (runPDF ops).figures = figures ss := by
    have h2 : (runPDF ops).figures = _ := h2
    rw [h2]
    change [] ++ (figures ss).map (Figure.image id) = _
    rw [images_id, List.nil_append]
  rw [this]
  exact figures_shows ss h

/-- **C159.** SVG, where the y axis may point downwards: what is drawn is the mirror image of figures with exactly the lines and curves of the normpath. -/
theorem normpath_svg (inv : Bool) (ss : List Sub) (h : ∀ s ∈ ss, WellFormed s) :
    ∃ ops fs, subsSVG inv ss = .ok ops ∧ (runSVG ops).figures = fs.map (Figure.image (if inv then flip else id)) ∧ Shows fs ss ∧ runSVG ops ≠ .error := by
  obtain ⟨ops, h1, h2, h3⟩ := writes_all (formatSVG inv) (writes_svg inv) ss h .empty (by simp)
  refine ⟨ops, figures ss, h1, ?_, figures_shows ss h, h3⟩
  have h2 : (runSVG ops).figures = [] ++ (figures ss).map (Figure.image (flipIf inv)) := h2
  rw [h2, List.nil_append]
  cases inv with
  | true => rfl
  | false => rfl

/-- **C159.** A normpath converted to a path is written to PostScript as the normpath itself. -/
theorem normpath_path (ss : List Sub) (h : ∀ s ∈ ss, WellFormed s) : subsPS ss = .ok (outputPS (toPath ss)) := by
  induction ss with
  | nil => rfl
  | cons s ss ih =>
    have hone : subPS s = .ok (outputPS (subItems s)) := by
      unfold subPS subItems
      cases hi : s.items with
      | nil => rfl
      | cons i is =>
        rw [begin_some hi]
        dsimp only
        rw [shown_ok (h s (by simp)), ← hi]
        dsimp only
        have hm : ∀ l : List (Item ℝ), outputPS (l.map pathItem) = l.map psItem := by
          intro l
          unfold outputPS
          rw [List.flatMap_map]
          induction l with
          | nil => rfl
          | cons a l ih => rw [List.flatMap_cons, ih]; cases a <;> rfl
        unfold outputPS at hm ⊢
        rw [List.flatMap_cons, List.flatMap_append, hm]
        cases s.closed <;> rfl
    rw [subsPS, hone, ih fun s hs => h s (by simp [hs])]
    simp [toPath, outputPS]

/-- A closed triangle, an open curve, and a closed sub-path whose last item is a curve. -/
def exSubs : List Sub :=
  [⟨[.line ⟨0, 0, 1, 0⟩, .line ⟨1, 0, 1, 1⟩, .line ⟨1, 1, 0, 0⟩], true, none⟩, ⟨[.curve ⟨2, 2, 3, 2, 3, 3, 4, 4⟩], false, none⟩,
    ⟨[.curve ⟨5, 5, 6, 5, 6, 6, 5, 5⟩], true, none⟩]

theorem ex_wellformed : (∀ s ∈ exSubs, WellFormed s) ∧
    subsPDF false exSubs = .ok [.m (0, 0), .l (1, 0), .l (1, 1), .h, .m (2, 2), .c (3, 2) (3, 3) (4, 4), .m (5, 5), .c (6, 5) (6, 6) (5, 5), .h] := by
  refine ⟨?_, rfl⟩
  intro s hs
  simp only [exSubs, List.mem_cons, List.not_mem_nil, or_false] at hs
  rcases hs with rfl | rfl | rfl
  · refine ⟨by simp [Item.end_, Item.begin_, Line.end_, Line.begin_, Curve.end_, Curve.begin_], ?_, ?_, by simp⟩
    · simp [Item.end_, Item.begin_, Line.end_, Line.begin_, Curve.end_, Curve.begin_]
    · intro _ l hl
      simp only [List.getLast?_cons_cons, List.getLast?_singleton, Option.mem_def, Option.some.injEq, Item.line.injEq] at hl
      subst hl
      simp [Item.end_, Item.begin_, Line.end_, Line.begin_, Curve.end_, Curve.begin_]
  · exact ⟨by simp, by simp, by simp, by simp⟩
  · refine ⟨by simp, ?_, ?_, by simp⟩
    · simp [Item.end_, Item.begin_, Line.end_, Line.begin_, Curve.end_, Curve.begin_]
    · intro _ l hl
      simp at hl

end

end PyX.Path.NormOutput
