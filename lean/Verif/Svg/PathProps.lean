import Verif.Svg.PathData

/-!
# C97: SVG path data draw what SVG says
-/

set_option linter.unusedSectionVars false

namespace PyX.Svg

open PyX.NormPath PyX.Path

noncomputable section

/-! ## Specification: path data (SVG 1.1, 8.3) -/

/-- The segments of path data, each one with its own letter; lower case (`r`) is relative to the current point. -/
inductive Seg
  | M (p : Pt) | m (d : Pt)
  | L (p : Pt) | l (d : Pt)
  | H (x : ℝ) | h (dx : ℝ)
  | V (y : ℝ) | v (dy : ℝ)
  | C (p1 p2 p3 : Pt) | c (d1 d2 d3 : Pt)
  | S (p2 p3 : Pt) | s (d2 d3 : Pt)
  | Q (q p3 : Pt) | q (q d3 : Pt)
  | T (p3 : Pt) | t (d3 : Pt)
  | Z

/-- The control point of the previous segment, if that was a cubic or a quadratic curve. -/
inductive Prev
  | none
  | cubic (p2 : Pt)
  | quadratic (q : Pt)

/-- "The reflection of the control point on the previous command relative to the current point." -/
def reflect (cur p : Pt) : Pt := (2 * cur.1 - p.1, 2 * cur.2 - p.2)

/-- First control point of `S`: "if there is no previous command or if the previous command was not an C, c, S or s, assume the first control point is
coincident with the current point." -/
def Prev.forS (cur : Pt) : Prev → Pt
  | .cubic p => reflect cur p
  | _ => cur

/-- Control point of `T`: "if there is no previous command or if the previous command was not a Q, q, T or t, assume the control point is coincident with the
current point." -/
def Prev.forT (cur : Pt) : Prev → Pt
  | .quadratic p => reflect cur p
  | _ => cur

/-- The quadratic Bezier curve as a cubic one (see `quadTo_points`). -/
def quadTo (s : Pen) (q p : Pt) : Pen :=
  s.curveTo (1 / 3 * s.cur.1 + 2 / 3 * q.1, 1 / 3 * s.cur.2 + 2 / 3 * q.2) (1 / 3 * p.1 + 2 / 3 * q.1, 1 / 3 * p.2 + 2 / 3 * q.2) p

/-- A segment which needs a current point. -/
def penSeg (s : Pen) (pr : Prev) : Seg → Pen × Prev
  | .M p => (s.moveTo p, .none)
  | .m d => (s.moveTo (s.cur + d), .none)
  | .L p => (s.lineTo p, .none)
  | .l d => (s.lineTo (s.cur + d), .none)
  | .H x => (s.lineTo (x, s.cur.2), .none)
  | .h dx => (s.lineTo (s.cur.1 + dx, s.cur.2), .none)
  | .V y => (s.lineTo (s.cur.1, y), .none)
  | .v dy => (s.lineTo (s.cur.1, s.cur.2 + dy), .none)
  | .C p1 p2 p3 => (s.curveTo p1 p2 p3, .cubic p2)
  | .c d1 d2 d3 => (s.curveTo (s.cur + d1) (s.cur + d2) (s.cur + d3), .cubic (s.cur + d2))
  | .S p2 p3 => (s.curveTo (pr.forS s.cur) p2 p3, .cubic p2)
  | .s d2 d3 => (s.curveTo (pr.forS s.cur) (s.cur + d2) (s.cur + d3), .cubic (s.cur + d2))
  | .Q q p => (quadTo s q p, .quadratic q)
  | .q q d => (quadTo s (s.cur + q) (s.cur + d), .quadratic (s.cur + q))
  | .T p => (quadTo s (pr.forT s.cur) p, .quadratic (pr.forT s.cur))
  | .t d => (quadTo s (pr.forT s.cur) (s.cur + d), .quadratic (pr.forT s.cur))
  | .Z => (s.close, .none)

/-- Path data have to begin with a move, which is absolute in any case. -/
def firstSeg : Seg → Option (Pen × Prev)
  | .M p => some (⟨[], p, [], false, p⟩, .none)
  | .m d => some (⟨[], d, [], false, d⟩, .none)
  | _ => none

/-- What path data draw. -/
def drawn : List Seg → Option (Pen × Prev)
  | [] => none
  | g :: gs => (firstSeg g).map fun s => gs.foldl (fun s g => penSeg s.1 s.2 g) s

/-- The grammar: numbers in groups, one segment for each group; groups after the first one of a move are lines. -/
def segLines (upper : Bool) : List ℝ → Option (List Seg)
  | [] => some []
  | x :: y :: a => (segLines upper a).map fun l => (if upper then Seg.L (x, y) else .l (x, y)) :: l
  | [_] => none

def segCurves (upper : Bool) : List ℝ → Option (List Seg)
  | [] => some []
  | x1 :: y1 :: x2 :: y2 :: x3 :: y3 :: a =>
    (segCurves upper a).map fun l => (if upper then Seg.C (x1, y1) (x2, y2) (x3, y3) else .c (x1, y1) (x2, y2) (x3, y3)) :: l
  | _ => none

def segSmooths (upper : Bool) : List ℝ → Option (List Seg)
  | [] => some []
  | x2 :: y2 :: x3 :: y3 :: a => (segSmooths upper a).map fun l => (if upper then Seg.S (x2, y2) (x3, y3) else .s (x2, y2) (x3, y3)) :: l
  | _ => none

def segQuads (upper : Bool) : List ℝ → Option (List Seg)
  | [] => some []
  | x2 :: y2 :: x3 :: y3 :: a => (segQuads upper a).map fun l => (if upper then Seg.Q (x2, y2) (x3, y3) else .q (x2, y2) (x3, y3)) :: l
  | _ => none

def segQuadSmooths (upper : Bool) : List ℝ → Option (List Seg)
  | [] => some []
  | x :: y :: a => (segQuadSmooths upper a).map fun l => (if upper then Seg.T (x, y) else .t (x, y)) :: l
  | [_] => none

/-- The groups of a command. -/
def groups (c : Cmd) : Option (List Seg) :=
  match c.letter with
  | .M =>
    match c.args with
    | x :: y :: a => (segLines c.upper a).map fun l => (if c.upper then Seg.M (x, y) else .m (x, y)) :: l
    | _ => none
  | .L => segLines c.upper c.args
  | .H => some (c.args.map fun x => if c.upper then Seg.H x else .h x)
  | .V => some (c.args.map fun x => if c.upper then Seg.V x else .v x)
  | .C => segCurves c.upper c.args
  | .S => segSmooths c.upper c.args
  | .Q => segQuads c.upper c.args
  | .T => segQuadSmooths c.upper c.args
  | .Z => none

/-- The segments of a command; at least one group is needed, except for `Z`. -/
def segs (c : Cmd) : Option (List Seg) :=
  if c.bad then none
  else if c.letter = .Z then if c.args = [] then some [.Z] else none
  else if c.args = [] then none
  else groups c

/-- The segments of path data. -/
def allSegs : List Cmd → Option (List Seg)
  | [] => some []
  | c :: cs => (segs c).bind fun a => (allSegs cs).map fun b => a ++ b

/-! ### Degree elevation -/

/-- The cubic curve drawn for a quadratic one has the same points. -/
theorem quadTo_points (p0 q p3 t : ℝ) :
    (1 - t) ^ 3 * p0 + 3 * (1 - t) ^ 2 * t * (1 / 3 * p0 + 2 / 3 * q) + 3 * (1 - t) * t ^ 2 * (1 / 3 * p3 + 2 / 3 * q) + t ^ 3 * p3 =
      (1 - t) ^ 2 * p0 + 2 * (1 - t) * t * q + t ^ 2 * p3 := by
  ring

/-! ### Where the code differs -/

def Seg.isCubic : Seg → Bool
  | .C _ _ _ | .c _ _ _ | .S _ _ | .s _ _ => true
  | _ => false

def Seg.isQuadratic : Seg → Bool
  | .Q _ _ | .q _ _ | .T _ | .t _ => true
  | _ => false

def Seg.isS : Seg → Bool
  | .S _ _ | .s _ _ => true
  | _ => false

def Seg.isT : Seg → Bool
  | .T _ | .t _ => true
  | _ => false

/-- A smooth curve does not follow a curve of the other degree. -/
def Compatible (g g' : Seg) : Prop := (g.isQuadratic = true → g'.isS = false) ∧ (g.isCubic = true → g'.isT = false)

/-! ## Proof -/

/-- The degree of a curve. -/
inductive Kind
  | other | cubic | quadratic
deriving DecidableEq

def Prev.kind : Prev → Kind
  | .none => .other
  | .cubic _ => .cubic
  | .quadratic _ => .quadratic

def Seg.kind (g : Seg) : Kind := if g.isCubic then .cubic else if g.isQuadratic then .quadratic else .other

theorem penSeg_kind (s : Pen) (pr : Prev) (g : Seg) : (penSeg s pr g).2.kind = g.kind := by cases g <;> rfl

/-- A segment may follow one of the degree given. -/
def Follows (k : Kind) (g : Seg) : Prop := (k = .quadratic → g.isS = false) ∧ (k = .cubic → g.isT = false)

/-- The segments may follow. -/
def Clean : Kind → List Seg → Prop
  | _, [] => True
  | k, g :: gs => Follows k g ∧ Clean g.kind gs

theorem clean_of_chain (gs : List Seg) (g : Seg) (h : (g :: gs).IsChain Compatible) : Clean g.kind gs := by
  induction gs generalizing g with
  | nil => trivial
  | cons g' gs ih =>
    rw [List.isChain_cons_cons] at h
    refine ⟨⟨fun hk => h.1.1 ?_, fun hk => h.1.2 ?_⟩, ih g' h.2⟩
    · unfold Seg.kind at hk; split_ifs at hk with h1 h2; exact h2
    · unfold Seg.kind at hk; split_ifs at hk with h1 h2; exact h1

/-- The degree after segments. -/
def kindAfter (k : Kind) (gs : List Seg) : Kind := gs.foldl (fun _ g => g.kind) k

theorem clean_append (k : Kind) (a b : List Seg) : Clean k (a ++ b) ↔ Clean k a ∧ Clean (kindAfter k a) b := by
  induction a generalizing k with
  | nil => simp [Clean, kindAfter]
  | cons g a ih =>
    simp only [List.cons_append, Clean, ih, kindAfter, List.foldl_cons, and_assoc]

/-- Drawing segments. -/
def run (s : Pen × Prev) (gs : List Seg) : Pen × Prev := gs.foldl (fun s g => penSeg s.1 s.2 g) s

theorem run_kind (s : Pen × Prev) (gs : List Seg) : (run s gs).2.kind = kindAfter s.2.kind gs := by
  unfold run kindAfter
  induction gs generalizing s with
  | nil => rfl
  | cons g gs ih => rw [List.foldl_cons, List.foldl_cons, ih, penSeg_kind]

/-- How an item tells the control point. -/
def Tells (i : PItem) (cur : Pt) : Prev → Prop
  | .none => lastDiff i = (0, 0)
  | .cubic c => lastDiff i = cur - c
  | .quadratic q => lastDiff i = (2 / 3 * (cur.1 - q.1), 2 / 3 * (cur.2 - q.2))

/-- The path built so far draws what the segments so far draw. -/
structure Agree (A : Arcs) (p : List PItem) (s : Pen × Prev) : Prop where
  ps : runPS A (outputPS p) = .pen s.1
  tells : ∃ i, p.getLast? = some i ∧ Tells i s.1.cur s.2
  head : ∀ i, p.head? = some i → isArcn i = false

/-- The end of the path is the current point. -/
def EndOK (A : Arcs) (atEnd : AtEnd) : Prop :=
  ∀ p q s, runPS A (outputPS p) = .pen s → (∀ i, p.head? = some i → isArcn i = false) → atEnd p = .ok q → q = s.cur

variable (A : Arcs) (atEnd : AtEnd)

theorem agree_push (p : List PItem) (s s' : Pen × Prev) (i : PItem) (h : Agree A p s) (h1 : (itemPS i).foldl (psStep A) (.pen s.1) = .pen s'.1)
    (h2 : Tells i s'.1.cur s'.2) : Agree A (p ++ [i]) s' := by
  refine ⟨?_, ⟨i, by simp, h2⟩, ?_⟩
  · have := h.ps
    unfold runPS outputPS at this ⊢
    rw [List.flatMap_append, List.foldl_append, this]
    simpa using h1
  · obtain ⟨j, hj, _⟩ := h.tells
    intro k hk
    cases p with
    | nil => cases hj
    | cons a p => exact h.head k hk

theorem run_cons (s : Pen × Prev) (g : Seg) (gs : List Seg) : run s (g :: gs) = run (penSeg s.1 s.2 g) gs := rfl

theorem lines_agree (upper : Bool) (args : List ℝ) : ∀ (p p' : List PItem) (s : Pen × Prev) (gs : List Seg), Agree A p s → lines upper p args = .ok p' →
    segLines upper args = some gs → Agree A p' (run s gs) := by
  induction args using segLines.induct with
  | case1 =>
    intro p p' s gs h h1 h2
    simp only [lines, Except.ok.injEq, segLines, Option.some.injEq] at h1 h2
    subst h1 h2
    exact h
  | case2 x y a ih =>
    intro p p' s gs h h1 h2
    simp only [lines] at h1
    simp only [segLines, Option.map_eq_some_iff] at h2
    obtain ⟨l, h3, rfl⟩ := h2
    rw [run_cons]
    refine ih _ p' _ l ?_ h1 h3
    cases upper
    · exact agree_push A p s _ _ h rfl rfl
    · exact agree_push A p s _ _ h rfl rfl
  | case3 x =>
    intro p p' s gs h h1 h2
    simp [segLines] at h2

theorem straight_agree (horizontal : Bool) (upper : Bool) (args : List ℝ) : ∀ (other : ℝ) (p : List PItem) (s : Pen × Prev), Agree A p s →
    (other = if upper then (if horizontal then s.1.cur.2 else s.1.cur.1) else 0) →
    Agree A (straight horizontal upper other p args) (run s (args.map fun x =>
      if horizontal then (if upper then Seg.H x else .h x) else (if upper then Seg.V x else .v x))) := by
  induction args with
  | nil => intro other p s h _; exact h
  | cons x args ih =>
    intro other p s h ho
    simp only [straight, List.map_cons, run_cons]
    apply ih
    · cases upper <;> cases horizontal <;> simp only [Bool.false_eq_true, if_false, if_true] at ho ⊢ <;> subst ho
      · refine agree_push A p s _ _ h ?_ rfl
        simp [itemPS, psStep, PenState.need, penSeg, Prod.ext_iff, Pen.lineTo]
      · refine agree_push A p s _ _ h ?_ rfl
        simp [itemPS, psStep, PenState.need, penSeg, Prod.ext_iff, Pen.lineTo]
      · exact agree_push A p s _ _ h rfl rfl
      · exact agree_push A p s _ _ h rfl rfl
    · rw [ho]
      cases upper <;> cases horizontal <;> rfl

theorem curves_agree (upper : Bool) (args : List ℝ) : ∀ (p p' : List PItem) (s : Pen × Prev) (gs : List Seg), Agree A p s → curves upper p args = .ok p' →
    segCurves upper args = some gs → Agree A p' (run s gs) := by
  induction args using segCurves.induct with
  | case1 =>
    intro p p' s gs h h1 h2
    simp only [curves, Except.ok.injEq, segCurves, Option.some.injEq] at h1 h2
    subst h1 h2
    exact h
  | case2 x1 y1 x2 y2 x3 y3 a ih =>
    intro p p' s gs h h1 h2
    simp only [curves] at h1
    simp only [segCurves, Option.map_eq_some_iff] at h2
    obtain ⟨l, h3, rfl⟩ := h2
    rw [run_cons]
    refine ih _ p' _ l ?_ h1 h3
    cases upper
    · refine agree_push A p s _ _ h rfl ?_
      simp [curve, Tells, penSeg, lastDiff, Pen.curveTo]
    · exact agree_push A p s _ _ h rfl rfl
  | case3 args h1 h2 =>
    intro p p' s gs h h3 h4
    rw [segCurves.eq_def] at h4
    split at h4
    · exact absurd rfl h1
    · exact absurd rfl (h2 _ _ _ _ _ _ _)
    · cases h4

/-- The reflected point is found. -/
theorem smoothPoint_spec (hE : EndOK A atEnd) (upper : Bool) (p : List PItem) (s : Pen × Prev) (p1 : Pt) (h : Agree A p s) (hq : s.2.kind ≠ .quadratic)
    (h1 : smoothPoint atEnd upper p = .ok p1) : p1 = if upper then s.2.forS s.1.cur else s.2.forS s.1.cur - s.1.cur := by
  obtain ⟨i, hi, ht⟩ := h.tells
  have hd : lastDiff i = s.2.forS s.1.cur - s.1.cur := by
    cases hp : s.2 with
    | none => rw [hp] at ht; rw [show lastDiff i = (0, 0) from ht]; simp [Prev.forS]
    | cubic c =>
      rw [hp] at ht
      rw [show lastDiff i = s.1.cur - c from ht]
      simp only [Prev.forS, reflect, Prod.ext_iff, Prod.fst_sub, Prod.snd_sub]
      constructor <;> ring
    | quadratic q => rw [hp] at hq; exact absurd rfl hq
  unfold smoothPoint at h1
  rw [hi] at h1
  simp only at h1
  cases upper
  · simp only [Bool.false_eq_true, if_false, Except.ok.injEq] at h1 ⊢
    rw [← h1, hd]
  · simp only [if_true] at h1 ⊢
    cases he : atEnd p with
    | error e => rw [he] at h1; cases h1
    | ok p0 =>
      rw [he] at h1
      simp only [Except.ok.injEq] at h1
      have := hE p p0 s.1 h.ps h.head he
      rw [← h1, hd, this]
      simp

theorem smooths_agree (hE : EndOK A atEnd) (upper : Bool) (args : List ℝ) : ∀ (p p' : List PItem) (s : Pen × Prev) (gs : List Seg), Agree A p s →
    smooths atEnd upper p args = .ok p' → segSmooths upper args = some gs → Clean s.2.kind gs → Agree A p' (run s gs) := by
  induction args using segSmooths.induct with
  | case1 =>
    intro p p' s gs h h1 h2 _
    simp only [smooths, Except.ok.injEq, segSmooths, Option.some.injEq] at h1 h2
    subst h1 h2
    exact h
  | case2 x2 y2 x3 y3 a ih =>
    intro p p' s gs h h1 h2 hc
    simp only [smooths] at h1
    simp only [segSmooths, Option.map_eq_some_iff] at h2
    obtain ⟨l, h3, rfl⟩ := h2
    rw [run_cons]
    cases hp : smoothPoint atEnd upper p with
    | error e => rw [hp] at h1; cases h1
    | ok p1 =>
      rw [hp] at h1
      simp only at h1
      have hk : s.2.kind ≠ .quadratic := by
        intro hk
        have := hc.1.1 hk
        cases upper <;> cases this
      have hs := smoothPoint_spec A atEnd hE upper p s p1 h hk hp
      refine ih _ p' _ l ?_ h1 h3 ?_
      · cases upper
        · refine agree_push A p s _ _ h ?_ ?_
          · simp only [Bool.false_eq_true, if_false] at hs
            subst hs
            simp [curve, itemPS, psStep, PenState.need, penSeg]
          · simp [curve, Tells, penSeg, lastDiff, Pen.curveTo]
        · refine agree_push A p s _ _ h ?_ rfl
          simp only [if_true] at hs
          subst hs
          rfl
      · rw [penSeg_kind]
        exact hc.2
  | case3 args h1 h2 =>
    intro p p' s gs h h3 h4
    rw [segSmooths.eq_def] at h4
    split at h4
    · exact absurd rfl h1
    · exact absurd rfl (h2 _ _ _ _ _)
    · cases h4

/-- A quadratic curve is drawn. -/
theorem quad_agree (p : List PItem) (s : Pen × Prev) (q p3 : Pt) (h : Agree A p s) :
    Agree A (p ++ [quad s.1.cur q p3]) (quadTo s.1 q p3, .quadratic q) := by
  refine agree_push A p s _ _ h ?_ ?_
  · simp only [quad, itemPS, List.foldl_cons, List.foldl_nil, psStep, PenState.need, quadTo]
    congr 2 <;> (rw [Prod.mk.injEq]; constructor <;> ring)
  · simp only [Tells, quad, lastDiff, quadTo, Pen.curveTo, Prod.ext_iff, Prod.fst_sub, Prod.snd_sub]
    constructor <;> ring

theorem quads_agree (hE : EndOK A atEnd) (upper : Bool) (args : List ℝ) : ∀ (p p' : List PItem) (s : Pen × Prev) (gs : List Seg), Agree A p s →
    quads atEnd upper p args = .ok p' → segQuads upper args = some gs → Agree A p' (run s gs) := by
  induction args using segQuads.induct with
  | case1 =>
    intro p p' s gs h h1 h2
    rw [quads] at h1
    simp only [Except.ok.injEq, segQuads, Option.some.injEq] at h1 h2
    subst h1 h2
    exact h
  | case2 x2 y2 x3 y3 a ih =>
    intro p p' s gs h h1 h2
    rw [quads] at h1
    simp only [segQuads, Option.map_eq_some_iff] at h2
    obtain ⟨l, h3, rfl⟩ := h2
    rw [run_cons]
    cases he : atEnd p with
    | error e => rw [he] at h1; cases h1
    | ok p0 =>
      rw [he] at h1
      simp only at h1
      have hp0 := hE p p0 s.1 h.ps h.head he
      subst hp0
      refine ih _ p' _ l ?_ h1 h3
      cases upper
      · have := quad_agree A p s (s.1.cur + (x2, y2)) (s.1.cur + (x3, y3)) h
        simpa only [shifted, Bool.false_eq_true, if_false, penSeg, add_comm] using this
      · exact quad_agree A p s _ _ h
  | case3 args h1 h2 =>
    intro p p' s gs h h3 h4
    rw [segQuads.eq_def] at h4
    split at h4
    · exact absurd rfl h1
    · exact absurd rfl (h2 _ _ _ _ _)
    · cases h4

theorem reflected_spec (i : PItem) (s : Pen × Prev) (h : Tells i s.1.cur s.2) (hk : s.2.kind ≠ .cubic) : reflected s.1.cur i = s.2.forT s.1.cur := by
  unfold reflected
  cases hp : s.2 with
  | none => rw [hp] at h; rw [show lastDiff i = (0, 0) from h]; simp [Prev.forT]
  | cubic c => rw [hp] at hk; exact absurd rfl hk
  | quadratic q =>
    rw [hp] at h
    rw [show lastDiff i = (2 / 3 * (s.1.cur.1 - q.1), 2 / 3 * (s.1.cur.2 - q.2)) from h]
    simp only [Prev.forT, reflect, Prod.mk.injEq]
    constructor <;> ring

theorem quadSmooths_agree (hE : EndOK A atEnd) (upper : Bool) (args : List ℝ) : ∀ (p p' : List PItem) (s : Pen × Prev) (gs : List Seg), Agree A p s →
    quadSmooths atEnd upper p args = .ok p' → segQuadSmooths upper args = some gs → Clean s.2.kind gs → Agree A p' (run s gs) := by
  induction args using segQuadSmooths.induct with
  | case1 =>
    intro p p' s gs h h1 h2 _
    rw [quadSmooths] at h1
    simp only [Except.ok.injEq, segQuadSmooths, Option.some.injEq] at h1 h2
    subst h1 h2
    exact h
  | case2 x y a ih =>
    intro p p' s gs h h1 h2 hc
    rw [quadSmooths] at h1
    simp only [segQuadSmooths, Option.map_eq_some_iff] at h2
    obtain ⟨l, h3, rfl⟩ := h2
    rw [run_cons]
    cases he : atEnd p with
    | error e => rw [he] at h1; cases h1
    | ok p0 =>
      rw [he] at h1
      simp only at h1
      have hp0 := hE p p0 s.1 h.ps h.head he
      subst hp0
      obtain ⟨i, hi, ht⟩ := h.tells
      rw [hi] at h1
      simp only at h1
      have hk : s.2.kind ≠ .cubic := by
        intro hk
        have := hc.1.2 hk
        cases upper <;> cases this
      rw [reflected_spec i s ht hk] at h1
      refine ih _ p' _ l ?_ h1 h3 ?_
      · cases upper
        · have := quad_agree A p s (s.2.forT s.1.cur) (s.1.cur + (x, y)) h
          simpa only [shifted, Bool.false_eq_true, if_false, penSeg, add_comm] using this
        · exact quad_agree A p s _ _ h
      · rw [penSeg_kind]
        exact hc.2
  | case3 x =>
    intro p p' s gs h h3 h4
    simp [segQuadSmooths] at h4

theorem linesFirst_eq (upper : Bool) (p p' : List PItem) (args : List ℝ) (h : linesFirst upper p args = .ok p') : lines upper p args = .ok p' := by
  rw [linesFirst.eq_def] at h
  split at h
  · rw [lines]; exact h
  · cases h

theorem unpacked_ok (c : Cmd) (p p' : List PItem) (f : List ℝ → Res) (hb : c.bad = false) (h : unpacked c p f = .ok p') : f c.args = .ok p' := by
  unfold unpacked at h
  rw [hb] at h
  simp only [Bool.false_eq_true, if_false] at h
  split_ifs at h
  exact h

theorem withEnd_ok (p p' : List PItem) (f : Pt → Res) (h : withEnd atEnd p f = .ok p') : ∃ q, atEnd p = .ok q ∧ f q = .ok p' := by
  unfold withEnd at h
  cases he : atEnd p with
  | error e => rw [he] at h; cases h
  | ok q => rw [he] at h; exact ⟨q, rfl, h⟩

theorem step_agree (hE : EndOK A atEnd) (c : Cmd) (p p' : List PItem) (s : Pen × Prev) (gs : List Seg) (h : Agree A p s) (h1 : step atEnd p c = .ok p')
    (h2 : segs c = some gs) (hc : Clean s.2.kind gs) : Agree A p' (run s gs) := by
  unfold segs at h2
  by_cases hb : c.bad = true
  · rw [if_pos hb] at h2; cases h2
  rw [if_neg hb] at h2
  have hb' : c.bad = false := by simpa using hb
  unfold step at h1
  by_cases hz : c.letter = .Z
  · rw [if_pos hz] at h2
    split_ifs at h2
    cases h2
    rw [hz] at h1
    simp only [Except.ok.injEq] at h1
    subst h1
    exact agree_push A p s _ _ h rfl rfl
  rw [if_neg hz] at h2
  by_cases ha : c.args = []
  · rw [if_pos ha] at h2; cases h2
  rw [if_neg ha] at h2
  unfold groups at h2
  cases hl : c.letter <;> rw [hl] at h1 h2 <;> simp only at h1 h2
  case M =>
    have h1 := unpacked_ok c p p' _ hb' h1
    rw [moves.eq_def] at h1
    split at h1
    · rename_i x y args he
      rw [he] at h2
      simp only [Option.map_eq_some_iff] at h2
      obtain ⟨l, h3, rfl⟩ := h2
      rw [run_cons]
      refine lines_agree A c.upper args _ p' _ l ?_ h1 h3
      obtain ⟨i, hi, _⟩ := h.tells
      have hne : p.isEmpty = false := by cases p with
        | nil => cases hi
        | cons a p => rfl
      rw [hne, Bool.or_false]
      cases c.upper
      · exact agree_push A p s _ _ h rfl rfl
      · exact agree_push A p s _ _ h rfl rfl
    · cases h1
  case L => exact lines_agree A c.upper c.args p p' s gs h (linesFirst_eq _ _ _ _ (unpacked_ok c p p' _ hb' h1)) h2
  case H =>
    simp only [Option.some.injEq] at h2
    subst h2
    cases hu : c.upper
    · rw [hu] at h1
      simp only [Bool.false_eq_true, if_false, Except.ok.injEq] at h1
      subst h1
      exact straight_agree A true false c.args 0 p s h rfl
    · rw [hu] at h1
      simp only [if_true] at h1
      obtain ⟨q, g1, g2⟩ := withEnd_ok atEnd p p' _ h1
      have hq := hE p q s.1 h.ps h.head g1
      cases g2
      exact straight_agree A true true c.args q.2 p s h (by rw [hq]; rfl)
  case V =>
    simp only [Option.some.injEq] at h2
    subst h2
    cases hu : c.upper
    · rw [hu] at h1
      simp only [Bool.false_eq_true, if_false, Except.ok.injEq] at h1
      subst h1
      exact straight_agree A false false c.args 0 p s h rfl
    · rw [hu] at h1
      simp only [if_true] at h1
      obtain ⟨q, g1, g2⟩ := withEnd_ok atEnd p p' _ h1
      have hq := hE p q s.1 h.ps h.head g1
      cases g2
      exact straight_agree A false true c.args q.1 p s h (by rw [hq]; rfl)
  case C => exact curves_agree A c.upper c.args p p' s gs h (unpacked_ok c p p' _ hb' h1) h2
  case S => exact smooths_agree A atEnd hE c.upper c.args p p' s gs h (unpacked_ok c p p' _ hb' h1) h2 hc
  case Q =>
    obtain ⟨q, _, g2⟩ := withEnd_ok atEnd p p' _ h1
    exact quads_agree A atEnd hE c.upper c.args p p' s gs h (unpacked_ok c p p' _ hb' g2) h2
  case T =>
    obtain ⟨q, _, g2⟩ := withEnd_ok atEnd p p' _ h1
    exact quadSmooths_agree A atEnd hE c.upper c.args p p' s gs h (unpacked_ok c p p' _ hb' g2) h2 hc
  case Z => exact absurd hl hz

theorem loop_agree (hE : EndOK A atEnd) (cs : List Cmd) : ∀ (p p' : List PItem) (s : Pen × Prev) (gs : List Seg), Agree A p s → loop atEnd p cs = .ok p' →
    allSegs cs = some gs → Clean s.2.kind gs → Agree A p' (run s gs) := by
  induction cs with
  | nil =>
    intro p p' s gs h h1 h2 _
    simp only [loop, Except.ok.injEq, allSegs, Option.some.injEq] at h1 h2
    subst h1 h2
    exact h
  | cons c cs ih =>
    intro p p' s gs h h1 h2 hc
    simp only [loop] at h1
    simp only [allSegs, Option.bind_eq_some_iff, Option.map_eq_some_iff] at h2
    obtain ⟨a, h3, b, h4, rfl⟩ := h2
    rw [clean_append] at hc
    cases hs : step atEnd p c with
    | error e => rw [hs] at h1; cases h1
    | ok p1 =>
      rw [hs] at h1
      have := ih p1 p' (run s a) b (step_agree A atEnd hE c p p1 s a h hs h3 hc.1) h1 h4 (by rw [run_kind]; exact hc.2)
      unfold run at this ⊢
      rwa [List.foldl_append]

/-! ## C97 -/

theorem atEnd_endOK (hA : ArctEnds A) (roots : ℝ → ℝ → ℝ → ℝ → List ℝ) (e : ℝ) (n : ℕ) : EndOK A (Path.atEnd roots (some e) n) := by
  intro p q s h1 h2 h3
  obtain ⟨s', h4, h5⟩ := atEnd_current_partial roots n A hA e p q h2 h3
  rw [h1] at h4
  cases h4
  exact h5.symm

theorem segs_ne (c : Cmd) (gs : List Seg) (h : segs c = some gs) : gs ≠ [] := by
  unfold segs at h
  split_ifs at h with h1 h2 h3 h4
  · cases h; simp
  · unfold groups at h
    cases hl : c.letter <;> rw [hl] at h <;> simp only at h
    case M =>
      split at h
      · simp only [Option.map_eq_some_iff] at h
        obtain ⟨l, _, rfl⟩ := h
        simp
      · cases h
    case H => cases h; simpa using h4
    case V => cases h; simpa using h4
    case L =>
      rw [segLines.eq_def] at h
      split at h
      · exact absurd (by assumption) h4
      · simp only [Option.map_eq_some_iff] at h
        obtain ⟨l, _, rfl⟩ := h
        simp
      · cases h
    case C =>
      rw [segCurves.eq_def] at h
      split at h
      · exact absurd (by assumption) h4
      · simp only [Option.map_eq_some_iff] at h
        obtain ⟨l, _, rfl⟩ := h
        simp
      · cases h
    case S =>
      rw [segSmooths.eq_def] at h
      split at h
      · exact absurd (by assumption) h4
      · simp only [Option.map_eq_some_iff] at h
        obtain ⟨l, _, rfl⟩ := h
        simp
      · cases h
    case Q =>
      rw [segQuads.eq_def] at h
      split at h
      · exact absurd (by assumption) h4
      · simp only [Option.map_eq_some_iff] at h
        obtain ⟨l, _, rfl⟩ := h
        simp
      · cases h
    case T =>
      rw [segQuadSmooths.eq_def] at h
      split at h
      · exact absurd (by assumption) h4
      · simp only [Option.map_eq_some_iff] at h
        obtain ⟨l, _, rfl⟩ := h
        simp
      · cases h
    case Z => cases h

/-- Only a move begins with a move. -/
theorem segs_move (c : Cmd) (g : Seg) (gs : List Seg) (st : Pen × Prev) (h : segs c = some (g :: gs)) (h1 : firstSeg g = some st) :
    c.letter = .M ∧ c.bad = false ∧ ∃ x y a, c.args = x :: y :: a ∧ segLines c.upper a = some gs ∧ st = (⟨[], (x, y), [], false, (x, y)⟩, .none) := by
  unfold segs at h
  split_ifs at h with h0 h2 h3 h4
  · cases h; cases h1
  · unfold groups at h
    cases hl : c.letter <;> rw [hl] at h <;> simp only at h
    case M =>
      split at h
      · rename_i x y a he
        simp only [Option.map_eq_some_iff] at h
        obtain ⟨l, h5, h6⟩ := h
        cases h6
        refine ⟨rfl, by simpa using h0, x, y, a, he, h5, ?_⟩
        cases hu : c.upper <;> rw [hu] at h1 <;> simp only [Bool.false_eq_true, if_false, if_true, firstSeg, Option.some.injEq] at h1 <;> exact h1.symm
      · cases h
    case H =>
      cases ha : c.args with
      | nil => exact absurd ha h4
      | cons x a =>
        rw [ha] at h
        cases hu : c.upper <;> rw [hu] at h <;> cases h <;> cases h1
    case V =>
      cases ha : c.args with
      | nil => exact absurd ha h4
      | cons x a =>
        rw [ha] at h
        cases hu : c.upper <;> rw [hu] at h <;> cases h <;> cases h1
    case L =>
      rw [segLines.eq_def] at h
      split at h
      · cases h
      · simp only [Option.map_eq_some_iff] at h
        obtain ⟨l, _, h6⟩ := h
        cases hu : c.upper <;> rw [hu] at h6 <;> cases h6 <;> cases h1
      · cases h
    case C =>
      rw [segCurves.eq_def] at h
      split at h
      · cases h
      · simp only [Option.map_eq_some_iff] at h
        obtain ⟨l, _, h6⟩ := h
        cases hu : c.upper <;> rw [hu] at h6 <;> cases h6 <;> cases h1
      · cases h
    case S =>
      rw [segSmooths.eq_def] at h
      split at h
      · cases h
      · simp only [Option.map_eq_some_iff] at h
        obtain ⟨l, _, h6⟩ := h
        cases hu : c.upper <;> rw [hu] at h6 <;> cases h6 <;> cases h1
      · cases h
    case Q =>
      rw [segQuads.eq_def] at h
      split at h
      · cases h
      · simp only [Option.map_eq_some_iff] at h
        obtain ⟨l, _, h6⟩ := h
        cases hu : c.upper <;> rw [hu] at h6 <;> cases h6 <;> cases h1
      · cases h
    case T =>
      rw [segQuadSmooths.eq_def] at h
      split at h
      · cases h
      · simp only [Option.map_eq_some_iff] at h
        obtain ⟨l, _, h6⟩ := h
        cases hu : c.upper <;> rw [hu] at h6 <;> cases h6 <;> cases h1
      · cases h
    case Z => cases h

theorem first_agree (x y : ℝ) : Agree A [.moveto (x, y)] (⟨[], (x, y), [], false, (x, y)⟩, .none) :=
  ⟨rfl, ⟨_, rfl, rfl⟩, fun i hi => by cases hi; rfl⟩

/-- C97: when `toPath` returns a path for correct path data without arcs, the path draws what SVG says, as long as no `S` follows a quadratic curve and no `T` a
cubic one. -/
theorem toPath_draws_partial (hA : ArctEnds A) (roots : ℝ → ℝ → ℝ → ℝ → List ℝ) (e : ℝ) (n : ℕ) (cs : List Cmd) (p : List PItem) (gs : List Seg) (s : Pen × Prev)
    (h : toPath roots (some e) n cs = .ok p) (hg : allSegs cs = some gs) (hc : gs.IsChain Compatible) (hs : drawn gs = some s) :
    runPS A (outputPS p) = .pen s.1 := by
  have hE := atEnd_endOK A hA roots e n
  unfold toPath at h
  generalize Path.atEnd roots (some e) n = atEnd at h hE
  cases cs with
  | nil => cases hg; cases hs
  | cons c cs =>
    simp only [allSegs, Option.bind_eq_some_iff, Option.map_eq_some_iff] at hg
    obtain ⟨a, h3, b, h4, rfl⟩ := hg
    cases a with
    | nil => exact absurd rfl (segs_ne c [] h3)
    | cons g a =>
      simp only [List.cons_append, drawn, Option.map_eq_some_iff] at hs
      obtain ⟨st, h5, h6⟩ := hs
      obtain ⟨m1, m2, x, y, args, m3, m4, m5⟩ := segs_move c g a st h3 h5
      simp only [loop] at h
      cases hst : step atEnd [] c with
      | error e => rw [hst] at h; cases h
      | ok p1 =>
        rw [hst] at h
        simp only at h
        unfold step at hst
        rw [m1] at hst
        have hmv := unpacked_ok c [] p1 _ m2 hst
        rw [m3, moves] at hmv
        simp only [List.isEmpty_nil, Bool.or_true, if_true, List.nil_append] at hmv
        have h1 := first_agree A x y
        rw [← m5] at h1
        have h2 := lines_agree A c.upper args _ p1 st a h1 hmv m4
        have hcl := clean_of_chain (a ++ b) g hc
        rw [clean_append] at hcl
        have hgk : g.kind = st.2.kind := by cases g <;> first | rfl | (cases h5; rfl) | cases h5
        rw [hgk] at hcl
        have := loop_agree A atEnd hE cs p1 p (run st a) b h2 h h4 (by rw [run_kind]; exact hcl.2)
        rw [← h6]
        have h7 := this.ps
        unfold run at h7
        rwa [List.foldl_append]

/-! ### Violations -/

theorem atEnd_moveto (roots : ℝ → ℝ → ℝ → ℝ → List ℝ) (p : Pt) (e : ℝ) (he : 0 < e) : Path.atEnd roots (some e) 1 [.moveto p] = .ok p := by
  have h0 : hypot 0 0 = 0 := (hypot_axis 0 le_rfl).1
  simp [Path.atEnd, normpath, createnormpath, createcontext, normLoop, Sub.make, Sub.extend, Sub.extendWith, Sub.append, Sub.matches_, Sub.end_, Sub.fresh,
    Sub.adjusted, Sub.skip, lift, Except.map, Line.end_, h0, not_le.mpr he]

/-- `M 0 0 Q 3 0 3 3 s 0 3 3 3`. -/
def smoothAfterQuadratic : List Cmd := [⟨.M, true, [0, 0], false⟩, ⟨.Q, true, [3, 0, 3, 3], false⟩, ⟨.S, false, [0, 3, 3, 3], false⟩]

/-- C97 does not hold for `S` after a quadratic curve: SVG begins the curve with the current point as control point, PyX continues the direction of the
quadratic curve. -/
theorem smooth_after_quadratic (roots : ℝ → ℝ → ℝ → ℝ → List ℝ) (e : ℝ) (he : 0 < e) :
    ∃ p gs s, toPath roots (some e) 1 smoothAfterQuadratic = .ok p ∧ allSegs smoothAfterQuadratic = some gs ∧ drawn gs = some s ∧
      runPS A (outputPS p) ≠ .pen s.1 := by
  refine ⟨[.moveto (0, 0), quad (0, 0) (3, 0) (3, 3), .rcurveto ((3, 3) - (3 + 2 / 3 * (3 - 3), 3 + 2 / 3 * (0 - 3))) (0, 3) (3, 3)],
    [.M (0, 0), .Q (3, 0) (3, 3), .s (0, 3) (3, 3)], _, ?_, ?_, rfl, ?_⟩
  · simp [toPath, smoothAfterQuadratic, loop, step, unpacked, moves, lines, withEnd, atEnd_moveto roots _ e he, quads, shifted, smooths, smoothPoint, lastDiff,
      quad, curve]
  · simp [smoothAfterQuadratic, allSegs, segs, groups, segLines, segQuads, segSmooths]
  · intro h
    simp only [quad, runPS, outputPS, itemPS, List.flatMap_cons, List.flatMap_nil, List.append_nil, List.cons_append, List.nil_append, List.foldl_cons,
      List.foldl_nil, psStep, PenState.moveTo, PenState.need, penSeg, quadTo, Prev.forS, Pen.curveTo, PenState.pen.injEq, Pen.mk.injEq,
      List.cons.injEq, Draw.curve.injEq, Prod.mk.injEq] at h
    norm_num at h

/-- `M 0 0 C 1 0 2 0 3 0 T 6 3`. -/
def quadSmoothAfterCubic : List Cmd := [⟨.M, true, [0, 0], false⟩, ⟨.C, true, [1, 0, 2, 0, 3, 0], false⟩, ⟨.T, true, [6, 3], false⟩]

theorem atEnd_cubic (roots : ℝ → ℝ → ℝ → ℝ → List ℝ) (e : ℝ) (he : 0 < e) (he1 : e ≤ 1) :
    Path.atEnd roots (some e) 1 [.moveto (0, 0), .curveto (1, 0) (2, 0) (3, 0)] = .ok (3, 0) := by
  have h0 : hypot 0 0 = 0 := (hypot_axis 0 le_rfl).1
  have h3 : hypot 3 0 = 3 := (hypot_axis 3 (by norm_num)).1
  have h1 : hypot 1 0 = 1 := (hypot_axis 1 (by norm_num)).1
  have hm : hypot (-1) 0 = 1 := by simp [hypot]
  have hlong : Sub.long e ⟨0, 0, 1, 0, 2, 0, 3, 0⟩ := by
    left
    simp only [sub_zero, h3]
    linarith
  have hshift : Sub.shift e ⟨0, 0, 1, 0, 2, 0, 3, 0⟩ = ⟨0, 0, 1, 0, 2, 0, 3, 0⟩ := by
    have a1 : ¬ (1 * 3 : ℝ) < e := by linarith
    have a2 : (2 - 3 : ℝ) = -1 := by norm_num
    simp [Sub.shift, h1, a2, hm, not_lt.mpr (show e ≤ 3 by linarith)]
  have hsp : Sub.splitpoints roots e ⟨0, 0, 1, 0, 2, 0, 3, 0⟩ = [] := by
    unfold Sub.splitpoints
    rw [List.filter_eq_nil_iff]
    intro t _
    simp only [decide_eq_true_eq, not_and, not_lt]
    intro _
    nlinarith
  have hne : ¬ e ≤ 0 := not_le.mpr he
  simp [Path.atEnd, normpath, createnormpath, createcontext, normLoop, expand, updatenormpaths, updatenormpath, onLast, advance, curveItem, Sub.make, Sub.extend,
    Sub.extendWith, Sub.append, Sub.matches_, Sub.end_, Sub.fresh, Sub.adjusted, Sub.skip, Sub.unskip, Sub.push, lift, Except.map, Line.end_, Item.modifiedbegin,
    Curve.modifiedbegin, Item.begin_, Curve.begin_, Item.end_, Curve.end_, h0, hne, he, hlong, hshift, hsp]

/-- C97 does not hold for `T` after a cubic curve: SVG takes the current point as control point, PyX continues the direction of the cubic curve. -/
theorem quad_smooth_after_cubic (roots : ℝ → ℝ → ℝ → ℝ → List ℝ) (e : ℝ) (he : 0 < e) (he1 : e ≤ 1) :
    ∃ p gs s, toPath roots (some e) 1 quadSmoothAfterCubic = .ok p ∧ allSegs quadSmoothAfterCubic = some gs ∧ drawn gs = some s ∧
      runPS A (outputPS p) ≠ .pen s.1 := by
  refine ⟨[.moveto (0, 0), .curveto (1, 0) (2, 0) (3, 0), quad (3, 0) (3 + 3 / 2 * (3 - 2), 0 + 3 / 2 * (0 - 0)) (6, 3)],
    [.M (0, 0), .C (1, 0) (2, 0) (3, 0), .T (6, 3)], _, ?_, ?_, rfl, ?_⟩
  · simp [toPath, quadSmoothAfterCubic, loop, step, unpacked, moves, lines, curves, curve, withEnd, atEnd_cubic roots e he he1, quadSmooths, shifted, reflected, lastDiff]
  · simp [quadSmoothAfterCubic, allSegs, segs, groups, segLines, segCurves, segQuadSmooths]
  · intro h
    simp only [quad, runPS, outputPS, itemPS, List.flatMap_cons, List.flatMap_nil, List.append_nil, List.cons_append, List.nil_append, List.foldl_cons,
      List.foldl_nil, psStep, PenState.moveTo, PenState.need, penSeg, quadTo, Prev.forT, Pen.curveTo, PenState.pen.injEq, Pen.mk.injEq,
      List.cons.injEq, Draw.curve.injEq, Prod.mk.injEq] at h
    norm_num at h

/-- A number missing at the end of a command is not handled: the exception leaves `toPath` (a number which cannot be read is: the command is left out). -/
theorem missing_number (atEnd : AtEnd) (p : List PItem) (upper : Bool) (x : ℝ) : step atEnd p ⟨.L, upper, [x], false⟩ = .error .unpack ∧
    step atEnd p ⟨.L, upper, [x], true⟩ = .ok p := ⟨rfl, rfl⟩

theorem normLoop_append (roots : ℝ → ℝ → ℝ → ℝ → List ℝ) (eps : Option ℝ) (n : ℕ) (is js : List PItem) : ∀ (np np' : NP) (c : Ctx),
    normLoop roots eps n np c (is ++ js) = .ok np' → ∃ np1 c1, normLoop roots eps n np1 c1 js = .ok np' := by
  induction is with
  | nil => intro np np' c h; exact ⟨np, c, h⟩
  | cons i is ih =>
    intro np np' c h
    simp only [List.cons_append, normLoop] at h
    cases he : expand c.cur i with
    | error e => rw [he] at h; cases h
    | ok ks =>
      rw [he] at h
      simp only at h
      cases hu : updatenormpaths roots eps n np c ks with
      | error e => rw [hu] at h; cases h
      | ok s => rw [hu] at h; exact ih _ _ _ h

/-- A segment other than a move after `Z` makes the end of the path unknown to the code, such that the next `H`, `V`, `S`, `Q`, `T` fails, although SVG
continues from the begin of the sub-path closed. -/
theorem after_close (roots : ℝ → ℝ → ℝ → ℝ → List ℝ) (e : ℝ) (n : ℕ) (p : List PItem) (q : Pt) :
    ∃ err, Path.atEnd roots (some e) n (p ++ [.closepath, .lineto q]) = .error err := by
  cases ha : Path.atEnd roots (some e) n (p ++ [.closepath, .lineto q]) with
  | error err => exact ⟨err, rfl⟩
  | ok r =>
    exfalso
    unfold Path.atEnd at ha
    cases hn : normpath roots (some e) n (p ++ [.closepath, .lineto q]) with
    | error err => rw [hn] at ha; cases ha
    | ok np =>
      clear ha
      cases p with
      | nil => simp [normpath, createnormpath] at hn
      | cons i is =>
        simp only [List.cons_append, normpath] at hn
        cases hb : createnormpath roots (some e) n i with
        | error err => rw [hb] at hn; cases hn
        | ok np0 =>
          rw [hb] at hn
          cases hc : createcontext i with
          | error err => rw [hc] at hn; cases hn
          | ok c =>
            rw [hc] at hn
            simp only at hn
            obtain ⟨np1, c1, h1⟩ := normLoop_append roots (some e) n is _ np0 np c hn
            simp only [normLoop, expand, updatenormpaths, updatenormpath] at h1
            cases ho : onLast np1 (fun s => s.close roots (some e) n) with
            | error err => rw [ho] at h1; cases h1
            | ok np2 =>
              rw [ho] at h1
              simp only at h1
              unfold onLast at ho
              cases hl : np1.subs.getLast? with
              | none => rw [hl] at ho; cases ho
              | some s =>
                rw [hl] at ho
                simp only at ho
                cases hcl : lift (s.close roots (some e) n) with
                | error err => rw [hcl] at ho; cases ho
                | ok s' =>
                  rw [hcl] at ho
                  simp only [Except.map, Except.ok.injEq] at ho
                  subst ho
                  have hclosed : s'.closed = true := by
                    have hcl' := (lift_ok _ _).mp hcl
                    unfold Sub.close at hcl'
                    split_ifs at hcl'
                    · cases hcl'
                    · split at hcl'
                      · split at hcl'
                        · split at hcl'
                          · cases hcl'; rfl
                          · cases hcl'
                        · cases hcl'
                      · cases hcl'
                  obtain ⟨err, herr⟩ := Sub.append_closed roots (R := anyway) (fun _ => trivial) n s' (lineItem (advance c1 .closepath).cur q) e hclosed
                  simp [onLast, herr, lift, Except.map] at h1

/-- For instance `M 0 0 L 3 0 L 3 3 Z L 1 1 H 5`. -/
theorem after_close_fails (roots : ℝ → ℝ → ℝ → ℝ → List ℝ) (e : ℝ) (n : ℕ) :
    ∃ err, toPath roots (some e) n [⟨.M, true, [0, 0, 3, 0, 3, 3], false⟩, ⟨.Z, true, [], false⟩, ⟨.L, true, [1, 1], false⟩, ⟨.H, true, [5], false⟩] = .error err := by
  obtain ⟨err, h⟩ := after_close roots e n [.moveto (0, 0), .lineto (3, 0), .lineto (3, 3)] (1, 1)
  refine ⟨.path err, ?_⟩
  simp only [toPath, loop, step, unpacked, moves, lines, linesFirst, withEnd, Bool.false_eq_true, if_false, if_true, List.isEmpty_cons, List.isEmpty_nil, Bool.or_true,
    List.nil_append, List.cons_append]
  simp only [List.cons_append, List.nil_append] at h
  rw [h]

/-! ### Example -/

/-- `m 1 2 h 3 v 4 c 1 0 2 0 3 0 s 1 1 2 2 z`: the hypotheses are met. -/
example (roots : ℝ → ℝ → ℝ → ℝ → List ℝ) :
    ∃ p gs s, toPath roots (some 1) 1 [⟨.M, false, [1, 2], false⟩, ⟨.H, false, [3], false⟩, ⟨.V, false, [4], false⟩, ⟨.C, false, [1, 0, 2, 0, 3, 0], false⟩,
        ⟨.S, false, [1, 1, 2, 2], false⟩, ⟨.Z, false, [], false⟩] = .ok p ∧
      allSegs [⟨.M, false, [1, 2], false⟩, ⟨.H, false, [3], false⟩, ⟨.V, false, [4], false⟩, ⟨.C, false, [1, 0, 2, 0, 3, 0], false⟩,
        ⟨.S, false, [1, 1, 2, 2], false⟩, ⟨.Z, false, [], false⟩] = some gs ∧ gs.IsChain Compatible ∧ drawn gs = some s ∧ gs.length = 6 := by
  refine ⟨[.moveto (1, 2), .rlineto (3, 0), .rlineto (0, 4), .rcurveto (1, 0) (2, 0) (3, 0), .rcurveto (3 - 2, 0 - 0) (1, 1) (2, 2), .closepath],
    [.m (1, 2), .h 3, .v 4, .c (1, 0) (2, 0) (3, 0), .s (1, 1) (2, 2), .Z], _, ?_, ?_, ?_, rfl, rfl⟩
  · simp [toPath, loop, step, unpacked, moves, lines, straight, curves, curve, smooths, smoothPoint, lastDiff]
  · simp [allSegs, segs, groups, segLines, segCurves, segSmooths]
  · simp [List.isChain_cons_cons, Compatible, Seg.isQuadratic, Seg.isCubic, Seg.isS, Seg.isT]

/-- With `H` and `T`, which need the end of the path: `M 0 0 C 1 0 2 0 3 0` is followed from (3, 0). -/
example (roots : ℝ → ℝ → ℝ → ℝ → List ℝ) :
    toPath roots (some 1) 1 [⟨.M, true, [0, 0], false⟩, ⟨.C, true, [1, 0, 2, 0, 3, 0], false⟩, ⟨.V, true, [6], false⟩] =
      .ok [.moveto (0, 0), .curveto (1, 0) (2, 0) (3, 0), .lineto (3, 6)] := by
  simp [toPath, loop, step, unpacked, moves, lines, curves, curve, withEnd, atEnd_cubic roots 1 one_pos le_rfl, straight]

end

end PyX.Svg
