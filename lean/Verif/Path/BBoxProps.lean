import Verif.Path.RelProps
import Verif.NormPath.ItemProps
import Verif.BBox.Props

/-!
# The bounding box of a path (C83)
-/

set_option linter.unusedSectionVars false

namespace PyX.Path

open Real PyX.NormPath

noncomputable section

/-! ## Specification: the points of a path -/

/-- The points of the line from `p` to `q`. -/
def OnLine (p q z : Pt) : Prop := ∃ t, 0 ≤ t ∧ t ≤ 1 ∧ z = (p.1 + (q.1 - p.1) * t, p.2 + (q.2 - p.2) * t)

/-- The points of a Bezier curve. -/
def OnCurve (p0 p1 p2 p3 z : Pt) : Prop :=
  ∃ t, 0 ≤ t ∧ t ≤ 1 ∧ z = (p0.1 * (1 - t) ^ 3 + 3 * p1.1 * t * (1 - t) ^ 2 + 3 * p2.1 * t ^ 2 * (1 - t) + p3.1 * t ^ 3,
    p0.2 * (1 - t) ^ 3 + 3 * p1.2 * t * (1 - t) ^ 2 + 3 * p2.2 * t ^ 2 * (1 - t) + p3.2 * t ^ 3)

/-- The points of a counterclockwise arc. -/
def OnArc (x y r a1 a2 : ℝ) (z : Pt) : Prop := ∃ b phi, ArcEnd a1 a2 b ∧ radians a1 ≤ phi ∧ phi ≤ b ∧ z = circlePoint x y r phi

def OnLines (cur : Pt) : List Pt → Pt → Prop
  | [], _ => False
  | p :: ps, z => OnLine cur p z ∨ OnLines p ps z

def OnCurves (cur : Pt) : List (Pt × Pt × Pt) → Pt → Prop
  | [], _ => False
  | q :: qs, z => OnCurve cur q.1 q.2.1 q.2.2 z ∨ OnCurves q.2.2 qs z

/-- The points an item adds. -/
def Drawn (c : Ctx) : PItem → Pt → Prop
  | .closepath, z => OnLine c.cur c.first z
  | .moveto p, z => z = p
  | .lineto p, z => OnLine c.cur p z
  | .curveto p1 p2 p3, z => OnCurve c.cur p1 p2 p3 z
  | .rmoveto d, z => z = c.cur + d
  | .rlineto d, z => OnLine c.cur (c.cur + d) z
  | .rcurveto d1 d2 d3, z => OnCurve c.cur (c.cur + d1) (c.cur + d2) (c.cur + d3) z
  | .arc x y r a1 a2, z => OnLine c.cur (arcpoint x y r a1) z ∨ OnArc x y r a1 a2 z
  | .arcn x y r a1 a2, z => OnLine c.cur (arcpoint x y r a1) z ∨ OnArc x y r a2 a1 z
  | .multilineto ps, z => OnLines c.cur ps z
  | .multicurveto ps, z => OnCurves c.cur ps z
  | .arct _ _ _, _ => False

/-- The points of several items other than `arct`. -/
def DrawnAll (c : Ctx) : List PItem → Pt → Prop
  | [], _ => False
  | i :: is, z => Drawn c i z ∨ DrawnAll (advance c i) is z

/-- The points of a path from a current point. -/
def DrawnPath (c : Ctx) : List PItem → Pt → Prop
  | [], _ => False
  | i :: is, z => (∃ js, expand c.cur i = .ok js ∧ DrawnAll c js z) ∨ DrawnPath (after c i) is z

/-- The points of a path. -/
def Points : List PItem → Pt → Prop
  | .moveto p :: is, z => z = p ∨ DrawnPath ⟨p, p⟩ is z
  | .arc x y r a1 a2 :: is, z => OnArc x y r a1 a2 z ∨ DrawnPath ⟨arcpoint x y r a2, arcpoint x y r a1⟩ is z
  | .arcn x y r a1 a2 :: is, z => OnArc x y r a2 a1 z ∨ DrawnPath ⟨arcpoint x y r a2, arcpoint x y r a1⟩ is z
  | _, _ => False

/-- Arcs have no negative radius (see `arcbbox_negative_radius`). -/
def posRadius : PItem → Prop
  | .arc _ _ r _ _ => 0 ≤ r
  | .arcn _ _ r _ _ => 0 ≤ r
  | .arct _ _ r => 0 ≤ r
  | _ => True

/-! ## Boxes -/

/-- `b` is the smallest box around the points `P`. -/
structure Smallest (b : BBox ℝ) (P : Pt → Prop) : Prop where
  proper : BBox.Proper b
  contains : ∀ z, P z → BBox.Mem z.1 z.2 b
  least : ∀ c, (∀ z, P z → BBox.Mem z.1 z.2 c) → BBox.Sub b c

theorem Smallest.congr {b : BBox ℝ} {P Q : Pt → Prop} (h : Smallest b P) (e : ∀ z, P z ↔ Q z) : Smallest b Q :=
  ⟨h.proper, fun z hz => h.contains z ((e z).mpr hz), fun c hc => h.least c fun z hz => hc z ((e z).mp hz)⟩

/-- Boxes are convex. -/
theorem mem_line (b : BBox ℝ) (p q z : Pt) (hp : BBox.Mem p.1 p.2 b) (hq : BBox.Mem q.1 q.2 b) (hz : OnLine p q z) : BBox.Mem z.1 z.2 b := by
  obtain ⟨t, h0, h1, rfl⟩ := hz
  cases b with
  | none => exact hp
  | some b =>
    obtain ⟨p1, p2, p3, p4⟩ := hp
    obtain ⟨q1, q2, q3, q4⟩ := hq
    have e : ∀ u v : ℝ, u + (v - u) * t = (1 - t) * u + t * v := fun u v => by ring
    have h2 : 0 ≤ 1 - t := by linarith
    refine ⟨?_, ?_, ?_, ?_⟩ <;> simp only [e]
    · nlinarith [mul_le_mul_of_nonneg_left p1 h2, mul_le_mul_of_nonneg_left q1 h0]
    · nlinarith [mul_le_mul_of_nonneg_left p2 h2, mul_le_mul_of_nonneg_left q2 h0]
    · nlinarith [mul_le_mul_of_nonneg_left p3 h2, mul_le_mul_of_nonneg_left q3 h0]
    · nlinarith [mul_le_mul_of_nonneg_left p4 h2, mul_le_mul_of_nonneg_left q4 h0]

theorem onLine_end (p q : Pt) : OnLine p q q := ⟨1, zero_le_one, le_rfl, by ext <;> simp⟩

/-- Adding a line from a point of the set. -/
theorem smallest_line {b : BBox ℝ} {P : Pt → Prop} (h : Smallest b P) (p q : Pt) (hp : P p) :
    Smallest (b.includepoint q.1 q.2) (fun z => P z ∨ OnLine p q z) := by
  obtain ⟨i1, i2, i3, i4⟩ := BBox.foldl_include [q] b h.proper
  have hq := i3 q (by simp)
  refine ⟨i1, ?_, ?_⟩
  · rintro z (hz | hz)
    · exact i2 _ _ (h.contains z hz)
    · exact mem_line _ p q z (i2 _ _ (h.contains p hp)) hq hz
  · intro c hc
    refine i4 c (h.least c fun z hz => hc z (Or.inl hz)) ?_
    intro p' hp'
    rw [List.mem_singleton] at hp'
    subst hp'
    exact hc p' (Or.inr (onLine_end p p'))

/-- Adding a point. -/
theorem smallest_point {b : BBox ℝ} {P : Pt → Prop} (h : Smallest b P) (q : Pt) : Smallest (b.includepoint q.1 q.2) (fun z => P z ∨ z = q) := by
  obtain ⟨i1, i2, i3, i4⟩ := BBox.foldl_include [q] b h.proper
  refine ⟨i1, ?_, ?_⟩
  · rintro z (hz | rfl)
    · exact i2 _ _ (h.contains z hz)
    · exact i3 z (by simp)
  · intro c hc
    refine i4 c (h.least c fun z hz => hc z (Or.inl hz)) ?_
    intro p' hp'
    rw [List.mem_singleton] at hp'
    subst hp'
    exact hc p' (Or.inr rfl)

/-- Adding points of which the range of the coordinates is known. -/
theorem smallest_range {b : BBox ℝ} {P D : Pt → Prop} (h : Smallest b P) (q : Quad ℝ) (hin : ∀ z, D z → InBox q z) (h1 : ∃ z, D z ∧ z.1 = q.llx)
    (h2 : ∃ z, D z ∧ z.2 = q.lly) (h3 : ∃ z, D z ∧ z.1 = q.urx) (h4 : ∃ z, D z ∧ z.2 = q.ury) :
    Smallest (includeQuad b q) (fun z => P z ∨ D z) := by
  obtain ⟨i1, i2, i3, i4⟩ := BBox.foldl_include [(q.llx, q.lly), (q.urx, q.ury)] b h.proper
  have m1 := i3 (q.llx, q.lly) (by simp)
  have m2 := i3 (q.urx, q.ury) (by simp)
  simp only [List.foldl_cons, List.foldl_nil] at i1 i2 i4 m1 m2
  refine ⟨i1, ?_, ?_⟩
  · rintro z (hz | hz)
    · exact i2 _ _ (h.contains z hz)
    · obtain ⟨a1, a2, a3, a4⟩ := hin z hz
      unfold includeQuad
      generalize (b.includepoint q.llx q.lly).includepoint q.urx q.ury = b' at *
      cases b' with
      | none => exact m1
      | some b' =>
        obtain ⟨c1, -, c3, -⟩ := m1
        obtain ⟨-, d2, -, d4⟩ := m2
        exact ⟨c1.trans a1, a2.trans d2, c3.trans a3, a4.trans d4⟩
  · intro c hc
    refine i4 c (h.least c fun z hz => hc z (Or.inl hz)) ?_
    obtain ⟨z1, d1, e1⟩ := h1
    obtain ⟨z2, d2, e2⟩ := h2
    obtain ⟨z3, d3, e3⟩ := h3
    obtain ⟨z4, d4, e4⟩ := h4
    have m1 := hc z1 (Or.inr d1)
    have m2 := hc z2 (Or.inr d2)
    have m3 := hc z3 (Or.inr d3)
    have m4 := hc z4 (Or.inr d4)
    cases c with
    | none => exact absurd m1 (by simp [BBox.Mem])
    | some c =>
      intro p hp
      simp only [List.mem_cons, List.not_mem_nil, or_false] at hp
      rcases hp with rfl | rfl
      · exact ⟨e1 ▸ m1.1, e1 ▸ m1.2.1, e2 ▸ m2.2.2.1, e2 ▸ m2.2.2.2⟩
      · exact ⟨e3 ▸ m3.1, e3 ▸ m3.2.1, e4 ▸ m4.2.2.1, e4 ▸ m4.2.2.2⟩

theorem bezier_form (x0 x1 x2 x3 t : ℝ) :
    x0 * (1 - t) ^ 3 + 3 * x1 * t * (1 - t) ^ 2 + 3 * x2 * t ^ 2 * (1 - t) + x3 * t ^ 3 = bezierValue x0 x1 x2 x3 t := by
  rw [bezierValue_eq]; ring

theorem smallest_curve {b : BBox ℝ} {P : Pt → Prop} (h : Smallest b P) (p0 p1 p2 p3 : Pt) :
    Smallest (includeCurve b p0 p1 p2 p3) (fun z => P z ∨ OnCurve p0 p1 p2 p3 z) := by
  obtain ⟨x1, ⟨tx, ⟨hx0, hx1⟩, ex⟩, ⟨ux, ⟨gx0, gx1⟩, fx⟩⟩ := bezierpolyrange_spec p0.1 p1.1 p2.1 p3.1
  obtain ⟨y1, ⟨ty, ⟨hy0, hy1⟩, ey⟩, ⟨uy, ⟨gy0, gy1⟩, fy⟩⟩ := bezierpolyrange_spec p0.2 p1.2 p2.2 p3.2
  refine smallest_range h ⟨(bezierpolyrange p0.1 p1.1 p2.1 p3.1).1, (bezierpolyrange p0.2 p1.2 p2.2 p3.2).1, (bezierpolyrange p0.1 p1.1 p2.1 p3.1).2,
    (bezierpolyrange p0.2 p1.2 p2.2 p3.2).2⟩ ?_ ?_ ?_ ?_ ?_
  · rintro z ⟨t, h0, h1, rfl⟩
    simp only [InBox, bezier_form]
    exact ⟨(x1 t h0 h1).1, (x1 t h0 h1).2, (y1 t h0 h1).1, (y1 t h0 h1).2⟩
  · exact ⟨_, ⟨tx, hx0, hx1, rfl⟩, by simp only [bezier_form]; exact ex⟩
  · exact ⟨_, ⟨ty, hy0, hy1, rfl⟩, by simp only [bezier_form]; exact ey⟩
  · exact ⟨_, ⟨ux, gx0, gx1, rfl⟩, by simp only [bezier_form]; exact fx⟩
  · exact ⟨_, ⟨uy, gy0, gy1, rfl⟩, by simp only [bezier_form]; exact fy⟩

theorem onCurve_end (p0 p1 p2 p3 : Pt) : OnCurve p0 p1 p2 p3 p3 := ⟨1, zero_le_one, le_rfl, by ext <;> simp⟩

theorem arc_touch (x y r a1 a2 : ℝ) (hr : 0 ≤ r) :
    (∀ z, OnArc x y r a1 a2 z → InBox (arcbbox x y r a1 a2) z) ∧ (∃ z, OnArc x y r a1 a2 z ∧ z.1 = (arcbbox x y r a1 a2).llx) ∧
    (∃ z, OnArc x y r a1 a2 z ∧ z.2 = (arcbbox x y r a1 a2).lly) ∧ (∃ z, OnArc x y r a1 a2 z ∧ z.1 = (arcbbox x y r a1 a2).urx) ∧
    (∃ z, OnArc x y r a1 a2 z ∧ z.2 = (arcbbox x y r a1 a2).ury) := by
  have hE := endAngle_spec a1 a2
  obtain ⟨h1, ⟨p2, a, b, h2⟩, ⟨p3, c, d, h3⟩, ⟨p4, e, f, h4⟩, ⟨p5, g, h, h5⟩⟩ := arcbbox_tight x y r a1 a2 _ hr hE
  refine ⟨?_, ⟨_, ⟨_, p2, hE, a, b, rfl⟩, h2⟩, ⟨_, ⟨_, p3, hE, c, d, rfl⟩, h3⟩, ⟨_, ⟨_, p4, hE, e, f, rfl⟩, h4⟩, ⟨_, ⟨_, p5, hE, g, h, rfl⟩, h5⟩⟩
  rintro z ⟨b, phi, hb, k1, k2, rfl⟩
  rw [arcEnd_unique hb hE] at k2
  exact h1 phi k1 k2

theorem onArc_ends (x y r a1 a2 : ℝ) : OnArc x y r a1 a2 (arcpoint x y r a1) ∧ OnArc x y r a1 a2 (arcpoint x y r a2) := by
  have hE := endAngle_spec a1 a2
  obtain ⟨h1, h2, -⟩ := arc_ends x y r a1 a2 _ hE
  exact ⟨⟨_, _, hE, le_rfl, endAngle_ge a1 a2, h1⟩, ⟨_, _, hE, endAngle_ge a1 a2, le_rfl, h2⟩⟩

theorem smallest_arc {b : BBox ℝ} {P : Pt → Prop} (h : Smallest b P) (x y r a1 a2 : ℝ) (hr : 0 ≤ r) (cur q : Pt) (hcur : P cur)
    (hq : OnArc x y r a1 a2 q) :
    Smallest (includeQuad b (arcbbox x y r a1 a2)) (fun z => P z ∨ OnLine cur q z ∨ OnArc x y r a1 a2 z) := by
  obtain ⟨h1, h2, h3, h4, h5⟩ := arc_touch x y r a1 a2 hr
  have s := smallest_range h _ h1 h2 h3 h4 h5
  refine ⟨s.proper, ?_, ?_⟩
  · rintro z (hz | hz | hz)
    · exact s.contains z (Or.inl hz)
    · exact mem_line _ cur q z (s.contains _ (Or.inl hcur)) (s.contains _ (Or.inr hq)) hz
    · exact s.contains z (Or.inr hz)
  · intro c hc
    refine s.least c ?_
    rintro z (hz | hz)
    · exact hc z (Or.inl hz)
    · exact hc z (Or.inr (Or.inr hz))

theorem smallest_lines {b : BBox ℝ} {P : Pt → Prop} (h : Smallest b P) (cur : Pt) (hcur : P cur) (ps : List Pt) :
    Smallest (ps.foldl (fun b p => b.includepoint p.1 p.2) b) (fun z => P z ∨ OnLines cur ps z) := by
  induction ps generalizing b P cur with
  | nil => exact h.congr fun z => by simp [OnLines]
  | cons p ps ih =>
    have := ih (smallest_line h cur p hcur) p (Or.inr (onLine_end cur p))
    exact this.congr fun z => by simp only [OnLines, or_assoc]

theorem smallest_curves {b : BBox ℝ} {P : Pt → Prop} (h : Smallest b P) (cur : Pt) (ps : List (Pt × Pt × Pt)) :
    Smallest (includeCurves b cur ps) (fun z => P z ∨ OnCurves cur ps z) := by
  induction ps generalizing b P cur with
  | nil => exact h.congr fun z => by simp [OnCurves]
  | cons p ps ih =>
    have := ih (smallest_curve h cur p.1 p.2.1 p.2.2) p.2.2
    exact this.congr fun z => by simp only [OnCurves, or_assoc]

/-! ## Paths -/

theorem drawn_cur (c : Ctx) (P : Pt → Prop) (hc : P c.cur) (hf : P c.first) (i : PItem) :
    (P (advance c i).cur ∨ Drawn c i (advance c i).cur) ∧ (P (advance c i).first ∨ Drawn c i (advance c i).first) := by
  cases i with
  | closepath => exact ⟨Or.inl hf, Or.inl hf⟩
  | moveto p => exact ⟨Or.inr rfl, Or.inr rfl⟩
  | rmoveto p => exact ⟨Or.inr rfl, Or.inr rfl⟩
  | lineto p => exact ⟨Or.inr (onLine_end _ _), Or.inl hf⟩
  | rlineto p => exact ⟨Or.inr (onLine_end _ _), Or.inl hf⟩
  | curveto p1 p2 p3 => exact ⟨Or.inr (onCurve_end _ _ _ _), Or.inl hf⟩
  | rcurveto p1 p2 p3 => exact ⟨Or.inr (onCurve_end _ _ _ _), Or.inl hf⟩
  | arc x y r a1 a2 => exact ⟨Or.inr (Or.inr (onArc_ends x y r a1 a2).2), Or.inl hf⟩
  | arcn x y r a1 a2 => exact ⟨Or.inr (Or.inr (onArc_ends x y r a2 a1).1), Or.inl hf⟩
  | arct p1 p2 r => exact ⟨Or.inl hc, Or.inl hf⟩
  | multilineto ps =>
    refine ⟨?_, Or.inl hf⟩
    have key : ∀ (ps : List Pt) (cur : Pt), P cur ∨ OnLines cur ps cur → P (ps.getLast?.getD cur) ∨ OnLines cur ps (ps.getLast?.getD cur) := by
      intro ps
      induction ps with
      | nil => intro cur h; exact h
      | cons p ps ih =>
        intro cur _
        right
        cases ps with
        | nil => exact Or.inl (onLine_end _ _)
        | cons q qs =>
          rw [List.getLast?_cons_cons]
          have : ∀ (qs : List Pt) (q p : Pt), OnLines p (q :: qs) (((q :: qs).getLast?).getD cur) := by
            intro qs
            induction qs with
            | nil => intro q p; exact Or.inl (onLine_end _ _)
            | cons q' qs ih => intro q p; rw [List.getLast?_cons_cons]; exact Or.inr (ih q' q)
          exact Or.inr (this qs q p)
    exact key ps c.cur (Or.inl hc)
  | multicurveto ps =>
    refine ⟨?_, Or.inl hf⟩
    have key : ∀ (qs : List (Pt × Pt × Pt)) (q : Pt × Pt × Pt) (p d : Pt), OnCurves p (q :: qs) ((((q :: qs).getLast?).map fun q => q.2.2).getD d) := by
      intro qs
      induction qs with
      | nil => intro q p d; exact Or.inl (onCurve_end _ _ _ _)
      | cons q' qs ih => intro q p d; rw [List.getLast?_cons_cons]; exact Or.inr (ih q' q.2.2 d)
    cases ps with
    | nil => exact Or.inl hc
    | cons q qs => exact Or.inr (key qs q c.cur c.cur)

theorem update_smallest {b : BBox ℝ} {P : Pt → Prop} (h : Smallest b P) (c : Ctx) (hc : P c.cur) (hf : P c.first) (i : PItem) (hr : posRadius i) :
    Smallest (updatebbox b c i) (fun z => P z ∨ Drawn c i z) := by
  cases i with
  | closepath =>
    refine ⟨h.proper, ?_, fun d hd => h.least d fun z hz => hd z (Or.inl hz)⟩
    rintro z (hz | hz)
    · exact h.contains z hz
    · exact mem_line b _ _ z (h.contains _ hc) (h.contains _ hf) hz
  | moveto p => exact smallest_point h p
  | rmoveto d => exact smallest_point h (c.cur + d)
  | lineto p => exact smallest_line h c.cur p hc
  | rlineto d => exact smallest_line h c.cur (c.cur + d) hc
  | curveto p1 p2 p3 => exact smallest_curve h c.cur p1 p2 p3
  | rcurveto d1 d2 d3 => exact smallest_curve h c.cur (c.cur + d1) (c.cur + d2) (c.cur + d3)
  | arc x y r a1 a2 => exact smallest_arc h x y r a1 a2 hr c.cur _ hc (onArc_ends x y r a1 a2).1
  | arcn x y r a1 a2 => exact smallest_arc h x y r a2 a1 hr c.cur _ hc (onArc_ends x y r a2 a1).2
  | arct p1 p2 r => exact h.congr fun z => by simp [Drawn]
  | multilineto ps => exact smallest_lines h c.cur hc ps
  | multicurveto ps => exact smallest_curves h c.cur ps

theorem updates_smallest {b : BBox ℝ} {P : Pt → Prop} (h : Smallest b P) (c : Ctx) (hc : P c.cur) (hf : P c.first) (js : List PItem)
    (hr : ∀ i ∈ js, posRadius i) :
    Smallest (updatebboxes (b, c) js).1 (fun z => P z ∨ DrawnAll c js z) ∧
      (P (js.foldl advance c).cur ∨ DrawnAll c js (js.foldl advance c).cur) ∧ (P (js.foldl advance c).first ∨ DrawnAll c js (js.foldl advance c).first) := by
  induction js generalizing b P c with
  | nil => exact ⟨h.congr fun z => by simp [DrawnAll], Or.inl hc, Or.inl hf⟩
  | cons i is ih =>
    obtain ⟨d1, d2⟩ := drawn_cur c P hc hf i
    obtain ⟨s1, s2, s3⟩ := ih (update_smallest h c hc hf i (hr i List.mem_cons_self)) (advance c i) d1 d2 fun j hj => hr j (List.mem_cons_of_mem _ hj)
    refine ⟨s1.congr fun z => by simp only [DrawnAll, or_assoc], ?_, ?_⟩
    · rw [List.foldl_cons]; simp only [DrawnAll, ← or_assoc]; exact s2
    · rw [List.foldl_cons]; simp only [DrawnAll, ← or_assoc]; exact s3

theorem expand_posRadius (cur : Pt) (i : PItem) (js : List PItem) (h : expand cur i = .ok js) (hr : posRadius i) : ∀ j ∈ js, posRadius j := by
  intro j hj
  cases i with
  | arct p1 p2 r =>
    simp only [expand] at h
    unfold arctItems at h
    simp only at h
    split_ifs at h <;> simp only [Except.ok.injEq] at h <;> subst h <;> simp only [List.mem_cons, List.not_mem_nil, or_false] at hj
    · subst hj; trivial
    · rcases hj with rfl | rfl
      · trivial
      · exact hr
    · rcases hj with rfl | rfl
      · trivial
      · exact hr
    · subst hj; trivial
    · rcases hj with rfl | rfl
      · trivial
      · exact hr
    · rcases hj with rfl | rfl
      · trivial
      · exact hr
  | _ => simp only [expand, Except.ok.injEq] at h; subst h; rw [List.mem_singleton] at hj; subst hj; exact hr

theorem loop_smallest {b q : BBox ℝ} {P : Pt → Prop} (h : Smallest b P) (c : Ctx) (hc : P c.cur) (hf : P c.first) (is : List PItem)
    (hr : ∀ i ∈ is, posRadius i) (hq : bboxLoop (b, c) is = .ok q) : Smallest q (fun z => P z ∨ DrawnPath c is z) := by
  induction is generalizing b P c with
  | nil =>
    simp only [bboxLoop, Except.ok.injEq] at hq
    subst hq
    exact h.congr fun z => by simp [DrawnPath]
  | cons i is ih =>
    simp only [bboxLoop] at hq
    cases he : expand c.cur i with
    | error e => rw [he] at hq; cases hq
    | ok js =>
      rw [he] at hq
      simp only at hq
      have hjs := expand_posRadius c.cur i js he (hr i List.mem_cons_self)
      obtain ⟨s1, s2, s3⟩ := updates_smallest h c hc hf js hjs
      have ha : after c i = js.foldl advance c := by simp only [after, he]
      have hu : updatebboxes (b, c) js = ((updatebboxes (b, c) js).1, after c i) := by
        rw [ha, ← updatebboxes_snd (b, c) js]
      rw [hu] at hq
      rw [← ha] at s2 s3
      have := ih s1 (after c i) s2 s3 (fun j hj => hr j (List.mem_cons_of_mem _ hj)) hq
      refine this.congr fun z => ?_
      simp only [DrawnPath, or_assoc, he, Except.ok.injEq]
      simp

/-- C83: the bounding box of a path is the smallest box around all of its points (and those of its movetos). -/
theorem bbox_smallest (is : List PItem) (hr : ∀ i ∈ is, posRadius i) (q : BBox ℝ) (hq : bbox is = .ok q) : Smallest q (Points is) := by
  cases is with
  | nil =>
    simp only [bbox, Except.ok.injEq] at hq
    subst hq
    exact ⟨fun _ h => (by cases h), fun z h => by simp [Points] at h, fun c _ x y h => h.elim⟩
  | cons i is =>
    have hri := hr i List.mem_cons_self
    have hr' : ∀ j ∈ is, posRadius j := fun j hj => hr j (List.mem_cons_of_mem _ hj)
    have box : ∀ x y r a1 a2, 0 ≤ r → Smallest (some (arcbbox x y r a1 a2)) (OnArc x y r a1 a2) := by
      intro x y r a1 a2 h
      obtain ⟨h1, ⟨z2, d2, h2⟩, ⟨z3, d3, h3⟩, ⟨z4, d4, h4⟩, ⟨z5, d5, h5⟩⟩ := arc_touch x y r a1 a2 h
      refine ⟨?_, fun z hz => h1 z hz, ?_⟩
      · intro q hq
        simp only [Option.some.injEq] at hq
        subst hq
        have := h1 z2 d2
        exact ⟨this.1.trans this.2.1, this.2.2.1.trans this.2.2.2⟩
      · intro c hc
        have m2 := hc z2 d2
        have m3 := hc z3 d3
        have m4 := hc z4 d4
        have m5 := hc z5 d5
        cases c with
        | none => exact m2.elim
        | some c =>
          rintro x' y' ⟨k1, k2, k3, k4⟩
          exact ⟨(h2 ▸ m2.1).trans k1, k2.trans (h4 ▸ m4.2.1), (h3 ▸ m3.2.2.1).trans k3, k4.trans (h5 ▸ m5.2.2.2)⟩
    cases i with
    | moveto p =>
      simp only [bbox, createbbox, createcontext] at hq
      have h0 : Smallest (some ⟨p.1, p.2, p.1, p.2⟩) (fun z => z = p) := by
        refine ⟨?_, ?_, ?_⟩
        · intro q hq
          simp only [Option.some.injEq] at hq
          subst hq
          exact ⟨le_rfl, le_rfl⟩
        · rintro z rfl
          exact ⟨le_rfl, le_rfl, le_rfl, le_rfl⟩
        · rintro c hc x y ⟨h1, h2, h3, h4⟩
          rw [le_antisymm h2 h1, le_antisymm h4 h3]
          exact hc p rfl
      exact loop_smallest h0 ⟨p, p⟩ rfl rfl is hr' hq
    | arc x y r a1 a2 =>
      simp only [bbox, createbbox, createcontext] at hq
      exact loop_smallest (box x y r a1 a2 hri) _ (onArc_ends x y r a1 a2).2 (onArc_ends x y r a1 a2).1 is hr' hq
    | arcn x y r a1 a2 =>
      simp only [bbox, createbbox, createcontext] at hq
      exact loop_smallest (box x y r a2 a1 hri) _ (onArc_ends x y r a2 a1).1 (onArc_ends x y r a2 a1).2 is hr' hq
    | _ => simp [bbox, createbbox] at hq

/-- A path with a box: half a circle and a line. -/
example : ∃ q, bbox [.arc 0 0 1 0 180, .lineto (3, 4)] = .ok q ∧ ∀ i ∈ [PItem.arc 0 0 1 0 180, .lineto (3, 4)], posRadius i := by
  refine ⟨_, rfl, ?_⟩
  simp [posRadius]

end

end PyX.Path
