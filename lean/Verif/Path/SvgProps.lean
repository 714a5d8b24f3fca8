import Verif.Path.RelProps

/-!
# SVG path data (C48, C84)
-/

set_option linter.unusedSectionVars false

namespace PyX.Path

open Real PyX.NormPath

noncomputable section

/-- The commands of the items in a row, the first one with the given flag. -/
def svgOps (inv first : Bool) : List PItem → List SvgOp
  | [] => []
  | i :: is => (itemSVG inv first ⟨0, 0⟩ i).1 ++ svgOps inv false is

theorem svgLoop_ops (inv first : Bool) (c : Ctx) (is : List PItem) (h : ∀ i ∈ is, isArct i = false) :
    svgLoop inv first c is = .ok (svgOps inv first is) := by
  induction is generalizing first c with
  | nil => rfl
  | cons i is ih =>
    simp only [svgLoop, expand_noarct _ i (h i List.mem_cons_self)]
    rw [ih false _ fun j hj => h j (List.mem_cons_of_mem _ hj)]
    simp only [itemsSVG, svgOps, List.append_nil, itemSVG_ctx inv first c ⟨0, 0⟩]

/-! ## Arcs -/

theorem arcpoint_period (x y r a : ℝ) (k : ℤ) : arcpoint x y r (a + k * 360) = arcpoint x y r a := by
  unfold arcpoint
  rw [show radians (a + k * 360) = radians a + k * (2 * π) by simp only [radians]; ring, cos_add_int_mul_two_pi, sin_add_int_mul_two_pi]

theorem svgEndAngle_spec (a1 a2 : ℝ) :
    a1 ≤ svgEndAngle a1 a2 ∧ svgEndAngle a1 a2 < a1 + 720 ∧ (∃ k : ℤ, svgEndAngle a1 a2 = a2 + k * 360) ∧
    ∀ b, ArcEnd a1 a2 b → b ≤ radians a1 + 2 * π → radians (svgEndAngle a1 a2) = b := by
  have hpi := pi_pos
  unfold svgEndAngle
  by_cases h : a2 < a1
  · rw [if_pos h]
    have f1 := Int.floor_le ((a1 - a2) / 360)
    have f2 := Int.lt_floor_add_one ((a1 - a2) / 360)
    rw [le_div_iff₀ (by norm_num)] at f1
    rw [div_lt_iff₀ (by norm_num)] at f2
    refine ⟨by linarith, by linarith, ⟨⌊(a1 - a2) / 360⌋ + 1, by push_cast; ring⟩, ?_⟩
    intro b hb _
    apply arcEnd_unique (angle1 := a1) (angle2 := a2) _ hb
    refine Or.inr ⟨h, radians_lt.mpr (by linarith), ?_, ⌊(a1 - a2) / 360⌋ + 1, by simp only [radians]; push_cast; ring⟩
    have e : radians a1 + 2 * π = radians (a1 + 360) := by simp only [radians]; ring
    rw [e]
    by_contra hc
    push Not at hc
    have := radians_lt.mp hc
    linarith
  · rw [if_neg h]
    push Not at h
    by_cases h2 : a2 > a1 + 360
    · rw [if_pos h2]
      have f1 := Int.floor_le ((a2 - a1) / 360)
      have f2 := Int.lt_floor_add_one ((a2 - a1) / 360)
      rw [le_div_iff₀ (by norm_num)] at f1
      rw [div_lt_iff₀ (by norm_num)] at f2
      refine ⟨by linarith, by linarith, ⟨-(⌊(a2 - a1) / 360⌋ - 1), by push_cast; ring⟩, ?_⟩
      intro b hb hb2
      rcases hb with ⟨_, rfl⟩ | ⟨h5, _⟩
      · have e : radians a1 + 2 * π = radians (a1 + 360) := by simp only [radians]; ring
        rw [e] at hb2
        exact absurd (radians_lt.mpr h2) (not_lt.mpr hb2)
      · linarith
    · rw [if_neg h2]
      push Not at h2
      refine ⟨h, by linarith, ⟨0, by push_cast; ring⟩, ?_⟩
      intro b hb _
      exact arcEnd_unique (Or.inl ⟨h, rfl⟩) hb

theorem svgEnd_point (x y r a1 a2 : ℝ) : arcpoint x y r (svgEndAngle a1 a2) = arcpoint x y r a2 := by
  obtain ⟨_, _, ⟨k, hk⟩, _⟩ := svgEndAngle_spec a1 a2
  rw [hk, arcpoint_period]

/-- What an SVG viewer draws for `A r r 0 large sweep q` from `p`: an arc of a circle of radius `r`, of less than a full turn, from the angle `t1` to the
angle `t2` around the centre; more than half a turn exactly for the large flag (arcs of exactly half a turn are not distinguished), in direction of growing angles exactly for the
sweep flag. -/
structure SvgArc (p q : Pt) (r : ℝ) (large sweep : Bool) (centre : Pt) (t1 t2 : ℝ) : Prop where
  begin_ : p = circlePoint centre.1 centre.2 r t1
  end_ : q = circlePoint centre.1 centre.2 r t2
  turn : |t2 - t1| < 2 * π
  large : large = true ↔ π < |t2 - t1|
  sweep : t1 ≠ t2 → (sweep = true ↔ t1 < t2)

theorem flip_arcpoint (x y r a : ℝ) : flip (arcpoint x y r a) = circlePoint x (-y) r (-radians a) := by
  simp only [flip, arcpoint, circlePoint, cos_neg, sin_neg]
  rw [Prod.mk.injEq]
  exact ⟨by ring, by ring⟩

theorem svgParts_pos (d : ℝ) : 0 < svgParts d := Nat.succ_pos _

theorem svgParts_lt (d : ℝ) (h : 0 ≤ d) : d / svgParts d < 350 := by
  unfold svgParts
  have f2 := Int.lt_floor_add_one (d / 350)
  have f0 : 0 ≤ ⌊d / 350⌋ := Int.floor_nonneg.mpr (by positivity)
  have e : ((⌊d / 350⌋.toNat + 1 : ℕ) : ℝ) = (⌊d / 350⌋ : ℝ) + 1 := by
    have : ((⌊d / 350⌋.toNat + 1 : ℕ) : ℤ) = ⌊d / 350⌋ + 1 := by omega
    exact_mod_cast congrArg (fun z : ℤ => (z : ℝ)) this
  rw [e]
  rw [div_lt_iff₀ (by norm_num)] at f2
  have : (0 : ℝ) ≤ (⌊d / 350⌋ : ℝ) := by exact_mod_cast f0
  rw [div_lt_iff₀ (by linarith)]
  linarith

/-- C84: the arcs written for an arc from `b1` to `b2` degrees (counterclockwise if `b1 ≤ b2`), in the mirrored coordinates of SVG: part `i` is an arc of the circle
around the mirrored centre from the angle `-(b1 + i (b2 - b1) / n)` to `-(b1 + (i + 1) (b2 - b1) / n)`. -/
theorem svgArcs_correct (x y r b1 b2 : ℝ) (sweep : Bool) (hs : b1 ≠ b2 → (sweep = true ↔ b2 < b1)) (i : ℕ) (op : SvgOp)
    (h : (svgArcs true x y r b1 b2 sweep)[i]? = some op) :
    ∃ large q, op = .A r large sweep q ∧ q = flip (arcpoint x y r (b1 + (i + 1) * (b2 - b1) / svgParts |b2 - b1|)) ∧
      SvgArc (flip (arcpoint x y r (b1 + i * (b2 - b1) / svgParts |b2 - b1|))) q r large sweep (x, -y)
        (-radians (b1 + i * (b2 - b1) / svgParts |b2 - b1|)) (-radians (b1 + (i + 1) * (b2 - b1) / svgParts |b2 - b1|)) := by
  have hpi := pi_pos
  simp only [svgArcs, List.getElem?_map, Option.map_eq_some_iff] at h
  obtain ⟨j, hj, rfl⟩ := h
  obtain ⟨h1, h2⟩ := List.getElem?_eq_some_iff.mp hj
  rw [List.getElem_range] at h2
  subst h2
  have hn : (0 : ℝ) < svgParts |b2 - b1| := by exact_mod_cast svgParts_pos _
  have hlt := svgParts_lt |b2 - b1| (abs_nonneg _)
  generalize hN : (svgParts |b2 - b1| : ℝ) = N at *
  have hd : -radians (b1 + (i + 1) * (b2 - b1) / N) - -radians (b1 + i * (b2 - b1) / N) = -((b2 - b1) / N * (π / 180)) := by
    simp only [radians]; field_simp; ring
  have habs : |-((b2 - b1) / N * (π / 180))| = |b2 - b1| / N * (π / 180) := by
    rw [abs_neg, abs_mul, abs_div, abs_of_pos hn, abs_of_pos (show 0 < π / 180 by positivity)]
  refine ⟨_, _, rfl, rfl, flip_arcpoint _ _ _ _, flip_arcpoint _ _ _ _, ?_, ?_, ?_⟩
  · rw [hd, habs]
    have := mul_lt_mul_of_pos_right hlt (show 0 < π / 180 by positivity)
    linarith
  · rw [hd, habs, decide_eq_true_iff]
    constructor
    · intro h3
      have := mul_lt_mul_of_pos_right h3 (show 0 < π / 180 by positivity)
      linarith
    · intro h3
      by_contra hc
      push Not at hc
      have := mul_le_mul_of_nonneg_right hc (show 0 ≤ π / 180 by positivity)
      linarith
  · intro hne
    have hb : b1 ≠ b2 := by
      rintro rfl
      simp at hne
    rw [hs hb]
    have key : 0 < -radians (b1 + (i + 1) * (b2 - b1) / N) - -radians (b1 + i * (b2 - b1) / N) ↔ b2 < b1 := by
      rw [hd]
      constructor
      · intro h3
        by_contra hc
        push Not at hc
        have : 0 ≤ (b2 - b1) / N * (π / 180) := mul_nonneg (div_nonneg (by linarith) hn.le) (by positivity)
        linarith
      · intro h3
        have : 0 < (b1 - b2) / N * (π / 180) := mul_pos (div_pos (by linarith) hn) (by positivity)
        have e : (b1 - b2) / N = -((b2 - b1) / N) := by rw [← neg_div]; ring
        rw [e] at this
        linarith
    rw [← key]
    constructor <;> intro h3 <;> linarith

/-- C84: the last arc ends at the end angle. -/
theorem svgArcs_last (inv : Bool) (x y r b1 b2 : ℝ) (sweep : Bool) :
    ∃ large, (svgArcs inv x y r b1 b2 sweep).getLast? = some (.A r large sweep (flipIf inv (arcpoint x y r b2))) := by
  have hn : (0 : ℝ) < svgParts |b2 - b1| := by exact_mod_cast svgParts_pos _
  obtain ⟨m, hm⟩ : ∃ m, svgParts |b2 - b1| = m + 1 := ⟨_, rfl⟩
  refine ⟨decide (|b2 - b1| / svgParts |b2 - b1| > 180), ?_⟩
  simp only [svgArcs]
  have e : b1 + ((m : ℝ) + 1) * (b2 - b1) / ((m + 1 : ℕ) : ℝ) = b2 := by
    have : ((m : ℝ) + 1) ≠ 0 := by positivity
    push_cast; field_simp; ring
  rw [hm, List.range_succ, List.map_append, List.map_singleton, List.getLast?_append, List.getLast?_singleton, Option.some_or, e]

/-- C84: the commands of an arc: a line (for the first item a move) to the mirrored begin of the arc, and arcs as in `svgArcs_correct` up to the end angle of
the arc (see `ArcEnd`, for arcs of at most a full turn). -/
theorem svg_arc_item (first : Bool) (ctx : Ctx) (x y r a1 a2 b : ℝ) (hb : ArcEnd a1 a2 b) (hb2 : b ≤ radians a1 + 2 * π) :
    ∃ b2, radians b2 = b ∧ (a1 ≠ b2 → (false = true ↔ b2 < a1)) ∧
      (itemSVG true first ctx (.arc x y r a1 a2)).1 =
        (if first then SvgOp.M (flip (arcpoint x y r a1)) else .L (flip (arcpoint x y r a1))) :: svgArcs true x y r a1 b2 false := by
  obtain ⟨h1, -, -, h4⟩ := svgEndAngle_spec a1 a2
  refine ⟨svgEndAngle a1 a2, h4 b hb hb2, fun _ => ⟨fun h => (by cases h), fun h => absurd h (not_lt.mpr h1)⟩, rfl⟩

/-- C84: the same for a clockwise arc, which is the arc from `a2` to `a1` drawn backwards. -/
theorem svg_arcn_item (first : Bool) (ctx : Ctx) (x y r a1 a2 b : ℝ) (hb : ArcEnd a2 a1 b) (hb2 : b ≤ radians a2 + 2 * π) :
    ∃ b1, radians b1 = b ∧ arcpoint x y r b1 = arcpoint x y r a1 ∧ (b1 ≠ a2 → (true = true ↔ a2 < b1)) ∧
      (itemSVG true first ctx (.arcn x y r a1 a2)).1 =
        (if first then SvgOp.M (flip (arcpoint x y r a1)) else .L (flip (arcpoint x y r a1))) :: svgArcs true x y r b1 a2 true := by
  obtain ⟨h1, -, -, h4⟩ := svgEndAngle_spec a2 a1
  refine ⟨svgEndAngle a2 a1, h4 b hb hb2, svgEnd_point x y r a2 a1, fun h => ⟨fun _ => lt_of_le_of_ne h1 h.symm, fun _ => rfl⟩, rfl⟩

/-- A half turn. -/
example : ArcEnd 0 180 (radians 180) ∧ radians 180 ≤ radians 0 + 2 * π := by
  have := pi_pos
  exact ⟨Or.inl ⟨by norm_num, rfl⟩, by simp only [radians]; linarith⟩

/-! ## Drawing -/

/-- The state of the viewer: the current point and begin of the sub-path of the context, mirrored if wanted. -/
def SvgKnows (inv : Bool) (st : PenState) (c : Ctx) : Prop :=
  ∃ s, st = .pen s ∧ s.cur = flipIf inv c.cur ∧ s.start = flipIf inv c.first ∧ (s.fresh = true → s.cur = s.start)

theorem flipIf_add (inv : Bool) (p q : Pt) : flipIf inv (p + q) = flipIf inv p + flipIf inv q := by
  cases inv
  · rfl
  · simp only [flipIf, if_true, Prod.fst_add, Prod.snd_add, Prod.mk_add_mk, neg_add]

theorem foldl_arcs (ops : List SvgOp) (h : ∀ op ∈ ops, ∃ r l w p, op = .A r l w p) (s : Pen) (r : ℝ) (l w : Bool) (p : Pt)
    (hl : ops.getLast? = some (.A r l w p)) :
    ∃ s', ops.foldl svgStep (.pen s) = .pen s' ∧ s'.cur = p ∧ s'.start = s.start ∧ s'.fresh = false := by
  induction ops generalizing s with
  | nil => simp at hl
  | cons op ops ih =>
    obtain ⟨r1, l1, w1, p1, rfl⟩ := h op List.mem_cons_self
    cases ops with
    | nil =>
      simp only [List.getLast?_singleton, Option.some.injEq, SvgOp.A.injEq] at hl
      obtain ⟨_, _, _, rfl⟩ := hl
      exact ⟨_, rfl, rfl, rfl, rfl⟩
    | cons o os =>
      rw [List.getLast?_cons_cons] at hl
      obtain ⟨s', g1, g2, g3, g4⟩ := ih (fun op hop => h op (List.mem_cons_of_mem _ hop)) (s.arcTo r1 l1 w1 p1) hl
      exact ⟨s', g1, g2, g3, g4⟩

theorem svgArcs_mem (inv : Bool) (x y r b1 b2 : ℝ) (sweep : Bool) :
    ∀ op ∈ svgArcs inv x y r b1 b2 sweep, ∃ r l w p, op = .A r l w p := by
  intro op hop
  simp only [svgArcs, List.mem_map] at hop
  obtain ⟨i, _, rfl⟩ := hop
  exact ⟨_, _, _, _, rfl⟩

theorem svg_foldl_L (inv : Bool) (ps : List Pt) (s : Pen) :
    ∃ s', ((ps.map fun p => SvgOp.L (flipIf inv p)).foldl svgStep (.pen s)) = .pen s' ∧
      s'.cur = (ps.getLast?.map (flipIf inv)).getD s.cur ∧ s'.start = s.start ∧ (s'.fresh = true → s' = s) := by
  induction ps generalizing s with
  | nil => exact ⟨s, rfl, rfl, rfl, fun _ => rfl⟩
  | cons p ps ih =>
    obtain ⟨s', h1, h2, h3, h4⟩ := ih (s.lineTo (flipIf inv p))
    refine ⟨s', h1, ?_, h3, fun h => ?_⟩
    swap
    · have := h4 h
      rw [this] at h
      cases h
    rw [h2]
    cases ps with
    | nil => rfl
    | cons q qs => rw [List.getLast?_cons_cons]; simp [List.getLast?_cons]

theorem svg_foldl_C (inv : Bool) (ps : List (Pt × Pt × Pt)) (s : Pen) :
    ∃ s', ((ps.map fun q => SvgOp.C (flipIf inv q.1) (flipIf inv q.2.1) (flipIf inv q.2.2)).foldl svgStep (.pen s)) = .pen s' ∧
      s'.cur = (ps.getLast?.map fun q => flipIf inv q.2.2).getD s.cur ∧ s'.start = s.start ∧ (s'.fresh = true → s' = s) := by
  induction ps generalizing s with
  | nil => exact ⟨s, rfl, rfl, rfl, fun _ => rfl⟩
  | cons p ps ih =>
    obtain ⟨s', h1, h2, h3, h4⟩ := ih (s.curveTo (flipIf inv p.1) (flipIf inv p.2.1) (flipIf inv p.2.2))
    refine ⟨s', h1, ?_, h3, fun h => ?_⟩
    swap
    · have := h4 h
      rw [this] at h
      cases h
    rw [h2]
    cases ps with
    | nil => rfl
    | cons q qs => rw [List.getLast?_cons_cons]; simp [List.getLast?_cons]

theorem arcs_knows (inv : Bool) (s : Pen) (c : Ctx) (h2 : s.start = flipIf inv c.first) (ops : List SvgOp) (x y r b1 b2 a2 : ℝ) (w : Bool)
    (ho : ops = svgArcs inv x y r b1 b2 w) (hp : arcpoint x y r b2 = arcpoint x y r a2) :
    SvgKnows inv (ops.foldl svgStep (.pen s)) ⟨arcpoint x y r a2, c.first⟩ := by
  obtain ⟨l, hl⟩ := svgArcs_last inv x y r b1 b2 w
  rw [← ho] at hl
  obtain ⟨s', g1, g2, g3, g4⟩ := foldl_arcs ops (by rw [ho]; exact svgArcs_mem inv x y r b1 b2 w) s _ _ _ _ hl
  exact ⟨s', g1, by rw [g2, hp], by rw [g3, h2], by rw [g4]; intro h; cases h⟩

/-- The real context (that of PostScript, not the one the SVG methods keep) follows the viewer. -/
theorem svgKnows_step (inv : Bool) (st : PenState) (c : Ctx) (hk : SvgKnows inv st c) (i : PItem) (hi : isArct i = false) :
    SvgKnows inv ((itemSVG inv false ⟨0, 0⟩ i).1.foldl svgStep st) (advance c i) := by
  obtain ⟨s, rfl, h1, h2, h0⟩ := hk
  cases i with
  | closepath =>
    refine ⟨_, rfl, ?_, ?_, ?_⟩ <;> unfold Pen.close <;> split_ifs with hf
    · exact (h0 hf).trans h2
    · exact h2
    · exact h2
    · exact h2
    · exact h0
    · exact fun _ => rfl
  | moveto p => exact ⟨_, rfl, rfl, rfl, fun h => by cases h⟩
  | lineto p => exact ⟨_, rfl, rfl, h2, fun h => by cases h⟩
  | curveto p1 p2 p3 => exact ⟨_, rfl, rfl, h2, fun h => by cases h⟩
  | rmoveto d =>
    exact ⟨_, rfl, by simp only [Pen.moveTo, advance]; rw [h1, flipIf_add], by simp only [Pen.moveTo, advance]; rw [h1, flipIf_add],
      fun h => by cases h⟩
  | rlineto d => exact ⟨_, rfl, by simp only [Pen.lineTo, advance]; rw [h1, flipIf_add], h2, fun h => by cases h⟩
  | rcurveto d1 d2 d3 => exact ⟨_, rfl, by simp only [Pen.curveTo, advance]; rw [h1, flipIf_add], h2, fun h => by cases h⟩
  | arc x y r a1 a2 =>
    simp only [itemSVG, List.foldl_cons]
    exact arcs_knows inv (s.lineTo _) c h2 _ x y r a1 (svgEndAngle a1 a2) a2 false rfl (svgEnd_point x y r a1 a2)
  | arcn x y r a1 a2 =>
    simp only [itemSVG, List.foldl_cons]
    exact arcs_knows inv (s.lineTo _) c h2 _ x y r (svgEndAngle a2 a1) a2 a2 true rfl rfl
  | arct p1 p2 r => simp [isArct] at hi
  | multilineto ps =>
    obtain ⟨s', g1, g2, g3, g4⟩ := svg_foldl_L inv ps s
    refine ⟨s', g1, ?_, by rw [g3, h2]; rfl, fun h => by have e := g4 h; rw [e] at h ⊢; exact h0 h⟩
    rw [g2, h1]
    simp only [advance]
    cases ps.getLast? <;> rfl
  | multicurveto ps =>
    obtain ⟨s', g1, g2, g3, g4⟩ := svg_foldl_C inv ps s
    refine ⟨s', g1, ?_, by rw [g3, h2]; rfl, fun h => by have e := g4 h; rw [e] at h ⊢; exact h0 h⟩
    rw [g2, h1]
    simp only [advance]
    cases ps.getLast? <;> rfl

theorem svg_step_abs (inv : Bool) (st : PenState) (c : Ctx) (hk : SvgKnows inv st c) (i : PItem) :
    (itemSVG inv false ⟨0, 0⟩ (absItem c.cur i)).1.foldl svgStep st = (itemSVG inv false ⟨0, 0⟩ i).1.foldl svgStep st := by
  obtain ⟨s, rfl, h1, h2, h0⟩ := hk
  cases i <;> simp [absItem, itemSVG, svgStep, PenState.need, PenState.moveTo, h1, flipIf_add]

theorem isArct_abs (cur : Pt) (i : PItem) : isArct (absItem cur i) = isArct i := by cases i <;> rfl

theorem isArct_absolute (c : Ctx) (is : List PItem) (h : ∀ i ∈ is, isArct i = false) : ∀ i ∈ absolute c is, isArct i = false := by
  induction is generalizing c with
  | nil => intro i hi; simp [absolute] at hi
  | cons j js ih =>
    intro i hi
    simp only [absolute, List.mem_cons] at hi
    rcases hi with rfl | hi
    · rw [isArct_abs]; exact h j List.mem_cons_self
    · exact ih _ (fun i hi => h i (List.mem_cons_of_mem _ hi)) i hi

theorem after_noarct (c : Ctx) (i : PItem) (h : isArct i = false) : after c i = advance c i := by
  simp only [after, expand_noarct _ i h, List.foldl_cons, List.foldl_nil]

theorem svgOps_abs (inv : Bool) (st : PenState) (c : Ctx) (hk : SvgKnows inv st c) (is : List PItem) (h : ∀ i ∈ is, isArct i = false) :
    (svgOps inv false (absolute c is)).foldl svgStep st = (svgOps inv false is).foldl svgStep st := by
  induction is generalizing st c with
  | nil => rfl
  | cons i is ih =>
    simp only [absolute, svgOps, List.foldl_append]
    have hi := h i List.mem_cons_self
    rw [svg_step_abs inv st c hk i, after_noarct c i hi]
    exact ih _ _ (svgKnows_step inv st c hk i hi) fun j hj => h j (List.mem_cons_of_mem _ hj)

theorem svgKnows_create (inv : Bool) (i : PItem) (c : Ctx) (h : createcontext i = .ok c) :
    SvgKnows inv ((itemSVG inv true ⟨0, 0⟩ i).1.foldl svgStep .empty) c := by
  cases i <;> simp only [createcontext, Except.ok.injEq, reduceCtorEq] at h <;> subst h
  · exact ⟨_, rfl, rfl, rfl, fun h => by cases h⟩
  · rename_i x y r a1 a2
    simp only [itemSVG, List.foldl_cons]
    exact arcs_knows inv ⟨[], flipIf inv (arcpoint x y r a1), [], false, _⟩ ⟨0, arcpoint x y r a1⟩ rfl _ x y r a1 (svgEndAngle a1 a2) a2 false rfl
      (svgEnd_point x y r a1 a2)
  · rename_i x y r a1 a2
    simp only [itemSVG, List.foldl_cons]
    exact arcs_knows inv ⟨[], flipIf inv (arcpoint x y r a1), [], false, _⟩ ⟨0, arcpoint x y r a1⟩ rfl _ x y r (svgEndAngle a2 a1) a2 a2 true rfl rfl

/-- C48: the SVG path data draw the same when the relative items are replaced, for paths without tangent arcs. -/
theorem svg_absolute_partial (inv : Bool) (is : List PItem) (h : ∀ i ∈ is, isArct i = false) (ops : List SvgOp)
    (ho : returnSVGdata inv is = .ok ops) :
    ∃ ops', returnSVGdata inv (absPath is) = .ok ops' ∧ runSVG ops' = runSVG ops := by
  cases is with
  | nil => exact ⟨ops, ho, rfl⟩
  | cons i is =>
    simp only [returnSVGdata] at ho
    cases hc : createcontext i with
    | error e => rw [hc] at ho; simp at ho
    | ok c =>
      rw [hc] at ho
      simp only at ho
      rw [svgLoop_ops inv true c (i :: is) h] at ho
      simp only [Except.ok.injEq] at ho
      subst ho
      refine ⟨svgOps inv true (i :: absolute c is), ?_, ?_⟩
      · simp only [absPath, hc, returnSVGdata]
        apply svgLoop_ops
        intro j hj
        rcases List.mem_cons.mp hj with rfl | hj
        · exact h _ List.mem_cons_self
        · exact isArct_absolute c is (fun i hi => h i (List.mem_cons_of_mem _ hi)) j hj
      · simp only [runSVG, svgOps, List.foldl_append]
        exact svgOps_abs inv _ c (svgKnows_create inv i c hc) is fun j hj => h j (List.mem_cons_of_mem _ hj)

/-! ## The same figures as in PostScript -/

/-- Items other than arcs. -/
def isPlain : PItem → Bool
  | .arc _ _ _ _ _ => false
  | .arcn _ _ _ _ _ => false
  | .arct _ _ _ => false
  | _ => true

def Pen.image (f : Pt → Pt) (s : Pen) : Pen := ⟨s.done.map (Figure.image f), f s.start, s.draws.map (Draw.image f), s.fresh, f s.cur⟩

def PenState.image (f : Pt → Pt) : PenState → PenState
  | .empty => .empty
  | .pen s => .pen (s.image f)
  | .error => .error

theorem Pen.image_figures (f : Pt → Pt) (s : Pen) : (s.image f).figures = s.figures.map (Figure.image f) := by
  obtain ⟨done, start, draws, fresh, cur⟩ := s
  simp only [Pen.figures, Pen.image]
  cases draws with
  | nil => simp
  | cons d ds => simp [Figure.image]

theorem Pen.image_close (f : Pt → Pt) (s : Pen) : (s.image f).close = s.close.image f := by
  unfold Pen.close
  by_cases h : s.fresh = true
  · simp [Pen.image, h]
  · simp [Pen.image, h, Figure.image]

theorem Pen.image_lineTo (f : Pt → Pt) (s : Pen) (p : Pt) : (s.image f).lineTo (f p) = (s.lineTo p).image f := by
  simp [Pen.lineTo, Pen.image, Draw.image]

theorem Pen.image_curveTo (f : Pt → Pt) (s : Pen) (p1 p2 p3 : Pt) : (s.image f).curveTo (f p1) (f p2) (f p3) = (s.curveTo p1 p2 p3).image f := by
  simp [Pen.curveTo, Pen.image, Draw.image]

theorem Pen.image_moveTo (f : Pt → Pt) (s : Pen) (p : Pt) : (s.image f).moveTo (f p) = (s.moveTo p).image f := by
  simp only [Pen.moveTo, Pen.image_figures]
  rfl

theorem svg_foldl_lines (inv : Bool) (A : Arcs) (ps : List Pt) (s : Pen) :
    (ps.map fun p => SvgOp.L (flipIf inv p)).foldl svgStep (.pen (s.image (flipIf inv))) =
      ((ps.map PsOp.lineto).foldl (psStep A) (.pen s)).image (flipIf inv) := by
  induction ps generalizing s with
  | nil => rfl
  | cons p ps ih =>
    simp only [List.map_cons, List.foldl_cons, svgStep, psStep, PenState.need, Pen.image_lineTo]
    exact ih _

theorem svg_foldl_curves (inv : Bool) (A : Arcs) (ps : List (Pt × Pt × Pt)) (s : Pen) :
    (ps.map fun q => SvgOp.C (flipIf inv q.1) (flipIf inv q.2.1) (flipIf inv q.2.2)).foldl svgStep (.pen (s.image (flipIf inv))) =
      ((ps.map fun q => PsOp.curveto q.1 q.2.1 q.2.2).foldl (psStep A) (.pen s)).image (flipIf inv) := by
  induction ps generalizing s with
  | nil => rfl
  | cons p ps ih =>
    simp only [List.map_cons, List.foldl_cons, svgStep, psStep, PenState.need, Pen.image_curveTo]
    exact ih _

theorem svg_item_image (inv : Bool) (A : Arcs) (i : PItem) (h : isPlain i = true) (s : Pen) :
    (itemSVG inv false ⟨0, 0⟩ i).1.foldl svgStep (.pen (s.image (flipIf inv))) =
      ((itemPS i).foldl (psStep A) (.pen s)).image (flipIf inv) := by
  cases i with
  | closepath => simp only [itemSVG, itemPS, List.foldl_cons, List.foldl_nil, svgStep, psStep, PenState.need, PenState.close, PenState.image, Pen.image_close]
  | moveto p => simp only [itemSVG, itemPS, List.foldl_cons, List.foldl_nil, svgStep, psStep, PenState.moveTo, PenState.image, Pen.image_moveTo]
  | lineto p => simp only [itemSVG, itemPS, List.foldl_cons, List.foldl_nil, svgStep, psStep, PenState.need, PenState.image, Pen.image_lineTo]
  | curveto p1 p2 p3 => simp only [itemSVG, itemPS, List.foldl_cons, List.foldl_nil, svgStep, psStep, PenState.need, PenState.image, Pen.image_curveTo]
  | rmoveto d =>
    simp only [itemSVG, itemPS, List.foldl_cons, List.foldl_nil, svgStep, psStep, PenState.need, PenState.image]
    rw [← Pen.image_moveTo, flipIf_add]; rfl
  | rlineto d =>
    simp only [itemSVG, itemPS, List.foldl_cons, List.foldl_nil, svgStep, psStep, PenState.need, PenState.image]
    rw [← Pen.image_lineTo, flipIf_add]; rfl
  | rcurveto d1 d2 d3 =>
    simp only [itemSVG, itemPS, List.foldl_cons, List.foldl_nil, svgStep, psStep, PenState.need, PenState.image]
    rw [← Pen.image_curveTo, flipIf_add, flipIf_add, flipIf_add]; rfl
  | multilineto ps => exact svg_foldl_lines inv A ps s
  | multicurveto ps => exact svg_foldl_curves inv A ps s
  | arc x y r a1 a2 => cases h
  | arcn x y r a1 a2 => cases h
  | arct p1 p2 r => cases h

theorem ps_plain_pen (A : Arcs) (i : PItem) (s : Pen) : ∃ s', (itemPS i).foldl (psStep A) (.pen s) = .pen s' := by
  cases i with
  | multilineto ps => obtain ⟨s', h, -⟩ := foldl_lineto A ps s; exact ⟨s', h⟩
  | multicurveto ps => obtain ⟨s', h, -⟩ := foldl_curveto A ps s; exact ⟨s', h⟩
  | _ => exact ⟨_, rfl⟩

theorem svg_items_image (inv : Bool) (A : Arcs) (is : List PItem) (h : ∀ i ∈ is, isPlain i = true) (s : Pen) :
    ∃ s', (outputPS is).foldl (psStep A) (.pen s) = .pen s' ∧ (svgOps inv false is).foldl svgStep (.pen (s.image (flipIf inv))) = .pen (s'.image (flipIf inv)) := by
  induction is generalizing s with
  | nil => exact ⟨s, rfl, rfl⟩
  | cons i is ih =>
    obtain ⟨s1, h1⟩ := ps_plain_pen A i s
    have h2 := svg_item_image inv A i (h i List.mem_cons_self) s
    rw [h1] at h2
    obtain ⟨s2, h3, h4⟩ := ih (fun j hj => h j (List.mem_cons_of_mem _ hj)) s1
    refine ⟨s2, ?_, ?_⟩
    · simp only [outputPS, List.flatMap_cons, List.foldl_append, h1]
      exact h3
    · simp only [svgOps, List.foldl_append, h2]
      exact h4

/-- C84: the SVG path data of a path without arcs draw the figures of the PostScript operators, mirrored if wanted. -/
theorem svg_eq_ps_partial (inv : Bool) (A : Arcs) (p : Pt) (is : List PItem) (h : ∀ i ∈ is, isPlain i = true) :
    ∃ ops, returnSVGdata inv (.moveto p :: is) = .ok ops ∧
      (runSVG ops).figures = (runPS A (outputPS (.moveto p :: is))).figures.map (Figure.image (flipIf inv)) ∧ runSVG ops ≠ .error := by
  have hall : ∀ i ∈ PItem.moveto p :: is, isArct i = false := by
    intro i hi
    rcases List.mem_cons.mp hi with rfl | hi
    · rfl
    · have := h i hi
      cases i <;> simp_all [isPlain, isArct]
  obtain ⟨s', h1, h2⟩ := svg_items_image inv A is h ⟨[], p, [], false, p⟩
  refine ⟨svgOps inv true (.moveto p :: is), ?_, ?_⟩
  · simp only [returnSVGdata, createcontext]
    exact svgLoop_ops inv true _ _ hall
  · have e1 : runPS A (outputPS (.moveto p :: is)) = .pen s' := by
      simp only [runPS, outputPS, List.flatMap_cons, List.foldl_append]
      exact h1
    have e2 : runSVG (svgOps inv true (.moveto p :: is)) = .pen (s'.image (flipIf inv)) := by
      simp only [runSVG, svgOps, List.foldl_append]
      exact h2
    rw [e1, e2]
    exact ⟨Pen.image_figures _ _, by simp⟩

/-- A path as assumed, with a sub-path begun by closing the previous one. -/
example : ∀ i ∈ [PItem.lineto (1, 0), .rlineto (0, 1), .closepath, .rcurveto (1, 0) (2, 1) (1, 1), .multilineto [(1, 2), (3, 4)]], isPlain i = true := by
  simp [isPlain]

end

end PyX.Path
