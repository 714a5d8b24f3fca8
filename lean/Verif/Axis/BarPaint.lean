import Verif.Axis.PaintProps
import Verif.Graph.GraphXYProps

/-!
# Model of the painters of bar and split axes (`pyx/graph/axis/painter.py:308-440`)

See `Verif.Axis.Paint` for conventions.  `bar.paint` repeats the alignment of labels of `regular.paint` for the names of the subaxes;
here it is reused, with each name being a tick with a label.
-/

set_option linter.unusedSectionVars false

namespace PyX.Axis.Paint

open PyX.Box

noncomputable section

/-- The painter `bar` (`painter.py:303-325`); tick lengths and attributes are not selected by levels. -/
structure BarPainter (A B : Type) where
  inner : Option ℝ
  outer : Option ℝ
  tickattrs : Option A
  base : Option A
  namedist : ℝ
  nameattrs : Option B
  namepos : ℝ
  hequal : Bool
  vequal : Bool
  titledist : ℝ
  titleattrs : Option B
  titlepos : ℝ

/-- A subaxis of a bar axis: its name and the range (`axis.py:457-477`). -/
structure SubAxis (L : Type) where
  name : L
  vmin : ℝ
  vmax : ℝ
  vminover : ℝ

variable {L A B G : Type} (text : Pt → Pt → L → B → Polygon) (p : BarPainter A B) (pos : Pos G)

/-- The names as labels (`painter.py:335-341`). -/
def BarPainter.names (subs : List (SubAxis L)) : List (Tick L) :=
  subs.map fun n => ⟨n.vmin + p.namepos * (n.vmax - n.vmin), none, some 0, n.name⟩

/-- The painter of the names, with `labeldist_pt = canvas.extent_pt + namedist` (`painter.py:342-361`). -/
def BarPainter.labels (e : ℝ) : Painter A B :=
  { inner := fun _ _ => none, outer := fun _ _ => none, tickattrs := none, gridattrs := none, base := none,
    labeldist := e + p.namedist, labelattrs := p.nameattrs.map fun b _ _ => some b, hequal := p.hequal, vequal := p.vequal,
    titledist := p.titledist, titleattrs := p.titleattrs, titlepos := p.titlepos }

/-- The base line (`painter.py:362-365`). -/
def BarPainter.drawBase (s : State A G) : State A G :=
  match p.base with
  | none => s
  | some a => { s with items := s.items ++ [.base a] }

/-- `if canvas.extent_pt < e: canvas.extent_pt = e`, if there is a length. -/
def larger? (a : ℝ) : Option ℝ → ℝ
  | none => a
  | some b => larger a b

/-- The ticks between the subaxes (`painter.py:366-387`). -/
def BarPainter.drawTicks (subs : List (SubAxis L)) (s : State A G) : State A G :=
  match p.tickattrs with
  | none => s
  | some a =>
    if p.inner.isNone && p.outer.isNone then s
    else
      let i := p.inner.getD 0
      let o := p.outer.getD 0
      { s with extent := larger? (larger? s.extent (p.inner.map (-·))) p.outer,
               items := s.items ++ (subs.map SubAxis.vminover ++ [1]).map fun v =>
                 .tick ((pos.point v).1 + (pos.dir v).1 * i, (pos.point v).2 + (pos.dir v).2 * i)
                   ((pos.point v).1 - (pos.dir v).1 * o, (pos.point v).2 - (pos.dir v).2 * o) a }

/-- `bar.paint` (`painter.py:333-394`) on the canvas `s` with the subaxes (`axis.py:486-489`). The list of labels of the canvas is not changed. -/
def barPaint (subs : List (SubAxis L)) (title : Option L) (s : State A G) : Except PErr (State A G) :=
  let q := p.labels s.extent
  let ts := p.names subs
  match align q pos ts (ts.map (labelBox text q pos (maxlabellevel ts))) with
  | .error e => .error e
  | .ok bs =>
    match (ts.zip bs).foldlM (drawOne q pos (maxticklevel ts)) (p.drawTicks pos subs (p.drawBase s)) with
    | .error e => .error e
    | .ok s' => drawTitle text pos p.titledist p.titlepos p.titleattrs title { s' with labels := s.labels }

/-- `rotate(angle, *o)` with cosine `c` and sine `s` of the angle (`trafo.py`, see C07). -/
def rotAbout (c s : ℝ) (o q : Pt) : Pt := (o.1 + c * (q.1 - o.1) - s * (q.2 - o.2), o.2 + s * (q.1 - o.1) + c * (q.2 - o.2))

/-- The two break lines of `split.paint` (`painter.py:431-441`) at the point `x` with tangent `u` (of length one), for the angle with cosine `c` and sine `s`. -/
def breaklines (x u : Pt) (len dist c s : ℝ) : (Pt × Pt) × (Pt × Pt) :=
  let breakline : Pt × Pt := (x, x + len • u)
  let widthline : Pt × Pt := (rotAbout (-s) c x x, rotAbout (-s) c x (x + dist • u))
  let tocenter : Pt := (1 / 2 : ℝ) • (breakline.1 - breakline.2)
  let towidth : Pt := (1 / 2 : ℝ) • (widthline.1 - widthline.2)
  let b : Pt × Pt := (rotAbout c s x (breakline.1 + tocenter), rotAbout c s x (breakline.2 + tocenter))
  ((b.1 + towidth, b.2 + towidth), (b.1 - towidth, b.2 - towidth))

/-- `breaklinesextent_pt` (`painter.py:425-426`). -/
def breakextent (len dist c s : ℝ) : ℝ := 1 / 2 * dist * |c| + 1 / 2 * len * |s|

/-! ## Theorems -/

/-- **C114, break lines.** The two break lines have the length and the distance asked for, they are parallel to the axis rotated by the angle, the point of the axis is in the middle between
them; and the area between them reaches to both sides of the axis by the extent reserved for it at most. -/
theorem breaklines_spec (x u d : Pt) (len dist c s : ℝ) (hcs : c ^ 2 + s ^ 2 = 1) (hu : dot u u = 1) (hd : dot d d = 1) (hud : dot u d = 0) (hl : 0 ≤ len) (hdist : 0 ≤ dist) :
    let b := breaklines x u len dist c s
    (b.1.2 - b.1.1 = len • rotAbout c s 0 u ∧ b.2.2 - b.2.1 = len • rotAbout c s 0 u) ∧
    (dot (b.2.1 - b.1.1) (b.2.1 - b.1.1) = dist ^ 2 ∧ dot (b.2.1 - b.1.1) (rotAbout c s 0 u) = 0) ∧
    b.1.1 + b.1.2 + b.2.1 + b.2.2 = (4 : ℝ) • x ∧
    ∀ y ∈ convexHull ℝ {q | q = b.1.1 ∨ q = b.1.2 ∨ q = b.2.1 ∨ q = b.2.2}, |dot (y - x) d| ≤ breakextent len dist c s := by
  obtain ⟨u1, u2⟩ := u
  obtain ⟨d1, d2⟩ := d
  obtain ⟨x1, x2⟩ := x
  simp only [dot] at hu hd hud
  have hk : ∃ k : ℝ, (k = 1 ∨ k = -1) ∧ d1 = -k * u2 ∧ d2 = k * u1 := by
    refine ⟨u1 * d2 - u2 * d1, ?_, ?_, ?_⟩
    · have : (u1 * d2 - u2 * d1) * (u1 * d2 - u2 * d1) = 1 := by nlinarith
      rcases mul_self_eq_one_iff.1 this with h | h
      · exact Or.inl h
      · exact Or.inr h
    · linear_combination (-d1) * hu + u1 * hud
    · linear_combination (-d2) * hu + u2 * hud
  obtain ⟨k, hk, rfl, rfl⟩ := hk
  refine ⟨⟨?_, ?_⟩, ⟨?_, ?_⟩, ?_, ?_⟩
  · ext <;> simp [breaklines, rotAbout] <;> ring
  · ext <;> simp [breaklines, rotAbout] <;> ring
  · simp [breaklines, rotAbout, dot]
    linear_combination (dist ^ 2 * (c ^ 2 + s ^ 2)) * hu + dist ^ 2 * hcs
  · simp [breaklines, rotAbout, dot]; ring
  · ext <;> simp [breaklines, rotAbout] <;> ring
  · intro y hy
    have hconv : ∀ q, (q = (breaklines (x1, x2) (u1, u2) len dist c s).1.1 ∨ q = (breaklines (x1, x2) (u1, u2) len dist c s).1.2 ∨
        q = (breaklines (x1, x2) (u1, u2) len dist c s).2.1 ∨ q = (breaklines (x1, x2) (u1, u2) len dist c s).2.2) →
        |dot (q - (x1, x2)) (-k * u2, k * u1)| ≤ breakextent len dist c s := by
      have hkk : |k| = 1 := by rcases hk with rfl | rfl <;> simp
      have habs : ∀ a b : ℝ, (a = 1 / 2 * len ∨ a = -(1 / 2 * len)) → (b = 1 / 2 * dist ∨ b = -(1 / 2 * dist)) →
          |k * (a * s + b * c)| ≤ breakextent len dist c s := by
        intro a b ha hb
        have h1 : |a| = 1 / 2 * len := by rcases ha with rfl | rfl <;> simp [abs_of_nonneg hl]
        have h2 : |b| = 1 / 2 * dist := by rcases hb with rfl | rfl <;> simp [abs_of_nonneg hdist]
        rw [abs_mul, hkk, one_mul]
        refine (abs_add_le _ _).trans ?_
        rw [abs_mul, abs_mul, h1, h2]
        unfold breakextent
        linarith
      rintro q (rfl | rfl | rfl | rfl)
      · convert habs (-(1 / 2 * len)) (-(1 / 2 * dist)) (Or.inr rfl) (Or.inr rfl) using 2
        simp [breaklines, rotAbout, dot]
        linear_combination (-k * (1 / 2 * len * s + 1 / 2 * dist * c)) * hu
      · convert habs (1 / 2 * len) (-(1 / 2 * dist)) (Or.inl rfl) (Or.inr rfl) using 2
        simp [breaklines, rotAbout, dot]
        linear_combination (k * (1 / 2 * len * s - 1 / 2 * dist * c)) * hu
      · convert habs (-(1 / 2 * len)) (1 / 2 * dist) (Or.inr rfl) (Or.inl rfl) using 2
        simp [breaklines, rotAbout, dot]
        linear_combination (-k * (1 / 2 * len * s - 1 / 2 * dist * c)) * hu
      · convert habs (1 / 2 * len) (1 / 2 * dist) (Or.inl rfl) (Or.inl rfl) using 2
        simp [breaklines, rotAbout, dot]
        linear_combination (k * (1 / 2 * len * s + 1 / 2 * dist * c)) * hu
    set b := breaklines (x1, x2) (u1, u2) len dist c s with hb
    set P : Polygon := ⟨[b.1.1, b.1.2, b.2.1, b.2.2], 0⟩ with hP
    have hset : {q | q = b.1.1 ∨ q = b.1.2 ∨ q = b.2.1 ∨ q = b.2.2} = {q | q ∈ P.corners} := by
      ext q; simp [hP]
    rw [hset] at hy
    have hc : ∀ q ∈ P.corners, |dot (q - (x1, x2)) (-k * u2, k * u1)| ≤ breakextent len dist c s := by
      intro q hq
      exact hconv q (by simpa [hP] using hq)
    have e : ∀ q : Pt, dot (q - (x1, x2)) (-k * u2, k * u1) = dot q (-k * u2, k * u1) - dot (x1, x2) (-k * u2, k * u1) := fun q => dot_sub_pt _ _ _
    have h1 := hull_le P (-k * u2, k * u1) (breakextent len dist c s + dot (x1, x2) (-k * u2, k * u1)) (by
      intro q hq
      have := (abs_le.1 (hc q hq)).2
      rw [e] at this
      linarith) y hy
    have h2 := le_hull P (-k * u2, k * u1) (-breakextent len dist c s + dot (x1, x2) (-k * u2, k * u1)) (by
      intro q hq
      have := (abs_le.1 (hc q hq)).1
      rw [e] at this
      linarith) y hy
    rw [e, abs_le]
    exact ⟨by linarith, by linarith⟩

/-- Break lines of length 2 and distance 1 with the angle 90 degrees. -/
example : breaklines (0, 0) (1, 0) 2 1 0 1 = (((1 / 2, -1), (1 / 2, 1)), ((-1 / 2, -1), (-1 / 2, 1))) := by
  norm_num [breaklines, rotAbout]

theorem larger?_left (a : ℝ) (o : Option ℝ) : a ≤ larger? a o := by
  cases o with
  | none => exact le_rfl
  | some b => exact larger_left a b

theorem larger?_right (a b : ℝ) : b ≤ larger? a (some b) := larger_right a b

/-- The ticks of a bar axis. -/
theorem barTicks_spec (subs : List (SubAxis L)) (s : State A G) :
    (∀ x, x ∈ (p.drawTicks pos subs s).items ↔ x ∈ s.items ∨ ∃ a v, p.tickattrs = some a ∧ ¬ (p.inner = none ∧ p.outer = none) ∧
      (v = 1 ∨ ∃ n ∈ subs, v = n.vminover) ∧ x = .tick (pos.point v + p.inner.getD 0 • pos.dir v) (pos.point v - p.outer.getD 0 • pos.dir v) a) ∧
    s.extent ≤ (p.drawTicks pos subs s).extent ∧
    (p.tickattrs ≠ none → (∀ i, p.inner = some i → -i ≤ (p.drawTicks pos subs s).extent) ∧ ∀ o, p.outer = some o → o ≤ (p.drawTicks pos subs s).extent) := by
  have e1 : ∀ v, (pos.point v + p.inner.getD 0 • pos.dir v : Pt) =
      ((pos.point v).1 + (pos.dir v).1 * p.inner.getD 0, (pos.point v).2 + (pos.dir v).2 * p.inner.getD 0) := by
    intro v; ext <;> simp [mul_comm]
  have e2 : ∀ v, (pos.point v - p.outer.getD 0 • pos.dir v : Pt) =
      ((pos.point v).1 - (pos.dir v).1 * p.outer.getD 0, (pos.point v).2 - (pos.dir v).2 * p.outer.getD 0) := by
    intro v; ext <;> simp [mul_comm]
  simp only [e1, e2]
  unfold BarPainter.drawTicks
  cases ha : p.tickattrs with
  | none => exact ⟨by simp, le_rfl, by simp⟩
  | some a =>
    by_cases hn : p.inner = none ∧ p.outer = none
    · rw [hn.1, hn.2]
      exact ⟨by simp, le_rfl, by simp⟩
    · have : (p.inner.isNone && p.outer.isNone) = false := by
        cases h1 : p.inner <;> cases h2 : p.outer <;> simp_all
      simp only [this]
      refine ⟨?_, ?_, fun _ => ⟨?_, ?_⟩⟩
      · intro x
        simp only [Bool.false_eq_true, if_false, List.mem_append, List.mem_map, List.mem_singleton]
        constructor
        · rintro (h | ⟨v, (⟨n, hn', rfl⟩ | rfl), rfl⟩)
          · exact Or.inl h
          · exact Or.inr ⟨a, n.vminover, rfl, hn, Or.inr ⟨n, hn', rfl⟩, rfl⟩
          · exact Or.inr ⟨a, 1, rfl, hn, Or.inl rfl, rfl⟩
        · rintro (h | ⟨a', v, h1, -, (rfl | ⟨n, hn', rfl⟩), rfl⟩)
          · exact Or.inl h
          · cases h1; exact Or.inr ⟨1, Or.inr rfl, rfl⟩
          · cases h1; exact Or.inr ⟨n.vminover, Or.inl ⟨n, hn', rfl⟩, rfl⟩
      · exact (larger?_left _ _).trans (larger?_left _ _)
      · intro i hi
        simp only [hi, Option.map_some]
        exact (larger?_right _ _).trans (larger?_left _ _)
      · intro o ho
        simp only [ho]
        exact larger?_right _ _

/-- **C114, bar axes.** There is one name for each subaxis, at the fraction `namepos` of the way from its lower to its upper end; so it is beside the subaxis. -/
theorem bar_names (subs : List (SubAxis L)) :
    List.Forall₂ (fun (n : SubAxis L) (t : Tick L) => t.label = n.name ∧ t.v = (1 - p.namepos) * n.vmin + p.namepos * n.vmax ∧
      (0 ≤ p.namepos → p.namepos ≤ 1 → n.vmin ≤ n.vmax → n.vmin ≤ t.v ∧ t.v ≤ n.vmax)) subs (p.names subs) := by
  unfold BarPainter.names
  rw [List.forall₂_map_right_iff, List.forall₂_same]
  intro n _
  refine ⟨rfl, by ring, fun h0 h1 h => ⟨?_, ?_⟩⟩
  · have := mul_nonneg h0 (sub_nonneg.2 h)
    show n.vmin ≤ n.vmin + p.namepos * (n.vmax - n.vmin)
    linarith
  · have := mul_nonneg (sub_nonneg.2 h1) (sub_nonneg.2 h)
    show n.vmin + p.namepos * (n.vmax - n.vmin) ≤ n.vmax
    linarith

/-- **C114, bar axes.** The names of the subaxes are beyond everything painted for the subaxes before, with the distance `namedist` at least; ticks are drawn between the subaxes
and at the end; the title is beyond everything else; and the extent covers everything (if names are not equalized or one of them has all the height and depth). -/
theorem bar_extent_partial (subs : List (SubAxis L)) (title : Option L) (s : State A G) (hf : Fine text (p.labels s.extent) pos (p.names subs))
    (ht : TitleFine text (p.labels s.extent) pos title) (d : Pt) (h0 : ℝ) (hs : Straight pos d h0)
    (hu : Equalize (p.labels s.extent) pos (p.names subs) → Uniform text (p.labels s.extent) pos (p.names subs) d) (htd : 0 ≤ p.titledist)
    (hse : 0 ≤ s.extent) (hsb : ∀ x ∈ s.items, ∀ y ∈ region pos x, dot y (-d) - h0 ≤ s.extent) (hst : ∀ Q, .title Q ∉ s.items) :
    ∃ (s' : State A G) (c : Tick L → ℝ), barPaint text p pos subs title s = .ok s' ∧ (∀ x ∈ s.items, x ∈ s'.items) ∧ s'.labels = s.labels ∧
      (∀ x ∈ s'.items, ∀ y ∈ region pos x, dot y (-d) - h0 ≤ s'.extent) ∧
      (∀ Q, .label Q ∈ s'.items ↔ .label Q ∈ s.items ∨ ∃ t ∈ p.names subs, ∃ Q0, Labelled text (p.labels s.extent) pos (p.names subs) t Q0 ∧ Q = moved Q0 (-(c t • d))) ∧
      (∀ t ∈ p.names subs, ∀ Q0, Labelled text (p.labels s.extent) pos (p.names subs) t Q0 → ∀ y ∈ convexHull ℝ {q | q ∈ (moved Q0 (-(c t • d))).corners},
        (∀ x ∈ s.items, ∀ z ∈ region pos x, dot z (-d) + p.namedist ≤ dot y (-d)) ∧ s.extent + p.namedist ≤ dot y (-d) - h0) ∧
      (∀ q r a, .tick q r a ∈ s'.items ↔ .tick q r a ∈ s.items ∨ p.tickattrs = some a ∧ ¬ (p.inner = none ∧ p.outer = none) ∧
        ∃ v, (v = 1 ∨ ∃ n ∈ subs, v = n.vminover) ∧ q = pos.point v + p.inner.getD 0 • pos.dir v ∧ r = pos.point v - p.outer.getD 0 • pos.dir v) ∧
      ((∃ Q, .title Q ∈ s'.items) ↔ title.isSome = true ∧ p.titleattrs.isSome = true) ∧
      (∀ Q, .title Q ∈ s'.items → ∀ y ∈ region pos (.title Q : Item A G), ∀ x ∈ s'.items, (∀ Q', x ≠ .title Q') → ∀ z ∈ region pos x,
        dot z (-d) + p.titledist ≤ dot y (-d)) := by
  set q := p.labels s.extent with hq
  set ts := p.names subs with hts
  have hbi : ∀ x, x ∈ (p.drawBase s).items ↔ x ∈ s.items ∨ ∃ a, p.base = some a ∧ x = .base a := by
    intro x
    unfold BarPainter.drawBase
    cases h : p.base <;> simp
  have hbe : (p.drawBase s).extent = s.extent := by
    unfold BarPainter.drawBase
    cases h : p.base <;> rfl
  obtain ⟨hti, hte, htl⟩ := barTicks_spec p pos subs (p.drawBase s)
  rw [hbe] at hte
  set s1 := p.drawTicks pos subs (p.drawBase s) with hs1
  have hdd : dot d (-d) = -1 := by rw [dot_neg_pt, hs.one]
  have hs1b : ∀ x ∈ s1.items, (∀ Q', x ≠ .title Q') ∧ ∀ y ∈ region pos x, dot y (-d) - h0 ≤ s1.extent := by
    intro x hx
    rcases (hti x).1 hx with hx | ⟨a, v, ha, hn, -, rfl⟩
    · rcases (hbi x).1 hx with hx | ⟨a, -, rfl⟩
      · refine ⟨?_, fun y hy => (hsb x hx y hy).trans hte⟩
        rintro Q' rfl
        exact hst Q' hx
      · refine ⟨by simp, ?_⟩
        rintro y ⟨v, rfl⟩
        rw [hs.point]; linarith
    · refine ⟨by simp, ?_⟩
      intro y hy
      have hI : -(p.inner.getD 0) ≤ s1.extent := by
        cases h : p.inner with
        | none => simp; linarith
        | some i => exact (htl (by simp [ha])).1 i h
      have hO : p.outer.getD 0 ≤ s1.extent := by
        cases h : p.outer with
        | none => simp; linarith
        | some o => exact (htl (by simp [ha])).2 o h
      have := segment_le _ _ (-d) (s1.extent + h0) (by
        rw [dot_add_pt, dot_smul_pt, hs.point, hs.dir, hdd]; linarith) (by
        rw [dot_sub_pt, dot_smul_pt, hs.point, hs.dir, hdd]; linarith) y hy
      linarith
  obtain ⟨c, hal, hc1, hc2, hc3⟩ := align_ok text q pos ts hf
  obtain ⟨s2, hss, hi, -, hext, hr1, -⟩ := draw_ok q pos (maxticklevel ts) (placed text q pos ts c) ts s1 hf.grid (by
      intro t ht
      unfold placed labelBox
      rw [Option.map_eq_none_iff]
      cases hl : t.labellevel with
      | none => simp
      | some l =>
        cases hsel : q.labelattrs with
        | none => simp
        | some sel =>
          obtain ⟨b, hb, -⟩ := hf.label t ht l sel hl hsel
          simp [hb]) (by
      intro t ht Q hQ
      unfold placed at hQ
      obtain ⟨Q0, hQ0, rfl⟩ := Option.map_eq_some_iff.1 hQ
      have hg := good_moved (shift (pos.dir t.v) (c t)) (labelled_good text q pos ts hf t ht Q0 ((labelBox_iff text q pos ts t Q0).1 hQ0)).2
      obtain ⟨a, -, b, -, he, -⟩ := extent_partial hg.1 hg.2.1 (pos.dir t.v) (hf.dir t ht) hg.2.2
      exact ⟨_, he⟩)
  obtain ⟨hin, -⟩ := loop_extent text q pos ts hf d h0 hs hu c hc1 hc2 hc3 s2.extent hr1
  have hnew : ∀ t x, New q pos (maxticklevel ts) t (placed text q pos ts c t) x → ∃ Q0, Labelled text q pos ts t Q0 ∧ x = .label (moved Q0 (-(c t • d))) := by
    intro t x hx
    cases hx with
    | tick i o a hm =>
      obtain ⟨l, sel, -, h, -⟩ := hm
      rw [hq] at h
      cases h
    | grid sel a h =>
      rw [hq] at h
      cases h
    | label Q hQ =>
      unfold placed at hQ
      obtain ⟨Q0, h0, rfl⟩ := Option.map_eq_some_iff.1 hQ
      exact ⟨Q0, (labelBox_iff text q pos ts t Q0).1 h0, by rw [shift_eq, hs.dir]⟩
  have hall : ∀ x ∈ s2.items, (∀ Q', x ≠ .title Q') ∧ ∀ y ∈ region pos x, dot y (-d) - h0 ≤ s2.extent := by
    intro x hx
    rcases (hi x).1 hx with hx | ⟨t, ht, hx⟩
    · exact ⟨(hs1b x hx).1, fun y hy => ((hs1b x hx).2 y hy).trans hext⟩
    · refine ⟨?_, hin t ht x hx⟩
      obtain ⟨Q0, -, rfl⟩ := hnew t x hx
      simp
  obtain ⟨s3, hs3, hor⟩ := title_spec text pos p.titledist p.titlepos p.titleattrs title (fun l b h1 h2 => (ht l b h1 h2).2) d h0 hs { s2 with labels := s.labels }
  have hmem : ∀ x, (∀ Q', x ≠ .title Q') → (x ∈ s3.items ↔ x ∈ s2.items) := by
    intro x hx
    rcases hor with ⟨rfl, -⟩ | ⟨-, Q, hQ, -⟩
    · exact Iff.rfl
    · rw [hQ, List.mem_append, List.mem_singleton]
      constructor
      · rintro (h | h)
        · exact h
        · exact absurd h (hx Q)
      · exact Or.inl
  have hd1 : dot (-d) (-d) = 1 := by rw [dot_neg_pt]; have := hs.one; simp only [dot, Prod.fst_neg, Prod.snd_neg] at this ⊢; linarith
  have hun : unitOf (-d) = -d := unitOf_one hd1
  refine ⟨s3, c, ?_, ?_, ?_, ?_, ?_, ?_, ?_, ?_, ?_⟩
  · unfold barPaint
    simp only
    rw [← hq, ← hts, hal]
    simp only
    rw [zip_map_self]
    have e : (fun t => (t, (labelBox text q pos (maxlabellevel ts) t).map fun Q => moved Q (shift (pos.dir t.v) (c t)))) =
      fun t => (t, placed text q pos ts c t) := rfl
    rw [e, ← hs1, hss]
    exact hs3
  · intro x hx
    have hx' : ∀ Q', x ≠ .title Q' := by rintro Q' rfl; exact hst Q' hx
    rw [hmem x hx', hi]
    exact Or.inl ((hti x).2 (Or.inl ((hbi x).2 (Or.inl hx))))
  · rcases hor with ⟨rfl, -⟩ | ⟨-, Q, -, hl, -⟩
    · rfl
    · exact hl
  · intro x hx y hy
    rcases hor with ⟨rfl, -⟩ | ⟨-, Q, hQ, -, hb, hge, -⟩
    · exact (hall x hx).2 y hy
    · rw [hQ, List.mem_append, List.mem_singleton] at hx
      have hge' : s2.extent + p.titledist ≤ s3.extent := hge
      rcases hx with hx | rfl
      · have := (hall x hx).2 y hy
        linarith
      · exact (hb y hy).2
  · intro Q
    rw [hmem _ (by simp), hi, hti, hbi]
    constructor
    · rintro (((h | ⟨a, -, h⟩) | ⟨a, v, -, -, -, h⟩) | ⟨t, ht, h⟩)
      · exact Or.inl h
      · cases h
      · cases h
      · obtain ⟨Q0, h1, h2⟩ := hnew t _ h
        cases h2
        exact Or.inr ⟨t, ht, Q0, h1, rfl⟩
    · rintro (h | ⟨t, ht, Q0, h1, rfl⟩)
      · exact Or.inl (Or.inl (Or.inl h))
      · refine Or.inr ⟨t, ht, .label _ ?_⟩
        unfold placed
        rw [(labelBox_iff text q pos ts t Q0).2 h1, Option.map_some, shift_eq, hs.dir]
  · intro t ht Q0 h1 y hy
    have key : s.extent + p.namedist ≤ dot y (-d) - h0 := by
      rw [← shift_eq] at hy
      have := le_hull (moved Q0 (shift d (c t))) (-d) (s.extent + p.namedist + h0) (by
        intro z hz
        obtain ⟨z, hz', rfl⟩ := List.mem_map.1 hz
        have := hc1 t ht Q0 h1 z hz'
        rw [hs.dir, hun, dot_sub_pt, (labelled_good text q pos ts hf t ht Q0 h1).1, hs.point] at this
        have e : q.labeldist = s.extent + p.namedist := rfl
        linarith) y hy
      linarith
    refine ⟨?_, key⟩
    intro x hx z hz
    have := hsb x hx z hz
    linarith
  · intro q' r a
    rw [hmem _ (by simp), hi, hti, hbi]
    constructor
    · rintro (((h | ⟨a, -, h⟩) | ⟨a, v, h1, h2, h3, h⟩) | ⟨t, ht, h⟩)
      · exact Or.inl h
      · cases h
      · cases h
        exact Or.inr ⟨h1, h2, v, h3, rfl, rfl⟩
      · obtain ⟨Q0, -, h2⟩ := hnew t _ h
        cases h2
    · rintro (h | ⟨h1, h2, v, h3, rfl, rfl⟩)
      · exact Or.inl (Or.inl (Or.inl h))
      · exact Or.inl (Or.inr ⟨a, v, h1, h2, h3, rfl⟩)
  · rcases hor with ⟨rfl, hno⟩ | ⟨hyes, Q, hQ, -⟩
    · constructor
      · rintro ⟨Q, hQ⟩
        exact absurd rfl ((hall _ hQ).1 Q)
      · intro h; exact absurd h hno
    · exact ⟨fun _ => hyes, fun _ => ⟨Q, by rw [hQ]; simp⟩⟩
  · intro Q hQ y hy x hx hxt z hz
    rcases hor with ⟨rfl, -⟩ | ⟨-, Q1, hQ1, -, hb, hge, -⟩
    · exact absurd rfl ((hall _ hQ).1 Q)
    · rw [hQ1, List.mem_append, List.mem_singleton] at hQ
      rcases hQ with hQ | hQ
      · exact absurd rfl ((hall _ hQ).1 Q)
      cases hQ
      have h3 := (hb y hy).1
      have h4 := (hall x ((hmem x hxt).1 hx)).2 z hz
      have h5 : ({ s2 with labels := s.labels } : State A G).extent = s2.extent := rfl
      rw [h5] at h3
      linarith

/-- A bar axis with two bars and their names. -/
def exBar : BarPainter Unit Unit :=
  { inner := none, outer := some 2, tickattrs := some (), base := some (), namedist := 8, nameattrs := some (), namepos := 1 / 2, hequal := false, vequal := false,
    titledist := 8, titleattrs := some (), titlepos := 1 / 2 }

/-- The hypotheses of `bar_extent_partial` hold for a bar axis with different names and a title; its ticks are outside. -/
example : ∃ s' : State Unit Unit, barPaint exText exBar exPos [⟨(0, 8), 0, 1 / 2, 0⟩, ⟨(-3, 4), 1 / 2, 1, 1 / 2⟩] (some (-2, 6)) {} = .ok s' ∧
    .tick (50, 0) (50, -2) () ∈ s'.items := by
  obtain ⟨s', c, h1, -, -, -, -, -, h2, -⟩ := bar_extent_partial exText exBar exPos [⟨(0, 8), 0, 1 / 2, 0⟩, ⟨(-3, 4), 1 / 2, 1, 1 / 2⟩] (some (-2, 6)) {}
    ⟨fun t _ => by simp [exPos], by
      intro t ht l sel _ hs
      simp only [exBar, BarPainter.labels, Option.map_some, Option.some.injEq] at hs
      subst hs
      refine ⟨(), rfl, exCenter _ _ _ _, exGood _ _ _ _ ?_⟩
      simp only [BarPainter.names, List.map_cons, List.map_nil, List.mem_cons, List.not_mem_nil, or_false] at ht
      rcases ht with rfl | rfl <;> norm_num, by
      intro t _ sel hs
      cases hs⟩
    (by
      rintro l' b hl -
      cases hl
      exact ⟨by simp [exPos], exCenter _ _ _ _, exGood _ _ _ _ (by norm_num)⟩) (0, 1) 0 exStraight (by
      rintro ⟨-, h⟩
      have := h _ rfl
      simp [exBar, BarPainter.labels, exPos] at this) (by norm_num [exBar]) le_rfl (by simp) (by simp)
  refine ⟨s', h1, (h2 _ _ _).2 (Or.inr ⟨rfl, by simp [exBar], 1 / 2, Or.inr ⟨⟨(-3, 4), 1 / 2, 1, 1 / 2⟩, List.mem_cons_of_mem _ (List.mem_singleton.2 rfl), rfl⟩, ?_, ?_⟩)⟩
  · ext <;> norm_num [exBar, exPos]
  · ext <;> norm_num [exBar, exPos]

/-! ## Axes of graphs -/

/-- The positioner of an axis of a two-dimensional graph (see C108). -/
def ofLine (l : Graph.XY.LinePos ℝ) : Pos ((ℝ × ℝ) × (ℝ × ℝ)) := ⟨l.tickpoint, fun _ => l.dir, l.grid⟩

/-- **C114, axes of two-dimensional graphs** are straight, such that the theorems about extents hold for them. -/
theorem graph_straight (g : Graph.XY.Graph2 ℝ) (present : Nat → Bool) (extent : Nat → ℝ) (yaxis : Bool) (n : Nat) (l : Graph.XY.LinePos ℝ)
    (h : Graph.XY.doaxispositioner g present extent yaxis n = some l) : ∃ h0, Straight (ofLine l) l.dir h0 := by
  obtain ⟨f1, f2⟩ := Graph.XY.positioner_form g present extent yaxis n l h
  have hsign : (Graph.XY.sign g yaxis n : ℝ) * Graph.XY.sign g yaxis n = 1 := by
    have : n % 2 = 0 ∨ n % 2 = 1 := by omega
    unfold Graph.XY.sign
    rcases this with e | e <;> rw [e] <;> split_ifs <;> norm_num
  cases hh : Graph.XY.horizontal g yaxis with
  | true =>
    obtain ⟨y, e1, e2, e3, -⟩ := f1 hh
    refine ⟨-(y * Graph.XY.sign g yaxis n), ⟨?_, fun _ => rfl, ?_⟩⟩
    · rw [e3]; simp only [dot]; linarith
    · intro v
      simp only [ofLine, Graph.XY.LinePos.tickpoint, e1, e2, e3, dot, Prod.fst_neg, Prod.snd_neg]
      ring
  | false =>
    obtain ⟨y, e1, e2, e3, -⟩ := f2 hh
    refine ⟨-(y * Graph.XY.sign g yaxis n), ⟨?_, fun _ => rfl, ?_⟩⟩
    · rw [e3]; simp only [dot]; linarith
    · intro v
      simp only [ofLine, Graph.XY.LinePos.tickpoint, e1, e2, e3, dot, Prod.fst_neg, Prod.snd_neg]
      ring

end

end PyX.Axis.Paint
