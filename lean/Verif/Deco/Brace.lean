import Verif.Deform.CornerPath
import Verif.Connector.Arc

/-!
# C153: braces (`deco.brace`, `pyx/deco.py:915-1197`)

Numbers are reals, lengths are in points.  The outline is the list of items of the path which is filled.  Simplified: `normpath()` in `reversed` and
`<<` leaves out items shorter than its precision; here all items are kept.
-/

set_option linter.unusedSectionVars false
set_option linter.unusedSimpArgs false

namespace PyX.Deco.Brace

noncomputable section

open PyX.NormPath PyX.Deform

/-- The arguments of `brace.__init__` (`deco.py:957-980`). -/
structure Params where
  reverse : Bool
  stretch : Option ℝ
  dist : Option ℝ
  height : ℝ
  bthick : ℝ
  ithick : ℝ
  othick : ℝ
  irel : ℝ
  orel : ℝ
  iangle : ℝ
  oangle : ℝ
  slant : ℝ
  ismooth : ℝ
  osmooth : ℝ
  middle : ℝ

/-- The cosines and sines handed to `_halfbracepath_pt`. -/
structure Angles where
  ci : ℝ
  si : ℝ
  co : ℝ
  so : ℝ
  cs : ℝ
  ss : ℝ

/-- The smoothing lengths (`deco.py:1024-1028`): in the second line, the first one is changed already. -/
def smoothLens (b i o : ℝ) : ℝ × ℝ :=
  open Classical in
  if b < i + o then (b * i / (i + o), b * o / (b * i / (i + o) + o)) else (i, o)

/-- The points `q2` and `q5` of the orientation path (`deco.py:1013-1020`). -/
def q2 (height il it : ℝ) (a : Angles) : Pt := (0 + il * a.si, (height - 3 / 2 * it + 1 / 2 * it / a.si) - il * a.ci)
def q5 (length ol : ℝ) (a : Angles) : Pt := (length - ol * a.so, 0 + ol * a.co)

/-- The length of the bar (`deco.py:1021-1022`). -/
def barLen (length height il ol it : ℝ) (a : Angles) : ℝ :=
  hypot ((q5 length ol a).1 - (q2 height il it a).1) ((q5 length ol a).2 - (q2 height il it a).2)

/-- Its direction (`deco.py:1023`). -/
def barDir (length height il ol it : ℝ) (a : Angles) : Pt :=
  (((q5 length ol a).1 - (q2 height il it a).1) / barLen length height il ol it a,
   ((q5 length ol a).2 - (q2 height il it a).2) / barLen length height il ol it a)

/-- `p + t * v`. -/
def along (p v : Pt) (t : ℝ) : Pt := (p.1 + t * v.1, p.2 + t * v.2)

/-- The points of a half brace. -/
structure Half where
  A1 : Pt
  B1 : Pt
  D1 : Pt
  E1 : Pt
  F1 : Pt
  G1 : Pt
  H1 : Pt
  I1 : Pt
  I2 : Pt
  H2 : Pt
  G2 : Pt
  F2 : Pt
  E2 : Pt
  D2 : Pt
  B2 : Pt
  A2 : Pt
  O : Pt
  P : Pt

/-- Divisions by zero (`deco.py:1013, 1023, 1028`). -/
def ZeroDivision (length height il ol it : ℝ) (a : Angles) (i o : ℝ) : Prop :=
  a.si = 0 ∨ barLen length height il ol it a = 0 ∨
    (barLen length height il ol it a < i + o ∧ barLen length height il ol it a * i / (i + o) + o = 0)

/-- `_halfbracepath_pt` (`deco.py:989-1098`): the points.  `none`: division by zero, or `intersection` without result (`TypeError`). -/
def half (length height il ol it ot bt : ℝ) (a : Angles) (ism osm : ℝ) : Option Half :=
  open Classical in
  if ZeroDivision length height il ol it a (il * ism) (ol * osm) then none
  else
    let b := barLen length height il ol it a
    let u := barDir length height il ol it a
    let sm := smoothLens b (il * ism) (ol * osm)
    let q3 := along (q2 height il it a) u sm.1
    let q4 := along (q5 length ol a) u (-sm.2)
    let P : Pt := (0, height)
    let A1 : Pt := (0, height - 3 / 2 * it)
    let A2 : Pt := (A1.1 + it * a.ci, A1.2 + it * a.si)
    let D1 : Pt := (q3.1 + bt * u.2, q3.2 - bt * u.1)
    let D2 : Pt := (q3.1 - bt * u.2, q3.2 + bt * u.1)
    let E1 : Pt := (q4.1 + bt * u.2, q4.2 - bt * u.1)
    let E2 : Pt := (q4.1 - bt * u.2, q4.2 + bt * u.1)
    let I1 : Pt := (length - 1 / 2 * ot * a.co, 0 - 1 / 2 * ot * a.so)
    let I2 : Pt := (length + 1 / 2 * ot * a.co, 0 + 1 / 2 * ot * a.so)
    let inner : Pt := (a.si, -a.ci)
    let outer : Pt := (-a.so, a.co)
    match intersection P A2 (a.cs, a.ss) inner, intersection A1 D1 inner u, intersection A2 D2 inner u, intersection E1 I1 u outer, intersection E2 I2 u outer with
    | some st, some st1, some st2, some st3, some st4 =>
      let O := along P (a.cs, a.ss) st.1
      let B1 := along D1 u st1.2
      let B2 := along D2 u st2.2
      let G1 := along E1 u st3.1
      let G2 := along E2 u st4.1
      let F1 : Pt := (3 / 5 * G1.1 + (1 - 3 / 5) * E1.1, 3 / 5 * G1.2 + (1 - 3 / 5) * E1.2)
      let F2 : Pt := (3 / 5 * G2.1 + (1 - 3 / 5) * E2.1, 3 / 5 * G2.2 + (1 - 3 / 5) * E2.2)
      let H1 := along I1 outer (5 / 2 * ot)
      let H2 := along I2 outer (5 / 2 * ot)
      some ⟨A1, B1, D1, E1, F1, G1, H1, I1, I2, H2, G2, F2, E2, D2, B2, A2, O, P⟩
    | _, _, _, _, _ => none

/-- A curve with given control points. -/
def curve (p q r s : Pt) : Item ℝ := .curve ⟨p.1, p.2, q.1, q.2, r.1, r.2, s.1, s.2⟩

/-- A straight line. -/
def line (p q : Pt) : Item ℝ := .line ⟨p.1, p.2, q.1, q.2⟩

/-- The path of a half brace (`deco.py:1105-1117`). -/
def Half.items (h : Half) : List (Item ℝ) :=
  [curve h.A1 h.B1 h.B1 h.D1, line h.D1 h.E1, curve h.E1 h.F1 h.G1 h.H1, curve h.H1 h.I1 h.I2 h.H2,
   curve h.H2 h.G2 h.F2 h.E2, line h.E2 h.D2, curve h.D2 h.B2 h.B2 h.A2, curve h.A2 h.O h.O h.P]

/-- The angles of the left half (`deco.py:1133-1138`) and those of the right half (`deco.py:1147-1152`). -/
def leftAngles (p : Params) : Angles :=
  ⟨Real.cos (Trafo.phi (1 / 2 * p.iangle - p.slant)), Real.sin (Trafo.phi (1 / 2 * p.iangle - p.slant)),
   Real.cos (Trafo.phi (p.oangle - p.slant)), Real.sin (Trafo.phi (p.oangle - p.slant)),
   Real.cos (Trafo.phi (-p.slant)), Real.sin (Trafo.phi (-p.slant))⟩
def rightAngles (p : Params) : Angles :=
  ⟨Real.cos (Trafo.phi (1 / 2 * p.iangle + p.slant)), Real.sin (Trafo.phi (1 / 2 * p.iangle + p.slant)),
   Real.cos (Trafo.phi (p.oangle + p.slant)), Real.sin (Trafo.phi (p.oangle + p.slant)),
   Real.cos (Trafo.phi (-p.slant)), Real.sin (Trafo.phi (-p.slant))⟩

/-- One half with its angles (`deco.py:1139-1145, 1153-1159`); `none` also for a division by a cosine which is zero. -/
def halfOf (p : Params) (a : Angles) (length : ℝ) : Option Half :=
  open Classical in
  if a.ci = 0 ∨ a.co = 0 then none
  else half length p.height (p.irel * p.height / a.ci) (p.orel * p.height / a.co) p.ithick p.othick p.bthick a p.ismooth p.osmooth

/-- The lengths of the two halves (`deco.py:1124-1126`). -/
def leftLen (p : Params) (X0 X1 : Pt) : ℝ := p.middle * hypot (X1.1 - X0.1) (X1.2 - X0.2)
def rightLen (p : Params) (X0 X1 : Pt) : ℝ := hypot (X1.1 - X0.1) (X1.2 - X0.2) - leftLen p X0 X1

/-- `rotate_pt` without a centre. -/
def rot (φ : ℝ) : Trafo ℝ := ⟨Real.cos φ, -Real.sin φ, Real.sin φ, Real.cos φ, 0, 0⟩

/-- The transformation of the whole brace (`deco.py:1161-1166`). -/
def place (p : Params) (X0 X1 : Pt) : Trafo ℝ :=
  ((Trafo.translate X0.1 X0.2).mul (rot (Trafo.phi (degrees (atan2 (X1.2 - X0.2) (X1.1 - X0.1)))))).mul (Trafo.translate (leftLen p X0 X1) 0)

/-- `_bracepath` (`deco.py:1122-1167`). -/
def bracepath (p : Params) (X0 X1 : Pt) : Option (List (Item ℝ)) :=
  match halfOf p (leftAngles p) (leftLen p X0 X1), halfOf p (rightAngles p) (rightLen p X0 X1) with
  | some l, some r =>
    some ((((l.items.reverse.map Item.reversed).map (Item.transformed (Trafo.mirror 90))) ++ r.items).map (Item.transformed (place p X0 X1)))
  | _, _ => none

/-- The ends between which the brace is put by `decorate` (`deco.py:1170-1185`); `b`, `e`: begin and end of the path, `nb`, `ne`: the directions to
the left of the path there (`rotation_pt(...).apply_pt(0, 1)`). -/
def ends (p : Params) (b e nb ne : Pt) : Pt × Pt :=
  let x := if p.reverse then (e, b) else (b, e)
  let x := match p.stretch with
    | none => x
    | some s =>
      let m : Pt := (1 / 2 * (x.1.1 + x.2.1), 1 / 2 * (x.1.2 + x.2.2))
      ((m.1 + s * (x.1.1 - m.1), m.2 + s * (x.1.2 - m.2)), (m.1 + s * (x.2.1 - m.1), m.2 + s * (x.2.2 - m.2)))
  match p.dist with
  | none => x
  | some d => (along x.1 nb d, along x.2 ne d)

/-- `decorate`: the path which is filled. -/
def decorate (p : Params) (b e nb ne : Pt) : Option (List (Item ℝ)) := bracepath p (ends p b e nb ne).1 (ends p b e nb ne).2

/-! ## What a half brace should be -/

/-- The square of the distance. -/
def dist2 (p q : Pt) : ℝ := (p.1 - q.1) ^ 2 + (p.2 - q.2) ^ 2
def dot (u v : Pt) : ℝ := u.1 * v.1 + u.2 * v.2
def wedge (u v : Pt) : ℝ := u.1 * v.2 - u.2 * v.1
def minus (p q : Pt) : Pt := (p.1 - q.1, p.2 - q.2)

/-- A half brace from its cap at `cap` (with `up` pointing away from the end points) to the end point `X`; `inner`: the inner side of the inner stroke, `bar`: the bar, `foot`: the
outer stroke, `tip`: its end; `foot'`, `bar'`, `inner'`: the other sides; `nose`: the way to the cap. -/
structure IsHalf (p : Params) (cap up X : Pt) (inner bar foot tip foot' bar' inner' nose : Item ℝ) : Prop where
  /-- The items follow each other. -/
  joined : inner.end_ = bar.begin_ ∧ bar.end_ = foot.begin_ ∧ foot.end_ = tip.begin_ ∧ tip.end_ = foot'.begin_ ∧ foot'.end_ = bar'.begin_ ∧
    bar'.end_ = inner'.begin_ ∧ inner'.end_ = nose.begin_
  /-- It begins below the cap and ends at the cap. -/
  begins : inner.begin_ = along cap up (-(3 / 2 * p.ithick))
  ends : nose.end_ = cap
  /-- The middle of the tip is near the end point. -/
  at_end : dist2 (tip.at_ (1 / 2)) X = (5 / 8 * p.othick) ^ 2
  /-- The outer stroke and the inner stroke have the thickness asked for, measured across the stroke. -/
  outer_width : dist2 tip.begin_ tip.end_ = p.othick ^ 2 ∧ dot (minus tip.end_ tip.begin_) (tip.tangent 0) = 0 ∧ dot (minus tip.end_ tip.begin_) (tip.tangent 1) = 0
  inner_width : dist2 inner.begin_ nose.begin_ = p.ithick ^ 2 ∧ dot (minus nose.begin_ inner.begin_) (inner.tangent 0) = 0 ∧
    dot (minus nose.begin_ inner.begin_) (inner'.tangent 1) = 0
  /-- The bar has two parallel sides of equal length, and twice the thickness asked for. -/
  bar_width : dist2 bar.begin_ bar'.end_ = (2 * p.bthick) ^ 2 ∧ dot (minus bar'.end_ bar.begin_) (minus bar.end_ bar.begin_) = 0 ∧
    minus bar'.begin_ bar'.end_ = minus bar.end_ bar.begin_
  /-- There are no corners between the items. -/
  smooth : wedge (inner.tangent 1) (bar.tangent 0) = 0 ∧ wedge (bar.tangent 1) (foot.tangent 0) = 0 ∧ wedge (foot.tangent 1) (tip.tangent 0) = 0 ∧
    wedge (tip.tangent 1) (foot'.tangent 0) = 0 ∧ wedge (foot'.tangent 1) (bar'.tangent 0) = 0 ∧ wedge (bar'.tangent 1) (inner'.tangent 0) = 0 ∧
    wedge (inner'.tangent 1) (nose.tangent 0) = 0

end

end PyX.Deco.Brace
