import Verif.NormPath.SubLen
import Verif.Roots.Props

/-!
# Model of the deformer `cornersmoothed` (`pyx/deformer.py:45-363, 508-688`)

Numbers are reals.  The items of a sub-path are those of `Verif.NormPath.Item`; lengths of items and parameters at lengths are those of
C73 and C118 (`itemLen`, `itemParam`).  `roots` stands for `mathutils.realpolyroots` (C67).

Simplified: the sub-path is given without the items which are too short (`deformer.py:555-560`), and the result is the list of items handed to
`newnormsubpath.append`.  `normpath.invalid` does not occur; a vanishing derivative gives an error.
-/

set_option linter.unusedSectionVars false

namespace PyX.Deform

noncomputable section

open PyX.NormPath PyX.NormPath.ByLength

/-- The ways a deformation fails: an `assert` (`deformer.py:122, 127, 132, 141`), `1/0` or a curvature which does not exist, recursion without end, an
empty list (`deformer.py:575`). -/
inductive Bad
  | assertion
  | zero
  | length
  | empty
deriving DecidableEq, Repr

/-- A point or a vector. -/
abbrev Pt := ℝ × ℝ

/-- `mathutils.sign` (`mathutils.py:32-36`). -/
def sign (x : ℝ) : ℝ := open Classical in if x ≥ 0 then 1 else -1

/-! ## Corners between lines -/

/-- The seven control points of the two curves (`deformer.py:54-59`). -/
structure Seven where
  d1 : Pt
  g1 : Pt
  f1 : Pt
  e : Pt
  f2 : Pt
  g2 : Pt
  d2 : Pt

/-- `f` (`deformer.py:68`). -/
def softF (softness : ℝ) : ℝ := 3192 / 10000 * softness

/-- `g` (`deformer.py:69`). -/
def softG (f : ℝ) : ℝ := (15 * f + Real.sqrt (-15 * f * f + 24 * f)) / 12

/-- `curvescontrols_from_endlines_pt` (`deformer.py:45-81`). -/
def endlines (B t1 t2 : Pt) (r1 r2 softness : ℝ) : Seven :=
  let d1 : Pt := (-t1.1 / hypot t1.1 t1.2, -t1.2 / hypot t1.1 t1.2)
  let d2 : Pt := (t2.1 / hypot t2.1 t2.2, t2.2 / hypot t2.1 t2.2)
  let f := softF softness
  let g := softG f
  let f1 : Pt := (B.1 + f * r1 * d1.1, B.2 + f * r1 * d1.2)
  let f2 : Pt := (B.1 + f * r2 * d2.1, B.2 + f * r2 * d2.2)
  let g1 : Pt := (B.1 + g * r1 * d1.1, B.2 + g * r1 * d1.2)
  let g2 : Pt := (B.1 + g * r2 * d2.1, B.2 + g * r2 * d2.2)
  { d1 := (B.1 + r1 * d1.1, B.2 + r1 * d1.2), g1, f1
    e := (1 / 2 * (f1.1 + f2.1), 1 / 2 * (f1.2 + f2.2))
    f2, g2, d2 := (B.1 + r2 * d2.1, B.2 + r2 * d2.2) }

/-- `normcurve_pt(*(p + q + r + s))`. -/
def bez (p q r s : Pt) : Curve ℝ := ⟨p.1, p.2, q.1, q.2, r.1, r.2, s.1, s.2⟩

/-- The two curves (`deformer.py:613-614`). -/
def Seven.curves (c : Seven) : Curve ℝ × Curve ℝ := (bez c.d1 c.g1 c.f1 c.e, bez c.e c.f2 c.g2 c.d2)

/-! ## Curves with given tangents and curvatures at the ends -/

/-- A curvature at an end of a curve, `inf_curvature` (`deformer.py:43`). -/
inductive Curv
  | inf
  | fin (c : ℝ)

/-- `math.sqrt(abs(X / (1.5 * curv))) * sign(X*curv)`. -/
def rootArm (X c : ℝ) : ℝ := Real.sqrt |X / (3 / 2 * c)| * sign (X * c)

open Classical in
/-- One of the arms for parallel tangents (`deformer.py:115-144`); `X` is `D` or `E`. -/
def parallelArm (eps AB X : ℝ) : Curv → Except Bad ℝ
  | .inf => .ok (AB * (1 / 10000))
  | .fin c => if |c| < eps then (if |X| < 1 / 10 ^ 10 then .ok (AB * (33 / 100)) else .error .assertion) else .ok (rootArm X c)

open Classical in
/-- The shorter one of the two values (`deformer.py:155-158, 166-169`). -/
def shorter (x y : ℝ) : ℝ := if |x| < |y| then x else y

open Classical in
/-- `test_divisions` (`deformer.py:99-183`). -/
def testDivisions (eps T D E AB : ℝ) (cA cB : Curv) : Except Bad (List (ℝ × ℝ)) :=
  if |T| < eps then
    (parallelArm eps AB D cA).bind fun a => (parallelArm eps AB E cB).map fun b => [(a, b)]
  else
    match cA, cB with
    | .inf, .inf => .ok [(AB * (1 / 10000), AB * (1 / 10000))]
    | .inf, .fin c => .ok [(AB * (1 / 10000), if |c| < eps then AB * (33 / 100) else shorter (rootArm E c) (D / T))]
    | .fin c, .inf => .ok [(if |c| < eps then AB * (33 / 100) else shorter (rootArm D c) (E / T), AB * (1 / 10000))]
    | .fin ca, .fin cb =>
      if |ca| < eps then .ok [((E - 3 / 2 * cb * (D / T) * |D / T|) / T, D / T)]
      else if |cb| < eps then .ok [(E / T, (D - 3 / 2 * ca * (E / T) * |E / T|) / T)]
      else .ok []

open Classical in
/-- `fallback_smallT` (`deformer.py:184-196`). -/
def fallbackT (T D E ca cb thr : ℝ) : List (ℝ × ℝ) :=
  let a := rootArm D ca
  let b := rootArm E cb
  let q1 := min |3 / 2 * a * a * ca| |D|
  let q2 := min |3 / 2 * b * b * cb| |E|
  if a ≥ 0 ∧ b ≥ 0 ∧ |b * T| < thr * q1 ∧ |3 / 2 * a * |a| * ca - D| < thr * q1 ∧
    |a * T| < thr * q2 ∧ |3 / 2 * b * |b| * cb - E| < thr * q2 then [(a, b)] else []

open Classical in
/-- `fallback_smallcurv` (`deformer.py:197-221`). -/
def fallbackCurv (T D E ca cb thr : ℝ) : List (ℝ × ℝ) :=
  let a := E / T
  let b := (D - 3 / 2 * ca * a * |a|) / T
  let b' := D / T
  let a' := (E - 3 / 2 * cb * b' * |b'|) / T
  (if a ≥ 0 ∧ b ≥ 0 ∧ |3 / 2 * b * b * cb| < thr * min |a * T| |E| ∧ |a * T - E| < thr * min |a * T| |E| then [(a, b)] else []) ++
  (if a' ≥ 0 ∧ b' ≥ 0 ∧ |3 / 2 * a' * a' * ca| < thr * min |b' * T| |D| ∧ |b' * T - D| < thr * min |b' * T| |D| then [(a', b')] else [])

open Classical in
/-- `findnearest` (`deformer.py:222-234`): the value; the index is not used. -/
def findnearest (x y : ℝ) (ys : List ℝ) : ℝ := ys.foldl (fun best z => if |x - z| < |x - best| then z else best) y

/-- `intersection` (`deformer.py:343-363`). -/
def intersection (A D tA tD : Pt) : Option (ℝ × ℝ) :=
  let det := -tA.1 * tD.2 + tA.2 * tD.1
  open Classical in
  if det = 0 then none
  else
    let DA : Pt := (D.1 - A.1, D.2 - A.2)
    some ((-tD.2 * DA.1 + tD.1 * DA.2) / det, (-tA.2 * DA.1 + tA.1 * DA.2) / det)

/-- The polynomial for `a` (`deformer.py:265`). -/
def coeffsA (T D E ca cb sa sb : ℝ) : List ℝ :=
  [sb * (27 / 8) * ca * ca * cb, 0, -sb * sa * (9 / 2) * ca * cb * D, T ^ 3, sb * (3 / 2) * cb * D * D - T * T * E]

/-- The polynomial for `b` (`deformer.py:266`). -/
def coeffsB (T D E ca cb sa sb : ℝ) : List ℝ :=
  [sa * (27 / 8) * ca * cb * cb, 0, -sa * sb * (9 / 2) * ca * cb * E, T ^ 3, sa * (3 / 2) * ca * E * E - T * T * D]

/-- `signs` (`deformer.py:257-260`). -/
def signs (allownegative : Bool) : List (ℝ × ℝ) := if allownegative then [(1, 1), (-1, 1), (1, -1), (-1, -1)] else [(1, 1)]

open Classical in
/-- `candidates_a` (`deformer.py:262-267`). -/
def candidatesA (roots : List ℝ → List ℝ) (T D E ca cb : ℝ) (neg : Bool) : List ℝ :=
  (signs neg).flatMap fun s => (roots (coeffsA T D E ca cb s.1 s.2)).filter fun x => s.1 * x ≥ 0

open Classical in
/-- `candidates_b` (`deformer.py:263-268`). -/
def candidatesB (roots : List ℝ → List ℝ) (T D E ca cb : ℝ) (neg : Bool) : List ℝ :=
  (signs neg).flatMap fun s => (roots (coeffsB T D E ca cb s.1 s.2)).filter fun x => s.2 * x ≥ 0

/-- The pairs from the polynomials (`deformer.py:269-273`). -/
def pairs (T D ca : ℝ) (as : List ℝ) : List ℝ → List (ℝ × ℝ)
  | [] => []
  | b :: bs => as.map fun a => (a, findnearest ((D - 3 / 2 * ca * a * |a|) / T) b bs)

/-- `thr` is tried if there is no solution yet (`deformer.py:275-280`). -/
def fallbacks (T D E ca cb thr : ℝ) (sols : List (ℝ × ℝ)) : List (ℝ × ℝ) :=
  let sols := if sols = [] then fallbackT T D E ca cb thr else sols
  if sols = [] then fallbackCurv T D E ca cb thr else sols

/-- `x[0] > 0 and x[1] > 0` (`deformer.py:286-287`). -/
def Positive (x : ℝ × ℝ) : Prop := x.1 > 0 ∧ x.2 > 0

/-- The arms cross (`deformer.py:314-323`); `ts`: the absolute values of the intersection parameters. -/
def Crossing (ts x : ℝ × ℝ) : Prop := ts.1 > 0 ∧ ts.1 < x.1 ∧ ts.2 > 0 ∧ ts.2 < x.2

open Classical in
/-- `int(x > y) - int(x < y)`. -/
def cmp (x y : ℝ) : ℤ := (if x > y then 1 else 0) - (if x < y then 1 else 0)

open Classical in
/-- `mycmp` (`deformer.py:283-330`). -/
def mycmp (ts x y : ℝ × ℝ) : ℤ :=
  if Positive x ∧ Positive y then
    if Crossing ts x then (if Crossing ts y then cmp (x.1 ^ 2 + x.2 ^ 2) (y.1 ^ 2 + y.2 ^ 2) else -1)
    else if Crossing ts y then 1 else cmp (x.1 ^ 2 + x.2 ^ 2) (y.1 ^ 2 + y.2 ^ 2)
  else (if Positive y ∧ ¬ Positive x then 1 else 0) - (if ¬ Positive y ∧ Positive x then 1 else 0)

/-- The absolute values of the intersection parameters (`deformer.py:312-313`); the tangents are not parallel. -/
def crossAt (A B tA tB : Pt) : ℝ × ℝ :=
  match intersection A B tA tB with
  | some (t, s) => (|t|, |s|)
  | none => (0, 0)

/-- `solutions.sort` (`deformer.py:331`). -/
def sortSols (ts : ℝ × ℝ) (l : List (ℝ × ℝ)) : List (ℝ × ℝ) := l.mergeSort fun x y => decide (mycmp ts x y ≤ 0)

/-- The outer product of two vectors. -/
def wedge (u v : Pt) : ℝ := u.1 * v.2 - u.2 * v.1

/-- The general case (`deformer.py:247-333`). -/
def generalDists (roots : List ℝ → List ℝ) (A B tA tB : Pt) (T D E ca cb : ℝ) (neg : Bool) : List (ℝ × ℝ) :=
  let sols := pairs T D ca (candidatesA roots T D E ca cb neg) (candidatesB roots T D E ca cb neg)
  sortSols (crossAt A B tA tB) (fallbacks T D E ca cb (1 / 10) (fallbacks T D E ca cb (1 / 100) sols))

/-- `controldists_from_endgeometry_pt` (`deformer.py:83-334`). -/
def controldists (roots : List ℝ → List ℝ) (A B tA tB : Pt) (cA cB : Curv) (neg : Bool) (eps : ℝ) : Except Bad (List (ℝ × ℝ)) :=
  let T := tA.1 * tB.2 - tA.2 * tB.1
  let D := tA.1 * (B.2 - A.2) - tA.2 * (B.1 - A.1)
  let E := tB.1 * (A.2 - B.2) - tB.2 * (A.1 - B.1)
  let AB := hypot (A.1 - B.1) (A.2 - B.2)
  (testDivisions eps T D E AB cA cB).bind fun sols =>
    if sols ≠ [] then .ok sols
    else match cA, cB with
      | .fin ca, .fin cb => .ok (generalDists roots A B tA tB T D E ca cb neg)
      | _, _ => .ok []

/-- The curve with arms `a` and `b` (`deformer.py:336-341, 674-678`). -/
def armCurve (A B tA tB : Pt) (a b : ℝ) : Curve ℝ :=
  bez A (A.1 + a * tA.1, A.2 + a * tA.2) (B.1 - b * tB.1, B.2 - b * tB.2) B

/-! ## The deformer -/

/-- The settings `softness` and `obeycurv` of the deformer (`deformer.py:530-534`). -/
structure Setting where
  radius : ℝ
  softness : ℝ
  obeycurv : Bool

/-- An item with its length and the two parameters it is cut at (`deformer.py:562-579`). -/
structure Cut where
  item : Item ℝ
  len : ℝ
  p1 : ℝ
  p2 : ℝ

/-- `rotation([t])[0].apply_pt(1, 0)` (`deformer.py:598-599`). -/
def direction (i : Item ℝ) (t : ℝ) : Except Bad Pt :=
  match i.rotation t with
  | some r => .ok (r.apply (1, 0))
  | none => .error .zero

/-- `curvature_pt([t])[0]`. -/
def curvatureAt (i : Item ℝ) (t : ℝ) : Except Bad ℝ :=
  match i.curvature t with
  | some c => .ok c
  | none => .error .zero

/-- The curvatures asked for (`deformer.py:629-637`). -/
def askedCurv (obey : Bool) (p1 p2 t1 t2 : Pt) (c1 c2 : ℝ) : ℝ × ℝ :=
  if obey then (c1, c2)
  else (sign (t1.1 * (p2.2 - p1.2) - t1.2 * (p2.1 - p1.1)) * |c1|, -sign (t2.1 * (p2.2 - p1.2) - t2.2 * (p2.1 - p1.1)) * |c2|)

open Classical in
/-- No overshooting (`deformer.py:650-658`). -/
def limited (obey : Bool) (p1 p2 t1 t2 : Pt) (a d : ℝ) : ℝ × ℝ :=
  if obey then (a, d)
  else match intersection p1 p2 t1 t2 with
    | some (t, s) => if t > 0 ∧ s < 0 then (min a |t|, min d |s|) else (a, d)
    | none => (a, d)

/-- The fallback (`deformer.py:660-672`). -/
def fallbackArms (p1 p2 t1 t2 : Pt) : ℝ × ℝ :=
  match intersection p1 p2 t1 t2 with
  | some (t, s) => (65 / 100 * |t|, 65 / 100 * |s|)
  | none => (hypot (p1.1 - p2.1) (p1.2 - p2.2) / (3 * hypot t1.1 t1.2), hypot (p1.1 - p2.1) (p1.2 - p2.2) / (3 * hypot t2.1 t2.2))

open Classical in
/-- The arms for the list of solutions (`deformer.py:642-672`). -/
def chosenArms (obey : Bool) (eps : ℝ) (p1 p2 t1 t2 : Pt) : List (ℝ × ℝ) → ℝ × ℝ
  | (a, d) :: _ => if a ≥ 0 ∧ d ≥ 0 then limited obey p1 p2 t1 t2 (max a eps) (max d eps) else fallbackArms p1 p2 t1 t2
  | [] => fallbackArms p1 p2 t1 t2

/-- The curve of a corner which is not between two lines (`deformer.py:618-678`). -/
def genericCorner (roots : List ℝ → List ℝ) (obey : Bool) (eps : ℝ) (p1 p2 t1 t2 : Pt) (c1 c2 : ℝ) : Except Bad (Curve ℝ) :=
  let c := askedCurv obey p1 p2 t1 t2 c1 c2
  (controldists roots p1 p2 t1 t2 (.fin c.1) (.fin c.2) false (1 / 10 ^ 8)).map fun sols =>
    let ad := chosenArms obey eps p1 p2 t1 t2 sols
    armCurve p1 p2 t1 t2 ad.1 ad.2

/-- The replacement of the corner between two items (`deformer.py:595-678`). -/
def corner (roots : List ℝ → List ℝ) (s : Setting) (eps : ℝ) (c d : Cut) : Except Bad (List (Item ℝ)) :=
  (direction c.item c.p2).bind fun t1 => (direction d.item d.p1).bind fun t2 =>
    match c.item, d.item with
    | .line l, .line _ =>
      let k := (endlines l.end_ t1 t2 (c.len * (1 - c.p2)) (d.len * d.p1) s.softness).curves
      .ok [.curve k.1, .curve k.2]
    | i, j =>
      (curvatureAt i c.p2).bind fun c1 => (curvatureAt j d.p1).bind fun c2 =>
        (genericCorner roots s.obeycurv eps (i.at_ c.p2) (j.at_ d.p1) t1 t2 c1 c2).map fun k => [.curve k]

/-- `segments(thisparams)[0]` (`deformer.py:592-593`). -/
def Cut.middle (c : Cut) : Item ℝ := (((c.item.segments [c.p1, c.p2]).getD []).head?).getD c.item

/-- The items handed to `newnormsubpath.append` (`deformer.py:581-678`); `first` is the first item of the sub-path. -/
def pieces (roots : List ℝ → List ℝ) (s : Setting) (eps : ℝ) (closed : Bool) (first : Cut) : List Cut → Except Bad (List (Item ℝ))
  | [] => .ok []
  | [c] => if closed then (corner roots s eps c first).map fun k => c.middle :: k else .ok [c.middle]
  | c :: d :: rest => (corner roots s eps c d).bind fun k => (pieces roots s eps closed first (d :: rest)).map fun l => c.middle :: k ++ l

/-- `arclentoparam_pt([l1_pt, l2_pt], epsilon)` of an item. -/
def paramsAt (n : ℕ) (eps : ℝ) (i : Item ℝ) (len l1 l2 : ℝ) : Except Bad Cut :=
  match itemParam n eps l1 i, itemParam n eps l2 i with
  | .ok a, .ok b => .ok ⟨i, len, a.1, b.1⟩
  | _, _ => .error .zero

/-- The cuts of an item in the middle of a path (`deformer.py:565-570`). -/
def cutMiddle (n : ℕ) (eps r : ℝ) (i : Item ℝ) : Except Bad Cut :=
  match itemLen n eps i with
  | some len => paramsAt n eps i len (min r (1 / 2 * len)) (max (1 / 2 * len) (len - r))
  | none => .error .length

/-- The cuts of the first item of an open path (`deformer.py:574-576`). -/
def cutFirst (n : ℕ) (eps r : ℝ) (c : Cut) : Except Bad Cut := paramsAt n eps c.item c.len 0 (max 0 (c.len - r))

/-- The cuts of the last item of an open path (`deformer.py:577-579`). -/
def cutLast (n : ℕ) (eps r : ℝ) (c : Cut) : Except Bad Cut := paramsAt n eps c.item c.len (min r c.len) c.len

/-- All cuts (`deformer.py:562-579`). -/
def cuts (n : ℕ) (eps r : ℝ) (closed : Bool) (items : List (Item ℝ)) : Except Bad (List Cut) :=
  (items.mapM (cutMiddle n eps r)).bind fun cs =>
    if closed then .ok cs
    else match cs with
      | [] => .error .empty
      | c :: rest => (cutFirst n eps r c).bind fun f =>
        let cs := f :: rest
        (cutLast n eps r (cs.getLast (List.cons_ne_nil f rest))).map fun l => cs.dropLast ++ [l]

/-- `cornersmoothed.deformsubpath` (`deformer.py:551-682`). -/
def deformsubpath (roots : List ℝ → List ℝ) (n : ℕ) (s : Setting) (eps : ℝ) (closed : Bool) (items : List (Item ℝ)) : Except Bad (List (Item ℝ)) :=
  (cuts n eps s.radius closed items).bind fun cs =>
    match cs with
    | [] => .ok []
    | c :: rest => pieces roots s eps closed c (c :: rest)

end

end PyX.Deform
