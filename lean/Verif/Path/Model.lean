import Verif.Path.Arc
import Verif.NormPath.Sub

/-!
# Model of `pyx/path.py`: path items and paths (`path.py:178-1315`)

Numbers are reals (no rounding in the output).  The items taking lengths with units are the `_pt` items with converted arguments
(`path.py:887-980`, see `Verif.Unit`).
-/

set_option linter.unusedSectionVars false

namespace PyX.Path

open Real PyX.NormPath

noncomputable section

abbrev Pt := ℝ × ℝ

/-- Path items (`path.py:293-1066`). -/
inductive PItem
  | closepath
  | moveto (p : Pt)
  | lineto (p : Pt)
  | curveto (p1 p2 p3 : Pt)
  | rmoveto (d : Pt)
  | rlineto (d : Pt)
  | rcurveto (d1 d2 d3 : Pt)
  | arc (x y r angle1 angle2 : ℝ)
  | arcn (x y r angle1 angle2 : ℝ)
  | arct (p1 p2 : Pt) (r : ℝ)
  | multilineto (ps : List Pt)
  | multicurveto (ps : List (Pt × Pt × Pt))

/-- Exceptions. -/
inductive PErr
  | start -- PathException "path must start with moveto or the like"
  | zeroDivision
  | assertion -- AssertionError in outputPDF
  | norm (e : NormPath.Err)
deriving DecidableEq

/-- `context` (`path.py:178-193`). -/
@[ext]
structure Ctx where
  cur : Pt
  first : Pt

/-! ## Tangent arcs -/

open Classical in
/-- `arct_pt._pathitems` (`path.py:804-864`).  Inside of the `try` the only division by zero of real numbers is the one by `lm_pt`
(`cos(alpha/2)` is zero for opposite directions; there the floating point numbers of the code do not vanish, which is not modelled). -/
def arctItems (cur p1 p2 : Pt) (r : ℝ) : Except PErr (List PItem) :=
  let l1 := hypot (p1.1 - cur.1) (p1.2 - cur.2)
  let l2 := hypot (p2.1 - p1.1) (p2.2 - p1.2)
  if l1 = 0 ∨ l2 = 0 then .error .zeroDivision
  else
    let dx1 := (p1.1 - cur.1) / l1
    let dy1 := (p1.2 - cur.2) / l1
    let dx2 := (p2.1 - p1.1) / l2
    let dy2 := (p2.2 - p1.2) / l2
    let alpha := if dx1 * dy2 - dy1 * dx2 > 0 then arccos (dx1 * dx2 + dy1 * dy2) else -arccos (dx1 * dx2 + dy1 * dy2)
    let xt1 := p1.1 - dx1 * r * tan (|alpha| / 2)
    let yt1 := p1.2 - dy1 * r * tan (|alpha| / 2)
    let xt2 := p1.1 + dx2 * r * tan (|alpha| / 2)
    let yt2 := p1.2 + dy2 * r * tan (|alpha| / 2)
    let dmx_pt := 1 / 2 * (xt1 + xt2) - p1.1
    let dmy_pt := 1 / 2 * (yt1 + yt2) - p1.2
    let lm := hypot dmx_pt dmy_pt
    if lm = 0 then .ok [.lineto p1]
    else
      let dmx := dmx_pt / lm
      let dmy := dmy_pt / lm
      let mx := p1.1 + dmx * r / cos (alpha / 2)
      let my := p1.2 + dmy * r / cos (alpha / 2)
      let phi := degrees (atan2 (-dmy) (-dmx))
      let deltaphi := degrees alpha / 2
      .ok [.lineto (arcpoint mx my r (phi - deltaphi)),
           if alpha > 0 then .arc mx my r (phi - deltaphi) (phi + deltaphi) else .arcn mx my r (phi - deltaphi) (phi + deltaphi)]

/-- The items a path item stands for: those of `_pathitems` for an `arct`. -/
def expand (cur : Pt) : PItem → Except PErr (List PItem)
  | .arct p1 p2 r => arctItems cur p1 p2 r
  | i => .ok [i]

/-! ## Context and bounding box -/

/-- `createcontext` (`path.py:213, 337-338, 614-617, 708-711`). -/
def createcontext : PItem → Except PErr Ctx
  | .moveto p => .ok ⟨p, p⟩
  | .arc x y r a1 a2 => .ok ⟨arcpoint x y r a2, arcpoint x y r a1⟩
  | .arcn x y r a1 a2 => .ok ⟨arcpoint x y r a2, arcpoint x y r a1⟩
  | _ => .error .start

/-- The change of the context by `updatebbox` and `updatenormpath`, which is the same. -/
def advance (c : Ctx) : PItem → Ctx
  | .closepath => ⟨c.first, c.first⟩
  | .moveto p => ⟨p, p⟩
  | .lineto p => ⟨p, c.first⟩
  | .curveto _ _ p3 => ⟨p3, c.first⟩
  | .rmoveto d => ⟨c.cur + d, c.cur + d⟩
  | .rlineto d => ⟨c.cur + d, c.first⟩
  | .rcurveto _ _ d3 => ⟨c.cur + d3, c.first⟩
  | .arc x y r _ a2 => ⟨arcpoint x y r a2, c.first⟩
  | .arcn x y r _ a2 => ⟨arcpoint x y r a2, c.first⟩
  | .multilineto ps => ⟨ps.getLast?.getD c.cur, c.first⟩
  | .multicurveto ps => ⟨(ps.getLast?.map fun q => q.2.2).getD c.cur, c.first⟩
  | .arct _ _ _ => c -- see `expand`

/-- `createbbox` (`path.py:224, 340-341, 619-621, 713-715`). -/
def createbbox : PItem → Except PErr (BBox ℝ)
  | .moveto p => .ok (some ⟨p.1, p.2, p.1, p.2⟩)
  | .arc x y r a1 a2 => .ok (some (arcbbox x y r a1 a2))
  | .arcn x y r a1 a2 => .ok (some (arcbbox x y r a2 a1))
  | _ => .error .start

/-- Including the range of a Bezier curve (`path.py:433-436`). -/
def includeCurve (b : BBox ℝ) (p0 p1 p2 p3 : Pt) : BBox ℝ :=
  let x := bezierpolyrange p0.1 p1.1 p2.1 p3.1
  let y := bezierpolyrange p0.2 p1.2 p2.2 p3.2
  (b.includepoint x.1 y.1).includepoint x.2 y.2

/-- Including the box of an arc (`path.py:631-634`). -/
def includeQuad (b : BBox ℝ) (q : Quad ℝ) : BBox ℝ := (b.includepoint q.llx q.lly).includepoint q.urx q.ury

/-- The loop of `multicurveto_pt.updatebbox` (`path.py:1042-1047`). -/
def includeCurves (b : BBox ℝ) (cur : Pt) : List (Pt × Pt × Pt) → BBox ℝ
  | [] => b
  | q :: qs => includeCurves (includeCurve b cur q.1 q.2.1 q.2.2) q.2.2 qs

/-- `updatebbox`, new box (`path.py:302-304, 353-354, 391-392, 432-436, 474-475, 519-520, 560-570, 630-634, 724-728, 1001-1003, 1041-1047`). -/
def updatebbox (b : BBox ℝ) (c : Ctx) : PItem → BBox ℝ
  | .closepath => b
  | .moveto p => b.includepoint p.1 p.2
  | .lineto p => b.includepoint p.1 p.2
  | .curveto p1 p2 p3 => includeCurve b c.cur p1 p2 p3
  | .rmoveto d => b.includepoint (c.cur.1 + d.1) (c.cur.2 + d.2)
  | .rlineto d => b.includepoint (c.cur.1 + d.1) (c.cur.2 + d.2)
  | .rcurveto d1 d2 d3 => includeCurve b c.cur (c.cur.1 + d1.1, c.cur.2 + d1.2) (c.cur.1 + d2.1, c.cur.2 + d2.2) (c.cur.1 + d3.1, c.cur.2 + d3.2)
  | .arc x y r a1 a2 => includeQuad b (arcbbox x y r a1 a2)
  | .arcn x y r a1 a2 => includeQuad b (arcbbox x y r a2 a1)
  | .multilineto ps => ps.foldl (fun b p => b.includepoint p.1 p.2) b
  | .multicurveto ps => includeCurves b c.cur ps
  | .arct _ _ _ => b -- see `expand`

/-- Updating for a list of items which are no `arct`. -/
def updatebboxes (s : BBox ℝ × Ctx) (is : List PItem) : BBox ℝ × Ctx :=
  is.foldl (fun s i => (updatebbox s.1 s.2 i, advance s.2 i)) s

/-- The loop of `path.bbox` (`path.py:1166-1167`). -/
def bboxLoop (s : BBox ℝ × Ctx) : List PItem → Except PErr (BBox ℝ)
  | [] => .ok s.1
  | i :: is =>
    match expand s.2.cur i with
    | .ok js => bboxLoop (updatebboxes s js) is
    | .error e => .error e

/-- `path.bbox` (`path.py:1161-1170`). -/
def bbox : List PItem → Except PErr (BBox ℝ)
  | [] => .ok none
  | i :: is =>
    match createbbox i, createcontext i with
    | .ok b, .ok c => bboxLoop (b, c) is
    | .error e, _ => .error e
    | _, .error e => .error e

/-! ## PostScript -/

/-- PostScript path construction operators. -/
inductive PsOp
  | closepath
  | moveto (p : Pt)
  | lineto (p : Pt)
  | curveto (p1 p2 p3 : Pt)
  | rmoveto (d : Pt)
  | rlineto (d : Pt)
  | rcurveto (d1 d2 d3 : Pt)
  | arc (x y r angle1 angle2 : ℝ)
  | arcn (x y r angle1 angle2 : ℝ)
  | arct (p1 p2 : Pt) (r : ℝ)

/-- `outputPS` of the items (`path.py:311-312, 367-368, 402-403, 448-451, 493-494, 530-531, 582-585, 648-652, 745-749, 874-877, 1014-1016,
1056-1058`). -/
def itemPS : PItem → List PsOp
  | .closepath => [.closepath]
  | .moveto p => [.moveto p]
  | .lineto p => [.lineto p]
  | .curveto p1 p2 p3 => [.curveto p1 p2 p3]
  | .rmoveto d => [.rmoveto d]
  | .rlineto d => [.rlineto d]
  | .rcurveto d1 d2 d3 => [.rcurveto d1 d2 d3]
  | .arc x y r a1 a2 => [.arc x y r a1 a2]
  | .arcn x y r a1 a2 => [.arcn x y r a1 a2]
  | .arct p1 p2 r => [.arct p1 p2 r]
  | .multilineto ps => ps.map .lineto
  | .multicurveto ps => ps.map fun q => .curveto q.1 q.2.1 q.2.2

/-- `path.outputPS` (`path.py:1297-1300`). -/
def outputPS (is : List PItem) : List PsOp := is.flatMap itemPS

/-! ## SVG -/

/-- SVG path commands; `a r large sweep p` is `A r r 0 large sweep p`. -/
inductive SvgOp
  | Z
  | M (p : Pt)
  | L (p : Pt)
  | C (p1 p2 p3 : Pt)
  | m (d : Pt)
  | l (d : Pt)
  | c (d1 d2 d3 : Pt)
  | A (r : ℝ) (large sweep : Bool) (p : Pt)

/-- `inverse_y`. -/
def flipIf (inv : Bool) (p : Pt) : Pt := if inv then (p.1, -p.2) else p

open Classical in
/-- The end angle of `arc_pt.returnSVGdata` (`path.py:667-671`), in degrees. -/
def svgEndAngle (a1 a2 : ℝ) : ℝ :=
  if a2 < a1 then a2 + (⌊(a1 - a2) / 360⌋ + 1) * 360
  else if a2 > a1 + 360 then a2 - (⌊(a2 - a1) / 360⌋ - 1) * 360
  else a2

/-- The number of parts (`path.py:674, 771`); the difference of the angles is not negative. -/
def svgParts (d : ℝ) : ℕ := ⌊d / 350⌋.toNat + 1

open Classical in
/-- The arcs from `b1` to `b2` degrees in equal parts (`path.py:676-682, 773-779`). -/
def svgArcs (inv : Bool) (x y r b1 b2 : ℝ) (sweep : Bool) : List SvgOp :=
  let n := svgParts |b2 - b1|
  (List.range n).map fun (i : ℕ) =>
    .A r (decide (|b2 - b1| / n > 180)) sweep (flipIf inv (arcpoint x y r (b1 + (i + 1) * (b2 - b1) / n)))

/-- `returnSVGdata` of the items other than `arct`: the commands and the context afterwards (`path.py:314-315, 370-375, 405-410, 453-458, 496-503,
533-538, 587-592, 654-686, 751-783, 1018-1023, 1060-1066`).  `closepath` does not change the context, and the arcs put the mirrored point into it. -/
def itemSVG (inv first : Bool) (ctx : Ctx) : PItem → List SvgOp × Ctx
  | .closepath => ([.Z], ctx)
  | .moveto p => ([.M (flipIf inv p)], ⟨p, p⟩)
  | .lineto p => ([.L (flipIf inv p)], ⟨p, ctx.first⟩)
  | .curveto p1 p2 p3 => ([.C (flipIf inv p1) (flipIf inv p2) (flipIf inv p3)], ⟨p3, ctx.first⟩)
  | .rmoveto d => ([.m (flipIf inv d)], ⟨ctx.cur + d, ctx.cur + d⟩)
  | .rlineto d => ([.l (flipIf inv d)], ⟨ctx.cur + d, ctx.first⟩)
  | .rcurveto d1 d2 d3 => ([.c (flipIf inv d1) (flipIf inv d2) (flipIf inv d3)], ⟨ctx.cur + d3, ctx.first⟩)
  | .arc x y r a1 a2 =>
    let p := flipIf inv (arcpoint x y r a1)
    let b2 := svgEndAngle a1 a2
    ((if first then .M p else .L p) :: svgArcs inv x y r a1 b2 false, ⟨flipIf inv (arcpoint x y r b2), ctx.first⟩)
  | .arcn x y r a1 a2 =>
    let p := flipIf inv (arcpoint x y r a1)
    let b1 := svgEndAngle a2 a1
    ((if first then .M p else .L p) :: svgArcs inv x y r b1 a2 true, ⟨flipIf inv (arcpoint x y r a2), ctx.first⟩)
  | .multilineto ps => (ps.map fun p => .L (flipIf inv p), ⟨ps.getLast?.getD ctx.cur, ctx.first⟩)
  | .multicurveto ps =>
    (ps.map fun q => .C (flipIf inv q.1) (flipIf inv q.2.1) (flipIf inv q.2.2), ⟨(ps.getLast?.map fun q => q.2.2).getD ctx.cur, ctx.first⟩)
  | .arct _ _ _ => ([], ctx) -- see `expand`

/-- For a list of items other than `arct`. -/
def itemsSVG (inv first : Bool) (ctx : Ctx) : List PItem → List SvgOp × Ctx
  | [] => ([], ctx)
  | i :: is =>
    let r := itemSVG inv first ctx i
    let r' := itemsSVG inv first r.2 is
    (r.1 ++ r'.1, r'.2)

/-- The loop of `path.returnSVGdata` (`path.py:1314`). -/
def svgLoop (inv first : Bool) (ctx : Ctx) : List PItem → Except PErr (List SvgOp)
  | [] => .ok []
  | i :: is =>
    match expand ctx.cur i with
    | .ok js =>
      match svgLoop inv false (itemsSVG inv first ctx js).2 is with
      | .ok l => .ok ((itemsSVG inv first ctx js).1 ++ l)
      | .error e => .error e
    | .error e => .error e

/-- `path.returnSVGdata` (`path.py:1309-1314`). -/
def returnSVGdata (inv : Bool) (is : List PItem) : Except PErr (List SvgOp) :=
  match is with
  | [] => .ok []
  | i :: _ =>
    match createcontext i with
    | .ok c => svgLoop inv true c is
    | .error e => .error e

/-! ## Normpath -/

/-- A `normpath` built from a path; `hidden` tells that the first item of the first sub-path is a `pdfmoveto_pt` (`path.py:318-321`), a line of zero length
which is not written to PDF. -/
structure NP where
  subs : List Sub
  hidden : Bool

variable (roots : ℝ → ℝ → ℝ → ℝ → List ℝ) (eps : Option ℝ) (n : ℕ)

/-- Exceptions of the sub-path. -/
def lift (o : Out) : Except PErr Sub :=
  match o with
  | (s, none) => .ok s
  | (_, some e) => .error (.norm e)

/-- The curves of a clockwise arc (`path.py:719, 739-742`). -/
def arcnCurves (x y r a1 a2 : ℝ) : List (Curve ℝ) := ((arctobezierpath x y r a2 a1).reverse).map Curve.reversed

/-- `createnormpath` (`path.py:235, 343-351, 623-628, 717-722`).  (The reversal of the normpath of `arcn` is that of its only sub-path, `normpath.py:1848-1853`.) -/
def createnormpath : PItem → Except PErr NP
  | .moveto p => (lift (Sub.make roots eps n [.line ⟨p.1, p.2, p.1, p.2⟩] false)).map fun s => ⟨[s], eps.isNone⟩
  | .arc x y r a1 a2 => (lift (Sub.make roots eps n ((arctobezierpath x y r a1 a2).map .curve) false)).map fun s => ⟨[s], false⟩
  | .arcn x y r a1 a2 =>
    match lift (Sub.make roots eps n ((arctobezierpath x y r a2 a1).map .curve) false) with
    | .ok s => (lift (Sub.reversed roots eps n s)).map fun s => ⟨[s], false⟩
    | .error e => .error e
  | _ => .error .start

/-- Changing the last sub-path, `normpath.normsubpaths[-1]`. -/
def onLast (np : NP) (f : Sub → Out) : Except PErr NP :=
  match np.subs.getLast? with
  | none => .error (.norm .index)
  | some s => (lift (f s)).map fun s' => ⟨np.subs.dropLast ++ [s'], np.hidden⟩

/-- Appending a new sub-path. -/
def addSub (np : NP) (o : Out) : Except PErr NP := (lift o).map fun s => ⟨np.subs ++ [s], np.hidden⟩

/-- A line between points. -/
def lineItem (p q : Pt) : Item ℝ := .line ⟨p.1, p.2, q.1, q.2⟩

/-- A curve given by points. -/
def curveItem (p0 p1 p2 p3 : Pt) : Item ℝ := .curve ⟨p0.1, p0.2, p1.1, p1.2, p2.1, p2.2, p3.1, p3.2⟩

/-- The new sub-path of `moveto` and `rmoveto` (`path.py:359-363, 486-491`). -/
def movetoSub (p : Pt) : Out :=
  match eps with
  | some _ => Sub.make roots eps n [lineItem p p] false
  | none => (Sub.fresh, none)

/-- The lines of `multilineto_pt` (`path.py:1008-1011`). -/
def lineItems (cur : Pt) : List Pt → List (Item ℝ)
  | [] => []
  | p :: ps => lineItem cur p :: lineItems p ps

/-- The curves of `multicurveto_pt` (`path.py:1050-1053`). -/
def curveItems (cur : Pt) : List (Pt × Pt × Pt) → List (Item ℝ)
  | [] => []
  | q :: qs => curveItem cur q.1 q.2.1 q.2.2 :: curveItems q.2.2 qs

/-- The sub-path to which an arc is appended (`path.py:638-644, 732-738`): a new one after a closed one. -/
def arcStart (np : NP) (cur begin_ : Pt) : Except PErr NP :=
  match np.subs.getLast? with
  | none => .error (.norm .index)
  | some s =>
    if s.closed then addSub np (Sub.make roots eps n [lineItem cur begin_] false)
    else onLast np fun s => s.append roots eps n (lineItem cur begin_)

/-- `updatenormpath`, new normpath (`path.py:306-307, 358-363, 396-398, 440-444, 481-491, 524-526, 574-578, 637-645, 731-742, 1007-1011,
1049-1053`). -/
def updatenormpath (np : NP) (c : Ctx) : PItem → Except PErr NP
  | .closepath => onLast np fun s => s.close roots eps n
  | .moveto p => addSub np (movetoSub roots eps n p)
  | .lineto p => onLast np fun s => s.append roots eps n (lineItem c.cur p)
  | .curveto p1 p2 p3 => onLast np fun s => s.append roots eps n (curveItem c.cur p1 p2 p3)
  | .rmoveto d => addSub np (movetoSub roots eps n (c.cur + d))
  | .rlineto d => onLast np fun s => s.append roots eps n (lineItem c.cur (c.cur.1 + d.1, c.cur.2 + d.2))
  | .rcurveto d1 d2 d3 => onLast np fun s => s.append roots eps n
      (curveItem c.cur (c.cur.1 + d1.1, c.cur.2 + d1.2) (c.cur.1 + d2.1, c.cur.2 + d2.2) (c.cur.1 + d3.1, c.cur.2 + d3.2))
  | .arc x y r a1 a2 =>
    match arcStart roots eps n np c.cur (arcpoint x y r a1) with
    | .ok np => onLast np fun s => s.extend roots eps n ((arctobezierpath x y r a1 a2).map .curve)
    | .error e => .error e
  | .arcn x y r a1 a2 =>
    match arcStart roots eps n np c.cur (arcpoint x y r a1) with
    | .ok np => onLast np fun s => s.extend roots eps n ((arcnCurves x y r a1 a2).map .curve)
    | .error e => .error e
  | .multilineto ps => onLast np fun s => s.extend roots eps n (lineItems c.cur ps)
  | .multicurveto ps => onLast np fun s => s.extend roots eps n (curveItems c.cur ps)
  | .arct _ _ _ => .ok np -- see `expand`

/-- Updating for a list of items which are no `arct`. -/
def updatenormpaths (np : NP) (c : Ctx) : List PItem → Except PErr (NP × Ctx)
  | [] => .ok (np, c)
  | i :: is =>
    match updatenormpath roots eps n np c i with
    | .ok np => updatenormpaths np (advance c i) is
    | .error e => .error e

/-- The loop of `path.normpath` (`path.py:1227-1228`). -/
def normLoop (np : NP) (c : Ctx) : List PItem → Except PErr NP
  | [] => .ok np
  | i :: is =>
    match expand c.cur i with
    | .ok js =>
      match updatenormpaths roots eps n np c js with
      | .ok s => normLoop s.1 s.2 is
      | .error e => .error e
    | .error e => .error e

/-- `path.normpath` (`path.py:1216-1233`), without the cache. -/
def normpath : List PItem → Except PErr NP
  | [] => .ok ⟨[], false⟩
  | i :: is =>
    match createnormpath roots eps n i, createcontext i with
    | .ok np, .ok c => normLoop roots eps n np c is
    | .error e, _ => .error e
    | _, .error e => .error e

/-! ## PDF -/

/-- PDF path construction operators. -/
inductive PdfOp
  | m (p : Pt)
  | l (p : Pt)
  | c (p1 p2 p3 : Pt)
  | h

/-- `outputPDF` of the items (`normpath.py:356-357, 678-679`). -/
def pdfItem : Item ℝ → PdfOp
  | .line l => .l (l.x1, l.y1)
  | .curve c => .c (c.x1, c.y1) (c.x2, c.y2) (c.x3, c.y3)

/-- `isinstance(item, normline_pt)`. -/
def isLine : Item ℝ → Bool
  | .line _ => true
  | .curve _ => false

/-- The items written (`normpath.py:1418-1422`). -/
def shown (s : Sub) : Except PErr (List (Item ℝ)) :=
  if s.closed && (s.items.getLast?.map isLine).getD false then
    if s.items.length > 1 then .ok s.items.dropLast else .error .assertion
  else .ok s.items

/-- `normsubpath.outputPDF` (`normpath.py:1413-1427`). -/
def subPDF (hidden : Bool) (s : Sub) : Except PErr (List PdfOp) :=
  match s.begin_, s.items with
  | _, [] => .ok []
  | none, _ => .ok [] -- does not occur
  | some b, _ =>
    match shown s with
    | .ok is => .ok (.m b :: ((if hidden then is.drop 1 else is).map pdfItem) ++ if s.closed then [.h] else [])
    | .error e => .error e

/-- `normpath.outputPDF` (`normpath.py:1993-1995`). -/
def subsPDF (hidden : Bool) : List Sub → Except PErr (List PdfOp)
  | [] => .ok []
  | s :: ss =>
    match subPDF hidden s, subsPDF false ss with
    | .ok a, .ok b => .ok (a ++ b)
    | .error e, _ => .error e
    | _, .error e => .error e

/-- `path.outputPDF` (`path.py:1302-1307`). -/
def outputPDF (is : List PItem) : Except PErr (List PdfOp) :=
  match normpath roots none n is with
  | .ok np => subsPDF np.hidden np.subs
  | .error e => .error e

end

end PyX.Path
