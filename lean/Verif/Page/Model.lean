import Verif.BBox.Model
import Verif.Trafo.Props

/-!
# Model of the placing of a page's content (`pyx/document.py:71-129`)

All lengths are in points.  The warnings about content exceeding the paper are not modelled.  `rotate(90)`
is taken as the exact quarter turn; `rotate_quarter` shows that this is what the formula of `trafo.py` gives
over the reals.
-/

namespace PyX.Page

/-- The exceptions `page._process` may raise. -/
inductive Err
  /-- `ValueError`, margins too broad (`document.py:104`) -/
  | value
  /-- division by the width or height of the content (`document.py:111, 113`) -/
  | zeroDivision
deriving DecidableEq, Repr

variable {K : Type*} [Field K] [LinearOrder K]

/-- `trafo.rotate(90)`. -/
def quarter : Trafo K := ⟨0, -1, 1, 0, 0, 0⟩

/-- The attributes of a page which matter (`document.py:51-69`); paper and margin in points. -/
structure Opts (K : Type*) where
  /-- `paperformat.width`, `paperformat.height`; `None` without a paper format -/
  paper : Option (K × K)
  rotated : Bool
  centered : Bool
  fittosize : Bool
  margin : K
  bboxenlarge : K
  /-- the `bbox` argument -/
  pagebbox : BBox K

/-- Turning and centring (`document.py:87-99`). -/
def place (pw ph : K) (rotated centred : Bool) (b : Quad K) : Trafo K :=
  if rotated then
    let t := Trafo.mul (.translate pw 0) quarter
    if centred then
      Trafo.mul (.translate (-(1 / 2) * (pw - (b.ury - b.lly)) + b.lly) (1 / 2 * (ph - (b.urx - b.llx)) - b.llx)) t
    else t
  else .translate (1 / 2 * (pw - (b.urx - b.llx)) - b.llx) (1 / 2 * (ph - (b.ury - b.lly)) - b.lly)

/-- The scale factor (`document.py:109-113`) for the paper less the margins. -/
def sfactor (pw ph : K) (rotated : Bool) (b : Quad K) : Except Err K :=
  if b.urx - b.llx = 0 ∨ b.ury - b.lly = 0 then .error .zeroDivision
  else if rotated then .ok (min (ph / (b.urx - b.llx)) (pw / (b.ury - b.lly)))
  else .ok (min (pw / (b.urx - b.llx)) (ph / (b.ury - b.lly)))

/-- `scaled(s, s, x, y)` (`pyx/trafo.py:148, 217-226`), with the centre given. -/
def scaleAt (s x y : K) : Trafo K := ⟨s, 0, 0, s, (1 - s) * x, (1 - s) * y⟩

/-- Fitting (`document.py:101-115`). -/
def fit (pw ph margin : K) (rotated : Bool) (b : Quad K) (t : Trafo K) : Except Err (Trafo K) :=
  if 2 * margin > pw ∨ 2 * margin > ph then .error .value
  else
    match sfactor (pw - 2 * margin) (ph - 2 * margin) rotated b with
    | .error e => .error e
    | .ok s => .ok (Trafo.mul (scaleAt s (margin + 1 / 2 * (pw - 2 * margin)) (margin + 1 / 2 * (ph - 2 * margin))) t)

/-- The box of the content (`document.py:75-79`). -/
def contentBox (o : Opts K) (canvas : BBox K) : BBox K :=
  match o.pagebbox with
  | some b => some b
  | none => canvas.enlarged o.bboxenlarge none none none none

/-- `page._process` up to the output of the canvas (`document.py:83-122`): the page transformation, if there is
one, and the box. -/
def process (o : Opts K) (canvas : BBox K) : Except Err (Option (Trafo K) × BBox K) :=
  match o.paper, contentBox o canvas with
  | some p, some b =>
    if o.rotated || o.centered || o.fittosize then
      let t := place p.1 p.2 o.rotated (o.centered || o.fittosize) b
      if o.fittosize then
        match fit p.1 p.2 o.margin o.rotated b t with
        | .error e => .error e
        | .ok t => .ok (some t, BBox.transformed (some b) t)
      else .ok (some t, BBox.transformed (some b) t)
    else .ok (none, some b)
  | some _, none => .ok (none, none)
  | none, b => .ok (none, b)

end PyX.Page
