import Verif.Style.Line
import Mathlib.Analysis.SpecialFunctions.Trigonometric.Basic
import Mathlib.Analysis.Real.Pi.Bounds

/-!
# C134: symbols, impulses, texts, arrows, rectangles and colours of data points (`graph/style.py:110-170, 394-507, 666-724, 805-978, 2050-2118`): model
-/

set_option linter.unusedSectionVars false

namespace PyX.Points

open PyX.Style

variable {K : Type} [Field K] [LinearOrder K] [IsStrictOrderedRing K] {n : ℕ}

/-- `vposvalid` and `vpos` of a point (`style.py:222-235`), where a coordinate is `none` if it cannot be converted: the position if it is available and within the graph. -/
def inside (eps : K) (v : Fin n → Option K) : Option (VPos K n) :=
  if (∀ i, (v i).isSome) ∧ valid eps (fun i => (v i).getD 0) then some fun i => (v i).getD 0 else none

/-! ## Symbols -/

/-- The predefined symbols. -/
inductive Sym
  | cross
  | plus
  | square
  | triangle
  | circle
  | diamond
  deriving DecidableEq

/-- What a symbol draws: separate lines, a closed polygon or a circle. -/
inductive Shape (K : Type)
  | lines (l : List ((K × K) × (K × K)))
  | polygon (l : List (K × K))
  | circle (c : K × K) (r : K)

/-- The symbols (`style.py:395-432`). -/
def symbol (s : Sym) (x y size : K) : Shape K :=
  match s with
  | .cross => .lines [((x - 1 / 2 * size, y - 1 / 2 * size), (x + 1 / 2 * size, y + 1 / 2 * size)),
      ((x - 1 / 2 * size, y + 1 / 2 * size), (x + 1 / 2 * size, y - 1 / 2 * size))]
  | .plus => .lines [((x - 707106781 / 1000000000 * size, y), (x + 707106781 / 1000000000 * size, y)),
      ((x, y - 707106781 / 1000000000 * size), (x, y + 707106781 / 1000000000 * size))]
  | .square => .polygon [(x - 1 / 2 * size, y - 1 / 2 * size), (x + 1 / 2 * size, y - 1 / 2 * size),
      (x + 1 / 2 * size, y + 1 / 2 * size), (x - 1 / 2 * size, y + 1 / 2 * size)]
  | .triangle => .polygon [(x - 759835685 / 1000000000 * size, y - 438691337 / 1000000000 * size),
      (x + 759835685 / 1000000000 * size, y - 438691337 / 1000000000 * size), (x, y + 877382675 / 1000000000 * size)]
  | .circle => .circle (x, y) (564189583 / 1000000000 * size)
  | .diamond => .polygon [(x - 537284965 / 1000000000 * size, y), (x, y - 930604859 / 1000000000 * size),
      (x + 537284965 / 1000000000 * size, y), (x, y + 930604859 / 1000000000 * size)]

/-- `symbol.drawpoint` for all points (`style.py:496-499`): `f` is `graph.vpos_pt`, `on` tells whether there are attributes. -/
def symbols (f : VPos K n → K × K) (eps : K) (s : Sym) (size : K) (on : Bool) (pts : List (Fin n → Option K)) : List (Shape K) :=
  pts.flatMap fun v =>
    match inside eps v with
    | none => []
    | some u => if on then [symbol s (f u).1 (f u).2 size] else []

/-! ## Impulses -/

/-- `vfromvalue` (`style.py:701-713`): the converted value, if any, cut to the graph. -/
def base : Option K → K
  | none => 0
  | some c =>
    let c := if c < 0 then 0 else c
    if 1 < c then 1 else c

/-- `impulses.drawpoint` (`style.py:715-719`): the two ends of the line (`graph.vgeodesic`) in the graph. -/
def impulse (eps : K) (frm : Option K) (i : Fin n) (v : Fin n → Option K) : Option (VPos K n × VPos K n) :=
  (inside eps v).map fun u => (Function.update u i (base frm), u)

/-! ## Texts -/

/-- The offset of a text in one direction (`style.py:862-870`): a fixed one, or the value of a column times a unit. -/
def offset (fixed unit : K) (column : Option K) : K :=
  match column with
  | none => fixed
  | some c => c * unit

/-- `text.drawpoint` (`style.py:854-871`): where the text is. -/
def textAt (f : VPos K n → K × K) (eps : K) (dx dy : K) (v : Fin n → Option K) : Option (K × K) :=
  (inside eps v).map fun u => ((f u).1 + dx, (f u).2 + dy)

/-! ## Rectangles -/

/-- A range, cut at the boundary of the graph (`style.py:967-974`). -/
def cutRange (r : K × K) : K × K := if r.1 < 0 then (0, r.2) else if 1 < r.2 then (r.1, 1) else r

/-- The test whether a range is in the graph (`style.py:963-966`). -/
def rangeOn (lo hi : Option K) : Option (K × K) :=
  match lo, hi with
  | some a, some b => if a < 1 ∧ 0 < b then some (a, b) else none
  | _, _ => none

/-- `rect.drawpoint` (`style.py:958-979`): the corners of the rectangle, in the order of its path. -/
def rect (xlo xhi ylo yhi : Option K) : Option (List (K × K)) :=
  match rangeOn xlo xhi, rangeOn ylo yhi with
  | some rx, some ry =>
    let x := cutRange rx
    let y := cutRange ry
    some [(x.1, y.1), (x.2, y.1), (x.2, y.2), (x.1, y.2)]
  | _, _ => none

/-- The columns of the data a `rect` asks for (`style.py:950-955`, `style.py:122-123`), and the value its colour is made of (`style.py:980`). -/
def rectColumns (colorname : String) : List String := [colorname]

def rectColour (point : String → Option K) : Option K := point "color"

/-! ## Colours -/

/-- `_keygraphstyle.color` (`style.py:149-157`): the parameter of the gradient. -/
def colourParam (vc : K) : K :=
  let vc := if vc < 0 then 0 else vc
  if 1 < vc then 1 else vc

/-- The parameter of the gradient for pixel `i` of the key (`style.py:2079-2081`). -/
def keyPixelParam (res i : ℕ) : K := i * 1 / res

/-- `graphx.vpos_pt` (`graph.py:657-658`, `graph.py:453-457`): the graph of the key at `(x, y)` with width `w` and height `h`. -/
def keyPos (vertical : Bool) (x y w h v : K) : K × K := if vertical then (x + 1 / 2 * w, y + v * h) else (x + v * w, y + 1 / 2 * h)

/-- The rectangle of the key (`style.py:2084-2094`): lower left and upper right corner; it is the clipping path. -/
def keyClip (vertical : Bool) (x y w h : K) : (K × K) × (K × K) :=
  let ll := keyPos vertical x y w h 0
  let ur := keyPos vertical x y w h 1
  if vertical then ((ll.1 - 1 / 2 * w, ll.2), (ur.1 + 1 / 2 * w, ur.2)) else ((ll.1, ll.2 - 1 / 2 * h), (ur.1, ur.2 + 1 / 2 * h))

/-- The bitmap of the key (`style.py:2098-2110`): where a point of the unit square of the image is; column `i` of the image is between `i/res` and `(i+1)/res`. -/
def keyImage (vertical : Bool) (res : ℕ) (x y w h : K) (p : K × K) : K × K :=
  let c := keyClip vertical x y w h
  if vertical then
    let add := (c.2.2 - c.1.2) * (1 / 2) / (res - 1)
    let lly := c.1.2 - add
    let ury := c.2.2 + add
    ((c.2.1 - c.1.1) * p.2 + c.1.1, (ury - lly) * p.1 + lly)
  else
    let add := (c.2.1 - c.1.1) * (1 / 2) / (res - 1)
    let llx := c.1.1 - add
    let urx := c.2.1 + add
    ((urx - llx) * p.1 + llx, (c.2.2 - c.1.2) * p.2 + c.1.2)

/-! ## Arrows -/

/-- The line of an arrow (`style.py:924-929`), angle in degrees. -/
noncomputable def arrowLine (arrowpos linelength size angle x y : ℝ) : (ℝ × ℝ) × (ℝ × ℝ) :=
  let dx := Real.cos (angle * Real.pi / 180)
  let dy := Real.sin (angle * Real.pi / 180)
  ((x - arrowpos * dx * linelength * size, y - arrowpos * dy * linelength * size),
   (x + (1 - arrowpos) * dx * linelength * size, y + (1 - arrowpos) * dy * linelength * size))

/-- `arrow.drawpoint` (`style.py:914-936`): the line and the size of the head. -/
noncomputable def arrow (f : VPos ℝ n → ℝ × ℝ) (eps epsilon arrowpos linelength arrowsize : ℝ) (size angle : Option ℝ) (v : Fin n → Option ℝ) : Option (((ℝ × ℝ) × (ℝ × ℝ)) × ℝ) :=
  match inside eps v, size, angle with
  | some u, some s, some a => if epsilon < s then some (arrowLine arrowpos linelength s a (f u).1 (f u).2, arrowsize * s) else none
  | _, _, _ => none

end PyX.Points
