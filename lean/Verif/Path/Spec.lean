import Verif.Path.Model

/-!
# What path construction operators draw

A small machine for the path construction operators of PostScript (PLRM, chapter 8), PDF (ISO 32000-1, 8.5.2) and SVG (SVG 1.1, 8.3): a
pen collecting figures.  A figure is a begin point, the lines and curves from there, each one beginning where the previous one ends, and whether it is
closed.  Sub-paths without any line, curve or closing draw nothing.
-/

set_option linter.unusedSectionVars false

namespace PyX.Path

open PyX.NormPath

/-- A line or curve from the current point. -/
inductive Draw
  | line (p : Pt)
  | curve (p1 p2 p3 : Pt)
  | svgArc (r : ℝ) (large sweep : Bool) (p : Pt)

@[ext]
structure Figure where
  start : Pt
  draws : List Draw
  closed : Bool

/-- A pen with a current point `cur` in the sub-path from `start`; `fresh` tells that the sub-path was begun by closing the previous one. -/
@[ext]
structure Pen where
  done : List Figure
  start : Pt
  draws : List Draw
  fresh : Bool
  cur : Pt

/-- `empty`: no current point; `error`: an operator needing a current point without one. -/
inductive PenState
  | empty
  | pen (s : Pen)
  | error

namespace Pen

/-- All figures: the finished ones and the current one. -/
def figures (s : Pen) : List Figure := s.done ++ if s.draws.isEmpty then [] else [⟨s.start, s.draws, false⟩]

def moveTo (s : Pen) (p : Pt) : Pen := ⟨s.figures, p, [], false, p⟩

def lineTo (s : Pen) (p : Pt) : Pen := ⟨s.done, s.start, s.draws ++ [.line p], false, p⟩

def curveTo (s : Pen) (p1 p2 p3 : Pt) : Pen := ⟨s.done, s.start, s.draws ++ [.curve p1 p2 p3], false, p3⟩

def arcTo (s : Pen) (r : ℝ) (large sweep : Bool) (p : Pt) : Pen := ⟨s.done, s.start, s.draws ++ [.svgArc r large sweep p], false, p⟩

/-- Closing; a path just closed is not closed again. -/
def close (s : Pen) : Pen :=
  if s.fresh then s else ⟨s.done ++ [⟨s.start, s.draws, true⟩], s.start, [], true, s.start⟩

/-- Several curves given as Bezier curves, the first one beginning at the current point. -/
def curves (s : Pen) (cs : List (Curve ℝ)) : Pen := cs.foldl (fun s c => s.curveTo (c.x1, c.y1) (c.x2, c.y2) (c.x3, c.y3)) s

end Pen

namespace PenState

def figures : PenState → List Figure
  | .pen s => s.figures
  | _ => []

/-- Operators which need a current point. -/
def need (f : Pen → Pen) : PenState → PenState
  | .pen s => .pen (f s)
  | _ => .error

def moveTo (p : Pt) : PenState → PenState
  | .empty => .pen ⟨[], p, [], false, p⟩
  | .pen s => .pen (s.moveTo p)
  | .error => .error

/-- A line if there is a current point, otherwise a move. -/
def lineOrMove (p : Pt) : PenState → PenState
  | .empty => .pen ⟨[], p, [], false, p⟩
  | .pen s => .pen (s.lineTo p)
  | .error => .error

/-- Closing without a current point does nothing. -/
def close : PenState → PenState
  | .pen s => .pen s.close
  | st => st

end PenState

/-- How an interpreter draws arcs by Bezier curves: counterclockwise, clockwise and tangent arcs (the latter
given the current point, with their first and last point). -/
structure Arcs where
  arc : ℝ → ℝ → ℝ → ℝ → ℝ → List (Curve ℝ)
  arcn : ℝ → ℝ → ℝ → ℝ → ℝ → List (Curve ℝ)
  arct : Pt → Pt → Pt → ℝ → Pt × List (Curve ℝ) × Pt

noncomputable section

/-- PostScript operators. -/
def psStep (A : Arcs) (st : PenState) : PsOp → PenState
  | .closepath => st.close
  | .moveto p => st.moveTo p
  | .lineto p => st.need fun s => s.lineTo p
  | .curveto p1 p2 p3 => st.need fun s => s.curveTo p1 p2 p3
  | .rmoveto d => st.need fun s => s.moveTo (s.cur + d)
  | .rlineto d => st.need fun s => s.lineTo (s.cur + d)
  | .rcurveto d1 d2 d3 => st.need fun s => s.curveTo (s.cur + d1) (s.cur + d2) (s.cur + d3)
  | .arc x y r a1 a2 =>
    (st.lineOrMove (arcpoint x y r a1)).need fun s => { s.curves (A.arc x y r a1 a2) with cur := arcpoint x y r a2 }
  | .arcn x y r a1 a2 =>
    (st.lineOrMove (arcpoint x y r a1)).need fun s => { s.curves (A.arcn x y r a1 a2) with cur := arcpoint x y r a2 }
  | .arct p1 p2 r => st.need fun s => 
    { (s.lineTo (A.arct s.cur p1 p2 r).1).curves (A.arct s.cur p1 p2 r).2.1 with cur := (A.arct s.cur p1 p2 r).2.2 }

def runPS (A : Arcs) (ops : List PsOp) : PenState := ops.foldl (psStep A) .empty

/-- PDF operators. -/
def pdfStep (st : PenState) : PdfOp → PenState
  | .m p => st.moveTo p
  | .l p => st.need fun s => s.lineTo p
  | .c p1 p2 p3 => st.need fun s => s.curveTo p1 p2 p3
  | .h => st.need Pen.close

def runPDF (ops : List PdfOp) : PenState := ops.foldl pdfStep .empty

/-- SVG commands.  A path has to begin with a move; `Z` closes the sub-path, a command other than a move following it begins a sub-path there. -/
def svgStep (st : PenState) : SvgOp → PenState
  | .Z => st.need Pen.close
  | .M p => st.moveTo p
  | .L p => st.need fun s => s.lineTo p
  | .C p1 p2 p3 => st.need fun s => s.curveTo p1 p2 p3
  | .m d => st.need fun s => s.moveTo (s.cur + d)
  | .l d => st.need fun s => s.lineTo (s.cur + d)
  | .c d1 d2 d3 => st.need fun s => s.curveTo (s.cur + d1) (s.cur + d2) (s.cur + d3)
  | .A r large sweep p => st.need fun s => s.arcTo r large sweep p

def runSVG (ops : List SvgOp) : PenState := ops.foldl svgStep .empty

end

/-- The mirrored point. -/
def flip (p : Pt) : Pt := (p.1, -p.2)

/-- The image of a figure under a map of points (arcs of SVG are only used for the mirror image, which changes their direction). -/
def Draw.image (f : Pt → Pt) : Draw → Draw
  | .line p => .line (f p)
  | .curve p1 p2 p3 => .curve (f p1) (f p2) (f p3)
  | .svgArc r large sweep p => .svgArc r large (!sweep) (f p)

def Figure.image (f : Pt → Pt) (g : Figure) : Figure := ⟨f g.start, g.draws.map (Draw.image f), g.closed⟩

end PyX.Path
