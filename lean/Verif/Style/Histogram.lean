import Verif.Style.ErrorBar

/-!
# Histograms: model of the style `histogram` (`graph/style.py:983-1325`)

All points are pairs of the position on the axis of the ranges and the value; `rangeaxisindex` only exchanges the two in calls of the graph.  A path is a list of `moveto`,
elements of `vgeodesic_el` (of which a graph with straight axes only uses the end, `graph/graph.py:481-487`), and `closepath`.
-/

set_option linter.unusedSectionVars false

namespace PyX.Style.Hist

variable {K : Type*} [Field K] [LinearOrder K] [IsStrictOrderedRing K]

abbrev Pt (K : Type*) := K × K

inductive Op (K : Type*) where
  | move (p : Pt K)
  | line (p : Pt K)
  | close
  deriving DecidableEq

/-- A range and its value (arguments of `drawvalue` which are not `None`). -/
structure Bin (K : Type*) where
  min : K
  max : K
  v : K

/-- Parameters: `steps`, `fillable`, `epsilon` of the style, and `vfromvalue` (`style.py:1237-1254`), which is between 0 and 1. -/
structure Cfg (K : Type*) where
  steps : Bool
  fillable : Bool
  eps : K
  base : K

/-- `-self.epsilon < v < 1+self.epsilon` -/
def inGraph (c : Cfg K) (v : K) : Bool := decide (-c.eps < v) && decide (v < 1 + c.eps)

/-- The cut of a value at 0 and 1 without tolerance (`style.py:1045-1056` and similar): the value, and the sign of the cut. -/
def cut (v : K) : K × Int := if v < 0 then (0, -1) else if 1 < v then (1, 1) else (v, 0)

/-- `vmoveto` (`style.py:1036-1041`). -/
def vmoveto (c : Cfg K) (pos v : K) : List (Op K) := if inGraph c pos && inGraph c v then [.move (pos, v)] else []

/-- `vposline` (`style.py:1043-1067`). -/
def vposline (c : Cfg K) (pos v1 v2 : K) : List (Op K) :=
  if inGraph c pos then
    if |(cut v1).2 + (cut v2).2| ≤ 1 then
      (if (cut v1).2 ≠ 0 ∧ c.fillable = false then [.move (pos, (cut v1).1)] else []) ++ [.line (pos, (cut v2).1)]
    else []
  else []

/-- The value of a fillable histogram is moved to the boundary (`style.py:1070-1076`). -/
def clampFill (c : Cfg K) (v : K) : K :=
  let v := if v < -c.eps then 0 else v
  if 1 + c.eps < v then 1 else v

/-- `vvalueline` (`style.py:1069-1116`). -/
def vvalueline (c : Cfg K) (v0 p1 p2 : K) : List (Op K) :=
  let v := if c.fillable then clampFill c v0 else v0
  if c.fillable || inGraph c v then
    if |(cut p1).2 + (cut p2).2| ≤ 1 then
      (if (cut p1).2 ≠ 0 then
        if c.fillable then [.move ((cut p1).1, c.base), .line ((cut p1).1, v)] else [.move ((cut p1).1, v)]
      else []) ++ [.line ((cut p2).1, v)] ++
      (if c.fillable && decide ((cut p2).2 ≠ 0) then [.line ((cut p2).1, c.base)] else [])
    else []
  else []

/-- `gap` (`style.py:1196-1199`). -/
def gap (c : Cfg K) : Option (K × K) → Option (Bin K) → Bool
  | some l, some b => decide (c.eps < |b.min - l.1|)
  | _, _ => true

/-- `drawvalue` unless a fillable histogram without steps is drawn (`style.py:1195-1225`), with the last range (`lastvmax`, `lastvvalue`). -/
def drawvalue (c : Cfg K) (last : Option (K × K)) (bin : Option (Bin K)) : List (Op K) × Option (K × K) :=
  match last, bin with
  | some l, some b =>
    let edges :=
      if !gap c last bin && (c.steps || decide ((l.2 - c.base) * (b.v - c.base) < 0)) then vposline c b.min l.2 b.v
      else
        let currentbigger := decide (|l.2 - c.base| < |b.v - c.base|)
        (if !currentbigger || gap c last bin then vposline c l.1 l.2 c.base ++ vmoveto c b.min b.v else []) ++
        (if currentbigger || gap c last bin then vmoveto c b.min c.base ++ vposline c b.min c.base b.v else [])
    (edges ++ vvalueline c b.v b.min b.max, some (b.max, b.v))
  | none, some b => (vmoveto c b.min c.base ++ vposline c b.min c.base b.v ++ vvalueline c b.v b.min b.max, some (b.max, b.v))
  | some l, none => (vposline c l.1 l.2 c.base, none)
  | none, none => ([], none)

/-- All calls of `drawvalue`, the last one by `donedrawpoints` (`style.py:1312-1313`). -/
def drawAll (c : Cfg K) : Option (K × K) → List (Option (Bin K)) → List (Op K)
  | last, [] => (drawvalue c last none).1
  | last, b :: l => (drawvalue c last b).1 ++ drawAll c (drawvalue c last b).2 l

/-- The path of a histogram which is not fillable, or has steps. -/
def path (c : Cfg K) (bins : List (Option (Bin K))) : List (Op K) := drawAll c none bins

/-! ### Fillable histograms without steps -/

/-- A coordinate is cut (`style.py:1122-1140`). -/
def cutEps (eps v : K) : K × Int := if v < -eps then (0, -1) else if 1 + eps < v then (1, 1) else (v, 0)

/-- `drawvalue` of a fillable histogram without steps (`style.py:1119-1193`); `fromcut` is `vfromvaluecut`, which is not set if `fromvalue` is `None` (`none`: `AttributeError`). -/
def drawrect (eps base : K) (fromcut : Option Int) : Option (Bin K) → Option (List (Op K))
  | none => some []
  | some b => fromcut.map fun fc =>
    let vmin := (cutEps eps b.min).1
    let vmincut := (cutEps eps b.min).2
    let vmax := (cutEps eps b.max).1
    let vmaxcut := (cutEps eps b.max).2
    let v := (cutEps eps b.v).1
    let vcut := (cutEps eps b.v).2
    let full := [.move (vmin, base), .line (vmax, base), .line (vmax, v), .line (vmin, v), .line (vmin, base), .close]
    if 1 < |vmincut| + |vmaxcut| + |vcut| + |fc| then
      if 1 < |vmincut + vmaxcut| ∨ 1 < |vcut + fc| then [] else full
    else if vmincut ≠ 0 then [.move (vmin, base), .line (vmax, base), .line (vmax, v), .line (vmin, v)]
    else if vmaxcut ≠ 0 then [.move (vmax, v), .line (vmin, v), .line (vmin, base), .line (vmax, base)]
    else if fc ≠ 0 then [.move (vmax, base), .line (vmax, v), .line (vmin, v), .line (vmin, base)]
    else if vcut ≠ 0 then [.move (vmin, v), .line (vmin, base), .line (vmax, base), .line (vmax, v)]
    else full

/-- `vfromvalue` and `vfromvaluecut` in `initdrawpoints` (`style.py:1241-1254`) for the converted `fromvalue`. -/
def initFrom : Option K → K × Option Int
  | some v => ((cut v).1, some (cut v).2)
  | none => (0, none)

/-! ### Automatic ranges -/

/-- `drawpoint` with `autohistogram` (`style.py:1259-1298`) for points behind the first one: the last position, `vrange` as far as known; `none`: `ValueError`. -/
def autoFrom (a eps : K) (last : K × Option K) : Option K → List (K × Option K) → Option (List (Option (Bin K)))
  | _, [] => some []
  | none, p :: l =>
    let w := p.1 - last.1
    (autoFrom a eps p (some w) l).map fun r =>
      last.2.map (fun v => ⟨last.1 - a * w, last.1 + (1 - a) * w, v⟩) :: p.2.map (fun v => ⟨p.1 - a * w, p.1 + (1 - a) * w, v⟩) :: r
  | some w, p :: l =>
    if eps < |w - (p.1 - last.1)| then none
    else (autoFrom a eps p (some w) l).map fun r => p.2.map (fun v => ⟨p.1 - a * w, p.1 + (1 - a) * w, v⟩) :: r

/-- The ranges of points (position, value). -/
def autoBins (a eps : K) : List (K × Option K) → Option (List (Option (Bin K)))
  | [] => some []
  | p :: l => autoFrom a eps p none l

end PyX.Style.Hist
