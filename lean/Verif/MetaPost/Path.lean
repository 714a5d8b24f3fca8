import Verif.MetaPost.Model

/-!
# Model of MetaPost-like path construction (`pyx/metapost/path.py:39-355`, `pyx/metapost/mp_path.py:54-166`)

The list of path items is a list of knots, each with the link behind it, if any; the first item has to be a knot,
no two links follow each other, and no knot object occurs twice. The link behind the last knot closes the path.
The knots are objects that are changed in place: the model has a table of knots, numbered from `0`. Floats are an
ordered field; `atan2` and the choice of control points within a run of knots (`mp_solve_choices`, modelled in `Model`
and `Curve`) are parameters. `None` is `none`. The outcome is `none` when an exception is raised; it is also `none`
when a run ends at a knot whose left type is `endpoint` or `explicit`, in which case the code reads beyond the run.
-/

set_option linter.unusedSectionVars false

namespace PyX.MetaPost

variable {K : Type} [Field K] [LinearOrder K] [IsStrictOrderedRing K]

/-- The knot types (`pyx/metapost/mp_path.py:38-43`). -/
inductive Typ where
  | endpoint | explicit | given | curl | opn | endCycle
deriving DecidableEq

/-- `t <= mp_explicit` (`pyx/metapost/mp_path.py:38-39`). -/
def Typ.fixed : Typ → Bool
  | .endpoint => true
  | .explicit => true
  | _ => false

/-- `_knot` (`pyx/metapost/path.py:39-53`). -/
structure Knot (K : Type) where
  x : K
  y : K
  lt : Typ
  lx : Option K
  ly : Option K
  rt : Typ
  rx : Option K
  ry : Option K

/-- Curl or given angle (`pyx/metapost/path.py:122-125`). -/
def curlOrAngle (curl : K) (angle : Option K) : Typ × K :=
  match angle with
  | none => (.curl, curl)
  | some a => (.given, a)

/-- `beginknot_pt` (`pyx/metapost/path.py:117-127`). -/
def beginknot (x y curl : K) (angle : Option K) : Knot K :=
  let tv := curlOrAngle curl angle
  ⟨x, y, .endpoint, none, none, tv.1, some tv.2, some 1⟩

/-- `endknot_pt` (`pyx/metapost/path.py:138-148`). -/
def endknot (x y curl : K) (angle : Option K) : Knot K :=
  let tv := curlOrAngle curl angle
  ⟨x, y, tv.1, some tv.2, some 1, .endpoint, none, none⟩

/-- `smoothknot_pt` (`pyx/metapost/path.py:157-163`). -/
def smoothknot (x y : K) : Knot K := ⟨x, y, .opn, none, some 1, .opn, none, some 1⟩

/-- The right side of a `roughknot_pt` (`pyx/metapost/path.py:183-188`). -/
def roughRight (left : Typ × K) (rcurl rangle : Option K) : Typ × K :=
  match rcurl, rangle with
  | some c, _ => (.curl, c)
  | none, some a => (.given, a)
  | none, none => left

/-- `roughknot_pt` (`pyx/metapost/path.py:172-190`). -/
def roughknot (x y lcurl : K) (rcurl langle rangle : Option K) : Knot K :=
  let l := curlOrAngle lcurl langle
  let r := roughRight l rcurl rangle
  ⟨x, y, l.1, some l.2, some 1, r.1, some r.2, some 1⟩

/-- `line`, `controlcurve_pt` and `tensioncurve` (`pyx/metapost/path.py:210-273`). -/
inductive Link (K : Type) where
  | line (keepangles : Bool)
  | control (l r : K × K)
  | tension (l r : K)

/-- `tensioncurve.__init__` (`pyx/metapost/path.py:259-273`). -/
def tensioncurve (ltension : K) (latleast : Bool) (rtension : Option K) (ratleast : Option Bool) : Link K :=
  let l := max (3 / 4) |ltension|
  let r := max (3 / 4) |rtension.getD ltension|
  .tension (if latleast then -l else l) (if ratleast.getD latleast then -r else r)

/-- A table of knots. -/
abbrev Table (K : Type) := ℕ → Knot K

/-- Changing one knot in place. -/
def mod (ks : Table K) (i : ℕ) (f : Knot K → Knot K) : Table K := Function.update ks i (f (ks i))

def Knot.setL (k : Knot K) (t : Typ) (x y : Option K) : Knot K := { k with lt := t, lx := x, ly := y }
def Knot.setR (k : Knot K) (t : Typ) (x y : Option K) : Knot K := { k with rt := t, rx := x, ry := y }

/-- A run of `n` curves between two breakpoints: positions, right and left tensions, types of the ends. -/
structure Stretch (K : Type) where
  n : ℕ
  x : ℕ → K
  y : ℕ → K
  rt : ℕ → K
  lt : ℕ → K
  start : Start K
  stop : Stop K

/-- The parameters: `atan2(y, x)` as a function of `x` and `y`, the choice of control points, and `epsilon`. -/
structure Env (K : Type) where
  arg : K → K → K
  solve : Stretch K → ℕ → Option ((K × K) × (K × K))
  eps : K

/-- `set_knots` of the links (`pyx/metapost/path.py:219-229, 242-246, 275-279`), for the knots `i` and `j`. -/
def setKnots (E : Env K) (ks : Table K) (i j : ℕ) : Link K → Option (Table K)
  | .line keep =>
    let angle := E.arg ((ks j).x - (ks i).x) ((ks j).y - (ks i).y)
    let ks := mod (mod ks i (·.setR .endpoint none none)) j (·.setL .endpoint none none)
    if keep then
      some (mod (mod ks i fun k => k.setL .given (some angle) k.ly) j fun k => k.setR .given (some angle) k.ry)
    else some ks
  | .control l r =>
    some (mod (mod ks i (·.setR .explicit (some l.1) (some l.2))) j (·.setL .explicit (some r.1) (some r.2)))
  | .tension l r =>
    if (ks i).rt.fixed || (ks j).lt.fixed then none
    else some (mod (mod ks i fun k => k.setR k.rt k.rx (some l)) j fun k => k.setL k.lt k.lx (some r))

/-- The path items: knots with the link behind them. -/
abbrev Elems (K : Type) := List (Knot K × Option (Link K))

/-- The knots as given. -/
def initial (es : Elems K) : Table K := fun i => (es.getD i (smoothknot 0 0, none)).1

/-- The link behind knot `i`. -/
def link (es : Elems K) (i : ℕ) : Option (Link K) := (es.getD i (smoothknot 0 0, none)).2

/-- One link of the loop (`pyx/metapost/path.py:308-309`). -/
def linkStep (E : Env K) (m i : ℕ) (l : Option (Link K)) (ks : Table K) : Option (Table K) :=
  match l with
  | none => some ks
  | some l => setKnots E ks i ((i + 1) % m) l

/-- The knots after the first `i` links (`pyx/metapost/path.py:307-313`). -/
def linked (E : Env K) (es : Elems K) : ℕ → Option (Table K)
  | 0 => some (initial es)
  | i + 1 => (linked E es i).bind (linkStep E es.length i (link es i))

/-- `is_closed` (`pyx/metapost/path.py:306, 312-313`): knot `i` is inspected after the links in front of it. -/
def isClosed (E : Env K) (es : Elems K) : Bool :=
  (List.range es.length).all fun i =>
    match linked E es i with
    | some ks => !((ks i).lt = .endpoint ∨ (ks i).rt = .endpoint)
    | none => false

/-- Joining equal consecutive knots `i` and `j` (`pyx/metapost/mp_path.py:60-72`). -/
def joinStep (E : Env K) (ks : Table K) (i j : ℕ) : Table K :=
  if (ks i).rt.fixed = false ∧ ((ks i).x - (ks j).x) ^ 2 + ((ks i).y - (ks j).y) ^ 2 < E.eps ^ 2 then
    let ks := mod ks i fun k => k.setR .explicit k.rx k.ry
    let ks := mod ks i fun k => if k.lt = .opn then k.setL .curl (some 1) k.ly else k
    let ks := mod ks j fun k => k.setL .explicit k.lx k.ly
    let ks := mod ks j fun k => if k.rt = .opn then k.setR .curl (some 1) k.ry else k
    let x := (ks i).x
    let y := (ks i).y
    let ks := mod ks i fun k => k.setR k.rt (some x) (some y)
    mod ks j fun k => k.setL k.lt (some x) (some y)
  else ks

/-- The loop over all knots (`pyx/metapost/mp_path.py:57-75`), for the first `i` of the `m` knots. -/
def joined (E : Env K) (m : ℕ) (ks : Table K) : ℕ → Table K
  | 0 => ks
  | i + 1 => joinStep E (joined E m ks i) i ((i + 1) % m)

/-- A breakpoint (`pyx/metapost/mp_path.py:84, 97`). -/
def Knot.brk (k : Knot K) : Bool := !(k.lt = .opn ∧ k.rt = .opn)

/-- The first breakpoint (`pyx/metapost/mp_path.py:82-89`); the first knot is made one if there is none. -/
def breakpoint (m : ℕ) (ks : Table K) : ℕ × Table K :=
  match (List.range m).find? fun i => (ks i).brk with
  | some h => (h, ks)
  | none => (0, mod ks 0 fun k => k.setL .endCycle k.lx k.ly)

/-- Number of curves from `p` to the next breakpoint (`pyx/metapost/mp_path.py:95-98`). -/
def runLength (m : ℕ) (ks : Table K) (p : ℕ) : Option ℕ :=
  ((List.range m).find? fun n => (ks ((p + n + 1) % m)).brk).map (· + 1)

/-- `p.rtype` of a run (`pyx/metapost/mp_path.py:189-234`). -/
def startOf (k : Knot K) : Option (Start K) :=
  match k.rt with
  | .given => k.rx.map .given
  | .curl => k.rx.map .curl
  | .opn => some .cycle
  | _ => none

/-- `q.ltype` of a run (`pyx/metapost/mp_path.py:238-313`). -/
def stopOf (k : Knot K) : Option (Stop K) :=
  match k.lt with
  | .given => k.lx.map .given
  | .curl => k.lx.map .curl
  | .endCycle => some .cycle
  | _ => none

/-- Curl or direction given by a control point (`pyx/metapost/mp_path.py:136-142, 147-152`). -/
def direction (E : Env K) (dx dy : K) : Typ × K :=
  if dx ^ 2 + dy ^ 2 < E.eps ^ 2 then (.curl, 1) else (.given, E.arg dx dy)

/-- Removing the open type at the end of a run (`pyx/metapost/mp_path.py:133-142`). -/
def closeEnd (E : Env K) (ks : Table K) (q : ℕ) : Option (Table K) :=
  if (ks q).lt = .opn then
    (ks q).rx.bind fun rx => (ks q).ry.map fun ry =>
      let tv := direction E (rx - (ks q).x) (ry - (ks q).y)
      mod ks q fun k => k.setL tv.1 (some tv.2) k.ly
  else some ks

/-- Removing the open type at the start of a run (`pyx/metapost/mp_path.py:144-152`). -/
def closeStart (E : Env K) (ks : Table K) (p : ℕ) : Option (Table K) :=
  if (ks p).rt = .opn ∧ (ks p).lt = .explicit then
    (ks p).lx.bind fun lx => (ks p).ly.map fun ly =>
      let tv := direction E ((ks p).x - lx) ((ks p).y - ly)
      mod ks p fun k => k.setR tv.1 (some tv.2) k.ry
  else some ks

/-- The run of `n` curves from knot `p` that is handed to `mp_solve_choices` (`pyx/metapost/mp_path.py:155`). The
tensions used have to be numbers. -/
def stretch (m : ℕ) (ks : Table K) (p n : ℕ) : Option (Stretch K) :=
  (startOf (ks p)).bind fun start => (stopOf (ks ((p + n) % m))).bind fun stop =>
    if (List.range n).all fun k => (ks ((p + k) % m)).ry.isSome && (ks ((p + k + 1) % m)).ly.isSome then
      some ⟨n, fun k => (ks ((p + k) % m)).x, fun k => (ks ((p + k) % m)).y,
        fun k => ((ks ((p + k) % m)).ry).getD 1, fun k => ((ks ((p + k) % m)).ly).getD 1, start, stop⟩
    else none

/-- Storing the first `n` pairs of control points (`pyx/metapost/mp_path.py:375-380`). -/
def store (S : ℕ → Option ((K × K) × (K × K))) (m : ℕ) (ks : Table K) (p : ℕ) : ℕ → Option (Table K)
  | 0 => some ks
  | n + 1 => (store S m ks p n).bind fun ks => (S n).map fun c =>
      mod (mod ks ((p + n) % m) (·.setR .explicit (some c.1.1) (some c.1.2)))
        ((p + n + 1) % m) (·.setL .explicit (some c.2.1) (some c.2.2))

/-- The control points of one run (`pyx/metapost/mp_path.py:96-155`). -/
def solveRun (E : Env K) (m : ℕ) (ks : Table K) (p : ℕ) : Option (ℕ × Table K) :=
  (runLength m ks p).bind fun n =>
  (closeEnd E ks ((p + n) % m)).bind fun ks =>
  (closeStart E ks p).bind fun ks =>
  (stretch m ks p n).bind fun R =>
  (store (E.solve R) m ks p n).map fun ks => (n, ks)

/-- One pass of the loop (`pyx/metapost/mp_path.py:93-162`): the number of curves dealt with. -/
def walkStep (E : Env K) (m : ℕ) (ks : Table K) (p : ℕ) : Option (ℕ × Table K) :=
  if (ks p).rt.fixed = false then solveRun E m ks p
  else if (ks p).rt = .endpoint then
    some (1, mod (mod ks p fun k => k.setR k.rt (some k.x) (some k.y))
      ((p + 1) % m) fun k => k.setL k.lt (some k.x) (some k.y))
  else some (1, ks)

/-- The loop (`pyx/metapost/mp_path.py:91-166`), starting at the breakpoint `h` and ending there: `off` curves have
been dealt with. The first argument bounds the number of passes. -/
def walk (E : Env K) (m h : ℕ) : ℕ → ℕ → Table K → Option (Table K)
  | 0, off, ks => if m ≤ off then some ks else none
  | fuel + 1, off, ks =>
    if m ≤ off then some ks
    else (walkStep E m ks ((h + off) % m)).bind fun r => walk E m h fuel (off + r.1) r.2

/-- `mp_make_choices` (`pyx/metapost/mp_path.py:54-166`). -/
def makeChoices (E : Env K) (m : ℕ) (ks : Table K) : Option (Table K) :=
  let hk := breakpoint m (joined E m ks m)
  walk E m hk.1 m 0 hk.2

/-- Items of a PostScript path (`pyx/path.py`). -/
inductive Item (K : Type) where
  | moveto (p : K × K)
  | lineto (p : K × K)
  | curveto (a b p : K × K)
  | closepath
deriving DecidableEq

/-- `curveto_pt` with the control points between two knots (`pyx/metapost/path.py:341, 353`). -/
def curve (k k' : Knot K) : Option (Item K) :=
  k.rx.bind fun a => k.ry.bind fun b => k'.lx.bind fun c => k'.ly.map fun d => .curveto (a, b) (c, d) (k'.x, k'.y)

/-- The item drawn for a link (`pyx/metapost/path.py:336-341`). -/
def drawLink (k k' : Knot K) : Option (Link K) → Option (Item K)
  | none => some (.moveto (k'.x, k'.y))
  | some (.line _) => some (.lineto (k'.x, k'.y))
  | some _ => curve k k'

/-- The items for the first `i + 1` knots (`pyx/metapost/path.py:328-345`). -/
def drawn (es : Elems K) (ks : Table K) : ℕ → Option (List (Item K))
  | 0 => some [.moveto ((ks 0).x, (ks 0).y)]
  | i + 1 => (drawn es ks i).bind fun l => (drawLink (ks i) (ks (i + 1)) (link es i)).map fun it => l ++ [it]

/-- Closing the path (`pyx/metapost/path.py:348-355`). -/
def closing (closed : Bool) (k k0 : Knot K) : Option (Link K) → Option (List (Item K))
  | none => some []
  | some (.line _) => some (if k0.lt = .explicit then if closed then [.closepath] else [] else [])
  | some _ =>
    if k0.lt = .explicit then (curve k k0).map fun c => if closed then [c, .closepath] else [c] else some []

/-- The items of `path(elems, epsilon)` (`pyx/metapost/path.py:301-355`); an empty list raises `IndexError`. -/
def path (E : Env K) (es : Elems K) : Option (List (Item K)) :=
  if es = [] then none
  else (linked E es es.length).bind fun ks => (makeChoices E es.length ks).bind fun ks =>
    (drawn es ks (es.length - 1)).bind fun l =>
      (closing (isClosed E es) (ks (es.length - 1)) (ks 0) (link es (es.length - 1))).map fun c => l ++ c

end PyX.MetaPost
