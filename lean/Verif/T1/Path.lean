import Verif.T1.Strip

/-!
# Model of `T1File.getglyphpath_pt` (`pyx/font/t1file.py:876-918`)

The `updatepath` methods of all charstring commands. The path is a list of path items whose points are
handed through a transformation `T` of the plane, so that `T` is `trafo.apply_pt`. All numbers are the
integers of the charstring. Python exceptions are `none`; the nesting of calls is bounded by a number as it
is in Python.

Simplified: `context.x` and `context.y` are set and used together (`pos`); the horizontal and vertical
variants of a command are its general form with a zero operand. Appending an item to a `path` never fails.
-/

set_option linter.unusedSectionVars false

namespace PyX.T1

/-- The path items created (`pyx/path.py`: `moveto_pt`, `lineto_pt`, `curveto_pt`, `closepath`). -/
inductive PItem (P : Type) where
  | moveto (p : P)
  | lineto (p : P)
  | curveto (a b p : P)
  | closepath
deriving DecidableEq

/-- `T1context` (`pyx/font/t1file.py:74-87`) and the path; both stacks have their bottom at the head. -/
structure UCtx (P : Type) where
  pos : Option (Int × Int)
  w : Option (Int × Int)
  t1 : List Int
  ps : List Int
  path : List (PItem P)
deriving DecidableEq

variable {P : Type}

/-- A point of the charstring as an argument of `trafo.apply_pt`. -/
def pt (x y : Int) : ℚ × ℚ := (x, y)

/-- `hsbw`, `sbw` (`pyx/font/t1file.py:158-165, 211-220`). -/
def uSide (T : ℚ × ℚ → P) (sbx sby wx wy : Int) (c : UCtx P) : Option (UCtx P) :=
  some { c with pos := some (sbx, sby), w := some (wx, wy), path := c.path ++ [.moveto (T (pt sbx sby))] }

/-- `rmoveto`, `hmoveto`, `vmoveto` (`pyx/font/t1file.py:269-272, 325-330, 383-386`). -/
def uMove (T : ℚ × ℚ → P) (dx dy : Int) (c : UCtx P) : Option (UCtx P) :=
  c.pos.bind fun p =>
    some { c with pos := some (p.1 + dx, p.2 + dy), path := c.path ++ [.moveto (T (pt (p.1 + dx) (p.2 + dy)))] }

/-- `rlineto`, `hlineto`, `vlineto` (`pyx/font/t1file.py:253-256, 307-312, 367-370`). -/
def uLine (T : ℚ × ℚ → P) (dx dy : Int) (c : UCtx P) : Option (UCtx P) :=
  c.pos.bind fun p =>
    some { c with pos := some (p.1 + dx, p.2 + dy), path := c.path ++ [.lineto (T (pt (p.1 + dx) (p.2 + dy)))] }

/-- `rrcurveto`, `hvcurveto`, `vhcurveto` (`pyx/font/t1file.py:285-294, 343-354, 399-408`). -/
def uCurve (T : ℚ × ℚ → P) (dx1 dy1 dx2 dy2 dx3 dy3 : Int) (c : UCtx P) : Option (UCtx P) :=
  c.pos.bind fun p =>
    some { c with
      pos := some (p.1 + (dx1 + dx2 + dx3), p.2 + (dy1 + dy2 + dy3))
      path := c.path ++ [.curveto (T (pt (p.1 + dx1) (p.2 + dy1)))
        (T (pt (p.1 + dx1 + dx2) (p.2 + dy1 + dy2)))
        (T (pt (p.1 + dx1 + dx2 + dx3) (p.2 + dy1 + dy2 + dy3)))] }

/-- `closepath` (`pyx/font/t1file.py:235-240`): followed by a moveto to the current position. -/
def uClose (T : ℚ × ℚ → P) (c : UCtx P) : Option (UCtx P) :=
  c.pos.bind fun p => some { c with path := c.path ++ [.closepath, .moveto (T (pt p.1 p.2))] }

/-- The one-byte commands except `callsubr`; operands are taken from the bottom of the stack. -/
def uCmd (T : ℚ × ℚ → P) (k : Nat) (c : UCtx P) : Option (UCtx P) :=
  match k, c.t1 with
  | 14, _ => some c
  | 11, _ => some c
  | 13, sbx :: wx :: st => uSide T sbx 0 wx 0 { c with t1 := st }
  | 9, _ => uClose T c
  | 21, dx :: dy :: st => uMove T dx dy { c with t1 := st }
  | 22, dx :: st => uMove T dx 0 { c with t1 := st }
  | 4, dy :: st => uMove T 0 dy { c with t1 := st }
  | 5, dx :: dy :: st => uLine T dx dy { c with t1 := st }
  | 6, dx :: st => uLine T dx 0 { c with t1 := st }
  | 7, dy :: st => uLine T 0 dy { c with t1 := st }
  | 8, dx1 :: dy1 :: dx2 :: dy2 :: dx3 :: dy3 :: st => uCurve T dx1 dy1 dx2 dy2 dx3 dy3 { c with t1 := st }
  | 31, dx1 :: dx2 :: dy2 :: dy3 :: st => uCurve T dx1 0 dx2 dy2 0 dy3 { c with t1 := st }
  | 30, dy1 :: dx2 :: dy2 :: dx3 :: st => uCurve T 0 dy1 dx2 dy2 dx3 0 { c with t1 := st }
  | 1, _ :: _ :: st => some { c with t1 := st }
  | 3, _ :: _ :: st => some { c with t1 := st }
  | _, _ => none

/-- `dotsection`, `vstem3`, `hstem3`, `sbw`, `setcurrentpoint` (`pyx/font/t1file.py:211-220, 423-492, 625-627`). -/
def uEsc (T : ℚ × ℚ → P) (k : Nat) (c : UCtx P) : Option (UCtx P) :=
  match k, c.t1 with
  | 0, _ => some c
  | 1, _ :: _ :: _ :: _ :: _ :: _ :: st => some { c with t1 := st }
  | 2, _ :: _ :: _ :: _ :: _ :: _ :: st => some { c with t1 := st }
  | 7, sbx :: sby :: wx :: wy :: st => uSide T sbx sby wx wy { c with t1 := st }
  | 33, x :: y :: st => some { c with t1 := st, pos := some (x, y) }
  | _, _ => none

/-- `_T1div.updatepath` (`pyx/font/t1file.py:507-510`). -/
def uDiv (c : UCtx P) : Option (UCtx P) :=
  match c.t1.reverse with
  | num2 :: num1 :: st => if num2 = 0 then none else some { c with t1 := (num1.fdiv num2 :: st).reverse }
  | _ => none

/-- The two curves of a flex section (`pyx/font/t1file.py:538-547`) from `psstack[2:8]` and `psstack[8:14]`. -/
def flexCurves (T : ℚ × ℚ → P) : List Int → Option (List (PItem P))
  | _ :: _ :: x1 :: y1 :: x2 :: y2 :: x3 :: y3 :: x4 :: y4 :: x5 :: y5 :: x6 :: y6 :: _ =>
    some [.curveto (T (pt x1 y1)) (T (pt x2 y2)) (T (pt x3 y3)),
          .curveto (T (pt x4 y4)) (T (pt x5 y5)) (T (pt x6 y6))]
  | _ => none

/-- `_T1callothersubr.updatepath`, the branches for the procedures (`pyx/font/t1file.py:535-556`). -/
def uProc (flex : Bool) (T : ℚ × ℚ → P) (o : Int) (c : UCtx P) : Option (UCtx P) :=
  if o = 0 then
    match c.ps.reverse with
    | y :: x :: _ :: _ =>
      if flex then (flexCurves T c.ps).bind fun l => some { c with ps := [y, x], path := c.path ++ l }
      else some { c with ps := [y, x], path := c.path ++ [.lineto (T (pt x y))] }
    | _ => none
  else if o = 2 then
    if c.path.isEmpty then none
    else c.pos.bind fun p => some { c with ps := c.ps ++ [p.1, p.2], path := c.path.dropLast }
  else some c

/-- `_T1callothersubr.updatepath` (`pyx/font/t1file.py:530-556`); the operands are taken from the bottom. -/
def uOther (flex : Bool) (T : ℚ × ℚ → P) (c : UCtx P) : Option (UCtx P) :=
  match c.t1.reverse with
  | o :: n :: st =>
    if st.length < n.toNat then none
    else uProc flex T o { c with t1 := st.reverse.drop n.toNat, ps := c.ps ++ st.reverse.take n.toNat }
  | _ => none

/-- `_T1pop.updatepath` (`pyx/font/t1file.py:594-595`). -/
def uPop (c : UCtx P) : Option (UCtx P) :=
  match c.ps.reverse with
  | v :: ps => some { c with t1 := c.t1 ++ [v], ps := ps.reverse }
  | [] => none

/-- The type of `T1File.updatepath` for a given font. -/
abbrev Upd (P : Type) := (ℚ × ℚ → P) → List Tok → UCtx P → Option (UCtx P)

/-- `_T1callsubr.updatepath` (`pyx/font/t1file.py:574-576`). -/
def uCallsubr (F : Font) (rec : Upd P) (T : ℚ × ℚ → P) (c : UCtx P) : Option (UCtx P) :=
  match c.t1.reverse with
  | subr :: st => (getsubrcmds F subr).bind fun b => rec T b { c with t1 := st.reverse }
  | [] => none

/-- `_T1seac.updatepath` (`pyx/font/t1file.py:178-188`); `atrafo * translate_pt(a, b)` applied to a point is
`atrafo` applied to the shifted point. -/
def uSeac (F : Font) (rec : Upd P) (T : ℚ × ℚ → P) (c : UCtx P) : Option (UCtx P) :=
  match c.t1 with
  | sab :: adx :: ady :: bchar :: achar :: st =>
    (stdGlyph achar).bind fun aglyph => (stdGlyph bchar).bind fun bglyph =>
    (getglyphcmds F bglyph).bind fun b => (rec T b { c with t1 := st }).bind fun c =>
    (getglyphcmds F aglyph).bind fun a => rec (fun p => T (p.1 + (adx - sab : Int), p.2 + ady)) a c
  | _ => none

/-- One pass of the loop of `T1File.updatepath` (`pyx/font/t1file.py:877-881`). -/
def uStep (F : Font) (flex : Bool) (rec : Upd P) (T : ℚ × ℚ → P) (t : Tok) (c : UCtx P) :
    Option (UCtx P) :=
  match t with
  | .num z => some { c with t1 := c.t1 ++ [z] }
  | .cmd k => if k = 10 then uCallsubr F rec T c else uCmd T k c
  | .esc k =>
    if k = 6 then uSeac F rec T c
    else if k = 12 then uDiv c
    else if k = 16 then uOther flex T c
    else if k = 17 then uPop c
    else uEsc T k c

/-- The loop. -/
def uLoop (step : Tok → UCtx P → Option (UCtx P)) : List Tok → UCtx P → Option (UCtx P)
  | [], c => some c
  | t :: ts, c => (step t c).bind (uLoop step ts)

/-- `T1File.updatepath` (`pyx/font/t1file.py:876-881`). -/
def updatepath (F : Font) (flex : Bool) : (n : Nat) → Upd P
  | 0, _, _, _ => none
  | n + 1, T, ts, c => uLoop (uStep F flex (updatepath F flex n) T) ts c

/-- `T1File.getglyphpath_pt` (`pyx/font/t1file.py:902-918`) for a glyph name: path and width. `T` is
`tpath.apply_pt`, `W` is `t.apply_pt`. -/
def getglyphpath (F : Font) (flex : Bool) (n : Nat) (T W : ℚ × ℚ → P) (glyph : String) :
    Option (List (PItem P) × P) :=
  (getglyphcmds F glyph).bind fun b =>
  (updatepath F flex n T b ⟨none, none, [], [], []⟩).bind fun c =>
  c.w.map fun w => (c.path, W (pt w.1 w.2))

end PyX.T1
