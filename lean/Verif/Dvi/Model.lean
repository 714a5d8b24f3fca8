import Verif.Reader.Model
import Mathlib.Algebra.Field.Basic
import Mathlib.Algebra.Order.Ring.Defs

/-!
# Model of the DVI page interpreter (`pyx/dvi/dvifile.py:126-195,324-358,403-616`)

* Positions are elements of an ordered field `K` (integers on the page itself; scaled by a
  float inside packets of virtual fonts).
* The font table is fixed: a font definition command is accepted and has no further effect
  (`definefont` loads the font; the DVI standard allows only one definition per number).
* The packet of a virtual font character is run by recursion ("big step") where the code
  pushes the reader state and continues in the same loop until the packet ends.
* Exceptions are `none`.
* Debug output is not modelled; here a PyX special is an output item carrying its position, and
  its effect on the canvas is modelled in `Verif/Dvi/Special.lean`.
-/

namespace PyX.Dvi

/-- DVI commands, after decoding of their parameters. -/
inductive Cmd
  | setChar (c : Nat)
  | putChar (c : Nat)
  | setRule (height width : Int)
  | putRule (height width : Int)
  | nop
  | push
  | pop
  | right (b : Int)
  | w0
  | w (b : Int)
  | x0
  | x (b : Int)
  | down (a : Int)
  | y0
  | y (a : Int)
  | z0
  | z (a : Int)
  | fnt (n : Int)
  | special (s : List Nat)
  | fntdef (n c q d : Int) (name : List Nat)
deriving DecidableEq, Repr

/-- Fonts: ordinary TeX fonts (`texfont.TeXfont`) by an identifying number, virtual fonts
(`texfont.virtualfont`) with widths, packets, the number of the font defined first in the VF file, the
font table of the VF file and the factor `self.scale` used in its packets. `missing` is a number without a
font. -/
inductive Font (K : Type)
  | missing
  | real (id : Nat)
  | virt (width : Nat → Option K) (packet : Nat → Option (List Cmd)) (first : Int) (fonts : Int → Font K)
      (scale : K)

variable {K : Type} [Field K] [LinearOrder K]

/-- The position registers. -/
structure Pos (K : Type) where
  h : K
  v : K
  w : K
  x : K
  y : K
  z : K

/-- What is inserted into the page canvas. -/
inductive Out (K : Type)
  /-- `activefont.text_pt(x_pt, y_pt, charcodes)` -/
  | text (font : Nat) (x y : K) (chars : List Nat)
  /-- `fill(path.rect_pt(x1, y1, w, h))` -/
  | rule (x y w h : K)
  /-- a PyX special at a position -/
  | special (s : List Nat) (x y : K)
deriving DecidableEq

/-- State of the reader: `pos`, `stack`, `activetext`, number of `activefont` (`none` at the beginning), its
identifier if it is an ordinary font, and the items inserted so far. -/
structure State (K : Type) where
  pos : Pos K
  stack : List (Pos K)
  active : Option (K × K × List Nat)
  font : Option Int
  fontid : Option Nat
  out : List (Out K)

/-- Parameters of a run: conversion to points (`self.pyxconv`), `singlecharmode`, widths of ordinary fonts in DVI
units (`getwidth_dvi`). -/
structure Env (K : Type) where
  conv : K
  single : Bool
  width : Nat → Nat → Option K

/-- Identifier of a font, if it is an ordinary one. -/
def Font.id? : Font K → Option Nat
  | .real id => some id
  | _ => none

/-- `flushtext` (`pyx/dvi/dvifile.py:126-134`). -/
def flush (env : Env K) (st : State K) : Option (State K) :=
  match st.active with
  | none => some st
  | some (x, y, cs) =>
    match st.fontid with
    | none => none
    | some id => some { st with active := none, out := st.out ++ [.text id (x * env.conv) (-y * env.conv) cs] }

/-- `usefont` (`pyx/dvi/dvifile.py:185-187`). -/
def usefont (env : Env K) (fonts : Int → Font K) (n : Int) (st : State K) : Option (State K) := do
  let st ← flush env st
  match fonts n with
  | .missing => none
  | f => some { st with font := some n, fontid := f.id? }

/-- `putrule` (`pyx/dvi/dvifile.py:136-157`); `height` and `width` come already multiplied by the scale, and the
advance is multiplied once more. -/
def putrule (env : Env K) (scale : K) (height width : K) (advance : Bool) (st : State K) : Option (State K) := do
  let st ← flush env st
  let x1 := st.pos.h * env.conv
  let y1 := -st.pos.v * env.conv
  let st := if height > 0 ∧ width > 0 then
      { st with out := st.out ++ [.rule x1 y1 (width * env.conv) (height * env.conv)] }
    else st
  some (if advance then { st with pos := { st.pos with h := st.pos.h + width * scale } } else st)

/-- Does `special` act on the string (`pyx/dvi/dvifile.py:228-233`)? Only strings beginning with `PyX:`. -/
def isPyX (s : List Nat) : Bool := s.take 4 == [80, 121, 88, 58]

/-- `special` (`pyx/dvi/dvifile.py:223-237`): other specials are ignored with a warning. -/
def special (env : Env K) (s : List Nat) (st : State K) : Option (State K) :=
  if isPyX s then do
    let x := st.pos.h * env.conv
    let y := -st.pos.v * env.conv
    let st ← flush env st
    some { st with out := st.out ++ [.special s x y] }
  else some st

/-- Moving right/down (`pyx/dvi/dvifile.py:478-589`). -/
def moveH (dh : K) (st : State K) : State K := { st with pos := { st.pos with h := st.pos.h + dh } }
def moveV (dv : K) (st : State K) : State K := { st with pos := { st.pos with v := st.pos.v + dv } }

/-- One command of the main loop (`pyx/dvi/dvifile.py:448-616`). `char` typesets a character in the
font with a given number. `nop` falls through the `if`/`elif` chain into the `DVIError` branch
because line 450 begins a new `if`. -/
def step (env : Env K) (fonts : Int → Font K) (scale : K)
    (char : Int → Nat → Bool → State K → Option (State K)) (st : State K) (c : Cmd) : Option (State K) :=
  match c with
  | .setChar c => match st.font with
    | none => none
    | some n => char n c true st
  | .putChar c => match st.font with
    | none => none
    | some n => char n c false st
  | .setRule a b => putrule env scale (a * scale) (b * scale) true st
  | .putRule a b => putrule env scale (a * scale) (b * scale) false st
  | .nop => none
  | .push => some { st with stack := st.pos :: st.stack }
  | .pop => do
    let st ← flush env st
    match st.stack with
    | [] => none
    | p :: ps => some { st with pos := p, stack := ps }
  | .right b => (flush env st).map (moveH (b * scale))
  | .w0 => (flush env st).map fun st => moveH st.pos.w st
  | .w b => (flush env st).map fun st => moveH (b * scale) { st with pos := { st.pos with w := b * scale } }
  | .x0 => (flush env st).map fun st => moveH st.pos.x st
  | .x b => (flush env st).map fun st => moveH (b * scale) { st with pos := { st.pos with x := b * scale } }
  | .down a => (flush env st).map (moveV (a * scale))
  | .y0 => (flush env st).map fun st => moveV st.pos.y st
  | .y a => (flush env st).map fun st => moveV (a * scale) { st with pos := { st.pos with y := a * scale } }
  | .z0 => (flush env st).map fun st => moveV st.pos.z st
  | .z a => (flush env st).map fun st => moveV (a * scale) { st with pos := { st.pos with z := a * scale } }
  | .fnt n => usefont env fonts n st
  | .special s => special env s st
  | .fntdef .. => some st

/-- `advancepos and self.activefont.getwidth_dvi(char) or 0` (`pyx/dvi/dvifile.py:160`). -/
def dxOf (adv : Bool) (w : Option K) : Option K := if adv then w else some 0

/-- `pyx/dvi/dvifile.py:177-178`: a new run starts at the current position. -/
def runStart (st : State K) : K × K × List Nat :=
  match st.active with
  | none => (st.pos.h, st.pos.v, [])
  | some a => a

/-- `putchar` (`pyx/dvi/dvifile.py:159-183`) in font `f` (the active font), with `_push_dvistring`
(l. 324-349) and `_pop_dvistring` (l. 351-358) for virtual fonts. The packet starts with
`usefont(0)` of the font table of the virtual font and inherits all position registers. -/
def putchar (env : Env K) : Font K → Nat → Bool → State K → Option (State K)
  | .missing, _, _, _ => none
  | .real id, c, adv, st => do
    let dx ← dxOf adv (env.width id c)
    let a := runStart st
    let st := { st with active := some (a.1, a.2.1, a.2.2 ++ [c]), pos := { st.pos with h := st.pos.h + dx } }
    if !adv || env.single then flush env st else some st
  | .virt width packet _ fonts scale, c, adv, st => do
    let dx ← dxOf adv (width c)
    let after := { st.pos with h := st.pos.h + dx }
    let cmds ← packet c
    let inner ← usefont env fonts 0 { st with stack := [] }
    let inner ← cmds.foldlM (step env fonts scale fun n => putchar env (fonts n)) inner
    let inner ← flush env inner
    some { pos := after, stack := st.stack, active := none, font := st.font, fontid := st.fontid, out := inner.out }

/-- `readpage` (`pyx/dvi/dvifile.py:431-464`) for the commands between `bop` and `eop`: position zero, no pending text,
scale 1, and a final flush. -/
def readpage (env : Env K) (fonts : Int → Font K) (cmds : List Cmd) : Option (List (Out K)) := do
  let st ← cmds.foldlM (step env fonts 1 fun n => putchar env (fonts n))
    { pos := ⟨0, 0, 0, 0, 0, 0⟩, stack := [], active := none, font := none, fontid := none, out := [] }
  let st ← flush env st
  some st.out

end PyX.Dvi
