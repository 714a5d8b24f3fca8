import Verif.Dvi.Model

/-!
# The DVI machine of the DVI standard (specification for C28)

Each character is placed at once at the current position; nothing is collected.
Registers `w x y z` may be undefined (`none`): on the page they start as 0; in the packet of a
virtual font they start with the value `init` (the standard says 0; `none` gives the machine that does not allow
use of a register before it was set).
-/

namespace PyX.Dvi

variable {K : Type} [Field K] [LinearOrder K]

structure SPos (K : Type) where
  h : K
  v : K
  w : Option K
  x : Option K
  y : Option K
  z : Option K

/-- Marks on the page, in points, y upwards. -/
inductive Mark (K : Type)
  | glyph (font : Nat) (c : Nat) (x y : K)
  | rule (x y w h : K)
  | special (s : List Nat) (x y : K)
deriving DecidableEq

structure SState (K : Type) where
  pos : SPos K
  stack : List (SPos K)
  font : Option Int
  out : List (Mark K)

def smoveH (dh : K) (st : SState K) : SState K := { st with pos := { st.pos with h := st.pos.h + dh } }
def smoveV (dv : K) (st : SState K) : SState K := { st with pos := { st.pos with v := st.pos.v + dv } }

/-- A rule of positive size has its lower left corner at the current position. -/
def srule (env : Env K) (height width : K) (st : SState K) : SState K :=
  if height > 0 ∧ width > 0 then
    { st with out := st.out ++ [.rule (st.pos.h * env.conv) (-st.pos.v * env.conv) (width * env.conv) (height * env.conv)] }
  else st

/-- Commands of the DVI standard; all lengths are multiplied by `scale` (1 on the page). -/
def sstep (env : Env K) (fonts : Int → Font K) (scale : K)
    (char : Int → Nat → Bool → SState K → Option (SState K)) (st : SState K) (c : Cmd) : Option (SState K) :=
  match c with
  | .setChar c => st.font.bind fun n => char n c true st
  | .putChar c => st.font.bind fun n => char n c false st
  | .setRule a b => some (smoveH (b * scale) (srule env (a * scale) (b * scale) st))
  | .putRule a b => some (srule env (a * scale) (b * scale) st)
  | .nop => some st
  | .push => some { st with stack := st.pos :: st.stack }
  | .pop => match st.stack with
    | [] => none
    | p :: ps => some { st with pos := p, stack := ps }
  | .right b => some (smoveH (b * scale) st)
  | .w0 => st.pos.w.map fun d => smoveH d st
  | .w b => some (smoveH (b * scale) { st with pos := { st.pos with w := some (b * scale) } })
  | .x0 => st.pos.x.map fun d => smoveH d st
  | .x b => some (smoveH (b * scale) { st with pos := { st.pos with x := some (b * scale) } })
  | .down a => some (smoveV (a * scale) st)
  | .y0 => st.pos.y.map fun d => smoveV d st
  | .y a => some (smoveV (a * scale) { st with pos := { st.pos with y := some (a * scale) } })
  | .z0 => st.pos.z.map fun d => smoveV d st
  | .z a => some (smoveV (a * scale) { st with pos := { st.pos with z := some (a * scale) } })
  | .fnt n => match fonts n with
    | .missing => none
    | _ => some { st with font := some n }
  | .special s =>
    some (if s.take 4 = [80, 121, 88, 58] then
      { st with out := st.out ++ [.special s (st.pos.h * env.conv) (-st.pos.v * env.conv)] } else st)
  | .fntdef .. => some st

/-- `set` moves by the width, `put` does not move. -/
def sdx (adv : Bool) (w : Option K) : Option K := match adv with
  | true => w
  | false => some 0

/-- Typesetting a character: a glyph at the current position, or for a virtual font its packet, run with the
font defined first in the virtual font, an empty stack and registers `init`; then move right by the width. -/
def schar (env : Env K) (init : Option K) : Font K → Nat → Bool → SState K → Option (SState K)
  | .missing, _, _, _ => none
  | .real id, c, adv, st => do
    let dx ← sdx adv (env.width id c)
    some (smoveH dx { st with out := st.out ++ [.glyph id c (st.pos.h * env.conv) (-st.pos.v * env.conv)] })
  | .virt width packet first fonts scale, c, adv, st => do
    let dx ← sdx adv (width c)
    let cmds ← packet c
    match fonts first with
    | .missing => none
    | _ =>
      let inner ← cmds.foldlM (sstep env fonts scale fun n => schar env init (fonts n))
        { pos := { st.pos with w := init, x := init, y := init, z := init }, stack := [], font := some first,
          out := st.out }
      some (smoveH dx { st with out := inner.out })

/-- A page. -/
def spage (env : Env K) (init : Option K) (fonts : Int → Font K) (cmds : List Cmd) : Option (List (Mark K)) := do
  let st ← cmds.foldlM (sstep env fonts 1 fun n => schar env init (fonts n))
    { pos := ⟨0, 0, some 0, some 0, some 0, some 0⟩, stack := [], font := none, out := [] }
  some st.out

/-- What a text object shows: the glyphs of the run one after the other, each shifted by the widths of the previous ones
(as the `show` operator does). -/
def expandText (env : Env K) (id : Nat) (x y : K) : List Nat → List (Mark K)
  | [] => []
  | c :: cs => .glyph id c x y :: expandText env id (x + ((env.width id c).getD 0) * env.conv) y cs

/-- What the items inserted in the canvas show. -/
def expand (env : Env K) : Out K → List (Mark K)
  | .text id x y cs => expandText env id x y cs
  | .rule x y w h => [.rule x y w h]
  | .special s x y => [.special s x y]

def expandAll (env : Env K) (l : List (Out K)) : List (Mark K) := (l.map (expand env)).flatten

end PyX.Dvi
