import Verif.T1.Code
import Mathlib.Data.Rat.Defs
import Mathlib.Data.List.Forall2
import Mathlib.Algebra.Order.Ring.Unbundled.Rat

/-!
# Specification: execution of Type 1 charstrings

Independent of PyX's code: the stack machine of the *Adobe Type 1 Font Format* (chapter 6). Running a
charstring produces the list of executed operators with their operands, i.e. the drawing. What the
`OtherSubrs` procedures hand back to the charstring is a parameter (`other`), except for number 3 (hint
replacement), which hands back its operand. A number whose value is not determined by the charstring alone
is `dyn`.
-/

namespace PyX.T1.Spec

/-- A number on a stack: known from the charstring, or computed at run time. -/
inductive Val where
  | int (z : Int)
  | dyn (q : Rat)
deriving DecidableEq

def Val.q : Val → Rat
  | .int z => z
  | .dyn q => q

/-- The tables of a font. -/
structure Prog where
  subr : Int → Option (List Tok)
  glyph : String → Option (List Tok)
  std : Int → Option String

/-- What has been executed: an operator with its operands (first operand first), a call of a subroutine, the
beginning of a component of a composite glyph. -/
inductive Ev where
  | op (t : Tok) (args : List Rat)
  | call (subr : Int)
  | base (name : String)
  | accent (name : String) (asb adx ady : Rat)
deriving DecidableEq

/-- Machine state; the stacks have their top at the head. -/
structure St where
  stack : List Val
  ps : List Val
  out : List Ev
  done : Bool
deriving DecidableEq

/-- Results of the `OtherSubrs` procedure `o` called with `args` (first operand first) after the events. -/
abbrev Other := Int → List Rat → List Ev → List Rat

/-- `callothersubr`. -/
def callother (other : Other) (s : St) : Option St :=
  match s.stack with
  | .int o :: .int n :: st =>
    if n < 0 ∨ st.length < n.toNat then none
    else
      let args := st.take n.toNat
      let res := if o = 3 ∧ n = 1 then args
        else ((other o (args.reverse.map Val.q) s.out).map Val.dyn).take n.toNat
      some { s with stack := st.drop n.toNat, ps := res
                    out := s.out ++ [.op (.esc 16) ((o : Rat) :: args.reverse.map Val.q)] }
  | _ => none

/-- `div`. -/
def divide (s : St) : Option St :=
  match s.stack with
  | .int b :: .int a :: st =>
    if b = 0 then none
    else some { s with stack := (if b ∣ a then .int (a / b) else .dyn ((a : Rat) / b)) :: st }
  | .int b :: .dyn a :: st => if b = 0 then none else some { s with stack := .dyn (a / b) :: st }
  | .dyn b :: a :: st => if b = 0 then none else some { s with stack := .dyn (a.q / b) :: st }
  | _ => none

/-- `seac`: the base glyph and the accent are executed one after the other, each on its own. -/
def seac (P : Prog) (rec : List Tok → St → Option St) (s : St) : Option St :=
  match s.stack with
  | .int achar :: .int bchar :: ady :: adx :: asb :: [] =>
    (P.std achar).bind fun an => (P.std bchar).bind fun bn =>
    (P.glyph bn).bind fun b =>
    (rec b ⟨[], [], s.out ++ [.base bn], false⟩).bind fun s1 =>
    (P.glyph an).bind fun a =>
    (rec a ⟨[], [], s1.out ++ [.accent an asb.q adx.q ady.q], false⟩).bind fun s2 =>
    some ⟨[], [], s2.out, true⟩
  | _ => none

/-- `callsubr`. -/
def callsubr (P : Prog) (rec : List Tok → St → Option St) (s : St) : Option St :=
  match s.stack with
  | .int z :: st => (P.subr z).bind fun b => rec b { s with stack := st, out := s.out ++ [.call z] }
  | _ => none

/-- `pop`. -/
def pop (s : St) : Option St :=
  match s.ps with
  | v :: ps => some { s with stack := v :: s.stack, ps := ps }
  | [] => none

/-- Any other operator takes all operands and leaves an empty stack; `endchar` ends the glyph. -/
def plain (t : Tok) (s : St) : St :=
  ⟨[], s.ps, s.out ++ [.op t (s.stack.reverse.map Val.q)], s.done || decide (t = .cmd 14)⟩

/-- Restrictions on the charstrings considered: `ok t s` has to hold when `t` is executed in state `s`. -/
abbrev Ok := Tok → St → Bool

/-- No restriction. -/
def okAll : Ok := fun _ _ => true

/-- Divisors are numbers known from the charstring. -/
def okDivisor : Ok := fun t s =>
  match t, s.stack with
  | .esc 12, .dyn _ :: _ => false
  | _, _ => true

/-- One entry of a charstring. Nothing may follow the end of the glyph. -/
def step (ok : Ok) (other : Other) (P : Prog) (rec : List Tok → St → Option St) (t : Tok) (s : St) :
    Option St :=
  if s.done ∨ ok t s = false then none
  else match t with
    | .num z => some { s with stack := .int z :: s.stack }
    | .cmd k => if k = 10 then callsubr P rec s else some (plain (.cmd k) s)
    | .esc k =>
      if k = 6 then seac P rec s
      else if k = 12 then divide s
      else if k = 16 then callother other s
      else if k = 17 then pop s
      else some (plain (.esc k) s)

/-- A charstring or subroutine; `return` is its last entry. -/
def loop (step : Tok → St → Option St) : List Tok → St → Option St
  | [], s => some s
  | t :: ts, s =>
    if t = .cmd 11 then (if ts = [] then some s else none) else (step t s).bind (loop step ts)

/-- Execution with at most `n` nested calls. -/
def run (ok : Ok) (other : Other) (P : Prog) : (n : Nat) → List Tok → St → Option St
  | 0, _, _ => none
  | n + 1, ts, s => loop (step ok other P (run ok other P n)) ts s

/-- The drawing of a glyph. -/
def drawing (ok : Ok) (other : Other) (P : Prog) (n : Nat) (g : String) : Option (List Ev) :=
  (P.glyph g).bind fun b => (run ok other P n b ⟨[], [], [], false⟩).map St.out

end PyX.T1.Spec
