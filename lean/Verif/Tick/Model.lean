/-!
# Model of `pyx/graph/axis/tick.py`

* Strings are lists of characters; `isdigit` is modelled for ASCII digits, `strip` for the ASCII white space
  characters.
* Exceptions are `none`.
* Numbers given as floats (converted through `"%.10g"`, l. 101-105) are in `Verif/Tick/Float.lean`.
* Ticks are values: that `mergeticklists` changes tick objects of its first list in place (l. 259) shows up in the
  returned list only.
-/

namespace PyX.Tick

/-- `rational` instances: `num`, `denom` (`pyx/graph/axis/tick.py:36`). -/
structure Frac where
  num : Int
  denom : Int
deriving DecidableEq, Repr

/-- White space removed by `str.strip`. -/
def isSpace (c : Char) : Bool := c = ' ' || c = '\t' || c = '\n' || c = '\r' || c = '\x0b' || c = '\x0c'

/-- `str.strip()` -/
def strip (s : List Char) : List Char := ((s.dropWhile isSpace).reverse.dropWhile isSpace).reverse

/-- `str.split(c)` for a single character -/
def split (c : Char) : List Char → List (List Char)
  | [] => [[]]
  | x :: s => if x = c then [] :: split c s else
    match split c s with
    | [] => [[x]]
    | p :: ps => (x :: p) :: ps

def isDigit (c : Char) : Bool := '0' ≤ c && c ≤ '9'

/-- `str.isdigit()`: not empty and digits only. -/
def isdigit (s : List Char) : Bool := !s.isEmpty && s.all isDigit

/-- `int(s)` for a string of digits -/
def toInt (s : List Char) : Nat := s.foldl (fun a c => 10 * a + (c.toNat - 48)) 0

/-- Sign handling (`pyx/graph/axis/tick.py:56-60`): is negative, rest. -/
def takeSign (s : List Char) : Bool × List Char :=
  match s with
  | '-' :: t => (true, t)
  | '+' :: t => (false, t)
  | t => (false, t)

/-- `if len(p): if not p.isdigit(): raise ...; int(p) else 0` (`pyx/graph/axis/tick.py:61-78`) -/
def digits0 (s : List Char) : Option Nat :=
  if s.isEmpty then some 0 else if isdigit s then some (toInt s) else none

/-- Mantissa (`pyx/graph/axis/tick.py:46-81`). -/
def initMantissa (s : List Char) : Option Frac :=
  match split '.' s with
  | [a] => mant a []
  | [a, b] => mant a b
  | _ => none
where
  mant (a b : List Char) : Option Frac := do
    let denom : Int := 10 ^ b.length
    let (neg, a) := takeSign a
    let x ← digits0 a
    let y ← digits0 b
    let num : Int := x * denom + y
    some ⟨if neg then -num else num, denom⟩

/-- Exponent (`pyx/graph/axis/tick.py:82-99`); an empty exponent raises `IndexError`. -/
def applyExp (r : Frac) (e : List Char) : Option Frac :=
  if e.isEmpty then none else
  let (neg, e) := takeSign e
  if !isdigit e then none
  else if neg then some ⟨r.num, r.denom * 10 ^ toInt e⟩
  else some ⟨r.num * 10 ^ toInt e, r.denom⟩

/-- `initfromstring` (`pyx/graph/axis/tick.py:41-99`). -/
def initfromstring (s : List Char) : Option Frac :=
  let s := (strip s).map fun c => if c = 'E' then 'e' else c
  match split 'e' s with
  | [m] => initMantissa m
  | [m, e] => do
    let r ← initMantissa m
    applyExp r e
  | _ => none

/-- `if not self.denom: raise ZeroDivisionError` (`pyx/graph/axis/tick.py:144`). -/
def check (r : Frac) : Option Frac := if r.denom = 0 then none else some r

/-- The string branch of `__init__` without power (`pyx/graph/axis/tick.py:134-144`). The divisor is again built by the
constructor and may contain no further `/`. -/
def ofString (s : List Char) : Option Frac :=
  match split '/' s with
  | [a] => do
    let r ← initfromstring a
    check r
  | [a, b] => do
    let r ← initfromstring a
    let q ← initfromstring b
    let q ← check q
    check ⟨r.num * q.denom, r.denom * q.num⟩
  | _ => none

/-- The power argument (`pyx/graph/axis/tick.py:115-118,145-158`), for a value that passed the test of l. 144. -/
def power (r : Frac) (p : Int) : Frac :=
  if p = 0 then ⟨1, 1⟩
  else if p = -1 then ⟨r.denom, r.num⟩
  else if p < -1 then ⟨r.denom ^ (-p).toNat, r.num ^ (-p).toNat⟩
  else if p > 1 then ⟨r.num ^ p.toNat, r.denom ^ p.toNat⟩
  else r

/-- `__lt__`, `__eq__` between rationals (`pyx/graph/axis/tick.py:160-170`). -/
def lt (a b : Frac) : Bool := a.num * b.denom < b.num * a.denom
def eq (a b : Frac) : Bool := a.num * b.denom == b.num * a.denom
/-- `functools.total_ordering` (l. 35) -/
def le (a b : Frac) : Bool := lt a b || eq a b
def gt (a b : Frac) : Bool := !lt a b && !eq a b
def ge (a b : Frac) : Bool := !lt a b

/-- `__mul__` (l. 179-180), `__imul__`; `__truediv__` (l. 187-190). -/
def mul (a b : Frac) : Option Frac := check ⟨a.num * b.num, a.denom * b.denom⟩
def div (a b : Frac) : Option Frac := check ⟨a.num * b.denom, a.denom * b.num⟩
/-- `__abs__` (l. 172-173) -/
def abs (a : Frac) : Option Frac := check ⟨a.num.natAbs, a.denom.natAbs⟩

/-- `tick` instances (`pyx/graph/axis/tick.py:207-225`). -/
structure T where
  pos : Frac
  ticklevel : Option Int
  labellevel : Option Int
  label : Option String
deriving DecidableEq, Repr

/-- `merge` of levels (`pyx/graph/axis/tick.py:232-235`). -/
def mergeLevel : Option Int → Option Int → Option Int
  | none, o => o
  | some a, some b => if b < a then some b else some a
  | some a, none => some a

/-- `tick.merge` (`pyx/graph/axis/tick.py:227-237`). -/
def T.merge (self other : T) : T where
  pos := self.pos
  ticklevel := mergeLevel self.ticklevel other.ticklevel
  labellevel := mergeLevel self.labellevel other.labellevel
  label := match self.label with
    | none => other.label
    | some l => some l

/-- The loop of `mergeticklists` (`pyx/graph/axis/tick.py:252-264`). `l1` is `list1[i:]`, `l2` is `list2[j:]`, `acc` is
`list1[:i]`. `list2[j]` is evaluated first: if it does not exist the loop ends with `list1` as it is, if
`list1[i]` does not exist the rest of `list2` is appended. -/
def mergeLoop (mergeequal : Bool) (acc l1 l2 : List T) : List T :=
  match l1, l2 with
  | l1, [] => acc ++ l1
  | [], l2 => acc ++ l2
  | a :: l1, b :: l2 =>
    if lt b.pos a.pos then mergeLoop mergeequal (acc ++ [b]) (a :: l1) l2
    else if eq b.pos a.pos then mergeLoop mergeequal (acc ++ [if mergeequal then a.merge b else a]) l1 l2
    else mergeLoop mergeequal (acc ++ [a]) l1 (b :: l2)
termination_by l1.length + l2.length

/-- `mergeticklists` (`pyx/graph/axis/tick.py:240-265`). -/
def mergeticklists (list1 list2 : List T) (mergeequal : Bool := true) : List T := mergeLoop mergeequal [] list1 list2

/-- `maxlevels` (`pyx/graph/axis/tick.py:268-276`). -/
def maxlevels (ticks : List T) : Int × Int :=
  ticks.foldl (fun (a, b) t =>
    (match t.ticklevel with | some k => if k ≥ a then k + 1 else a | none => a,
     match t.labellevel with | some k => if k ≥ b then k + 1 else b | none => b)) (0, 0)

end PyX.Tick
