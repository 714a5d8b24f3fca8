import Mathlib.Algebra.Field.Basic
import Mathlib.Algebra.Order.Ring.Defs

/-!
# Model of `pyx/unit.py`

Floats are elements of an ordered field `K`; unit factors are the exact decimal numbers of the source.
Multiplication of two lengths and an unknown `type` letter are not modelled.
-/

namespace PyX.Unit

/-- Unit names (keys of `_m`, `pyx/unit.py:29-35`). -/
inductive U
  | m | cm | mm | inch | pt
deriving DecidableEq, Repr

/-- Length types (`pyx/unit.py:94-103`). -/
inductive Ty
  | t | u | v | w | x
deriving DecidableEq, Repr

variable {K : Type*} [Field K] [LinearOrder K]

/-- The table `_m` (`pyx/unit.py:29-35`). -/
def mfac : U → K
  | .m => 1
  | .cm => 1 / 100
  | .mm => 1 / 1000
  | .inch => 1 / 100 * (254 / 100)
  | .pt => 1 / 100 * (254 / 100) / 72

/-- The module state: `scale` and `_default_unit` (`pyx/unit.py:25-27`). -/
structure St (K : Type*) where
  u : K
  v : K
  w : K
  x : K
  dflt : U

/-- State after import. -/
def St.init : St K := ⟨1, 1, 1, 1, .cm⟩

/-- Arguments of `set`. -/
structure SetArgs (K : Type*) where
  u : Option K := none
  v : Option K := none
  w : Option K := none
  x : Option K := none
  dflt : Option U := none

/-- `set` (`pyx/unit.py:37-48`). -/
def set (s : St K) (a : SetArgs K) : St K :=
  let s := match a.u with | some r => { s with u := r } | none => s
  let s := match a.v with | some r => { s with v := r } | none => s
  let s := match a.w with | some r => { s with w := r } | none => s
  let s := match a.x with | some r => { s with x := r } | none => s
  match a.dflt with | some r => { s with dflt := r } | none => s

/-- `length` instances. -/
@[ext] structure Length (K : Type*) where
  t : K
  u : K
  v : K
  w : K
  x : K

/-- What can be given where a length is expected: a number or a `length` instance. -/
inductive Val (K : Type*)
  | num (k : K)
  | len (l : Length K)

/-- `length.__init__` (`pyx/unit.py:88-103`). -/
def mk (s : St K) (f : K) (ty : Ty) (un : Option U) : Length K :=
  let l := f * mfac (un.getD s.dflt)
  match ty with
  | .t => ⟨l, 0, 0, 0, 0⟩
  | .u => ⟨0, l, 0, 0, 0⟩
  | .v => ⟨0, 0, l, 0, 0⟩
  | .w => ⟨0, 0, 0, l, 0⟩
  | .x => ⟨0, 0, 0, 0, l⟩

/-- `_convert_to` (`pyx/unit.py:51-55`); `tom`, `tocm`, ... are the instances for each unit. -/
def convert (s : St K) : Val K → U → K
  | .len l, d => (l.t + l.u * s.u + l.v * s.v + l.w * s.w + l.x * s.x) / mfac d
  | .num k, d => k * mfac s.dflt * s.u / mfac d

def tom (s : St K) (a : Val K) : K := convert s a .m

/-- Conversion of the other operand (`pyx/unit.py:143-147,162-166,179-180`): `length(other)`. -/
def toLen (s : St K) : Val K → Length K
  | .len l => l
  | .num k => mk s k .u none

/-- `__mul__`, `__rmul__` (`pyx/unit.py:117-126`). -/
def mul (l : Length K) (f : K) : Length K := ⟨f * l.t, f * l.u, f * l.v, f * l.w, f * l.x⟩
/-- `__div__` by a number (`pyx/unit.py:128-139`). -/
def div (l : Length K) (f : K) : Length K := ⟨l.t / f, l.u / f, l.v / f, l.w / f, l.x / f⟩
/-- `__div__` by a length (`pyx/unit.py:129-130`). -/
def ratio (s : St K) (a b : Length K) : K := tom s (.len a) / tom s (.len b)
/-- `__add__`, `__radd__` (`pyx/unit.py:141-158`). -/
def add (s : St K) (a : Length K) (b : Val K) : Length K :=
  let o := toLen s b
  ⟨a.t + o.t, a.u + o.u, a.v + o.v, a.w + o.w, a.x + o.x⟩
/-- `__sub__` (`pyx/unit.py:160-175`). -/
def sub (s : St K) (a : Length K) (b : Val K) : Length K :=
  let o := toLen s b
  ⟨a.t - o.t, a.u - o.u, a.v - o.v, a.w - o.w, a.x - o.x⟩
/-- `__rsub__` (`pyx/unit.py:177-187`). -/
def rsub (s : St K) (a : Length K) (b : Val K) : Length K :=
  let o := toLen s b
  ⟨o.t - a.t, o.u - a.u, o.v - a.v, o.w - a.w, o.x - a.x⟩
/-- `__neg__` (`pyx/unit.py:189-196`). -/
def neg (l : Length K) : Length K := ⟨-l.t, -l.u, -l.v, -l.w, -l.x⟩

/-- `__eq__` (`pyx/unit.py:105-109`). -/
def eq (s : St K) (a : Length K) (b : Val K) : Bool := decide (tom s (.len a) = tom s b)
/-- `__lt__` (`pyx/unit.py:111-115`). -/
def lt (s : St K) (a : Length K) (b : Val K) : Bool := decide (tom s (.len a) < tom s b)
/-- The methods added by `functools.total_ordering` (`pyx/unit.py:76`): `le` is `lt or eq`, `gt` is
`not lt and not eq`, `ge` is `not lt`. -/
def le (s : St K) (a : Length K) (b : Val K) : Bool := lt s a b || eq s a b
def gt (s : St K) (a : Length K) (b : Val K) : Bool := !lt s a b && !eq s a b
def ge (s : St K) (a : Length K) (b : Val K) : Bool := !lt s a b

/-- Length expressions as a user writes them. -/
inductive Expr (K : Type*)
  | num (k : K)
  | len (f : K) (ty : Ty) (un : Option U)
  | add (a b : Expr K)
  | sub (a b : Expr K)
  | neg (a : Expr K)
  | mul (f : K) (a : Expr K)
  | div (a : Expr K) (f : K)

/-- Evaluation of an expression by Python: which method is called depends on the operand types. -/
def eval (s : St K) : Expr K → Val K
  | .num k => .num k
  | .len f ty un => .len (mk s f ty un)
  | .add a b => match eval s a, eval s b with
    | .num p, .num q => .num (p + q)
    | .len p, q => .len (add s p q)
    | .num p, .len q => .len (add s q (.num p))
  | .sub a b => match eval s a, eval s b with
    | .num p, .num q => .num (p - q)
    | .len p, q => .len (sub s p q)
    | .num p, .len q => .len (rsub s q (.num p))
  | .neg a => match eval s a with
    | .num p => .num (-p)
    | .len p => .len (neg p)
  | .mul f a => match eval s a with
    | .num p => .num (f * p)
    | .len p => .len (mul p f)
  | .div a f => match eval s a with
    | .num p => .num (p / f)
    | .len p => .len (div p f)

end PyX.Unit
