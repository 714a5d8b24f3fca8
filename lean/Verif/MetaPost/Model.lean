import Mathlib.Algebra.Order.Field.Basic
import Mathlib.Algebra.Order.AbsoluteValue.Basic

/-!
# Model of `mp_solve_choices` (`pyx/metapost/mp_path.py:168-336`): the linear system

One run of knots between two breakpoints (or once round a cycle). The knots are numbered `0..n` as in the
code; `d k` is `delta[k]`, `psi k` is `psi[k]`, `rt k` and `lt k` are the absolute values of the right and
left tensions of knot `k`. Floats are an ordered field; `mp_make_fraction` and `mp_take_fraction` are
division and multiplication (l. 382-397). The arrays `uu`, `vv`, `ww`, `theta` are functions of the index.
A division by zero gives `0` here and is an exception in Python; `Props` shows that it does not occur.
-/

set_option linter.unusedSectionVars false

namespace PyX.MetaPost

variable {K : Type} [Field K] [LinearOrder K] [IsStrictOrderedRing K]

/-- `rtype` of the first knot: a given direction (its angle to the chord), a curl, an open knot of a cycle. -/
inductive Start (K : Type) where
  | given (v : K)
  | curl (c : K)
  | cycle
deriving DecidableEq

/-- `ltype` of the last knot. -/
inductive Stop (K : Type) where
  | given (v : K)
  | curl (c : K)
  | cycle
deriving DecidableEq

structure Chain (K : Type) where
  n : ℕ
  d : ℕ → K
  psi : ℕ → K
  rt : ℕ → K
  lt : ℕ → K
  start : Start K
  stop : Stop K

/-- `mp_curl_ratio` (`pyx/metapost/mp_path.py:407-420`). -/
def curlRatio (gamma a_tension b_tension : K) : K :=
  let alpha := 1 / a_tension
  let beta := 1 / b_tension
  min 4 (((3 - alpha) * alpha ^ 2 * gamma + beta ^ 3) / (alpha ^ 3 * gamma + (3 - beta) * beta ^ 2))

/-- Coefficients `uu`, `vv`, `ww` of one knot: `theta[k] = vv + ww * theta[0] - uu * theta[k+1]`. -/
structure Row (K : Type) where
  u : K
  v : K
  w : K

/-- The first equation (`pyx/metapost/mp_path.py:184-234`). -/
def row0 (c : Chain K) : Row K :=
  match c.start with
  | .given v => ⟨0, v, 0⟩
  | .curl g =>
    let u := curlRatio g (c.rt 0) (c.lt 1)
    ⟨u, -(c.psi 1 * u), 0⟩
  | .cycle => ⟨0, 0, 1⟩

/-- `ff = Ck/(Ck + Bk - uk-1Ak)` (`pyx/metapost/mp_path.py:246-262`): the two terms `ee` and `dd`. -/
def eedd (c : Chain K) (k : ℕ) (u : K) : K × K :=
  let aa := 1 / (3 * c.rt k - 1)
  let dd := c.d (k + 1) * (3 - 1 / c.rt k)
  let ee := c.d k * (3 - 1 / c.lt (k + 2))
  let cc := 1 - u * aa
  let dd := dd * cc
  let lt := c.lt (k + 1)
  let rt := c.rt (k + 1)
  if lt < rt then (ee, dd * (lt / rt) ^ 2)
  else if rt < lt then (ee * (rt / lt) ^ 2, dd)
  else (ee, dd)

/-- The test `r.rtype == mp_curl` for knot `k` (`pyx/metapost/mp_path.py:268`). -/
def isCurl (c : Chain K) (k : ℕ) : Bool :=
  match c.start with
  | .curl _ => k == 0
  | _ => false

/-- The equation for knot `k + 1` (`pyx/metapost/mp_path.py:238-276`). -/
def rowS (c : Chain K) (k : ℕ) (p : Row K) : Row K :=
  let aa := 1 / (3 * c.rt k - 1)
  let bb := 1 / (3 * c.lt (k + 2) - 1)
  let cc := 1 - p.u * aa
  let ed := eedd c k p.u
  let ff := ed.1 / (ed.1 + ed.2)
  let u := ff * bb
  let acc := -(c.psi (k + 2) * u)
  if isCurl c k then ⟨u, acc - c.psi 1 * (1 - ff), 0⟩
  else
    let ff' := (1 - ff) / cc
    let acc := acc - c.psi (k + 1) * ff'
    let ff' := ff' * aa
    ⟨u, acc - p.v * ff', -(p.w * ff')⟩

/-- The arrays `uu`, `vv`, `ww`. -/
def row (c : Chain K) : ℕ → Row K
  | 0 => row0 c
  | k + 1 => rowS c k (row c k)

/-- The loop of item 360 (`pyx/metapost/mp_path.py:281-290`): `aa`, `bb` after `j` passes, for
`k = n - 1, ..., 1`. -/
def cycDown (c : Chain K) : ℕ → K × K
  | 0 => (0, 1)
  | j + 1 =>
    let r := row c (c.n - 1 - j)
    let p := cycDown c j
    (r.v - p.1 * r.u, r.w - p.2 * r.u)

/-- The same loop including its last pass with `k = n`. -/
def cycEnd (c : Chain K) : K × K :=
  let r := row c c.n
  let p := cycDown c (c.n - 1)
  (r.v - p.1 * r.u, r.w - p.2 * r.u)

/-- `theta[n]` (`pyx/metapost/mp_path.py:291-292, 300-312`). -/
def thetaN (c : Chain K) : K :=
  match c.stop with
  | .given v => v
  | .curl g =>
    let ff := curlRatio g (c.lt c.n) (c.rt (c.n - 1))
    let r := row c (c.n - 1);
    -((r.v * ff) / (1 - ff * r.u))
  | .cycle => (cycEnd c).1 / (1 - (cycEnd c).2)

/-- `vv[k]` after the adjustment for cycles (`pyx/metapost/mp_path.py:293-295`). -/
def vvAdj (c : Chain K) (k : ℕ) : K :=
  match c.stop with
  | .cycle => if k = 0 then thetaN c else (row c k).v + thetaN c * (row c k).w
  | _ => (row c k).v

/-- The back substitution (`pyx/metapost/mp_path.py:323-324`): `theta[n - j]`. -/
def thetaDown (c : Chain K) : ℕ → K
  | 0 => thetaN c
  | j + 1 => vvAdj c (c.n - 1 - j) - thetaDown c j * (row c (c.n - 1 - j)).u

/-- The array `theta`. -/
def theta (c : Chain K) (k : ℕ) : K := thetaDown c (c.n - k)

/-- All the divisors used, in the code's order (`pyx/metapost/mp_path.py:246-304, 417-420`). -/
def divisors (c : Chain K) : List K :=
  (match c.start with
    | .curl g => [c.rt 0, c.lt 1, (1 / c.rt 0) ^ 3 * g + (3 - 1 / c.lt 1) * (1 / c.lt 1) ^ 2]
    | _ => []) ++
  ((List.range (match c.stop with | .cycle => c.n | _ => c.n - 1)).flatMap fun k =>
    [3 * c.rt k - 1, c.rt k, 3 * c.lt (k + 2) - 1, c.lt (k + 2), c.lt (k + 1), c.rt (k + 1),
     (eedd c k (row c k).u).1 + (eedd c k (row c k).u).2, 1 - (row c k).u * (1 / (3 * c.rt k - 1))]) ++
  (match c.stop with
    | .curl g => [c.lt c.n, c.rt (c.n - 1),
        (1 / c.lt c.n) ^ 3 * g + (3 - 1 / c.rt (c.n - 1)) * (1 / c.rt (c.n - 1)) ^ 2,
        1 - curlRatio g (c.lt c.n) (c.rt (c.n - 1)) * (row c (c.n - 1)).u]
    | .cycle => [1 - (cycEnd c).2]
    | .given _ => [])

end PyX.MetaPost
