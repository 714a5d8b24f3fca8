import Verif.Tick.Model
import Mathlib.Data.Rat.Defs
import Mathlib.Algebra.Order.Ring.Rat
import Mathlib.Algebra.Field.Rat

/-!
# Model of `pyx/graph/axis/texter.py`

* Strings are lists of characters. A format string with one `%s` is a pair (text before, text after).
* Label attributes (`labelattrs`) are not modelled; `MultiEngineText` stands for its TeX text.
* `while` loops: in the decimal texter with fuel (proved to suffice), in the default texter as relations.
-/

namespace PyX.Texter
open PyX.Tick

/-- `str(n)` for a natural number -/
def str (n : Nat) : List Char := Nat.toDigits 10 n

/-- Parameters of `decimal` (`pyx/graph/axis/texter.py:47-75`). -/
structure Decimal where
  pre : List Char := []
  inf : List Char := []
  suf : List Char := []
  equalprecision : Bool := false
  decimalsep : List Char := ['.']
  thousandsep : List Char := []
  thousandthpartsep : List Char := []
  plus : List Char := []
  minus : List Char := ['-']
  period : List Char × List Char := ("\\overline{".toList, "}".toList)

/-- Integer part with separators (`pyx/graph/axis/texter.py:93-102`). -/
def intPart (c : Decimal) (q : Nat) : List Char :=
  let quotient := str q
  if c.thousandsep.length ≠ 0 then
    let l := quotient.length
    (quotient.mapIdx fun i ch => if (l - i - 1) % 3 = 0 ∧ l > i + 1 then ch :: c.thousandsep else [ch]).flatten
  else quotient

/-- The loop `while (remainder)` (`pyx/graph/axis/texter.py:105-122`): the label and `temp_decprecision` (`none` for a recurring
decimal). `none` if the fuel does not suffice. -/
def decLoop (c : Decimal) (n : Nat) : (fuel : Nat) → (remainder : Nat) → (oldremainders : List Nat) → (label : List Char) →
    (prec : Nat) → Option (List Char × Option Nat)
  | 0, _, _, _, _ => none
  | fuel + 1, rem, olds, label, prec =>
    if rem = 0 then some (label, some prec)
    else if rem ∈ olds then
      let periodstart := label.length - (olds.length - olds.idxOf rem)
      some (label.take periodstart ++ (c.period.1 ++ label.drop periodstart ++ c.period.2), none)
    else
      let prec := prec + 1
      decLoop c n fuel (rem * 10 % n) (olds ++ [rem])
        (label ++ (if (prec - 1) % 3 = 0 ∧ prec > 1 then c.thousandthpartsep else []) ++ str (rem * 10 / n)) prec

/-- The first pass for one tick (`pyx/graph/axis/texter.py:89-122`). -/
def rawLabel (c : Decimal) (t : Frac) : Option (List Char × Option Nat) :=
  let m := t.num.natAbs
  let n := t.denom.natAbs
  let label := intPart c (m / n)
  let label := if m % n ≠ 0 then label ++ c.decimalsep else label
  decLoop c n (n + 1) (m % n) [] label 0

/-- Padding with zeros (`pyx/graph/axis/texter.py:123-131`). -/
def padded (c : Decimal) (maxdec : Nat) (l : List Char × Option Nat) : List Char :=
  if c.equalprecision then
    match l.2 with
    | none => l.1
    | some prec =>
      (List.range' prec (maxdec - prec)).foldl (fun label i =>
        label ++ (if (i - 1) % 3 = 0 ∧ i > 1 then c.thousandthpartsep else []) ++ ['0'])
        (if prec = 0 ∧ maxdec > 0 then l.1 ++ c.decimalsep else l.1)
  else l.1

/-- Sign and decoration (`pyx/graph/axis/texter.py:132-137`). -/
def decorate (c : Decimal) (t : Frac) (label : List Char) : List Char :=
  c.pre ++ (if t.num * t.denom < 0 then c.minus else c.plus) ++ c.inf ++ label ++ c.suf

/-- `maxdecprecision` (l. 85, 121-122) -/
def maxPrec (ls : List (List Char × Option Nat)) : Nat := ls.foldl (fun m l => max m (l.2.getD 0)) 0

/-- `decimal.labels` for a list of ticks to be labelled (`pyx/graph/axis/texter.py:83-138`). -/
def decimalTexts (c : Decimal) (ts : List Frac) : Option (List (List Char)) := do
  let raws ← ts.mapM (rawLabel c)
  some (List.zipWith (fun t raw => decorate c t (padded c (maxPrec raws) raw)) ts raws)

/-- The ticks to be labelled: `tick.label is None and tick.labellevel is not None` (l. 87). -/
def wants (t : T) : Bool := t.label.isNone && t.labellevel.isSome

/-- Store texts into the ticks that want one, in order. -/
def store : List T → List (List Char) → List T
  | [], _ => []
  | t :: ts, ls =>
    if wants t then
      match ls with
      | [] => t :: store ts []
      | l :: ls => { t with label := some (String.ofList l) } :: store ts ls
    else t :: store ts ls

/-- `decimal.labels` (`pyx/graph/axis/texter.py:83-138`). -/
def decimalLabels (c : Decimal) (ticks : List T) : Option (List T) := do
  let texts ← decimalTexts c ((ticks.filter wants).map T.pos)
  some (store ticks texts)

/-! ## `default` -/

/-- `skipmantissaunity` (`pyx/graph/axis/texter.py:144-149`) -/
inductive SkipUnity where
  | never | each | all
deriving DecidableEq

/-- Parameters of `default` (`pyx/graph/axis/texter.py:156-201`). -/
structure Default where
  multiplicationtex : List Char := "\\cdot{}".toList
  base : ℚ := 10
  skip : SkipUnity := .all
  minusunity : List Char := ['-']
  minexponent : Int := 4
  minnegexponent : Int := 4
  uniformexponent : Bool := true
  mantissatexter : Decimal := {}
  basetexter : Decimal := {}
  exponenttexter : Decimal := {}

/-- The first loop `while tick.temp_mantissa >= self.base` (l. 223-225). -/
inductive DownLoop (b : ℚ) : ℚ → ℤ → ℚ → ℤ → Prop
  | stop {m e} : ¬ m ≥ b → DownLoop b m e m e
  | next {m e m' e'} : m ≥ b → DownLoop b (m / b) (e + 1) m' e' → DownLoop b m e m' e'

/-- The second loop `while tick.temp_mantissa < 1` (l. 226-228). -/
inductive UpLoop (b : ℚ) : ℚ → ℤ → ℚ → ℤ → Prop
  | stop {m e} : ¬ m < 1 → UpLoop b m e m e
  | next {m e m' e'} : m < 1 → UpLoop b (m * b) (e - 1) m' e' → UpLoop b m e m' e'

/-- A tick with `temp_sign`, `temp_mantissa`, `temp_exponent`. -/
structure Dt where
  pos : Frac
  sign : Int
  mant : ℚ
  exp : Int

/-- First pass (`pyx/graph/axis/texter.py:217-233`), `temp_wantexponent` apart. `tick >= 0` is the comparison of
`pyx/graph/axis/tick.py`. -/
inductive Analyse (b : ℚ) : Frac → Dt → Prop
  | zero {t : Frac} : t.num = 0 → Analyse b t ⟨t, 1, 0, 0⟩
  | nonzero {t : Frac} {m e m' e'} : t.num ≠ 0 → DownLoop b |(t.num : ℚ) / t.denom| 0 m e → UpLoop b m e m' e' →
      Analyse b t ⟨t, if ge t ⟨0, 1⟩ then 1 else -1, m', e'⟩

/-- `temp_wantexponent` at first (l. 229, 233) -/
def want0 (c : Default) (d : Dt) : Bool := !(decide (-c.minnegexponent < d.exp) && decide (d.exp < c.minexponent))

/-- `temp_wantexponent` made uniform (l. 235-239) -/
def want (c : Default) (ds : List Dt) (d : Dt) : Bool :=
  want0 c d || (c.uniformexponent && ds.any (want0 c) && decide (d.pos.num ≠ 0))

/-- The mantissa is not to be labelled (l. 241-249). -/
def skipped (c : Default) (ds : List Dt) (d : Dt) : Bool :=
  match c.skip with
  | .never => false
  | .each => want c ds d && decide (d.mant = 1)
  | .all => want c ds d && (ds.filter (want c ds)).all fun d => decide (d.mant = 1)

/-- `Tick(x)` for a `Fraction` or an integer. -/
def ofRat (q : ℚ) : Frac := ⟨q.num, q.den⟩

/-- What is to be written as mantissa (l. 254-262): the tick itself, or a tick for the mantissa. -/
def mantTick (c : Default) (ds : List Dt) (d : Dt) : Frac := if want c ds d then ofRat (d.sign * d.mant) else d.pos

/-- Put the mantissa and exponent texts together (l. 264-272). -/
def assemble (c : Default) (ds : List Dt) (base : List Char) : List Dt → (mants exps : List (List Char)) → List (List Char)
  | [], _, _ => []
  | d :: rest, mants, exps =>
    if want c ds d then
      if skipped c ds d then
        ((if d.sign = -1 then c.minusunity else []) ++ base ++ "^{".toList ++ exps.headD [] ++ "}".toList) ::
          assemble c ds base rest mants exps.tail
      else
        (mants.headD [] ++ c.multiplicationtex ++ base ++ "^{".toList ++ exps.headD [] ++ "}".toList) ::
          assemble c ds base rest mants.tail exps.tail
    else mants.headD [] :: assemble c ds base rest mants.tail exps

/-- `default.labels` for a list of analysed ticks to be labelled (`pyx/graph/axis/texter.py:235-272`). -/
def defaultTexts (c : Default) (ds : List Dt) : Option (List (List Char)) := do
  let base ← decimalTexts c.basetexter [ofRat c.base]
  let mants ← decimalTexts c.mantissatexter ((ds.filter fun d => !skipped c ds d).map (mantTick c ds))
  let exps ← decimalTexts c.exponenttexter ((ds.filter (want c ds)).map fun d => ⟨d.exp, 1⟩)
  some (assemble c ds (base.headD []) ds mants exps)

/-! ## `rational` -/

/-- The loop of `gcd` (`pyx/graph/axis/texter.py:361-363`). -/
def gcdLoop (i j : Nat) : Nat := if _h : j = 0 then i else gcdLoop j (i % j)
termination_by j
decreasing_by exact Nat.mod_lt _ (Nat.pos_of_ne_zero _h)

/-- `gcd` of two numbers (`pyx/graph/axis/texter.py:357-363`). -/
def gcd (i j : Nat) : Nat := if i < j then gcdLoop j i else gcdLoop i j

/-- `lcm` (`pyx/graph/axis/texter.py:370-380`). -/
def lcm : List Nat → Option Nat
  | [] => none
  | n :: ns => some (ns.foldl (fun res i => res * i / gcd res i) n)

/-- Parameters of `rational` (`pyx/graph/axis/texter.py:279-342`); `over` is split at its two `%s`; `minuspos` other than
-1, 0, 1 (`RuntimeError`) is excluded by the type. -/
structure Rational where
  pre : List Char := []
  inf : List Char := []
  suf : List Char := []
  numpre : List Char := []
  numinf : List Char := []
  numsuf : List Char := []
  denompre : List Char := []
  denominf : List Char := []
  denomsuf : List Char := []
  plus : List Char := []
  minus : List Char := ['-']
  minuspos : Option Bool := none  -- `none`: 0, `some true`: 1, `some false`: -1
  over : List Char × List Char × List Char := ("{{".toList, "}\\over{".toList, "}}".toList)
  equaldenom : Bool := false
  skip1 : Bool := true
  skipnum0 : Bool := true
  skipnum1 : Bool := true
  skipdenom1 : Bool := true

/-- `temp_rationalnum`, `temp_rationaldenom`, `temp_rationalminus == -1` -/
structure Red where
  num : Nat
  denom : Nat
  neg : Bool
deriving DecidableEq

/-- Reduction (`pyx/graph/axis/texter.py:387-397`). -/
def reduce (t : Frac) : Red :=
  let n := t.num.natAbs
  let d := t.denom.natAbs
  let g := gcd n d
  ⟨n / g, d / g, (decide (t.num < 0)) ^^ (decide (t.denom < 0))⟩

/-- Expansion to the common denominator (`pyx/graph/axis/texter.py:400-403`). -/
def expand (l : Nat) (r : Red) : Red := ⟨l / r.denom * r.num, l / r.denom * r.denom, r.neg⟩

/-- The label of one tick (`pyx/graph/axis/texter.py:404-435`). -/
def rationalText (c : Rational) (r : Red) : List Char :=
  let plusminus := if r.neg then c.minus else c.plus
  let rationalminus := if c.minuspos = none then plusminus else []
  let numminus := if c.minuspos = some true then plusminus else []
  let denomminus := if c.minuspos = some false then plusminus else []
  if c.skipnum0 ∧ r.num = 0 then ['0']
  else if (c.skip1 ∧ c.skipdenom1 ∧ r.num = 1 ∧ r.denom = 1 ∧
      (c.pre ≠ [] ∨ c.inf ≠ [] ∨ c.suf ≠ []) ∧
      numminus = [] ∧ c.numpre = [] ∧ c.numinf = [] ∧ c.numsuf = [] ∧
      denomminus = [] ∧ c.denompre = [] ∧ c.denominf = [] ∧ c.denomsuf = []) then
    c.pre ++ rationalminus ++ c.inf ++ c.suf
  else
    let num := if c.skipnum1 ∧ r.num = 1 ∧ (c.numpre ≠ [] ∨ c.numinf ≠ [] ∨ c.numsuf ≠ []) then
      c.numpre ++ numminus ++ c.numinf ++ c.numsuf
      else c.numpre ++ numminus ++ c.numinf ++ str r.num ++ c.numsuf
    if c.skipdenom1 ∧ r.denom = 1 ∧ denomminus = [] ∧ c.denompre = [] ∧ c.denominf = [] ∧ c.denomsuf = [] then
      c.pre ++ rationalminus ++ c.inf ++ num ++ c.suf
    else
      let denom := c.denompre ++ denomminus ++ c.denominf ++ str r.denom ++ c.denomsuf
      c.pre ++ rationalminus ++ c.inf ++ (c.over.1 ++ num ++ c.over.2.1 ++ denom ++ c.over.2.2) ++ c.suf

/-- The fractions shown for the ticks to be labelled (`pyx/graph/axis/texter.py:383-403`). -/
def shown (c : Rational) (ts : List Frac) : List Red :=
  let rs := ts.map reduce
  if c.equaldenom then
    match lcm (rs.map Red.denom) with
    | none => rs
    | some l => rs.map (expand l)
  else rs

/-- `rational.labels` (`pyx/graph/axis/texter.py:382-436`). `none`: with `equaldenom` the common denominator is computed from all ticks
without label (l. 399), of which those without label level have no attribute `temp_rationaldenom` (`AttributeError`). -/
def rationalLabels (c : Rational) (ticks : List T) : Option (List T) :=
  if c.equaldenom && ticks.any (fun t => t.label.isNone && t.labellevel.isNone) then none
  else some (store ticks ((shown c ((ticks.filter wants).map T.pos)).map (rationalText c)))

end PyX.Texter
