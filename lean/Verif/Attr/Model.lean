/-!
# Model of `pyx/attr.py`

Attributes are elements of a type `A` with an `isinstance` relation to classes `C` and a merge
behaviour (`Kind`, given by the base class and the arguments of its constructor). The list
handed to `mergeattrs` contains attributes only (otherwise the code raises `TypeError`).
-/

namespace PyX.Attr

/-- The merge behaviours: `attr`, `exclusiveattr`, `sortbeforeattr`, `sortbeforeexclusiveattr`, `clearclass`, `_clear`
(`pyx/attr.py:71-166`). -/
inductive Kind (C : Type)
  | plain
  | excl (c : C)
  | sortBefore (cs : List C)
  | sortBeforeExcl (c : C) (cs : List C)
  | clearClass (c : C)
  | clearAll
deriving DecidableEq

/-- A system of attributes: `isinstance` and merge behaviour. -/
structure Sys (A C : Type) where
  inst : A → C → Bool
  kind : A → Kind C

variable {A C : Type} (S : Sys A C)

/-- `isinstance(attr, tuple)` -/
def instAny (x : A) (cs : List C) : Bool := cs.any (S.inst x)

/-- Loop of `sortbeforeattr.merge` (`pyx/attr.py:110-120`). -/
def sortLoop (self : A) (cs : List C) : (first : Bool) → (result : List A) → List A → List A
  | first, result, [] => if first then result ++ [self] else result
  | first, result, a :: attrs =>
    if first && instAny S a cs then sortLoop self cs false (result ++ [self] ++ [a]) attrs
    else sortLoop self cs first (result ++ [a]) attrs

/-- Loop of `sortbeforeexclusiveattr.merge` (`pyx/attr.py:134-145`). -/
def sortExclLoop (self : A) (c : C) (cs : List C) : (first : Bool) → (result : List A) → List A → List A
  | first, result, [] => if first then result ++ [self] else result
  | first, result, a :: attrs =>
    let hit := first && instAny S a cs
    let result := if hit then result ++ [self] else result
    let first := if hit then false else first
    sortExclLoop self c cs first (if !S.inst a c then result ++ [a] else result) attrs

/-- The `merge` methods (`pyx/attr.py:76-85,96-99,110-120,134-145,156-157,165-166`). -/
def merge (a : A) (attrs : List A) : List A :=
  match S.kind a with
  | .plain => attrs ++ [a]
  | .excl c => attrs.filter (fun x => !S.inst x c) ++ [a]
  | .sortBefore cs => sortLoop S a cs true [] attrs
  | .sortBeforeExcl c cs => sortExclLoop S a c cs true [] attrs
  | .clearClass c => attrs.filter (fun x => !S.inst x c)
  | .clearAll => []

/-- `mergeattrs` (`pyx/attr.py:28-38`). -/
def mergeattrs (attrs : List A) : List A := attrs.foldl (fun new a => merge S a new) []

/-- `getattrs` (`pyx/attr.py:41-44`). -/
def getattrs (attrs : List A) (cs : List C) : List A := attrs.filter fun x => instAny S x cs

/-- The `for` loop of `checkattrs` (`pyx/attr.py:52-54`): the first of the first list that differs from its partner. -/
def firstDiff [DecidableEq A] : List A → List A → Option A
  | a :: as, b :: bs => if a ≠ b then some a else firstDiff as bs
  | _, _ => none

/-- Result of `checkattrs`: fine, `TypeError` naming an attribute, or `IndexError`. -/
inductive Check (A : Type)
  | ok
  | bad (a : A)
  | indexError
deriving DecidableEq

/-- `checkattrs` (`pyx/attr.py:47-56`). -/
def checkattrs [DecidableEq A] (attrs : List A) (allowed : List C) : Check A :=
  let good := getattrs S attrs allowed
  if attrs.length ≠ good.length then
    match firstDiff attrs good with
    | some a => .bad a
    | none => match attrs[good.length]? with
      | some a => .bad a
      | none => .indexError
  else .ok

/-- `refineattrs` (`pyx/attr.py:58-65`) with `allow_none`; `.error` is the exception. -/
def refineattrs [DecidableEq A] (attrs : Option (List A)) (defaults : List A) (allowed : List C) :
    Except (Check A) (Option (List A)) :=
  match attrs with
  | none => .ok none
  | some attrs => match checkattrs S attrs allowed with
    | .ok => .ok (some (mergeattrs S (defaults ++ attrs)))
    | e => .error e

/-! ## Changeable attributes -/

/-- Changeable attributes: `changelist`, `multichangeattr` (`pyx/attr.py:230-262`; the dictionary of the latter as a
function of the total). -/
inductive Change (A : Type)
  | list (attrs : List A) (cyclic : Bool)
  | multi (attrs : Nat → Option (List A × Bool))

/-- `changelist.select` (`pyx/attr.py:243-249`). Outer `none`: exception (empty cyclic list). -/
def selectList (attrs : List A) (cyclic : Bool) (index : Nat) : Option (Option A) :=
  if cyclic then
    if attrs.length = 0 then none else (attrs[index % attrs.length]?).map some
  else if index < attrs.length then (attrs[index]?).map some
  else some none

/-- `select` (`pyx/attr.py:243-249,261-262`). -/
def Change.select : Change A → Nat → Nat → Option (Option A)
  | .list attrs cyclic, index, _ => selectList attrs cyclic index
  | .multi f, index, total => match f total with
    | none => none
    | some (attrs, cyclic) => selectList attrs cyclic index

/-- `selectattrs` (`pyx/attr.py:178-199`) on a list of fixed (`inl`) and changeable (`inr`) attributes. -/
def selectLoop (index total : Nat) : (result : List A) → List (A ⊕ Change A) → Option (Option (List A))
  | result, [] => some (some result)
  | result, .inl a :: l => selectLoop index total (result ++ [a]) l
  | result, .inr c :: l => match c.select index total with
    | none => none
    | some none => some none
    | some (some a) => selectLoop index total (result ++ [a]) l

def selectattrs (attrs : Option (List (A ⊕ Change A))) (index total : Nat) : Option (Option (List A)) :=
  match attrs with
  | none => some none
  | some l => selectLoop index total [] l

end PyX.Attr
