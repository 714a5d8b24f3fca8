import Mathlib.Data.List.Basic
import Mathlib.Data.List.Induction
import Mathlib.Tactic.Cases
import Mathlib.Tactic.Common
import Mathlib.Algebra.Order.Group.Abs
import Mathlib.Algebra.Order.Ring.Int
/-!
# Drawing paths: `canvas.draw`, `stroke` and `fill` (C166) and copies of decorators (C167)

`P` are paths, `Y` the styles, `O` what is drawn as an ornament and `E` the exceptions of deformers and decorators.
-/

set_option linter.unusedSectionVars false
set_option linter.unusedSimpArgs false

namespace PyX.Canvas.Draw

/-- The classes of styles.  A line width is put before dashes and line styles (`style.py:216`); all are exclusive. -/
inductive SC
  | linewidth | dash | linestyle | color | other (n : Nat)
deriving DecidableEq

/-- Attributes of `draw`: deformers (`baseclasses.py:71`, transformations included, `trafo.py:52`), styles, the decorators
`stroked`, `filled`, `linehatched`, other decorators (arrows, texts, ...), the attributes which clear one of these
classes, `attr.clear`, and attributes which mean nothing for paths (for example those of texts).  A decorator other than
`stroked` and `filled` is the function giving its ornaments. -/
inductive A (P Y O E : Type)
  | deform (cls : Nat) (f : P → Except E P)
  | deformClear (cls : Nat)
  | sty (cls : SC) (y : Y)
  | styClear (cls : SC)
  | stroked (ys : List Y)
  | strokedClear
  | filled (ys : List Y)
  | filledClear
  | hatch (f : P → Except E (List O))
  | hatchClear
  | deco (cls : Nat) (f : P → Except E (List O))
  | decoClear (cls : Nat)
  | clear
  | foreign (n : Nat)

variable {P Y O E : Type}

namespace A

def isDeform (c : Nat) : A P Y O E → Bool
  | deform d _ => d == c
  | _ => false

def isSty (c : SC) : A P Y O E → Bool
  | sty d _ => d == c
  | _ => false

def isStroked : A P Y O E → Bool
  | stroked _ => true
  | _ => false

def isFilled : A P Y O E → Bool
  | filled _ => true
  | _ => false

def isHatch : A P Y O E → Bool
  | hatch _ => true
  | _ => false

def isDeco (c : Nat) : A P Y O E → Bool
  | deco d _ => d == c
  | _ => false

/-- `isinstance(attr, (dash, linestyle))` -/
def isDashed (a : A P Y O E) : Bool := a.isSty .dash || a.isSty .linestyle

end A

/-- The loop of `sortbeforeexclusiveattr.merge` (`attr.py:134-145`) of a line width. -/
def sortLoop (self : A P Y O E) : (first : Bool) → List (A P Y O E) → List (A P Y O E)
  | first, [] => if first then [self] else []
  | first, a :: l =>
    if first && a.isDashed then self :: a :: sortLoop self false l
    else if a.isSty .linewidth then sortLoop self first l
    else a :: sortLoop self first l

/-- `merge` of the attributes (`attr.py:76-85,96-99,134-145,156-157,165-166`, `deco.py:788-791`). -/
def merge (l : List (A P Y O E)) (a : A P Y O E) : List (A P Y O E) :=
  match a with
  | .deform _ _ => l ++ [a]
  | .deformClear c => l.filter fun x => !x.isDeform c
  | .sty .linewidth _ => sortLoop a true l
  | .sty c _ => (l.filter fun x => !x.isSty c) ++ [a]
  | .styClear c => l.filter fun x => !x.isSty c
  | .stroked _ => (l.filter fun x => !x.isStroked) ++ [a]
  | .strokedClear => l.filter fun x => !x.isStroked
  | .filled _ => (l.filter fun x => !x.isFilled) ++ [a]
  | .filledClear => l.filter fun x => !x.isFilled
  | .hatch _ => ((l.filter fun x => !x.isHatch) ++ [a]).filter fun x => !x.isFilled
  | .hatchClear => l.filter fun x => !x.isHatch
  | .deco _ _ => l ++ [a]
  | .decoClear c => l.filter fun x => !x.isDeco c
  | .clear => []
  | .foreign _ => l ++ [a]

/-- `attr.mergeattrs` (`attr.py:28-38`). -/
def mergeattrs (l : List (A P Y O E)) : List (A P Y O E) := l.foldl merge []

/-- The exceptions of `draw`: `TypeError` of `checkattrs`, "Cannot stroke an already stroked path" (`deco.py:419`),
"Cannot fill an already filled path" (`deco.py:441`) and those of deformers and decorators. -/
inductive Err (E : Type)
  | notAllowed | alreadyStroked | alreadyFilled | raised (e : E)

/-- `decoratedpath` (`deco.py:38-65`), without the ranges which are not stroked; a style comes with its class. -/
structure DP (P Y O : Type) where
  path : P
  styles : List (SC × Y)
  strokestyles : Option (List Y)
  fillstyles : Option (List Y)
  ornaments : List O

/-- `isinstance(attr, (deco.deco, baseclasses.deformer, style.style))` for what is left after merging. -/
def allowed : A P Y O E → Bool
  | .foreign _ => false
  | _ => true

/-- `for adeformer in attr.getattrs(attrs, [baseclasses.deformer])` (`canvas.py:366-367`). -/
def deformAll : List (A P Y O E) → P → Except (Err E) P
  | [], p => .ok p
  | .deform _ f :: l, p => match f p with
    | .ok q => deformAll l q
    | .error e => .error (.raised e)
  | _ :: l, p => deformAll l p

/-- `attr.getattrs(attrs, [style.style])` (`canvas.py:369`). -/
def stylesOf : List (A P Y O E) → List (SC × Y)
  | [] => []
  | .sty c y :: l => (c, y) :: stylesOf l
  | _ :: l => stylesOf l

/-- A decorator other than `stroked` and `filled`: the path is normalised (`ensurenormpath`, `deco.py:67-70`), the
ornaments are inserted. -/
def ornament (norm : P → P) (f : P → Except E (List O)) (dp : DP P Y O) : Except (Err E) (DP P Y O) :=
  match f (norm dp.path) with
  | .ok os => .ok { dp with path := norm dp.path, ornaments := dp.ornaments ++ os }
  | .error e => .error (.raised e)

/-- `decorate` of `stroked` (`deco.py:417-420`). -/
def decStroked (ys : List Y) (dp : DP P Y O) : Except (Err E) (DP P Y O) :=
  match dp.strokestyles with
  | some _ => .error .alreadyStroked
  | none => .ok { dp with strokestyles := some ys }

/-- `decorate` of `filled` (`deco.py:439-442`). -/
def decFilled (ys : List Y) (dp : DP P Y O) : Except (Err E) (DP P Y O) :=
  match dp.fillstyles with
  | some _ => .error .alreadyFilled
  | none => .ok { dp with fillstyles := some ys }

/-- `for adeco in attr.getattrs(attrs, [deco.deco])` (`canvas.py:373-374`). -/
def decorateAll (norm : P → P) : List (A P Y O E) → DP P Y O → Except (Err E) (DP P Y O)
  | [], dp => .ok dp
  | a :: l, dp =>
    match (match a with
      | .stroked ys => decStroked ys dp
      | .filled ys => decFilled ys dp
      | .hatch f => ornament norm f dp
      | .deco _ f => ornament norm f dp
      | _ => .ok dp) with
    | .ok dp => decorateAll norm l dp
    | .error e => .error e

/-- `canvas.draw` (`canvas.py:353-376`); the result is the list of items. -/
def draw (norm : P → P) (items : List (DP P Y O)) (p : P) (attrs : List (A P Y O E)) :
    Except (Err E) (List (DP P Y O)) :=
  let m := mergeattrs attrs
  if m.all allowed then
    match deformAll m p with
    | .error e => .error e
    | .ok q => match decorateAll norm m ⟨q, stylesOf m, none, none, []⟩ with
      | .error e => .error e
      | .ok dp => .ok (items ++ [dp])
  else .error .notAllowed

/-- `canvas.stroke` (`canvas.py:378-388`). -/
def stroke (norm : P → P) (items : List (DP P Y O)) (p : P) (attrs : List (A P Y O E)) :
    Except (Err E) (List (DP P Y O)) := draw norm items p (.stroked [] :: attrs)

/-- `canvas.fill` (`canvas.py:390-400`). -/
def fill (norm : P → P) (items : List (DP P Y O)) (p : P) (attrs : List (A P Y O E)) :
    Except (Err E) (List (DP P Y O)) := draw norm items p (.filled [] :: attrs)

/-! ## What the attributes ask for -/

/-- The stroke asked for: that of the last `stroked`, unless something clears it. -/
def strokeStep (s : Option (List Y)) : A P Y O E → Option (List Y)
  | .stroked ys => some ys
  | .strokedClear => none
  | .clear => none
  | _ => s

def strokeOf (l : List (A P Y O E)) : Option (List Y) := l.foldl strokeStep none

/-- The filling asked for; hatching replaces it. -/
def fillStep (s : Option (List Y)) : A P Y O E → Option (List Y)
  | .filled ys => some ys
  | .filledClear => none
  | .hatch _ => none
  | .clear => none
  | _ => s

def fillOf (l : List (A P Y O E)) : Option (List Y) := l.foldl fillStep none

/-- The style of a class asked for. -/
def styStep (c : SC) (s : Option Y) : A P Y O E → Option Y
  | .sty d y => if d = c then some y else s
  | .styClear d => if d = c then none else s
  | .clear => none
  | _ => s

def styOf (c : SC) (l : List (A P Y O E)) : Option Y := l.foldl (styStep c) none

def clearsDeform (c : Nat) : A P Y O E → Bool
  | .deformClear d => d == c
  | .clear => true
  | _ => false

/-- The deformers which nothing behind them clears. -/
def deformers : List (A P Y O E) → List (P → Except E P)
  | [] => []
  | .deform c f :: l => if l.any (clearsDeform c) then deformers l else f :: deformers l
  | _ :: l => deformers l

def clearsDeco (c : Nat) : A P Y O E → Bool
  | .decoClear d => d == c
  | .clear => true
  | _ => false

def clearsHatch : A P Y O E → Bool
  | .hatch _ => true
  | .hatchClear => true
  | .clear => true
  | _ => false

/-- The decorators with ornaments which nothing behind them clears or replaces. -/
def decorators : List (A P Y O E) → List (P → Except E (List O))
  | [] => []
  | .deco c f :: l => if l.any (clearsDeco c) then decorators l else f :: decorators l
  | .hatch f :: l => if l.any clearsHatch then decorators l else f :: decorators l
  | _ :: l => decorators l

def isForeign : A P Y O E → Bool
  | .foreign _ => true
  | _ => false

def isClear : A P Y O E → Bool
  | .clear => true
  | _ => false

/-- Whether an attribute which is not for paths is given and nothing behind it clears all attributes. -/
def hasForeign : List (A P Y O E) → Bool
  | [] => false
  | a :: l => (isForeign a && !l.any isClear) || hasForeign l

/-- Functions one after the other. -/
def chain : List (P → Except E P) → P → Except E P
  | [], p => .ok p
  | f :: l, p => match f p with
    | .ok q => chain l q
    | .error e => .error e

/-- All ornaments, in order. -/
def gather : List (P → Except E (List O)) → P → Except E (List O)
  | [], _ => .ok []
  | f :: l, p => match f p, gather l p with
    | .ok a, .ok b => .ok (a ++ b)
    | .ok _, .error e => .error e
    | .error e, _ => .error e

/-! ## Lemmas -/

section Lemmas

variable {β : Type}

theorem filt (g : A P Y O E → Option β) (p : A P Y O E → Bool) (h : ∀ x, p x = false → g x = none)
    (l : List (A P Y O E)) : (l.filter p).filterMap g = l.filterMap g := by
  induction l with
  | nil => rfl
  | cons a l ih =>
    cases hp : p a with
    | true => rw [List.filter_cons_of_pos hp, List.filterMap_cons, List.filterMap_cons, ih]
    | false =>
      rw [List.filter_cons_of_neg (by simp [hp]), List.filterMap_cons_none (h a hp), ih]

theorem filtNone (g : A P Y O E → Option β) (p : A P Y O E → Bool) (h : ∀ x, p x = true → g x = none)
    (l : List (A P Y O E)) : (l.filter p).filterMap g = [] := by
  induction l with
  | nil => rfl
  | cons a l ih =>
    cases hp : p a with
    | true => rw [List.filter_cons_of_pos hp, List.filterMap_cons_none (h a hp), ih]
    | false => rw [List.filter_cons_of_neg (by simp [hp]), ih]

/-- A line width is put somewhere, the other line widths are dropped. -/
theorem sortLoop_map (g : A P Y O E → Option β) (self : A P Y O E) (hs : g self = none)
    (h : ∀ x : A P Y O E, x.isSty .linewidth = true → g x = none) (b : Bool) (l : List (A P Y O E)) :
    (sortLoop self b l).filterMap g = l.filterMap g := by
  induction l generalizing b with
  | nil => cases b <;> simp [sortLoop, hs]
  | cons a l ih =>
    unfold sortLoop
    by_cases h1 : (b && a.isDashed) = true
    · rw [if_pos h1, List.filterMap_cons_none hs, List.filterMap_cons, List.filterMap_cons, ih]
    · rw [if_neg h1]
      by_cases h2 : a.isSty .linewidth = true
      · rw [if_pos h2, ih, List.filterMap_cons_none (h a h2)]
      · rw [if_neg h2, List.filterMap_cons, List.filterMap_cons, ih]

theorem sortLoop_false (self : A P Y O E) (l : List (A P Y O E)) :
    sortLoop self false l = l.filter fun x => !x.isSty .linewidth := by
  induction l with
  | nil => rfl
  | cons a l ih =>
    unfold sortLoop
    by_cases h2 : a.isSty .linewidth = true <;> simp [h2, ih]

theorem dashed_not (a : A P Y O E) (h : a.isDashed = true) : a.isSty .linewidth = false := by
  cases a with
  | sty c y => cases c <;> simp_all [A.isDashed, A.isSty]
  | _ => simp_all [A.isDashed, A.isSty]

/-- Where a line width is put: before the first dash or line style. -/
theorem sortLoop_true (self : A P Y O E) (l : List (A P Y O E)) :
    ∃ p q, l = p ++ q ∧ (∀ x ∈ p, x.isDashed = false) ∧
      sortLoop self true l = (p.filter fun x => !x.isSty .linewidth) ++ self :: q.filter fun x => !x.isSty .linewidth := by
  induction l with
  | nil => exact ⟨[], [], rfl, by simp, rfl⟩
  | cons a l ih =>
    unfold sortLoop
    by_cases h1 : a.isDashed = true
    · refine ⟨[], a :: l, rfl, by simp, ?_⟩
      simp [h1, sortLoop_false, dashed_not a h1]
    · obtain ⟨p, q, e, hp, r⟩ := ih
      have h1' : a.isDashed = false := by simpa using h1
      refine ⟨a :: p, q, by rw [e]; rfl, ?_, ?_⟩
      · intro x hx
        rcases List.mem_cons.1 hx with rfl | hx
        · exact h1'
        · exact hp x hx
      · by_cases h2 : a.isSty .linewidth = true <;> simp [h1', h2, r]

theorem mergeattrs_snoc (l : List (A P Y O E)) (a : A P Y O E) :
    mergeattrs (l ++ [a]) = merge (mergeattrs l) a := by
  simp [mergeattrs]

/-- What is left of one kind of attributes, if `rem b a` tells whether `b` removes `a` before it. -/
def surv (rem : A P Y O E → A P Y O E → Bool) (sel : A P Y O E → Bool) : List (A P Y O E) → List (A P Y O E)
  | [] => []
  | a :: l => if sel a && !l.any (rem · a) then a :: surv rem sel l else surv rem sel l

theorem surv_snoc (rem : A P Y O E → A P Y O E → Bool) (sel : A P Y O E → Bool) (l : List (A P Y O E))
    (b : A P Y O E) :
    surv rem sel (l ++ [b]) = ((surv rem sel l).filter fun x => !rem b x) ++ (if sel b then [b] else []) := by
  induction l with
  | nil => cases h : sel b <;> simp [surv, h]
  | cons a l ih =>
    simp only [List.cons_append, surv, List.any_append, List.any_cons, List.any_nil, Bool.or_false, ih]
    cases h1 : sel a <;> cases h2 : l.any (rem · a) <;> cases h3 : rem b a <;> simp [h3]

theorem merge_surv (rem : A P Y O E → A P Y O E → Bool) (sel : A P Y O E → Bool)
    (h : ∀ l b, (merge l b).filter sel = ((l.filter sel).filter fun x => !rem b x) ++ (if sel b then [b] else []))
    (l : List (A P Y O E)) : (mergeattrs l).filter sel = surv rem sel l := by
  induction l using List.reverseRecOn with
  | nil => rfl
  | append_singleton l a ih => rw [mergeattrs_snoc, h, ih, surv_snoc]

theorem filter_as_map (sel : A P Y O E → Bool) (l : List (A P Y O E)) :
    l.filter sel = l.filterMap fun x => if sel x then some x else none := by
  induction l with
  | nil => rfl
  | cons a l ih => cases h : sel a <;> simp [h, ih]

def asStroked : A P Y O E → Option (List Y)
  | .stroked ys => some ys
  | _ => none

def asFilled : A P Y O E → Option (List Y)
  | .filled ys => some ys
  | _ => none

def asSty : A P Y O E → Option (SC × Y)
  | .sty c y => some (c, y)
  | _ => none

def asDec : A P Y O E → Option (P → Except E (List O))
  | .hatch f => some f
  | .deco _ f => some f
  | _ => none

def asDeform : A P Y O E → Option (P → Except E P)
  | .deform _ f => some f
  | _ => none

theorem merge_stroked (l : List (A P Y O E)) : (mergeattrs l).filterMap asStroked = (strokeOf l).toList := by
  induction l using List.reverseRecOn with
  | nil => rfl
  | append_singleton l a ih =>
    have e : strokeOf (l ++ [a]) = strokeStep (strokeOf l) a := by simp [strokeOf]
    rw [mergeattrs_snoc, e]
    generalize mergeattrs l = m at ih
    cases a with
    | sty c y =>
      cases c with
      | linewidth =>
        change (sortLoop _ true m).filterMap asStroked = _
        rw [sortLoop_map asStroked _ rfl (by intro x hx; cases x <;> simp_all [A.isSty, asStroked])]
        exact ih
      | _ =>
        simp only [merge, List.filterMap_append]
        rw [filt asStroked _ (by intro x hx; cases x <;> simp_all [A.isSty, asStroked]), ih]
        simp [asStroked, strokeStep]
    | deform c f => simp [merge, asStroked, strokeStep, ih]
    | deformClear c =>
      simp only [merge]
      rw [filt asStroked _ (by intro x hx; cases x <;> simp_all [A.isDeform, asStroked]), ih]; rfl
    | styClear c =>
      simp only [merge]
      rw [filt asStroked _ (by intro x hx; cases x <;> simp_all [A.isSty, asStroked]), ih]; rfl
    | stroked ys =>
      simp only [merge, List.filterMap_append]
      rw [filtNone asStroked _ (by intro x hx; cases x <;> simp_all [A.isStroked, asStroked])]; rfl
    | strokedClear =>
      simp only [merge]
      rw [filtNone asStroked _ (by intro x hx; cases x <;> simp_all [A.isStroked, asStroked])]; rfl
    | filled ys =>
      simp only [merge, List.filterMap_append]
      rw [filt asStroked _ (by intro x hx; cases x <;> simp_all [A.isFilled, asStroked]), ih]
      simp [asStroked, strokeStep]
    | filledClear =>
      simp only [merge]
      rw [filt asStroked _ (by intro x hx; cases x <;> simp_all [A.isFilled, asStroked]), ih]; rfl
    | hatch f =>
      simp only [merge]
      rw [filt asStroked _ (by intro x hx; cases x <;> simp_all [A.isFilled, asStroked]), List.filterMap_append,
        filt asStroked _ (by intro x hx; cases x <;> simp_all [A.isHatch, asStroked]), ih]
      simp [asStroked, strokeStep]
    | hatchClear =>
      simp only [merge]
      rw [filt asStroked _ (by intro x hx; cases x <;> simp_all [A.isHatch, asStroked]), ih]; rfl
    | deco c f => simp [merge, asStroked, strokeStep, ih]
    | decoClear c =>
      simp only [merge]
      rw [filt asStroked _ (by intro x hx; cases x <;> simp_all [A.isDeco, asStroked]), ih]; rfl
    | clear => rfl
    | foreign n => simp [merge, asStroked, strokeStep, ih]

theorem merge_filled (l : List (A P Y O E)) : (mergeattrs l).filterMap asFilled = (fillOf l).toList := by
  induction l using List.reverseRecOn with
  | nil => rfl
  | append_singleton l a ih =>
    have e : fillOf (l ++ [a]) = fillStep (fillOf l) a := by simp [fillOf]
    rw [mergeattrs_snoc, e]
    generalize mergeattrs l = m at ih
    cases a with
    | sty c y =>
      cases c with
      | linewidth =>
        change (sortLoop _ true m).filterMap asFilled = _
        rw [sortLoop_map asFilled _ rfl (by intro x hx; cases x <;> simp_all [A.isSty, asFilled])]
        exact ih
      | _ =>
        simp only [merge, List.filterMap_append]
        rw [filt asFilled _ (by intro x hx; cases x <;> simp_all [A.isSty, asFilled]), ih]
        simp [asFilled, fillStep]
    | deform c f => simp [merge, asFilled, fillStep, ih]
    | deformClear c =>
      simp only [merge]
      rw [filt asFilled _ (by intro x hx; cases x <;> simp_all [A.isDeform, asFilled]), ih]; rfl
    | styClear c =>
      simp only [merge]
      rw [filt asFilled _ (by intro x hx; cases x <;> simp_all [A.isSty, asFilled]), ih]; rfl
    | filled ys =>
      simp only [merge, List.filterMap_append]
      rw [filtNone asFilled _ (by intro x hx; cases x <;> simp_all [A.isFilled, asFilled])]; rfl
    | filledClear =>
      simp only [merge]
      rw [filtNone asFilled _ (by intro x hx; cases x <;> simp_all [A.isFilled, asFilled])]; rfl
    | stroked ys =>
      simp only [merge, List.filterMap_append]
      rw [filt asFilled _ (by intro x hx; cases x <;> simp_all [A.isStroked, asFilled]), ih]
      simp [asFilled, fillStep]
    | strokedClear =>
      simp only [merge]
      rw [filt asFilled _ (by intro x hx; cases x <;> simp_all [A.isStroked, asFilled]), ih]; rfl
    | hatch f =>
      simp only [merge]
      rw [filtNone asFilled _ (by intro x hx; cases x <;> simp_all [A.isFilled, asFilled])]; rfl
    | hatchClear =>
      simp only [merge]
      rw [filt asFilled _ (by intro x hx; cases x <;> simp_all [A.isHatch, asFilled]), ih]; rfl
    | deco c f => simp [merge, asFilled, fillStep, ih]
    | decoClear c =>
      simp only [merge]
      rw [filt asFilled _ (by intro x hx; cases x <;> simp_all [A.isDeco, asFilled]), ih]; rfl
    | clear => rfl
    | foreign n => simp [merge, asFilled, fillStep, ih]

/-- Which attributes are deformers, decorators with ornaments, foreign. -/
def isDef : A P Y O E → Bool
  | .deform _ _ => true
  | _ => false

def isDec : A P Y O E → Bool
  | .hatch _ => true
  | .deco _ _ => true
  | _ => false

def remDef (b : A P Y O E) : A P Y O E → Bool
  | .deform c _ => clearsDeform c b
  | _ => false

def remDec (b : A P Y O E) : A P Y O E → Bool
  | .deco c _ => clearsDeco c b
  | .hatch _ => clearsHatch b
  | _ => false

theorem filter_id (sel q : A P Y O E → Bool) (l : List (A P Y O E)) (h : ∀ x, sel x = true → q x = true) :
    (l.filter sel).filter q = l.filter sel := by
  rw [List.filter_eq_self]
  intro x hx
  exact h x (List.mem_filter.1 hx).2

theorem filter_swap (sel q r : A P Y O E → Bool) (l : List (A P Y O E)) (h : ∀ x, sel x = true → q x = r x) :
    (l.filter q).filter sel = (l.filter sel).filter r := by
  rw [List.filter_filter, List.filter_filter]
  apply List.filter_congr
  intro x _
  cases hs : sel x with
  | true => simp [h x hs]
  | false => simp

theorem sortLoop_sel (sel : A P Y O E → Bool) (self : A P Y O E) (hs : sel self = false)
    (h : ∀ x : A P Y O E, x.isSty .linewidth = true → sel x = false) (b : Bool) (l : List (A P Y O E)) :
    (sortLoop self b l).filter sel = l.filter sel := by
  rw [filter_as_map, filter_as_map sel l]
  exact sortLoop_map _ self (by simp [hs]) (by intro x hx; simp [h x hx]) b l

/-- Which attributes before it an attribute leaves, and whether it is kept itself. -/
def keeps (b x : A P Y O E) : Bool :=
  match b with
  | .deformClear c => !x.isDeform c
  | .sty c _ => !x.isSty c
  | .styClear c => !x.isSty c
  | .stroked _ => !x.isStroked
  | .strokedClear => !x.isStroked
  | .filled _ => !x.isFilled
  | .filledClear => !x.isFilled
  | .hatch _ => !x.isFilled && !x.isHatch
  | .hatchClear => !x.isHatch
  | .decoClear c => !x.isDeco c
  | .clear => false
  | _ => true

def stays : A P Y O E → Bool
  | .deformClear _ => false
  | .styClear _ => false
  | .strokedClear => false
  | .filledClear => false
  | .hatchClear => false
  | .decoClear _ => false
  | .clear => false
  | _ => true

theorem merge_eq (l : List (A P Y O E)) (b : A P Y O E) (hb : b.isSty .linewidth = false) :
    merge l b = l.filter (keeps b) ++ (if stays b then [b] else []) := by
  have ht : l.filter (fun _ => true) = l := by simp
  cases b with
  | sty c y =>
    cases c with
    | linewidth => simp [A.isSty] at hb
    | _ => rfl
  | deform c f => change l ++ _ = l.filter (fun _ => true) ++ _; rw [ht]; rfl
  | deco c f => change l ++ _ = l.filter (fun _ => true) ++ _; rw [ht]; rfl
  | foreign n => change l ++ _ = l.filter (fun _ => true) ++ _; rw [ht]; rfl
  | clear => change [] = l.filter (fun _ => false) ++ _; simp [stays]
  | hatch f =>
    change ((l.filter fun x : A P Y O E => !x.isHatch) ++ [A.hatch f]).filter (fun x : A P Y O E => !x.isFilled) =
      l.filter (fun x : A P Y O E => !x.isFilled && !x.isHatch) ++ [A.hatch f]
    rw [List.filter_append, List.filter_filter]
    rfl
  | deformClear c => exact (List.append_nil _).symm
  | styClear c => exact (List.append_nil _).symm
  | strokedClear => exact (List.append_nil _).symm
  | filledClear => exact (List.append_nil _).symm
  | hatchClear => exact (List.append_nil _).symm
  | decoClear c => exact (List.append_nil _).symm
  | _ => rfl

theorem merge_kind (rem : A P Y O E → A P Y O E → Bool) (sel : A P Y O E → Bool)
    (h1 : ∀ b x, sel x = true → keeps b x = !rem b x) (h2 : ∀ b, sel b = true → stays b = true)
    (h3 : ∀ c y, sel (.sty c y) = false) (l : List (A P Y O E)) : (mergeattrs l).filter sel = surv rem sel l := by
  apply merge_surv
  intro m b
  have hsw : (m.filter (keeps b)).filter sel = (m.filter sel).filter (fun x => !rem b x) :=
    filter_swap sel _ _ m (h1 b)
  cases hb : b.isSty .linewidth with
  | false =>
    rw [merge_eq m b hb, List.filter_append, hsw]
    congr 1
    cases h : sel b with
    | true => simp [h2 b h, h]
    | false => cases stays b <;> simp [h]
  | true =>
    cases b with
    | sty c y =>
      obtain rfl : c = .linewidth := by simpa [A.isSty] using hb
      have hs : sel (.sty .linewidth y) = false := h3 _ _
      rw [← hsw]
      change (sortLoop _ true m).filter sel = _
      rw [sortLoop_sel sel _ hs (by
        intro x hx
        cases x with
        | sty c y => exact h3 c y
        | _ => simp [A.isSty] at hx), hs]
      rw [filter_swap sel (keeps (.sty .linewidth y)) (fun _ => true) m (by
        intro x hx
        cases x with
        | sty c y => rw [h3 c y] at hx; cases hx
        | _ => rfl)]
      simp
    | _ => simp [A.isSty] at hb

theorem merge_def (l : List (A P Y O E)) : (mergeattrs l).filter isDef = surv remDef isDef l := by
  apply merge_kind
  · intro b x hx
    cases x with
    | deform c f =>
      cases b <;> simp [keeps, remDef, clearsDeform, A.isDeform, A.isSty, A.isStroked, A.isFilled, A.isHatch, A.isDeco,
        beq_eq_beq, eq_comm]
    | _ => simp [isDef] at hx
  · intro b hb; cases b <;> simp_all [isDef, stays]
  · intro c y; rfl

theorem merge_dec (l : List (A P Y O E)) : (mergeattrs l).filter isDec = surv remDec isDec l := by
  apply merge_kind
  · intro b x hx
    cases x with
    | deco c f =>
      cases b <;> simp [keeps, remDec, clearsDeco, A.isDeform, A.isSty, A.isStroked, A.isFilled, A.isHatch, A.isDeco,
        beq_eq_beq, eq_comm]
    | hatch f =>
      cases b <;> simp [keeps, remDec, clearsHatch, A.isDeform, A.isSty, A.isStroked, A.isFilled, A.isHatch, A.isDeco]
    | _ => simp [isDec] at hx
  · intro b hb; cases b <;> simp_all [isDec, stays]
  · intro c y; rfl

theorem merge_foreign (l : List (A P Y O E)) :
    (mergeattrs l).filter isForeign = surv (fun b _ => isClear b) isForeign l := by
  apply merge_kind
  · intro b x hx
    cases x with
    | foreign n =>
      cases b <;> simp [keeps, isClear, A.isDeform, A.isSty, A.isStroked, A.isFilled, A.isHatch, A.isDeco]
    | _ => simp [isForeign] at hx
  · intro b hb; cases b <;> simp_all [isForeign, stays]
  · intro c y; rfl

theorem surv_deformers (l : List (A P Y O E)) : (surv remDef isDef l).filterMap asDeform = deformers l := by
  induction l with
  | nil => rfl
  | cons a l ih =>
    cases a with
    | deform c f =>
      have e : l.any (fun x => remDef x (.deform c f)) = l.any (clearsDeform c) := rfl
      simp only [surv, deformers, isDef, Bool.true_and, e]
      cases h : l.any (clearsDeform c) <;> simp [asDeform, ih]
    | _ => simpa [surv, isDef, deformers] using ih

theorem surv_decorators (l : List (A P Y O E)) : (surv remDec isDec l).filterMap asDec = decorators l := by
  induction l with
  | nil => rfl
  | cons a l ih =>
    cases a with
    | deco c f =>
      have e : l.any (fun x => remDec x (.deco c f)) = l.any (clearsDeco c) := rfl
      simp only [surv, decorators, isDec, Bool.true_and, e]
      cases h : l.any (clearsDeco c) <;> simp [asDec, ih]
    | hatch f =>
      have e : l.any (fun x => remDec x (.hatch f)) = l.any clearsHatch := rfl
      simp only [surv, decorators, isDec, Bool.true_and, e]
      cases h : l.any clearsHatch <;> simp [asDec, ih]
    | _ => simpa [surv, isDec, decorators] using ih

theorem surv_foreign (l : List (A P Y O E)) :
    surv (fun b _ => isClear b) isForeign l = [] ↔ hasForeign l = false := by
  induction l with
  | nil => simp [surv, hasForeign]
  | cons a l ih =>
    have e : l.any (fun x => isClear x) = l.any isClear := rfl
    simp only [surv, hasForeign]
    cases h1 : isForeign a <;> cases h2 : l.any isClear <;> simp [h1, e, h2, ih]

theorem all_allowed (l : List (A P Y O E)) : (mergeattrs l).all allowed = !hasForeign l := by
  have h := merge_foreign l
  have h2 := surv_foreign l
  rw [← h] at h2
  rw [Bool.eq_iff_iff, List.all_eq_true, Bool.not_eq_true', ← h2, List.filter_eq_nil_iff]
  constructor
  · intro h x hx; have := h x hx; cases x <;> simp_all [allowed, isForeign]
  · intro h x hx; have := h x hx; cases x <;> simp_all [allowed, isForeign]

theorem deformAll_eq (l : List (A P Y O E)) (p : P) :
    deformAll l p = match chain (l.filterMap asDeform) p with
      | .ok q => .ok q
      | .error e => .error (.raised e) := by
  induction l generalizing p with
  | nil => rfl
  | cons a l ih =>
    cases a with
    | deform c f =>
      simp only [deformAll, asDeform, List.filterMap_cons, chain]
      cases f p with
      | ok q => exact ih q
      | error e => rfl
    | _ => exact ih p

/-- The decorators one after the other, if at most one strokes and at most one fills. -/
theorem decorateAll_eq (norm : P → P) (hn : ∀ p, norm (norm p) = norm p) (l : List (A P Y O E)) (dp : DP P Y O)
    (hs : dp.strokestyles.toList.length + (l.filterMap asStroked).length ≤ 1)
    (hf : dp.fillstyles.toList.length + (l.filterMap asFilled).length ≤ 1) :
    decorateAll norm l dp = match gather (l.filterMap asDec) (norm dp.path) with
      | .ok os => .ok ⟨if (l.filterMap asDec).isEmpty then dp.path else norm dp.path, dp.styles,
          dp.strokestyles.or (l.filterMap asStroked).head?, dp.fillstyles.or (l.filterMap asFilled).head?,
          dp.ornaments ++ os⟩
      | .error e => .error (.raised e) := by
  induction l generalizing dp with
  | nil => cases dp; simp [decorateAll, gather]
  | cons a l ih =>
    cases a with
    | stroked ys =>
      have h0 : dp.strokestyles = none := by
        cases h : dp.strokestyles with
        | none => rfl
        | some v => simp [h, asStroked] at hs; omega
      have hl : l.filterMap asStroked = [] := by
        simp only [h0, asStroked, List.filterMap_cons, List.length_cons] at hs
        exact List.length_eq_zero_iff.1 (by omega)
      rw [decorateAll]
      simp only [decStroked, h0]
      rw [ih { dp with strokestyles := some ys } (by simp [hl]) hf]
      rfl
    | filled ys =>
      have h0 : dp.fillstyles = none := by
        cases h : dp.fillstyles with
        | none => rfl
        | some v => simp [h, asFilled] at hf; omega
      have hl : l.filterMap asFilled = [] := by
        simp only [h0, asFilled, List.filterMap_cons, List.length_cons] at hf
        exact List.length_eq_zero_iff.1 (by omega)
      rw [decorateAll]
      simp only [decFilled, h0]
      rw [ih { dp with fillstyles := some ys } hs (by simp [hl])]
      rfl
    | hatch f =>
      rw [decorateAll]
      simp only [ornament, asDec, List.filterMap_cons, gather]
      cases h : f (norm dp.path) with
      | error e => simp
      | ok os =>
        simp only
        rw [ih { dp with path := norm dp.path, ornaments := dp.ornaments ++ os } hs hf]
        simp only [hn]
        cases gather (l.filterMap asDec) (norm dp.path) with
        | error e => rfl
        | ok b =>
          simp only [ite_self, List.append_assoc]
          rfl
    | deco c f =>
      rw [decorateAll]
      simp only [ornament, asDec, List.filterMap_cons, gather]
      cases h : f (norm dp.path) with
      | error e => simp
      | ok os =>
        simp only
        rw [ih { dp with path := norm dp.path, ornaments := dp.ornaments ++ os } hs hf]
        simp only [hn]
        cases gather (l.filterMap asDec) (norm dp.path) with
        | error e => rfl
        | ok b =>
          simp only [ite_self, List.append_assoc]
          rfl
    | _ => exact ih dp hs hf

theorem map_filter_dec (l : List (A P Y O E)) : l.filterMap asDec = (l.filter isDec).filterMap asDec :=
  (filt asDec isDec (by intro x hx; cases x <;> simp_all [isDec, asDec]) l).symm

theorem map_filter_def (l : List (A P Y O E)) : l.filterMap asDeform = (l.filter isDef).filterMap asDeform :=
  (filt asDeform isDef (by intro x hx; cases x <;> simp_all [isDef, asDeform]) l).symm

def asStyC (c : SC) : A P Y O E → Option Y
  | .sty d y => if d = c then some y else none
  | _ => none

theorem stylesOf_eq (l : List (A P Y O E)) : stylesOf l = l.filterMap asSty := by
  induction l with
  | nil => rfl
  | cons a l ih =>
    cases a with
    | sty c y => change (c, y) :: stylesOf l = (c, y) :: l.filterMap asSty; rw [ih]
    | _ => exact ih

theorem stylesOf_filter (c : SC) (l : List (A P Y O E)) :
    (stylesOf l).filter (fun s => s.1 = c) = (l.filterMap (asStyC c)).map fun y => (c, y) := by
  induction l with
  | nil => rfl
  | cons a l ih =>
    cases a with
    | sty d y =>
      change ((d, y) :: stylesOf l).filter _ = _
      by_cases h : d = c
      · subst h
        simp [asStyC, ih]
      · simp [asStyC, h, ih]
    | _ => exact ih

theorem merge_sty (c : SC) (l : List (A P Y O E)) : (mergeattrs l).filterMap (asStyC c) = (styOf c l).toList := by
  induction l using List.reverseRecOn with
  | nil => rfl
  | append_singleton l a ih =>
    have e : styOf c (l ++ [a]) = styStep c (styOf c l) a := by simp [styOf]
    rw [mergeattrs_snoc, e]
    generalize mergeattrs l = m at ih
    cases hb : a.isSty .linewidth with
    | true =>
      cases a with
      | sty d y =>
        obtain rfl : d = .linewidth := by simpa [A.isSty] using hb
        change (sortLoop _ true m).filterMap (asStyC c) = _
        by_cases h : SC.linewidth = c
        · subst h
          obtain ⟨p, q, -, -, r⟩ := sortLoop_true (.sty .linewidth y) m
          rw [r, List.filterMap_append, List.filterMap_cons,
            filtNone _ _ (by intro x hx; cases x <;> simp_all [A.isSty, asStyC]),
            filtNone _ _ (by intro x hx; cases x <;> simp_all [A.isSty, asStyC])]
          simp [asStyC, styStep]
        · rw [sortLoop_map (asStyC c) _ (by simp [asStyC, h]) (by
            intro x hx
            cases x with
            | sty d z => obtain rfl : d = .linewidth := by simpa [A.isSty] using hx
                         simp [asStyC, h]
            | _ => rfl), ih]
          simp [styStep, h]
      | _ => simp [A.isSty] at hb
    | false =>
      rw [merge_eq m a hb, List.filterMap_append]
      have none_iff : ∀ x : A P Y O E, x.isSty c = false → asStyC c x = none := by
        intro x hx; cases x <;> simp_all [A.isSty, asStyC]
      have none_other : ∀ d (x : A P Y O E), d ≠ c → x.isSty d = true → asStyC c x = none := by
        intro d x hd hx
        cases x with
        | sty d' z => obtain rfl : d' = d := by simpa [A.isSty] using hx
                      simp [asStyC, hd]
        | _ => rfl
      cases a with
      | sty d y =>
        by_cases h : d = c
        · subst h
          rw [filtNone _ _ (by intro x hx; exact none_iff x (by simpa [keeps] using hx))]
          simp [stays, asStyC, styStep]
        · rw [filt _ _ (by intro x hx; exact none_other d x h (by simpa [keeps] using hx)), ih]
          simp [stays, asStyC, styStep, h]
      | styClear d =>
        by_cases h : d = c
        · subst h
          rw [filtNone _ _ (by intro x hx; exact none_iff x (by simpa [keeps] using hx))]
          simp [stays, styStep]
        · rw [filt _ _ (by intro x hx; exact none_other d x h (by simpa [keeps] using hx)), ih]
          simp [stays, styStep, h]
      | clear => simp [keeps, stays, styStep]
      | _ =>
        rw [filt _ _ (by
          intro x hx
          cases x with
          | sty d' z => simp [keeps, A.isStroked, A.isFilled, A.isHatch, A.isDeco, A.isDeform] at hx
          | _ => rfl), ih]
        simp [stays, asStyC, styStep]

/-- A line width after a dash or a line style. -/
def Late (x y : A P Y O E) : Prop := x.isDashed = true → y.isSty .linewidth = false

theorem merge_late (l : List (A P Y O E)) : (mergeattrs l).Pairwise Late := by
  induction l using List.reverseRecOn with
  | nil => exact List.Pairwise.nil
  | append_singleton l a ih =>
    rw [mergeattrs_snoc]
    generalize mergeattrs l = m at ih
    cases hb : a.isSty .linewidth with
    | true =>
      cases a with
      | sty d y =>
        obtain rfl : d = .linewidth := by simpa [A.isSty] using hb
        change (sortLoop _ true m).Pairwise Late
        obtain ⟨p, q, e, hp, r⟩ := sortLoop_true (.sty .linewidth y) m
        rw [e] at ih
        have ih2 := ih.filter fun x => !x.isSty .linewidth
        rw [List.filter_append, List.pairwise_append] at ih2
        rw [r, List.pairwise_append]
        refine ⟨ih2.1, List.pairwise_cons.2 ⟨?_, ih2.2.1⟩, ?_⟩
        · intro x _ hx
          simp [A.isDashed, A.isSty] at hx
        · intro x hx z hz hd
          have := hp x (List.mem_filter.1 hx).1
          rw [this] at hd; cases hd
      | _ => simp [A.isSty] at hb
    | false =>
      rw [merge_eq m a hb, List.pairwise_append]
      refine ⟨ih.filter _, ?_, ?_⟩
      · cases stays a <;> simp
      · intro x _ z hz hd
        cases h : stays a with
        | true => rw [h] at hz; simp at hz; rw [hz, hb]
        | false => rw [h] at hz; simp at hz

/-- A style after another one: no line width after a dash or a line style. -/
def LateS (s t : SC × Y) : Prop := (s.1 = .dash ∨ s.1 = .linestyle) → t.1 ≠ .linewidth

theorem styles_late (l : List (A P Y O E)) : (stylesOf (mergeattrs l)).Pairwise LateS := by
  rw [stylesOf_eq, List.pairwise_filterMap]
  refine (merge_late l).imp ?_
  intro x y hxy s hs t ht hd e
  cases x with
  | sty c u =>
    cases y with
    | sty d v =>
      simp only [asSty, Option.mem_def, Option.some.injEq] at hs ht
      subst hs ht
      simp only at hd e
      subst e
      have := hxy (by rcases hd with h | h <;> simp [A.isDashed, A.isSty, h])
      simp [A.isSty] at this
    | _ => simp [asSty] at ht
  | _ => simp [asSty] at hs

end Lemmas

/-! ## C166 -/

/-- What a drawing is: the deformed path, normalised if there are ornaments. -/
def pathOf (norm : P → P) (attrs : List (A P Y O E)) (q : P) : P :=
  if (decorators attrs).isEmpty then q else norm q

/-- C166: `draw` adds one item to the canvas.  Its path is the one given, deformed by the deformers in their order; it is
stroked and filled as the attributes ask for, and decorated by the ornaments for the deformed path, in their order.  Of
each class of styles it has the one asked for, and line widths before dashes, which depend on them. -/
theorem draw_ok (norm : P → P) (hn : ∀ p, norm (norm p) = norm p) (items : List (DP P Y O)) (p q : P)
    (attrs : List (A P Y O E)) (os : List O) (h1 : hasForeign attrs = false) (h2 : chain (deformers attrs) p = .ok q)
    (h3 : gather (decorators attrs) (norm q) = .ok os) :
    ∃ styles, draw norm items p attrs =
        .ok (items ++ [⟨pathOf norm attrs q, styles, strokeOf attrs, fillOf attrs, os⟩]) ∧
      (∀ c, styles.filter (fun s => s.1 = c) = (styOf c attrs).toList.map fun y => (c, y)) ∧
      styles.Pairwise LateS := by
  refine ⟨stylesOf (mergeattrs attrs), ?_, fun c => by rw [stylesOf_filter, merge_sty], styles_late attrs⟩
  have hd : (mergeattrs attrs).filterMap asDec = decorators attrs := by
    rw [map_filter_dec, merge_dec, surv_decorators]
  have hf : (mergeattrs attrs).filterMap asDeform = deformers attrs := by
    rw [map_filter_def, merge_def, surv_deformers]
  have hs := merge_stroked attrs
  have hl := merge_filled attrs
  unfold draw
  simp only [all_allowed, h1, Bool.not_false, if_true, deformAll_eq, hf, h2]
  rw [decorateAll_eq norm hn _ _ (by rw [hs]; cases strokeOf attrs <;> simp) (by rw [hl]; cases fillOf attrs <;> simp),
    hd, h3, hs, hl]
  simp only [pathOf]
  cases strokeOf attrs <;> cases fillOf attrs <;> simp

/-- C166: otherwise nothing is drawn, for exactly these reasons; a path is never stroked or filled twice. -/
theorem draw_error (norm : P → P) (hn : ∀ p, norm (norm p) = norm p) (items : List (DP P Y O)) (p : P)
    (attrs : List (A P Y O E)) (e : Err E) :
    draw norm items p attrs = .error e ↔
      (e = .notAllowed ∧ hasForeign attrs = true) ∨
      (hasForeign attrs = false ∧ ∃ x, e = .raised x ∧ chain (deformers attrs) p = .error x) ∨
      (hasForeign attrs = false ∧ ∃ q x, e = .raised x ∧ chain (deformers attrs) p = .ok q ∧
        gather (decorators attrs) (norm q) = .error x) := by
  have hd : (mergeattrs attrs).filterMap asDec = decorators attrs := by
    rw [map_filter_dec, merge_dec, surv_decorators]
  have hf : (mergeattrs attrs).filterMap asDeform = deformers attrs := by
    rw [map_filter_def, merge_def, surv_deformers]
  have hs := merge_stroked attrs
  have hl := merge_filled attrs
  unfold draw
  simp only [all_allowed, deformAll_eq, hf]
  cases h1 : hasForeign attrs with
  | true => simp [eq_comm]
  | false =>
    simp only [Bool.not_false, if_true]
    cases h2 : chain (deformers attrs) p with
    | error x => simp [eq_comm]
    | ok q =>
      simp only
      rw [decorateAll_eq norm hn _ _ (by rw [hs]; cases strokeOf attrs <;> simp)
        (by rw [hl]; cases fillOf attrs <;> simp), hd]
      cases h3 : gather (decorators attrs) (norm q) with
      | ok os => simp [h3]
      | error x => simp [h3, eq_comm]

theorem foldl_keep {β : Type} (f : β → A P Y O E → β) (l : List (A P Y O E)) (s : β)
    (h : ∀ a ∈ l, ∀ t, f t a = t) : l.foldl f s = s := by
  induction l generalizing s with
  | nil => rfl
  | cons a l ih =>
    rw [List.foldl_cons, h a (by simp), ih _ fun x hx => h x (by simp [hx])]

def touchesStroke : A P Y O E → Bool
  | .stroked _ => true
  | .strokedClear => true
  | .clear => true
  | _ => false

def touchesFill : A P Y O E → Bool
  | .filled _ => true
  | .filledClear => true
  | .hatch _ => true
  | .clear => true
  | _ => false

/-- C166: `stroke` strokes, and `fill` fills, unless an attribute is about that. -/
theorem stroke_default (attrs : List (A P Y O E)) (h : attrs.any touchesStroke = false) :
    strokeOf (.stroked [] :: attrs) = some ([] : List Y) := by
  unfold strokeOf
  rw [List.foldl_cons]
  refine foldl_keep _ _ _ ?_
  intro a ha t
  have := (List.any_eq_false.1 h) a ha
  cases a <;> simp_all [touchesStroke, strokeStep]

theorem fill_default (attrs : List (A P Y O E)) (h : attrs.any touchesFill = false) :
    fillOf (.filled [] :: attrs) = some ([] : List Y) := by
  unfold fillOf
  rw [List.foldl_cons]
  refine foldl_keep _ _ _ ?_
  intro a ha t
  have := (List.any_eq_false.1 h) a ha
  cases a <;> simp_all [touchesFill, fillStep]

/-- C166: the styles of the last `stroked` are used. -/
theorem stroke_last (l r : List (A P Y O E)) (ys : List Y) (h : r.any touchesStroke = false) :
    strokeOf (l ++ .stroked ys :: r) = some ys := by
  unfold strokeOf
  rw [List.foldl_append, List.foldl_cons]
  refine foldl_keep _ _ _ ?_
  intro a ha t
  have := (List.any_eq_false.1 h) a ha
  cases a <;> simp_all [touchesStroke, strokeStep]

/-- C166: hatching replaces the filling given before. -/
theorem hatch_replaces (l r : List (A P Y O E)) (f : P → Except E (List O)) (h : r.any touchesFill = false) :
    fillOf (l ++ .hatch f :: r) = (none : Option (List Y)) := by
  unfold fillOf
  rw [List.foldl_append, List.foldl_cons]
  refine foldl_keep _ _ _ ?_
  intro a ha t
  have := (List.any_eq_false.1 h) a ha
  cases a <;> simp_all [touchesFill, fillStep]

/-- A path is a number, deformers add to it, an ornament is the number of the path it is for.  The line is dashed, drawn
with another width and decorated for the deformed path 15; the transformation with the class 1 is cleared. -/
example : (match stroke (Y := Nat) (O := Nat) (E := Unit) (fun p : Nat => p) [] 10
      [.deform 1 (fun p => .ok (p * 7)), .sty .dash 3, .deco 0 (fun p => .ok [p]), .deformClear 1,
        .sty .linewidth 4, .deform 0 (fun p => .ok (p + 5)), .stroked [8], .sty .linewidth 5] with
    | .ok l => l.map fun d => (d.path, d.styles, d.strokestyles, d.fillstyles, d.ornaments)
    | .error _ => []) = [(15, [(.linewidth, 5), (.dash, 3)], some [8], none, [15])] := by rfl

/-- Hatching replaces the filling, a filling given after it stays. -/
example : (match fill (Y := Nat) (O := Nat) (E := Unit) (fun p : Nat => p) [] 10 [.hatch (fun p => .ok [p + 1]), .sty .color 1],
      fill (Y := Nat) (O := Nat) (E := Unit) (fun p : Nat => p) [] 10 [.hatch (fun p => .ok [p + 1]), .filled [2]] with
    | .ok a, .ok b => (a ++ b).map fun d => (d.fillstyles, d.ornaments)
    | _, _ => []) = [(none, [11]), (some [2], [11])] := by decide +kernel

/-- A text attribute is refused, unless it is cleared. -/
example : ((stroke (P := Nat) (Y := Nat) (O := Nat) (E := Unit) id [] 0 [.foreign 0]).toOption.isSome,
    (stroke (P := Nat) (Y := Nat) (O := Nat) (E := Unit) id [] 0 [.foreign 0, .clear]).toOption.isSome) =
      (false, true) := by decide +kernel

/-! ## C167: copies of decorators with other parameters -/

variable {K : Type}

/-- An arrow decorator (`deco.py:498-517`) with its merged attributes. -/
structure Arrow (P Y O E K : Type) where
  attrs : List (A P Y O E)
  pos : K
  reversed : Bool
  size : K
  angle : K
  constriction : Option K

/-- The attributes in front of those given: `[style.linestyle.solid, filled]` (`deco.py:499`). -/
def arrowDefaults (solid : Y) : List (A P Y O E) := [.sty .linestyle solid, .filled []]

/-- `arrow.__init__` (`deco.py:498-506`), without the check of the attributes. -/
def arrow (solid : Y) (attrs : List (A P Y O E)) (pos : K) (reversed : Bool) (size angle : K) (constriction : Option K) :
    Arrow P Y O E K :=
  ⟨mergeattrs (arrowDefaults solid ++ attrs), pos, reversed, size, angle, constriction⟩

/-- `arrow.__call__` (`deco.py:519-532`); `none` is an argument which is not given. -/
def Arrow.call (solid : Y) (a : Arrow P Y O E K) (attrs : Option (List (A P Y O E))) (pos : Option K)
    (reversed : Option Bool) (size angle : Option K) (constriction : Option (Option K)) : Arrow P Y O E K :=
  arrow solid (attrs.getD a.attrs) (pos.getD a.pos) (reversed.getD a.reversed) (size.getD a.size) (angle.getD a.angle)
    (constriction.getD a.constriction)

/-- `linehatched.__init__` and `hatched.__init__` (`deco.py:747-755`, `pattern.py:184-188`): the styles of the lines; `thin`
is `linewidth.THIN`. -/
def hatchStyles (thin : Y) (strokestyles : List (A P Y O E)) : List (A P Y O E) :=
  mergeattrs (.sty .linewidth thin :: strokestyles)

/-- `linehatched.__call__` and `hatched.__call__` (`deco.py:757-766`, `pattern.py:192-199`): the styles of the copy. -/
def hatchCall (thin : Y) (styles : List (A P Y O E)) (given : Option (List (A P Y O E))) : List (A P Y O E) :=
  hatchStyles thin (given.getD styles)

theorem merge_stays (l : List (A P Y O E)) : ∀ x ∈ mergeattrs l, stays x = true := by
  induction l using List.reverseRecOn with
  | nil => simp [mergeattrs]
  | append_singleton l a ih =>
    rw [mergeattrs_snoc]
    generalize mergeattrs l = m at ih
    intro x hx
    cases hb : a.isSty .linewidth with
    | false =>
      rw [merge_eq m a hb, List.mem_append] at hx
      rcases hx with hx | hx
      · exact ih x (List.mem_filter.1 hx).1
      · cases h : stays a with
        | true => rw [h] at hx; simp at hx; rw [hx, h]
        | false => rw [h] at hx; simp at hx
    | true =>
      cases a with
      | sty d y =>
        obtain rfl : d = .linewidth := by simpa [A.isSty] using hb
        change x ∈ sortLoop _ true m at hx
        obtain ⟨p, q, e, -, r⟩ := sortLoop_true (.sty .linewidth y) m
        rw [r, List.mem_append, List.mem_cons] at hx
        rcases hx with hx | rfl | hx
        · exact ih x (by rw [e]; simp [(List.mem_filter.1 hx).1])
        · rfl
        · exact ih x (by rw [e]; simp [(List.mem_filter.1 hx).1])
      | _ => simp [A.isSty] at hb

/-- Reading a list in which nothing is cleared and at most one entry counts. -/
theorem read_one {β : Type} (step : Option β → A P Y O E → Option β) (g : A P Y O E → Option β) (m : List (A P Y O E))
    (hs : ∀ x ∈ m, ∀ s, step s x = (g x).or s) (s v : Option β) (hv : m.filterMap g = v.toList) :
    m.foldl step s = v.or s := by
  induction m generalizing s v with
  | nil =>
    cases v with
    | none => rfl
    | some w => simp at hv
  | cons a m ih =>
    rw [List.foldl_cons, hs a (by simp)]
    have hs' : ∀ x ∈ m, ∀ s, step s x = (g x).or s := fun x hx => hs x (by simp [hx])
    cases h : g a with
    | none =>
      rw [List.filterMap_cons_none h] at hv
      rw [ih hs' _ v hv]; rfl
    | some w =>
      rw [List.filterMap_cons_some h] at hv
      cases v with
      | none => simp at hv
      | some u =>
        simp at hv
        have : m.filterMap g = (none : Option β).toList := by
          simp only [Option.toList_none, List.filterMap_eq_nil_iff]; exact hv.2
        rw [ih hs' _ none this, hv.1]; rfl

/-- C167: merging what is merged already behind defaults: a default counts where nothing is left. -/
theorem again_stroke (d l : List (A P Y O E)) : strokeOf (d ++ mergeattrs l) = (strokeOf l).or (strokeOf d) := by
  unfold strokeOf
  rw [List.foldl_append]
  refine read_one _ asStroked _ ?_ _ _ (merge_stroked l)
  intro x hx s
  have := merge_stays l x hx
  cases x <;> simp_all [stays, asStroked, strokeStep]

theorem again_style (c : SC) (d l : List (A P Y O E)) : styOf c (d ++ mergeattrs l) = (styOf c l).or (styOf c d) := by
  unfold styOf
  rw [List.foldl_append]
  refine read_one _ (asStyC c) _ ?_ _ _ (merge_sty c l)
  intro x hx s
  have := merge_stays l x hx
  cases x with
  | sty e y => by_cases h : e = c <;> simp [asStyC, styStep, h]
  | _ => simp_all [stays, asStyC, styStep]

theorem merge_mem (l : List (A P Y O E)) : ∀ x ∈ mergeattrs l, x ∈ l := by
  induction l using List.reverseRecOn with
  | nil => simp [mergeattrs]
  | append_singleton l a ih =>
    rw [mergeattrs_snoc]
    generalize mergeattrs l = m at ih
    intro x hx
    cases hb : a.isSty .linewidth with
    | false =>
      rw [merge_eq m a hb, List.mem_append] at hx
      rcases hx with hx | hx
      · simp [ih x (List.mem_filter.1 hx).1]
      · cases h : stays a with
        | true => rw [h] at hx; simp at hx; simp [hx]
        | false => rw [h] at hx; simp at hx
    | true =>
      cases a with
      | sty d y =>
        obtain rfl : d = .linewidth := by simpa [A.isSty] using hb
        change x ∈ sortLoop _ true m at hx
        obtain ⟨p, q, e, -, r⟩ := sortLoop_true (.sty .linewidth y) m
        rw [r, List.mem_append, List.mem_cons] at hx
        rcases hx with hx | rfl | hx
        · simp [ih x (by rw [e]; simp [(List.mem_filter.1 hx).1])]
        · simp
        · simp [ih x (by rw [e]; simp [(List.mem_filter.1 hx).1])]
      | _ => simp [A.isSty] at hb

theorem again_fill (d l : List (A P Y O E)) (h : l.any A.isHatch = false) :
    fillOf (d ++ mergeattrs l) = (fillOf l).or (fillOf d) := by
  unfold fillOf
  rw [List.foldl_append]
  refine read_one _ asFilled _ ?_ _ _ (merge_filled l)
  intro x hx s
  have h1 := merge_stays l x hx
  have h2 := (List.any_eq_false.1 h) x (merge_mem l x hx)
  cases x <;> simp_all [stays, asFilled, fillStep, A.isHatch]

/-- How the heads of an arrow are drawn: stroke, filling and styles. -/
def Same (a b : Arrow P Y O E K) : Prop :=
  strokeOf a.attrs = strokeOf b.attrs ∧ fillOf a.attrs = fillOf b.attrs ∧ ∀ c, styOf c a.attrs = styOf c b.attrs

theorem of_merge_stroke (l : List (A P Y O E)) : strokeOf (mergeattrs l) = strokeOf l := by
  have := again_stroke [] l
  rw [List.nil_append] at this
  rw [this]; exact Option.or_none

theorem of_merge_style (c : SC) (l : List (A P Y O E)) : styOf c (mergeattrs l) = styOf c l := by
  have := again_style c [] l
  rw [List.nil_append] at this
  rw [this]; exact Option.or_none

theorem of_merge_fill (l : List (A P Y O E)) (h : l.any A.isHatch = false) : fillOf (mergeattrs l) = fillOf l := by
  have := again_fill [] l h
  rw [List.nil_append] at this
  rw [this]; exact Option.or_none

/-- C167: a copy of an arrow has the parameters given and otherwise those of the original. -/
theorem arrow_params (solid : Y) (a : Arrow P Y O E K) (attrs : Option (List (A P Y O E))) (pos : Option K)
    (reversed : Option Bool) (size angle : Option K) (constriction : Option (Option K)) :
    let b := a.call solid attrs pos reversed size angle constriction
    b.pos = pos.getD a.pos ∧ b.reversed = reversed.getD a.reversed ∧ b.size = size.getD a.size ∧
      b.angle = angle.getD a.angle ∧ b.constriction = constriction.getD a.constriction :=
  ⟨rfl, rfl, rfl, rfl, rfl⟩

/-- C167: the attributes of the head are kept by a copy exactly if neither the filling nor the line style was cleared
(full claim: always). -/
theorem arrow_keeps_partial (solid : Y) (given : List (A P Y O E)) (hh : given.any A.isHatch = false) (p : K)
    (r : Bool) (s an : K) (co : Option K) (pos : Option K) (reversed : Option Bool) (size angle : Option K)
    (constriction : Option (Option K)) :
    let a := arrow solid given p r s an co
    Same (a.call solid none pos reversed size angle constriction) a ↔
      fillOf (arrowDefaults solid ++ given) ≠ none ∧ styOf .linestyle (arrowDefaults solid ++ given) ≠ none := by
  intro a
  have hl : (arrowDefaults solid ++ given).any A.isHatch = false := by
    rw [List.any_append, hh]; rfl
  have hm : (arrowDefaults solid ++ mergeattrs (arrowDefaults solid ++ given)).any A.isHatch = false := by
    rw [List.any_append, Bool.or_eq_false_iff]
    refine ⟨rfl, List.any_eq_false.2 fun x hx => ?_⟩
    exact (List.any_eq_false.1 hl) x (merge_mem _ x hx)
  have e1 : (a.call solid none pos reversed size angle constriction).attrs =
      mergeattrs (arrowDefaults solid ++ mergeattrs (arrowDefaults solid ++ given)) := rfl
  have e2 : a.attrs = mergeattrs (arrowDefaults solid ++ given) := rfl
  unfold Same
  rw [e1, e2, of_merge_stroke, of_merge_stroke, of_merge_fill _ hm, of_merge_fill _ hl, again_stroke,
    again_fill _ _ hl]
  simp only [of_merge_style, again_style]
  have d1 : strokeOf (arrowDefaults (P := P) (O := O) (E := E) solid) = none := rfl
  have d2 : fillOf (arrowDefaults (P := P) (O := O) (E := E) solid) = some [] := rfl
  have d3 : styOf .linestyle (arrowDefaults (P := P) (O := O) (E := E) solid) = some solid := rfl
  have d4 : ∀ c, c ≠ .linestyle → styOf c (arrowDefaults (P := P) (O := O) (E := E) solid) = none := by
    intro c hc
    simp [styOf, arrowDefaults, styStep, hc.symm]
  rw [d1, d2]
  constructor
  · rintro ⟨-, h2, h3⟩
    constructor
    · intro h; rw [h] at h2; simp at h2
    · intro h; have := h3 .linestyle; rw [d3, h] at this; simp at this
  · rintro ⟨h1, h2⟩
    refine ⟨by simp, ?_, ?_⟩
    · cases h : fillOf (arrowDefaults solid ++ given) with
      | none => exact absurd h h1
      | some v => rfl
    · intro c
      by_cases hc : c = .linestyle
      · subst hc
        cases h : styOf .linestyle (arrowDefaults solid ++ given) with
        | none => exact absurd h h2
        | some v => rfl
      · rw [d4 c hc]; simp

/-- C167: an arrow with an outline instead of a filling is filled again if its size is changed. -/
theorem arrow_refilled :
    let a := arrow (P := Unit) (O := Unit) (E := Unit) (K := Nat) 0 [.stroked [], .filledClear] 1 false 6 45 (some 1)
    fillOf a.attrs = none ∧ fillOf (a.call 0 none none none (some 12) none none).attrs = some [] := by
  decide +kernel

/-- C167: a copy of a hatching keeps the styles of its lines, except that a cleared line width becomes the thin one. -/
theorem hatch_keeps_partial (thin : Y) (given : List (A P Y O E)) (c : SC) :
    styOf c (hatchCall thin (hatchStyles thin given) none) =
      (styOf c (hatchStyles thin given)).or (if c = .linewidth then some thin else none) := by
  have e : hatchCall thin (hatchStyles thin given) none =
      mergeattrs ([.sty .linewidth thin] ++ mergeattrs (.sty .linewidth thin :: given)) := rfl
  rw [e, of_merge_style, again_style]
  unfold hatchStyles
  rw [of_merge_style]
  congr 1
  by_cases h : c = .linewidth
  · subst h; rfl
  · have h' : ¬ SC.linewidth = c := fun e => h e.symm
    simp [styOf, styStep, h, h']

/-- C167: the normal line width of a hatching becomes thin with another distance. -/
theorem hatch_thin :
    let s := hatchStyles (P := Unit) (O := Unit) (E := Unit) 1 [.styClear .linewidth, .sty .color 5]
    styOf .linewidth s = none ∧ styOf .linewidth (hatchCall 1 s none) = some 1 ∧
      styOf .color (hatchCall 1 s none) = some 5 := by
  decide +kernel

/-- `linesmoothed.__init__` (`deformer.py:1729-1738`): tension and curls. -/
structure Smoothed (K : Type) where
  tension : K
  lcurl : Option K
  rcurl : Option K
deriving DecidableEq

section Smooth

variable [AddCommGroup K] [LinearOrder K] [IsOrderedAddMonoid K]

def smoothed (tension : K) (atleast : Bool) (lcurl rcurl : Option K) : Smoothed K :=
  ⟨if atleast then -|tension| else |tension|, lcurl, rcurl⟩

/-- `linesmoothed.__call__` (`deformer.py:1740-1749`). -/
def Smoothed.call (s : Smoothed K) (tension : Option K) (atleast : Option Bool) (lcurl rcurl : Option (Option K)) :
    Smoothed K :=
  smoothed (tension.getD s.tension) (atleast.getD (decide (s.tension < 0))) (lcurl.getD s.lcurl) (rcurl.getD s.rcurl)

/-- C167: a copy of `linesmoothed` has the arguments given and otherwise those of the original, also the choice of
`atleast`, which is stored as a sign. -/
theorem smoothed_keeps (t : K) (ht : t ≠ 0) (al : Bool) (l r : Option K) (tension : Option K) (atleast : Option Bool)
    (lcurl rcurl : Option (Option K)) :
    (smoothed t al l r).call tension atleast lcurl rcurl =
      smoothed (tension.getD t) (atleast.getD al) (lcurl.getD l) (rcurl.getD r) := by
  have hp : 0 < |t| := abs_pos.2 ht
  cases al <;> cases tension <;> cases atleast <;>
    simp [Smoothed.call, smoothed, hp, hp.le, not_lt.2 hp.le]

end Smooth

example : (smoothed (K := Int) 2 true none (some 1)).call none none (some (some 3)) none = ⟨-2, some 3, some 1⟩ := by
  decide +kernel

end PyX.Canvas.Draw
