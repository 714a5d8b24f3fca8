import Verif.Unit.Model
import Mathlib.Tactic.Ring
import Mathlib.Tactic.FieldSimp
import Mathlib.Tactic.NormNum
import Mathlib.Data.List.Basic
import Mathlib.Data.List.Induction
import Mathlib.Algebra.Order.Field.Basic
import Mathlib.Algebra.Order.Field.Rat

/-!
# Property C08: lengths
-/

set_option linter.unusedSectionVars false

namespace PyX.Unit

variable {K : Type*} [Field K] [LinearOrder K] [IsStrictOrderedRing K]

/-- Specification: metres per unit. -/
def metres : U → K
  | .m => 1
  | .cm => 1 / 100
  | .mm => 1 / 1000
  | .inch => 254 / 10000
  | .pt => 254 / 720000

/-- Specification: the factor of a length type. -/
def factor (s : St K) : Ty → K
  | .t => 1
  | .u => s.u
  | .v => s.v
  | .w => s.w
  | .x => s.x

/-- Specification: value of an expression in metres, computed on numbers. A number stands for a user
length in the default unit. -/
def value (s : St K) : Expr K → K
  | .num k => k * metres s.dflt * s.u
  | .len f ty un => f * metres (un.getD s.dflt) * factor s ty
  | .add a b => value s a + value s b
  | .sub a b => value s a - value s b
  | .neg a => -value s a
  | .mul f a => f * value s a
  | .div a f => value s a / f

theorem mfac_eq (d : U) : (mfac d : K) = metres d := by cases d <;> simp [mfac, metres] <;> norm_num

theorem mfac_pos (d : U) : (0 : K) < mfac d := by cases d <;> simp [mfac]

theorem convert_tom (s : St K) (a : Val K) (d : U) : convert s a d = tom s a / metres d := by
  cases a <;> simp [convert, tom, mfac_eq] <;> simp [metres]

theorem tom_mk (s : St K) (f : K) (ty : Ty) (un : Option U) :
    tom s (.len (mk s f ty un)) = f * metres (un.getD s.dflt) * factor s ty := by
  cases ty <;> simp [tom, convert, mk, factor, mfac_eq] <;> simp [metres]

theorem tom_num (s : St K) (k : K) : tom s (.num k) = k * metres s.dflt * s.u := by
  simp [tom, convert, mfac_eq]; simp [metres]

theorem tom_toLen (s : St K) (a : Val K) : tom s (.len (toLen s a)) = tom s a := by
  cases a with
  | len l => rfl
  | num k => rw [toLen, tom_mk, tom_num]; simp [factor]

/-- C08: addition of a length and a length or number. -/
theorem tom_add (s : St K) (a : Length K) (b : Val K) : tom s (.len (add s a b)) = tom s (.len a) + tom s b := by
  rw [← tom_toLen s b]; simp only [tom, convert, add]; ring
theorem tom_sub (s : St K) (a : Length K) (b : Val K) : tom s (.len (sub s a b)) = tom s (.len a) - tom s b := by
  rw [← tom_toLen s b]; simp only [tom, convert, sub]; ring
theorem tom_rsub (s : St K) (a : Length K) (b : Val K) : tom s (.len (rsub s a b)) = tom s b - tom s (.len a) := by
  rw [← tom_toLen s b]; simp only [tom, convert, rsub]; ring
theorem tom_neg (s : St K) (a : Length K) : tom s (.len (neg a)) = -tom s (.len a) := by
  simp only [tom, convert, neg]; ring
theorem tom_mul (s : St K) (a : Length K) (f : K) : tom s (.len (mul a f)) = f * tom s (.len a) := by
  simp only [tom, convert, mul]; ring
theorem tom_div (s : St K) (a : Length K) (f : K) : tom s (.len (div a f)) = tom s (.len a) / f := by
  simp only [tom, convert, div]; ring

/-- C08: under every scale setting, every expression converts to every unit as the same expression computed on the
converted leaves. -/
theorem convert_eval (s : St K) (e : Expr K) (d : U) : convert s (eval s e) d = value s e / metres d := by
  rw [convert_tom]
  congr 1
  induction e with
  | num k => exact tom_num s k
  | len f ty un => exact tom_mk s f ty un
  | add a b iha ihb =>
    simp only [eval, value, ← iha, ← ihb]
    cases eval s a with
    | len p => simp only [tom_add]
    | num p => cases eval s b with
      | len q => simp only [tom_add]; ring
      | num q => simp only [tom_num]; ring
  | sub a b iha ihb =>
    simp only [eval, value, ← iha, ← ihb]
    cases eval s a with
    | len p => simp only [tom_sub]
    | num p => cases eval s b with
      | len q => simp only [tom_rsub]
      | num q => simp only [tom_num]; ring
  | neg a ih =>
    simp only [eval, value, ← ih]
    cases eval s a <;> simp only [tom_neg, tom_num]; ring
  | mul f a ih =>
    simp only [eval, value, ← ih]
    cases eval s a <;> simp only [tom_mul, tom_num]; ring
  | div a f ih =>
    simp only [eval, value, ← ih]
    cases eval s a <;> simp only [tom_div, tom_num]; ring

/-- C08: lengths of each type and unit: what `f` inches etc. are. The conversions are consistent: 1 inch = 2.54 cm = 72 pt, 1 m =
100 cm = 1000 mm, when source and target scale agree. -/
theorem inch_consistent (s : St K) (f : K) (hs : s.u ≠ 0) :
    convert s (.len (mk s f .t (some .inch))) .cm = f * (254 / 100) ∧
    convert s (.len (mk s f .t (some .inch))) .pt = f * 72 ∧
    convert s (.len (mk s f .t (some .m))) .mm = f * 1000 ∧
    ratio s (mk s f .u (some .inch)) (mk s 1 .u (some .pt)) = f * 72 := by
  refine ⟨?_, ?_, ?_, ?_⟩
  · rw [convert_tom, tom_mk]; simp [metres, factor]; ring
  · rw [convert_tom, tom_mk]; simp [metres, factor]; ring
  · rw [convert_tom, tom_mk]; simp [metres, factor]
  · rw [ratio, tom_mk, tom_mk]; simp only [metres, factor, Option.getD_some]; field_simp; ring

/-- C08: converting to a unit and building a true length from the result gives back the same physical length. -/
theorem convert_roundtrip (s : St K) (a : Val K) (d : U) : tom s (.len (mk s (convert s a d) .t (some d))) = tom s a := by
  have : (metres d : K) ≠ 0 := by rw [← mfac_eq]; exact (mfac_pos d).ne'
  rw [tom_mk, convert_tom]; simp [factor, this]

/-- Specification: the scale in effect after a history of settings is the last one given. -/
def lastGiven {α : Type*} (init : α) (l : List (Option α)) : α := (l.reverse.findSome? id).getD init

theorem lastGiven_append {α : Type*} (init : α) (l : List (Option α)) (a : Option α) :
    lastGiven init (l ++ [a]) = a.getD (lastGiven init l) := by
  simp only [lastGiven, List.reverse_append, List.reverse_cons, List.reverse_nil, List.nil_append, List.cons_append,
    List.findSome?_cons]
  cases a <;> simp

theorem set_fields (s : St K) (a : SetArgs K) :
    set s a = ⟨a.u.getD s.u, a.v.getD s.v, a.w.getD s.w, a.x.getD s.x, a.dflt.getD s.dflt⟩ := by
  rcases a with ⟨_ | _, _ | _, _ | _, _ | _, _ | _⟩ <;> rfl

/-- C08: histories of `unit.set`. -/
theorem history (l : List (SetArgs K)) :
    l.foldl set St.init = ⟨lastGiven 1 (l.map (·.u)), lastGiven 1 (l.map (·.v)), lastGiven 1 (l.map (·.w)),
      lastGiven 1 (l.map (·.x)), lastGiven .cm (l.map (·.dflt))⟩ := by
  induction l using List.reverseRecOn with
  | nil => rfl
  | append_singleton l a ih =>
    simp only [List.foldl_append, List.foldl_cons, List.foldl_nil, ih, set_fields, List.map_append, List.map_cons,
      List.map_nil, lastGiven_append]

/-- C08: true lengths ignore all settings. -/
theorem true_length (s : St K) (l : List (SetArgs K)) (a : Length K) (h : a.u = 0 ∧ a.v = 0 ∧ a.w = 0 ∧ a.x = 0) (d : U) :
    convert (l.foldl set s) (.len a) d = convert s (.len a) d := by
  simp [convert, h]

/-- C08: a component only depends on its own scale. -/
theorem own_scale (s : St K) (a : Length K) (r : K) (d : U) (un : U) :
    (a.u = 0 → convert (set s { u := some r }) (.len a) d = convert s (.len a) d) ∧
    (a.v = 0 → convert (set s { v := some r }) (.len a) d = convert s (.len a) d) ∧
    (a.w = 0 → convert (set s { w := some r }) (.len a) d = convert s (.len a) d) ∧
    (a.x = 0 → convert (set s { x := some r }) (.len a) d = convert s (.len a) d) ∧
    convert (set s { dflt := some un }) (.len a) d = convert s (.len a) d := by
  refine ⟨?_, ?_, ?_, ?_, ?_⟩ <;> (try intro h) <;> simp [convert, set] <;> simp [h]

/-- C08: the comparison operators agree with the conversion to metres. -/
theorem compare_iff (s : St K) (a : Length K) (b : Val K) :
    (eq s a b = true ↔ tom s (.len a) = tom s b) ∧ (lt s a b = true ↔ tom s (.len a) < tom s b) ∧
    (le s a b = true ↔ tom s (.len a) ≤ tom s b) ∧ (gt s a b = true ↔ tom s b < tom s (.len a)) ∧
    (ge s a b = true ↔ tom s b ≤ tom s (.len a)) := by
  refine ⟨by simp [eq], by simp [lt], by simp [le, lt, eq, le_iff_lt_or_eq], ?_, by simp [ge, lt]⟩
  simp only [gt, lt, eq, Bool.and_eq_true, Bool.not_eq_true', decide_eq_false_iff_not, not_lt]
  exact ⟨fun h => lt_of_le_of_ne h.1 (Ne.symm h.2), fun h => ⟨h.le, h.ne'⟩⟩

/-- C08: the order of lengths is a total preorder. -/
theorem le_total_preorder (s : St K) (a b c : Length K) :
    le s a (.len a) = true ∧ (le s a (.len b) = true ∨ le s b (.len a) = true) ∧
    (le s a (.len b) = true → le s b (.len c) = true → le s a (.len c) = true) := by
  simp only [(compare_iff s _ _).2.2.1]
  exact ⟨le_refl _, le_total _ _, fun h1 h2 => le_trans h1 h2⟩

/-- Concrete case: `2*u_inch + 1*v_cm - 3` with user scale 2, visual scale 3, default unit mm. -/
example : let s : St ℚ := [{ u := some 5 }, { u := some 2, v := some 3 }, { dflt := some .mm }].foldl set St.init
    let e : Expr ℚ := .sub (.add (.mul 2 (.len 1 .u (some .inch))) (.len 1 .v (some .cm))) (.num 3)
    convert s (eval s e) .cm = 1256 / 100 := by
  decide +kernel

end PyX.Unit
