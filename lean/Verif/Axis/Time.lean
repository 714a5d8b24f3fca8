import Mathlib.Algebra.Order.Field.Rat
import Mathlib.Tactic.Linarith
import Mathlib.Tactic.Ring
import Mathlib.Tactic.FieldSimp
import Mathlib.Tactic.NormNum
import Mathlib.Data.List.Induction
import Mathlib.Data.Rat.Cast.Order

/-!
# C150: time axes (`pyx/graph/axis/timeaxis.py`)

A `datetime` is the number of microseconds since a fixed moment (the type of Python without time zones), a `timedelta` the normalised triple of days, seconds and
microseconds which Python stores.  Division of the two integers in `convert` is exact.
-/

set_option linter.unusedSectionVars false

namespace PyX.Axis.Time

/-! ## Model -/

/-- `datetime.timedelta`: days, seconds and microseconds. -/
structure Delta where
  days : ℤ
  seconds : ℤ
  microseconds : ℤ
deriving DecidableEq

/-- The difference of two `datetime`s as Python normalises it: `0 ≤ microseconds < 1000000`, `0 ≤ seconds < 86400`. -/
def sub (a b : ℤ) : Delta := ⟨(a - b) / 1000000 / 86400, (a - b) / 1000000 % 86400, (a - b) % 1000000⟩

/-- `mstimedelta` (`timeaxis.py:44-46`). -/
def ms (td : Delta) : ℤ := td.microseconds + 1000000 * (td.seconds + 3600 * 24 * td.days)

/-- The axis: `_regularaxis.__init__` exchanges `min` and `max` if they are in the wrong order, changing `reverse` (`axis.py:79-83`). -/
structure TimeAxis where
  min : Option ℤ
  max : Option ℤ
  reverse : Bool
deriving DecidableEq

/-- `timeaxis.__init__` (`timeaxis.py:37-40`, `axis.py:65-83`). -/
def TimeAxis.new (min max : Option ℤ) (reverse : Bool) : TimeAxis :=
  match min, max with
  | some a, some b => if a > b then ⟨some b, some a, !reverse⟩ else ⟨some a, some b, reverse⟩
  | _, _ => ⟨min, max, reverse⟩

/-- The range (`axis.axisdata`). -/
structure Data where
  min : Option ℤ
  max : Option ℤ
deriving DecidableEq

/-- `createdata` (`axis.py:95-96`). -/
def TimeAxis.data (a : TimeAxis) : Data := ⟨a.min, a.max⟩

/-- A value in a column: a moment, or something to which `timedelta(0)` cannot be added. -/
inductive Value
  | moment (t : ℤ)
  | other
deriving DecidableEq

/-- One value in `adjustaxis` (`axis.py:103-111`) with `zero = timedelta(0)` (`timeaxis.py:52`). -/
def adjust1 (a : TimeAxis) (d : Data) : Value → Data
  | .other => d
  | .moment t =>
    ⟨if a.min.isNone && (match d.min with | none => true | some m => decide (t < m)) then some t else d.min,
     if a.max.isNone && (match d.max with | none => true | some m => decide (t > m)) then some t else d.max⟩

/-- `_regularaxis.adjustaxis` (`axis.py:100-111`). -/
def adjust (a : TimeAxis) (d : Data) (vs : List Value) : Data := if a.min.isNone || a.max.isNone then vs.foldl (adjust1 a) d else d

/-- `timeaxis.convert` (`timeaxis.py:42-47`); `none` is `ZeroDivisionError`.  The direction of the axis is not asked. -/
def convert (_a : TimeAxis) (min max x : ℤ) : Option ℚ := if ms (sub max min) = 0 then none else some ((ms (sub x min) : ℚ) / (ms (sub max min) : ℚ))

/-- `timetick` (`timeaxis.py:55-69`). -/
structure Tick where
  at' : ℤ
  ticklevel : Option ℕ
  labellevel : Option ℕ
  label : Option String
deriving DecidableEq

/-- One level in `merge` (`timeaxis.py:71-75`). -/
def mergeLevel (a b : Option ℕ) : Option ℕ :=
  if a.isNone || (b.isSome && decide (b.getD 0 < a.getD 0)) then b else a

/-- `timetick.merge` (`timeaxis.py:70-74`). -/
def Tick.merge (t u : Tick) : Tick := { t with ticklevel := mergeLevel t.ticklevel u.ticklevel, labellevel := mergeLevel t.labellevel u.labellevel }

/-- `timetexter.labels` (`timeaxis.py:82-85`) with `strftime`. -/
def labels (strftime : ℤ → String) (ts : List Tick) : List Tick :=
  ts.map fun t => if t.labellevel.isSome && t.label.isNone then { t with label := some (strftime t.at') } else t

/-! ## Specification -/

/-- Levels: `none` is no tick at all, otherwise the smaller level is the more important one. -/
def rank : Option ℕ → WithTop ℕ
  | none => ⊤
  | some n => n

theorem ms_sub (a b : ℤ) : ms (sub a b) = a - b := by
  unfold ms sub
  simp only
  have h1 := Int.mul_ediv_add_emod (a - b) 1000000
  have h2 := Int.mul_ediv_add_emod ((a - b) / 1000000) 86400
  generalize (a - b) / 1000000 = q at h1 h2 ⊢
  generalize (a - b) % 1000000 = r at h1 ⊢
  generalize q / 86400 = q' at h2 ⊢
  generalize q % 86400 = r' at h2 ⊢
  linarith

/-- **C150.** A moment is placed in proportion to the time elapsed since the beginning of the axis. -/
theorem convert_spec (a : TimeAxis) (min max x : ℤ) (h : min ≠ max) :
    ∃ r, convert a min max x = some r ∧ r * ((max : ℚ) - min) = (x : ℚ) - min := by
  have h0 : (max : ℚ) - min ≠ 0 := by
    intro e
    have : (max : ℚ) = min := by linarith
    exact h (by exact_mod_cast this.symm)
  refine ⟨((x - min : ℤ) : ℚ) / ((max - min : ℤ) : ℚ), ?_, ?_⟩
  · unfold convert
    rw [ms_sub, ms_sub, if_neg (by omega)]
  · push_cast
    field_simp

/-- **C150.** The ends of the axis are at 0 and 1, and later moments are further along. -/
theorem convert_ends (a : TimeAxis) (min max : ℤ) (h : min < max) : convert a min max min = some 0 ∧ convert a min max max = some 1 ∧
    ∀ x y rx ry, convert a min max x = some rx → convert a min max y = some ry → (x < y ↔ rx < ry) := by
  have h0 : (0 : ℚ) < (max : ℚ) - min := by
    have : (min : ℚ) < max := by exact_mod_cast h
    linarith
  have key : ∀ x, convert a min max x = some (((x : ℚ) - min) / (max - min)) := by
    intro x
    unfold convert
    rw [ms_sub, ms_sub, if_neg (by omega)]
    push_cast; rfl
  refine ⟨by rw [key]; simp, by rw [key, div_self h0.ne'], ?_⟩
  intro x y rx ry hx hy
  rw [key, Option.some.injEq] at hx hy
  rw [← hx, ← hy, div_lt_div_iff_of_pos_right h0]
  constructor
  · intro h
    have : (x : ℚ) < y := by exact_mod_cast h
    linarith
  · intro h
    have : (x : ℚ) < y := by linarith
    exact_mod_cast this

/-- **C150.** Differences of time are kept: equal times are equal distances. -/
theorem convert_distance (a : TimeAxis) (min max x y x' y' : ℤ) (h : min ≠ max) (he : y - x = y' - x') (rx ry rx' ry' : ℚ)
    (h1 : convert a min max x = some rx) (h2 : convert a min max y = some ry) (h3 : convert a min max x' = some rx') (h4 : convert a min max y' = some ry') :
    ry - rx = ry' - rx' := by
  have h0 : (max : ℚ) - min ≠ 0 := by
    intro e
    have : (max : ℚ) = min := by linarith
    exact h (by exact_mod_cast this.symm)
  have key : ∀ x, convert a min max x = some (((x : ℚ) - min) / (max - min)) := by
    intro x
    unfold convert
    rw [ms_sub, ms_sub, if_neg (by omega)]
    push_cast; rfl
  rw [key, Option.some.injEq] at h1 h2 h3 h4
  have he' : (y : ℚ) - x = y' - x' := by exact_mod_cast he
  rw [← h1, ← h2, ← h3, ← h4]
  rw [← sub_div, ← sub_div]
  congr 1
  linarith

/-- **C150.** An end which is not given is the first or the last moment of the data, things which are no moments being ignored; an end which is given stays. -/
theorem adjust_spec (a : TimeAxis) (vs : List Value) :
    (∀ m, a.min = some m → (adjust a a.data vs).min = some m) ∧ (∀ m, a.max = some m → (adjust a a.data vs).max = some m) ∧
    (a.min = none → ((adjust a a.data vs).min = none ↔ ∀ v ∈ vs, v = .other) ∧ ∀ m, (adjust a a.data vs).min = some m →
      Value.moment m ∈ vs ∧ ∀ t, Value.moment t ∈ vs → m ≤ t) ∧
    (a.max = none → ((adjust a a.data vs).max = none ↔ ∀ v ∈ vs, v = .other) ∧ ∀ m, (adjust a a.data vs).max = some m →
      Value.moment m ∈ vs ∧ ∀ t, Value.moment t ∈ vs → t ≤ m) := by
  obtain ⟨amin, amax, rev⟩ := a
  induction vs using List.reverseRecOn with
  | nil =>
    unfold adjust TimeAxis.data
    refine ⟨fun m h => ?_, fun m h => ?_, fun h => ?_, fun h => ?_⟩ <;> simp only at h <;> subst h <;> simp
  | append_singleton vs v ih =>
    by_cases hc : (amin.isNone || amax.isNone) = true
    · have e : ∀ w, adjust ⟨amin, amax, rev⟩ (TimeAxis.data ⟨amin, amax, rev⟩) (vs ++ w) =
          w.foldl (adjust1 ⟨amin, amax, rev⟩) (adjust ⟨amin, amax, rev⟩ (TimeAxis.data ⟨amin, amax, rev⟩) vs) := by
        intro w
        unfold adjust
        rw [if_pos hc, if_pos hc, List.foldl_append]
      rw [e [v]]
      simp only [List.foldl_cons, List.foldl_nil]
      generalize adjust ⟨amin, amax, rev⟩ (TimeAxis.data ⟨amin, amax, rev⟩) vs = d at ih
      obtain ⟨dmin, dmax⟩ := d
      obtain ⟨i1, i2, i3, i4⟩ := ih
      simp only at i1 i2 i3 i4
      cases v with
      | other =>
        simp only [adjust1]
        refine ⟨i1, i2, fun h => ?_, fun h => ?_⟩
        · obtain ⟨j1, j2⟩ := i3 h
          refine ⟨by rw [j1]; simp [or_imp, forall_and], fun m hm => ?_⟩
          obtain ⟨k1, k2⟩ := j2 m hm
          exact ⟨by simp [k1], fun t ht => k2 t (by simpa using ht)⟩
        · obtain ⟨j1, j2⟩ := i4 h
          refine ⟨by rw [j1]; simp [or_imp, forall_and], fun m hm => ?_⟩
          obtain ⟨k1, k2⟩ := j2 m hm
          exact ⟨by simp [k1], fun t ht => k2 t (by simpa using ht)⟩
      | moment t =>
        simp only [adjust1]
        refine ⟨fun m h => ?_, fun m h => ?_, fun h => ?_, fun h => ?_⟩
        · subst h; simpa using i1 m rfl
        · subst h; simpa using i2 m rfl
        · subst h
          obtain ⟨j1, j2⟩ := i3 rfl
          cases dmin with
          | none =>
            have hall := j1.1 rfl
            refine ⟨⟨by simp, fun h => ?_⟩, fun m hm => ?_⟩
            · have := h (.moment t) (by simp); simp at this
            · simp at hm; subst hm
              refine ⟨by simp, fun s hs => ?_⟩
              rcases List.mem_append.1 hs with hs | hs
              · have := hall _ hs; simp at this
              · simp at hs; omega
          | some m0 =>
            obtain ⟨k1, k2⟩ := j2 m0 rfl
            refine ⟨⟨fun h => ?_, fun h => ?_⟩, fun m hm => ?_⟩
            · split_ifs at h
            · have := h (.moment t) (by simp); simp at this
            · by_cases ht : t < m0
              · simp [ht] at hm; subst hm
                refine ⟨by simp, fun s hs => ?_⟩
                rcases List.mem_append.1 hs with hs | hs
                · have := k2 s hs; omega
                · simp at hs; omega
              · simp [ht] at hm; subst hm
                refine ⟨by simp [k1], fun s hs => ?_⟩
                rcases List.mem_append.1 hs with hs | hs
                · exact k2 s hs
                · simp at hs; omega
        · subst h
          obtain ⟨j1, j2⟩ := i4 rfl
          cases dmax with
          | none =>
            have hall := j1.1 rfl
            refine ⟨⟨by simp, fun h => ?_⟩, fun m hm => ?_⟩
            · have := h (.moment t) (by simp); simp at this
            · simp at hm; subst hm
              refine ⟨by simp, fun s hs => ?_⟩
              rcases List.mem_append.1 hs with hs | hs
              · have := hall _ hs; simp at this
              · simp at hs; omega
          | some m0 =>
            obtain ⟨k1, k2⟩ := j2 m0 rfl
            refine ⟨⟨fun h => ?_, fun h => ?_⟩, fun m hm => ?_⟩
            · split_ifs at h
            · have := h (.moment t) (by simp); simp at this
            · by_cases ht : m0 < t
              · simp [ht] at hm; subst hm
                refine ⟨by simp, fun s hs => ?_⟩
                rcases List.mem_append.1 hs with hs | hs
                · have := k2 s hs; omega
                · simp at hs; omega
              · simp [ht] at hm; subst hm
                refine ⟨by simp [k1], fun s hs => ?_⟩
                rcases List.mem_append.1 hs with hs | hs
                · exact k2 s hs
                · simp at hs; omega
    · cases amin <;> cases amax <;> simp_all [adjust, TimeAxis.data]

theorem mergeLevel_rank (a b : Option ℕ) : rank (mergeLevel a b) = min (rank a) (rank b) := by
  cases a with
  | none => cases b <;> simp [mergeLevel, rank]
  | some a =>
    cases b with
    | none => simp [mergeLevel, rank]
    | some b =>
      by_cases h : b < a
      · have : min ((a : ℕ) : WithTop ℕ) (b : WithTop ℕ) = b := min_eq_right (by exact_mod_cast h.le)
        simp [mergeLevel, rank, h, this]
      · have : min ((a : ℕ) : WithTop ℕ) (b : WithTop ℕ) = a := min_eq_left (by exact_mod_cast Nat.le_of_not_lt h)
        simp [mergeLevel, rank, h, this]

/-- **C150.** Merged ticks have the more important of both levels and stay where they are, with their text. -/
theorem merge_spec (t u : Tick) : rank (t.merge u).ticklevel = min (rank t.ticklevel) (rank u.ticklevel) ∧
    rank (t.merge u).labellevel = min (rank t.labellevel) (rank u.labellevel) ∧ (t.merge u).at' = t.at' ∧ (t.merge u).label = t.label :=
  ⟨mergeLevel_rank _ _, mergeLevel_rank _ _, rfl, rfl⟩

/-- **C150.** Exactly the ticks with a label level and without a text get one, which is that of their own moment. -/
theorem labels_spec (strftime : ℤ → String) (ts : List Tick) (i : ℕ) (t : Tick) (h : ts[i]? = some t) :
    ∃ u, (labels strftime ts)[i]? = some u ∧ u.at' = t.at' ∧ u.ticklevel = t.ticklevel ∧ u.labellevel = t.labellevel ∧
      u.label = if t.labellevel ≠ none ∧ t.label = none then some (strftime t.at') else t.label := by
  refine ⟨_, by rw [labels, List.getElem?_map, h]; rfl, ?_⟩
  obtain ⟨a, tl, ll, l⟩ := t
  cases ll <;> cases l <;> simp

/-- **C150, violation.** The direction is ignored: an axis from a later to an earlier moment, or a reversed one, runs forwards. -/
theorem reverse_ignored (min max : Option ℤ) (r : Bool) (a b x : ℤ) :
    convert (TimeAxis.new min max r) a b x = convert (TimeAxis.new min max (!r)) a b x ∧
    (∀ p q : ℤ, p > q → (TimeAxis.new (some p) (some q) r).data = ⟨some q, some p⟩ ∧
      ∀ s, convert (TimeAxis.new (some p) (some q) r) q p s = convert (TimeAxis.new (some q) (some p) r) q p s) := by
  refine ⟨rfl, fun p q h => ⟨?_, fun _ => rfl⟩⟩
  simp [TimeAxis.new, TimeAxis.data, h]

/-- **C150.** The direction is at least recorded: exchanging unequal bounds and reversing are the same, and only both together cancel. -/
theorem direction_recorded (p q : ℤ) (r : Bool) (h : p ≠ q) :
    TimeAxis.new (some p) (some q) r = TimeAxis.new (some q) (some p) (!r) ∧
    ((TimeAxis.new (some p) (some q) r).reverse = true ↔ (r = true ↔ p < q)) := by
  rcases lt_or_gt_of_ne h with h | h
  · cases r <;> simp [TimeAxis.new, h, not_lt.2 h.le]
  · cases r <;> simp [TimeAxis.new, h, not_lt.2 h.le]

/-- A day and a half before the end of an axis of three days. -/
example : convert (TimeAxis.new none none false) 0 (3 * 86400 * 1000000) (3 * 43200 * 1000000) = some (1 / 2) := by
  unfold convert
  rw [ms_sub, ms_sub]
  norm_num

example : sub 5 86400000007 = ⟨-2, 86399, 999998⟩ ∧ ms (sub 5 86400000007) = -86400000002 := by decide +kernel

example : adjust (TimeAxis.new none (some 9) false) (TimeAxis.new none (some 9) false).data [.moment 7, .other, .moment 3, .moment 12] = ⟨some 3, some 9⟩ := by decide

end PyX.Axis.Time
