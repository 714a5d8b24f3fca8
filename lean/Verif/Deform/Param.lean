import Mathlib.Algebra.Order.Floor.Ring
import Mathlib.Algebra.Order.Field.Basic
import Mathlib.Algebra.Order.AbsoluteValue.Basic
import Mathlib.Data.List.Nodup
import Mathlib.Data.Rat.Floor
import Mathlib.Tactic.Linarith
import Mathlib.Tactic.NormNum
import Mathlib.Tactic.Ring

/-!
# C168: parameters which know their item (`pyx/deformer.py:690-804, 1509-1556, 1568-1586`)

The parallel deformer addresses points by sub-path, item, and parameter in the item. The parameter in the sub-path is derived such that its integer part is the item. Floating point numbers are numbers of an ordered field `K`.
-/

set_option linter.unusedSectionVars false
set_option linter.unusedSimpArgs false

namespace PyX.Deform.Param

variable {K : Type*} [Field K] [LinearOrder K] [IsStrictOrderedRing K] [FloorRing K]

/-- Python's `int` of a number. -/
def int (x : K) : ℤ := if 0 ≤ x then ⌊x⌋ else ⌈x⌉

/-- `mynormpathparam.rounding_eps` (`deformer.py:697`). -/
def rounding : K := 1 / 100000000

/-- A `mynormpathparam` (`deformer.py:699-717`): the index of the sub-path, the index of the item, the parameter in the item, the parameter in the sub-path, and the flags `beg_nspitem_known` and `end_nspitem_known`. -/
@[ext] structure P (K : Type*) where
  sub : ℕ
  item : ℕ
  t : K
  param : K
  beg : Bool
  fin : Bool
deriving DecidableEq

/-- The assertion at the end of `__init__` (`deformer.py:716`). -/
def check (p : P K) : Option (P K) := if int p.param = p.item then some p else none

/-- `mynormpathparam.__init__` (`deformer.py:699-718`); `none` is a failing assertion. -/
def make (s i : ℕ) (t : K) : Option (P K) :=
  if int ((i : K) + t) = i then check ⟨s, i, t, i + t, false, false⟩
  else if int ((i : K) + t) = i - 1 then check ⟨s, i, t, i + rounding, true, false⟩
  else if int ((i : K) + t) = i + 1 then check ⟨s, i, t, (i + 1) - rounding, false, true⟩
  else none

/-- A sub-path: whether it is closed, the number of its items, the `at_pt` of its items, and its epsilon. -/
structure Sub (K : Type*) where
  closed : Bool
  len : ℕ
  item : ℕ → K → K × K
  eps : K

/-- `normsubpath.at_pt` with `_distributeparams` (`normpath.py:848-869, 1011-1017`) for one parameter. -/
def Sub.at (s : Sub K) (x : K) : K × K :=
  if 0 < x then s.item (min (int x).toNat (s.len - 1)) (x - (min (int x).toNat (s.len - 1) : ℕ))
  else s.item 0 x

/-- `math.hypot(…) < epsilon`. -/
def close (a b : K × K) (e : K) : Bool := decide (0 < e ∧ (a.1 - b.1) ^ 2 + (a.2 - b.2) ^ 2 < e ^ 2)

/-- `is_equiv` (`deformer.py:773-782`). -/
def equiv (path : ℕ → Sub K) (p q : P K) (e : Option K) : Bool :=
  if p.sub ≠ q.sub then false
  else close ((path p.sub).at p.param) ((path p.sub).at q.param) (e.getD (path p.sub).eps)

/-- `is_beg_of_nspitem` (`deformer.py:784-787`). -/
def isBeg (path : ℕ → Sub K) (p : P K) (e : Option K) : Option Bool :=
  if p.beg then some true else (make p.sub p.item 0).map fun q => equiv path p q e

/-- `is_end_of_nspitem` (`deformer.py:789-792`). -/
def isEnd (path : ℕ → Sub K) (p : P K) (e : Option K) : Option Bool :=
  if p.fin then some true else (make p.sub p.item 1).map fun q => equiv path p q e

/-- The item before (`deformer.py:744-751`). -/
def before (s : Sub K) (i : ℕ) : ℕ × K :=
  if s.closed then ((((i : ℤ) - 1) % s.len).toNat, 1) else if i = 0 then (0, 0) else (i - 1, 1)

/-- The item after (`deformer.py:761-768`). -/
def after (s : Sub K) (i : ℕ) : ℕ × K :=
  if s.closed then ((i + 1) % s.len, 0) else if s.len ≤ i + 1 then (s.len - 1, 1) else (i + 1, 0)

/-- The end of `smaller_equiv` and `larger_equiv` (`deformer.py:752-755, 769-772`). -/
def other (path : ℕ → Sub K) (p : P K) (e : Option K) (x : ℕ × K) : Option (P K) :=
  (make p.sub x.1 x.2).map fun q => if equiv path p q e then q else p

/-- `smaller_equiv` (`deformer.py:740-755`). -/
def smaller (path : ℕ → Sub K) (p : P K) (e : Option K) : Option (P K) :=
  (isBeg path p e).bind fun b => if b then other path p e (before (path p.sub) p.item) else some p

/-- `larger_equiv` (`deformer.py:757-772`). -/
def larger (path : ℕ → Sub K) (p : P K) (e : Option K) : Option (P K) :=
  (isEnd path p e).bind fun b => if b then other path p e (after (path p.sub) p.item) else some p

/-- `__lt__` for two of these parameters (`deformer.py:730-733`). -/
def lt (p q : P K) : Bool :=
  decide (p.sub < q.sub ∨ (p.sub = q.sub ∧ (p.item < q.item ∨ (p.item = q.item ∧ p.t < q.t))))

/-! ## The parameter in the sub-path -/

theorem rounding_pos : (0 : K) < rounding := by unfold rounding; positivity

theorem rounding_lt : (rounding : K) < 1 := by
  unfold rounding
  rw [div_lt_one (by positivity)]
  norm_num

theorem int_nonneg {x : K} (h : 0 ≤ x) : int x = ⌊x⌋ := if_pos h

theorem int_eq (n : ℕ) (x : K) (h0 : (n : K) ≤ x) (h1 : x < n + 1) : int x = n := by
  rw [int_nonneg (le_trans (Nat.cast_nonneg n) h0), Int.floor_eq_iff]
  exact ⟨by exact_mod_cast h0, by exact_mod_cast h1⟩

theorem check_item {p q : P K} (h : check p = some q) : q = p ∧ int q.param = q.item := by
  unfold check at h
  by_cases c : int p.param = p.item
  · rw [if_pos c] at h; cases h; exact ⟨rfl, c⟩
  · rw [if_neg c] at h; cases h

/-- What is made has the values given, and the integer part of its parameter is its item. -/
theorem make_item {s i : ℕ} {t : K} {p : P K} (h : make s i t = some p) :
    p.sub = s ∧ p.item = i ∧ p.t = t ∧ int p.param = i := by
  unfold make at h
  by_cases c : int ((i : K) + t) = i
  · rw [if_pos c] at h
    obtain ⟨rfl, e⟩ := check_item h
    exact ⟨rfl, rfl, rfl, e⟩
  rw [if_neg c] at h
  by_cases c : int ((i : K) + t) = i - 1
  · rw [if_pos c] at h
    obtain ⟨rfl, e⟩ := check_item h
    exact ⟨rfl, rfl, rfl, e⟩
  rw [if_neg c] at h
  by_cases c : int ((i : K) + t) = i + 1
  · rw [if_pos c] at h
    obtain ⟨rfl, e⟩ := check_item h
    exact ⟨rfl, rfl, rfl, e⟩
  rw [if_neg c] at h
  cases h

/-- Inside of an item, and at its begin, the parameter is the sum. -/
theorem make_inside (s i : ℕ) (t : K) (h0 : 0 ≤ t) (h1 : t < 1) : make s i t = some ⟨s, i, t, i + t, false, false⟩ := by
  have e : int ((i : K) + t) = i := int_eq i _ (by linarith) (by linarith)
  unfold make
  rw [if_pos e]
  exact if_pos e

/-- At the end of an item the parameter is a bit smaller than the sum, and the end is known. -/
theorem make_end (s i : ℕ) : make s i (1 : K) = some ⟨s, i, 1, (i + 1) - rounding, false, true⟩ := by
  have e : int ((i : K) + 1) = i + 1 := by
    have := int_eq (i + 1) ((i : K) + 1) (by push_cast; exact le_refl _) (by push_cast; linarith)
    exact_mod_cast this
  have p := rounding_pos (K := K)
  have l := rounding_lt (K := K)
  unfold make
  rw [if_neg (by rw [e]; omega), if_neg (by rw [e]; omega), if_pos e]
  exact if_pos (int_eq i _ (by change (i : K) ≤ (i + 1) - rounding; linarith) (by change ((i : K) + 1) - rounding < i + 1; linarith))

/-- C168: a parameter from zero to one always gives a point, with the item asked for as integer part, and at a distance in the parameter of at most the rounding. -/
theorem make_ok (s i : ℕ) (t : K) (h0 : 0 ≤ t) (h1 : t ≤ 1) :
    ∃ p, make s i t = some p ∧ p.sub = s ∧ p.item = i ∧ p.t = t ∧ (i : K) ≤ p.param ∧ p.param < i + 1 ∧
      |p.param - (i + t)| ≤ 1 / 100000000 ∧ (t < 1 → p.param = i + t) ∧ p.beg = false ∧ (p.fin = true ↔ t = 1) := by
  have p := rounding_pos (K := K)
  have l := rounding_lt (K := K)
  rcases lt_or_eq_of_le h1 with h | rfl
  · refine ⟨_, make_inside s i t h0 h, rfl, rfl, rfl, by dsimp only; linarith, by dsimp only; linarith, ?_, fun _ => rfl, rfl, ?_⟩
    · dsimp only
      rw [sub_self, abs_zero]
      positivity
    · exact ⟨fun x => by simp at x, fun x => absurd x h.ne⟩
  · refine ⟨_, make_end s i, rfl, rfl, rfl, by dsimp only; linarith, by dsimp only; linarith, ?_, fun x => absurd x (lt_irrefl _), rfl, by simp⟩
    dsimp only
    rw [show (i : K) + 1 - rounding - (i + 1) = -rounding by ring, abs_neg, abs_of_pos p]
    exact le_refl _

/-- C168: a known begin is the begin or before it, and a known end is the end or after it. -/
theorem known (s i : ℕ) (t : K) (p : P K) (h : make s i t = some p) : (p.beg = true → t < 0) ∧ (p.fin = true → 1 ≤ t) := by
  constructor
  · intro b
    by_contra c
    push Not at c
    rcases lt_or_ge t 1 with l | l
    · rw [make_inside s i t c l] at h; cases h; cases b
    · unfold make at h
      have big : (i : ℤ) + 1 ≤ int ((i : K) + t) := by
        rw [int_nonneg (by have := Nat.cast_nonneg (α := K) i; linarith), Int.le_floor]
        push_cast; linarith
      rw [if_neg (by omega), if_neg (by omega)] at h
      by_cases c : int ((i : K) + t) = i + 1
      · rw [if_pos c] at h
        obtain ⟨rfl, _⟩ := check_item h
        cases b
      · rw [if_neg c] at h; cases h
  · intro b
    by_contra c
    push Not at c
    rcases lt_or_ge t 0 with l | l
    · unfold make at h
      have small : int ((i : K) + t) ≤ i := by
        unfold int
        by_cases n : 0 ≤ (i : K) + t
        · rw [if_pos n]
          have : (⌊(i : K) + t⌋ : K) ≤ i + t := Int.floor_le _
          have : (⌊(i : K) + t⌋ : K) < (i : ℤ) := by push_cast; linarith
          exact_mod_cast this.le
        · rw [if_neg n, Int.ceil_le]; push_cast; linarith
      by_cases c : int ((i : K) + t) = i
      · rw [if_pos c] at h
        obtain ⟨rfl, _⟩ := check_item h
        cases b
      rw [if_neg c] at h
      by_cases c : int ((i : K) + t) = i - 1
      · rw [if_pos c] at h
        obtain ⟨rfl, _⟩ := check_item h
        cases b
      rw [if_neg c, if_neg (by omega)] at h
      cases h
    · rw [make_inside s i t l c] at h; cases h; cases b

/-- C168: the point of a parameter is on the item asked for, also at its end. -/
theorem at_item (sub : Sub K) (s i : ℕ) (t : K) (p : P K) (h : make s i t = some p) (hi : i < sub.len) :
    sub.at p.param = sub.item i (p.param - i) := by
  obtain ⟨_, _, _, e⟩ := make_item h
  unfold Sub.at
  by_cases c : 0 < p.param
  · rw [if_pos c, e]
    have : min ((i : ℤ).toNat) (sub.len - 1) = i := by simp; omega
    rw [this]
  · rw [if_neg c]
    have z : i = 0 := by
      by_cases n : 0 ≤ p.param
      · have : p.param = 0 := le_antisymm (not_lt.1 c) n
        rw [this, int_nonneg (le_refl _)] at e
        simp at e
        omega
      · unfold int at e
        rw [if_neg n] at e
        have : ⌈p.param⌉ ≤ 0 := by rw [Int.ceil_le]; push_cast; exact not_lt.1 c
        omega
    subst z
    simp

theorem at_inside (sub : Sub K) (s i : ℕ) (t : K) (p : P K) (h : make s i t = some p) (hi : i < sub.len) (h0 : 0 ≤ t) (h1 : t < 1) :
    sub.at p.param = sub.item i t := by
  rw [at_item sub s i t p h hi]
  rw [make_inside s i t h0 h1] at h
  cases h
  congr 1
  dsimp only
  ring

theorem at_end (sub : Sub K) (s i : ℕ) (p : P K) (h : make s i (1 : K) = some p) (hi : i < sub.len) :
    sub.at p.param = sub.item i (1 - 1 / 100000000) := by
  rw [at_item sub s i 1 p h hi]
  rw [make_end s i] at h
  cases h
  congr 1
  dsimp only [rounding]
  ring

/-! ## The order -/

/-- C168: of two parameters exactly one is smaller, or they have the same values. -/
theorem trichotomy (p q : P K) :
    (lt p q = true ∧ lt q p = false) ∨ (lt q p = true ∧ lt p q = false) ∨
      (p.sub = q.sub ∧ p.item = q.item ∧ p.t = q.t ∧ lt p q = false ∧ lt q p = false) := by
  unfold lt
  simp only [decide_eq_true_eq, decide_eq_false_iff_not]
  rcases lt_trichotomy p.sub q.sub with a | a | a
  · left; refine ⟨Or.inl a, ?_⟩; rintro (b | ⟨b, _⟩) <;> omega
  · rcases lt_trichotomy p.item q.item with b | b | b
    · left; refine ⟨Or.inr ⟨a, Or.inl b⟩, ?_⟩; rintro (c | ⟨_, c | ⟨c, _⟩⟩) <;> omega
    · rcases lt_trichotomy p.t q.t with c | c | c
      · left; refine ⟨Or.inr ⟨a, Or.inr ⟨b, c⟩⟩, ?_⟩
        rintro (d | ⟨_, d | ⟨_, d⟩⟩)
        · omega
        · omega
        · exact absurd c (not_lt.2 d.le)
      · right; right
        refine ⟨a, b, c, ?_, ?_⟩
        · rintro (d | ⟨_, d | ⟨_, d⟩⟩)
          · omega
          · omega
          · exact absurd d (by rw [c]; exact lt_irrefl _)
        · rintro (d | ⟨_, d | ⟨_, d⟩⟩)
          · omega
          · omega
          · exact absurd d (by rw [c]; exact lt_irrefl _)
      · right; left; refine ⟨Or.inr ⟨a.symm, Or.inr ⟨b.symm, c⟩⟩, ?_⟩
        rintro (d | ⟨_, d | ⟨_, d⟩⟩)
        · omega
        · omega
        · exact absurd c (not_lt.2 d.le)
    · right; left; refine ⟨Or.inr ⟨a.symm, Or.inl b⟩, ?_⟩; rintro (c | ⟨_, c | ⟨c, _⟩⟩) <;> omega
  · right; left; refine ⟨Or.inl a, ?_⟩; rintro (b | ⟨b, _⟩) <;> omega

theorem lt_trans' (p q r : P K) (h : lt p q = true) (k : lt q r = true) : lt p r = true := by
  unfold lt at *
  simp only [decide_eq_true_eq] at *
  rcases h with h | ⟨h, h' | ⟨h', h''⟩⟩ <;> rcases k with k | ⟨k, k' | ⟨k', k''⟩⟩
  · left; omega
  · left; omega
  · left; omega
  · left; omega
  · right; exact ⟨h.trans k, Or.inl (by omega)⟩
  · right; exact ⟨h.trans k, Or.inl (by omega)⟩
  · left; omega
  · right; exact ⟨h.trans k, Or.inl (by omega)⟩
  · right; exact ⟨h.trans k, Or.inr ⟨h'.trans k', _root_.lt_trans h'' k''⟩⟩

/-- C168: the order is that of the parameters in the sub-path, unless the smaller one is within the rounding before the end of its item. -/
theorem order_partial (s i j : ℕ) (t u : K) (p q : P K) (ht : 0 ≤ t) (ht' : t ≤ 1) (hu : 0 ≤ u) (hu' : u ≤ 1)
    (hp : make s i t = some p) (hq : make s j u = some q) (h : lt p q = true) (far : i = j → t ≤ 1 - 1 / 100000000) :
    p.param ≤ q.param := by
  obtain ⟨p', ep, _, _, _, p0, p1, _, p2, _⟩ := make_ok s i t ht ht'
  obtain ⟨q', eq, _, _, _, q0, q1, _, q2, _⟩ := make_ok s j u hu hu'
  rw [ep] at hp; cases hp
  rw [eq] at hq; cases hq
  obtain ⟨a, b, c, _⟩ := make_item ep
  obtain ⟨a', b', c', _⟩ := make_item eq
  unfold lt at h
  rw [decide_eq_true_eq, a, a', b, b', c, c'] at h
  rcases h with h | ⟨_, h | ⟨h, h'⟩⟩
  · omega
  · have : (i : K) + 1 ≤ j := by exact_mod_cast h
    linarith
  · subst h
    have f := far rfl
    rw [p2 (lt_of_lt_of_le h' hu')]
    rcases lt_or_eq_of_le hu' with v | rfl
    · rw [q2 v]; linarith
    · rw [make_end] at eq; cases eq
      dsimp only [rounding]
      linarith

/-- C168, what does not hold: just before the end of an item the parameter in the sub-path is larger than at the end, although the order is the other way round. -/
theorem order_end (s i : ℕ) (t : K) (h : 1 - 1 / 100000000 < t) (h1 : t < 1) :
    ∃ p q, make s i t = some p ∧ make s i 1 = some q ∧ lt p q = true ∧ q.param < p.param := by
  have l := rounding_lt (K := K)
  unfold rounding at l
  refine ⟨_, _, make_inside s i t (by linarith) h1, make_end s i, ?_, ?_⟩
  · unfold lt; simp [h1]
  · dsimp only [rounding]; linarith

/-! ## Equivalent parameters -/

theorem make_zero (s i : ℕ) : make s i (0 : K) = some ⟨s, i, 0, i + 0, false, false⟩ := make_inside s i 0 (le_refl _) one_pos

theorem isBeg_some (path : ℕ → Sub K) (p : P K) (e : Option K) : ∃ b, isBeg path p e = some b := by
  unfold isBeg
  rw [make_zero]
  by_cases c : p.beg = true
  · exact ⟨_, if_pos c⟩
  · exact ⟨_, if_neg c⟩

theorem isEnd_some (path : ℕ → Sub K) (p : P K) (e : Option K) : ∃ b, isEnd path p e = some b := by
  unfold isEnd
  rw [make_end]
  by_cases c : p.fin = true
  · exact ⟨_, if_pos c⟩
  · exact ⟨_, if_neg c⟩

theorem before_param (s : Sub K) (i : ℕ) : (before s i).2 = 0 ∨ (before s i).2 = 1 := by
  unfold before
  by_cases c : s.closed = true
  · rw [if_pos c]; exact Or.inr rfl
  · rw [if_neg c]
    by_cases z : i = 0
    · rw [if_pos z]; exact Or.inl rfl
    · rw [if_neg z]; exact Or.inr rfl

theorem after_param (s : Sub K) (i : ℕ) : (after s i).2 = 0 ∨ (after s i).2 = 1 := by
  unfold after
  by_cases c : s.closed = true
  · rw [if_pos c]; exact Or.inl rfl
  · rw [if_neg c]
    by_cases z : s.len ≤ i + 1
    · rw [if_pos z]; exact Or.inr rfl
    · rw [if_neg z]; exact Or.inl rfl

theorem before_lt (s : Sub K) (i : ℕ) (h : i < s.len) : (before s i).1 < s.len := by
  unfold before
  by_cases c : s.closed = true
  · rw [if_pos c]
    have : ((i : ℤ) - 1) % s.len < s.len := Int.emod_lt_of_pos _ (by omega)
    have : 0 ≤ ((i : ℤ) - 1) % s.len := Int.emod_nonneg _ (by omega)
    dsimp only
    omega
  · rw [if_neg c]
    by_cases z : i = 0
    · rw [if_pos z]; dsimp only; omega
    · rw [if_neg z]; dsimp only; omega

theorem after_lt (s : Sub K) (i : ℕ) (h : i < s.len) : (after s i).1 < s.len := by
  unfold after
  by_cases c : s.closed = true
  · rw [if_pos c]; exact Nat.mod_lt _ (by omega)
  · rw [if_neg c]
    by_cases z : s.len ≤ i + 1
    · rw [if_pos z]; dsimp only; omega
    · rw [if_neg z]; dsimp only; omega

theorem make_bound (s i : ℕ) (t : K) (h : t = 0 ∨ t = 1) : ∃ q, make s i t = some q := by
  rcases h with rfl | rfl
  · exact ⟨_, make_zero s i⟩
  · exact ⟨_, make_end s i⟩

theorem other_result (path : ℕ → Sub K) (p : P K) (e : Option K) (x : ℕ × K) (h : x.2 = 0 ∨ x.2 = 1) :
    ∃ q, other path p e x = some q ∧ (q = p ∨ (make p.sub x.1 x.2 = some q ∧ equiv path p q e = true)) := by
  obtain ⟨q, hq⟩ := make_bound p.sub x.1 x.2 h
  unfold other
  rw [hq]
  by_cases c : equiv path p q e = true
  · exact ⟨q, by simp [c], Or.inr ⟨rfl, c⟩⟩
  · exact ⟨p, by simp [c], Or.inl rfl⟩

/-- The spec: two points of a path at a distance smaller than a length. -/
def Near (path : ℕ → Sub K) (e : Option K) (p q : P K) : Prop :=
  0 < e.getD (path p.sub).eps ∧
    (((path p.sub).at p.param).1 - ((path q.sub).at q.param).1) ^ 2 + (((path p.sub).at p.param).2 - ((path q.sub).at q.param).2) ^ 2
      < (e.getD (path p.sub).eps) ^ 2

theorem equiv_near (path : ℕ → Sub K) (e : Option K) (p q : P K) : equiv path p q e = true ↔ p.sub = q.sub ∧ Near path e p q := by
  unfold equiv
  by_cases c : p.sub = q.sub
  · rw [if_neg (not_not.2 c)]
    unfold close Near
    rw [decide_eq_true_eq, c]
    simp
  · rw [if_pos c]; simp [c]

/-- C168: `smaller_equiv` always gives a parameter: the one given, or one of the same sub-path at a distance smaller than epsilon which is the end of the item before. On an open sub-path it is not larger. -/
theorem smaller_sound (path : ℕ → Sub K) (p : P K) (e : Option K) (hi : p.item < (path p.sub).len) :
    ∃ q, smaller path p e = some q ∧
      (q = p ∨ (q.sub = p.sub ∧ q.item < (path p.sub).len ∧ (q.t = 0 ∨ q.t = 1) ∧ Near path e p q ∧
        ((path p.sub).closed = false → 0 ≤ p.t → lt p q = false))) := by
  obtain ⟨b, hb⟩ := isBeg_some path p e
  unfold smaller
  rw [hb]
  cases b with
  | false => exact ⟨p, rfl, Or.inl rfl⟩
  | true =>
    obtain ⟨q, hq, rfl | ⟨hm, he⟩⟩ := other_result path p e _ (before_param (path p.sub) p.item)
    · exact ⟨_, hq, Or.inl rfl⟩
    · refine ⟨q, hq, Or.inr ?_⟩
      obtain ⟨a, b, c, _⟩ := make_item hm
      refine ⟨a, by rw [b]; exact before_lt _ _ hi, by rw [c]; exact before_param _ _, ((equiv_near path e p q).1 he).2, ?_⟩
      intro o nn
      unfold before at b c
      rw [o, if_neg (by simp)] at b c
      unfold lt
      rw [decide_eq_false_iff_not, a, b, c]
      by_cases z : p.item = 0
      · rw [if_pos z]
        rintro (d | ⟨_, d | ⟨_, d⟩⟩)
        · omega
        · dsimp only at d; omega
        · exact absurd d (not_lt.2 nn)
      · rw [if_neg z]
        rintro (d | ⟨_, d | ⟨d, _⟩⟩)
        · omega
        · dsimp only at d; omega
        · dsimp only at d; omega

/-- C168: `larger_equiv` always gives a parameter: the one given, or one of the same sub-path at a distance smaller than epsilon. On an open sub-path it is not smaller. -/
theorem larger_sound (path : ℕ → Sub K) (p : P K) (e : Option K) (hi : p.item < (path p.sub).len) :
    ∃ q, larger path p e = some q ∧
      (q = p ∨ (q.sub = p.sub ∧ q.item < (path p.sub).len ∧ (q.t = 0 ∨ q.t = 1) ∧ Near path e p q ∧
        ((path p.sub).closed = false → p.t ≤ 1 → lt q p = false))) := by
  obtain ⟨b, hb⟩ := isEnd_some path p e
  unfold larger
  rw [hb]
  cases b with
  | false => exact ⟨p, rfl, Or.inl rfl⟩
  | true =>
    obtain ⟨q, hq, rfl | ⟨hm, he⟩⟩ := other_result path p e _ (after_param (path p.sub) p.item)
    · exact ⟨_, hq, Or.inl rfl⟩
    · refine ⟨q, hq, Or.inr ?_⟩
      obtain ⟨a, b, c, _⟩ := make_item hm
      refine ⟨a, by rw [b]; exact after_lt _ _ hi, by rw [c]; exact after_param _ _, ((equiv_near path e p q).1 he).2, ?_⟩
      intro o nn
      unfold after at b c
      rw [o, if_neg (by simp)] at b c
      unfold lt
      rw [decide_eq_false_iff_not, a, b, c]
      by_cases z : (path p.sub).len ≤ p.item + 1
      · rw [if_pos z]
        rintro (d | ⟨_, d | ⟨_, d⟩⟩)
        · omega
        · dsimp only at d; omega
        · exact absurd d (not_lt.2 nn)
      · rw [if_neg z]
        rintro (d | ⟨_, d | ⟨d, _⟩⟩)
        · omega
        · dsimp only at d; omega
        · dsimp only at d; omega

/-- The item before in the sense of the drawing: the one before in the list, or the last one of a closed sub-path. -/
def Follows (s : Sub K) (i j : ℕ) : Prop := i < s.len ∧ (j = i + 1 ∧ j < s.len ∨ s.closed = true ∧ i + 1 = s.len ∧ j = 0)

theorem before_follows (s : Sub K) (i j : ℕ) (h : Follows s i j) : before s j = (i, 1) := by
  obtain ⟨hi, ⟨rfl, h⟩ | ⟨c, h, rfl⟩⟩ := h
  · unfold before
    by_cases c : s.closed = true
    · rw [if_pos c]
      have : (((i + 1 : ℕ) : ℤ) - 1) % s.len = i := by
        rw [show (((i + 1 : ℕ) : ℤ) - 1) = i by push_cast; ring]
        exact Int.emod_eq_of_lt (by omega) (by omega)
      rw [this]; rfl
    · rw [if_neg c, if_neg (by omega)]; rfl
  · unfold before
    rw [if_pos c]
    have : (((0 : ℕ) : ℤ) - 1) % s.len = i := by
      rw [show (((0 : ℕ) : ℤ) - 1) = (i : ℤ) + s.len * (-1) by rw [← h]; push_cast; ring, Int.add_mul_emod_self_left]
      exact Int.emod_eq_of_lt (by omega) (by omega)
    rw [this]; rfl

theorem after_follows (s : Sub K) (i j : ℕ) (h : Follows s i j) : after s i = (j, 0) := by
  obtain ⟨hi, ⟨rfl, h⟩ | ⟨c, h, rfl⟩⟩ := h
  · unfold after
    by_cases c : s.closed = true
    · rw [if_pos c, Nat.mod_eq_of_lt h]
    · rw [if_neg c, if_neg (by omega)]
  · unfold after
    rw [if_pos c, h, Nat.mod_self]

theorem follows_lt (s : Sub K) (i j : ℕ) (h : Follows s i j) : j < s.len := by
  obtain ⟨hi, ⟨rfl, h⟩ | ⟨c, h, rfl⟩⟩ := h <;> omega

/-- C168: between two items, `smaller_equiv` changes from the begin of the second to the end of the first one, and `larger_equiv` changes back, provided the last bit of the first item is shorter than epsilon. -/
theorem between (path : ℕ → Sub K) (s i j : ℕ) (e : Option K) (h : Follows (path s) i j) (he : 0 < e.getD (path s).eps)
    (short : (((path s).item i (1 - 1 / 100000000)).1 - ((path s).item j 0).1) ^ 2
      + (((path s).item i (1 - 1 / 100000000)).2 - ((path s).item j 0).2) ^ 2 < (e.getD (path s).eps) ^ 2) :
    ∃ p q, make s i 1 = some p ∧ make s j 0 = some q ∧ smaller path q e = some p ∧ larger path p e = some q := by
  refine ⟨_, _, make_end s i, make_zero s j, ?_, ?_⟩
  · have hb : isBeg path ⟨s, j, 0, j + 0, false, false⟩ e = some true := by
      unfold isBeg
      rw [make_zero]
      simp only [Bool.false_eq_true, if_false, Option.map_some, Option.some.injEq]
      rw [equiv_near]
      refine ⟨rfl, he, ?_⟩
      simp only [sub_self]
      have := pow_pos he 2
      linarith
    unfold smaller
    rw [hb]
    change other path _ e (before (path s) j) = _
    rw [before_follows _ i j h]
    unfold other
    change Option.map _ (make s i 1) = _
    rw [make_end]
    have : equiv path ⟨s, j, 0, j + 0, false, false⟩ ⟨s, i, 1, (i + 1) - rounding, false, true⟩ e = true := by
      rw [equiv_near]
      refine ⟨rfl, he, ?_⟩
      rw [at_inside (path s) s j 0 _ (make_zero s j) (follows_lt _ i j h) (le_refl _) one_pos, at_end (path s) s i _ (make_end s i) h.1]
      refine lt_of_eq_of_lt ?_ short
      ring
    simp only [Option.map_some, this, if_true]
  · have hb : isEnd path ⟨s, i, 1, (i + 1) - rounding, false, true⟩ e = some true := rfl
    unfold larger
    rw [hb]
    change other path _ e (after (path s) i) = _
    rw [after_follows _ i j h]
    unfold other
    change Option.map _ (make s j 0) = _
    rw [make_zero]
    have : equiv path ⟨s, i, 1, (i + 1) - rounding, false, true⟩ ⟨s, j, 0, j + 0, false, false⟩ e = true := by
      rw [equiv_near]
      refine ⟨rfl, he, ?_⟩
      rw [at_inside (path s) s j 0 _ (make_zero s j) (follows_lt _ i j h) (le_refl _) one_pos, at_end (path s) s i _ (make_end s i) h.1]
      exact short
    simp only [Option.map_some, this, if_true]

/-- C168, what does not hold: when the last bit of the first item is not shorter than epsilon, both functions give the parameter given. -/
theorem long_item (path : ℕ → Sub K) (s i j : ℕ) (e : Option K) (h : Follows (path s) i j) (he : 0 < e.getD (path s).eps)
    (long : (e.getD (path s).eps) ^ 2 ≤ (((path s).item i (1 - 1 / 100000000)).1 - ((path s).item j 0).1) ^ 2
      + (((path s).item i (1 - 1 / 100000000)).2 - ((path s).item j 0).2) ^ 2) :
    ∃ p q, make s i 1 = some p ∧ make s j 0 = some q ∧ smaller path q e = some q ∧ larger path p e = some p := by
  refine ⟨_, _, make_end s i, make_zero s j, ?_, ?_⟩
  · have hb : isBeg path ⟨s, j, 0, j + 0, false, false⟩ e = some true := by
      unfold isBeg
      rw [make_zero]
      simp only [Bool.false_eq_true, if_false, Option.map_some, Option.some.injEq]
      rw [equiv_near]
      refine ⟨rfl, he, ?_⟩
      simp only [sub_self]
      have := pow_pos he 2
      linarith
    unfold smaller
    rw [hb]
    change other path _ e (before (path s) j) = _
    rw [before_follows _ i j h]
    unfold other
    change Option.map _ (make s i 1) = _
    rw [make_end]
    have : equiv path ⟨s, j, 0, j + 0, false, false⟩ ⟨s, i, 1, (i + 1) - rounding, false, true⟩ e = false := by
      rw [← Bool.not_eq_true, equiv_near]
      rintro ⟨_, _, n⟩
      rw [at_inside (path s) s j 0 _ (make_zero s j) (follows_lt _ i j h) (le_refl _) one_pos, at_end (path s) s i _ (make_end s i) h.1] at n
      refine absurd n (not_lt.2 (le_trans long (le_of_eq ?_)))
      ring
    simp only [Option.map_some, this, if_false, Bool.false_eq_true]
  · have hb : isEnd path ⟨s, i, 1, (i + 1) - rounding, false, true⟩ e = some true := rfl
    unfold larger
    rw [hb]
    change other path _ e (after (path s) i) = _
    rw [after_follows _ i j h]
    unfold other
    change Option.map _ (make s j 0) = _
    rw [make_zero]
    have : equiv path ⟨s, i, 1, (i + 1) - rounding, false, true⟩ ⟨s, j, 0, j + 0, false, false⟩ e = false := by
      rw [← Bool.not_eq_true, equiv_near]
      rintro ⟨_, _, n⟩
      rw [at_inside (path s) s j 0 _ (make_zero s j) (follows_lt _ i j h) (le_refl _) one_pos, at_end (path s) s i _ (make_end s i) h.1] at n
      exact absurd n (not_lt.2 long)
    simp only [Option.map_some, this, if_false, Bool.false_eq_true]

/-! ## The pairs of items which are intersected -/

/-- The items of the inner loop (`deformer.py:1525-1528`). -/
def inner (lens : ℕ → ℕ) (i j a : ℕ) : List ℕ :=
  if j = i then (List.range (lens j)).drop (a + 1) else List.range (lens j)

/-- The pairs of items for which `normpath_selfintersections` looks for crossings (`deformer.py:1520-1530`), in this order; `lens` are the numbers of items of the `n` sub-paths. -/
def pairs (n : ℕ) (lens : ℕ → ℕ) : List ((ℕ × ℕ) × (ℕ × ℕ)) :=
  (List.range n).flatMap fun i => ((List.range n).drop i).flatMap fun j =>
    (List.range (lens i)).flatMap fun a => (inner lens i j a).map fun b => ((i, a), (j, b))

/-- The pairs of `normpath_origintersections` (`deformer.py:1574-1578`). -/
def origPairs (n m : ℕ) (olens plens : ℕ → ℕ) : List ((ℕ × ℕ) × (ℕ × ℕ)) :=
  (List.range n).flatMap fun i => (List.range m).flatMap fun j =>
    (List.range (olens i)).flatMap fun a => (List.range (plens j)).map fun b => ((i, a), (j, b))

theorem mem_drop_range (n k x : ℕ) : x ∈ (List.range n).drop k ↔ k ≤ x ∧ x < n := by
  rw [List.mem_drop_iff_getElem]
  constructor
  · rintro ⟨i, h, rfl⟩
    simp at h ⊢
    omega
  · rintro ⟨a, b⟩
    exact ⟨x - k, by simp; omega, by simp; omega⟩

/-- C168: the items `(i, a)` and `(j, b)` of a path are compared if and only if the first one is before the second one … -/
theorem pairs_mem (n : ℕ) (lens : ℕ → ℕ) (i a j b : ℕ) :
    ((i, a), (j, b)) ∈ pairs n lens ↔ (i < n ∧ a < lens i) ∧ (j < n ∧ b < lens j) ∧ (i < j ∨ (i = j ∧ a < b)) := by
  unfold pairs
  simp only [List.mem_flatMap, List.mem_range, List.mem_map, Prod.mk.injEq, mem_drop_range]
  constructor
  · rintro ⟨i', hi, j', hj, a', ha, b', hb, ⟨rfl, rfl⟩, rfl, rfl⟩
    unfold inner at hb
    by_cases c : j' = i'
    · rw [if_pos c, mem_drop_range] at hb
      exact ⟨⟨hi, ha⟩, ⟨hj.2, hb.2⟩, Or.inr ⟨c.symm, by omega⟩⟩
    · rw [if_neg c, List.mem_range] at hb
      exact ⟨⟨hi, ha⟩, ⟨hj.2, hb⟩, Or.inl (by omega)⟩
  · rintro ⟨⟨hi, ha⟩, ⟨hj, hb⟩, h⟩
    refine ⟨i, hi, j, ⟨by omega, hj⟩, a, ha, b, ?_, ⟨rfl, rfl⟩, rfl, rfl⟩
    unfold inner
    by_cases c : j = i
    · rw [if_pos c, mem_drop_range]; omega
    · rw [if_neg c, List.mem_range]; exact hb

/-- … and then only once. -/
theorem pairs_nodup (n : ℕ) (lens : ℕ → ℕ) : (pairs n lens).Nodup := by
  unfold pairs
  rw [List.nodup_flatMap]
  refine ⟨fun i _ => ?_, ?_⟩
  · rw [List.nodup_flatMap]
    refine ⟨fun j _ => ?_, ?_⟩
    · rw [List.nodup_flatMap]
      refine ⟨fun a _ => ?_, ?_⟩
      · refine List.Nodup.map (fun x y h => by simpa using h) ?_
        unfold inner
        by_cases c : j = i
        · rw [if_pos c]; exact List.nodup_range.sublist (List.drop_sublist _ _)
        · rw [if_neg c]; exact List.nodup_range
      · refine List.Pairwise.imp ?_ List.nodup_range
        intro a a' h
        simp only [Function.onFun, List.disjoint_left, List.mem_map]
        rintro _ ⟨b, _, rfl⟩ ⟨b', _, h'⟩
        simp at h'
        exact h h'.1.symm
    · refine List.Pairwise.imp ?_ ((List.nodup_range (n := n)).sublist (List.drop_sublist i _))
      intro j j' h
      simp only [Function.onFun, List.disjoint_left, List.mem_flatMap, List.mem_map]
      rintro _ ⟨a, _, b, _, rfl⟩ ⟨a', _, b', _, h'⟩
      simp at h'
      exact h h'.2.1.symm
  · refine List.Pairwise.imp ?_ List.nodup_range
    intro i i' h
    simp only [Function.onFun, List.disjoint_left, List.mem_flatMap, List.mem_map]
    rintro _ ⟨j, _, a, _, b, _, rfl⟩ ⟨j', _, a', _, b', _, h'⟩
    simp at h'
    exact h h'.1.1.symm

/-- C168: any two different items are compared exactly once, in one of the two orders. -/
theorem pairs_once (n : ℕ) (lens : ℕ → ℕ) (x y : ℕ × ℕ) (hx : x.1 < n ∧ x.2 < lens x.1) (hy : y.1 < n ∧ y.2 < lens y.1) (h : x ≠ y) :
    (pairs n lens).count (x, y) + (pairs n lens).count (y, x) = 1 := by
  obtain ⟨i, a⟩ := x
  obtain ⟨j, b⟩ := y
  rw [(pairs_nodup n lens).count, (pairs_nodup n lens).count]
  have ne : ¬ (i = j ∧ a = b) := fun ⟨u, v⟩ => h (by rw [u, v])
  dsimp only at hx hy
  by_cases c : i < j ∨ (i = j ∧ a < b)
  · rw [if_pos ((pairs_mem ..).2 ⟨hx, hy, c⟩), if_neg (fun m => by have := ((pairs_mem ..).1 m).2.2; omega)]
  · rw [if_neg (fun m => c ((pairs_mem ..).1 m).2.2), if_pos ((pairs_mem ..).2 ⟨hy, hx, by omega⟩)]

theorem origPairs_mem (n m : ℕ) (olens plens : ℕ → ℕ) (i a j b : ℕ) :
    ((i, a), (j, b)) ∈ origPairs n m olens plens ↔ (i < n ∧ a < olens i) ∧ (j < m ∧ b < plens j) := by
  unfold origPairs
  simp only [List.mem_flatMap, List.mem_range, List.mem_map, Prod.mk.injEq]
  constructor
  · rintro ⟨i', hi, j', hj, a', ha, b', hb, ⟨rfl, rfl⟩, rfl, rfl⟩
    exact ⟨⟨hi, ha⟩, hj, hb⟩
  · rintro ⟨⟨hi, ha⟩, hj, hb⟩
    exact ⟨i, hi, j, hj, a, ha, b, hb, ⟨rfl, rfl⟩, rfl, rfl⟩

/-! ## Examples -/

/-- A closed triangle of lines with a hypotenuse of length `5`. -/
def triangle : Sub ℚ :=
  ⟨true, 3, fun i t => if i = 0 then (3 * t, 0) else if i = 1 then (3, 4 * t) else (3 - 3 * t, 4 - 4 * t), 1 / 100000⟩

/-- Two lines at a right angle of a length of 2000 points (about 70 cm), with PyX's default epsilon. -/
def huge : Sub ℚ := ⟨false, 2, fun i t => if i = 0 then (2000 * t, 0) else (2000, 2000 * t), 1 / 100000⟩

example : ∃ p q : P ℚ, make 0 2 1 = some p ∧ make 0 0 0 = some q ∧ smaller (fun _ => triangle) q none = some p ∧ larger (fun _ => triangle) p none = some q :=
  between (fun _ => triangle) 0 2 0 none ⟨by decide, Or.inr ⟨rfl, rfl, rfl⟩⟩ (by norm_num [triangle]) (by norm_num [triangle])

example : ∃ p q : P ℚ, make 0 0 1 = some p ∧ make 0 1 0 = some q ∧ smaller (fun _ => huge) q none = some q ∧ larger (fun _ => huge) p none = some p :=
  long_item (fun _ => huge) 0 0 1 none ⟨by decide, Or.inl ⟨rfl, by decide⟩⟩ (by norm_num [huge]) (by norm_num [huge])

example : pairs 2 (fun i => if i = 0 then 2 else 1) = [((0, 0), (0, 1)), ((0, 0), (1, 0)), ((0, 1), (1, 0))] := by decide

example : make 0 1 (-1 / 10 : ℚ) = some ⟨0, 1, -1 / 10, 1 + 1 / 100000000, true, false⟩ := by decide +kernel

/-- Before the first item nothing is rounded: `int` rounds to zero. -/
example : make 0 0 (-1 / 10 : ℚ) = some ⟨0, 0, -1 / 10, -1 / 10, false, false⟩ := by decide +kernel

example : make 0 1 (5 / 2 : ℚ) = none := by decide +kernel

end PyX.Deform.Param
