import Verif.Style.Points
import Mathlib.Tactic.LinearCombination
import Mathlib.Tactic.Linarith
import Mathlib.Tactic.FieldSimp
import Mathlib.Tactic.NormNum
import Mathlib.Tactic.Positivity

/-!
# C134: properties
-/

set_option linter.unusedSectionVars false

namespace PyX.Points

open PyX.Style

section
variable {K : Type} [Field K] [LinearOrder K] [IsStrictOrderedRing K] {n : ℕ}

/-! ## Specification -/

/-- A position is within the graph, up to `eps`. -/
def InGraph (eps : K) (u : VPos K n) : Prop := ∀ i, -eps ≤ u i ∧ u i ≤ 1 + eps

/-- The area of a polygon (shoelace formula), twice. -/
def shoelace : List (K × K) → K
  | [] => 0
  | p :: l => (((p :: l).zip (l ++ [p])).map fun q => q.1.1 * q.2.2 - q.2.1 * q.1.2).sum

/-- The corners of a shape. -/
def vertices : Shape K → List (K × K)
  | .lines l => l.flatMap fun p => [p.1, p.2]
  | .polygon l => l
  | .circle _ _ => []

theorem inside_iff (eps : K) (v : Fin n → Option K) (u : VPos K n) : inside eps v = some u ↔ (∀ i, v i = some (u i)) ∧ InGraph eps u := by
  unfold inside
  constructor
  · intro h
    split at h
    · rename_i hc
      obtain rfl := Option.some.inj h
      obtain ⟨h1, h2⟩ := hc
      refine ⟨fun i => ?_, ?_⟩
      · have := h1 i
        cases e : v i with
        | none => simp [e] at this
        | some a => simp [e]
      · intro i
        unfold valid at h2
        rw [List.all_eq_true] at h2
        have := h2 i (List.mem_finRange i)
        simp at this
        exact ⟨this.1, this.2⟩
    · simp at h
  · rintro ⟨h1, h2⟩
    have e : (fun i => (v i).getD 0) = u := by funext i; simp [h1 i]
    rw [e, if_pos]
    refine ⟨fun i => by simp [h1 i], ?_⟩
    unfold valid
    rw [List.all_eq_true]
    intro i _
    have := h2 i
    simp [this.1, this.2]

/-! ## Symbols -/

/-- **C134**: there is one symbol for each point whose position is known and within the graph, at this position, in the order of the points; points outside have none. -/
theorem symbols_spec (f : VPos K n → K × K) (eps : K) (s : Sym) (size : K) : ∀ pts : List (Fin n → Option K),
    symbols f eps s size true pts = (pts.filterMap (inside eps)).map fun u => symbol s (f u).1 (f u).2 size
  | [] => rfl
  | v :: l => by
    have ih := symbols_spec f eps s size l
    unfold symbols at ih ⊢
    rw [List.flatMap_cons, ih]
    cases e : inside eps v with
    | none => simp [List.filterMap_cons, e]
    | some u => simp [List.filterMap_cons, e]

/-- **C134**: every symbol is around its point: the mean of its corners is the point (up to 10⁻⁹ of the size), and it is within the distance `size` of it. -/
theorem symbol_centred (s : Sym) (hs : s ≠ .circle) (x y size : K) (h : 0 ≤ size) :
    let l := vertices (symbol s x y size)
    l ≠ [] ∧ (l.map (·.1)).sum = l.length * x ∧ |(l.map (·.2)).sum - l.length * y| ≤ size / 1000000000 ∧
    ∀ p ∈ l, (p.1 - x) ^ 2 + (p.2 - y) ^ 2 ≤ size ^ 2 := by
  have hq : 0 ≤ size ^ 2 := sq_nonneg size
  cases s with
  | circle => exact absurd rfl hs
  | cross =>
    refine ⟨by simp [symbol, vertices], ?_, ?_, ?_⟩
    · simp [symbol, vertices]; ring
    · have e : ((vertices (symbol .cross x y size)).map (·.2)).sum - (vertices (symbol .cross x y size)).length * y = 0 := by
        simp [symbol, vertices]; ring
      rw [e, abs_zero]; positivity
    · intro p hp
      simp only [symbol, vertices, List.flatMap_cons, List.flatMap_nil, List.append_nil, List.cons_append, List.nil_append, List.mem_cons, List.not_mem_nil, or_false] at hp
      rcases hp with rfl | rfl | rfl | rfl <;> nlinarith
  | plus =>
    refine ⟨by simp [symbol, vertices], ?_, ?_, ?_⟩
    · simp [symbol, vertices]; ring
    · have e : ((vertices (symbol .plus x y size)).map (·.2)).sum - (vertices (symbol .plus x y size)).length * y = 0 := by
        simp [symbol, vertices]; ring
      rw [e, abs_zero]; positivity
    · intro p hp
      simp only [symbol, vertices, List.flatMap_cons, List.flatMap_nil, List.append_nil, List.cons_append, List.nil_append, List.mem_cons, List.not_mem_nil, or_false] at hp
      rcases hp with rfl | rfl | rfl | rfl <;> nlinarith
  | square =>
    refine ⟨by simp [symbol, vertices], ?_, ?_, ?_⟩
    · simp [symbol, vertices]; ring
    · have e : ((vertices (symbol .square x y size)).map (·.2)).sum - (vertices (symbol .square x y size)).length * y = 0 := by
        simp [symbol, vertices]; ring
      rw [e, abs_zero]; positivity
    · intro p hp
      simp only [symbol, vertices, List.mem_cons, List.not_mem_nil, or_false] at hp
      rcases hp with rfl | rfl | rfl | rfl <;> nlinarith
  | triangle =>
    refine ⟨by simp [symbol, vertices], ?_, ?_, ?_⟩
    · simp [symbol, vertices]; ring
    · have e : ((vertices (symbol .triangle x y size)).map (·.2)).sum - (vertices (symbol .triangle x y size)).length * y = size / 1000000000 := by
        simp [symbol, vertices]; ring
      rw [e, abs_of_nonneg (by positivity)]
    · intro p hp
      simp only [symbol, vertices, List.mem_cons, List.not_mem_nil, or_false] at hp
      rcases hp with rfl | rfl | rfl <;> nlinarith
  | diamond =>
    refine ⟨by simp [symbol, vertices], ?_, ?_, ?_⟩
    · simp [symbol, vertices]; ring
    · have e : ((vertices (symbol .diamond x y size)).map (·.2)).sum - (vertices (symbol .diamond x y size)).length * y = 0 := by
        simp [symbol, vertices]; ring
      rw [e, abs_zero]; positivity
    · intro p hp
      simp only [symbol, vertices, List.mem_cons, List.not_mem_nil, or_false] at hp
      rcases hp with rfl | rfl | rfl | rfl <;> nlinarith

/-- **C134**: squares, triangles and diamonds have the same area `size²`, up to two parts in 10⁹, with positive orientation. -/
theorem polygon_area (s : Sym) (l : List (K × K)) (x y size : K) (h : symbol s x y size = .polygon l) :
    |shoelace l / 2 - size ^ 2| ≤ size ^ 2 * (2 / 1000000000) := by
  have hq : 0 ≤ size ^ 2 := sq_nonneg size
  cases s <;> simp only [symbol, reduceCtorEq, Shape.polygon.injEq] at h
  · subst h
    have e : shoelace [(x - 1 / 2 * size, y - 1 / 2 * size), (x + 1 / 2 * size, y - 1 / 2 * size),
      (x + 1 / 2 * size, y + 1 / 2 * size), (x - 1 / 2 * size, y + 1 / 2 * size)] / 2 - size ^ 2 = 0 := by
      simp [shoelace]; ring
    rw [e, abs_zero]; positivity
  · subst h
    have e : shoelace [(x - 759835685 / 1000000000 * size, y - 438691337 / 1000000000 * size),
      (x + 759835685 / 1000000000 * size, y - 438691337 / 1000000000 * size), (x, y + 877382675 / 1000000000 * size)] / 2 - size ^ 2 =
      (759835685 * 1316074012 / 1000000000000000000 - 1) * size ^ 2 := by
      simp [shoelace]; ring
    rw [e, abs_le]
    constructor <;> nlinarith
  · subst h
    have e : shoelace [(x - 537284965 / 1000000000 * size, y), (x, y - 930604859 / 1000000000 * size),
      (x + 537284965 / 1000000000 * size, y), (x, y + 930604859 / 1000000000 * size)] / 2 - size ^ 2 =
      (2 * 537284965 * 930604859 / 1000000000000000000 - 1) * size ^ 2 := by
      simp [shoelace]; ring
    rw [e, abs_le]
    constructor <;> nlinarith

/-- **C134**: the lines of crosses and plus signs are equally long (their squares are `2 size²`, up to two parts in 10⁹). -/
theorem lines_length (s : Sym) (l : List ((K × K) × (K × K))) (x y size : K) (h : symbol s x y size = .lines l) :
    l.length = 2 ∧ ∀ p ∈ l, |((p.2.1 - p.1.1) ^ 2 + (p.2.2 - p.1.2) ^ 2) - 2 * size ^ 2| ≤ size ^ 2 * (2 / 1000000000) ∧
      (p.1.1 + p.2.1) / 2 = x ∧ (p.1.2 + p.2.2) / 2 = y := by
  have hq : 0 ≤ size ^ 2 := sq_nonneg size
  cases s <;> simp only [symbol, reduceCtorEq, Shape.lines.injEq] at h
  · subst h
    refine ⟨rfl, ?_⟩
    intro p hp
    simp only [List.mem_cons, List.not_mem_nil, or_false] at hp
    rcases hp with rfl | rfl
    all_goals
      refine ⟨?_, by simp only; ring, by simp only; ring⟩
      rw [abs_le]
      constructor <;> simp only <;> nlinarith
  · subst h
    refine ⟨rfl, ?_⟩
    intro p hp
    simp only [List.mem_cons, List.not_mem_nil, or_false] at hp
    rcases hp with rfl | rfl
    all_goals
      refine ⟨?_, by simp only; ring, by simp only; ring⟩
      rw [abs_le]
      constructor <;> simp only <;> nlinarith

end

/-- **C134**: circles have the same area as the polygons. -/
theorem circle_area (s : Sym) (c : ℝ × ℝ) (r x y size : ℝ) (h : symbol s x y size = .circle c r) :
    c = (x, y) ∧ |Real.pi * r ^ 2 - size ^ 2| ≤ size ^ 2 * (2 / 1000000000) := by
  have hq : 0 ≤ size ^ 2 := sq_nonneg size
  cases s <;> simp only [symbol, reduceCtorEq, Shape.circle.injEq] at h
  obtain ⟨h1, rfl⟩ := h
  refine ⟨h1.symm, ?_⟩
  have e : Real.pi * (564189583 / 1000000000 * size) ^ 2 - size ^ 2 = (Real.pi * (564189583 / 1000000000) ^ 2 - 1) * size ^ 2 := by ring
  have p1 := Real.pi_gt_d20
  have p2 := Real.pi_lt_d20
  have b1 : -(2 / 1000000000) ≤ Real.pi * (564189583 / 1000000000) ^ 2 - 1 := by nlinarith
  have b2 : Real.pi * (564189583 / 1000000000) ^ 2 - 1 ≤ 2 / 1000000000 := by nlinarith
  rw [e, abs_le]
  constructor <;> nlinarith

section
variable {K : Type} [Field K] [LinearOrder K] [IsStrictOrderedRing K] {n : ℕ}

/-! ## Impulses -/

theorem base_range (c : Option K) : 0 ≤ base c ∧ base c ≤ 1 := by
  cases c with
  | none => exact ⟨le_refl _, zero_le_one⟩
  | some c =>
    unfold base
    by_cases h : c < 0
    · have h1 : ¬ (1 : K) < 0 := not_lt.mpr zero_le_one
      simp [h, h1]
    · simp only [h, if_false]
      by_cases h' : 1 < c
      · simp [h', zero_le_one]
      · simp only [h', if_false]; exact ⟨not_lt.mp h, not_lt.mp h'⟩

/-- **C134**: the impulse of a point within the graph ends at the point and differs from it only in the direction of the value; it starts at the value asked for if this is in the graph, and all of it is within the graph. -/
theorem impulse_spec (eps : K) (he : 0 ≤ eps) (frm : Option K) (i : Fin n) (v : Fin n → Option K) (r : VPos K n × VPos K n) (h : impulse eps frm i v = some r) :
    (∀ j, v j = some (r.2 j)) ∧ (∀ j, j ≠ i → r.1 j = r.2 j) ∧ r.1 i = base frm ∧
    (∀ c, frm = some c → 0 ≤ c → c ≤ 1 → r.1 i = c) ∧ ∀ t, 0 ≤ t → t ≤ 1 → InGraph eps (between r.1 r.2 t) := by
  unfold impulse at h
  cases e : inside eps v with
  | none => simp [e] at h
  | some u =>
    simp only [e, Option.map_some, Option.some.injEq] at h
    subst h
    obtain ⟨h1, h2⟩ := (inside_iff eps v u).mp e
    refine ⟨h1, fun j hj => by simp [Function.update_of_ne hj], by simp, ?_, ?_⟩
    · rintro c rfl h0 hc
      simp [base, not_lt.mpr h0, not_lt.mpr hc]
    · intro t ht0 ht1 j
      obtain ⟨a, b⟩ := h2 j
      simp only [between]
      by_cases hj : j = i
      · subst hj
        obtain ⟨c, d⟩ := base_range frm
        simp only [Function.update_self]
        have e2 : base frm + (u j - base frm) * t = (1 - t) * base frm + t * u j := by ring
        rw [e2]
        constructor
        · nlinarith [mul_nonneg (sub_nonneg.mpr ht1) c, mul_nonneg ht0 (sub_nonneg.mpr a)]
        · nlinarith [mul_nonneg (sub_nonneg.mpr ht1) (sub_nonneg.mpr d), mul_nonneg ht0 (sub_nonneg.mpr b)]
      · simp only [Function.update_of_ne hj, sub_self, zero_mul, add_zero]
        exact ⟨a, b⟩

/-- **C134**: what is drawn is the part of the impulse (from the value to the point) which is within the graph, if the point is. -/
theorem impulse_part (c v x : K) (hv0 : 0 ≤ v) (hv1 : v ≤ 1) :
    (min (base (some c)) v ≤ x ∧ x ≤ max (base (some c)) v) ↔ ((min c v ≤ x ∧ x ≤ max c v) ∧ 0 ≤ x ∧ x ≤ 1) := by
  unfold base
  by_cases h : c < 0
  · have h1 : ¬ (1 : K) < 0 := not_lt.mpr zero_le_one
    simp only [h, if_true, h1, if_false]
    rw [min_eq_left hv0, max_eq_right hv0, min_eq_left (le_trans h.le hv0), max_eq_right (le_trans h.le hv0)]
    constructor
    · rintro ⟨a, b⟩; exact ⟨⟨le_trans h.le a, b⟩, a, le_trans b hv1⟩
    · rintro ⟨⟨a, b⟩, a', b'⟩; exact ⟨a', b⟩
  · simp only [h, if_false]
    by_cases h' : 1 < c
    · simp only [h', if_true]
      rw [min_eq_right hv1, max_eq_left hv1, min_eq_right (le_trans hv1 h'.le), max_eq_left (le_trans hv1 h'.le)]
      constructor
      · rintro ⟨a, b⟩; exact ⟨⟨a, le_trans b h'.le⟩, le_trans hv0 a, b⟩
      · rintro ⟨⟨a, b⟩, a', b'⟩; exact ⟨a, b'⟩
    · simp only [h', if_false]
      constructor
      · rintro ⟨a, b⟩
        exact ⟨⟨a, b⟩, le_trans (le_min (not_lt.mp h) hv0) a, le_trans b (max_le (not_lt.mp h') hv1)⟩
      · rintro ⟨a, -⟩; exact a

/-- **C134**: a point outside the graph has no impulse, although a part of it is within the graph (bars are cut there). -/
theorem impulse_lost : ∃ (v : Fin 2 → Option ℚ) (t : ℚ), v = some ∘ ![1 / 2, 3 / 2] ∧ 0 ≤ t ∧ t ≤ 1 ∧
    InGraph 0 (between ![1 / 2, 0] ![1 / 2, 3 / 2] t) ∧ impulse (1 / 10000000000) (some 0) 1 v = none := by
  refine ⟨some ∘ ![1 / 2, 3 / 2], 1 / 3, rfl, by norm_num, by norm_num, ?_, ?_⟩
  · intro i
    fin_cases i <;> simp [between] <;> norm_num
  · unfold impulse
    cases e : inside (1 / 10000000000 : ℚ) (some ∘ ![1 / 2, 3 / 2] : Fin 2 → Option ℚ) with
    | none => rfl
    | some u =>
      obtain ⟨h1, h2⟩ := (inside_iff _ _ u).mp e
      have h3 := h1 1
      simp at h3
      have := (h2 1).2
      rw [← h3] at this
      norm_num at this

/-! ## Texts -/

/-- **C134**: texts are at the position of their point moved by the offsets; points outside the graph have no text. -/
theorem text_spec (f : VPos K n → K × K) (eps dx dy : K) (v : Fin n → Option K) (p : K × K) :
    textAt f eps dx dy v = some p ↔ ∃ u : VPos K n, (∀ i, v i = some (u i)) ∧ InGraph eps u ∧ p = ((f u).1 + dx, (f u).2 + dy) := by
  unfold textAt
  rw [Option.map_eq_some_iff]
  constructor
  · rintro ⟨u, h, rfl⟩
    obtain ⟨h1, h2⟩ := (inside_iff _ _ u).mp h
    exact ⟨u, h1, h2, rfl⟩
  · rintro ⟨u, h1, h2, rfl⟩
    exact ⟨u, (inside_iff _ _ u).mpr ⟨h1, h2⟩, rfl⟩

/-! ## Rectangles -/

/-- A point is in a polygon which is the rectangle of two corners. -/
def InRect (c : List (K × K)) (p : K × K) : Prop :=
  ∃ a b : K × K, c = [a, (b.1, a.2), b, (a.1, b.2)] ∧ a.1 ≤ p.1 ∧ p.1 ≤ b.1 ∧ a.2 ≤ p.2 ∧ p.2 ≤ b.2

/-- The full claim: a rectangle shows the part of its ranges which is within the graph, and is left out exactly if there is no such part (of positive area). -/
def RectClaim (xlo xhi ylo yhi : K) : Prop :=
  (∀ c, rect (some xlo) (some xhi) (some ylo) (some yhi) = some c → ∀ p, InRect c p ↔ (xlo ≤ p.1 ∧ p.1 ≤ xhi ∧ ylo ≤ p.2 ∧ p.2 ≤ yhi) ∧ (0 ≤ p.1 ∧ p.1 ≤ 1 ∧ 0 ≤ p.2 ∧ p.2 ≤ 1)) ∧
  (rect (some xlo) (some xhi) (some ylo) (some yhi) = none ↔ ¬ ((max xlo 0 < min xhi 1) ∧ (max ylo 0 < min yhi 1)))

theorem cutRange_spec (lo hi p : K) (h : ¬ (lo < 0 ∧ 1 < hi)) :
    ((cutRange (lo, hi)).1 ≤ p ∧ p ≤ (cutRange (lo, hi)).2) ↔ ((lo ≤ p ∧ p ≤ hi) ∧ 0 ≤ p ∧ p ≤ 1) := by
  unfold cutRange
  by_cases h0 : lo < 0
  · have h1 : hi ≤ 1 := not_lt.mp fun h1 => h ⟨h0, h1⟩
    simp only [h0, if_true]
    constructor
    · rintro ⟨a, b⟩; exact ⟨⟨le_trans h0.le a, b⟩, a, le_trans b h1⟩
    · rintro ⟨⟨a, b⟩, c, d⟩; exact ⟨c, b⟩
  · simp only [h0, if_false]
    by_cases h1 : 1 < hi
    · simp only [h1, if_true]
      constructor
      · rintro ⟨a, b⟩; exact ⟨⟨a, le_trans b h1.le⟩, le_trans (not_lt.mp h0) a, b⟩
      · rintro ⟨⟨a, b⟩, c, d⟩; exact ⟨a, d⟩
    · simp only [h1, if_false]
      constructor
      · rintro ⟨a, b⟩; exact ⟨⟨a, b⟩, le_trans (not_lt.mp h0) a, le_trans b (not_lt.mp h1)⟩
      · rintro ⟨a, -⟩; exact a

theorem rangeOn_spec (lo hi : K) : rangeOn (some lo) (some hi) = if lo < 1 ∧ 0 < hi then some (lo, hi) else none := rfl

theorem on_iff (lo hi : K) (hle : lo < hi) : (lo < 1 ∧ 0 < hi) ↔ max lo 0 < min hi 1 := by
  rw [max_lt_iff, lt_min_iff, lt_min_iff]
  constructor
  · rintro ⟨a, b⟩; exact ⟨⟨hle, a⟩, b, zero_lt_one⟩
  · rintro ⟨⟨-, a⟩, b, -⟩; exact ⟨a, b⟩

/-- **C134** (partial): the claim holds for ranges from lower to higher positions which do not exceed the graph on both sides. -/
theorem rect_partial (xlo xhi ylo yhi : K) (hx : xlo < xhi) (hy : ylo < yhi) (ex : ¬ (xlo < 0 ∧ 1 < xhi)) (ey : ¬ (ylo < 0 ∧ 1 < yhi)) :
    RectClaim xlo xhi ylo yhi := by
  constructor
  · intro c h p
    unfold rect at h
    rw [rangeOn_spec, rangeOn_spec] at h
    by_cases ox : xlo < 1 ∧ 0 < xhi
    · by_cases oy : ylo < 1 ∧ 0 < yhi
      · rw [if_pos ox, if_pos oy] at h
        simp only [Option.some.injEq] at h
        subst h
        have e : InRect [((cutRange (xlo, xhi)).1, (cutRange (ylo, yhi)).1), ((cutRange (xlo, xhi)).2, (cutRange (ylo, yhi)).1),
            ((cutRange (xlo, xhi)).2, (cutRange (ylo, yhi)).2), ((cutRange (xlo, xhi)).1, (cutRange (ylo, yhi)).2)] p ↔
            ((cutRange (xlo, xhi)).1 ≤ p.1 ∧ p.1 ≤ (cutRange (xlo, xhi)).2) ∧ ((cutRange (ylo, yhi)).1 ≤ p.2 ∧ p.2 ≤ (cutRange (ylo, yhi)).2) := by
          constructor
          · rintro ⟨a, b, hc, h1, h2, h3, h4⟩
            simp only [List.cons.injEq, and_true] at hc
            obtain ⟨rfl, -, rfl, -⟩ := hc
            exact ⟨⟨h1, h2⟩, h3, h4⟩
          · rintro ⟨⟨h1, h2⟩, h3, h4⟩
            exact ⟨((cutRange (xlo, xhi)).1, (cutRange (ylo, yhi)).1), ((cutRange (xlo, xhi)).2, (cutRange (ylo, yhi)).2), rfl, h1, h2, h3, h4⟩
        rw [e, cutRange_spec _ _ _ ex, cutRange_spec _ _ _ ey]
        tauto
      · rw [if_neg oy] at h
        rw [if_pos ox] at h
        cases h
    · rw [if_neg ox] at h
      simp at h
  · rw [← on_iff xlo xhi hx, ← on_iff ylo yhi hy]
    unfold rect
    rw [rangeOn_spec, rangeOn_spec]
    by_cases ox : xlo < 1 ∧ 0 < xhi
    · by_cases oy : ylo < 1 ∧ 0 < yhi
      · rw [if_pos ox, if_pos oy]
        simp only [reduceCtorEq, false_iff, not_not]
        exact ⟨ox, oy⟩
      · rw [if_pos ox, if_neg oy]
        simp [oy]
    · rw [if_neg ox]
      simp [ox]

/-- **C134**: a rectangle which exceeds the graph on both sides is only cut at one of them (`elif`): it is drawn beyond the right and the upper end of the graph. -/
theorem rect_overhang (xhi yhi : K) (hx : 1 < xhi) (hy : 1 < yhi) (xlo ylo : K) (hx0 : xlo < 0) (hy0 : ylo < 0) :
    rect (some xlo) (some xhi) (some ylo) (some yhi) = some [(0, 0), (xhi, 0), (xhi, yhi), (0, yhi)] ∧ ¬ RectClaim xlo xhi ylo yhi := by
  have ox : xlo < 1 ∧ 0 < xhi := ⟨lt_trans hx0 zero_lt_one, lt_trans zero_lt_one hx⟩
  have oy : ylo < 1 ∧ 0 < yhi := ⟨lt_trans hy0 zero_lt_one, lt_trans zero_lt_one hy⟩
  have e : rect (some xlo) (some xhi) (some ylo) (some yhi) = some [(0, 0), (xhi, 0), (xhi, yhi), (0, yhi)] := by
    unfold rect
    rw [rangeOn_spec, rangeOn_spec, if_pos ox, if_pos oy]
    simp [cutRange, hx0, hy0]
  refine ⟨e, ?_⟩
  rintro ⟨h, -⟩
  have := (h _ e (xhi, 0)).mp ⟨(0, 0), (xhi, yhi), rfl, ox.2.le, le_refl _, le_refl _, oy.2.le⟩
  exact absurd this.2.2.1 (not_le.mpr hx)

/-- **C134**: on a reversed axis the lower end of a range is at the higher position: rectangles which exceed the graph there are not drawn at all. -/
theorem rect_reversed : rect (some (3 / 2 : ℚ)) (some (1 / 2)) (some 0) (some 1) = none ∧
    rect (some (3 / 4 : ℚ)) (some (1 / 2)) (some 0) (some 1) = some [(3 / 4, 0), (1 / 2, 0), (1 / 2, 1), (3 / 4, 1)] := by
  decide +kernel

/-- **C134**: a `rect` with another `colorname` asks for this column but reads the column `color`. -/
theorem rect_colorname : ∃ point : String → Option ℚ, (∀ c ∈ rectColumns "z", point c = some 1) ∧ rectColour point = none :=
  ⟨fun s => if s = "z" then some 1 else none, by simp [rectColumns], by simp [rectColour]⟩

/-! ## Colours -/

/-- **C134**: the colour of a value is that of its position on the colour axis; values beyond the axis get the colour of its nearest end. -/
theorem colour_param (vc : K) : 0 ≤ colourParam vc ∧ colourParam vc ≤ 1 ∧ (∀ u, 0 ≤ u → u ≤ 1 → |colourParam vc - vc| ≤ |u - vc|) := by
  unfold colourParam
  by_cases h : vc < 0
  · have h1 : ¬ (1 : K) < 0 := not_lt.mpr zero_le_one
    simp only [h, if_true, h1, if_false]
    refine ⟨le_refl _, zero_le_one, ?_⟩
    intro u h0 _
    rw [abs_of_nonneg (by linarith), abs_of_nonneg (by linarith)]
    linarith
  · simp only [h, if_false]
    by_cases h' : 1 < vc
    · simp only [h', if_true]
      refine ⟨zero_le_one, le_refl _, ?_⟩
      intro u _ h1
      rw [abs_of_nonpos (by linarith), abs_of_nonpos (by linarith)]
      linarith
    · simp only [h', if_false]
      refine ⟨not_lt.mp h, not_lt.mp h', ?_⟩
      intro u _ _
      simp

/-- The place of column `i` of the image of the key along the axis of the key, and across it. -/
def pixel (vertical : Bool) (res : ℕ) (x y w h : K) (i : ℕ) : (K × K) × (K × K) :=
  let a := keyImage vertical res x y w h (i / res, 0)
  let b := keyImage vertical res x y w h ((i + 1) / res, 1)
  if vertical then ((a.2, b.2), (a.1, b.1)) else ((a.1, b.1), (a.2, b.2))

/-- **C134**: the colours of a key with `res ≥ 2` steps: step `i` is centred at the position `i/(res-1)` of the axis and `1/(res-1)` long, and covers the key in the other direction; the clipping path is the rectangle of the key. -/
theorem key_pixels (vertical : Bool) (res : ℕ) (hr : 2 ≤ res) (x y w h : K) (i : ℕ) :
    let s := if vertical then (y, h) else (x, w)
    let o := if vertical then (x, w) else (y, h)
    let p := pixel vertical res x y w h i
    (p.1.1 + p.1.2) / 2 = s.1 + (i : K) / (res - 1) * s.2 ∧ p.1.2 - p.1.1 = s.2 / (res - 1) ∧
    p.2 = (o.1, o.1 + o.2) ∧ keyClip vertical x y w h = ((x, y), (x + w, y + h)) := by
  have h2 : (2 : K) ≤ res := by exact_mod_cast hr
  have hne : (res : K) ≠ 0 := by intro e; rw [e] at h2; linarith
  have hne1 : (res : K) - 1 ≠ 0 := by intro e; have : (res : K) = 1 := by linarith
                                      rw [this] at h2; linarith
  have hclip : keyClip vertical x y w h = ((x, y), (x + w, y + h)) := by
    cases vertical <;> simp only [keyClip, keyPos] <;> ext <;> simp <;> ring
  refine ⟨?_, ?_, ?_, hclip⟩
  · cases vertical <;> simp only [pixel, keyImage, hclip] <;> simp <;> field_simp <;> ring
  · cases vertical <;> simp only [pixel, keyImage, hclip] <;> simp <;> field_simp <;> ring
  · cases vertical <;> simp only [pixel, keyImage, hclip] <;> simp <;> ring

/-- **C134** (partial): the colour of the key at position `v` is that of a parameter which differs from `v`, whose colour is that of the data, by at most one and a half steps. -/
theorem key_colour_partial (res : ℕ) (hr : 2 ≤ res) (i : ℕ) (hi : i < res) (v : K) (hv : |v - (i : K) / (res - 1)| ≤ 1 / (res - 1) / 2) :
    |keyPixelParam res i - v| ≤ 1 / res + 1 / (res - 1) / 2 := by
  have h2 : (2 : K) ≤ res := by exact_mod_cast hr
  have hi' : (i : K) ≤ res - 1 := by
    have : i + 1 ≤ res := hi
    have : ((i + 1 : ℕ) : K) ≤ res := by exact_mod_cast this
    push_cast at this; linarith
  have hi0 : (0 : K) ≤ i := Nat.cast_nonneg i
  have hpos : (0 : K) < res := by linarith
  have hpos1 : (0 : K) < (res : K) - 1 := by linarith
  have e : keyPixelParam res i - v = -((i : K) / (res - 1) * (1 / res)) + ((i : K) / (res - 1) - v) := by
    unfold keyPixelParam
    field_simp
    ring
  rw [e]
  have b1 : |-((i : K) / (res - 1) * (1 / res))| ≤ 1 / res := by
    rw [abs_neg, abs_of_nonneg (by positivity)]
    have : (i : K) / (res - 1) ≤ 1 := by rw [div_le_one hpos1]; exact hi'
    calc (i : K) / (res - 1) * (1 / res) ≤ 1 * (1 / res) := mul_le_mul_of_nonneg_right this (by positivity)
      _ = 1 / res := one_mul _
  rw [abs_sub_comm] at hv
  exact le_trans (abs_add_le _ _) (add_le_add b1 hv)

/-- **C134**: the key never shows the colour of the upper end of the axis: its last step, which is at the position 1, is the colour of `1 - 1/res`, whereas data at the upper end have the colour of 1. -/
theorem key_end (res : ℕ) (hr : 2 ≤ res) : keyPixelParam (K := K) res (res - 1) = 1 - 1 / res ∧ colourParam (1 : K) = 1 ∧
    ∀ i < res, keyPixelParam (K := K) res i ≠ 1 := by
  have h2 : (2 : K) ≤ res := by exact_mod_cast hr
  have hpos : (0 : K) < res := by linarith
  refine ⟨?_, ?_, ?_⟩
  · unfold keyPixelParam
    rw [Nat.cast_sub (by omega)]
    field_simp
    simp
  · have h1 : ¬ (1 : K) < 0 := not_lt.mpr zero_le_one
    simp [colourParam, h1]
  · intro i hi e
    unfold keyPixelParam at e
    rw [div_eq_one_iff_eq hpos.ne', mul_one] at e
    have : i = res := by exact_mod_cast e
    omega

end

/-! ## Arrows -/

/-- **C134**: the line of an arrow has the length `linelength * size` and the direction of the angle, and the point of the data divides it in the ratio `arrowpos : 1 - arrowpos`. -/
theorem arrow_spec {n : ℕ} (f : VPos ℝ n → ℝ × ℝ) (eps epsilon arrowpos linelength arrowsize : ℝ) (size angle : Option ℝ) (v : Fin n → Option ℝ)
    (r : ((ℝ × ℝ) × (ℝ × ℝ)) × ℝ) (h : arrow f eps epsilon arrowpos linelength arrowsize size angle v = some r) :
    ∃ (u : VPos ℝ n) (s a : ℝ), (∀ i, v i = some (u i)) ∧ InGraph eps u ∧ size = some s ∧ angle = some a ∧ epsilon < s ∧ r.2 = arrowsize * s ∧
      r.1.2.1 - r.1.1.1 = linelength * s * Real.cos (a * (Real.pi / 180)) ∧ r.1.2.2 - r.1.1.2 = linelength * s * Real.sin (a * (Real.pi / 180)) ∧
      (r.1.2.1 - r.1.1.1) ^ 2 + (r.1.2.2 - r.1.1.2) ^ 2 = (linelength * s) ^ 2 ∧
      (f u).1 = (1 - arrowpos) * r.1.1.1 + arrowpos * r.1.2.1 ∧ (f u).2 = (1 - arrowpos) * r.1.1.2 + arrowpos * r.1.2.2 := by
  unfold arrow at h
  split at h
  · rename_i u s a hu
    split at h
    · rename_i hs
      obtain rfl := Option.some.inj h
      obtain ⟨h1, h2⟩ := (inside_iff _ _ u).mp hu
      have ea : a * Real.pi / 180 = a * (Real.pi / 180) := by ring
      refine ⟨u, s, a, h1, h2, rfl, rfl, hs, rfl, ?_, ?_, ?_, ?_, ?_⟩
      · simp only [arrowLine, ea]; ring
      · simp only [arrowLine, ea]; ring
      · have := Real.sin_sq_add_cos_sq (a * Real.pi / 180)
        simp only [arrowLine]
        linear_combination (linelength * s) ^ 2 * this
      · simp only [arrowLine]; ring
      · simp only [arrowLine]; ring
    · simp at h
  · simp at h

/-- **C134**: arrows which are drawn: exactly those of points within the graph with a size above `epsilon` and an angle. -/
theorem arrow_drawn {n : ℕ} (f : VPos ℝ n → ℝ × ℝ) (eps epsilon arrowpos linelength arrowsize : ℝ) (size angle : Option ℝ) (v : Fin n → Option ℝ) :
    (arrow f eps epsilon arrowpos linelength arrowsize size angle v).isSome ↔
      (∃ u : VPos ℝ n, (∀ i, v i = some (u i)) ∧ InGraph eps u) ∧ (∃ s, size = some s ∧ epsilon < s) ∧ angle.isSome := by
  constructor
  · intro h
    obtain ⟨r, hr⟩ := Option.isSome_iff_exists.mp h
    obtain ⟨u, s, a, h1, h2, h3, h4, h5, -⟩ := arrow_spec f eps epsilon arrowpos linelength arrowsize size angle v r hr
    exact ⟨⟨u, h1, h2⟩, ⟨s, h3, h5⟩, by simp [h4]⟩
  · rintro ⟨⟨u, h1, h2⟩, ⟨s, rfl, hs⟩, ha⟩
    obtain ⟨a, rfl⟩ := Option.isSome_iff_exists.mp ha
    unfold arrow
    rw [(inside_iff eps v u).mpr ⟨h1, h2⟩]
    simp [hs]

/-! ## Cases -/

example : inside (0 : ℚ) (some ∘ ![1 / 2, 1] : Fin 2 → Option ℚ) = some ![1 / 2, 1] :=
  (inside_iff _ _ _).mpr ⟨fun _ => rfl, fun i => by fin_cases i <;> simp <;> norm_num⟩

example : rect (some (-1 / 2 : ℚ)) (some (1 / 2)) (some (1 / 4)) (some 2) = some [(0, 1 / 4), (1 / 2, 1 / 4), (1 / 2, 1), (0, 1)] := by decide +kernel

example : RectClaim (-1 / 2 : ℚ) (1 / 2) (1 / 4) 2 := rect_partial _ _ _ _ (by norm_num) (by norm_num) (by norm_num) (by norm_num)

example : keyImage true 3 (0 : ℚ) 0 1 10 (1 / 3, 0) = (0, 5 / 2) ∧ keyImage true 3 (0 : ℚ) 0 1 10 (2 / 3, 1) = (1, 15 / 2) := by decide +kernel

end PyX.Points
