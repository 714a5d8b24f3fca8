import Verif.BBox.Model
import Mathlib.Algebra.Order.Ring.Rat

/-!
# Properties of bounding boxes (C01–C04, C64)

Specification: a box is a set of points.
-/

set_option linter.unusedSectionVars false

namespace PyX.BBox
variable {K : Type*} [LinearOrder K]

/-- The points of a box (specification). -/
def Mem (x y : K) (b : BBox K) : Prop :=
  match b with
  | none => False
  | some b => b.llx ≤ x ∧ x ≤ b.urx ∧ b.lly ≤ y ∧ y ≤ b.ury

/-- A box that is empty or has its corners in order. -/
def Proper (b : BBox K) : Prop := ∀ q, b = some q → q.llx ≤ q.urx ∧ q.lly ≤ q.ury

/-- Set inclusion of boxes. -/
def Sub (a b : BBox K) : Prop := ∀ x y, Mem x y a → Mem x y b

theorem sub_iff {a b : Quad K} (ha : a.llx ≤ a.urx ∧ a.lly ≤ a.ury) :
    Sub (some a) (some b) ↔ b.llx ≤ a.llx ∧ a.urx ≤ b.urx ∧ b.lly ≤ a.lly ∧ a.ury ≤ b.ury := by
  constructor
  · intro h
    have h1 := h a.llx a.lly ⟨le_rfl, ha.1, le_rfl, ha.2⟩
    have h2 := h a.urx a.ury ⟨ha.1, le_rfl, ha.2, le_rfl⟩
    exact ⟨h1.1, h2.2.1, h1.2.2.1, h2.2.2.2⟩
  · rintro ⟨h1, h2, h3, h4⟩ x y ⟨g1, g2, g3, g4⟩
    exact ⟨h1.trans g1, g2.trans h2, h3.trans g3, g4.trans h4⟩

/-- A proper box is determined by its points. -/
theorem ext_points {a b : BBox K} (ha : Proper a) (hb : Proper b) (h : ∀ x y, Mem x y a ↔ Mem x y b) :
    a = b := by
  cases a with
  | none =>
    cases b with
    | none => rfl
    | some b => exact absurd ((h b.llx b.lly).2 ⟨le_rfl, (hb b rfl).1, le_rfl, (hb b rfl).2⟩) id
  | some a =>
    cases b with
    | none => exact absurd ((h a.llx a.lly).1 ⟨le_rfl, (ha a rfl).1, le_rfl, (ha a rfl).2⟩) id
    | some b =>
      obtain ⟨h1, h2, h3, h4⟩ := (sub_iff (ha a rfl)).1 (fun x y => (h x y).1)
      obtain ⟨g1, g2, g3, g4⟩ := (sub_iff (hb b rfl)).1 (fun x y => (h x y).2)
      congr 1
      ext
      · exact le_antisymm g1 h1
      · exact le_antisymm g3 h3
      · exact le_antisymm h2 g2
      · exact le_antisymm h4 g4

/-! ## C01 – union -/

/-- C01: `a + b` contains both boxes. -/
theorem add_upper (a b : BBox K) : Sub a (add a b) ∧ Sub b (add a b) := by
  cases a <;> cases b <;> simp [Sub, add, Mem]
  constructor <;> (intros; simp_all)

/-- C01: `a + b` is contained in each box that contains both (proper) boxes. -/
theorem add_least (a b c : BBox K) (ha : Proper a) (hb : Proper b) (hac : Sub a c) (hbc : Sub b c) :
    Sub (add a b) c := by
  cases a with
  | none => simpa [add] using hbc
  | some a =>
    cases b with
    | none => simpa [add] using hac
    | some b =>
      cases c with
      | none => exact absurd (hac a.llx a.lly ⟨le_rfl, (ha a rfl).1, le_rfl, (ha a rfl).2⟩) id
      | some c =>
        rw [sub_iff (ha a rfl)] at hac
        rw [sub_iff (hb b rfl)] at hbc
        obtain ⟨h1, h2, h3, h4⟩ := hac
        obtain ⟨g1, g2, g3, g4⟩ := hbc
        rw [add, sub_iff]
        · simp [h1, h2, h3, h4, g1, g2, g3, g4]
        · have := ha a rfl; simp [this]

/-- C01: joining proper boxes gives a proper box. -/
theorem add_proper (a b : BBox K) (ha : Proper a) (hb : Proper b) : Proper (add a b) := by
  intro q hq
  cases a <;> cases b <;> simp [add] at hq <;> subst hq
  · exact hb _ rfl
  · exact ha _ rfl
  · rename_i a b
    have := ha a rfl
    simp [this]

/-- C01: union is commutative, associative, idempotent and has the empty box as unit, so the sum of any
collection of boxes is independent of order, grouping and repetition. -/
theorem add_comm (a b : BBox K) : add a b = add b a := by
  cases a <;> cases b <;> simp [add, min_comm, max_comm]

theorem add_assoc (a b c : BBox K) : add (add a b) c = add a (add b c) := by
  cases a <;> cases b <;> cases c <;> simp [add, min_assoc, max_assoc]

theorem add_empty (a : BBox K) : add none a = a ∧ add a none = a ∧ add a a = a := by
  cases a <;> simp [add]

/-- C01: `+=` computes the same box as `+`. -/
theorem iadd_eq_add (a b : BBox K) : iadd a b = add a b := by
  cases a <;> cases b <;> rfl

/-- C01: the sum of a list of boxes does not depend on the order. -/
theorem sum_perm (l l' : List (BBox K)) (h : l.Perm l') (b : BBox K) :
    l.foldl iadd b = l'.foldl iadd b := by
  have : RightCommutative (iadd (K := K)) := ⟨fun a b c => by
    simp only [iadd_eq_add, add_assoc, add_comm b c]⟩
  exact h.foldl_eq b

/-- The box drawn around a sequence of points by `includepoint_pt`, starting from the empty box. -/
def ofPoints (ps : List (K × K)) : BBox K := ps.foldl (fun b p => includepoint b p.1 p.2) none

theorem includepoint_eq (b : BBox K) (x y : K) : includepoint b x y = add b (some ⟨x, y, x, y⟩) := by
  cases b <;> rfl

theorem foldl_include (ps : List (K × K)) (b : BBox K) (hb : Proper b) :
    let r := ps.foldl (fun b p => includepoint b p.1 p.2) b
    Proper r ∧ Sub b r ∧ (∀ p ∈ ps, Mem p.1 p.2 r) ∧
      ∀ c, Sub b c → (∀ p ∈ ps, Mem p.1 p.2 c) → Sub r c := by
  induction ps generalizing b with
  | nil => exact ⟨hb, fun _ _ h => h, by simp, fun c h _ => h⟩
  | cons p ps ih =>
    have hp : Proper (some ⟨p.1, p.2, p.1, p.2⟩ : BBox K) := by
      intro q hq; simp at hq; subst hq; simp
    have hpr : Proper (includepoint b p.1 p.2) := by
      rw [includepoint_eq]; exact add_proper _ _ hb hp
    obtain ⟨i1, i2, i3, i4⟩ := ih _ hpr
    simp only [List.foldl_cons]
    refine ⟨i1, fun x y h => i2 x y ?_, ?_, ?_⟩
    · rw [includepoint_eq]; exact (add_upper b _).1 x y h
    · intro q hq
      rcases List.mem_cons.1 hq with rfl | hq
      · apply i2; rw [includepoint_eq]
        exact (add_upper b _).2 _ _ ⟨le_rfl, le_rfl, le_rfl, le_rfl⟩
      · exact i3 q hq
    · intro c hbc hc
      apply i4 c
      · rw [includepoint_eq]
        apply add_least b _ c hb hp hbc
        have := hc p (by simp)
        rintro x y ⟨h1, h2, h3, h4⟩
        rw [le_antisymm h2 h1, le_antisymm h4 h3]; exact this
      · intro q hq; exact hc q (by simp [hq])

/-- C01: the box obtained from any sequence of points is proper, contains all points, and is contained in
every box containing them; it is empty only for the empty sequence. -/
theorem ofPoints_least (ps : List (K × K)) :
    Proper (ofPoints ps) ∧ (∀ p ∈ ps, Mem p.1 p.2 (ofPoints ps)) ∧
      (∀ c, (∀ p ∈ ps, Mem p.1 p.2 c) → Sub (ofPoints ps) c) ∧ (ofPoints ps = none ↔ ps = []) := by
  obtain ⟨h1, -, h3, h4⟩ := foldl_include ps (none : BBox K) (by intro q hq; cases hq)
  refine ⟨h1, h3, fun c hc => h4 c (fun _ _ h => h.elim) hc, ?_, ?_⟩
  · intro h
    cases ps with
    | nil => rfl
    | cons p ps =>
      have := h3 p (by simp)
      rw [ofPoints] at h
      rw [h] at this
      exact this.elim
  · rintro rfl; rfl

example : ofPoints [(1, 2), (0, 5), (3, -1)] = some (⟨0, -1, 3, 5⟩ : Quad ℤ) := by decide
example : Proper (some (⟨0, -1, 3, 5⟩ : Quad ℤ)) := by intro q hq; cases hq; decide

/-! ## C02 – intersection -/

/-- C02: the points of the product are the common points. -/
theorem mem_mul (a b : BBox K) (x y : K) : Mem x y (mul a b) ↔ Mem x y a ∧ Mem x y b := by
  cases a <;> cases b <;> simp [mul, Mem]
  tauto

/-- C02: `*=` computes the same box as `*`. -/
theorem imul_eq_mul (a b : BBox K) : imul a b = mul a b := by
  cases a <;> cases b <;> rfl

/-- C02: `intersects` is true exactly if proper boxes have a common point. -/
theorem intersects_iff (a b : BBox K) (ha : Proper a) (hb : Proper b) :
    intersects a b = true ↔ ∃ x y, Mem x y a ∧ Mem x y b := by
  cases a with
  | none => simp [intersects, Mem]
  | some a =>
    cases b with
    | none => simp [intersects, Mem]
    | some b =>
      have h1 := ha a rfl
      have h2 := hb b rfl
      simp only [intersects, Mem, Bool.not_eq_true', Bool.or_eq_false_iff, decide_eq_false_iff_not,
        not_lt, gt_iff_lt]
      constructor
      · rintro ⟨⟨⟨g1, g2⟩, g3⟩, g4⟩
        refine ⟨max a.llx b.llx, max a.lly b.lly, ?_, ?_⟩ <;> simp [h1, h2, g1, g2, g3, g4]
      · rintro ⟨x, y, ⟨p1, p2, p3, p4⟩, q1, q2, q3, q4⟩
        exact ⟨⟨⟨p1.trans q2, p3.trans q4⟩, q1.trans p2⟩, q3.trans p4⟩

/-- C02: the product of intersecting proper boxes is proper. -/
theorem mul_proper (a b : BBox K) (ha : Proper a) (hb : Proper b) (h : intersects a b = true) :
    Proper (mul a b) := by
  cases a <;> cases b <;> simp [mul, Proper, intersects] at *
  simp [ha, hb, h]

/-- C02, full statement: a product without points is the empty box (`bool(a*b)` is false). -/
def DisjointProductEmpty (K : Type*) [LinearOrder K] : Prop :=
  ∀ a b : BBox K, Proper a → Proper b → (∀ x y, ¬ Mem x y (mul a b)) → mul a b = none

/-- C02, partial: if one factor is empty so is the product; and a product that is a proper box is the
intersection, empty only if there is no common point. -/
theorem mul_empty_partial (a b : BBox K) (h : Proper (mul a b)) (hd : ∀ x y, ¬ Mem x y (mul a b)) :
    mul a b = none := by
  cases hq : mul a b with
  | none => rfl
  | some q =>
    obtain ⟨h1, h2⟩ := h q hq
    exact absurd (by rw [hq]; exact ⟨le_rfl, h1, le_rfl, h2⟩) (hd q.llx q.lly)

/-- C02, finding: the product of disjoint boxes is not the empty box but a box with swapped corners
(for which `bool()` is true). -/
theorem disjoint_product_not_empty : ¬ DisjointProductEmpty ℚ := by
  intro h
  have := h (some ⟨0, 0, 1, 1⟩) (some ⟨2, 2, 3, 3⟩)
    (by intro q hq; cases hq; constructor <;> norm_num) (by intro q hq; cases hq; constructor <;> norm_num)
    (by
      rintro x y ⟨h1, h2, -, -⟩
      have h3 := h1.trans h2
      revert h3; norm_num)
  simp [mul] at this

/-- C02, consequence for users: adding such a product to a box `c` enlarges `c`, although no point was
added. -/
theorem disjoint_product_pollutes : ∃ a b c : BBox ℚ, Proper a ∧ Proper b ∧ Proper c ∧
    (∀ x y, ¬ Mem x y (mul a b)) ∧ add c (mul a b) ≠ c := by
  refine ⟨some ⟨0, 0, 1, 1⟩, some ⟨2, 2, 3, 3⟩, some ⟨10, 10, 11, 11⟩, ?_, ?_, ?_, ?_, ?_⟩
  · intro q hq; cases hq; constructor <;> norm_num
  · intro q hq; cases hq; constructor <;> norm_num
  · intro q hq; cases hq; constructor <;> norm_num
  · rintro x y ⟨h1, h2, -, -⟩
    have h3 := h1.trans h2
    revert h3; norm_num
  · simp [add, mul]; norm_num

example : mul (some ⟨0, 0, 2, 2⟩) (some ⟨1, -1, 3, 1⟩) = some (⟨1, 0, 2, 1⟩ : Quad ℤ) := by decide
example : intersects (some ⟨0, 0, 2, 2⟩) (some (⟨1, -1, 3, 1⟩ : Quad ℤ)) = true := by decide

/-! ## C03 – transformed boxes -/

section
variable {K : Type*} [Field K] [LinearOrder K] [IsStrictOrderedRing K]

/-- C03: the transformed box contains the image of each point of the box. -/
theorem transformed_contains (b : BBox K) (t : Trafo K) (x y : K) (h : Mem x y b) :
    Mem (t.apply (x, y)).1 (t.apply (x, y)).2 (transformed b t) := by
  cases b with
  | none => exact h.elim
  | some b =>
    obtain ⟨h1, h2, h3, h4⟩ := h
    have key : ∀ p q r : K, min (min (min (p * b.llx + q * b.lly + r) (p * b.urx + q * b.lly + r))
          (p * b.urx + q * b.ury + r)) (p * b.llx + q * b.ury + r) ≤ p * x + q * y + r ∧
        p * x + q * y + r ≤ max (max (max (p * b.llx + q * b.lly + r) (p * b.urx + q * b.lly + r))
          (p * b.urx + q * b.ury + r)) (p * b.llx + q * b.ury + r) := by
      intro p q r
      rcases le_total 0 p with hp | hp <;> rcases le_total 0 q with hq | hq <;>
      simp only [min_le_iff, le_max_iff]
      · exact ⟨.inl (.inl (.inl (by nlinarith))), .inl (.inr (by nlinarith))⟩
      · exact ⟨.inr (by nlinarith), .inl (.inl (.inr (by nlinarith)))⟩
      · exact ⟨.inl (.inl (.inr (by nlinarith))), .inr (by nlinarith)⟩
      · exact ⟨.inl (.inr (by nlinarith)), .inl (.inl (.inl (by nlinarith)))⟩
    simp only [transformed, Trafo.apply, Mem]
    exact ⟨(key _ _ _).1, (key _ _ _).2, (key _ _ _).1, (key _ _ _).2⟩

/-- C03: the transformed box lies in every box containing the images of all points (it is tight). -/
theorem transformed_least (b : BBox K) (hb : Proper b) (t : Trafo K) (c : BBox K)
    (h : ∀ x y, Mem x y b → Mem (t.apply (x, y)).1 (t.apply (x, y)).2 c) : Sub (transformed b t) c := by
  cases b with
  | none => intro x y h; exact h.elim
  | some b =>
    obtain ⟨g1, g2⟩ := hb b rfl
    have a1 := h b.llx b.lly ⟨le_rfl, g1, le_rfl, g2⟩
    have a2 := h b.urx b.lly ⟨g1, le_rfl, le_rfl, g2⟩
    have a3 := h b.urx b.ury ⟨g1, le_rfl, g2, le_rfl⟩
    have a4 := h b.llx b.ury ⟨le_rfl, g1, g2, le_rfl⟩
    cases c with
    | none => exact a1.elim
    | some c =>
      obtain ⟨b1, b2, b3, b4⟩ := a1
      obtain ⟨c1, c2, c3, c4⟩ := a2
      obtain ⟨d1, d2, d3, d4⟩ := a3
      obtain ⟨e1, e2, e3, e4⟩ := a4
      rintro x y ⟨m1, m2, m3, m4⟩
      simp only [Mem]
      refine ⟨le_trans ?_ m1, le_trans m2 ?_, le_trans ?_ m3, le_trans m4 ?_⟩
      · simp only [le_min_iff]; exact ⟨⟨⟨b1, c1⟩, d1⟩, e1⟩
      · simp only [max_le_iff]; exact ⟨⟨⟨b2, c2⟩, d2⟩, e2⟩
      · simp only [le_min_iff]; exact ⟨⟨⟨b3, c3⟩, d3⟩, e3⟩
      · simp only [max_le_iff]; exact ⟨⟨⟨b4, c4⟩, d4⟩, e4⟩

/-- C03: transforming keeps emptiness and properness. -/
theorem transformed_proper (b : BBox K) (t : Trafo K) :
    Proper (transformed b t) ∧ (transformed b t = none ↔ b = none) := by
  cases b with
  | none => exact ⟨fun q hq => (by cases hq), by simp [transformed]⟩
  | some b =>
    refine ⟨?_, by simp [transformed]⟩
    intro q hq
    simp only [transformed, Option.some.injEq] at hq
    subst hq
    constructor
    · exact le_trans (min_le_right _ _) (le_max_right _ _)
    · exact le_trans (min_le_right _ _) (le_max_right _ _)

/-- C03: the identity changes nothing. -/
theorem transformed_one (b : BBox K) (hb : Proper b) : transformed b Trafo.one = b := by
  cases b with
  | none => rfl
  | some b =>
    obtain ⟨h1, h2⟩ := hb b rfl
    simp [transformed, Trafo.apply, Trafo.one, h1, h2]

example : transformed (some ⟨0, 0, 2, 1⟩) (⟨0, -1, 1, 0, 0, 0⟩ : Trafo ℤ) = some ⟨-1, 0, 0, 2⟩ := by decide

/-! ## C04 – enlarging -/

/-- C04: side by side effect of enlarging; empty boxes stay empty. -/
theorem enlarged_sides (q : Quad K) (all : K) (bo le tp ri : Option K) :
    enlarged (some q) all bo le tp ri =
      some ⟨q.llx - (match le with | some v => v | none => all), q.lly - (match bo with | some v => v | none => all),
            q.urx + (match ri with | some v => v | none => all), q.ury + (match tp with | some v => v | none => all)⟩ ∧
    enlarged (none : BBox K) all bo le tp ri = none := by
  constructor
  · cases le <;> cases bo <;> cases ri <;> cases tp <;> rfl
  · rfl

/-- C04: enlarging twice adds up the amounts; enlarging back restores the box. -/
theorem enlarged_add (b : BBox K) (a a' : K) :
    enlarged (enlarged b a none none none none) a' none none none none =
      enlarged b (a + a') none none none none := by
  cases b with
  | none => rfl
  | some b => simp only [enlarged, Option.getD_none, Option.some.injEq]; ext <;> ring

theorem enlarged_cancel (b : BBox K) (a : K) (bo le tp ri : Option K) :
    enlarged (enlarged b a bo le tp ri) (-a) (bo.map Neg.neg) (le.map Neg.neg) (tp.map Neg.neg)
      (ri.map Neg.neg) = b := by
  cases b with
  | none => rfl
  | some b =>
    cases bo <;> cases le <;> cases tp <;> cases ri <;> simp [enlarged]

/-- C04: enlarging by non-negative amounts loses no point: for a uniform amount `a ≥ 0` the result is
exactly the set of points at most `a` away (in maximum norm) from some point of the box. -/
theorem enlarged_mem (b : BBox K) (hb : Proper b) (a : K) (ha : 0 ≤ a) (x y : K) :
    Mem x y (enlarged b a none none none none) ↔
      ∃ x' y', Mem x' y' b ∧ |x - x'| ≤ a ∧ |y - y'| ≤ a := by
  cases b with
  | none => simp [enlarged, Mem]
  | some b =>
    obtain ⟨g1, g2⟩ := hb b rfl
    simp only [enlarged, Mem, Option.getD_none]
    constructor
    · rintro ⟨h1, h2, h3, h4⟩
      refine ⟨max b.llx (min x b.urx), max b.lly (min y b.ury), ⟨?_, ?_, ?_, ?_⟩, ?_, ?_⟩
      · exact le_max_left _ _
      · exact max_le g1 (min_le_right _ _)
      · exact le_max_left _ _
      · exact max_le g2 (min_le_right _ _)
      · rw [abs_le]
        rcases le_total x b.urx with h | h <;> simp only [h, min_eq_left, min_eq_right]
        · rcases le_total b.llx x with h' | h' <;> simp only [h', max_eq_left, max_eq_right] <;>
            constructor <;> linarith
        · simp only [g1, max_eq_right]; constructor <;> linarith
      · rw [abs_le]
        rcases le_total y b.ury with h | h <;> simp only [h, min_eq_left, min_eq_right]
        · rcases le_total b.lly y with h' | h' <;> simp only [h', max_eq_left, max_eq_right] <;>
            constructor <;> linarith
        · simp only [g2, max_eq_right]; constructor <;> linarith
    · rintro ⟨x', y', ⟨h1, h2, h3, h4⟩, hx, hy⟩
      rw [abs_le] at hx hy
      refine ⟨?_, ?_, ?_, ?_⟩ <;> linarith

example : enlarged (some ⟨0, 0, 2, 1⟩) (1 : ℤ) none (some 5) none none = some ⟨-5, -1, 3, 2⟩ := by decide

/-! ## C64 – integer bounding box -/

/-- C64: the integer box written as `%%BoundingBox` encloses the exact box and is the smallest one. -/
theorem lowres_least [FloorRing K] (q : Quad K) (n : Int × Int × Int × Int)
    (h : lowres (some q) = some n) :
    ((n.1 : K) ≤ q.llx ∧ (n.2.1 : K) ≤ q.lly ∧ q.urx ≤ n.2.2.1 ∧ q.ury ≤ n.2.2.2) ∧
    ∀ a b c d : Int, ((a : K) ≤ q.llx ∧ (b : K) ≤ q.lly ∧ q.urx ≤ c ∧ q.ury ≤ d) →
      a ≤ n.1 ∧ b ≤ n.2.1 ∧ n.2.2.1 ≤ c ∧ n.2.2.2 ≤ d := by
  simp only [lowres, Option.map_some, Option.some.injEq] at h
  subst h
  refine ⟨⟨Int.floor_le _, Int.floor_le _, Int.le_ceil _, Int.le_ceil _⟩, ?_⟩
  rintro a b c d ⟨h1, h2, h3, h4⟩
  exact ⟨Int.le_floor.2 h1, Int.le_floor.2 h2, Int.ceil_le.2 h3, Int.ceil_le.2 h4⟩

/-- C64: no integer box is written for an empty drawing (`ValueError`). -/
theorem lowres_empty [FloorRing K] : lowres (none : BBox K) = none := rfl

example : lowres (some (⟨-1/2, 1/3, 7/2, 4⟩ : Quad ℚ)) = some (-1, 0, 4, 4) := by decide +kernel

/-- C01: the centre of a proper box is a point of it, at equal distance from opposite sides. -/
theorem center_mem (q : Quad K) (hb : Proper (some q)) (c : K × K) (h : center (some q) = some c) :
    Mem c.1 c.2 (some q) ∧ c.1 - q.llx = q.urx - c.1 ∧ c.2 - q.lly = q.ury - c.2 := by
  obtain ⟨g1, g2⟩ := hb q rfl
  simp only [center, Option.map_some, Option.some.injEq] at h
  subst h
  refine ⟨⟨?_, ?_, ?_, ?_⟩, ?_, ?_⟩ <;> simp only <;> linarith

/-- C01: width and height are the largest distances between points of a proper box, in each direction. -/
theorem size_spec (q : Quad K) (hb : Proper (some q)) (w h : K) (hs : size (some q) = some (w, h)) :
    (∀ x y x' y', Mem x y (some q) → Mem x' y' (some q) → x' - x ≤ w ∧ y' - y ≤ h) ∧
    ∃ x y x' y', Mem x y (some q) ∧ Mem x' y' (some q) ∧ x' - x = w ∧ y' - y = h := by
  obtain ⟨g1, g2⟩ := hb q rfl
  simp only [size, Option.map_some, Option.some.injEq, Prod.mk.injEq] at hs
  obtain ⟨rfl, rfl⟩ := hs
  refine ⟨?_, q.llx, q.lly, q.urx, q.ury, ⟨le_refl _, g1, le_refl _, g2⟩, ⟨g1, le_refl _, g2, le_refl _⟩, rfl, rfl⟩
  rintro x y x' y' ⟨a1, a2, a3, a4⟩ ⟨b1, b2, b3, b4⟩
  constructor <;> linarith

end

end PyX.BBox
