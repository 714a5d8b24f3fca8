import Verif.Color.Props

/-!
# C39: gradients give legal colours
-/

set_option linter.unusedSectionVars false

namespace PyX.Color

/-! ## The polynomials of `BlackYellow`

Each is written as a sum of non-negative terms on parts of [0,1]. -/

theorem red_le (u : ℝ) (h0 : 0 ≤ u) (h1 : u ≤ 1) : 0 ≤ 1 - (2 * u ^ 2 * (1 - u ^ 2) ^ 5 + 35 / 10 * (u ^ 2) ^ 2 * (1 - u ^ 2) ^ 3 + 21 / 10 * u ^ 2 * u ^ 2 * (1 - u ^ 2) ^ 2 +
      3 * (u ^ 2) ^ 3 * (1 - u ^ 2) ^ 2 + u * (1 - (1 - u ^ 2) ^ 2)) := by
  rcases le_total u (1 / 2) with h | h
  · have e : 1 - (2 * u ^ 2 * (1 - u ^ 2) ^ 5 + 35 / 10 * (u ^ 2) ^ 2 * (1 - u ^ 2) ^ 3 + 21 / 10 * u ^ 2 * u ^ 2 * (1 - u ^ 2) ^ 2 +
          3 * (u ^ 2) ^ 3 * (1 - u ^ 2) ^ 2 + u * (1 - (1 - u ^ 2) ^ 2)) =
          4096 * (u - 0) ^ 0 * (1 / 2 - u) ^ 12 +
          49152 * (u - 0) ^ 1 * (1 / 2 - u) ^ 11 +
          268288 * (u - 0) ^ 2 * (1 / 2 - u) ^ 10 +
          879616 * (u - 0) ^ 3 * (1 / 2 - u) ^ 9 +
          9636352 / 5 * (u - 0) ^ 4 * (1 / 2 - u) ^ 8 +
          14852736 / 5 * (u - 0) ^ 5 * (1 / 2 - u) ^ 7 +
          3300512 * (u - 0) ^ 6 * (1 / 2 - u) ^ 6 +
          13307456 / 5 * (u - 0) ^ 7 * (1 / 2 - u) ^ 5 +
          7719952 / 5 * (u - 0) ^ 8 * (1 / 2 - u) ^ 4 +
          627136 * (u - 0) ^ 9 * (1 / 2 - u) ^ 3 +
          844098 / 5 * (u - 0) ^ 10 * (1 / 2 - u) ^ 2 +
          134788 / 5 * (u - 0) ^ 11 * (1 / 2 - u) ^ 1 +
          9628 / 5 * (u - 0) ^ 12 * (1 / 2 - u) ^ 0 := by ring
    rw [e]
    have p1 : 0 ≤ u - 0 := by linarith
    have p2 : 0 ≤ 1 / 2 - u := by linarith
    generalize u - 0 = p at *
    generalize 1 / 2 - u = q at *
    clear e
    positivity
  · rcases le_total u (3 / 4) with h | h
    · have e : 1 - (2 * u ^ 2 * (1 - u ^ 2) ^ 5 + 35 / 10 * (u ^ 2) ^ 2 * (1 - u ^ 2) ^ 3 + 21 / 10 * u ^ 2 * u ^ 2 * (1 - u ^ 2) ^ 2 +
            3 * (u ^ 2) ^ 3 * (1 - u ^ 2) ^ 2 + u * (1 - (1 - u ^ 2) ^ 2)) =
            39436288 / 5 * (u - 1 / 2) ^ 0 * (3 / 4 - u) ^ 12 +
            86761472 * (u - 1 / 2) ^ 1 * (3 / 4 - u) ^ 11 +
            2165889024 / 5 * (u - 1 / 2) ^ 2 * (3 / 4 - u) ^ 10 +
            1296130048 * (u - 1 / 2) ^ 3 * (3 / 4 - u) ^ 9 +
            12920422912 / 5 * (u - 1 / 2) ^ 4 * (3 / 4 - u) ^ 8 +
            3608876032 * (u - 1 / 2) ^ 5 * (3 / 4 - u) ^ 7 +
            18056403712 / 5 * (u - 1 / 2) ^ 6 * (3 / 4 - u) ^ 6 +
            2601312768 * (u - 1 / 2) ^ 7 * (3 / 4 - u) ^ 5 +
            6671126272 / 5 * (u - 1 / 2) ^ 8 * (3 / 4 - u) ^ 4 +
            473430496 * (u - 1 / 2) ^ 9 * (3 / 4 - u) ^ 3 +
            549438584 / 5 * (u - 1 / 2) ^ 10 * (3 / 4 - u) ^ 2 +
            14928576 * (u - 1 / 2) ^ 11 * (3 / 4 - u) ^ 1 +
            4480178 / 5 * (u - 1 / 2) ^ 12 * (3 / 4 - u) ^ 0 := by ring
      rw [e]
      have p1 : 0 ≤ u - 1 / 2 := by linarith
      have p2 : 0 ≤ 3 / 4 - u := by linarith
      generalize u - 1 / 2 = p at *
      generalize 3 / 4 - u = q at *
      clear e
      positivity
    · rcases le_total u (7 / 8) with h | h
      · have e : 1 - (2 * u ^ 2 * (1 - u ^ 2) ^ 5 + 35 / 10 * (u ^ 2) ^ 2 * (1 - u ^ 2) ^ 3 + 21 / 10 * u ^ 2 * u ^ 2 * (1 - u ^ 2) ^ 2 +
              3 * (u ^ 2) ^ 3 * (1 - u ^ 2) ^ 2 + u * (1 - (1 - u ^ 2) ^ 2)) =
              18350809088 / 5 * (u - 3 / 4) ^ 0 * (7 / 8 - u) ^ 12 +
              177445945344 / 5 * (u - 3 / 4) ^ 1 * (7 / 8 - u) ^ 11 +
              765388058624 / 5 * (u - 3 / 4) ^ 2 * (7 / 8 - u) ^ 10 +
              387075764224 * (u - 3 / 4) ^ 3 * (7 / 8 - u) ^ 9 +
              3169111639552 / 5 * (u - 3 / 4) ^ 4 * (7 / 8 - u) ^ 8 +
              3501699852288 / 5 * (u - 3 / 4) ^ 5 * (7 / 8 - u) ^ 7 +
              2640850356736 / 5 * (u - 3 / 4) ^ 6 * (7 / 8 - u) ^ 6 +
              1353526380032 / 5 * (u - 3 / 4) ^ 7 * (7 / 8 - u) ^ 5 +
              476308990432 / 5 * (u - 3 / 4) ^ 8 * (7 / 8 - u) ^ 4 +
              26215930432 * (u - 3 / 4) ^ 9 * (7 / 8 - u) ^ 3 +
              38012990832 / 5 * (u - 3 / 4) ^ 10 * (7 / 8 - u) ^ 2 +
              2052576944 * (u - 3 / 4) ^ 11 * (7 / 8 - u) ^ 1 +
              274138082 * (u - 3 / 4) ^ 12 * (7 / 8 - u) ^ 0 := by ring
        rw [e]
        have p1 : 0 ≤ u - 3 / 4 := by linarith
        have p2 : 0 ≤ 7 / 8 - u := by linarith
        generalize u - 3 / 4 = p at *
        generalize 7 / 8 - u = q at *
        clear e
        positivity
      · have e : 1 - (2 * u ^ 2 * (1 - u ^ 2) ^ 5 + 35 / 10 * (u ^ 2) ^ 2 * (1 - u ^ 2) ^ 3 + 21 / 10 * u ^ 2 * u ^ 2 * (1 - u ^ 2) ^ 2 +
              3 * (u ^ 2) ^ 3 * (1 - u ^ 2) ^ 2 + u * (1 - (1 - u ^ 2) ^ 2)) =
              274138082 * (u - 7 / 8) ^ 0 * (1 - u) ^ 12 +
              4526737024 * (u - 7 / 8) ^ 1 * (1 - u) ^ 11 +
              174091795232 / 5 * (u - 7 / 8) ^ 2 * (1 - u) ^ 10 +
              156752129536 * (u - 7 / 8) ^ 3 * (1 - u) ^ 9 +
              2268073818112 / 5 * (u - 7 / 8) ^ 4 * (1 - u) ^ 8 +
              887033036800 * (u - 7 / 8) ^ 5 * (1 - u) ^ 7 +
              6006871293952 / 5 * (u - 7 / 8) ^ 6 * (1 - u) ^ 6 +
              1132206227456 * (u - 7 / 8) ^ 7 * (1 - u) ^ 5 +
              3652894851072 / 5 * (u - 7 / 8) ^ 8 * (1 - u) ^ 4 +
              308432338944 * (u - 7 / 8) ^ 9 * (1 - u) ^ 3 +
              384399572992 / 5 * (u - 7 / 8) ^ 10 * (1 - u) ^ 2 +
              8589934592 * (u - 7 / 8) ^ 11 * (1 - u) ^ 1 := by ring
        rw [e]
        have p1 : 0 ≤ u - 7 / 8 := by linarith
        have p2 : 0 ≤ 1 - u := by linarith
        generalize u - 7 / 8 = p at *
        generalize 1 - u = q at *
        clear e
        positivity

theorem green_nonneg (x : ℝ) (h0 : 0 ≤ x) (h1 : x ≤ 1) : 0 ≤ 15 / 10 * x ^ 2 * (1 - x) ^ 3 - 8 / 10 * x ^ 3 * (1 - x) ^ 2 + 2 * x ^ 4 * (1 - x) + x ^ 4 := by
  rcases le_total x (1 / 2) with h | h
  · have e : 15 / 10 * x ^ 2 * (1 - x) ^ 3 - 8 / 10 * x ^ 3 * (1 - x) ^ 2 + 2 * x ^ 4 * (1 - x) + x ^ 4 =
          12 * (x - 0) ^ 2 * (1 / 2 - x) ^ 3 +
          74 / 5 * (x - 0) ^ 3 * (1 / 2 - x) ^ 2 +
          59 / 5 * (x - 0) ^ 4 * (1 / 2 - x) ^ 1 +
          47 / 10 * (x - 0) ^ 5 * (1 / 2 - x) ^ 0 := by ring
    rw [e]
    have p1 : 0 ≤ x - 0 := by linarith
    have p2 : 0 ≤ 1 / 2 - x := by linarith
    generalize x - 0 = p at *
    generalize 1 / 2 - x = q at *
    clear e
    positivity
  · have e : 15 / 10 * x ^ 2 * (1 - x) ^ 3 - 8 / 10 * x ^ 3 * (1 - x) ^ 2 + 2 * x ^ 4 * (1 - x) + x ^ 4 =
          47 / 10 * (x - 1 / 2) ^ 0 * (1 - x) ^ 5 +
          176 / 5 * (x - 1 / 2) ^ 1 * (1 - x) ^ 4 +
          542 / 5 * (x - 1 / 2) ^ 2 * (1 - x) ^ 3 +
          848 / 5 * (x - 1 / 2) ^ 3 * (1 - x) ^ 2 +
          128 * (x - 1 / 2) ^ 4 * (1 - x) ^ 1 +
          32 * (x - 1 / 2) ^ 5 * (1 - x) ^ 0 := by ring
    rw [e]
    have p1 : 0 ≤ x - 1 / 2 := by linarith
    have p2 : 0 ≤ 1 - x := by linarith
    generalize x - 1 / 2 = p at *
    generalize 1 - x = q at *
    clear e
    positivity

theorem green_le (x : ℝ) (h0 : 0 ≤ x) (h1 : x ≤ 1) : 0 ≤ 1 - (15 / 10 * x ^ 2 * (1 - x) ^ 3 - 8 / 10 * x ^ 3 * (1 - x) ^ 2 + 2 * x ^ 4 * (1 - x) + x ^ 4) := by
  have e : 1 - (15 / 10 * x ^ 2 * (1 - x) ^ 3 - 8 / 10 * x ^ 3 * (1 - x) ^ 2 + 2 * x ^ 4 * (1 - x) + x ^ 4) =
        1 * (x - 0) ^ 0 * (1 - x) ^ 5 +
        5 * (x - 0) ^ 1 * (1 - x) ^ 4 +
        17 / 2 * (x - 0) ^ 2 * (1 - x) ^ 3 +
        54 / 5 * (x - 0) ^ 3 * (1 - x) ^ 2 +
        2 * (x - 0) ^ 4 * (1 - x) ^ 1 := by ring
  rw [e]
  have p1 : 0 ≤ x - 0 := by linarith
  have p2 : 0 ≤ 1 - x := by linarith
  generalize x - 0 = p at *
  generalize 1 - x = q at *
  clear e
  positivity

theorem blue_nonneg (x : ℝ) (h0 : 0 ≤ x) (h1 : x ≤ 1) : 0 ≤ 5 * x * (1 - x) ^ 5 - 5 / 10 * x ^ 2 * (1 - x) ^ 3 + 3 / 10 * x * x * (1 - x) ^ 2 + 5 * x ^ 3 * (1 - x) ^ 2 +
      5 / 10 * x ^ 6 := by
  rcases le_total x (1 / 2) with h | h
  · have e : 5 * x * (1 - x) ^ 5 - 5 / 10 * x ^ 2 * (1 - x) ^ 3 + 3 / 10 * x * x * (1 - x) ^ 2 + 5 * x ^ 3 * (1 - x) ^ 2 +
          5 / 10 * x ^ 6 =
          160 * (x - 0) ^ 1 * (1 / 2 - x) ^ 5 +
          1984 / 5 * (x - 0) ^ 2 * (1 / 2 - x) ^ 4 +
          2172 / 5 * (x - 0) ^ 3 * (1 / 2 - x) ^ 3 +
          1388 / 5 * (x - 0) ^ 4 * (1 / 2 - x) ^ 2 +
          501 / 5 * (x - 0) ^ 5 * (1 / 2 - x) ^ 1 +
          157 / 10 * (x - 0) ^ 6 * (1 / 2 - x) ^ 0 := by ring
    rw [e]
    have p1 : 0 ≤ x - 0 := by linarith
    have p2 : 0 ≤ 1 / 2 - x := by linarith
    generalize x - 0 = p at *
    generalize 1 / 2 - x = q at *
    clear e
    positivity
  · have e : 5 * x * (1 - x) ^ 5 - 5 / 10 * x ^ 2 * (1 - x) ^ 3 + 3 / 10 * x * x * (1 - x) ^ 2 + 5 * x ^ 3 * (1 - x) ^ 2 +
          5 / 10 * x ^ 6 =
          157 / 10 * (x - 1 / 2) ^ 0 * (1 - x) ^ 6 +
          441 / 5 * (x - 1 / 2) ^ 1 * (1 - x) ^ 5 +
          1088 / 5 * (x - 1 / 2) ^ 2 * (1 - x) ^ 4 +
          1452 / 5 * (x - 1 / 2) ^ 3 * (1 - x) ^ 3 +
          1024 / 5 * (x - 1 / 2) ^ 4 * (1 - x) ^ 2 +
          96 * (x - 1 / 2) ^ 5 * (1 - x) ^ 1 +
          32 * (x - 1 / 2) ^ 6 * (1 - x) ^ 0 := by ring
    rw [e]
    have p1 : 0 ≤ x - 1 / 2 := by linarith
    have p2 : 0 ≤ 1 - x := by linarith
    generalize x - 1 / 2 = p at *
    generalize 1 - x = q at *
    clear e
    positivity

theorem blue_le (x : ℝ) (h0 : 0 ≤ x) (h1 : x ≤ 1) : 0 ≤ 1 - (5 * x * (1 - x) ^ 5 - 5 / 10 * x ^ 2 * (1 - x) ^ 3 + 3 / 10 * x * x * (1 - x) ^ 2 + 5 * x ^ 3 * (1 - x) ^ 2 +
      5 / 10 * x ^ 6) := by
  have e : 1 - (5 * x * (1 - x) ^ 5 - 5 / 10 * x ^ 2 * (1 - x) ^ 3 + 3 / 10 * x * x * (1 - x) ^ 2 + 5 * x ^ 3 * (1 - x) ^ 2 +
        5 / 10 * x ^ 6) =
        1 * (x - 0) ^ 0 * (1 - x) ^ 6 +
        1 * (x - 0) ^ 1 * (1 - x) ^ 5 +
        76 / 5 * (x - 0) ^ 2 * (1 - x) ^ 4 +
        149 / 10 * (x - 0) ^ 3 * (1 - x) ^ 3 +
        97 / 10 * (x - 0) ^ 4 * (1 - x) ^ 2 +
        6 * (x - 0) ^ 5 * (1 - x) ^ 1 +
        1 / 2 * (x - 0) ^ 6 * (1 - x) ^ 0 := by ring
  rw [e]
  have p1 : 0 ≤ x - 0 := by linarith
  have p2 : 0 ≤ 1 - x := by linarith
  generalize x - 0 = p at *
  generalize 1 - x = q at *
  clear e
  positivity

theorem red_nonneg (u : ℝ) (h0 : 0 ≤ u) (h1 : u ≤ 1) : 0 ≤ 2 * u ^ 2 * (1 - u ^ 2) ^ 5 +
    35 / 10 * (u ^ 2) ^ 2 * (1 - u ^ 2) ^ 3 + 21 / 10 * u ^ 2 * u ^ 2 * (1 - u ^ 2) ^ 2 +
      3 * (u ^ 2) ^ 3 * (1 - u ^ 2) ^ 2 + u * (1 - (1 - u ^ 2) ^ 2) := by
  have h : 0 ≤ 1 - u ^ 2 := by nlinarith
  have h' : 1 - (1 - u ^ 2) ^ 2 = u ^ 2 * (1 + (1 - u ^ 2)) := by ring
  rw [h']
  generalize 1 - u ^ 2 = q at *
  positivity

/-! ## Specification -/

section
variable {K : Type*} [Field K] [LinearOrder K] [IsStrictOrderedRing K]

theorem lin_legal {a b x : K} (ha : Legal a) (hb : Legal b) (hx : Legal x) : Legal (lin a b x) := by
  unfold lin
  obtain ⟨a0, a1⟩ := ha
  obtain ⟨b0, b1⟩ := hb
  obtain ⟨x0, x1⟩ := hx
  have y0 : 0 ≤ 1 - x := by linarith
  constructor
  · exact add_nonneg (mul_nonneg b0 x0) (mul_nonneg a0 y0)
  · have := mul_le_mul_of_nonneg_right b1 x0
    have := mul_le_mul_of_nonneg_right a1 y0
    linarith

/-- `v` is at the fraction `x` of the way from `a` to `b`. -/
def Between (a b x v : K) : Prop := v - a = x * (b - a)

theorem lin_between (a b x : K) : Between a b x (lin a b x) := by unfold Between lin; ring

/-- **C39.**  Linear gradients of grey: a legal colour for each parameter, interpolating between the ends. -/
theorem linGray_legal (a b : Gray K) (ha : a.Legal) (hb : b.Legal) (x : K) (hx : Legal x) :
    ∃ y, linGray a b x = some y ∧ y.Legal ∧ Between a.g b.g x y.g :=
  ⟨_, mkGray_ok (lin_legal ha hb hx), lin_legal ha hb hx, lin_between _ _ _⟩

/-- **C39.**  Linear gradients of RGB. -/
theorem linRgb_legal (a b : Rgb K) (ha : a.Legal) (hb : b.Legal) (x : K) (hx : Legal x) :
    ∃ y, linRgb a b x = some y ∧ y.Legal ∧ Between a.r b.r x y.r ∧ Between a.g b.g x y.g ∧ Between a.b b.b x y.b := by
  have h := And.intro (lin_legal ha.1 hb.1 hx) (And.intro (lin_legal ha.2.1 hb.2.1 hx) (lin_legal ha.2.2 hb.2.2 hx))
  exact ⟨_, mkRgb_ok h, h, lin_between _ _ _, lin_between _ _ _, lin_between _ _ _⟩

/-- **C39.**  Linear gradients of HSB. -/
theorem linHsb_legal (a b : Hsb K) (ha : a.Legal) (hb : b.Legal) (x : K) (hx : Legal x) :
    ∃ y, linHsb a b x = some y ∧ y.Legal ∧ Between a.h b.h x y.h ∧ Between a.s b.s x y.s ∧ Between a.b b.b x y.b := by
  have h := And.intro (lin_legal ha.1 hb.1 hx) (And.intro (lin_legal ha.2.1 hb.2.1 hx) (lin_legal ha.2.2 hb.2.2 hx))
  exact ⟨_, mkHsb_ok h, h, lin_between _ _ _, lin_between _ _ _, lin_between _ _ _⟩

/-- **C39.**  Linear gradients of CMYK. -/
theorem linCmyk_legal (a b : Cmyk K) (ha : a.Legal) (hb : b.Legal) (x : K) (hx : Legal x) :
    ∃ y, linCmyk a b x = some y ∧ y.Legal ∧ Between a.c b.c x y.c ∧ Between a.m b.m x y.m ∧ Between a.y b.y x y.y ∧
      Between a.k b.k x y.k := by
  have h := And.intro (lin_legal ha.1 hb.1 hx) (And.intro (lin_legal ha.2.1 hb.2.1 hx)
    (And.intro (lin_legal ha.2.2.1 hb.2.2.1 hx) (lin_legal ha.2.2.2 hb.2.2.2 hx)))
  exact ⟨_, mkCmyk_ok h, h, lin_between _ _ _, lin_between _ _ _, lin_between _ _ _, lin_between _ _ _⟩

/-- **C39.**  At the ends of the parameter range the gradients give the end colours. -/
theorem lin_ends (a b : Rgb K) (ha : a.Legal) (hb : b.Legal) (c d : Cmyk K) (hc : c.Legal) (hd : d.Legal)
    (e f : Hsb K) (he : e.Legal) (hf : f.Legal) (g h : Gray K) (hg : g.Legal) (hh : h.Legal) :
    linRgb a b 0 = some a ∧ linRgb a b 1 = some b ∧ linCmyk c d 0 = some c ∧ linCmyk c d 1 = some d ∧
    linHsb e f 0 = some e ∧ linHsb e f 1 = some f ∧ linGray g h 0 = some g ∧ linGray g h 1 = some h := by
  have l0 : ∀ x y : K, lin x y 0 = x := fun x y => by unfold lin; ring
  have l1 : ∀ x y : K, lin x y 1 = y := fun x y => by unfold lin; ring
  unfold linRgb linCmyk linHsb linGray
  simp only [l0, l1]
  exact ⟨mkRgb_ok ha, mkRgb_ok hb, mkCmyk_ok hc, mkCmyk_ok hd, mkHsb_ok he, mkHsb_ok hf, mkGray_ok hg, mkGray_ok hh⟩

/-! ## Built-in gradients -/

theorem jet_component (x : K) (hx : Legal x) : Legal (jetR x) ∧ Legal (jetG x) ∧ Legal (jetB x) := by
  obtain ⟨x0, x1⟩ := hx
  have key : ∀ a b : K, 0 < b → 0 ≤ a → a ≤ b → Legal (a / b) := fun a b hb h0 h1 =>
    ⟨div_nonneg h0 hb.le, (div_le_one hb).mpr h1⟩
  refine ⟨?_, ?_, ?_⟩
  · unfold jetR
    split_ifs
    · exact legal_zero
    · exact key _ _ (by norm_num) (by linarith) (by linarith)
    · exact legal_one
    · have := key (1 / 2 * (1 - x)) (1 - 87 / 100) (by norm_num) (by linarith) (by linarith)
      have h2 : 1 / 2 * (1 - x) / (1 - 87 / 100) ≤ (1 / 2 : K) := by
        rw [div_le_iff₀ (by norm_num)]; linarith
      exact ⟨by linarith [this.1], by linarith⟩
  · unfold jetG
    split_ifs
    · exact legal_zero
    · exact key _ _ (by norm_num) (by linarith) (by linarith)
    · exact legal_one
    · exact key _ _ (by norm_num) (by linarith) (by linarith)
    · exact legal_zero
  · unfold jetB
    split_ifs
    · have h1 : 0 ≤ 1 / 2 * x / (13 / 100 : K) := by positivity
      have h2 : 1 / 2 * x / (13 / 100 : K) ≤ 1 / 2 := by
        rw [div_le_iff₀ (by norm_num)]; linarith
      exact ⟨by linarith, by linarith⟩
    · exact legal_one
    · exact (key _ _ (by norm_num) (by linarith) (by linarith)).compl
    · exact legal_zero

/-- **C39.**  `Jet` and `ReverseJet`, and their CMYK versions. -/
theorem jet_legal [FloorRing K] (d : Device K) (hd : d.Ok) (x : K) (hx : Legal x) :
    (∃ y, jet x = some y ∧ y.Legal) ∧ (∃ y, reverseJet x = some y ∧ y.Legal) ∧
    (∃ y, cmykOfRgb d jet x = some y ∧ y.Legal) ∧ (∃ y, cmykOfRgb d reverseJet x = some y ∧ y.Legal) := by
  have h1 := jet_component x hx
  have h2 := jet_component (1 - x) hx.compl
  have e1 : jet x = some _ := mkRgb_ok h1
  have e2 : reverseJet x = some _ := mkRgb_ok h2
  refine ⟨⟨_, e1, h1⟩, ⟨_, e2, h2⟩, ?_, ?_⟩
  · unfold cmykOfRgb; rw [e1]; exact (rgb_legal d hd ⟨_, _, _⟩ h1).1
  · unfold cmykOfRgb; rw [e2]; exact (rgb_legal d hd ⟨_, _, _⟩ h2).1

/-- **C39.**  The hue gradients and their RGB and CMYK versions. -/
theorem hue_legal [FloorRing K] (d : Device K) (hd : d.Ok) (x : K) (hx : Legal x) (g : K → Option (Hsb K))
    (hg : g = rainbow ∨ g = reverseRainbow ∨ g = hue ∨ g = reverseHue) :
    (∃ y, g x = some y ∧ y.Legal) ∧ (∃ y, rgbOf g x = some y ∧ y.Legal) ∧
    (∃ y, cmykOfHsb d g x = some y ∧ y.Legal) := by
  have ht : Legal (2 / 3 : K) := ⟨by norm_num, by norm_num⟩
  have main : ∃ y, g x = some y ∧ y.Legal := by
    rcases hg with rfl | rfl | rfl | rfl
    · obtain ⟨y, h1, h2, -⟩ := linHsb_legal ⟨0, 1, 1⟩ ⟨2 / 3, 1, 1⟩ ⟨legal_zero, legal_one, legal_one⟩
        ⟨ht, legal_one, legal_one⟩ x hx
      exact ⟨y, h1, h2⟩
    · obtain ⟨y, h1, h2, -⟩ := linHsb_legal ⟨2 / 3, 1, 1⟩ ⟨0, 1, 1⟩ ⟨ht, legal_one, legal_one⟩
        ⟨legal_zero, legal_one, legal_one⟩ x hx
      exact ⟨y, h1, h2⟩
    · obtain ⟨y, h1, h2, -⟩ := linHsb_legal ⟨0, 1, 1⟩ ⟨1, 1, 1⟩ ⟨legal_zero, legal_one, legal_one⟩
        ⟨legal_one, legal_one, legal_one⟩ x hx
      exact ⟨y, h1, h2⟩
    · obtain ⟨y, h1, h2, -⟩ := linHsb_legal ⟨1, 1, 1⟩ ⟨0, 1, 1⟩ ⟨legal_one, legal_one, legal_one⟩
        ⟨legal_zero, legal_one, legal_one⟩ x hx
      exact ⟨y, h1, h2⟩
  obtain ⟨y, e, hy⟩ := main
  obtain ⟨h1, h2, -⟩ := hsb_legal d hd y hy
  refine ⟨⟨y, e, hy⟩, ?_, ?_⟩
  · unfold rgbOf; rw [e]; exact h1
  · unfold cmykOfHsb; rw [e]; exact h2

/-- **C39.**  Selecting the colour of data set `index` of `n`: the parameter is `index/(n-1)`, zero for a single
data set; it is legal, the first data set gets parameter 0 and the last one 1. -/
theorem select_param {α : Type*} (getcolor : K → α) (index n : ℕ) (h : index < n) :
    ∃ p, select getcolor index n = getcolor p ∧ Legal p ∧ p * ((n : K) - 1) = index ∧ (index = 0 → p = 0) ∧
      (index + 1 = n → 1 < n → p = 1) := by
  unfold select
  by_cases hn : n = 1
  · subst hn
    have : index = 0 := by omega
    subst this
    refine ⟨0, by simp, legal_zero, by simp, fun _ => rfl, fun _ h => by omega⟩
  · rw [if_neg hn]
    have hn2 : 1 < n := by omega
    have hp : (0 : K) < (n : K) - 1 := by
      have : (1 : K) < n := by exact_mod_cast hn2
      linarith
    have hle : (index : K) ≤ (n : K) - 1 := by
      have : (index : K) + 1 ≤ n := by exact_mod_cast h
      linarith
    refine ⟨_, rfl, ⟨div_nonneg (Nat.cast_nonneg _) hp.le, (div_le_one hp).mpr hle⟩, by field_simp, ?_, ?_⟩
    · rintro rfl; simp
    · intro e _
      have : (n : K) = index + 1 := by exact_mod_cast e.symm
      rw [this, add_sub_cancel_right, div_self]
      intro h0
      rw [this, h0] at hp
      simp at hp

end

/-- **C39.**  `BlackYellow` and `YellowBlack`. -/
theorem blackYellow_legal (x : ℝ) (hx : Legal x) :
    (∃ y, blackYellow x = some y ∧ y.Legal) ∧ (∃ y, yellowBlack x = some y ∧ y.Legal) := by
  have key : ∀ x : ℝ, Legal x → ∃ y, blackYellow x = some y ∧ y.Legal := by
    intro x hx
    obtain ⟨u, hu0, rfl⟩ : ∃ u : ℝ, 0 ≤ u ∧ u ^ 2 = x := ⟨Real.sqrt x, Real.sqrt_nonneg x, Real.sq_sqrt hx.1⟩
    have hu1 : u ≤ 1 := by
      have := hx.2
      nlinarith
    have hs : (u ^ 2) ^ (1 / 2 : ℝ) = u := by
      rw [← Real.sqrt_eq_rpow, Real.sqrt_sq hu0]
    have h : Legal (2 * u ^ 2 * (1 - u ^ 2) ^ 5 + 35 / 10 * (u ^ 2) ^ 2 * (1 - u ^ 2) ^ 3 +
        21 / 10 * u ^ 2 * u ^ 2 * (1 - u ^ 2) ^ 2 + 3 * (u ^ 2) ^ 3 * (1 - u ^ 2) ^ 2 + u * (1 - (1 - u ^ 2) ^ 2)) :=
      ⟨red_nonneg u hu0 hu1, by linarith [red_le u hu0 hu1]⟩
    have hg : Legal (15 / 10 * (u ^ 2) ^ 2 * (1 - u ^ 2) ^ 3 - 8 / 10 * (u ^ 2) ^ 3 * (1 - u ^ 2) ^ 2 +
        2 * (u ^ 2) ^ 4 * (1 - u ^ 2) + (u ^ 2) ^ 4) :=
      ⟨green_nonneg _ hx.1 hx.2, by linarith [green_le _ hx.1 hx.2]⟩
    have hb : Legal (5 * u ^ 2 * (1 - u ^ 2) ^ 5 - 5 / 10 * (u ^ 2) ^ 2 * (1 - u ^ 2) ^ 3 +
        3 / 10 * u ^ 2 * u ^ 2 * (1 - u ^ 2) ^ 2 + 5 * (u ^ 2) ^ 3 * (1 - u ^ 2) ^ 2 + 5 / 10 * (u ^ 2) ^ 6) :=
      ⟨blue_nonneg _ hx.1 hx.2, by linarith [blue_le _ hx.1 hx.2]⟩
    unfold blackYellow
    rw [hs]
    exact ⟨_, mkRgb_ok ⟨h, hg, hb⟩, h, hg, hb⟩
  refine ⟨key x hx, ?_⟩
  have e : yellowBlack x = blackYellow (1 - x) := by
    unfold yellowBlack blackYellow
    simp only [sub_sub_cancel]
  rw [e]
  exact key _ hx.compl

/-! ## Examples -/

example : linRgb (⟨1, 0, 0⟩ : Rgb ℚ) ⟨0, 0, 1⟩ (1 / 4) = some ⟨3 / 4, 0, 1 / 4⟩ := by decide +kernel
example : select (fun p : ℚ => linRgb ⟨1, 0, 0⟩ ⟨0, 0, 1⟩ p) 1 5 = some ⟨3 / 4, 0, 1 / 4⟩ := by decide +kernel
example : jet (1 / 2 : ℚ) = some ⟨1 / 2, 1, 1 / 2⟩ := by decide +kernel

/-- Outside the parameter range the colours are rejected. -/
example : linRgb (⟨1, 0, 0⟩ : Rgb ℚ) ⟨0, 0, 1⟩ (5 / 4) = none := by decide +kernel

end PyX.Color
