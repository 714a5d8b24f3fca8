import Verif.Color.Model
import Mathlib.Data.Rat.Floor
import Mathlib.Tactic.Linarith
import Mathlib.Tactic.FieldSimp
import Mathlib.Tactic.Ring
import Mathlib.Tactic.NormNum
import Mathlib.Tactic.Positivity
import Mathlib.Tactic.IntervalCases

/-!
# C37: colour conversions
-/

set_option linter.unusedSectionVars false

namespace PyX.Color

variable {K : Type*} [Field K] [LinearOrder K] [IsStrictOrderedRing K]

/-! ## Legal colours -/

/-- A legal component. -/
def Legal (x : K) : Prop := 0 ≤ x ∧ x ≤ 1

def Gray.Legal (x : Gray K) : Prop := Color.Legal x.g
def Rgb.Legal (x : Rgb K) : Prop := Color.Legal x.r ∧ Color.Legal x.g ∧ Color.Legal x.b
def Hsb.Legal (x : Hsb K) : Prop := Color.Legal x.h ∧ Color.Legal x.s ∧ Color.Legal x.b
def Cmyk.Legal (x : Cmyk K) : Prop := Color.Legal x.c ∧ Color.Legal x.m ∧ Color.Legal x.y ∧ Color.Legal x.k

theorem inRange_iff (x : K) : inRange x = true ↔ Legal x := by
  unfold inRange Legal
  simp [not_lt]

/-- **C37.**  The constructors accept exactly the components in [0,1]. -/
theorem mkGray_iff (g : K) (x : Gray K) : mkGray g = some x ↔ Legal g ∧ x = ⟨g⟩ := by
  unfold mkGray
  by_cases h : Legal g
  · simp [(inRange_iff g).mpr h, h, eq_comm]
  · rw [if_neg fun e => h ((inRange_iff g).mp e)]
    simp [h]

theorem mkRgb_iff (r g b : K) (x : Rgb K) : mkRgb r g b = some x ↔ (Legal r ∧ Legal g ∧ Legal b) ∧ x = ⟨r, g, b⟩ := by
  unfold mkRgb
  rw [Bool.and_assoc]
  by_cases h : Legal r ∧ Legal g ∧ Legal b
  · simp [(inRange_iff r).mpr h.1, (inRange_iff g).mpr h.2.1, (inRange_iff b).mpr h.2.2, h, eq_comm]
  · rw [if_neg]
    · simp [h]
    · rw [Bool.and_eq_true, Bool.and_eq_true, inRange_iff, inRange_iff, inRange_iff]
      exact h

theorem mkHsb_iff (r g b : K) (x : Hsb K) : mkHsb r g b = some x ↔ (Legal r ∧ Legal g ∧ Legal b) ∧ x = ⟨r, g, b⟩ := by
  unfold mkHsb
  rw [Bool.and_assoc]
  by_cases h : Legal r ∧ Legal g ∧ Legal b
  · simp [(inRange_iff r).mpr h.1, (inRange_iff g).mpr h.2.1, (inRange_iff b).mpr h.2.2, h, eq_comm]
  · rw [if_neg]
    · simp [h]
    · rw [Bool.and_eq_true, Bool.and_eq_true, inRange_iff, inRange_iff, inRange_iff]
      exact h

theorem mkCmyk_iff (c m y k : K) (x : Cmyk K) :
    mkCmyk c m y k = some x ↔ (Legal c ∧ Legal m ∧ Legal y ∧ Legal k) ∧ x = ⟨c, m, y, k⟩ := by
  unfold mkCmyk
  rw [Bool.and_assoc, Bool.and_assoc]
  by_cases h : Legal c ∧ Legal m ∧ Legal y ∧ Legal k
  · simp [(inRange_iff c).mpr h.1, (inRange_iff m).mpr h.2.1, (inRange_iff y).mpr h.2.2.1, (inRange_iff k).mpr h.2.2.2, h,
      eq_comm]
  · rw [if_neg]
    · simp [h]
    · rw [Bool.and_eq_true, Bool.and_eq_true, Bool.and_eq_true, inRange_iff, inRange_iff, inRange_iff, inRange_iff]
      exact h

/-- **C37.**  The constructors reject every component outside [0,1]. -/
theorem constructors_reject (a b c d : K) :
    (¬ Legal a → mkGray a = none) ∧ (¬ (Legal a ∧ Legal b ∧ Legal c) → mkRgb a b c = none) ∧
    (¬ (Legal a ∧ Legal b ∧ Legal c) → mkHsb a b c = none) ∧
    (¬ (Legal a ∧ Legal b ∧ Legal c ∧ Legal d) → mkCmyk a b c d = none) := by
  refine ⟨?_, ?_, ?_, ?_⟩ <;> intro h <;> rw [Option.eq_none_iff_forall_ne_some] <;> intro x hx
  · exact h ((mkGray_iff _ _).mp hx).1
  · exact h ((mkRgb_iff _ _ _ _).mp hx).1
  · exact h ((mkHsb_iff _ _ _ _).mp hx).1
  · exact h ((mkCmyk_iff _ _ _ _ _).mp hx).1

theorem mkGray_ok {g : K} (h : Legal g) : mkGray g = some ⟨g⟩ := (mkGray_iff _ _).mpr ⟨h, rfl⟩
theorem mkRgb_ok {r g b : K} (h : Legal r ∧ Legal g ∧ Legal b) : mkRgb r g b = some ⟨r, g, b⟩ :=
  (mkRgb_iff _ _ _ _).mpr ⟨h, rfl⟩
theorem mkHsb_ok {r g b : K} (h : Legal r ∧ Legal g ∧ Legal b) : mkHsb r g b = some ⟨r, g, b⟩ :=
  (mkHsb_iff _ _ _ _).mpr ⟨h, rfl⟩
theorem mkCmyk_ok {c m y k : K} (h : Legal c ∧ Legal m ∧ Legal y ∧ Legal k) : mkCmyk c m y k = some ⟨c, m, y, k⟩ :=
  (mkCmyk_iff _ _ _ _ _).mpr ⟨h, rfl⟩

theorem legal_zero : Legal (0 : K) := ⟨le_rfl, zero_le_one⟩
theorem legal_one : Legal (1 : K) := ⟨zero_le_one, le_rfl⟩
theorem Legal.compl {x : K} (h : Legal x) : Legal (1 - x) := ⟨by linarith [h.2], by linarith [h.1]⟩
theorem legal_clamp (x : K) : Legal (min 1 (max 0 x)) :=
  ⟨le_min zero_le_one (le_max_left _ _), min_le_left _ _⟩

/-! ## Each conversion of a legal colour succeeds with a legal colour -/

/-- The documented ranges of the device functions (`color.py:30-31`); only that of black generation matters. -/
def Device.Ok (d : Device K) : Prop := ∀ x, Legal x → Legal (d.bg x)

theorem default_ok : (Device.default : Device K).Ok := fun _ h => h

/-- **C37.**  Grey to the other models. -/
theorem gray_legal (x : Gray K) (h : x.Legal) :
    (∃ y, x.cmyk = some y ∧ y.Legal) ∧ (∃ y, x.hsb = some y ∧ y.Legal) ∧ (∃ y, x.rgb = some y ∧ y.Legal) := by
  have h : Legal x.g := h
  exact ⟨⟨_, mkCmyk_ok ⟨legal_zero, legal_zero, legal_zero, h.compl⟩, legal_zero, legal_zero, legal_zero, h.compl⟩,
    ⟨_, mkHsb_ok ⟨legal_zero, legal_zero, h⟩, legal_zero, legal_zero, h⟩, ⟨_, mkRgb_ok ⟨h, h, h⟩, h, h, h⟩⟩

theorem min3_legal {a b c : K} (ha : Legal a) (hb : Legal b) (hc : Legal c) : Legal (min (min a b) c) :=
  ⟨le_min (le_min ha.1 hb.1) hc.1, (min_le_right _ _).trans hc.2⟩

/-- The hue, saturation and brightness computed by the standard library. -/
theorem rgbToHsv_legal [FloorRing K] {r g b : K} (hr : Legal r) (hg : Legal g) (hb : Legal b) :
    Legal (rgbToHsv r g b).1 ∧ Legal (rgbToHsv r g b).2.1 ∧ Legal (rgbToHsv r g b).2.2 := by
  have hmax : Legal (max (max r g) b) :=
    ⟨hb.1.trans (le_max_right _ _), max_le (max_le hr.2 hg.2) hb.2⟩
  have hmin := min3_legal hr hg hb
  unfold rgbToHsv
  by_cases hm : min (min r g) b = max (max r g) b
  · simp only [hm, if_true]
    exact ⟨legal_zero, legal_zero, hmax⟩
  · simp only [hm, if_false]
    have hle : min (min r g) b ≤ max (max r g) b := (min_le_right _ _).trans (le_max_right _ _)
    have hlt := lt_of_le_of_ne hle hm
    refine ⟨⟨Int.fract_nonneg _, (Int.fract_lt_one _).le⟩, ⟨?_, ?_⟩, hmax⟩
    · exact div_nonneg (by linarith) hmax.1
    · rw [div_le_one (lt_of_le_of_lt hmin.1 hlt)]
      linarith [hmin.1]

/-- **C37.**  RGB to the other models, for all device functions with legal black generation. -/
theorem rgb_legal [FloorRing K] (d : Device K) (hd : d.Ok) (x : Rgb K) (h : x.Legal) :
    (∃ y, x.cmyk d = some y ∧ y.Legal) ∧ (∃ y, x.gray = some y ∧ y.Legal) ∧ (∃ y, x.hsb = some y ∧ y.Legal) := by
  obtain ⟨hr, hg, hb⟩ := h
  have hk := hd _ (min3_legal hr.compl hg.compl hb.compl)
  refine ⟨⟨_, mkCmyk_ok ⟨legal_clamp _, legal_clamp _, legal_clamp _, hk⟩, legal_clamp _, legal_clamp _,
    legal_clamp _, hk⟩, ⟨_, mkGray_ok ?_, ?_⟩, ⟨_, mkHsb_ok (rgbToHsv_legal hr hg hb), rgbToHsv_legal hr hg hb⟩⟩ <;>
  · unfold Color.Legal at *
    exact ⟨by linarith [hr.1, hg.1, hb.1], by linarith [hr.2, hg.2, hb.2]⟩

theorem mul_legal {a b : K} (ha : Legal a) (hb : Legal b) : Legal (a * b) :=
  ⟨mul_nonneg ha.1 hb.1, mul_le_one₀ ha.2 hb.1 hb.2⟩

theorem hsvToRgb_legal [FloorRing K] {h s v : K} (hs : Legal s) (hv : Legal v) :
    Legal (hsvToRgb h s v).1 ∧ Legal (hsvToRgb h s v).2.1 ∧ Legal (hsvToRgb h s v).2.2 := by
  have hf : Legal (h * 6 - (⌊h * 6⌋ : K)) :=
    ⟨sub_nonneg.mpr (Int.floor_le _), by linarith [Int.lt_floor_add_one (h * 6)]⟩
  have p1 := mul_legal hv hs.compl
  have p2 := mul_legal hv (mul_legal hs hf).compl
  have p3 := mul_legal hv (mul_legal hs hf.compl).compl
  unfold hsvToRgb
  by_cases h0 : s = 0
  · rw [if_pos h0]; exact ⟨hv, hv, hv⟩
  · rw [if_neg h0]
    simp only
    split_ifs <;> exact ⟨by assumption, by assumption, by assumption⟩

/-- **C37.**  HSB to the other models. -/
theorem hsb_legal [FloorRing K] (d : Device K) (hd : d.Ok) (x : Hsb K) (h : x.Legal) :
    (∃ y, x.rgb = some y ∧ y.Legal) ∧ (∃ y, x.cmyk d = some y ∧ y.Legal) ∧ (∃ y, x.gray = some y ∧ y.Legal) := by
  have hl := hsvToRgb_legal (h := x.h) h.2.1 h.2.2
  have hr : x.rgb = some _ := mkRgb_ok hl
  obtain ⟨h1, h2, -⟩ := rgb_legal d hd ⟨_, _, _⟩ hl
  refine ⟨⟨_, hr, hl⟩, ?_, ?_⟩
  · unfold Hsb.cmyk; rw [hr]; exact h1
  · unfold Hsb.gray; rw [hr]; exact h2

/-- **C37.**  CMYK to the other models. -/
theorem cmyk_legal [FloorRing K] (x : Cmyk K) (h : x.Legal) :
    (∃ y, x.rgb = some y ∧ y.Legal) ∧ (∃ y, x.gray = some y ∧ y.Legal) ∧ (∃ y, x.hsb = some y ∧ y.Legal) := by
  obtain ⟨hc, hm, hy, hk⟩ := h
  have key : ∀ a : K, 0 ≤ a → Legal (1 - min 1 a) := fun a ha =>
    ⟨by linarith [min_le_left (1 : K) a], by linarith [le_min zero_le_one ha]⟩
  have hl := And.intro (key _ (add_nonneg hc.1 hk.1)) (And.intro (key _ (add_nonneg hm.1 hk.1))
    (key _ (add_nonneg hy.1 hk.1)))
  have hr : x.rgb = some _ := mkRgb_ok hl
  have hg : Legal (1 - min 1 (3 / 10 * x.c + 59 / 100 * x.m + 11 / 100 * x.y + x.k)) := by
    refine key _ ?_
    have := hc.1; have := hm.1; have := hy.1; have := hk.1
    linarith
  refine ⟨⟨_, hr, hl⟩, ⟨_, mkGray_ok hg, hg⟩, ?_⟩
  unfold Cmyk.hsb
  rw [hr]
  exact ⟨_, mkHsb_ok (rgbToHsv_legal hl.1 hl.2.1 hl.2.2), rgbToHsv_legal hl.1 hl.2.1 hl.2.2⟩

/-! ## Round trips -/

/-- **C37.**  Grey to RGB, HSB or CMYK and back is the identity. -/
theorem gray_roundtrip [FloorRing K] (x : Gray K) (h : x.Legal) :
    x.rgb.bind Rgb.gray = some x ∧ x.cmyk.bind Cmyk.gray = some x ∧ x.hsb.bind Hsb.gray = some x := by
  have h : Legal x.g := h
  have hrgb : ∀ g : K, Legal g → (Rgb.mk g g g).gray = some ⟨g⟩ := by
    intro g hg
    have e : 3 / 10 * g + 59 / 100 * g + 11 / 100 * g = g := by ring
    unfold Rgb.gray
    simp only [e]
    exact mkGray_ok hg
  refine ⟨?_, ?_, ?_⟩
  · unfold Gray.rgb
    rw [mkRgb_ok ⟨h, h, h⟩]
    exact hrgb _ h
  · unfold Gray.cmyk
    rw [mkCmyk_ok ⟨legal_zero, legal_zero, legal_zero, h.compl⟩]
    unfold Cmyk.gray
    have e : 1 - min 1 (3 / 10 * (0 : K) + 59 / 100 * 0 + 11 / 100 * 0 + (1 - x.g)) = x.g := by
      rw [min_eq_right] <;> linarith [h.1]
    simp only [Option.bind_some, e]
    exact mkGray_ok h
  · unfold Gray.hsb
    rw [mkHsb_ok ⟨legal_zero, legal_zero, h⟩]
    unfold Hsb.gray Hsb.rgb hsvToRgb
    simp only [Option.bind_some, if_true, mkRgb_ok ⟨h, h, h⟩]
    exact hrgb _ h

/-- **C37.**  RGB to CMYK and back is the identity (with the default device functions). -/
theorem rgb_cmyk_roundtrip (x : Rgb K) (h : x.Legal) : (x.cmyk .default).bind Cmyk.rgb = some x := by
  obtain ⟨hr, hg, hb⟩ := h
  have hk := min3_legal hr.compl hg.compl hb.compl
  have k1 : min (min (1 - x.r) (1 - x.g)) (1 - x.b) ≤ 1 - x.r := (min_le_left _ _).trans (min_le_left _ _)
  have k2 : min (min (1 - x.r) (1 - x.g)) (1 - x.b) ≤ 1 - x.g := (min_le_left _ _).trans (min_le_right _ _)
  have k3 : min (min (1 - x.r) (1 - x.g)) (1 - x.b) ≤ 1 - x.b := min_le_right _ _
  unfold Rgb.cmyk Device.default
  simp only [id]
  generalize min (min (1 - x.r) (1 - x.g)) (1 - x.b) = k at *
  have e : ∀ a : K, Legal a → k ≤ 1 - a → 1 - min 1 (min 1 (max 0 (1 - a - k)) + k) = a := by
    intro a ha hka
    have := ha.1; have := ha.2; have := hk.1
    rw [max_eq_right (by linarith), min_eq_right (a := 1) (b := 1 - a - k) (by linarith), min_eq_right (by linarith)]
    ring
  rw [mkCmyk_ok ⟨legal_clamp _, legal_clamp _, legal_clamp _, hk⟩]
  unfold Cmyk.rgb
  simp only [Option.bind_some, e _ hr k1, e _ hg k2, e _ hb k3]
  exact mkRgb_ok ⟨hr, hg, hb⟩

/-- CMYK to RGB and back is the identity for colours as they come from that conversion: one of the inks is zero and
none is darker than black. -/
theorem cmyk_rgb_roundtrip (x : Cmyk K) (h : x.Legal) (hm : min (min x.c x.m) x.y = 0)
    (hk : x.c + x.k ≤ 1 ∧ x.m + x.k ≤ 1 ∧ x.y + x.k ≤ 1) : x.rgb.bind (Rgb.cmyk .default) = some x := by
  obtain ⟨hc, hm', hy, hkk⟩ := h
  unfold Cmyk.rgb
  rw [min_eq_right hk.1, min_eq_right hk.2.1, min_eq_right hk.2.2]
  have l : ∀ a : K, Legal a → a + x.k ≤ 1 → Legal (1 - (a + x.k)) := fun a ha hak =>
    ⟨by linarith, by linarith [ha.1, hkk.1]⟩
  rw [mkRgb_ok ⟨l _ hc hk.1, l _ hm' hk.2.1, l _ hy hk.2.2⟩]
  unfold Rgb.cmyk Device.default
  simp only [Option.bind_some, sub_sub_cancel, id]
  have ek : min (min (x.c + x.k) (x.m + x.k)) (x.y + x.k) = x.k := by
    rw [min_add_add_right, min_add_add_right, hm, zero_add]
  rw [ek]
  have e : ∀ a : K, Legal a → min 1 (max 0 (a + x.k - x.k)) = a := fun a ha => by
    rw [add_sub_cancel_right, max_eq_right ha.1, min_eq_right ha.2]
  rw [e _ hc, e _ hm', e _ hy]
  exact mkCmyk_ok ⟨hc, hm', hy, hkk⟩

/-- What the hue computed by the standard library means: sextant and position in it. -/
theorem hsvToRgb_at [FloorRing K] (n : ℕ) (f s v : K) (hs : s ≠ 0) (hf : 0 ≤ f ∧ f < 1) (hn : n < 6) :
    hsvToRgb ((n + f) / 6) s v =
      if n = 0 then (v, v * (1 - s * (1 - f)), v * (1 - s))
      else if n = 1 then (v * (1 - s * f), v, v * (1 - s))
      else if n = 2 then (v * (1 - s), v, v * (1 - s * (1 - f)))
      else if n = 3 then (v * (1 - s), v * (1 - s * f), v)
      else if n = 4 then (v * (1 - s * (1 - f)), v * (1 - s), v)
      else (v, v * (1 - s), v * (1 - s * f)) := by
  have e : ((n : K) + f) / 6 * 6 = n + f := by field_simp
  have hfl : ⌊(n : K) + f⌋ = (n : ℤ) := by
    rw [Int.floor_eq_iff]
    push_cast
    exact ⟨by linarith [hf.1], by linarith [hf.2]⟩
  have hd : (n : K) + f - ((n : ℤ) : K) = f := by push_cast; ring
  unfold hsvToRgb
  rw [if_neg hs]
  simp only [e, hfl, hd]
  interval_cases n <;> rfl

theorem hsv_hue [FloorRing K] {h : K} (n : ℕ) (hn : n < 6) (h1 : (n : K) ≤ h) (h2 : h < n + 1) :
    Int.fract (h / 6) = ((n : K) + (h - n)) / 6 := by
  have : (n : K) + (h - n) = h := by ring
  rw [this, Int.fract_eq_self]
  have hn0 : (0 : K) ≤ n := Nat.cast_nonneg n
  have hn6 : (n : K) + 1 ≤ 6 := by exact_mod_cast hn
  constructor
  · apply div_nonneg <;> linarith
  · rw [div_lt_one] <;> linarith

/-- The hue of the last sextant, given as a negative number. -/
theorem hsv_hue_neg [FloorRing K] {h : K} (h1 : -1 ≤ h) (h2 : h < 0) :
    Int.fract (h / 6) = (((5 : ℕ) : K) + (h + 1)) / 6 := by
  have : (((5 : ℕ) : K) + (h + 1)) / 6 = h / 6 + ((1 : ℤ) : K) := by push_cast; ring
  rw [this, ← Int.fract_add_intCast (h / 6) 1, Int.fract_eq_self]
  push_cast
  constructor
  · linarith
  · linarith

/-- **C37.**  RGB to HSB and back is the identity. -/
theorem rgb_hsb_roundtrip [FloorRing K] (x : Rgb K) (h : x.Legal) : x.hsb.bind Hsb.rgb = some x := by
  obtain ⟨hr, hg, hb⟩ := h
  unfold Rgb.hsb
  rw [mkHsb_ok (rgbToHsv_legal hr hg hb)]
  unfold Hsb.rgb
  simp only [Option.bind_some]
  suffices hs : hsvToRgb (rgbToHsv x.r x.g x.b).1 (rgbToHsv x.r x.g x.b).2.1 (rgbToHsv x.r x.g x.b).2.2 =
      (x.r, x.g, x.b) by
    rw [hs]; exact mkRgb_ok ⟨hr, hg, hb⟩
  obtain ⟨r, g, b⟩ := x
  simp only at hr hg hb ⊢
  unfold rgbToHsv
  by_cases hm : min (min r g) b = max (max r g) b
  · simp only [hm, if_true]
    have e1 : r ≤ max (max r g) b := (le_max_left _ _).trans (le_max_left _ _)
    have e2 : g ≤ max (max r g) b := (le_max_right _ _).trans (le_max_left _ _)
    have e3 : b ≤ max (max r g) b := le_max_right _ _
    have f1 : max (max r g) b ≤ r := by rw [← hm]; exact (min_le_left _ _).trans (min_le_left _ _)
    have f2 : max (max r g) b ≤ g := by rw [← hm]; exact (min_le_left _ _).trans (min_le_right _ _)
    have f3 : max (max r g) b ≤ b := by rw [← hm]; exact min_le_right _ _
    unfold hsvToRgb
    simp only [if_true]
    rw [Prod.mk.injEq, Prod.mk.injEq]
    exact ⟨le_antisymm f1 e1, le_antisymm f2 e2, le_antisymm f3 e3⟩
  · simp only [hm, if_false]
    have hne := hm
    -- put the six orders
    have main : ∀ mx mn : K, mx = max (max r g) b → mn = min (min r g) b → 0 ≤ mn → mn < mx →
        hsvToRgb (Int.fract ((if r = mx then (mx - b) / (mx - mn) - (mx - g) / (mx - mn) else
          if g = mx then 2 + (mx - r) / (mx - mn) - (mx - b) / (mx - mn)
          else 4 + (mx - g) / (mx - mn) - (mx - r) / (mx - mn)) / 6)) ((mx - mn) / mx) mx = (r, g, b) := by
      intro mx mn emx emn h0 hlt
      have pd : 0 < mx - mn := by linarith
      have pm : 0 < mx := by linarith
      have hs0 : (mx - mn) / mx ≠ 0 := (div_pos pd pm).ne'
      have a1 : r ≤ mx := emx ▸ (le_max_left _ _).trans (le_max_left _ _)
      have a2 : g ≤ mx := emx ▸ (le_max_right _ _).trans (le_max_left _ _)
      have a3 : b ≤ mx := emx ▸ le_max_right _ _
      have b1 : mn ≤ r := emn ▸ (min_le_left _ _).trans (min_le_left _ _)
      have b2 : mn ≤ g := emn ▸ (min_le_left _ _).trans (min_le_right _ _)
      have b3 : mn ≤ b := emn ▸ min_le_right _ _
      have cmn : mn = r ∨ mn = g ∨ mn = b := by
        rcases min_choice (min r g) b with e | e
        · rcases min_choice r g with e' | e'
          · left; rw [emn, e, e']
          · right; left; rw [emn, e, e']
        · right; right; rw [emn, e]
      have cmx : mx = r ∨ mx = g ∨ mx = b := by
        rcases max_choice (max r g) b with e | e
        · rcases max_choice r g with e' | e'
          · left; rw [emx, e, e']
          · right; left; rw [emx, e, e']
        · right; right; rw [emx, e]
      clear emx emn hm hne
      have low : mx * (1 - (mx - mn) / mx) = mn := by field_simp; ring
      -- values at a position given by a colour component `c`
      have up : ∀ c : K, mx * (1 - (mx - mn) / mx * (1 - (c - mn) / (mx - mn))) = c := fun c => by
        field_simp; ring
      have dn : ∀ c : K, mx * (1 - (mx - mn) / mx * ((mx - c) / (mx - mn))) = c := fun c => by
        field_simp; ring
      have fr : ∀ c : K, mn ≤ c → c < mx → 0 ≤ (c - mn) / (mx - mn) ∧ (c - mn) / (mx - mn) < 1 := fun c h1 h2 =>
        ⟨div_nonneg (by linarith) pd.le, by rw [div_lt_one pd]; linarith⟩
      have fr' : ∀ c : K, mn < c → c ≤ mx → 0 ≤ (mx - c) / (mx - mn) ∧ (mx - c) / (mx - mn) < 1 := fun c h1 h2 =>
        ⟨div_nonneg (by linarith) pd.le, by rw [div_lt_one pd]; linarith⟩
      -- the general step
      have st : ∀ (n : ℕ) (f h : K), n < 6 → 0 ≤ f ∧ f < 1 → h = n + f →
          Int.fract (h / 6) = ((n : K) + f) / 6 := by
        intro n f h hn hf e
        rw [hsv_hue n hn (by linarith [hf.1]) (by linarith [hf.2]), e]
        ring
      by_cases c1 : r = mx
      · rw [if_pos c1]
        by_cases hgb : b ≤ g
        · -- b is the lowest
          have hbm : b = mn := by
            rcases cmn with e | e | e
            · linarith
            · linarith
            · exact e.symm
          rcases lt_or_eq_of_le a2 with hlt2 | heq
          · rw [st 0 ((g - mn) / (mx - mn)) _ (by norm_num) (fr g b2 hlt2) (by rw [hbm]; push_cast; field_simp; ring),
              hsvToRgb_at 0 _ _ _ hs0 (fr g b2 hlt2) (by norm_num), if_pos rfl, up, low, c1, hbm]
          · rw [st 1 0 _ (by norm_num) ⟨le_rfl, zero_lt_one⟩ (by rw [hbm, heq]; push_cast; field_simp; ring),
              hsvToRgb_at 1 _ _ _ hs0 ⟨le_rfl, zero_lt_one⟩ (by norm_num)]
            simp only [one_ne_zero, if_false, if_true, mul_zero, sub_zero, mul_one, low, c1, heq, hbm]
        · push Not at hgb
          have hgm : g = mn := by
            rcases cmn with e | e | e
            · linarith
            · exact e.symm
            · linarith
          have hneg : (mx - b) / (mx - mn) - (mx - g) / (mx - mn) = (mx - b) / (mx - mn) - 1 := by
            rw [hgm, div_self pd.ne']
          have hb' : mn < b := by rw [← hgm]; exact hgb
          have hf := fr' b hb' a3
          rw [hneg, hsv_hue_neg (by linarith [hf.1]) (by linarith [hf.2]), sub_add_cancel,
            hsvToRgb_at 5 _ _ _ hs0 hf (by norm_num)]
          simp only [OfNat.ofNat_ne_zero, OfNat.ofNat_ne_one, if_false, low, dn, c1, hgm]
          norm_num
      · rw [if_neg c1]
        have hr' : r < mx := lt_of_le_of_ne a1 c1
        by_cases c2 : g = mx
        · rw [if_pos c2]
          by_cases hrb : b < r
          · have hbm : b = mn := by
              rcases cmn with e | e | e
              · linarith
              · linarith
              · exact e.symm
            have hf := fr' r (by linarith) a1
            rw [st 1 ((mx - r) / (mx - mn)) _ (by norm_num) hf (by rw [hbm, div_self pd.ne']; push_cast; ring),
              hsvToRgb_at 1 _ _ _ hs0 hf (by norm_num)]
            simp only [one_ne_zero, if_false, if_true, low, dn, c2, hbm]
          · push Not at hrb
            have hrm : r = mn := by
              rcases cmn with e | e | e
              · exact e.symm
              · linarith
              · linarith
            rcases lt_or_eq_of_le a3 with hlt3 | heq
            · have hf := fr b b3 hlt3
              rw [st 2 ((b - mn) / (mx - mn)) _ (by norm_num) hf (by rw [hrm]; push_cast; field_simp; ring),
                hsvToRgb_at 2 _ _ _ hs0 hf (by norm_num)]
              norm_num [low, up, c2, hrm]
            · rw [st 3 0 _ (by norm_num) ⟨le_rfl, zero_lt_one⟩ (by rw [hrm, heq]; push_cast; field_simp; ring),
                hsvToRgb_at 3 _ _ _ hs0 ⟨le_rfl, zero_lt_one⟩ (by norm_num)]
              norm_num [low, c2, heq, hrm]
        · rw [if_neg c2]
          have hg' : g < mx := lt_of_le_of_ne a2 c2
          have c3 : b = mx := by
            rcases cmx with e | e | e
            · exact absurd e.symm c1
            · exact absurd e.symm c2
            · exact e.symm
          by_cases hrg : r < g
          · have hrm : r = mn := by
              rcases cmn with e | e | e
              · exact e.symm
              · linarith
              · linarith
            have hf := fr' g (by linarith) a2
            rw [st 3 ((mx - g) / (mx - mn)) _ (by norm_num) hf (by rw [hrm, div_self pd.ne']; push_cast; ring),
              hsvToRgb_at 3 _ _ _ hs0 hf (by norm_num)]
            norm_num [low, dn, c3, hrm]
          · push Not at hrg
            have hgm : g = mn := by
              rcases cmn with e | e | e
              · linarith
              · exact e.symm
              · linarith
            have hf := fr r b1 hr'
            rw [st 4 ((r - mn) / (mx - mn)) _ (by norm_num) hf (by rw [hgm]; push_cast; field_simp; ring),
              hsvToRgb_at 4 _ _ _ hs0 hf (by norm_num)]
            norm_num [low, up, c3, hgm]
    refine main _ _ rfl rfl (min3_legal hr hg hb).1 (lt_of_le_of_ne ?_ hm)
    exact (min_le_right _ _).trans (le_max_right _ _)

/-! ## Examples -/

example : (⟨1 / 2, 1 / 4, 1⟩ : Rgb ℚ).Legal := by refine ⟨⟨?_, ?_⟩, ⟨?_, ?_⟩, ⟨?_, ?_⟩⟩ <;> norm_num

example : (⟨1 / 2, 1 / 4, 1⟩ : Rgb ℚ).cmyk .default = some ⟨1 / 2, 3 / 4, 0, 0⟩ := by
  simp [Rgb.cmyk, mkCmyk, inRange, Device.default]
  norm_num

example : (⟨1 / 2, 1 / 4, 1⟩ : Rgb ℚ).hsb = some ⟨13 / 18, 3 / 4, 1⟩ := by decide +kernel

example : mkRgb (1 / 2 : ℚ) (11 / 10) 0 = none := by decide +kernel

/-- The round trip of CMYK is not the identity in general: black ink is generated. -/
theorem cmyk_rgb_not_identity : ∃ x : Cmyk ℚ, x.Legal ∧ x.rgb.bind (Rgb.cmyk .default) ≠ some x := by
  refine ⟨⟨1, 1, 1, 0⟩, ⟨⟨?_, ?_⟩, ⟨?_, ?_⟩, ⟨?_, ?_⟩, ⟨?_, ?_⟩⟩, ?_⟩ <;> first | (norm_num; done) | decide +kernel

end PyX.Color
