import Verif.MetaPost.Spec
import Mathlib.Tactic.Linarith
import Mathlib.Tactic.FieldSimp
import Mathlib.Tactic.Ring
import Mathlib.Tactic.Positivity
import Mathlib.Tactic.LinearCombination
import Mathlib.Data.Rat.Defs
import Mathlib.Algebra.Order.Ring.Unbundled.Rat

/-!
# C61: the direction angles solve the mock curvature equations
-/

set_option linter.unusedSectionVars false
set_option linter.unusedSimpArgs false

namespace PyX.MetaPost

variable {K : Type} [Field K] [LinearOrder K] [IsStrictOrderedRing K]

/-! ## Elimination -/

/-- One elimination step. -/
theorem elim_iff (A B C D cc E u v w x ψ1 ψ2 θ0 θ1 θ2 aa bb : K) (hcc : cc ≠ 0) (hE : E ≠ 0)
    (hA : A = B * aa) (hD : D = C * bb) (hc : cc = 1 - u * aa) (he : E = C + B * cc)
    (h0 : θ0 = v + w * x - u * θ1) :
    (θ1 = (-(ψ2 * (C / E * bb)) - ψ1 * ((1 - C / E) / cc) - v * ((1 - C / E) / cc * aa))
        + -(w * ((1 - C / E) / cc * aa)) * x - C / E * bb * θ2) ↔
      A * θ0 + (B + C) * θ1 + D * θ2 = -(B * ψ1) - D * ψ2 := by
  have h1 : (1 - C / E) / cc = B / E := by
    rw [div_eq_div_iff hcc hE, sub_mul, div_mul_cancel₀ _ hE, one_mul, he]
    ring
  rw [h1]
  have h2 : (-(ψ2 * (C / E * bb)) - ψ1 * (B / E) - v * (B / E * aa)) + -(w * (B / E * aa)) * x - C / E * bb * θ2 =
      (-(ψ2 * (C * bb)) - ψ1 * B - v * (B * aa) - w * (B * aa) * x - C * bb * θ2) / E := by
    field_simp
    ring
  rw [h2, eq_div_iff hE]
  subst hA hD h0 hc he
  constructor
  · intro h
    linear_combination h
  · intro h
    linear_combination h

/-- `curlRatio` times the factor of the adjacent angle is below 1. -/
theorem ratio_lt (γ a b : K) (hγ : 0 ≤ γ) (ha : 3 / 4 ≤ a) (hb : 3 / 4 ≤ b) :
    0 < curlRatio γ a b ∧ curlRatio γ a b * (1 / (3 * a - 1)) < 1 := by
  have ha0 : 0 < a := by linarith
  have hb0 : 0 < b := by linarith
  have hα : 0 < 1 / a := by positivity
  have hβ : 0 < 1 / b := by positivity
  have hα' : 1 / a ≤ 4 / 3 := by rw [div_le_div_iff₀ ha0 (by norm_num)]; linarith
  have hβ' : 1 / b ≤ 4 / 3 := by rw [div_le_div_iff₀ hb0 (by norm_num)]; linarith
  have haa : 1 / (3 * a - 1) = (1 / a) / (3 - 1 / a) := by
    have : 3 * a - 1 ≠ 0 := by linarith
    have : 3 - 1 / a ≠ 0 := by linarith
    field_simp
  rw [haa]
  unfold curlRatio
  simp only
  generalize 1 / a = α at *
  generalize 1 / b = β at *
  have hden : 0 < α ^ 3 * γ + (3 - β) * β ^ 2 := by
    have : 0 < (3 - β) * β ^ 2 := mul_pos (by linarith) (by positivity)
    have : 0 ≤ α ^ 3 * γ := by positivity
    linarith
  have hnum : 0 < (3 - α) * α ^ 2 * γ + β ^ 3 := by
    have : 0 ≤ (3 - α) * α ^ 2 * γ := mul_nonneg (mul_nonneg (by linarith) (by positivity)) hγ
    have : 0 < β ^ 3 := by positivity
    linarith
  refine ⟨lt_min (by norm_num) (div_pos hnum hden), ?_⟩
  have h3 : 0 < 3 - α := by linarith
  calc _ ≤ ((3 - α) * α ^ 2 * γ + β ^ 3) / (α ^ 3 * γ + (3 - β) * β ^ 2) * (α / (3 - α)) :=
        mul_le_mul_of_nonneg_right (min_le_right _ _) (by positivity)
    _ = (((3 - α) * α ^ 2 * γ + β ^ 3) * α) / ((α ^ 3 * γ + (3 - β) * β ^ 2) * (3 - α)) := by
        rw [div_mul_div_comm]
    _ < 1 := by
        rw [div_lt_one (by positivity)]
        have h4 : 0 < β ^ 2 * (9 - 3 * α - 3 * β) := mul_pos (by positivity) (by linarith)
        nlinarith [h4]

theorem aa_bounds (a : K) (ha : 3 / 4 ≤ a) : 0 < 1 / (3 * a - 1) ∧ 1 / (3 * a - 1) ≤ 4 / 5 := by
  have : 0 < 3 * a - 1 := by linarith
  refine ⟨by positivity, ?_⟩
  rw [div_le_div_iff₀ this (by norm_num)]
  linarith

theorem inv_bounds (a : K) (ha : 3 / 4 ≤ a) : 0 < 1 / a ∧ 1 / a ≤ 4 / 3 := by
  have : 0 < a := by linarith
  refine ⟨by positivity, ?_⟩
  rw [div_le_div_iff₀ this (by norm_num)]
  linarith

/-- The terms `Bk` and `Ck` of knot `k + 1`, up to a common positive factor. -/
def bc (c : Chain K) (k : ℕ) : K × K :=
  (c.d (k + 1) * (3 - 1 / c.rt k) * c.lt (k + 1) ^ 2, c.d k * (3 - 1 / c.lt (k + 2)) * c.rt (k + 1) ^ 2)

theorem bc_pos (c : Chain K) (h : Valid c) (k : ℕ) : 0 < (bc c k).1 ∧ 0 < (bc c k).2 := by
  have h1 := inv_bounds _ (h.rt k)
  have h2 := inv_bounds _ (h.lt (k + 2))
  have h3 : 0 < c.lt (k + 1) := by linarith [h.lt (k + 1)]
  have h4 : 0 < c.rt (k + 1) := by linarith [h.rt (k + 1)]
  have h5 := h.d k
  have h6 := h.d (k + 1)
  have h7 : 0 < 3 - 1 / c.rt k := by linarith
  have h8 : 0 < 3 - 1 / c.lt (k + 2) := by linarith
  exact ⟨mul_pos (mul_pos h6 h7) (by positivity), mul_pos (mul_pos h5 h8) (by positivity)⟩

/-- `eedd` is proportional to `Ck` and `Bk (1 - u aa)`. -/
theorem eedd_eq (c : Chain K) (h : Valid c) (k : ℕ) (u : K) : ∃ s, 0 < s ∧ (eedd c k u).1 = (bc c k).2 * s ∧
    (eedd c k u).2 = (bc c k).1 * (1 - u * (1 / (3 * c.rt k - 1))) * s := by
  have h3 : 0 < c.lt (k + 1) := by linarith [h.lt (k + 1)]
  have h4 : 0 < c.rt (k + 1) := by linarith [h.rt (k + 1)]
  unfold eedd bc
  simp only
  generalize 1 - u * (1 / (3 * c.rt k - 1)) = cc
  generalize c.d (k + 1) * (3 - 1 / c.rt k) = X
  generalize c.d k * (3 - 1 / c.lt (k + 2)) = Y
  split_ifs with h1 h2
  · exact ⟨1 / c.rt (k + 1) ^ 2, by positivity, by field_simp, by field_simp⟩
  · exact ⟨1 / c.lt (k + 1) ^ 2, by positivity, by field_simp, by field_simp⟩
  · have : c.lt (k + 1) = c.rt (k + 1) := le_antisymm (not_lt.mp h2) (not_lt.mp h1)
    exact ⟨1 / c.rt (k + 1) ^ 2, by positivity, by field_simp, by rw [this]; field_simp⟩

/-- What is kept along the elimination. -/
structure Inv (c : Chain K) (k : ℕ) (r : Row K) : Prop where
  u0 : 0 ≤ r.u
  cc : 0 < 1 - r.u * (1 / (3 * c.rt k - 1))
  w : c.start ≠ .cycle → r.w = 0
  wu : c.start = .cycle → |r.w| + r.u ≤ 1

/-- The coefficients of the next row. -/
theorem rowS_eq (c : Chain K) (h : Valid c) (k : ℕ) (p : Row K) (hp : Inv c k p)
    (hv : isCurl c k = true → p.v = -(c.psi 1 * p.u)) :
    let cc := 1 - p.u * (1 / (3 * c.rt k - 1))
    let E := (bc c k).2 + (bc c k).1 * cc
    0 < E ∧ (rowS c k p).u = (bc c k).2 / E * (1 / (3 * c.lt (k + 2) - 1)) ∧
    (rowS c k p).v = -(c.psi (k + 2) * ((bc c k).2 / E * (1 / (3 * c.lt (k + 2) - 1))))
      - c.psi (k + 1) * ((1 - (bc c k).2 / E) / cc) - p.v * ((1 - (bc c k).2 / E) / cc * (1 / (3 * c.rt k - 1))) ∧
    (rowS c k p).w = -(p.w * ((1 - (bc c k).2 / E) / cc * (1 / (3 * c.rt k - 1)))) := by
  intro cc E
  obtain ⟨hB, hC⟩ := bc_pos c h k
  have hcc : 0 < cc := hp.cc
  have hE : 0 < E := by positivity
  obtain ⟨s, hs, e1, e2⟩ := eedd_eq c h k p.u
  have hff : (eedd c k p.u).1 / ((eedd c k p.u).1 + (eedd c k p.u).2) = (bc c k).2 / E := by
    rw [e1, e2]
    have : (bc c k).2 * s + (bc c k).1 * (1 - p.u * (1 / (3 * c.rt k - 1))) * s = E * s := by ring
    rw [this, mul_div_mul_right _ _ hs.ne']
  refine ⟨hE, ?_⟩
  unfold rowS
  simp only [hff]
  by_cases hi : isCurl c k = true
  · rw [if_pos hi]
    have hk : k = 0 := by
      unfold isCurl at hi
      split at hi
      · simpa using hi
      · exact absurd hi (by simp)
    have hst : c.start ≠ .cycle := by
      intro hh
      unfold isCurl at hi
      rw [hh] at hi
      exact absurd hi (by simp)
    refine ⟨rfl, ?_, ?_⟩
    · rw [hv hi]
      simp only
      subst hk
      have : (1 - (bc c 0).2 / E) = (1 - (bc c 0).2 / E) / cc * (1 - p.u * (1 / (3 * c.rt 0 - 1))) :=
        (div_mul_cancel₀ _ hcc.ne').symm
      linear_combination (-(c.psi 1)) * this
    · rw [hp.w hst]
      ring
  · rw [if_neg hi]
    exact ⟨rfl, rfl, rfl⟩

theorem inv_zero (c : Chain K) (h : Valid c) : Inv c 0 (row c 0) := by
  simp only [row]
  unfold row0
  rcases hs : c.start with v | g | _
  · exact ⟨le_refl _, by simp, fun _ => rfl, fun hh => by rw [hs] at hh; exact absurd hh (by simp)⟩
  · have hg := h.start g hs
    obtain ⟨h1, h2⟩ := ratio_lt g (c.rt 0) (c.lt 1) hg (h.rt 0) (h.lt 1)
    exact ⟨h1.le, by simp only; linarith, fun _ => rfl, fun hh => by rw [hs] at hh; exact absurd hh (by simp)⟩
  · exact ⟨le_refl _, by simp, fun hh => absurd hs hh, fun _ => by simp⟩

theorem curl_v (c : Chain K) (k : ℕ) (h : isCurl c k = true) : (row c k).v = -(c.psi 1 * (row c k).u) := by
  unfold isCurl at h
  split at h
  · rename_i g hs
    have hk : k = 0 := by simpa using h
    subst hk
    simp only [row]
    unfold row0
    simp only [hs]
  · exact absurd h (by simp)

/-- `0 ≤ u < 1/(3 lt - 1)` after the first row, and the row sums stay below 1. -/
theorem inv_succ (c : Chain K) (h : Valid c) (k : ℕ) (hp : Inv c k (row c k)) :
    Inv c (k + 1) (row c (k + 1)) ∧ (∃ f, 0 < f ∧ f < 1 ∧ (row c (k + 1)).u = f * (1 / (3 * c.lt (k + 2) - 1))) ∧
      (c.start = .cycle → |(row c (k + 1)).w| + (row c (k + 1)).u < 1) := by
  obtain ⟨hE, hu, hv, hw⟩ := rowS_eq c h k (row c k) hp (curl_v c k)
  obtain ⟨hB, hC⟩ := bc_pos c h k
  have hbb := aa_bounds _ (h.lt (k + 2))
  have haa := aa_bounds _ (h.rt k)
  have haa' := aa_bounds _ (h.rt (k + 1))
  have hcc := hp.cc
  have hu0 := hp.u0
  have e : row c (k + 1) = rowS c k (row c k) := rfl
  rw [e]
  generalize hB' : (bc c k).1 = B at *
  generalize hC' : (bc c k).2 = C at *
  generalize hE' : C + B * (1 - (row c k).u * (1 / (3 * c.rt k - 1))) = E at *
  generalize 1 / (3 * c.rt k - 1) = aa at *
  generalize 1 / (3 * c.lt (k + 2) - 1) = bb at *
  generalize hcce : 1 - (row c k).u * aa = cc at *
  have hBcc : 0 < B * cc := mul_pos hB hcc
  have hf0 : 0 < C / E := div_pos hC hE
  have hf1 : C / E < 1 := by rw [div_lt_one hE]; linarith
  have hur : 0 ≤ (rowS c k (row c k)).u := by rw [hu]; exact mul_nonneg hf0.le hbb.1.le
  have hub : (rowS c k (row c k)).u < 4 / 5 := by
    rw [hu]
    nlinarith [hbb.1, hbb.2]
  have h1 : (1 - C / E) / cc * aa = B * aa / E := by
    rw [div_mul_eq_mul_div, div_eq_div_iff hcc.ne' hE.ne', ← hE']
    have : (1 - C / (C + B * cc)) * (C + B * cc) = B * cc := by
      rw [sub_mul, div_mul_cancel₀ _ (by rw [hE']; exact hE.ne')]
      ring
    linear_combination aa * this
  have hsum : c.start = .cycle → |(rowS c k (row c k)).w| + (rowS c k (row c k)).u < 1 := by
    intro hs
    have hwu := hp.wu hs
    have hx : |(rowS c k (row c k)).w| = |(row c k).w| * (B * aa / E) := by
      rw [hw, h1, abs_neg, abs_mul, abs_of_pos (div_pos (mul_pos hB haa.1) hE)]
    rw [hx, hu]
    have : |(row c k).w| * (B * aa / E) + C / E * bb = (|(row c k).w| * (B * aa) + C * bb) / E := by
      field_simp
    rw [this, div_lt_one hE]
    have hA : |(row c k).w| * (B * aa) ≤ (1 - (row c k).u) * (B * aa) :=
      mul_le_mul_of_nonneg_right (by linarith) (mul_pos hB haa.1).le
    have hBa : B * aa ≤ B * (4 / 5) := mul_le_mul_of_nonneg_left haa.2 hB.le
    have hCb : C * bb ≤ C * (4 / 5) := mul_le_mul_of_nonneg_left hbb.2 hC.le
    have : E = C + B - (row c k).u * (B * aa) := by rw [← hE', ← hcce]; ring
    linarith
  refine ⟨⟨hur, ?_, ?_, fun hs => (hsum hs).le⟩, ⟨C / E, hf0, hf1, hu⟩, hsum⟩
  · nlinarith [haa'.1, haa'.2]
  · intro hs
    rw [hw, hp.w hs]
    ring

theorem inv_all (c : Chain K) (h : Valid c) (k : ℕ) : Inv c k (row c k) := by
  induction k with
  | zero => exact inv_zero c h
  | succ k ih => exact (inv_succ c h k ih).1

/-- Row `k + 1` of the elimination is equivalent to the equality of the mock curvatures. -/
theorem row_iff (c : Chain K) (h : Valid c) (k : ℕ) (θ : ℕ → K) (x : K)
    (h0 : θ k = (row c k).v + (row c k).w * x - (row c k).u * θ (k + 1)) :
    θ (k + 1) = (row c (k + 1)).v + (row c (k + 1)).w * x - (row c (k + 1)).u * θ (k + 2) ↔
      mockIn c θ k = mockOut c θ (k + 1) := by
  have hp := inv_all c h k
  obtain ⟨hE, hu, hv, hw⟩ := rowS_eq c h k (row c k) hp (curl_v c k)
  have e : row c (k + 1) = rowS c k (row c k) := rfl
  rw [e, hu, hv, hw]
  have key := elim_iff ((bc c k).1 * (1 / (3 * c.rt k - 1))) (bc c k).1 (bc c k).2
    ((bc c k).2 * (1 / (3 * c.lt (k + 2) - 1))) _ _ (row c k).u (row c k).v (row c k).w x (c.psi (k + 1)) (c.psi (k + 2))
    (θ k) (θ (k + 1)) (θ (k + 2)) _ _ hp.cc.ne' hE.ne' rfl rfl rfl rfl h0
  rw [key]
  have hd0 := h.d k
  have hd1 := h.d (k + 1)
  have hr := h.rt k
  have hl := h.lt (k + 2)
  have hr0 : c.rt k ≠ 0 := by linarith
  have hl0 : c.lt (k + 2) ≠ 0 := by linarith
  have hr3 : 3 * c.rt k - 1 ≠ 0 := by linarith
  have hl3 : 3 * c.lt (k + 2) - 1 ≠ 0 := by linarith
  have ea : (3 - 1 / c.rt k) * (1 / (3 * c.rt k - 1)) = 1 / c.rt k := by
    field_simp
  have eb : (3 - 1 / c.lt (k + 2)) * (1 / (3 * c.lt (k + 2) - 1)) = 1 / c.lt (k + 2) := by
    field_simp
  unfold mockIn mockOut phi bc
  simp only
  rw [div_eq_div_iff hd0.ne' hd1.ne']
  generalize 1 / (3 * c.rt k - 1) = aa at *
  generalize 1 / (3 * c.lt (k + 2) - 1) = bb at *
  generalize 1 / c.rt k = α at *
  generalize 1 / c.lt (k + 2) = β at *
  constructor
  · intro hh
    linear_combination (-1) * hh + c.d (k + 1) * c.lt (k + 1) ^ 2 * θ k * ea
      + c.d k * c.rt (k + 1) ^ 2 * (θ (k + 2) + c.psi (k + 2)) * eb
  · intro hh
    linear_combination (-1) * hh + c.d (k + 1) * c.lt (k + 1) ^ 2 * θ k * ea
      + c.d k * c.rt (k + 1) ^ 2 * (θ (k + 2) + c.psi (k + 2)) * eb

/-! ## The ends -/

theorem curlEnd_iff (γ a b x y : K) (hγ : 0 ≤ γ) (ha : 3 / 4 ≤ a) (hb : 3 / 4 ≤ b) :
    CurlEnd γ a b x y ↔ x = curlRatio γ a b * y := by
  obtain ⟨h1, h1'⟩ := inv_bounds a ha
  obtain ⟨h2, h2'⟩ := inv_bounds b hb
  unfold CurlEnd curlRatio
  simp only
  generalize 1 / a = α at *
  generalize 1 / b = β at *
  have hden : 0 < α ^ 3 * γ + (3 - β) * β ^ 2 := by
    have : 0 < (3 - β) * β ^ 2 := mul_pos (by linarith) (by positivity)
    have : 0 ≤ α ^ 3 * γ := by positivity
    linarith
  split_ifs with h
  · rw [min_eq_right (by rw [div_le_iff₀ hden]; exact h), div_mul_eq_mul_div, eq_div_iff hden.ne',
      mul_div_assoc', div_eq_div_iff (by positivity) (by positivity)]
    constructor
    · intro hh
      linear_combination hh
    · intro hh
      linear_combination hh
  · rw [min_eq_left (by rw [le_div_iff₀ hden]; exact (not_le.mp h).le)]

/-- The rows of the elimination hold for the knots below `m`. -/
def Rows (c : Chain K) (θ : ℕ → K) (x : K) (m : ℕ) : Prop :=
  ∀ k, k < m → θ k = (row c k).v + (row c k).w * x - (row c k).u * θ (k + 1)

theorem rows_iff (c : Chain K) (h : Valid c) (θ : ℕ → K) (x : K) (m : ℕ) :
    Rows c θ x (m + 1) ↔ (θ 0 = (row c 0).v + (row c 0).w * x - (row c 0).u * θ 1) ∧
      ∀ k, k < m → mockIn c θ k = mockOut c θ (k + 1) := by
  induction m with
  | zero =>
    constructor
    · intro hh
      exact ⟨hh 0 (by omega), fun k hk => by omega⟩
    · rintro ⟨hh, _⟩ k hk
      obtain rfl : k = 0 := by omega
      exact hh
  | succ m ih =>
    constructor
    · intro hh
      obtain ⟨h0, h1⟩ := ih.mp (fun k hk => hh k (by omega))
      refine ⟨h0, fun k hk => ?_⟩
      exact (row_iff c h k θ x (hh k (by omega))).mp (hh (k + 1) (by omega))
    · rintro ⟨h0, h1⟩ k hk
      have h2 := ih.mpr ⟨h0, fun k hk => h1 k (by omega)⟩
      rcases Nat.lt_succ_iff_lt_or_eq.mp hk with hk | rfl
      · exact h2 k hk
      · exact (row_iff c h m θ x (h2 m (by omega))).mpr (h1 m (by omega))

/-- The first row is the condition at the first knot. -/
theorem first_iff (c : Chain K) (h : Valid c) (θ : ℕ → K) (x : K) (hs : c.start = .cycle → x = θ 0) :
    (θ 0 = (row c 0).v + (row c 0).w * x - (row c 0).u * θ 1) ↔
      (match c.start with
        | .given v => θ 0 = v
        | .curl g => CurlEnd g (c.rt 0) (c.lt 1) (θ 0) (phi c θ 1)
        | .cycle => True) := by
  simp only [row]
  unfold row0
  rcases e : c.start with v | g | _
  · simp
  · simp only
    rw [curlEnd_iff _ _ _ _ _ (h.start g e) (h.rt 0) (h.lt 1)]
    unfold phi
    constructor
    · intro hh
      linear_combination hh
    · intro hh
      linear_combination hh
  · simp [hs e]

theorem cycDown_eq (c : Chain K) (θ : ℕ → K) (x : K) (hr : Rows c θ x c.n) (hx : θ c.n = x) (j : ℕ) (hj : j ≤ c.n) :
    θ (c.n - j) = (cycDown c j).1 + (cycDown c j).2 * x := by
  induction j with
  | zero => simp [cycDown, hx]
  | succ j ih =>
    have h1 := hr (c.n - 1 - j) (by omega)
    have e1 : c.n - (j + 1) = c.n - 1 - j := by omega
    have e2 : c.n - 1 - j + 1 = c.n - j := by omega
    rw [e2, ih (by omega)] at h1
    rw [e1, h1]
    simp only [cycDown]
    ring

theorem cycDown_le (c : Chain K) (h : Valid c) (hs : c.start = .cycle) (j : ℕ) : |(cycDown c j).2| ≤ 1 := by
  induction j with
  | zero => simp [cycDown]
  | succ j ih =>
    have hp := inv_all c h (c.n - 1 - j)
    have h1 := hp.wu hs
    have h2 := hp.u0
    simp only [cycDown]
    calc |(row c (c.n - 1 - j)).w - (cycDown c j).2 * (row c (c.n - 1 - j)).u|
        ≤ |(row c (c.n - 1 - j)).w| + |(cycDown c j).2 * (row c (c.n - 1 - j)).u| := abs_sub _ _
      _ = |(row c (c.n - 1 - j)).w| + |(cycDown c j).2| * (row c (c.n - 1 - j)).u := by
          rw [abs_mul, abs_of_nonneg h2]
      _ ≤ 1 := by nlinarith

theorem cycEnd_lt (c : Chain K) (h : Valid c) (hs : c.start = .cycle) : 0 < 1 - (cycEnd c).2 := by
  obtain ⟨m, hm⟩ : ∃ m, c.n = m + 1 := ⟨c.n - 1, by have := h.n; omega⟩
  have hp := inv_succ c h m (inv_all c h m)
  rw [← hm] at hp
  have h1 := hp.2.2 hs
  have h2 := hp.1.u0
  have h3 := cycDown_le c h hs (c.n - 1)
  have : (cycEnd c).2 < 1 := by
    simp only [cycEnd]
    calc (row c c.n).w - (cycDown c (c.n - 1)).2 * (row c c.n).u
        ≤ |(row c c.n).w - (cycDown c (c.n - 1)).2 * (row c c.n).u| := le_abs_self _
      _ ≤ |(row c c.n).w| + |(cycDown c (c.n - 1)).2 * (row c c.n).u| := abs_sub _ _
      _ = |(row c c.n).w| + |(cycDown c (c.n - 1)).2| * (row c c.n).u := by rw [abs_mul, abs_of_nonneg h2]
      _ < 1 := by nlinarith
  linarith

theorem stop_lt (c : Chain K) (h : Valid c) (g : K) (hs : c.stop = .curl g) :
    0 < 1 - curlRatio g (c.lt c.n) (c.rt (c.n - 1)) * (row c (c.n - 1)).u := by
  obtain ⟨h1, h2⟩ := ratio_lt g (c.lt c.n) (c.rt (c.n - 1)) (h.stop g hs) (h.lt _) (h.rt _)
  have hn := h.n
  rcases Nat.lt_or_ge 1 c.n with hn' | hn'
  · obtain ⟨m, hm⟩ : ∃ m, c.n = m + 2 := ⟨c.n - 2, by omega⟩
    obtain ⟨-, ⟨f, hf0, hf1, hf⟩, -⟩ := inv_succ c h m (inv_all c h m)
    have e : c.n - 1 = m + 1 := by omega
    rw [← hm] at hf
    rw [e] at h1 h2 ⊢
    rw [hf]
    have : 0 < 1 / (3 * c.lt c.n - 1) := (aa_bounds _ (h.lt _)).1
    have h3 : 0 < curlRatio g (c.lt c.n) (c.rt (m + 1)) * (1 / (3 * c.lt c.n - 1)) := mul_pos h1 this
    nlinarith
  · have e : c.n = 1 := by omega
    have e' : c.n - 1 = 0 := by omega
    rw [e']
    simp only [row]
    unfold row0
    rcases e2 : c.start with v | g' | _
    · simp
    · exact absurd ⟨e2, hs⟩ (h.line e g' g)
    · rw [h.cycle.mp e2] at hs
      exact absurd hs (by simp)

/-- Number of rows: in a cycle, the last knot has one. -/
def rowCount (c : Chain K) : ℕ :=
  match c.stop with
  | .cycle => c.n + 1
  | _ => c.n

/-- The condition on the last angle, as used in the code. -/
theorem last_iff (c : Chain K) (h : Valid c) (θ : ℕ → K) (hr : Rows c θ (θ c.n) c.n) (hc : c.stop ≠ .cycle) :
    (match c.stop with
      | .given v => θ c.n = v
      | .curl g => CurlEnd g (c.lt c.n) (c.rt (c.n - 1)) (phi c θ c.n) (θ (c.n - 1))
      | .cycle => θ c.n = θ 0 ∧ θ (c.n + 1) = θ 1 ∧ mockIn c θ (c.n - 1) = mockOut c θ c.n) ↔
    θ c.n = thetaN c := by
  unfold thetaN
  rcases e : c.stop with v | g | _
  · simp
  · simp only
    rw [curlEnd_iff _ _ _ _ _ (h.stop g e) (h.lt _) (h.rt _)]
    have h1 := stop_lt c h g e
    have hn := h.n
    have h2 := hr (c.n - 1) (by omega)
    have h3 := (inv_all c h (c.n - 1)).w (fun hh => hc (h.cycle.mp hh))
    have h4 := h.psi hc
    have e1 : c.n - 1 + 1 = c.n := by omega
    rw [e1, h3] at h2
    unfold phi
    rw [h4, ← neg_div, eq_div_iff h1.ne', h2]
    constructor
    · intro hh
      linear_combination (-1) * hh
    · intro hh
      linear_combination (-1) * hh
  · exact absurd e hc

/-- The angles computed satisfy the rows. -/
theorem theta_row (c : Chain K) (h : Valid c) (k : ℕ) (hk : k < c.n) :
    theta c k = (row c k).v + (row c k).w * thetaN c - (row c k).u * theta c (k + 1) := by
  unfold theta
  obtain ⟨j, hj⟩ : ∃ j, c.n - k = j + 1 := ⟨c.n - k - 1, by omega⟩
  have e1 : c.n - (k + 1) = j := by omega
  have e2 : c.n - 1 - j = k := by omega
  rw [hj, e1]
  simp only [thetaDown, e2]
  have : vvAdj c k = (row c k).v + (row c k).w * thetaN c := by
    unfold vvAdj
    rcases e : c.stop with v | g | _
    · simp only
      rw [(inv_all c h k).w (fun hh => by have := h.cycle.mp hh; rw [e] at this; exact absurd this (by simp))]
      ring
    · simp only
      rw [(inv_all c h k).w (fun hh => by have := h.cycle.mp hh; rw [e] at this; exact absurd this (by simp))]
      ring
    · simp only
      split_ifs with hk0
      · subst hk0
        simp only [row]
        unfold row0
        simp [h.cycle.mpr e]
      · ring
  rw [this]
  ring

theorem theta_last (c : Chain K) : theta c c.n = thetaN c := by
  simp [theta, thetaDown]

/-- Angles that satisfy the rows and end with `thetaN` are the ones computed. -/
theorem theta_unique_rows (c : Chain K) (h : Valid c) (θ : ℕ → K) (hr : Rows c θ (θ c.n) c.n) (hx : θ c.n = thetaN c)
    (j : ℕ) (hj : j ≤ c.n) : θ (c.n - j) = theta c (c.n - j) := by
  induction j with
  | zero => simp [theta_last, hx]
  | succ j ih =>
    have e2 : c.n - (j + 1) + 1 = c.n - j := by omega
    rw [hr _ (by omega), theta_row c h _ (by omega), e2, ih (by omega), hx]

/-- The angles at the knots, continued once round a cycle. -/
def angles (c : Chain K) (k : ℕ) : K := if k ≤ c.n then theta c k else theta c (k - c.n)

/-- **C61.** The angles computed by `mp_solve_choices` satisfy Hobby's equations: equal mock curvatures on both
sides of every inner knot (of every knot of a cycle), the given direction or the curl condition at the ends. -/
theorem angles_smooth (c : Chain K) (h : Valid c) : Smooth c (angles c) := by
  have hn := h.n
  have hle : ∀ k, k ≤ c.n → angles c k = theta c k := fun k hk => if_pos hk
  have hr : Rows c (angles c) (thetaN c) c.n := by
    intro k hk
    rw [hle k (by omega), hle (k + 1) (by omega)]
    exact theta_row c h k hk
  have hN : angles c c.n = thetaN c := by rw [hle _ le_rfl, theta_last]
  obtain ⟨m, hm⟩ : ∃ m, c.n = m + 1 := ⟨c.n - 1, by omega⟩
  have hcyc : c.start = .cycle → thetaN c = angles c 0 := by
    intro hs
    have := hr 0 (by omega)
    simp only [row] at this
    unfold row0 at this
    simp only [hs] at this
    rw [this]
    ring
  have h1 := (rows_iff c h (angles c) (thetaN c) m).mp (by rw [← hm]; exact hr)
  refine ⟨fun k hk => h1.2 k (by omega), (first_iff c h _ _ hcyc).mp h1.1, ?_⟩
  by_cases hc : c.stop = .cycle
  · have hs := h.cycle.mpr hc
    rw [hc]
    simp only
    have hx := hcyc hs
    have h2 : angles c (c.n + 1) = angles c 1 := by
      rw [hle 1 hn]
      unfold angles
      rw [if_neg (by omega)]
      congr 1
      omega
    refine ⟨by rw [hN, hx], h2, ?_⟩
    have h3 : Rows c (angles c) (thetaN c) (c.n + 1) := by
      intro k hk
      rcases Nat.lt_succ_iff_lt_or_eq.mp hk with hk | rfl
      · exact hr k hk
      · rw [h2, hN]
        have h4 := cycDown_eq c (angles c) (thetaN c) hr hN (c.n - 1) (by omega)
        have e : c.n - (c.n - 1) = 1 := by omega
        rw [e] at h4
        have h5 : thetaN c = (cycEnd c).1 / (1 - (cycEnd c).2) := by
          unfold thetaN
          simp only [hc]
        rw [eq_div_iff (cycEnd_lt c h hs).ne'] at h5
        rw [h4]
        simp only [cycEnd] at h5
        linear_combination h5
    have h4 := ((rows_iff c h (angles c) (thetaN c) c.n).mp h3).2 (c.n - 1) (by omega)
    have e : c.n - 1 + 1 = c.n := by omega
    rw [e] at h4
    exact h4
  · exact (last_iff c h _ (by rw [hN]; exact hr) hc).mpr hN

/-- **C61.** They are the only solution. -/
theorem angles_unique (c : Chain K) (h : Valid c) (θ : ℕ → K) (hs : Smooth c θ) (k : ℕ) (hk : k ≤ c.n) :
    θ k = theta c k := by
  have hn := h.n
  obtain ⟨m, hm⟩ : ∃ m, c.n = m + 1 := ⟨c.n - 1, by omega⟩
  have hcyc : c.start = .cycle → θ c.n = θ 0 := by
    intro hst
    have := hs.last
    rw [h.cycle.mp hst] at this
    exact this.1
  have h0 := (first_iff c h θ (θ c.n) hcyc).mpr hs.first
  have hr : Rows c θ (θ c.n) c.n := by
    have := (rows_iff c h θ (θ c.n) m).mpr ⟨h0, fun k hk => hs.inner k (by omega)⟩
    rw [← hm] at this
    exact this
  have hN : θ c.n = thetaN c := by
    by_cases hc : c.stop = .cycle
    · have hl := hs.last
      rw [hc] at hl
      obtain ⟨l1, l2, l3⟩ := hl
      have h3 : Rows c θ (θ c.n) (c.n + 1) := by
        refine (rows_iff c h θ (θ c.n) c.n).mpr ⟨h0, fun k hk => ?_⟩
        rcases Nat.lt_or_ge (k + 1) c.n with h' | h'
        · exact hs.inner k h'
        · have e : k = c.n - 1 := by omega
          have e2 : k + 1 = c.n := by omega
          rw [e2, e]
          exact l3
      have h4 := h3 c.n (by omega)
      rw [l2] at h4
      have h5 := cycDown_eq c θ (θ c.n) hr rfl (c.n - 1) (by omega)
      have e : c.n - (c.n - 1) = 1 := by omega
      rw [e] at h5
      have h6 : thetaN c = (cycEnd c).1 / (1 - (cycEnd c).2) := by
        unfold thetaN
        simp only [hc]
      rw [h6, eq_div_iff (cycEnd_lt c h (h.cycle.mpr hc)).ne']
      rw [h5] at h4
      simp only [cycEnd]
      linear_combination h4
    · exact (last_iff c h θ hr hc).mp hs.last
  have := theta_unique_rows c h θ hr hN (c.n - k) (by omega)
  have e : c.n - (c.n - k) = k := by omega
  rw [e] at this
  exact this

/-- **C61.** No division by zero occurs on the way. -/
theorem divisors_ne_zero (c : Chain K) (h : Valid c) : ∀ x ∈ divisors c, x ≠ 0 := by
  have hr0 : ∀ k, c.rt k ≠ 0 := fun k => by have := h.rt k; linarith
  have hl0 : ∀ k, c.lt k ≠ 0 := fun k => by have := h.lt k; linarith
  have hden : ∀ γ a b : K, 0 ≤ γ → 3 / 4 ≤ a → 3 / 4 ≤ b → (1 / a) ^ 3 * γ + (3 - 1 / b) * (1 / b) ^ 2 ≠ 0 := by
    intro γ a b hγ ha hb
    obtain ⟨h1, h1'⟩ := inv_bounds a ha
    obtain ⟨h2, h2'⟩ := inv_bounds b hb
    have : 0 < (3 - 1 / b) * (1 / b) ^ 2 := mul_pos (by linarith) (by positivity)
    have : 0 ≤ (1 / a) ^ 3 * γ := by positivity
    linarith
  intro x hx
  unfold divisors at hx
  rw [List.mem_append, List.mem_append] at hx
  rcases hx with (hx | hx) | hx
  · rcases e : c.start with v | g | _
    · simp [e] at hx
    · simp only [e, List.mem_cons, List.not_mem_nil, or_false] at hx
      rcases hx with rfl | rfl | rfl
      · exact hr0 _
      · exact hl0 _
      · exact hden _ _ _ (h.start g e) (h.rt _) (h.lt _)
    · simp [e] at hx
  · rw [List.mem_flatMap] at hx
    obtain ⟨k, -, hx⟩ := hx
    simp only [List.mem_cons, List.not_mem_nil, or_false] at hx
    have hp := inv_all c h k
    rcases hx with rfl | rfl | rfl | rfl | rfl | rfl | rfl | rfl
    · have := h.rt k; linarith
    · exact hr0 _
    · have := h.lt (k + 2); linarith
    · exact hl0 _
    · exact hl0 _
    · exact hr0 _
    · obtain ⟨s, hs, e1, e2⟩ := eedd_eq c h k (row c k).u
      obtain ⟨hB, hC⟩ := bc_pos c h k
      have hcc := hp.cc
      rw [e1, e2]
      positivity
    · exact hp.cc.ne'
  · rcases e : c.stop with v | g | _
    · simp [e] at hx
    · simp only [e, List.mem_cons, List.not_mem_nil, or_false] at hx
      rcases hx with rfl | rfl | rfl | rfl
      · exact hl0 _
      · exact hr0 _
      · exact hden _ _ _ (h.stop g e) (h.lt _) (h.rt _)
      · exact (stop_lt c h g e).ne'
    · simp only [e, List.mem_cons, List.not_mem_nil, or_false] at hx
      rw [hx]
      exact (cycEnd_lt c h (h.cycle.mpr e)).ne'

/-! ## Examples -/

/-- Three knots, curl at both ends. -/
def demoOpen : Chain ℚ :=
  ⟨2, fun _ => 1, fun k => if k = 1 then 3 / 2 else 0, fun _ => 1, fun _ => 1, .curl 1, .curl 1⟩

/-- A closed path of three knots with different tensions. -/
def demoCycle : Chain ℚ :=
  ⟨3, fun k => if k % 3 = 1 then 2 else 1, fun k => if k % 3 = 1 then 3 / 2 else 2,
    fun k => if k % 3 = 1 then 3 / 4 else 1, fun k => if k % 3 = 2 then 2 else 1, .cycle, .cycle⟩

example : Valid demoOpen := by
  refine ⟨by decide, fun k => by simp [demoOpen], fun k => by simp [demoOpen]; norm_num, fun k => by simp [demoOpen]; norm_num,
    fun g hg => ?_, fun g hg => ?_, by simp [demoOpen], by simp [demoOpen], by simp [demoOpen]⟩
  · have : g = 1 := by simpa [demoOpen] using hg.symm
    simp [this]
  · have : g = 1 := by simpa [demoOpen] using hg.symm
    simp [this]

example : theta demoOpen 0 = -3 / 4 ∧ theta demoOpen 1 = -3 / 4 ∧ theta demoOpen 2 = 3 / 4 := by decide +kernel

example : Valid demoCycle := by
  refine ⟨by decide, fun k => ?_, fun k => ?_, fun k => ?_, fun g hg => ?_, fun g hg => ?_, by simp [demoCycle],
    by simp [demoCycle], by simp [demoCycle]⟩
  · simp only [demoCycle]; split_ifs <;> norm_num
  · simp only [demoCycle]; split_ifs <;> norm_num
  · simp only [demoCycle]; split_ifs <;> norm_num
  · simp [demoCycle] at hg
  · simp [demoCycle] at hg

example : theta demoCycle 3 = theta demoCycle 0 ∧ theta demoCycle 0 ≠ theta demoCycle 1 ∧
    theta demoCycle 1 ≠ theta demoCycle 2 := by decide +kernel

end PyX.MetaPost
