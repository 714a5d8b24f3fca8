import Mathlib.Analysis.Convex.Hull
import Mathlib.Data.List.GetD
import Mathlib.Tactic.FieldSimp
import Mathlib.Tactic.LinearCombination
import Mathlib.Tactic.Linarith
import Mathlib.Algebra.Order.BigOperators.Group.Finset
import Verif.Box.Model

/-!
# Aligning boxes (C52): the geometry
-/

set_option linter.unusedSectionVars false

namespace PyX.Box

noncomputable section

/-! ## Specification -/

/-- The scalar product. -/
def dot (x y : Pt) : ℝ := x.1 * y.1 + x.2 * y.2

/-- The vector product. -/
def cross (x y : Pt) : ℝ := x.1 * y.2 - x.2 * y.1

/-- The Euclidean distance. -/
def dist (x y : Pt) : ℝ := Real.sqrt ((x.1 - y.1) ^ 2 + (x.2 - y.2) ^ 2)

/-- The direction `d` with length one. -/
def unitOf (d : Pt) : Pt := (d.1 / Real.sqrt (d.1 ^ 2 + d.2 ^ 2), d.2 / Real.sqrt (d.1 ^ 2 + d.2 ^ 2))

/-- `e`, `f` are the ends of a side: a corner and the next one, cyclically. -/
def Side (P : Polygon) (e f : Pt) : Prop :=
  ∃ i, i < P.corners.length ∧ P.corners[i]? = some e ∧ P.corners[(i + 1) % P.corners.length]? = some f

/-- A convex polygon with corners ordered counterclockwise: no corner is to the right of a side, and the
corners are not all on one line. -/
structure Convex (P : Polygon) : Prop where
  left : ∀ e f, Side P e f → ∀ p ∈ P.corners, 0 ≤ cross (f - e) (p - e)
  proper : ∃ p ∈ P.corners, ∃ q ∈ P.corners, ∃ r ∈ P.corners, cross (q - p) (r - p) ≠ 0

/-- The sides are not shorter than the tolerance `1e-5` (the square root of `epsilon`). -/
def Long (P : Polygon) : Prop := ∀ e f, Side P e f → epsilon ≤ dot (f - e) (f - e)

/-- A side is exactly parallel to `d` or differs from that by more than `epsilon`, and the same for
perpendicular. -/
def ClearLine (P : Polygon) (d : Pt) : Prop := ∀ e f, Side P e f →
  (cross (f - e) d = 0 ∨ epsilon < |cross (f - e) d|) ∧ (dot (f - e) d = 0 ∨ epsilon < |dot (f - e) d|)

/-- A side is exactly parallel to `d` or the sine of the angle between them is at least `1e-5`. -/
def ClearCircle (P : Polygon) (d : Pt) : Prop := ∀ e f, Side P e f →
  cross (f - e) d = 0 ∨ epsilon * dot (f - e) (f - e) ≤ cross (f - e) d ^ 2

/-! ## Corners and sides -/

theorem epsilon_pos : 0 < epsilon := by unfold epsilon; positivity

variable {P : Polygon}

theorem prev_lt {n i : ℕ} (h : i < n) : prev n i < n := by unfold prev; split_ifs <;> omega

theorem prev_succ {n i : ℕ} (h : i < n) : (prev n i + 1) % n = i := by
  unfold prev
  split_ifs with h0
  · subst h0; rw [Nat.sub_add_cancel (by omega), Nat.mod_self]
  · rw [Nat.sub_add_cancel (by omega), Nat.mod_eq_of_lt h]

theorem pt_mem {i : ℕ} (h : i < P.corners.length) : pt P i ∈ P.corners := by
  unfold pt; rw [List.getD_eq_getElem _ _ h]; exact List.getElem_mem h

theorem mem_pt {p : Pt} (h : p ∈ P.corners) : ∃ i, i < P.corners.length ∧ p = pt P i := by
  obtain ⟨i, hi, rfl⟩ := List.getElem_of_mem h
  exact ⟨i, hi, by unfold pt; rw [List.getD_eq_getElem _ _ hi]⟩

theorem pt_get {i : ℕ} (h : i < P.corners.length) : P.corners[i]? = some (pt P i) := by
  unfold pt; rw [List.getD_eq_getElem _ _ h, List.getElem?_eq_getElem h]

theorem side_prev {i : ℕ} (h : i < P.corners.length) : Side P (pt P (prev P.corners.length i)) (pt P i) :=
  ⟨prev P.corners.length i, prev_lt h, pt_get (prev_lt h), by rw [prev_succ h]; exact pt_get h⟩

/-- The edges of the model are the sides. -/
theorem mem_edges {e f : Pt} : (e, f) ∈ edges P ↔ Side P e f := by
  unfold edges
  simp only [List.mem_map, List.mem_range]
  constructor
  · rintro ⟨i, hi, h⟩
    cases h
    exact side_prev hi
  · rintro ⟨i, hi, he, hf⟩
    have hn : (i + 1) % P.corners.length < P.corners.length := Nat.mod_lt _ (by omega)
    refine ⟨(i + 1) % P.corners.length, hn, ?_⟩
    have hp : prev P.corners.length ((i + 1) % P.corners.length) = i := by
      unfold prev
      rcases Nat.lt_or_ge (i + 1) P.corners.length with h1 | h1
      · rw [Nat.mod_eq_of_lt h1]; simp
      · have : i + 1 = P.corners.length := by omega
        rw [this, Nat.mod_self]; simp; omega
    rw [hp]
    rw [pt_get hi] at he
    rw [pt_get hn] at hf
    cases he; cases hf; rfl

/-- Going once around, both signs occur among the changes of a value that is not constant. -/
theorem around (h : ℕ → ℝ) (n : ℕ) (hn : ∃ i, i < n ∧ h i ≠ h 0) :
    (∃ i, i < n ∧ h i - h (prev n i) < 0) ∧ (∃ i, i < n ∧ 0 < h i - h (prev n i)) := by
  obtain ⟨m, rfl⟩ : ∃ m, n = m + 1 := by
    obtain ⟨i, hi, -⟩ := hn
    exact ⟨n - 1, by omega⟩
  have hsum : ∑ i ∈ Finset.range (m + 1), (h i - h (prev (m + 1) i)) = 0 := by
    rw [Finset.sum_sub_distrib, Finset.sum_range_succ, Finset.sum_range_succ' (fun i => h (prev (m + 1) i))]
    simp [prev]
  have hconst : ¬ ∀ i, i < m + 1 → h i - h (prev (m + 1) i) = 0 := by
    intro hz
    obtain ⟨i, hi, hne⟩ := hn
    apply hne
    clear hne
    induction i with
    | zero => rfl
    | succ k ih =>
      have := hz (k + 1) hi
      simp only [prev] at this
      simp at this
      rw [← ih (by omega)]
      linarith
  constructor
  · by_contra hc
    push Not at hc
    apply hconst
    intro i hi
    exact (Finset.sum_eq_zero_iff_of_nonneg (fun j hj => hc j (Finset.mem_range.1 hj))).1 hsum i
      (Finset.mem_range.2 hi)
  · by_contra hc
    push Not at hc
    apply hconst
    intro i hi
    exact (Finset.sum_eq_zero_iff_of_nonpos (fun j hj => hc j (Finset.mem_range.1 hj))).1 hsum i
      (Finset.mem_range.2 hi)

/-- In a cyclic sequence with and without `None`, a corner meeting the condition of line 154 exists. -/
theorem meets_exists (l : ℕ → Label) (n : ℕ) (hvec : ∀ i, i < n → (l i).vec? = none)
    (h0 : ∃ i, i < n ∧ l i = .nothing) (h1 : ∃ i, i < n ∧ l i ≠ .nothing) :
    ∃ i, i < n ∧ (l (prev n i)).meets (l i) = true := by
  by_contra hc
  push Not at hc
  obtain ⟨i, hi, hli⟩ := h0
  obtain ⟨j, hj, hlj⟩ := h1
  have hn : 0 < n := by omega
  have hprev : ∀ k, prev n ((k + 1) % n) = k % n := by
    intro k
    have h1 := prev_succ (Nat.mod_lt (k + 1) hn)
    have h2 := prev_lt (Nat.mod_lt (k + 1) hn)
    have h3 : (k % n + 1) % n = (k + 1) % n := by rw [Nat.mod_add_mod]
    generalize prev n ((k + 1) % n) = p at h1 h2
    have h4 : k % n < n := Nat.mod_lt _ hn
    generalize k % n = q at h3 h4
    rw [← h1] at h3
    rcases Nat.lt_or_ge (p + 1) n with hp | hp <;> rcases Nat.lt_or_ge (q + 1) n with hq | hq
    · rw [Nat.mod_eq_of_lt hp, Nat.mod_eq_of_lt hq] at h3; omega
    · have : q + 1 = n := by omega
      rw [Nat.mod_eq_of_lt hp, this, Nat.mod_self] at h3; omega
    · have : p + 1 = n := by omega
      rw [Nat.mod_eq_of_lt hq, this, Nat.mod_self] at h3; omega
    · omega
  have hafter : ∀ k, l (k % n) = .after → ∀ m, l ((k + m) % n) = .after := by
    intro k hk m
    induction m with
    | zero => exact hk
    | succ m ih =>
      have hlt := Nat.mod_lt (k + m + 1) hn
      have hcc := hc _ hlt
      rw [hprev, ih] at hcc
      have hv := hvec _ hlt
      have e : k + (m + 1) = k + m + 1 := rfl
      rw [e]
      cases hl : l ((k + m + 1) % n) with
      | nothing => rw [hl] at hcc; exact absurd rfl hcc
      | before => rw [hl] at hcc; exact absurd rfl hcc
      | after => rfl
      | vec v => rw [hl] at hv; cases hv
  have hall : ∀ k, l ((i + k) % n) = .nothing := by
    intro k
    induction k with
    | zero => rw [Nat.add_zero, Nat.mod_eq_of_lt hi]; exact hli
    | succ k ih =>
      have hlt := Nat.mod_lt (i + k + 1) hn
      have hcc := hc _ hlt
      rw [hprev, ih] at hcc
      have hv := hvec _ hlt
      have e : i + (k + 1) = i + k + 1 := rfl
      rw [e]
      cases hl : l ((i + k + 1) % n) with
      | nothing => rfl
      | before => rw [hl] at hcc; exact absurd rfl hcc
      | after =>
        have h := hafter _ hl (i + n * (i + k + 1) - (i + k + 1))
        have hle : i + k + 1 ≤ i + n * (i + k + 1) := by nlinarith
        rw [Nat.add_sub_cancel' hle, Nat.add_mul_mod_self_left, Nat.mod_eq_of_lt hi, hli] at h
        cases h
      | vec v => rw [hl] at hv; cases hv
  apply hlj
  have h := hall (j + n * i - i)
  have hle : i ≤ j + n * i := by nlinarith
  rw [Nat.add_sub_cancel' hle, Nat.add_mul_mod_self_left, Nat.mod_eq_of_lt hj] at h
  exact h

/-! ## Convexity at a corner -/

/-- The two sides at a corner turn left or continue straight. -/
theorem turn (hc : Convex P) {o p r : Pt} (h1 : Side P o p) (h2 : Side P p r) (hu : p - o ≠ 0) (hw : r - p ≠ 0) :
    0 < cross (p - o) (r - p) ∨ ∃ k : ℝ, 0 < k ∧ r - p = (k * (p - o).1, k * (p - o).2) := by
  have hr : r ∈ P.corners := by
    obtain ⟨i, -, -, h⟩ := h2
    exact List.mem_of_getElem? h
  have h0 : 0 ≤ cross (p - o) (r - p) := by
    have := hc.left o p h1 r hr
    have e : cross (p - o) (r - p) = cross (p - o) (r - o) := by
      simp only [cross, Prod.fst_sub, Prod.snd_sub]; ring
    rw [e]; exact this
  rcases h0.lt_or_eq with h | h
  · exact Or.inl h
  right
  have hL : ∀ x ∈ P.corners, 0 ≤ cross (p - o) (x - p) := by
    intro x hx
    have := hc.left o p h1 x hx
    have e : cross (p - o) (x - p) = cross (p - o) (x - o) := by
      simp only [cross, Prod.fst_sub, Prod.snd_sub]; ring
    rw [e]; exact this
  have hR : ∀ x ∈ P.corners, 0 ≤ cross (r - p) (x - p) := fun x hx => hc.left p r h2 x hx
  obtain ⟨a, ha, b, hb, c, hcc, hne⟩ := hc.proper
  generalize p - o = u at *
  generalize r - p = w at *
  obtain ⟨u1, u2⟩ := u
  obtain ⟨w1, w2⟩ := w
  have hu' : 0 < u1 * u1 + u2 * u2 := by
    by_contra hcon
    have e1 : u1 = 0 := by nlinarith [mul_self_nonneg u1, mul_self_nonneg u2]
    have e2 : u2 = 0 := by nlinarith [mul_self_nonneg u1, mul_self_nonneg u2]
    exact hu (by rw [e1, e2]; rfl)
  simp only [cross] at h
  set k := (u1 * w1 + u2 * w2) / (u1 * u1 + u2 * u2) with hk
  have ek : k * (u1 * u1 + u2 * u2) = u1 * w1 + u2 * w2 := by rw [hk]; exact div_mul_cancel₀ _ hu'.ne'
  have e1 : w1 = k * u1 := by
    have : (u1 * u1 + u2 * u2) * (w1 - k * u1) = 0 := by linear_combination (-u1) * ek + (-u2) * (-h)
    have := (mul_eq_zero.1 this).resolve_left hu'.ne'
    linarith
  have e2 : w2 = k * u2 := by
    have : (u1 * u1 + u2 * u2) * (w2 - k * u2) = 0 := by linear_combination (-u2) * ek + u1 * (-h)
    have := (mul_eq_zero.1 this).resolve_left hu'.ne'
    linarith
  refine ⟨k, ?_, by rw [e1, e2]⟩
  by_contra hk0
  have hk0' : k < 0 := by
    rcases lt_trichotomy k 0 with hh | hh | hh
    · exact hh
    · exact absurd (by rw [e1, e2, hh]; simp) hw
    · exact absurd hh hk0
  have hz : ∀ x ∈ P.corners, cross (u1, u2) (x - p) = 0 := by
    intro x hx
    have a1 := hL x hx
    have a2 := hR x hx
    simp only [cross] at a1 a2 ⊢
    rw [e1, e2] at a2
    have : k * (u1 * (x - p).2 - u2 * (x - p).1) ≥ 0 := by nlinarith
    nlinarith
  have za := hz a ha
  have zb := hz b hb
  have zc := hz c hcc
  simp only [cross, Prod.fst_sub, Prod.snd_sub] at za zb zc hne
  apply hne
  have : (u1 * u1 + u2 * u2) * ((b.1 - a.1) * (c.2 - a.2) - (b.2 - a.2) * (c.1 - a.1)) = 0 := by
    linear_combination (u1 * (b.1 - a.1) + u2 * (b.2 - a.2)) * (zc - za) - (u1 * (c.1 - a.1) + u2 * (c.2 - a.2)) * (zb - za)
  exact (mul_eq_zero.1 this).resolve_left hu'.ne'

/-- If `m` is not increasing along the incoming side and not decreasing along the outgoing side (one of them
strictly), the corner is the smallest in direction `m`. -/
theorem cone (hc : Convex P) {o p r : Pt} (h1 : Side P o p) (h2 : Side P p r) (hu : p - o ≠ 0) (hw : r - p ≠ 0)
    (m : Pt) (hmu : dot m (p - o) ≤ 0) (hmw : 0 ≤ dot m (r - p)) (hs : dot m (p - o) < 0 ∨ 0 < dot m (r - p)) :
    ∀ x ∈ P.corners, 0 ≤ dot m (x - p) := by
  intro x hx
  have hL := hc.left o p h1 x hx
  have hR := hc.left p r h2 x hx
  rcases turn hc h1 h2 hu hw with ht | ⟨k, hk, hw⟩
  · simp only [cross, dot, Prod.fst_sub, Prod.snd_sub] at *
    have key : ((p.1 - o.1) * (r.2 - p.2) - (p.2 - o.2) * (r.1 - p.1)) * (m.1 * (x.1 - p.1) + m.2 * (x.2 - p.2)) =
      -(((r.1 - p.1) * (x.2 - p.2) - (r.2 - p.2) * (x.1 - p.1)) * (m.1 * (p.1 - o.1) + m.2 * (p.2 - o.2))) +
      ((p.1 - o.1) * (x.2 - o.2) - (p.2 - o.2) * (x.1 - o.1)) * (m.1 * (r.1 - p.1) + m.2 * (r.2 - p.2)) := by ring
    have k1 := mul_nonneg hL hmw
    have k2 := mul_nonneg hR (neg_nonneg.2 hmu)
    by_contra hcon
    push Not at hcon
    have := mul_neg_of_pos_of_neg ht hcon
    linarith
  · exfalso
    rw [hw] at hmw hs
    have e : dot m (k * (p - o).1, k * (p - o).2) = k * dot m (p - o) := by simp only [dot]; ring
    rw [e] at hmw hs
    rcases hs with hs | hs
    · nlinarith
    · nlinarith

/-- The vector product with `d` takes both signs on the sides. -/
theorem both_signs (hc : Convex P) (d : Pt) (hd : d ≠ 0) :
    (∃ i, i < P.corners.length ∧ cross (pt P i - pt P (prev P.corners.length i)) d < 0) ∧
    (∃ i, i < P.corners.length ∧ 0 < cross (pt P i - pt P (prev P.corners.length i)) d) := by
  have h := around (fun i => cross (pt P i) d) P.corners.length (by
    by_contra hcon
    push Not at hcon
    obtain ⟨a, ha, b, hb, c, hcc, hne⟩ := hc.proper
    obtain ⟨i, hi, rfl⟩ := mem_pt ha
    obtain ⟨j, hj, rfl⟩ := mem_pt hb
    obtain ⟨k, hk, rfl⟩ := mem_pt hcc
    have za := hcon i hi
    have zb := hcon j hj
    have zc := hcon k hk
    simp only [cross, Prod.fst_sub, Prod.snd_sub] at za zb zc hne
    apply hne
    have hd' : 0 < d.1 * d.1 + d.2 * d.2 := by
      by_contra hcon
      have e1 : d.1 = 0 := by nlinarith [mul_self_nonneg d.1, mul_self_nonneg d.2]
      have e2 : d.2 = 0 := by nlinarith [mul_self_nonneg d.1, mul_self_nonneg d.2]
      exact hd (Prod.ext e1 e2)
    have : (d.1 * d.1 + d.2 * d.2) * (((pt P j).1 - (pt P i).1) * ((pt P k).2 - (pt P i).2) -
        ((pt P j).2 - (pt P i).2) * ((pt P k).1 - (pt P i).1)) = 0 := by
      linear_combination (d.1 * ((pt P k).1 - (pt P i).1) + d.2 * ((pt P k).2 - (pt P i).2)) * (zb - za) -
        (d.1 * ((pt P j).1 - (pt P i).1) + d.2 * ((pt P j).2 - (pt P i).2)) * (zc - za)
    exact (mul_eq_zero.1 this).resolve_left hd'.ne')
  have e : ∀ a b : Pt, cross (a - b) d = cross a d - cross b d := by
    intro a b; simp only [cross, Prod.fst_sub, Prod.snd_sub]; ring
  simp only [e]
  exact h

end

end PyX.Box
