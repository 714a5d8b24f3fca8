import Verif.NormPath.Intersect
import Mathlib.Topology.EMetricSpace.BoundedVariation
import Mathlib.Analysis.Complex.Basic

/-!
# Arc length of curves (`pyx/normpath.py:385-506, 724-764`) and C73
-/

set_option linter.unusedSectionVars false

namespace PyX.NormPath

noncomputable section

/-- `l0_pt` of `_split` (`normpath.py:430`): the distance of the ends. -/
def Curve.chord (c : Curve ℝ) : ℝ := hypot (c.x3 - c.x0) (c.y3 - c.y0)

/-- `l1_pt+l2_pt+l3_pt` (`normpath.py:431-433`): the length of the control polygon. -/
def Curve.polygon (c : Curve ℝ) : ℝ :=
  hypot (c.x1 - c.x0) (c.y1 - c.y0) + hypot (c.x2 - c.x1) (c.y2 - c.y1) + hypot (c.x3 - c.x2) (c.y3 - c.y2)

/-- `_leftnormline_pt.arclen_pt` for the line replacing the curve (`normpath.py:734-738`). -/
def Curve.lineArclen (c : Curve ℝ) (upper : Bool) : ℝ :=
  if upper then c.polygon else hypot (c.x0 - c.x3) (c.y0 - c.y3)

open Classical in
/-- `normcurve_pt.arclen_pt` (`normpath.py:504-506`) with `_split(epsilon=epsilon)` (`normpath.py:424-486`, `intersect`
not set).  The first argument bounds the depth of the recursion, `none` being a deeper one; `arclen_terminates` shows
that the recursion ends. -/
def Curve.arclen : ℕ → Curve ℝ → ℝ → Bool → Option ℝ
  | 0, _, _, _ => none
  | n + 1, c, eps, upper =>
    let a := (c.split (1 / 2)).1
    let b := (c.split (1 / 2)).2
    let la := if a.polygon - a.chord < eps then some (a.lineArclen upper) else Curve.arclen n a (1 / 2 * eps) upper
    let lb := if b.polygon - b.chord < eps then some (b.lineArclen upper) else Curve.arclen n b (1 / 2 * eps) upper
    la.bind fun x => lb.bind fun y => some (x + y)

/-! ## Specification: the length of a curve -/

/-- The points of an item in the complex plane. -/
def Item.cpoint (i : Item ℝ) (t : ℝ) : ℂ := ⟨(i.point t).1, (i.point t).2⟩

/-- The true length: the supremum of the lengths of all inscribed polygons. -/
def Item.length (i : Item ℝ) : ENNReal := eVariationOn i.cpoint (Set.Icc 0 1)

/-! ## Length of parts -/

/-- The length of a part is the length of the traced range. -/
theorem length_traces (p w : Item ℝ) (t1 t2 : ℝ) (h : Traces p w t1 t2) (h12 : t1 ≤ t2) :
    p.length = eVariationOn w.cpoint (Set.Icc t1 t2) := by
  unfold Item.length
  have e : p.cpoint = w.cpoint ∘ fun s => t1 + s * (t2 - t1) := by
    funext s
    simp only [Item.cpoint, Function.comp, h s]
  rw [e, eVariationOn.comp_eq_of_monotoneOn]
  · congr 1
    ext x
    simp only [Set.mem_image, Set.mem_Icc]
    constructor
    · rintro ⟨s, ⟨h0, h1⟩, rfl⟩
      constructor <;> nlinarith
    · rintro ⟨h0, h1⟩
      rcases eq_or_lt_of_le h12 with e | e
      · exact ⟨0, ⟨le_rfl, zero_le_one⟩, by rw [← e] at h1; linarith⟩
      · have hpos : 0 < t2 - t1 := by linarith
        refine ⟨(x - t1) / (t2 - t1), ⟨div_nonneg (by linarith) hpos.le, (div_le_one hpos).mpr (by linarith)⟩, ?_⟩
        field_simp
        ring
  · intro s _ s' _ hs
    simp only
    nlinarith

theorem variation_add (w : Item ℝ) (a b c : ℝ) (hab : a ≤ b) (hbc : b ≤ c) :
    eVariationOn w.cpoint (Set.Icc a b) + eVariationOn w.cpoint (Set.Icc b c) = eVariationOn w.cpoint (Set.Icc a c) := by
  have h := eVariationOn.Icc_add_Icc w.cpoint (s := Set.univ) hab hbc (Set.mem_univ b)
  simpa only [Set.univ_inter] using h

/-- The length of the two halves. -/
theorem length_split (c : Curve ℝ) :
    (Item.curve c).length = (Item.curve (c.split (1 / 2)).1).length + (Item.curve (c.split (1 / 2)).2).length := by
  obtain ⟨h1, h2, _⟩ := split_traces c (1 / 2 : ℝ)
  rw [length_traces _ _ _ _ h1 (by norm_num), length_traces _ _ _ _ h2 (by norm_num), variation_add] <;> norm_num
  rfl

/-- The lengths of the parts add up to the length of the whole, when splitting at increasing parameters from 0 to 1. -/
theorem length_segments (i : Item ℝ) (ts : List ℝ) (segs : List (Item ℝ)) (h : i.segments ts = some segs)
    (hinc : ∀ k (h : k + 1 < ts.length), ts[k] ≤ ts[k + 1]) (h0 : ts.head? = some 0) (h1 : ts.getLast? = some 1) :
    (segs.map Item.length).sum = i.length := by
  obtain ⟨hl, ht⟩ := segments_traces i ts segs h
  -- the sum of the first k lengths
  have key : ∀ k (hk : k < ts.length), ((segs.take k).map Item.length).sum =
      eVariationOn i.cpoint (Set.Icc ts[0] ts[k]) ∧ ts[0] ≤ ts[k] := by
    intro k
    induction k with
    | zero =>
      intro hk
      refine ⟨?_, le_rfl⟩
      simp only [List.take_zero, List.map_nil, List.sum_nil, Set.Icc_self]
      exact (eVariationOn.subsingleton _ Set.subsingleton_singleton).symm
    | succ k ih =>
      intro hk
      obtain ⟨e1, e2⟩ := ih (by omega)
      have hk' : k < segs.length := by omega
      have e3 := hinc k hk
      refine ⟨?_, e2.trans e3⟩
      rw [List.take_succ_eq_append_getElem hk', List.map_append, List.sum_append, e1]
      simp only [List.map_cons, List.map_nil, List.sum_cons, List.sum_nil, add_zero]
      rw [length_traces _ _ _ _ (ht k hk' hk) e3, variation_add _ _ _ _ e2 e3]
  have hlast : segs.length < ts.length := by omega
  have := (key segs.length hlast).1
  rw [List.take_length] at this
  rw [this]
  have e0 : ts[0] = 0 := by
    cases ts with
    | nil => simp at h0
    | cons t ts => simpa using h0
  have e1 : ts[segs.length] = 1 := by
    rw [List.getLast?_eq_getElem?] at h1
    have : ts.length - 1 = segs.length := by omega
    rw [this, List.getElem?_eq_getElem hlast] at h1
    simpa using h1
  rw [e0, e1]
  rfl

/-! ## Bounds -/

theorem hypot_norm (p q : ℝ × ℝ) : edist (⟨p.1, p.2⟩ : ℂ) ⟨q.1, q.2⟩ = ENNReal.ofReal (dist2 p q) := by
  rw [edist_dist, dist_eq_norm]
  unfold dist2
  rw [hypot_eq_abs]
  rfl

/-- The chord is not longer than the curve. -/
theorem chord_le (i : Item ℝ) : ENNReal.ofReal (dist2 i.begin_ i.end_) ≤ i.length := by
  have h := eVariationOn.edist_le i.cpoint (s := Set.Icc (0 : ℝ) 1) (x := 0) (y := 1) ⟨le_rfl, zero_le_one⟩ ⟨zero_le_one, le_rfl⟩
  unfold Item.cpoint at h
  rw [hypot_norm, ← at_eq_point, ← at_eq_point, at_begin, at_end] at h
  exact h

/-- A weighted sum of increasing functions along the edges of the control polygon. -/
def along (a b c t : ℝ) : ℝ := a * (1 - (1 - t) ^ 3) + b * (3 * t ^ 2 - 2 * t ^ 3) + c * t ^ 3

theorem along_mono (x y : ℝ) (hx : 0 ≤ x) (hy : y ≤ 1) (hxy : x ≤ y) :
    0 ≤ (1 - (1 - y) ^ 3) - (1 - (1 - x) ^ 3) ∧ 0 ≤ (3 * y ^ 2 - 2 * y ^ 3) - (3 * x ^ 2 - 2 * x ^ 3) ∧ 0 ≤ y ^ 3 - x ^ 3 := by
  refine ⟨?_, ?_, ?_⟩
  · have : (1 - y) ^ 3 ≤ (1 - x) ^ 3 := pow_le_pow_left₀ (by linarith) (by linarith) 3
    linarith
  · have e : (3 * y ^ 2 - 2 * y ^ 3) - (3 * x ^ 2 - 2 * x ^ 3) = (y - x) * (y * (1 - y) + x * (1 - x) + (x * (1 - y) + y * (1 - x)) + (x * (1 - x)  + y * (1 - y))  + 0) := by
      ring
    rw [e]
    apply mul_nonneg (by linarith)
    have h1 : 0 ≤ y * (1 - y) := mul_nonneg (by linarith) (by linarith)
    have h2 : 0 ≤ x * (1 - x) := mul_nonneg (by linarith) (by linarith)
    have h3 : 0 ≤ x * (1 - y) := mul_nonneg (by linarith) (by linarith)
    have h4 : 0 ≤ y * (1 - x) := mul_nonneg (by linarith) (by linarith)
    linarith
  · have : x ^ 3 ≤ y ^ 3 := pow_le_pow_left₀ hx hxy 3
    linarith

theorem curve_dist_le (c : Curve ℝ) (x y : ℝ) (hx : 0 ≤ x) (hy : y ≤ 1) (hxy : x ≤ y) :
    dist2 ((Item.curve c).point x) ((Item.curve c).point y) ≤
      along (hypot (c.x1 - c.x0) (c.y1 - c.y0)) (hypot (c.x2 - c.x1) (c.y2 - c.y1)) (hypot (c.x3 - c.x2) (c.y3 - c.y2)) y -
      along (hypot (c.x1 - c.x0) (c.y1 - c.y0)) (hypot (c.x2 - c.x1) (c.y2 - c.y1)) (hypot (c.x3 - c.x2) (c.y3 - c.y2)) x := by
  obtain ⟨h0, h1, h2⟩ := along_mono x y hx hy hxy
  rw [dist2_comm]
  obtain ⟨u, hu⟩ : ∃ u, u = (1 - (1 - y) ^ 3) - (1 - (1 - x) ^ 3) := ⟨_, rfl⟩
  obtain ⟨v, hv⟩ : ∃ v, v = (3 * y ^ 2 - 2 * y ^ 3) - (3 * x ^ 2 - 2 * x ^ 3) := ⟨_, rfl⟩
  obtain ⟨w, hw⟩ : ∃ w, w = y ^ 3 - x ^ 3 := ⟨_, rfl⟩
  rw [← hu] at h0
  rw [← hv] at h1
  rw [← hw] at h2
  have e : dist2 ((Item.curve c).point y) ((Item.curve c).point x) =
      hypot (u * (c.x1 - c.x0) + v * (c.x2 - c.x1) + w * (c.x3 - c.x2)) (u * (c.y1 - c.y0) + v * (c.y2 - c.y1) + w * (c.y3 - c.y2)) := by
    rw [hu, hv, hw]
    unfold dist2
    congr 1 <;> simp only [Item.point, bezierPoint, linePoint] <;> ring
  rw [e]
  refine (hypot_add_le _ _ _ _).trans ?_
  refine (add_le_add_left (hypot_add_le _ _ _ _) _).trans ?_
  rw [hypot_smul, hypot_smul, hypot_smul, abs_of_nonneg h0, abs_of_nonneg h1, abs_of_nonneg h2, hu, hv, hw]
  unfold along
  apply le_of_eq
  ring

/-- The curve is not longer than its control polygon. -/
theorem length_le (c : Curve ℝ) : (Item.curve c).length ≤ ENNReal.ofReal c.polygon := by
  obtain ⟨g, hg⟩ : ∃ g, g = along (hypot (c.x1 - c.x0) (c.y1 - c.y0)) (hypot (c.x2 - c.x1) (c.y2 - c.y1))
    (hypot (c.x3 - c.x2) (c.y3 - c.y2)) := ⟨_, rfl⟩
  have hd := curve_dist_le c
  rw [← hg] at hd
  have hdn : ∀ p q, 0 ≤ dist2 p q := fun p q => hypot_nonneg _ _
  have hmono : MonotoneOn g (Set.Icc 0 1) := by
    intro x hx y hy hxy
    have := (hdn _ _).trans (hd x y hx.1 hy.2 hxy)
    linarith
  have hvar : eVariationOn g (Set.Icc 0 1) ≤ ENNReal.ofReal (g 1 - g 0) := by
    have := (hmono.eVariationOn_eq (a := 0) (b := 1) ⟨le_rfl, zero_le_one⟩ ⟨zero_le_one, le_rfl⟩).le
    rwa [Set.inter_self] at this
  have e : g 1 - g 0 = c.polygon := by
    rw [hg]; unfold along Curve.polygon; ring
  rw [← e]
  refine le_trans ?_ hvar
  unfold Item.length eVariationOn
  apply iSup_mono
  rintro ⟨n, u, hu, hmem⟩
  apply Finset.sum_le_sum
  intro i _
  have hm := hu (Nat.le_succ i)
  have h := hd (u i) (u (i + 1)) (hmem i).1 (hmem (i + 1)).2 hm
  unfold Item.cpoint
  rw [hypot_norm, dist2_comm, edist_dist, Real.dist_eq, abs_of_nonneg (by have := (hdn _ _).trans h; linarith)]
  exact ENNReal.ofReal_le_ofReal h

/-! ## C73 -/

theorem lineArclen_false (c : Curve ℝ) : c.lineArclen false = dist2 (Item.curve c).begin_ (Item.curve c).end_ := rfl

theorem lineArclen_chord (c : Curve ℝ) : c.lineArclen false = c.chord := by
  rw [lineArclen_false, dist2_comm]; rfl

theorem polygon_nonneg (c : Curve ℝ) : 0 ≤ c.polygon :=
  add_nonneg (add_nonneg (hypot_nonneg _ _) (hypot_nonneg _ _)) (hypot_nonneg _ _)

/-- One of the two terms added by `arclen_pt`. -/
def half (n : ℕ) (a : Curve ℝ) (eps : ℝ) (upper : Bool) : Option ℝ :=
  open Classical in
  if a.polygon - a.chord < eps then some (a.lineArclen upper) else Curve.arclen n a (1 / 2 * eps) upper

theorem arclen_succ (n : ℕ) (c : Curve ℝ) (eps : ℝ) (upper : Bool) : Curve.arclen (n + 1) c eps upper =
    (half n (c.split (1 / 2)).1 eps upper).bind fun x => (half n (c.split (1 / 2)).2 eps upper).bind fun y => some (x + y) :=
  rfl

theorem arclen_some {n : ℕ} {c : Curve ℝ} {eps : ℝ} {upper : Bool} {r : ℝ} (h : Curve.arclen (n + 1) c eps upper = some r) :
    ∃ x y, half n (c.split (1 / 2)).1 eps upper = some x ∧ half n (c.split (1 / 2)).2 eps upper = some y ∧ r = x + y := by
  rw [arclen_succ] at h
  obtain ⟨x, hx, h⟩ := Option.bind_eq_some_iff.mp h
  obtain ⟨y, hy, h⟩ := Option.bind_eq_some_iff.mp h
  exact ⟨x, y, hx, hy, by simpa using h.symm⟩

/-- **C73.**  The bounds enclose the true length, and are less than twice the precision apart. -/
theorem arclen_bounds (n : ℕ) (c : Curve ℝ) (eps : ℝ) (lo hi : ℝ) (hlo : c.arclen n eps false = some lo)
    (hhi : c.arclen n eps true = some hi) :
    0 ≤ lo ∧ lo ≤ hi ∧ ENNReal.ofReal lo ≤ (Item.curve c).length ∧ (Item.curve c).length ≤ ENNReal.ofReal hi ∧
    hi - lo < 2 * eps := by
  induction n generalizing c eps lo hi with
  | zero => simp [Curve.arclen] at hlo
  | succ n ih =>
    obtain ⟨x, y, hx, hy, rfl⟩ := arclen_some hlo
    obtain ⟨u, v, hu, hv, rfl⟩ := arclen_some hhi
    have step : ∀ (a : Curve ℝ) (l h : ℝ), half n a eps false = some l → half n a eps true = some h →
        0 ≤ l ∧ l ≤ h ∧ ENNReal.ofReal l ≤ (Item.curve a).length ∧ (Item.curve a).length ≤ ENNReal.ofReal h ∧ h - l < eps := by
      intro a l h hl hh
      unfold half at hl hh
      by_cases hs : a.polygon - a.chord < eps
      · rw [if_pos hs, Option.some.injEq] at hl hh
        subst hl hh
        have hb1 : ENNReal.ofReal (a.lineArclen false) ≤ (Item.curve a).length := chord_le (.curve a)
        have hb2 : (Item.curve a).length ≤ ENNReal.ofReal (a.lineArclen true) := length_le a
        refine ⟨hypot_nonneg _ _, ?_, hb1, hb2, ?_⟩
        · exact (ENNReal.ofReal_le_ofReal_iff (polygon_nonneg a)).mp (hb1.trans hb2)
        · rw [lineArclen_chord]; exact hs
      · rw [if_neg hs] at hl hh
        obtain ⟨h1, h2, h3, h4, h5⟩ := ih a _ l h hl hh
        exact ⟨h1, h2, h3, h4, by linarith⟩
    obtain ⟨a1, a2, a3, a4, a5⟩ := step _ _ _ hx hu
    obtain ⟨b1, b2, b3, b4, b5⟩ := step _ _ _ hy hv
    refine ⟨by linarith, by linarith, ?_, ?_, by linarith⟩
    · rw [length_split, ENNReal.ofReal_add a1 b1]
      exact add_le_add a3 b3
    · rw [length_split, ENNReal.ofReal_add (a1.trans a2) (b1.trans b2)]
      exact add_le_add a4 b4

/-- A larger bound for the recursion does not change the result. -/
theorem arclen_fuel (n m : ℕ) (c : Curve ℝ) (eps : ℝ) (upper : Bool) (r : ℝ) (h : c.arclen n eps upper = some r)
    (hnm : n ≤ m) : c.arclen m eps upper = some r := by
  induction n generalizing c eps r m with
  | zero => simp [Curve.arclen] at h
  | succ n ih =>
    obtain ⟨m, rfl⟩ : ∃ k, m = k + 1 := ⟨m - 1, by omega⟩
    obtain ⟨x, y, hx, hy, rfl⟩ := arclen_some h
    have step : ∀ a r, half n a eps upper = some r → half m a eps upper = some r := by
      intro a r hr
      unfold half at hr ⊢
      split
      · rw [if_pos (by assumption)] at hr; exact hr
      · rw [if_neg (by assumption)] at hr
        exact ih _ _ _ _ hr (by omega)
    rw [arclen_succ, step _ _ hx, step _ _ hy]
    rfl

/-- A bound of the second differences of the control points. -/
def Bend (c : Curve ℝ) (d : ℝ) : Prop :=
  hypot (c.x0 - 2 * c.x1 + c.x2) (c.y0 - 2 * c.y1 + c.y2) ≤ d ∧ hypot (c.x1 - 2 * c.x2 + c.x3) (c.y1 - 2 * c.y2 + c.y3) ≤ d

theorem bend_split (c : Curve ℝ) (d : ℝ) (h : Bend c d) :
    Bend (c.split (1 / 2)).1 (d / 4) ∧ Bend (c.split (1 / 2)).2 (d / 4) := by
  obtain ⟨h1, h2⟩ := h
  have s1 : ∀ p q x y : ℝ, hypot x y ≤ d → p = 1 / 4 * x → q = 1 / 4 * y → hypot p q ≤ d / 4 := by
    intro p q x y hd hp hq
    rw [hp, hq, hypot_smul, abs_of_pos (by norm_num)]
    linarith
  have s2 : ∀ p q x y u v : ℝ, hypot x y ≤ d → hypot u v ≤ d → p = 1 / 8 * x + 1 / 8 * u → q = 1 / 8 * y + 1 / 8 * v →
      hypot p q ≤ d / 4 := by
    intro p q x y u v hd hd' hp hq
    rw [hp, hq]
    refine (hypot_add_le _ _ _ _).trans ?_
    rw [hypot_smul, hypot_smul, abs_of_pos (by norm_num)]
    linarith
  refine ⟨⟨s1 _ _ _ _ h1 ?_ ?_, s2 _ _ _ _ _ _ h1 h2 ?_ ?_⟩, ⟨s2 _ _ _ _ _ _ h1 h2 ?_ ?_, s1 _ _ _ _ h2 ?_ ?_⟩⟩ <;>
    simp only [Curve.split] <;> ring

/-- A hardly bent control polygon is hardly longer than the chord. -/
theorem excess_le (c : Curve ℝ) (d : ℝ) (h : Bend c d) : c.polygon - c.chord ≤ 4 * d := by
  obtain ⟨h1, h2⟩ := h
  -- the edges expressed by the middle one
  have e1 : hypot (c.x1 - c.x0) (c.y1 - c.y0) ≤ hypot (c.x2 - c.x1) (c.y2 - c.y1) + d := by
    have := hypot_add_le (c.x2 - c.x1) (c.y2 - c.y1) (-(c.x0 - 2 * c.x1 + c.x2)) (-(c.y0 - 2 * c.y1 + c.y2))
    rw [hypot_neg] at this
    have e : hypot (c.x1 - c.x0) (c.y1 - c.y0) = hypot (c.x2 - c.x1 + -(c.x0 - 2 * c.x1 + c.x2)) (c.y2 - c.y1 + -(c.y0 - 2 * c.y1 + c.y2)) := by
      congr 1 <;> ring
    rw [e]; linarith
  have e3 : hypot (c.x3 - c.x2) (c.y3 - c.y2) ≤ hypot (c.x2 - c.x1) (c.y2 - c.y1) + d := by
    have := hypot_add_le (c.x2 - c.x1) (c.y2 - c.y1) (c.x1 - 2 * c.x2 + c.x3) (c.y1 - 2 * c.y2 + c.y3)
    have e : hypot (c.x3 - c.x2) (c.y3 - c.y2) = hypot (c.x2 - c.x1 + (c.x1 - 2 * c.x2 + c.x3)) (c.y2 - c.y1 + (c.y1 - 2 * c.y2 + c.y3)) := by
      congr 1 <;> ring
    rw [e]; linarith
  have e0 : 3 * hypot (c.x2 - c.x1) (c.y2 - c.y1) ≤ c.chord + 2 * d := by
    have h3 : 3 * hypot (c.x2 - c.x1) (c.y2 - c.y1) = hypot (3 * (c.x2 - c.x1)) (3 * (c.y2 - c.y1)) := by
      rw [hypot_smul, abs_of_pos (by norm_num)]
    have e : hypot (3 * (c.x2 - c.x1)) (3 * (c.y2 - c.y1)) =
        hypot ((c.x3 - c.x0) + ((c.x0 - 2 * c.x1 + c.x2) + -(c.x1 - 2 * c.x2 + c.x3)))
          ((c.y3 - c.y0) + ((c.y0 - 2 * c.y1 + c.y2) + -(c.y1 - 2 * c.y2 + c.y3))) := by
      congr 1 <;> ring
    rw [h3, e]
    have t1 := hypot_add_le (c.x3 - c.x0) (c.y3 - c.y0) ((c.x0 - 2 * c.x1 + c.x2) + -(c.x1 - 2 * c.x2 + c.x3))
      ((c.y0 - 2 * c.y1 + c.y2) + -(c.y1 - 2 * c.y2 + c.y3))
    have t2 := hypot_add_le (c.x0 - 2 * c.x1 + c.x2) (c.y0 - 2 * c.y1 + c.y2) (-(c.x1 - 2 * c.x2 + c.x3)) (-(c.y1 - 2 * c.y2 + c.y3))
    rw [hypot_neg] at t2
    unfold Curve.chord
    linarith
  unfold Curve.polygon
  linarith

/-- **C73.**  The recursion ends: a depth of one more than the binary logarithm of the bend over the precision suffices. -/
theorem arclen_terminates (n : ℕ) (c : Curve ℝ) (eps d : ℝ) (upper : Bool) (hb : Bend c d) (hd : d < 2 ^ n * eps) :
    ∃ r, c.arclen (n + 1) eps upper = some r := by
  induction n generalizing c eps d with
  | zero =>
    obtain ⟨b1, b2⟩ := bend_split c d hb
    have e1 := excess_le _ _ b1
    have e2 := excess_le _ _ b2
    rw [arclen_succ]
    unfold half
    rw [pow_zero, one_mul] at hd
    rw [if_pos (by linarith), if_pos (by linarith)]
    exact ⟨_, rfl⟩
  | succ n ih =>
    obtain ⟨b1, b2⟩ := bend_split c d hb
    have hd' : d / 4 < 2 ^ n * (1 / 2 * eps) := by
      rw [pow_succ] at hd
      linarith
    have step : ∀ a, Bend a (d / 4) → ∃ r, half (n + 1) a eps upper = some r := by
      intro a ha
      unfold half
      split
      · exact ⟨_, rfl⟩
      · exact ih a _ _ ha hd'
    obtain ⟨x, hx⟩ := step _ b1
    obtain ⟨y, hy⟩ := step _ b2
    exact ⟨x + y, by rw [arclen_succ, hx, hy]; rfl⟩

/-- **C73.**  For every curve and every positive precision the two bounds are computed; they enclose the true length and
are less than twice the precision apart. -/
theorem arclen_accurate (c : Curve ℝ) (eps : ℝ) (heps : 0 < eps) :
    ∃ n lo hi, (∀ m ≥ n, c.arclen m eps false = some lo ∧ c.arclen m eps true = some hi) ∧
      ENNReal.ofReal lo ≤ (Item.curve c).length ∧ (Item.curve c).length ≤ ENNReal.ofReal hi ∧ hi - lo < 2 * eps := by
  obtain ⟨d, hd⟩ : ∃ d, Bend c d := ⟨max _ _, le_max_left _ _, le_max_right _ _⟩
  obtain ⟨n, hn⟩ := pow_unbounded_of_one_lt (d / eps) (by norm_num : (1 : ℝ) < 2)
  rw [div_lt_iff₀ heps] at hn
  obtain ⟨lo, hlo⟩ := arclen_terminates n c eps d false hd hn
  obtain ⟨hi, hhi⟩ := arclen_terminates n c eps d true hd hn
  obtain ⟨_, _, h3, h4, h5⟩ := arclen_bounds _ c eps lo hi hlo hhi
  exact ⟨n + 1, lo, hi, fun m hm => ⟨arclen_fuel _ _ _ _ _ _ hlo hm, arclen_fuel _ _ _ _ _ _ hhi hm⟩, h3, h4, h5⟩

/-- `normline_pt.arclen_pt` (`normpath.py:182-183`). -/
def Line.arclen (l : Line ℝ) : ℝ := hypot (l.x0 - l.x1) (l.y0 - l.y1)

/-- The length of a straight line is exact. -/
theorem line_arclen (l : Line ℝ) : (Item.line l).length = ENNReal.ofReal l.arclen := by
  apply le_antisymm
  · -- the line is a curve as well
    have e : (Item.line l).length = (Item.curve (⟨l.x0, l.y0, l.x0 + (l.x1 - l.x0) / 3, l.y0 + (l.y1 - l.y0) / 3,
        l.x0 + 2 * (l.x1 - l.x0) / 3, l.y0 + 2 * (l.y1 - l.y0) / 3, l.x1, l.y1⟩ : Curve ℝ)).length := by
      unfold Item.length
      congr 1
      funext t
      unfold Item.cpoint
      congr 1 <;> simp only [Item.point, bezierPoint, linePoint] <;> ring
    rw [e]
    refine (length_le _).trans (le_of_eq ?_)
    congr 1
    unfold Curve.polygon Line.arclen
    have third : ∀ p q : ℝ, p = 1 / 3 * (-(l.x0 - l.x1)) → q = 1 / 3 * (-(l.y0 - l.y1)) → hypot p q = 1 / 3 * hypot (l.x0 - l.x1) (l.y0 - l.y1) := by
      intro p q hp hq
      rw [hp, hq, hypot_smul, hypot_neg, abs_of_pos (by norm_num)]
    have t1 := third (l.x0 + (l.x1 - l.x0) / 3 - l.x0) (l.y0 + (l.y1 - l.y0) / 3 - l.y0) (by ring) (by ring)
    have t2 := third (l.x0 + 2 * (l.x1 - l.x0) / 3 - (l.x0 + (l.x1 - l.x0) / 3))
      (l.y0 + 2 * (l.y1 - l.y0) / 3 - (l.y0 + (l.y1 - l.y0) / 3)) (by ring) (by ring)
    have t3 := third (l.x1 - (l.x0 + 2 * (l.x1 - l.x0) / 3)) (l.y1 - (l.y0 + 2 * (l.y1 - l.y0) / 3)) (by ring) (by ring)
    simp only
    linarith
  · exact chord_le (.line l)

/-- A curve where the recursion goes deeper than the first split: the bend is below 3/2 and the precision 1/2. -/
example : ∃ r, (⟨0, 0, 0, 1, 1, 1, 1, 0⟩ : Curve ℝ).arclen 3 (1 / 2) false = some r := by
  apply arclen_terminates 2 _ _ (3 / 2)
  · constructor <;> rw [hypot_le (by norm_num)] <;> norm_num
  · norm_num

end

end PyX.NormPath
