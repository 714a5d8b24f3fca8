import Verif.NormPath.Arclen
import Verif.Roots.Props

/-!
# Parameters at given arc lengths of curves (`pyx/normpath.py:173-176, 488-502, 724-788`)

`arclentoparam_pt` takes lists of lengths, which are treated independently; here it is a function of a single one.
-/

set_option linter.unusedSectionVars false

namespace PyX.NormPath.ByLength

open PyX.Roots

noncomputable section

/-! ## Model -/

/-- What may go wrong: a recursion deeper than considered, a `ZeroDivisionError` and an `IndexError`. -/
inductive Fail | deep | zero | noRoot
  deriving DecidableEq

/-- The lengths of the edges of the control polygon, `l1_pt`, `l2_pt` and `l3_pt` (`normpath.py:431-433`). -/
def edge1 (c : Curve ℝ) : ℝ := hypot (c.x1 - c.x0) (c.y1 - c.y0)
/-- See `edge1`. -/
def edge2 (c : Curve ℝ) : ℝ := hypot (c.x2 - c.x1) (c.y2 - c.y1)
/-- See `edge1`. -/
def edge3 (c : Curve ℝ) : ℝ := hypot (c.x3 - c.x2) (c.y3 - c.y2)

/-- The condition to replace a part by a line (`normpath.py:441`). -/
def Straight (c : Curve ℝ) (eps : ℝ) : Prop := edge1 c + edge2 c + edge3 c - c.chord < eps

open Classical in
/-- The first element of a list sorted by the distance to one half (`normpath.py:751`); sorting is stable. -/
def closest (r : ℝ) (rs : List ℝ) : ℝ := rs.foldl (fun best t => if |t - 1 / 2| < |best - 1 / 2| then t else best) r

/-- The polynomial to be solved (`normpath.py:743-746`). -/
def rootPoly (c : Curve ℝ) (p : ℝ) : List ℝ :=
  [edge1 c - 2 * edge2 c + edge3 c, -3 * edge1 c + 3 * edge2 c, 3 * edge1 c, -p * (edge1 c + edge2 c + edge3 c)]

open Classical in
/-- `_leftnormline_pt.subparamtoparam` (`normpath.py:740-757`) for the line replacing the curve. -/
def lineSub (c : Curve ℝ) (p : ℝ) : Except Fail ℝ :=
  if 0 ≤ p ∧ p ≤ 1 then
    match realpolyroots (rootPoly c p) with
    | some (r :: rs) => .ok (1 / 2 * closest r rs)
    | _ => .error .noRoot
  else .ok (1 / 2 * p)

open Classical in
/-- `normline_pt._arclentoparam_pt` (`normpath.py:173-176`) for the line replacing the curve. -/
def lineParam (c : Curve ℝ) (s : ℝ) : Except Fail (ℝ × ℝ) :=
  if c.lineArclen false = 0 then .error .zero else .ok (s / c.lineArclen false, c.lineArclen false)

open Classical in
/-- `subparamtoparam` of the left half (`normpath.py:740-757, 771-772`). For the right half, 0.5 is added (`normpath.py:764-765, 779-780`). -/
def sub (c : Curve ℝ) (eps t : ℝ) : Except Fail ℝ := if Straight c eps then lineSub c t else .ok (1 / 2 * t)

open Classical in
/-- `normcurve_pt._arclentoparam_pt` (`normpath.py:488-498`): the parameter and the arc length of the curve.  The first argument bounds the depth of
the recursion. -/
def toParam : ℕ → Curve ℝ → ℝ → ℝ → Except Fail (ℝ × ℝ)
  | 0, _, _, _ => .error .deep
  | n + 1, c, s, eps =>
    let a := (c.split (1 / 2)).1
    let b := (c.split (1 / 2)).2
    (if Straight a eps then lineParam a s else toParam n a s (1 / 2 * eps)).bind fun ra =>
    (if Straight b eps then lineParam b (s - ra.2) else toParam n b (s - ra.2) (1 / 2 * eps)).bind fun rb =>
    (if s > ra.2 then (sub b eps rb.1).map (1 / 2 + ·) else sub a eps ra.1).map fun t => (t, ra.2 + rb.2)

/-! ## Specification -/

/-- The true length of the curve from its begin up to a parameter. -/
def upto (c : Curve ℝ) (t : ℝ) : ℝ := (eVariationOn (Item.curve c).cpoint (Set.Icc 0 t)).toReal

open Classical in
/-- The straight part which contains the position at the given length, and the fraction of its length. -/
def asked : ℕ → Curve ℝ → ℝ → ℝ → Option (Curve ℝ × ℝ)
  | 0, _, _, _ => none
  | n + 1, c, s, eps =>
    let a := (c.split (1 / 2)).1
    let b := (c.split (1 / 2)).2
    (half n a eps false).bind fun la =>
      if s > la then if Straight b eps then some (b, (s - la) / b.chord) else asked n b (s - la) (1 / 2 * eps)
      else if Straight a eps then some (a, s / a.chord) else asked n a s (1 / 2 * eps)

/-- The equation to be solved is of the kind which `realpolyroots` gets wrong (`Roots.cubic_wrong`): the polynomial is cubic and has a double root below
(for a negative leading coefficient above) the single one. -/
def Wrong (c : Curve ℝ) (p : ℝ) : Prop :=
  let k := edge1 c - 2 * edge2 c + edge3 c
  k ≠ 0 ∧ Bad [1 / k * (-3 * edge1 c + 3 * edge2 c), 1 / k * (3 * edge1 c), 1 / k * (-p * (edge1 c + edge2 c + edge3 c))]

/-- The parts of a curve by repeated halving. -/
inductive Part (c : Curve ℝ) : Curve ℝ → Prop
  | whole : Part c c
  | left (a : Curve ℝ) : Part c a → Part c (a.split (1 / 2)).1
  | right (a : Curve ℝ) : Part c a → Part c (a.split (1 / 2)).2

/-! ## Lengths of parts of a curve -/

/-- The bound for the length up to a parameter given by the control polygon. -/
def bound (c : Curve ℝ) (t : ℝ) : ℝ := along (edge1 c) (edge2 c) (edge3 c) t

theorem edges_polygon (c : Curve ℝ) : edge1 c + edge2 c + edge3 c = c.polygon := rfl

theorem edges_nonneg (c : Curve ℝ) : 0 ≤ edge1 c ∧ 0 ≤ edge2 c ∧ 0 ≤ edge3 c := ⟨hypot_nonneg _ _, hypot_nonneg _ _, hypot_nonneg _ _⟩

theorem bound_zero (c : Curve ℝ) : bound c 0 = 0 := by unfold bound along; ring

theorem bound_one (c : Curve ℝ) : bound c 1 = c.polygon := by rw [← edges_polygon]; unfold bound along; ring

theorem variation_le (c : Curve ℝ) (x y : ℝ) (hx : 0 ≤ x) (hy : y ≤ 1) (hxy : x ≤ y) :
    eVariationOn (Item.curve c).cpoint (Set.Icc x y) ≤ ENNReal.ofReal (bound c y - bound c x) := by
  obtain ⟨g, hg⟩ : ∃ g, g = bound c := ⟨_, rfl⟩
  have hd : ∀ x y, 0 ≤ x → y ≤ 1 → x ≤ y → dist2 ((Item.curve c).point x) ((Item.curve c).point y) ≤ g y - g x := by
    rw [hg]; exact curve_dist_le c
  rw [← hg]
  have hdn : ∀ p q, 0 ≤ dist2 p q := fun p q => hypot_nonneg _ _
  have hmono : MonotoneOn g (Set.Icc x y) := by
    intro u hu v hv huv
    have := (hdn _ _).trans (hd u v (hx.trans hu.1) (hv.2.trans hy) huv)
    linarith
  have hvar : eVariationOn g (Set.Icc x y) ≤ ENNReal.ofReal (g y - g x) := by
    have := (hmono.eVariationOn_eq (a := x) (b := y) ⟨le_rfl, hxy⟩ ⟨hxy, le_rfl⟩).le
    rwa [Set.inter_self] at this
  refine le_trans ?_ hvar
  unfold eVariationOn
  apply iSup_mono
  rintro ⟨n, u, hu, hmem⟩
  apply Finset.sum_le_sum
  intro i _
  have hm := hu (Nat.le_succ i)
  have h := hd (u i) (u (i + 1)) (hx.trans (hmem i).1) ((hmem (i + 1)).2.trans hy) hm
  unfold Item.cpoint
  rw [hypot_norm, dist2_comm, edist_dist, Real.dist_eq, abs_of_nonneg (by have := (hdn _ _).trans h; linarith)]
  exact ENNReal.ofReal_le_ofReal h

theorem bound_mono (c : Curve ℝ) (x y : ℝ) (hx : 0 ≤ x) (hy : y ≤ 1) (hxy : x ≤ y) : bound c x ≤ bound c y := by
  obtain ⟨h0, h1, h2⟩ := along_mono x y hx hy hxy
  obtain ⟨e1, e2, e3⟩ := edges_nonneg c
  unfold bound along
  nlinarith [mul_nonneg e1 h0, mul_nonneg e2 h1, mul_nonneg e3 h2]

theorem variation_finite (c : Curve ℝ) (x y : ℝ) (hx : 0 ≤ x) (hy : y ≤ 1) (hxy : x ≤ y) :
    eVariationOn (Item.curve c).cpoint (Set.Icc x y) ≠ ⊤ :=
  ne_top_of_le_ne_top ENNReal.ofReal_ne_top (variation_le c x y hx hy hxy)

theorem upto_one (c : Curve ℝ) : ENNReal.ofReal (upto c 1) = (Item.curve c).length :=
  ENNReal.ofReal_toReal (variation_finite c 0 1 le_rfl le_rfl zero_le_one)

theorem upto_le (c : Curve ℝ) (t : ℝ) (h0 : 0 ≤ t) (h1 : t ≤ 1) : upto c t ≤ bound c t := by
  have h := variation_le c 0 t le_rfl h1 h0
  rw [bound_zero, sub_zero] at h
  refine ENNReal.toReal_le_of_le_ofReal ?_ h
  rw [← bound_zero c]
  exact bound_mono c 0 t le_rfl h1 h0

theorem upto_ge (c : Curve ℝ) (t : ℝ) (h0 : 0 ≤ t) (h1 : t ≤ 1) : bound c t - (c.polygon - c.chord) ≤ upto c t := by
  have hadd := variation_add (Item.curve c) 0 t 1 h0 h1
  have hb := variation_le c t 1 h0 le_rfl h1
  rw [bound_one] at hb
  have hm := bound_mono c t 1 h0 le_rfl h1
  rw [bound_one] at hm
  have hc : ENNReal.ofReal c.chord ≤ (Item.curve c).length := by
    have := chord_le (Item.curve c)
    rw [← lineArclen_false, lineArclen_chord] at this
    exact this
  have hr : (eVariationOn (Item.curve c).cpoint (Set.Icc 0 1)).toReal =
      upto c t + (eVariationOn (Item.curve c).cpoint (Set.Icc t 1)).toReal := by
    rw [← hadd, ENNReal.toReal_add (variation_finite c 0 t le_rfl h1 h0) (variation_finite c t 1 h0 le_rfl h1)]
    rfl
  have hc' : c.chord ≤ (eVariationOn (Item.curve c).cpoint (Set.Icc 0 1)).toReal :=
    (ENNReal.ofReal_le_iff_le_toReal (variation_finite c 0 1 le_rfl le_rfl zero_le_one)).mp hc
  have hb' : (eVariationOn (Item.curve c).cpoint (Set.Icc t 1)).toReal ≤ c.polygon - bound c t :=
    ENNReal.toReal_le_of_le_ofReal (by linarith) hb
  linarith

/-- The length up to a parameter of a part. -/
theorem variation_traces (p w : Item ℝ) (t1 t2 t : ℝ) (h : Traces p w t1 t2) (h12 : t1 < t2) :
    eVariationOn p.cpoint (Set.Icc 0 t) = eVariationOn w.cpoint (Set.Icc t1 (t1 + t * (t2 - t1))) := by
  have e : p.cpoint = w.cpoint ∘ fun s => t1 + s * (t2 - t1) := by
    funext s
    simp only [Item.cpoint, Function.comp, h s]
  have hpos : 0 < t2 - t1 := by linarith
  rw [e, eVariationOn.comp_eq_of_monotoneOn]
  · congr 1
    ext x
    simp only [Set.mem_image, Set.mem_Icc]
    constructor
    · rintro ⟨s, ⟨h0, h1⟩, rfl⟩
      constructor <;> nlinarith
    · rintro ⟨h0, h1⟩
      refine ⟨(x - t1) / (t2 - t1), ⟨div_nonneg (by linarith) hpos.le, (div_le_iff₀ hpos).mpr (by linarith)⟩, ?_⟩
      field_simp
      ring
  · intro s _ s' _ hs
    simp only
    nlinarith

theorem upto_left (c : Curve ℝ) (t : ℝ) : upto c (1 / 2 * t) = upto (c.split (1 / 2)).1 t := by
  unfold upto
  rw [variation_traces _ _ _ _ t (split_traces c (1 / 2 : ℝ)).1 (by norm_num)]
  congr 3
  ring

theorem upto_right (c : Curve ℝ) (t : ℝ) (h0 : 0 ≤ t) (h1 : t ≤ 1) :
    upto c (1 / 2 + 1 / 2 * t) = upto (c.split (1 / 2)).1 1 + upto (c.split (1 / 2)).2 t := by
  have e1 := variation_traces _ _ _ _ t (split_traces c (1 / 2 : ℝ)).2.1 (by norm_num)
  have e2 : (1 / 2 : ℝ) + t * (1 - 1 / 2) = 1 / 2 + 1 / 2 * t := by ring
  rw [e2] at e1
  rw [← upto_left, mul_one]
  have hf := variation_finite c 0 (1 / 2) le_rfl (by norm_num) (by norm_num)
  have hf' := variation_finite c (1 / 2) (1 / 2 + 1 / 2 * t) (by norm_num) (by linarith) (by linarith)
  have hadd := variation_add (Item.curve c) 0 (1 / 2) (1 / 2 + 1 / 2 * t) (by norm_num) (by linarith)
  unfold upto
  rw [← hadd, e1, ENNReal.toReal_add hf hf']

/-! ## Roots -/

theorem closest_mem (rs : List ℝ) : ∀ r, closest r rs ∈ r :: rs := by
  induction rs with
  | nil => intro r; simp [closest]
  | cons t rs ih =>
    intro r
    have e : closest r (t :: rs) = closest (open Classical in if |t - 1 / 2| < |r - 1 / 2| then t else r) rs := rfl
    rw [e]
    have := ih (open Classical in if |t - 1 / 2| < |r - 1 / 2| then t else r)
    rcases List.mem_cons.mp this with h | h
    · rw [h]
      split <;> simp
    · exact List.mem_cons_of_mem _ (List.mem_cons_of_mem _ h)

theorem closest_le (rs : List ℝ) : ∀ r, ∀ x ∈ r :: rs, |closest r rs - 1 / 2| ≤ |x - 1 / 2| := by
  induction rs with
  | nil => intro r x hx; simp at hx; rw [hx]; simp [closest]
  | cons t rs ih =>
    intro r x hx
    have e : closest r (t :: rs) = closest (open Classical in if |t - 1 / 2| < |r - 1 / 2| then t else r) rs := rfl
    rw [e]
    have hr := ih (open Classical in if |t - 1 / 2| < |r - 1 / 2| then t else r)
    have hhead := hr _ List.mem_cons_self
    rcases List.mem_cons.mp hx with h | h
    · rw [h]
      by_cases hc : |t - 1 / 2| < |r - 1 / 2|
      · rw [if_pos hc] at hhead ⊢
        linarith
      · rw [if_neg hc] at hhead ⊢
        exact hhead
    · rcases List.mem_cons.mp h with h | h
      · rw [h]
        by_cases hc : |t - 1 / 2| < |r - 1 / 2|
        · rw [if_pos hc] at hhead ⊢
          exact hhead
        · rw [if_neg hc] at hhead ⊢
          linarith
      · exact hr x (List.mem_cons_of_mem _ h)

theorem eval_rootPoly (c : Curve ℝ) (p t : ℝ) : eval (rootPoly c p) t = bound c t - p * c.polygon := by
  rw [← edges_polygon]
  simp only [rootPoly, eval, bound, along, List.length_cons, List.length_nil]
  ring

theorem root_exists (c : Curve ℝ) (p : ℝ) (h0 : 0 ≤ p) (h1 : p ≤ 1) : ∃ t, 0 ≤ t ∧ t ≤ 1 ∧ eval (rootPoly c p) t = 0 := by
  have hP := polygon_nonneg c
  have hcont : ContinuousOn (bound c) (Set.Icc 0 1) := by
    unfold bound along
    fun_prop
  have := intermediate_value_Icc zero_le_one hcont
  rw [bound_zero, bound_one] at this
  obtain ⟨t, ht, he⟩ := this (show p * c.polygon ∈ Set.Icc 0 c.polygon from ⟨mul_nonneg h0 hP, by nlinarith⟩)
  exact ⟨t, ht.1, ht.2, by rw [eval_rootPoly, he, sub_self]⟩

/-- The control polygon of a curve with different ends has an edge. -/
theorem chord_le_polygon (c : Curve ℝ) : c.chord ≤ c.polygon := by
  have h1 := hypot_add_le (c.x1 - c.x0) (c.y1 - c.y0) (c.x2 - c.x1) (c.y2 - c.y1)
  have h2 := hypot_add_le (c.x1 - c.x0 + (c.x2 - c.x1)) (c.y1 - c.y0 + (c.y2 - c.y1)) (c.x3 - c.x2) (c.y3 - c.y2)
  have e : c.chord = hypot (c.x1 - c.x0 + (c.x2 - c.x1) + (c.x3 - c.x2)) (c.y1 - c.y0 + (c.y2 - c.y1) + (c.y3 - c.y2)) := by
    unfold Curve.chord
    congr 1 <;> ring
  rw [e]
  unfold Curve.polygon
  linarith

theorem lead_rootPoly (c : Curve ℝ) (p : ℝ) (hP : 0 < c.polygon) (hw : ¬ Wrong c p) :
    ∃ k rest, lead (rootPoly c p) = k :: rest ∧ rest.length ≤ 4 ∧ ¬ Bad (rest.map fun a => 1 / k * a) := by
  by_cases h3 : edge1 c - 2 * edge2 c + edge3 c = 0
  · by_cases h2 : -3 * edge1 c + 3 * edge2 c = 0
    · have h1 : 3 * edge1 c ≠ 0 := by
        intro h
        rw [← edges_polygon] at hP
        linarith
      exact ⟨3 * edge1 c, [-p * (edge1 c + edge2 c + edge3 c)], by simp only [rootPoly, lead, h3, h2, h1, if_true, if_false], by simp, id⟩
    · exact ⟨-3 * edge1 c + 3 * edge2 c, [3 * edge1 c, -p * (edge1 c + edge2 c + edge3 c)],
        by simp only [rootPoly, lead, h3, h2, if_true, if_false], by simp, id⟩
  · refine ⟨edge1 c - 2 * edge2 c + edge3 c, [-3 * edge1 c + 3 * edge2 c, 3 * edge1 c, -p * (edge1 c + edge2 c + edge3 c)],
      by simp only [rootPoly, lead, h3, if_false], by simp, ?_⟩
    intro hb
    exact hw ⟨h3, hb⟩

/-- If the equation is not one of those which `realpolyroots` gets wrong, the value chosen is a solution between 0 and 1. -/
theorem lineSub_root (c : Curve ℝ) (p : ℝ) (h0 : 0 ≤ p) (h1 : p ≤ 1) (hP : 0 < c.polygon) (hw : ¬ Wrong c p) :
    ∃ t, lineSub c p = .ok (1 / 2 * t) ∧ 0 ≤ t ∧ t ≤ 1 ∧ bound c t = p * c.polygon := by
  obtain ⟨k, rest, hl, hlen, hb⟩ := lead_rootPoly c p hP hw
  obtain ⟨roots, hr, hroots⟩ := realpolyroots_partial _ k rest hl hlen hb
  obtain ⟨x, hx0, hx1, hx⟩ := root_exists c p h0 h1
  have hxm := (hroots x).mpr hx
  cases roots with
  | nil => simp at hxm
  | cons r rs =>
    have hm := (hroots _).mp (closest_mem rs r)
    have hle := closest_le rs r x hxm
    have hxb : |x - 1 / 2| ≤ 1 / 2 := abs_le.mpr ⟨by linarith, by linarith⟩
    obtain ⟨g1, g2⟩ := abs_le.mp (hle.trans hxb)
    refine ⟨closest r rs, ?_, by linarith, by linarith, ?_⟩
    · unfold lineSub
      rw [if_pos ⟨h0, h1⟩, hr]
    · rw [eval_rootPoly] at hm
      linarith

/-! ## Results -/

theorem bind_ok {ε α β : Type} {x : Except ε α} {f : α → Except ε β} {r : β} (h : x.bind f = .ok r) : ∃ y, x = .ok y ∧ f y = .ok r := by
  cases x with
  | error e => simp [Except.bind] at h
  | ok y => exact ⟨y, rfl, h⟩

theorem map_ok {ε α β : Type} {x : Except ε α} {f : α → β} {r : β} (h : x.map f = .ok r) : ∃ y, x = .ok y ∧ f y = r := by
  cases x with
  | error e => simp [Except.map] at h
  | ok y => exact ⟨y, rfl, by simpa [Except.map] using h⟩

open Classical in
/-- The parameter within a half and the length of the half. -/
def halfParam (n : ℕ) (a : Curve ℝ) (s eps : ℝ) : Except Fail (ℝ × ℝ) :=
  if Straight a eps then lineParam a s else toParam n a s (1 / 2 * eps)

open Classical in
theorem toParam_succ (n : ℕ) (c : Curve ℝ) (s eps : ℝ) : toParam (n + 1) c s eps =
    (halfParam n (c.split (1 / 2)).1 s eps).bind fun ra => (halfParam n (c.split (1 / 2)).2 (s - ra.2) eps).bind fun rb =>
    (if s > ra.2 then (sub (c.split (1 / 2)).2 eps rb.1).map (1 / 2 + ·) else sub (c.split (1 / 2)).1 eps ra.1).map
      fun t => (t, ra.2 + rb.2) := rfl

theorem toParam_ok {n : ℕ} {c : Curve ℝ} {s eps t l : ℝ} (h : toParam (n + 1) c s eps = .ok (t, l)) :
    ∃ ta la tb lb, halfParam n (c.split (1 / 2)).1 s eps = .ok (ta, la) ∧ halfParam n (c.split (1 / 2)).2 (s - la) eps = .ok (tb, lb) ∧
      l = la + lb ∧ ((la < s ∧ ∃ u, sub (c.split (1 / 2)).2 eps tb = .ok u ∧ t = 1 / 2 + u) ∨
        (s ≤ la ∧ sub (c.split (1 / 2)).1 eps ta = .ok t)) := by
  rw [toParam_succ] at h
  obtain ⟨⟨ta, la⟩, h1, h⟩ := bind_ok h
  obtain ⟨⟨tb, lb⟩, h2, h⟩ := bind_ok h
  obtain ⟨u, h3, h⟩ := map_ok h
  simp only [Prod.mk.injEq] at h
  obtain ⟨rfl, rfl⟩ := h
  refine ⟨ta, la, tb, lb, h1, h2, rfl, ?_⟩
  by_cases hs : s > la
  · rw [if_pos hs] at h3
    obtain ⟨v, h4, h5⟩ := map_ok h3
    exact Or.inl ⟨hs, v, h4, h5.symm⟩
  · rw [if_neg hs] at h3
    exact Or.inr ⟨not_lt.mp hs, h3⟩

theorem halfParam_length (n : ℕ) (a : Curve ℝ) (s eps t l : ℝ) (ih : ∀ c s eps t l, toParam n c s eps = .ok (t, l) → c.arclen n eps false = some l)
    (h : halfParam n a s eps = .ok (t, l)) : half n a eps false = some l := by
  unfold halfParam at h
  unfold half
  by_cases hs : Straight a eps
  · rw [if_pos hs] at h
    have hs' : a.polygon - a.chord < eps := hs
    rw [if_pos hs']
    unfold lineParam at h
    by_cases hz : a.lineArclen false = 0
    · rw [if_pos hz] at h; simp at h
    · rw [if_neg hz] at h
      simp only [Except.ok.injEq, Prod.mk.injEq] at h
      rw [h.2]
  · rw [if_neg hs] at h
    have hs' : ¬ a.polygon - a.chord < eps := hs
    rw [if_neg hs']
    exact ih _ _ _ _ _ h

/-- **C118.**  The length returned is the one of `arclen_pt`. -/
theorem toParam_length (n : ℕ) (c : Curve ℝ) (s eps t l : ℝ) (h : toParam n c s eps = .ok (t, l)) : c.arclen n eps false = some l := by
  induction n generalizing c s eps t l with
  | zero => simp [toParam] at h
  | succ n ih =>
    obtain ⟨ta, la, tb, lb, h1, h2, rfl, _⟩ := toParam_ok h
    rw [arclen_succ, halfParam_length n _ _ _ _ _ ih h1, halfParam_length n _ _ _ _ _ ih h2]
    rfl

theorem upper_some (n : ℕ) (c : Curve ℝ) (eps l : ℝ) (h : c.arclen n eps false = some l) : ∃ u, c.arclen n eps true = some u := by
  induction n generalizing c eps l with
  | zero => simp [Curve.arclen] at h
  | succ n ih =>
    obtain ⟨x, y, hx, hy, _⟩ := arclen_some h
    have step : ∀ a r, half n a eps false = some r → ∃ u, half n a eps true = some u := by
      intro a r hr
      unfold half at hr ⊢
      by_cases hs : a.polygon - a.chord < eps
      · rw [if_pos hs]; exact ⟨_, rfl⟩
      · rw [if_neg hs] at hr ⊢
        exact ih _ _ _ hr
    obtain ⟨u, hu⟩ := step _ _ hx
    obtain ⟨v, hv⟩ := step _ _ hy
    exact ⟨u + v, by rw [arclen_succ, hu, hv]; rfl⟩

/-- The length of a half is a lower bound, off by less than the precision. -/
theorem half_bounds (n : ℕ) (a : Curve ℝ) (eps l : ℝ) (h : half n a eps false = some l) : 0 ≤ l ∧ l ≤ upto a 1 ∧ upto a 1 - l < eps := by
  have key : ∀ lo hi : ℝ, 0 ≤ lo → lo ≤ hi → ENNReal.ofReal lo ≤ (Item.curve a).length → (Item.curve a).length ≤ ENNReal.ofReal hi → hi - lo < eps →
      0 ≤ lo ∧ lo ≤ upto a 1 ∧ upto a 1 - lo < eps := by
    intro lo hi h0 h1 h2 h3 h4
    rw [← upto_one] at h2 h3
    have h5 := (ENNReal.ofReal_le_ofReal_iff ENNReal.toReal_nonneg).mp h2
    have h6 := (ENNReal.ofReal_le_ofReal_iff (h0.trans h1)).mp h3
    exact ⟨h0, h5, by linarith⟩
  unfold half at h
  by_cases hs : a.polygon - a.chord < eps
  · rw [if_pos hs, lineArclen_chord, Option.some.injEq] at h
    subst h
    refine key a.chord a.polygon (hypot_nonneg _ _) (chord_le_polygon a) ?_ (length_le a) hs
    have := chord_le (.curve a)
    rw [← lineArclen_false, lineArclen_chord] at this
    exact this
  · rw [if_neg hs] at h
    obtain ⟨u, hu⟩ := upper_some _ _ _ _ h
    obtain ⟨h1, h2, h3, h4, h5⟩ := arclen_bounds n a _ l u h hu
    exact key l u h1 h2 h3 h4 (by linarith)

/-- The parameter of a straight part. -/
theorem line_accurate (a : Curve ℝ) (s eps p l t : ℝ) (hst : Straight a eps) (h : lineParam a s = .ok (p, l)) (h0 : 0 ≤ s) (hsl : s ≤ l)
    (hw : ¬ Wrong a (s / a.chord)) (hsub : lineSub a p = .ok t) :
    ∃ u, t = 1 / 2 * u ∧ 0 ≤ u ∧ u ≤ 1 ∧ bound a u = s / a.chord * a.polygon ∧ |upto a u - s| < eps := by
  unfold lineParam at h
  by_cases hz : a.lineArclen false = 0
  · rw [if_pos hz] at h; simp at h
  · rw [if_neg hz] at h
    simp only [Except.ok.injEq, Prod.mk.injEq] at h
    obtain ⟨hp, hl⟩ := h
    rw [lineArclen_chord] at hz hp hl
    have hc : 0 < a.chord := lt_of_le_of_ne (hypot_nonneg _ _) (Ne.symm hz)
    have hcP := chord_le_polygon a
    have hp0 : 0 ≤ s / a.chord := div_nonneg h0 hc.le
    have hp1 : s / a.chord ≤ 1 := (div_le_one hc).mpr (by linarith)
    obtain ⟨u, hu, hu0, hu1, hub⟩ := lineSub_root a _ hp0 hp1 (hc.trans_le hcP) hw
    rw [hp] at hu
    rw [hu] at hsub
    simp only [Except.ok.injEq] at hsub
    refine ⟨u, hsub.symm, hu0, hu1, hub, ?_⟩
    have hst' : a.polygon - a.chord < eps := hst
    have k1 := upto_le a u hu0 hu1
    have k2 := upto_ge a u hu0 hu1
    rw [hub] at k1 k2
    have e : s / a.chord * a.polygon = s + s / a.chord * (a.polygon - a.chord) := by field_simp; ring
    rw [e] at k1 k2
    have k3 : 0 ≤ s / a.chord * (a.polygon - a.chord) := mul_nonneg hp0 (by linarith)
    have k4 : s / a.chord * (a.polygon - a.chord) ≤ a.polygon - a.chord := by nlinarith
    rw [abs_lt]
    constructor <;> linarith

open Classical in
theorem asked_succ (n : ℕ) (c : Curve ℝ) (s eps la : ℝ) (h : half n (c.split (1 / 2)).1 eps false = some la) : asked (n + 1) c s eps =
    if s > la then if Straight (c.split (1 / 2)).2 eps then some ((c.split (1 / 2)).2, (s - la) / (c.split (1 / 2)).2.chord)
      else asked n (c.split (1 / 2)).2 (s - la) (1 / 2 * eps)
    else if Straight (c.split (1 / 2)).1 eps then some ((c.split (1 / 2)).1, s / (c.split (1 / 2)).1.chord)
      else asked n (c.split (1 / 2)).1 s (1 / 2 * eps) := by
  rw [asked, h]
  rfl

/-- **C118_partial.**  The parameter returned for an arc length between 0 and the arc length of the curve lies between 0 and 1, and the true length of the curve up to it
differs from the given one by less than twice the precision.  What is missing: the equation to be solved must not be one which `realpolyroots` gets wrong. -/
theorem toParam_accurate_partial (n : ℕ) (c : Curve ℝ) (s eps t l : ℝ) (h : toParam n c s eps = .ok (t, l)) (h0 : 0 ≤ s) (hsl : s ≤ l)
    (hgood : ∀ a p, asked n c s eps = some (a, p) → ¬ Wrong a p) : 0 ≤ t ∧ t ≤ 1 ∧ |upto c t - s| < 2 * eps := by
  induction n generalizing c s eps t l with
  | zero => simp [toParam] at h
  | succ n ih =>
    obtain ⟨ta, la, tb, lb, h1, h2, rfl, h3⟩ := toParam_ok h
    have e1 := halfParam_length n _ _ _ _ _ (toParam_length n) h1
    have e2 := halfParam_length n _ _ _ _ _ (toParam_length n) h2
    obtain ⟨b1, b2, b3⟩ := half_bounds _ _ _ _ e1
    -- a half
    have step : ∀ (a : Curve ℝ) (s ta la t : ℝ), halfParam n a s eps = .ok (ta, la) → 0 ≤ s → s ≤ la → sub a eps ta = .ok t →
        (∀ q, (Straight a eps → q = (a, s / a.chord)) → (¬ Straight a eps → asked n a s (1 / 2 * eps) = some q) → ¬ Wrong q.1 q.2) →
        ∃ u, t = 1 / 2 * u ∧ 0 ≤ u ∧ u ≤ 1 ∧ |upto a u - s| < eps := by
      intro a s ta la t h hs hsl hsub hw
      unfold halfParam at h
      unfold sub at hsub
      by_cases hst : Straight a eps
      · rw [if_pos hst] at h hsub
        obtain ⟨u, k1, k2, k3, _, k4⟩ := line_accurate a s eps ta la t hst h hs hsl (hw (a, s / a.chord) (fun _ => rfl) (fun h => absurd hst h)) hsub
        exact ⟨u, k1, k2, k3, k4⟩
      · rw [if_neg hst] at h hsub
        simp only [Except.ok.injEq] at hsub
        obtain ⟨k1, k2, k3⟩ := ih a s _ ta la h hs hsl (fun a' p ha => hw (a', p) (fun h => absurd h hst) (fun _ => ha))
        exact ⟨ta, hsub.symm, k1, k2, by linarith⟩
    have hask := asked_succ n c s eps la e1
    rcases h3 with ⟨hgt, v, hv, rfl⟩ | ⟨hle, hsub⟩
    · rw [if_pos hgt] at hask
      obtain ⟨u, k1, k2, k3, k4⟩ := step _ _ _ _ _ h2 (by linarith) (by linarith) hv (by
        intro q hq1 hq2
        apply hgood
        rw [hask]
        by_cases hst : Straight (c.split (1 / 2)).2 eps
        · rw [if_pos hst, hq1 hst]
        · rw [if_neg hst, hq2 hst])
      subst k1
      refine ⟨by linarith, by linarith, ?_⟩
      rw [upto_right c u k2 k3]
      rw [abs_lt] at k4 ⊢
      constructor <;> linarith
    · rw [if_neg (not_lt.mpr hle)] at hask
      obtain ⟨u, k1, k2, k3, k4⟩ := step _ _ _ _ _ h1 h0 hle hsub (by
        intro q hq1 hq2
        apply hgood
        rw [hask]
        by_cases hst : Straight (c.split (1 / 2)).1 eps
        · rw [if_pos hst, hq1 hst]
        · rw [if_neg hst, hq2 hst])
      subst k1
      refine ⟨by linarith, by linarith, ?_⟩
      rw [upto_left]
      rw [abs_lt] at k4 ⊢
      constructor <;> linarith

/-! ## Order -/

theorem bound_strict (c : Curve ℝ) (hP : 0 < c.polygon) (x y : ℝ) (hx : 0 ≤ x) (hy : y ≤ 1) (hxy : x < y) : bound c x < bound c y := by
  obtain ⟨e1, e2, e3⟩ := edges_nonneg c
  have h0 : 0 < (1 - (1 - y) ^ 3) - (1 - (1 - x) ^ 3) := by
    have : (1 - y) ^ 3 < (1 - x) ^ 3 := pow_lt_pow_left₀ (by linarith) (by linarith) (by norm_num)
    linarith
  have h2 : 0 < y ^ 3 - x ^ 3 := by
    have : x ^ 3 < y ^ 3 := pow_lt_pow_left₀ hxy hx (by norm_num)
    linarith
  have h1 : 0 < (3 * y ^ 2 - 2 * y ^ 3) - (3 * x ^ 2 - 2 * x ^ 3) := by
    have e : (3 * y ^ 2 - 2 * y ^ 3) - (3 * x ^ 2 - 2 * x ^ 3) = (y - x) * (2 * (y * (1 - y)) + 2 * (x * (1 - x)) + x * (1 - y) + y * (1 - x)) := by ring
    rw [e]
    apply mul_pos (by linarith)
    have a1 : 0 ≤ y * (1 - y) := mul_nonneg (by linarith) (by linarith)
    have a2 : 0 ≤ x * (1 - x) := mul_nonneg (by linarith) (by linarith)
    have a3 : 0 ≤ x * (1 - y) := mul_nonneg (by linarith) (by linarith)
    have a4 : 0 < y * (1 - x) := mul_pos (by linarith) (by linarith)
    linarith
  rw [← edges_polygon] at hP
  have m1 := mul_nonneg e1 h0.le
  have m2 := mul_nonneg e2 h1.le
  have m3 := mul_nonneg e3 h2.le
  have hpos : 0 < edge1 c * ((1 - (1 - y) ^ 3) - (1 - (1 - x) ^ 3)) + edge2 c * ((3 * y ^ 2 - 2 * y ^ 3) - (3 * x ^ 2 - 2 * x ^ 3)) +
      edge3 c * (y ^ 3 - x ^ 3) := by
    rcases e1.lt_or_eq with h | h
    · have := mul_pos h h0; linarith
    · rcases e2.lt_or_eq with h' | h'
      · have := mul_pos h' h1; linarith
      · have : 0 < edge3 c := by linarith
        have := mul_pos this h2; linarith
  unfold bound along
  nlinarith

theorem lineParam_ok {a : Curve ℝ} {s p l : ℝ} (h : lineParam a s = .ok (p, l)) : 0 < a.chord ∧ p = s / a.chord ∧ l = a.chord := by
  unfold lineParam at h
  by_cases hz : a.lineArclen false = 0
  · rw [if_pos hz] at h; simp at h
  · rw [if_neg hz] at h
    simp only [Except.ok.injEq, Prod.mk.injEq] at h
    obtain ⟨hp, hl⟩ := h
    rw [lineArclen_chord] at hz hp hl
    exact ⟨lt_of_le_of_ne (hypot_nonneg _ _) (Ne.symm hz), hp.symm, hl.symm⟩

theorem toParam_pos (n : ℕ) (c : Curve ℝ) (s eps t l : ℝ) (h : toParam n c s eps = .ok (t, l)) : 0 < l := by
  induction n generalizing c s eps t l with
  | zero => simp [toParam] at h
  | succ n ih =>
    obtain ⟨ta, la, tb, lb, h1, h2, rfl, _⟩ := toParam_ok h
    have step : ∀ a s t l, halfParam n a s eps = .ok (t, l) → 0 < l := by
      intro a s t l h
      unfold halfParam at h
      by_cases hst : Straight a eps
      · rw [if_pos hst] at h
        obtain ⟨k1, _, k3⟩ := lineParam_ok h
        rw [k3]; exact k1
      · rw [if_neg hst] at h
        exact ih _ _ _ _ _ h
    have := step _ _ _ _ h1
    have := step _ _ _ _ h2
    linarith

/-- The parts to be asked for, within a half. -/
def halfAsked (n : ℕ) (a : Curve ℝ) (s eps : ℝ) : Option (Curve ℝ × ℝ) :=
  open Classical in if Straight a eps then some (a, s / a.chord) else asked n a s (1 / 2 * eps)

open Classical in
theorem asked_half (n : ℕ) (c : Curve ℝ) (s eps la : ℝ) (h : half n (c.split (1 / 2)).1 eps false = some la) : asked (n + 1) c s eps =
    if s > la then halfAsked n (c.split (1 / 2)).2 (s - la) eps else halfAsked n (c.split (1 / 2)).1 s eps := asked_succ n c s eps la h

/-- What is known about the parameter of a half. -/
theorem half_param (n : ℕ) (a : Curve ℝ) (s eps ta la t : ℝ)
    (h : halfParam n a s eps = .ok (ta, la)) (h0 : 0 ≤ s) (hsl : s ≤ la) (hsub : sub a eps ta = .ok t)
    (hgood : ∀ q, halfAsked n a s eps = some q → ¬ Wrong q.1 q.2) :
    (Straight a eps ∧ ∃ u, t = 1 / 2 * u ∧ 0 ≤ u ∧ u ≤ 1 ∧ 0 < a.chord ∧ la = a.chord ∧ bound a u = s / a.chord * a.polygon) ∨
    (¬ Straight a eps ∧ toParam n a s (1 / 2 * eps) = .ok (ta, la) ∧ t = 1 / 2 * ta ∧ 0 ≤ ta ∧ ta ≤ 1 ∧
      ∀ a' p, asked n a s (1 / 2 * eps) = some (a', p) → ¬ Wrong a' p) := by
  unfold halfParam at h
  unfold sub at hsub
  unfold halfAsked at hgood
  by_cases hst : Straight a eps
  · rw [if_pos hst] at h hsub hgood
    obtain ⟨u, k1, k2, k3, k4, _⟩ := line_accurate a s eps ta la t hst h h0 hsl (hgood _ rfl) hsub
    obtain ⟨m1, _, m3⟩ := lineParam_ok h
    exact Or.inl ⟨hst, u, k1, k2, k3, m1, m3, k4⟩
  · rw [if_neg hst] at h hsub hgood
    simp only [Except.ok.injEq] at hsub
    have hg : ∀ a' p, asked n a s (1 / 2 * eps) = some (a', p) → ¬ Wrong a' p := fun a' p ha => hgood (a', p) ha
    obtain ⟨k1, k2, _⟩ := toParam_accurate_partial n a s _ ta la h h0 hsl hg
    exact Or.inr ⟨hst, h, hsub.symm, k1, k2, hg⟩

/-- The parameter of a positive arc length is positive. -/
theorem toParam_lower (n : ℕ) (c : Curve ℝ) (s eps t l : ℝ) (h : toParam n c s eps = .ok (t, l)) (h0 : 0 < s) (hsl : s ≤ l)
    (hgood : ∀ a p, asked n c s eps = some (a, p) → ¬ Wrong a p) : 0 < t := by
  induction n generalizing c s eps t l with
  | zero => simp [toParam] at h
  | succ n ih =>
    obtain ⟨ta, la, tb, lb, h1, h2, rfl, h3⟩ := toParam_ok h
    have e1 := halfParam_length n _ _ _ _ _ (toParam_length n) h1
    have hask := asked_half n c s eps _ e1
    rcases h3 with ⟨hgt, v, hv, rfl⟩ | ⟨hle, hsub⟩
    · rw [if_pos hgt] at hask
      rcases half_param n _ (s - la) eps tb lb v h2 (by linarith) (by linarith) hv (fun q hq => hgood _ _ (hask.trans hq)) with
        ⟨_, u, k1, k2, _⟩ | ⟨_, _, k2, k3, _⟩ <;> linarith
    · rw [if_neg (not_lt.mpr hle)] at hask
      rcases half_param n _ s eps ta la t h1 h0.le hle hsub (fun q hq => hgood _ _ (hask.trans hq)) with ⟨_, u, k1, k2, k3, k4, k5, k6⟩ | ⟨_, k1, k2, k3, k4, k5⟩
      · have hP := k4.trans_le (chord_le_polygon (c.split (1 / 2)).1)
        have : 0 < bound (c.split (1 / 2)).1 u := by
          rw [k6]
          exact mul_pos (div_pos h0 k4) hP
        have : u ≠ 0 := by
          intro hu
          rw [hu, bound_zero] at this
          exact lt_irrefl _ this
        have : 0 < u := lt_of_le_of_ne k2 (Ne.symm this)
        linarith
      · have := ih _ _ _ _ _ k1 h0 hle k5
        linarith

/-- **C118_partial.**  A larger arc length leads to a larger parameter. -/
theorem toParam_mono_partial (n : ℕ) (c : Curve ℝ) (s s' eps t t' l : ℝ) (h : toParam n c s eps = .ok (t, l)) (h' : toParam n c s' eps = .ok (t', l))
    (h0 : 0 ≤ s) (hss : s < s') (hsl : s' ≤ l) (hgood : ∀ a p, asked n c s eps = some (a, p) → ¬ Wrong a p)
    (hgood' : ∀ a p, asked n c s' eps = some (a, p) → ¬ Wrong a p) : t < t' := by
  induction n generalizing c s s' eps t t' l with
  | zero => simp [toParam] at h
  | succ n ih =>
    obtain ⟨ta, la, tb, lb, h1, h2, hl, h3⟩ := toParam_ok h
    obtain ⟨ta', la', tb', lb', h1', h2', hl', h3'⟩ := toParam_ok h'
    have e1 := halfParam_length n _ _ _ _ _ (toParam_length n) h1
    have e1' := halfParam_length n _ _ _ _ _ (toParam_length n) h1'
    have ela : la' = la := by rw [e1] at e1'; simpa using e1'.symm
    subst ela
    have elb : lb' = lb := by linarith
    subst elb
    have step : ∀ (a : Curve ℝ) (s s' ta ta' la t t' : ℝ), halfParam n a s eps = .ok (ta, la) → halfParam n a s' eps = .ok (ta', la) → 0 ≤ s → s < s' → s' ≤ la →
        sub a eps ta = .ok t → sub a eps ta' = .ok t' →
        (∀ q, halfAsked n a s eps = some q → ¬ Wrong q.1 q.2) → (∀ q, halfAsked n a s' eps = some q → ¬ Wrong q.1 q.2) → t < t' := by
      intro a s s' ta ta' la t t' h h' hs hss hsl hsub hsub' hg hg'
      rcases half_param n a s eps ta la t h hs (by linarith) hsub hg with ⟨hst, u, k1, k2, k3, k4, k5, k6⟩ | ⟨hst, k1, k2, k3, k4, k5⟩
      · rcases half_param n a s' eps ta' la t' h' (by linarith) hsl hsub' hg' with ⟨_, u', m1, m2, m3, m4, m5, m6⟩ | ⟨hst', _⟩
        · have hP := k4.trans_le (chord_le_polygon a)
          have hlt : bound a u < bound a u' := by
            rw [k6, m6]
            exact mul_lt_mul_of_pos_right ((div_lt_div_iff_of_pos_right k4).mpr hss) hP
          have : u < u' := by
            by_contra hc
            have := bound_mono a u' u m2 k3 (not_lt.mp hc)
            linarith
          linarith
        · exact absurd hst hst'
      · rcases half_param n a s' eps ta' la t' h' (by linarith) hsl hsub' hg' with ⟨hst', _⟩ | ⟨_, m1, m2, m3, m4, m5⟩
        · exact absurd hst' hst
        · have := ih a s s' _ ta ta' la k1 m1 hs hss hsl k5 m5
          linarith
    have hask := asked_half n c s eps _ e1
    have hask' := asked_half n c s' eps _ e1
    rcases h3 with ⟨hgt, v, hv, rfl⟩ | ⟨hle, hsub⟩
    · rcases h3' with ⟨hgt', v', hv', rfl⟩ | ⟨hle', _⟩
      · rw [if_pos hgt] at hask
        rw [if_pos hgt'] at hask'
        have := step _ _ _ _ _ _ _ _ h2 h2' (by linarith) (by linarith) (by linarith) hv hv' (fun q hq => hgood _ _ (hask.trans hq))
          (fun q hq => hgood' _ _ (hask'.trans hq))
        linarith
      · linarith
    · rw [if_neg (not_lt.mpr hle)] at hask
      rcases h3' with ⟨hgt', v', hv', rfl⟩ | ⟨hle', hsub'⟩
      · rw [if_pos hgt'] at hask'
        have hb' : s' - la' ≤ lb' := by linarith
        have t1 : t ≤ 1 / 2 := by
          rcases half_param n _ s eps ta la' t h1 h0 hle hsub (fun q hq => hgood _ _ (hask.trans hq)) with ⟨_, u, k1, k2, k3, _⟩ | ⟨_, _, k1, k2, k3, _⟩ <;> linarith
        have t2 : 0 < v' := by
          have hg' : ∀ q, halfAsked n (c.split (1 / 2)).2 (s' - la') eps = some q → ¬ Wrong q.1 q.2 := fun q hq => hgood' _ _ (hask'.trans hq)
          rcases half_param n _ (s' - la') eps tb' lb' v' h2' (by linarith) hb' hv' hg' with ⟨_, u, k1, k2, k3, k4, k5, k6⟩ | ⟨_, k1, k2, k3, k4, k5⟩
          · have hP := k4.trans_le (chord_le_polygon (c.split (1 / 2)).2)
            have : 0 < bound (c.split (1 / 2)).2 u := by
              rw [k6]
              exact mul_pos (div_pos (by linarith) k4) hP
            have : u ≠ 0 := by
              intro hu
              rw [hu, bound_zero] at this
              exact lt_irrefl _ this
            have : 0 < u := lt_of_le_of_ne k2 (Ne.symm this)
            linarith
          · have := toParam_lower n _ _ _ _ _ k1 (by linarith) hb' k5
            linarith
        linarith
      · rw [if_neg (not_lt.mpr hle')] at hask'
        exact step _ _ _ _ _ _ _ _ h1 h1' h0 hss hle' hsub hsub' (fun q hq => hgood _ _ (hask.trans hq)) (fun q hq => hgood' _ _ (hask'.trans hq))

/-! ## Begin and end -/

theorem bound_inj (c : Curve ℝ) (hP : 0 < c.polygon) (x y : ℝ) (hx0 : 0 ≤ x) (hx : x ≤ 1) (hy0 : 0 ≤ y) (hy : y ≤ 1) (h : bound c x = bound c y) : x = y := by
  rcases lt_trichotomy x y with h1 | h1 | h1
  · exact absurd h (bound_strict c hP x y hx0 hy h1).ne
  · exact h1
  · exact absurd h (bound_strict c hP y x hy0 hx h1).ne'

/-- **C118_partial.**  Arc length 0 is the begin of the curve. -/
theorem toParam_begin_partial (n : ℕ) (c : Curve ℝ) (eps t l : ℝ) (h : toParam n c 0 eps = .ok (t, l))
    (hgood : ∀ a p, asked n c 0 eps = some (a, p) → ¬ Wrong a p) : t = 0 := by
  induction n generalizing c eps t l with
  | zero => simp [toParam] at h
  | succ n ih =>
    obtain ⟨ta, la, tb, lb, h1, h2, rfl, h3⟩ := toParam_ok h
    have e1 := halfParam_length n _ _ _ _ _ (toParam_length n) h1
    obtain ⟨b1, _⟩ := half_bounds _ _ _ _ e1
    have hask := asked_half n c 0 eps _ e1
    rw [if_neg (not_lt.mpr b1)] at hask
    rcases h3 with ⟨hgt, _⟩ | ⟨hle, hsub⟩
    · linarith
    · rcases half_param n _ 0 eps ta la t h1 le_rfl hle hsub (fun q hq => hgood _ _ (hask.trans hq)) with ⟨_, u, k1, k2, k3, k4, k5, k6⟩ | ⟨_, k1, k2, k3, k4, k5⟩
      · rw [zero_div, zero_mul, ← bound_zero (c.split (1 / 2)).1] at k6
        have := bound_inj _ (k4.trans_le (chord_le_polygon _)) _ _ k2 k3 le_rfl zero_le_one k6
        rw [k1, this, mul_zero]
      · rw [k2, ih _ _ _ _ k1 k5, mul_zero]

/-- **C118_partial.**  The arc length of the curve is its end. -/
theorem toParam_end_partial (n : ℕ) (c : Curve ℝ) (s eps t l : ℝ) (h : toParam n c s eps = .ok (t, l)) (hsl : s = l)
    (hgood : ∀ a p, asked n c s eps = some (a, p) → ¬ Wrong a p) : t = 1 := by
  induction n generalizing c s eps t l with
  | zero => simp [toParam] at h
  | succ n ih =>
    obtain ⟨ta, la, tb, lb, h1, h2, rfl, h3⟩ := toParam_ok h
    have e1 := halfParam_length n _ _ _ _ _ (toParam_length n) h1
    obtain ⟨b1, _⟩ := half_bounds _ _ _ _ e1
    have hlb : 0 < lb := by
      unfold halfParam at h2
      by_cases hst : Straight (c.split (1 / 2)).2 eps
      · rw [if_pos hst] at h2
        obtain ⟨k1, _, k3⟩ := lineParam_ok h2
        rw [k3]; exact k1
      · rw [if_neg hst] at h2
        exact toParam_pos _ _ _ _ _ _ h2
    have hask := asked_half n c s eps _ e1
    have hgt : s > la := by linarith
    rw [if_pos hgt] at hask
    have hb : s - la = lb := by linarith
    rcases h3 with ⟨_, v, hv, rfl⟩ | ⟨hle, _⟩
    · rcases half_param n _ (s - la) eps tb lb v h2 (by linarith) hb.le hv (fun q hq => hgood _ _ (hask.trans hq)) with
        ⟨_, u, k1, k2, k3, k4, k5, k6⟩ | ⟨_, k1, k2, k3, k4, k5⟩
      · rw [hb, k5, div_self k4.ne', one_mul, ← bound_one] at k6
        have := bound_inj _ (k4.trans_le (chord_le_polygon _)) _ _ k2 k3 zero_le_one le_rfl k6
        rw [k1, this]; norm_num
      · rw [k2, ih _ _ _ _ _ k1 hb k5]; norm_num
    · linarith

/-! ## Exceptions -/

theorem Part.trans {c a b : Curve ℝ} (h : Part c a) (h' : Part a b) : Part c b := by
  induction h' with
  | whole => exact h
  | left _ _ ih => exact .left _ ih
  | right _ _ ih => exact .right _ ih

theorem quartic_free (c : Curve ℝ) (p : ℝ) (hP : 0 < c.polygon) (h0 : 0 ≤ p) (h1 : p ≤ 1) : ∃ r rs, realpolyroots (rootPoly c p) = some (r :: rs) := by
  by_cases hw : Wrong c p
  · obtain ⟨hk, hb⟩ := hw
    unfold rootPoly realpolyroots
    rw [if_neg hk]
    obtain ⟨hlen, _⟩ := cubic_wrong _ _ _ hb.1 hb.2
    simp only [List.map_cons, List.map_nil, monic]
    match hm : cubic _ _ _, hlen with
    | r :: rs, _ => exact ⟨r, rs, rfl⟩
  · obtain ⟨k, rest, hl, hlen, hb⟩ := lead_rootPoly c p hP hw
    obtain ⟨roots, hr, hroots⟩ := realpolyroots_partial _ k rest hl hlen hb
    obtain ⟨x, _, _, hx⟩ := root_exists c p h0 h1
    have hxm := (hroots x).mpr hx
    cases roots with
    | nil => simp at hxm
    | cons r rs => exact ⟨r, rs, hr⟩

/-- **C118.**  A parameter is returned for every length, unless a part of the curve begins where it ends, which leads to a `ZeroDivisionError`. -/
theorem toParam_total (n : ℕ) (c : Curve ℝ) (s eps l : ℝ) (h : c.arclen n eps false = some l) :
    (∃ t, toParam n c s eps = .ok (t, l)) ∨ (toParam n c s eps = .error .zero ∧ ∃ a, (Part (c.split (1 / 2)).1 a ∨ Part (c.split (1 / 2)).2 a) ∧ a.chord = 0) := by
  induction n generalizing c s eps l with
  | zero => simp [Curve.arclen] at h
  | succ n ih =>
    obtain ⟨la, lb, ha, hb, rfl⟩ := arclen_some h
    have step : ∀ (a : Curve ℝ) (s l : ℝ), half n a eps false = some l →
        (∃ t u, halfParam n a s eps = .ok (t, l) ∧ sub a eps t = .ok u) ∨ (halfParam n a s eps = .error .zero ∧ ∃ a', Part a a' ∧ a'.chord = 0) := by
      intro a s l hl
      unfold half at hl
      unfold halfParam sub
      by_cases hst : Straight a eps
      · have hst' : a.polygon - a.chord < eps := hst
        rw [if_pos hst', Option.some.injEq] at hl
        rw [if_pos hst]
        simp only [if_pos hst]
        unfold lineParam
        by_cases hz : a.lineArclen false = 0
        · rw [if_pos hz]
          rw [lineArclen_chord] at hz
          exact Or.inr ⟨rfl, a, .whole, hz⟩
        · rw [if_neg hz, hl]
          rw [lineArclen_chord] at hz
          have hP := (lt_of_le_of_ne (hypot_nonneg _ _) (Ne.symm hz)).trans_le (chord_le_polygon a)
          refine Or.inl ⟨s / l, ?_⟩
          unfold lineSub
          by_cases hp : 0 ≤ s / l ∧ s / l ≤ 1
          · obtain ⟨r, rs, hr⟩ := quartic_free a (s / l) hP hp.1 hp.2
            rw [if_pos hp, hr]
            exact ⟨_, rfl, rfl⟩
          · rw [if_neg hp]
            exact ⟨_, rfl, rfl⟩
      · have hst' : ¬ a.polygon - a.chord < eps := hst
        rw [if_neg hst'] at hl
        rw [if_neg hst]
        simp only [if_neg hst]
        rcases ih a s _ l hl with ⟨t, ht⟩ | ⟨he, a', hp, hz⟩
        · exact Or.inl ⟨t, _, ht, rfl⟩
        · refine Or.inr ⟨he, a', ?_, hz⟩
          rcases hp with hp | hp
          · exact Part.trans (.left _ .whole) hp
          · exact Part.trans (.right _ .whole) hp
    rw [toParam_succ]
    rcases step _ s _ ha with ⟨ta, ua, h1, h1'⟩ | ⟨he, a', hp, hz⟩
    · rcases step _ (s - la) _ hb with ⟨tb, ub, h2, h2'⟩ | ⟨he, a', hp, hz⟩
      · left
        rw [h1]
        simp only [Except.bind]
        rw [h2]
        simp only [Except.bind]
        by_cases hs : s > la
        · rw [if_pos hs, h2']; exact ⟨_, rfl⟩
        · rw [if_neg hs, h1']; exact ⟨_, rfl⟩
      · right
        rw [h1]
        simp only [Except.bind]
        rw [he]
        exact ⟨rfl, a', Or.inr hp, hz⟩
    · right
      rw [he]
      exact ⟨rfl, a', Or.inl hp, hz⟩

/-- Whether the exception occurs does not depend on the arc length. -/
theorem toParam_any (n : ℕ) (c : Curve ℝ) (s s' eps t l : ℝ) (h : toParam n c s eps = .ok (t, l)) : ∃ t', toParam n c s' eps = .ok (t', l) := by
  induction n generalizing c s s' eps t l with
  | zero => simp [toParam] at h
  | succ n ih =>
    obtain ⟨ta, la, tb, lb, h1, h2, rfl, _⟩ := toParam_ok h
    have step : ∀ (a : Curve ℝ) (s s' ta la : ℝ), halfParam n a s eps = .ok (ta, la) → ∃ t' u, halfParam n a s' eps = .ok (t', la) ∧ sub a eps t' = .ok u := by
      intro a s s' ta la h
      unfold halfParam at h ⊢
      unfold sub
      by_cases hst : Straight a eps
      · rw [if_pos hst] at h ⊢
        simp only [if_pos hst]
        obtain ⟨m1, _, m3⟩ := lineParam_ok h
        unfold lineParam
        rw [lineArclen_chord, if_neg m1.ne', m3]
        refine ⟨s' / a.chord, ?_⟩
        unfold lineSub
        by_cases hp : 0 ≤ s' / a.chord ∧ s' / a.chord ≤ 1
        · obtain ⟨r, rs, hr⟩ := quartic_free a (s' / a.chord) (m1.trans_le (chord_le_polygon a)) hp.1 hp.2
          rw [if_pos hp, hr]
          exact ⟨_, rfl, rfl⟩
        · rw [if_neg hp]
          exact ⟨_, rfl, rfl⟩
      · rw [if_neg hst] at h ⊢
        simp only [if_neg hst]
        obtain ⟨t', ht⟩ := ih _ _ s' _ _ _ h
        exact ⟨t', _, ht, rfl⟩
    obtain ⟨ta', ua, k1, k1'⟩ := step _ s s' _ _ h1
    obtain ⟨tb', ub, k2, k2'⟩ := step _ (s - la) (s' - la) _ _ h2
    rw [toParam_succ, k1]
    simp only [Except.bind]
    rw [k2]
    simp only []
    by_cases hs : s' > la
    · rw [if_pos hs, k2']; exact ⟨_, rfl⟩
    · rw [if_neg hs, k1']; exact ⟨_, rfl⟩

/-! ## Wrong parameters -/

/-- A straight curve with vanishing speed at its ends. -/
def ease : Curve ℝ := ⟨0, 0, 0, 0, 1, 0, 1, 0⟩

theorem hypot_x (x : ℝ) (h : 0 ≤ x) : hypot x 0 = x := by
  unfold hypot
  rw [show x ^ 2 + 0 ^ 2 = x * x by ring, Real.sqrt_mul_self h]

theorem ease_roots : realpolyroots [-1 / 4, 3 / 4, 0, 0] = some [-1, 2] := by
  have hQ : cubicQ (-3) 0 = -1 := by unfold cubicQ; norm_num
  have hD : cubicD (-3) 0 0 = 0 := by unfold cubicD cubicQ cubicR; norm_num
  have e : ([3 / 4, 0, 0] : List ℝ).map (fun a => 1 / (-1 / 4) * a) = [-3, 0, 0] := by norm_num
  unfold realpolyroots
  rw [if_neg (by norm_num), e]
  simp only [monic]
  unfold cubic
  rw [hD, hQ, if_neg (lt_irrefl 0), if_pos rfl, if_neg (by norm_num)]
  norm_num

/-- **C118 is false.**  For the straight curve from (0, 0) to (1, 0) with the control points at its ends, the parameter -1/2 is returned for the arc length 0; the point at this
parameter is the end of the curve. -/
theorem toParam_false (eps : ℝ) (heps : 0 < eps) : toParam 1 ease 0 eps = .ok (-1 / 2, 1) ∧ (Item.curve ease).point (-1 / 2) = (1, 0) ∧
    (Item.curve ease).point 0 = (0, 0) := by
  have ha : (ease.split (1 / 2)).1 = ⟨0, 0, 0, 0, 1 / 4, 0, 1 / 2, 0⟩ := by
    simp only [ease, Curve.split]
    norm_num
  have hb : (ease.split (1 / 2)).2 = ⟨1 / 2, 0, 3 / 4, 0, 1, 0, 1, 0⟩ := by
    simp only [ease, Curve.split]
    norm_num
  have h0 := hypot_x 0 le_rfl
  have h4 := hypot_x (1 / 4) (by norm_num)
  have h2 := hypot_x (1 / 2) (by norm_num)
  have a1 : edge1 (ease.split (1 / 2)).1 = 0 := by rw [ha, edge1]; norm_num [h0]
  have a2 : edge2 (ease.split (1 / 2)).1 = 1 / 4 := by rw [ha, edge2]; norm_num [h4]
  have a3 : edge3 (ease.split (1 / 2)).1 = 1 / 4 := by rw [ha, edge3]; norm_num; exact h4
  have ac : (ease.split (1 / 2)).1.chord = 1 / 2 := by rw [ha, Curve.chord]; norm_num [h2]
  have b1 : edge1 (ease.split (1 / 2)).2 = 1 / 4 := by rw [hb, edge1]; norm_num; exact h4
  have b2 : edge2 (ease.split (1 / 2)).2 = 1 / 4 := by rw [hb, edge2]; norm_num; exact h4
  have b3 : edge3 (ease.split (1 / 2)).2 = 0 := by rw [hb, edge3]; norm_num [h0]
  have bc : (ease.split (1 / 2)).2.chord = 1 / 2 := by rw [hb, Curve.chord]; norm_num; exact h2
  have sa : Straight (ease.split (1 / 2)).1 eps := by unfold Straight; rw [a1, a2, a3, ac]; linarith
  have sb : Straight (ease.split (1 / 2)).2 eps := by unfold Straight; rw [b1, b2, b3, bc]; linarith
  refine ⟨?_, ?_, ?_⟩
  · rw [toParam_succ]
    have e1 : halfParam 0 (ease.split (1 / 2)).1 0 eps = .ok (0, 1 / 2) := by
      unfold halfParam lineParam
      rw [if_pos sa, lineArclen_chord, ac, if_neg (by norm_num)]
      norm_num
    have e2 : halfParam 0 (ease.split (1 / 2)).2 (0 - 1 / 2) eps = .ok (-1, 1 / 2) := by
      unfold halfParam lineParam
      rw [if_pos sb, lineArclen_chord, bc, if_neg (by norm_num)]
      norm_num
    have e3 : sub (ease.split (1 / 2)).1 eps 0 = .ok (-1 / 2) := by
      unfold sub lineSub rootPoly
      rw [if_pos sa, if_pos (by norm_num), a1, a2, a3]
      have e : ([0 - 2 * (1 / 4) + 1 / 4, -3 * 0 + 3 * (1 / 4), 3 * 0, -0 * (0 + 1 / 4 + 1 / 4)] : List ℝ) = [-1 / 4, 3 / 4, 0, 0] := by norm_num
      rw [e, ease_roots]
      have hc : closest (-1) [2] = -1 := by
        simp only [closest, List.foldl]
        rw [if_neg]
        rw [abs_of_neg (by norm_num : (-1 : ℝ) - 1 / 2 < 0), abs_of_pos (by norm_num : (0 : ℝ) < 2 - 1 / 2)]
        norm_num
      simp only [hc]
      norm_num
    rw [e1]
    simp only [Except.bind]
    rw [e2]
    simp only [Except.bind]
    rw [if_neg (by norm_num), e3]
    simp only [Except.map]
    norm_num
  · simp only [ease, Item.point, bezierPoint, linePoint]
    norm_num
  · simp only [ease, Item.point, bezierPoint, linePoint]
    norm_num

/-- The same curve at a quarter of its length: the hypotheses of `toParam_accurate_partial` hold. -/
theorem ease_quarter (eps : ℝ) (heps : 0 < eps) : ∃ t, toParam 1 ease (1 / 4) eps = .ok (t, 1) ∧ ∀ a p, asked 1 ease (1 / 4) eps = some (a, p) → ¬ Wrong a p := by
  obtain ⟨h, _⟩ := toParam_false eps heps
  have hlen := toParam_length _ _ _ _ _ _ h
  have ha : (ease.split (1 / 2)).1 = ⟨0, 0, 0, 0, 1 / 4, 0, 1 / 2, 0⟩ := by
    simp only [ease, Curve.split]
    norm_num
  have h0 := hypot_x 0 le_rfl
  have h4 := hypot_x (1 / 4) (by norm_num)
  have h2 := hypot_x (1 / 2) (by norm_num)
  have a1 : edge1 (ease.split (1 / 2)).1 = 0 := by rw [ha, edge1]; norm_num [h0]
  have a2 : edge2 (ease.split (1 / 2)).1 = 1 / 4 := by rw [ha, edge2]; norm_num [h4]
  have a3 : edge3 (ease.split (1 / 2)).1 = 1 / 4 := by rw [ha, edge3]; norm_num; exact h4
  have ac : (ease.split (1 / 2)).1.chord = 1 / 2 := by rw [ha, Curve.chord]; norm_num [h2]
  have sa : Straight (ease.split (1 / 2)).1 eps := by unfold Straight; rw [a1, a2, a3, ac]; linarith
  obtain ⟨t, ht⟩ := toParam_any 1 ease 0 (1 / 4) eps _ _ h
  refine ⟨t, ht, ?_⟩
  · intro a p h
    have hh : half 0 (ease.split (1 / 2)).1 eps false = some (1 / 2) := by
      unfold half
      have sa' : (ease.split (1 / 2)).1.polygon - (ease.split (1 / 2)).1.chord < eps := sa
      rw [if_pos sa', lineArclen_chord, ac]
    rw [asked_succ 0 ease (1 / 4) eps (1 / 2) hh, if_neg (by norm_num), if_pos sa, ac] at h
    simp only [Option.some.injEq, Prod.mk.injEq] at h
    obtain ⟨rfl, rfl⟩ := h
    rintro ⟨_, hb⟩
    rw [a1, a2, a3] at hb
    obtain ⟨hD, _⟩ := hb
    unfold cubicD cubicQ cubicR at hD
    norm_num at hD

end

end PyX.NormPath.ByLength
