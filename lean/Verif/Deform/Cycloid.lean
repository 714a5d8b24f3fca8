import Verif.Deform.CornerPath
import Mathlib.Analysis.SpecialFunctions.Trigonometric.Deriv

/-!
# C124: springs along paths (`deformer.cycloid`)

The base path is given by its arc length: the function `_arclentoparam_pt` is taken to be exact (C118 is about its errors), so parameters and arc
lengths are not distinguished.
-/

set_option linter.unusedSectionVars false

namespace PyX.Deform

noncomputable section

open PyX.NormPath

/-! ## Model -/

/-- What is asked from a base path: total length, point, unit tangent and curvature (`none`: no curvature) at an arc length, the items between two arc
lengths (`normsubpath.segments`), its items. -/
structure BasePath where
  tot : ℝ
  at_ : ℝ → Pt
  dir : ℝ → Pt
  curv : ℝ → Option ℝ
  part : ℝ → ℝ → List (Item ℝ)
  items : List (Item ℝ)
  eps : ℝ

/-- `basetrafo.apply_pt` (`deformer.py:451, 483-485`): the position at an arc length, turned to the tangent. -/
def BasePath.apply (b : BasePath) (s : ℝ) (q : Pt) : Pt :=
  ((b.at_ s).1 + (b.dir s).1 * q.1 - (b.dir s).2 * q.2, (b.at_ s).2 + (b.dir s).2 * q.1 + (b.dir s).1 * q.2)

/-- The attributes of a cycloid (`deformer.py:380-388`), lengths in points. -/
structure Spring where
  radius : ℝ
  halfloops : ℕ
  skipfirst : ℝ
  skiplast : ℝ
  curves : ℕ
  sign : ℝ
  turnangle : ℝ

namespace Spring

/-- `cycloid.__call__` (`deformer.py:390-408`): what is given replaces the attributes. -/
def call (s : Spring) (radius : Option ℝ) (halfloops : Option ℕ) (skipfirst skiplast : Option ℝ) (curves : Option ℕ) (sign turnangle : Option ℝ) : Spring :=
  ⟨radius.getD s.radius, halfloops.getD s.halfloops, skipfirst.getD s.skipfirst, skiplast.getD s.skiplast, curves.getD s.curves, sign.getD s.sign,
    turnangle.getD s.turnangle⟩

/-- `deformer.py:416-423`. -/
def first (s : Spring) : ℝ := |s.skipfirst|
def last (s : Spring) : ℝ := |s.skiplast|
def r (s : Spring) : ℝ := |s.radius|
def turn (s : Spring) : ℝ := s.turnangle * Real.pi / 180
def cosT (s : Spring) : ℝ := Real.cos s.turn
def sinT (s : Spring) : ℝ := Real.sin s.turn

/-- The number of curves (`deformer.py:436`). -/
def count (s : Spring) : ℕ := s.halfloops * s.curves

/-- `phis` (`deformer.py:435-436`). -/
def phi (s : Spring) (k : ℕ) : ℝ := k * (Real.pi / s.curves)

/-- `DzDphi` (`deformer.py:437`). -/
def pitch (s : Spring) (tot : ℝ) : ℝ := (tot - s.first - s.last - 2 * s.r * s.sinT) * 1 / (s.halfloops * Real.pi * s.cosT)

/-- `L` (`deformer.py:442`). -/
def arm (s : Spring) : ℝ := 4 * s.r * (1 - Real.cos (Real.pi / s.curves / 2)) / (3 * Real.sin (Real.pi / s.curves / 2))

/-- `Zs` (`deformer.py:445-447`). -/
def pos (s : Spring) (tot phi : ℝ) : ℝ := s.first + s.r * s.sinT - s.sinT * s.r * Real.cos phi + s.cosT * s.pitch tot * phi

/-- `tangentX`, `tangentY`, `tangentZ` (`deformer.py:457-459`). -/
def tangentX (s : Spring) (tot phi : ℝ) : ℝ := -s.cosT * s.r * Real.sin phi + s.sinT * s.pitch tot
def tangentY (s : Spring) (phi : ℝ) : ℝ := s.r * Real.cos phi
def tangentZ (s : Spring) (tot phi : ℝ) : ℝ := s.sinT * s.r * Real.sin phi + s.pitch tot * s.cosT

/-- `norm` (`deformer.py:460`). -/
def norm (s : Spring) (tot phi : ℝ) : ℝ := Real.sqrt (s.tangentX tot phi * s.tangentX tot phi + s.tangentY phi * s.tangentY phi + s.tangentZ tot phi * s.tangentZ tot phi)

end Spring

/-- `factor` (`deformer.py:466-473`). -/
def factor (curv : Option ℝ) (y : ℝ) : ℝ :=
  match curv with
  | none => 1
  | some k => open Classical in if k = 0 then 1 else |(1 / k - y) / (1 / k)|

/-- A point of the cycloid with the control points before and after (`deformer.py:483-485`). -/
structure Knot where
  pre : Pt
  base : Pt
  post : Pt

/-- One point of the cycloid (`deformer.py:451-485`). -/
def knot (s : Spring) (b : BasePath) (phi : ℝ) : Knot :=
  let z := s.pos b.tot phi
  let y := s.r * Real.sin phi
  let ty := s.tangentY phi / s.norm b.tot phi
  let tz := s.tangentZ b.tot phi / s.norm b.tot phi
  let l := s.arm * factor (b.curv z) y
  ⟨b.apply z (0 - l * tz, sign s.sign * (y - l * ty)), b.apply z (0, sign s.sign * y), b.apply z (0 + l * tz, sign s.sign * (y + l * ty))⟩

/-- The curve from a point to the next one (`deformer.py:495, 499`). -/
def between (p q : Knot) : Curve ℝ := ⟨p.base.1, p.base.2, p.post.1, p.post.2, q.pre.1, q.pre.2, q.base.1, q.base.2⟩

/-- `cycloid.deformsubpath` (`deformer.py:414-506`), the items given to the new `normsubpath`. -/
def cycloid (s : Spring) (b : BasePath) : Except Bad (List (Item ℝ)) :=
  open Classical in
  if b.tot ≤ s.first + s.last + 2 * s.r * s.sinT then .ok b.items
  else if s.curves = 0 then .error .zero
  else if (s.halfloops : ℝ) * Real.pi * s.cosT = 0 then .error .zero
  else
    let curves := (List.range s.count).map fun k => Item.curve (between (knot s b (s.phi k)) (knot s b (s.phi (k + 1))))
    let front := if s.first > b.eps then b.part 0 (s.pos b.tot (s.phi 0)) else []
    let back := if s.last > b.eps then b.part (s.pos b.tot (s.phi s.count)) b.tot else []
    .ok (front ++ curves ++ back)

/-! ## Specification -/

/-- A spring in space around the third axis. -/
def helix (r pitch phi : ℝ) : ℝ × ℝ × ℝ := (r * Real.cos phi, r * Real.sin phi, pitch * phi)

/-- The spring is turned around the second axis and seen from the first axis: position along the axis, and above the axis. -/
def view (turn : ℝ) (p : ℝ × ℝ × ℝ) : ℝ × ℝ := (Real.cos turn * p.2.2 - Real.sin turn * p.1, p.2.1)

/-- The point beside the base path: `y` to the left of the point at the arc length `z`. -/
def beside (b : BasePath) (z y : ℝ) : Pt := ((b.at_ z).1 - y * (b.dir z).2, (b.at_ z).2 + y * (b.dir z).1)

/-- A straight base path. -/
def Straight (b : BasePath) (o d : Pt) : Prop := ∀ s, b.at_ s = (o.1 + s * d.1, o.2 + s * d.2) ∧ b.dir s = d ∧ b.curv s = some 0

/-! ## Theorems -/

theorem knot_base (s : Spring) (b : BasePath) (phi : ℝ) : (knot s b phi).base = beside b (s.pos b.tot phi) (sign s.sign * (s.r * Real.sin phi)) := by
  simp only [knot, BasePath.apply, beside]
  ext <;> simp <;> ring

theorem knot_symmetric (s : Spring) (b : BasePath) (phi : ℝ) :
    (knot s b phi).post.1 - (knot s b phi).base.1 = (knot s b phi).base.1 - (knot s b phi).pre.1 ∧
    (knot s b phi).post.2 - (knot s b phi).base.2 = (knot s b phi).base.2 - (knot s b phi).pre.2 := by
  simp only [knot, BasePath.apply]
  constructor <;> ring

/-- **C124.**  The points of a cycloid are those of a spring in space, turned by `turnangle` and seen from the side, placed beside the base path. -/
theorem cycloid_spring (s : Spring) (b : BasePath) (phi : ℝ) :
    (knot s b phi).base = beside b (s.first + s.r * Real.sin s.turn + (view s.turn (helix s.r (s.pitch b.tot) phi)).1)
      (sign s.sign * (view s.turn (helix s.r (s.pitch b.tot) phi)).2) := by
  rw [knot_base]
  congr 1
  simp only [Spring.pos, view, helix, Spring.sinT, Spring.cosT]
  ring

/-- **C124.**  The result consists of the first part of the base path, `halfloops * curvesperhloop` curves, and the last part of the base path.  Each
curve leads from a point of the spring to the next one, in the direction the curve before had at its end. -/
theorem cycloid_curves (s : Spring) (b : BasePath) (items : List (Item ℝ)) (h : cycloid s b = .ok items) (hl : s.first + s.last + 2 * s.r * s.sinT < b.tot) :
    ∃ front curves back, items = front ++ curves ++ back ∧ curves.length = s.halfloops * s.curves ∧
      (∀ k (hk : k < curves.length), curves[k].begin_ = (knot s b (s.phi k)).base ∧ curves[k].end_ = (knot s b (s.phi (k + 1))).base) ∧
      (∀ k (hk : k + 1 < curves.length), (curves[k]'(by omega)).tangent 1 = curves[k + 1].tangent 0) ∧
      (b.eps < s.first → front = b.part 0 s.first) ∧ (s.first ≤ b.eps → front = []) ∧
      (b.eps < s.last → back = b.part (s.pos b.tot (s.halfloops * Real.pi)) b.tot) ∧ (s.last ≤ b.eps → back = []) := by
  unfold cycloid at h
  rw [if_neg (not_le.2 hl)] at h
  by_cases hc : s.curves = 0
  · rw [if_pos hc] at h; exact absurd h (by simp)
  rw [if_neg hc] at h
  by_cases hz : (s.halfloops : ℝ) * Real.pi * s.cosT = 0
  · rw [if_pos hz] at h; exact absurd h (by simp)
  rw [if_neg hz] at h
  simp only [Except.ok.injEq] at h
  have hc' : (s.curves : ℝ) ≠ 0 := Nat.cast_ne_zero.2 hc
  have e0 : s.pos b.tot (s.phi 0) = s.first := by
    simp only [Spring.pos, Spring.phi, Nat.cast_zero, zero_mul, Real.cos_zero, mul_zero]
    ring
  have e1 : s.phi s.count = s.halfloops * Real.pi := by
    simp only [Spring.phi, Spring.count, Nat.cast_mul]
    field_simp
  rw [e0, e1] at h
  refine ⟨_, _, _, h.symm, by simp [Spring.count], ?_, ?_, ?_, ?_, ?_, ?_⟩
  · intro k hk
    rw [List.getElem_map, List.getElem_range]
    exact ⟨rfl, rfl⟩
  · intro k hk
    rw [List.getElem_map, List.getElem_map, List.getElem_range, List.getElem_range]
    obtain ⟨f1, f2⟩ := knot_symmetric s b (s.phi (k + 1))
    simp only [Item.tangent, Curve.tangent, between]
    ext
    · simp only; linarith [f1]
    · simp only; linarith [f2]
  · intro hf; rw [if_pos hf]
  · intro hf; rw [if_neg (not_lt.2 hf)]
  · intro hf; rw [if_pos hf]
  · intro hf; rw [if_neg (not_lt.2 hf)]

/-- The norm does not depend on the angle. -/
theorem norm_eq (s : Spring) (tot phi : ℝ) : s.norm tot phi = Real.sqrt (s.r ^ 2 + s.pitch tot ^ 2) := by
  rw [Spring.norm]
  congr 1
  simp only [Spring.tangentX, Spring.tangentY, Spring.tangentZ, Spring.cosT, Spring.sinT]
  have h1 := Real.sin_sq_add_cos_sq s.turn
  have h2 := Real.sin_sq_add_cos_sq phi
  linear_combination (s.r ^ 2 * Real.sin phi ^ 2 + s.pitch tot ^ 2) * h1 + s.r ^ 2 * h2

/-- The curve along a straight base path through the points of the cycloid. -/
def seen (s : Spring) (b : BasePath) (phi : ℝ) : Pt := beside b (s.pos b.tot phi) (sign s.sign * (s.r * Real.sin phi))

theorem pos_deriv (s : Spring) (tot phi : ℝ) : HasDerivAt (s.pos tot) (s.tangentZ tot phi) phi := by
  have h1 : HasDerivAt (fun p => s.first + s.r * s.sinT - s.sinT * s.r * Real.cos p + s.cosT * s.pitch tot * p)
      (0 - s.sinT * s.r * (-Real.sin phi) + s.cosT * s.pitch tot * 1) phi :=
    ((hasDerivAt_const phi (s.first + s.r * s.sinT)).sub ((Real.hasDerivAt_cos phi).const_mul (s.sinT * s.r))).add ((hasDerivAt_id phi).const_mul (s.cosT * s.pitch tot))
  have e : 0 - s.sinT * s.r * (-Real.sin phi) + s.cosT * s.pitch tot * 1 = s.tangentZ tot phi := by rw [Spring.tangentZ]; ring
  rw [e] at h1
  exact h1

theorem arm_pos (s : Spring) (hr : 0 < s.r) (hc : 0 < s.curves) : 0 < s.arm := by
  have h1 : (1 : ℝ) ≤ s.curves := by exact_mod_cast hc
  have hp := Real.pi_pos
  have h2 : 0 < Real.pi / s.curves / 2 := by positivity
  have h3 : Real.pi / s.curves / 2 ≤ Real.pi / 2 := by
    have : Real.pi / s.curves ≤ Real.pi := div_le_self hp.le h1
    linarith
  have h4 : 0 < Real.sin (Real.pi / s.curves / 2) := Real.sin_pos_of_pos_of_lt_pi h2 (by linarith)
  have h5 : Real.cos (Real.pi / s.curves / 2) < 1 := by
    have := Real.cos_lt_cos_of_nonneg_of_le_pi le_rfl (by linarith) h2
    rwa [Real.cos_zero] at this
  rw [Spring.arm]
  have : 0 < 1 - Real.cos (Real.pi / s.curves / 2) := by linarith
  positivity

/-- **C124.**  On a straight base path the curves touch the spring seen from the side in all points: the tangents are positive multiples of its
derivative. -/
theorem cycloid_touches (s : Spring) (b : BasePath) (o d : Pt) (hb : Straight b o d) (hr : 0 < s.r) (hc : 0 < s.curves) (phi : ℝ) :
    ∃ v : Pt, ∃ m : ℝ, 0 < m ∧ HasDerivAt (fun p => (seen s b p).1) v.1 phi ∧ HasDerivAt (fun p => (seen s b p).2) v.2 phi ∧
      (knot s b phi).post = ((knot s b phi).base.1 + m * v.1, (knot s b phi).base.2 + m * v.2) := by
  have hn : 0 < s.norm b.tot phi := by
    rw [norm_eq]
    positivity
  have hz := pos_deriv s b.tot phi
  have hy : HasDerivAt (fun p => sign s.sign * (s.r * Real.sin p)) (sign s.sign * s.tangentY phi) phi := by
    have := ((Real.hasDerivAt_sin phi).const_mul s.r).const_mul (sign s.sign)
    exact this
  refine ⟨(s.tangentZ b.tot phi * d.1 - sign s.sign * s.tangentY phi * d.2, s.tangentZ b.tot phi * d.2 + sign s.sign * s.tangentY phi * d.1),
    s.arm / s.norm b.tot phi, div_pos (arm_pos s hr hc) hn, ?_, ?_, ?_⟩
  · have e : (fun p => (seen s b p).1) = fun p => o.1 + s.pos b.tot p * d.1 - sign s.sign * (s.r * Real.sin p) * d.2 := by
      funext p
      simp only [seen, beside, (hb _).1, (hb _).2.1]
    rw [e]
    exact ((hz.mul_const d.1).const_add o.1).sub (hy.mul_const d.2)
  · have e : (fun p => (seen s b p).2) = fun p => o.2 + s.pos b.tot p * d.2 + sign s.sign * (s.r * Real.sin p) * d.1 := by
      funext p
      simp only [seen, beside, (hb _).1, (hb _).2.1]
    rw [e]
    exact ((hz.mul_const d.2).const_add o.2).add (hy.mul_const d.1)
  · have hf : factor (some 0) (s.r * Real.sin phi) = 1 := by simp [factor]
    simp only [knot, BasePath.apply, (hb _).1, (hb _).2.1, (hb _).2.2, hf]
    ext
    · simp only; field_simp; ring
    · simp only; field_simp; ring

/-- **C124.**  All points of the cycloid are beside the part of the base path between `skipfirst` and `skiplast`, and not farther away than the radius. -/
theorem cycloid_within (s : Spring) (tot : ℝ) (hs : 0 ≤ s.sinT) (hc : s.cosT ≠ 0) (hl : s.first + s.last + 2 * s.r * s.sinT < tot) (k : ℕ) (hk : k ≤ s.count)
    (hcount : 0 < s.count) :
    s.first ≤ s.pos tot (s.phi k) ∧ s.pos tot (s.phi k) ≤ tot - s.last ∧ |sign s.sign * (s.r * Real.sin (s.phi k))| ≤ s.r := by
  have hr : 0 ≤ s.r := abs_nonneg _
  have hsr : 0 ≤ s.sinT * s.r := mul_nonneg hs hr
  have hn : 0 < s.halfloops := Nat.pos_of_mul_pos_right hcount
  have hcv : 0 < s.curves := Nat.pos_of_mul_pos_left hcount
  have hn' : (0 : ℝ) < s.halfloops := by exact_mod_cast hn
  have hcv' : (0 : ℝ) < s.curves := by exact_mod_cast hcv
  have hkc : (k : ℝ) ≤ s.halfloops * s.curves := by exact_mod_cast hk
  have hpi := Real.pi_pos
  have e : s.pos tot (s.phi k) = s.first + s.sinT * s.r * (1 - Real.cos (s.phi k)) + (tot - s.first - s.last - 2 * s.r * s.sinT) * (k / (s.halfloops * s.curves)) := by
    simp only [Spring.pos, Spring.pitch]
    rw [show s.phi k = k * (Real.pi / s.curves) from rfl]
    field_simp
    ring
  have hq0 : (0 : ℝ) ≤ k / (s.halfloops * s.curves) := by positivity
  have hq1 : (k : ℝ) / (s.halfloops * s.curves) ≤ 1 := by rw [div_le_one (by positivity)]; exact hkc
  have hw : 0 < tot - s.first - s.last - 2 * s.r * s.sinT := by linarith
  have c1 := Real.cos_le_one (s.phi k)
  have c2 := Real.neg_one_le_cos (s.phi k)
  refine ⟨?_, ?_, ?_⟩
  · rw [e]
    have := mul_nonneg hsr (by linarith : 0 ≤ 1 - Real.cos (s.phi k))
    have := mul_nonneg hw.le hq0
    linarith
  · rw [e]
    have h1 : s.sinT * s.r * (1 - Real.cos (s.phi k)) ≤ s.sinT * s.r * 2 := mul_le_mul_of_nonneg_left (by linarith) hsr
    have h2 := mul_le_mul_of_nonneg_left hq1 hw.le
    linarith
  · rw [abs_mul, abs_mul, abs_of_nonneg hr]
    have : |sign s.sign| = 1 := by unfold sign; split_ifs <;> simp
    rw [this, one_mul]
    exact mul_le_of_le_one_right hr (Real.abs_sin_le_one _)

/-- The position where the cycloid ends. -/
theorem pos_last (s : Spring) (tot : ℝ) (hn : 0 < s.halfloops) (hc : s.cosT ≠ 0) :
    s.pos tot (s.halfloops * Real.pi) = tot - s.last - s.sinT * s.r * (1 + (-1) ^ s.halfloops) := by
  have hn' : (s.halfloops : ℝ) ≠ 0 := by positivity
  have hpi := Real.pi_ne_zero
  simp only [Spring.pos, Spring.pitch]
  rw [Real.cos_nat_mul_pi]
  field_simp
  ring

/-- **C124.**  For odd numbers of half loops the undeformed parts have the lengths `skipfirst` and `skiplast`. -/
theorem cycloid_odd_ends (s : Spring) (tot : ℝ) (hn : Odd s.halfloops) (hc : s.cosT ≠ 0) : s.pos tot (s.halfloops * Real.pi) = tot - s.last := by
  rw [pos_last s tot hn.pos hc, hn.neg_one_pow]
  ring

/-- **C124.**  For even numbers of half loops, like the default 10, the undeformed part at the end is too long by `2 * radius * sin(turnangle)`. -/
theorem cycloid_even_ends (s : Spring) (tot : ℝ) (hn : Even s.halfloops) (h0 : 0 < s.halfloops) (hc : s.cosT ≠ 0) :
    s.pos tot (s.halfloops * Real.pi) = tot - s.last - 2 * s.r * s.sinT := by
  rw [pos_last s tot h0 hc, hn.neg_one_pow]
  ring

/-- **C124.**  Without `skiplast` the cycloid does not reach the end of the base path, for even numbers of half loops. -/
theorem cycloid_end_missing (s : Spring) (b : BasePath) (o d : Pt) (hb : Straight b o d) (hd : Unit2 d) (hn : Even s.halfloops) (h0 : 0 < s.halfloops)
    (hcv : 0 < s.curves) (hc : s.cosT ≠ 0) (hs : 0 < s.sinT) (hr : 0 < s.r) (he : 0 ≤ b.eps) (hlast : s.skiplast = 0)
    (hl : s.first + s.last + 2 * s.r * s.sinT < b.tot) :
    ∃ items i, cycloid s b = .ok items ∧ items.getLast? = some i ∧ i.end_ ≠ b.at_ b.tot := by
  have hz : (s.halfloops : ℝ) * Real.pi * s.cosT ≠ 0 := by
    have : (s.halfloops : ℝ) ≠ 0 := by positivity
    exact mul_ne_zero (mul_ne_zero this Real.pi_ne_zero) hc
  have hcount : 0 < s.count := Nat.mul_pos h0 hcv
  have hll : ¬ s.last > b.eps := by rw [Spring.last, hlast, abs_zero]; exact not_lt.2 he
  obtain ⟨m, hm⟩ := Nat.exists_eq_succ_of_ne_zero hcount.ne'
  have e1 : s.phi (m + 1) = s.halfloops * Real.pi := by
    rw [← Nat.succ_eq_add_one, ← hm]
    simp only [Spring.phi, Spring.count, Nat.cast_mul]
    have : (s.curves : ℝ) ≠ 0 := by positivity
    field_simp
  have hlast' : ∀ (F : List (Item ℝ)) (f : ℕ → Item ℝ), (F ++ (List.range s.count).map f ++ []).getLast? = some (f m) := by
    intro F f
    rw [List.append_nil, hm, List.range_succ, List.map_append, ← List.append_assoc]
    simp
  have hcyc : cycloid s b = .ok ((if s.first > b.eps then b.part 0 (s.pos b.tot (s.phi 0)) else []) ++
      (List.range s.count).map (fun k => Item.curve (between (knot s b (s.phi k)) (knot s b (s.phi (k + 1))))) ++ []) := by
    unfold cycloid
    rw [if_neg (not_le.2 hl), if_neg hcv.ne', if_neg hz]
    simp only [if_neg hll]
  refine ⟨_, _, hcyc, hlast' _ _, ?_⟩
  have hend : (Item.curve (between (knot s b (s.phi m)) (knot s b (s.phi (m + 1))))).end_ = (knot s b (s.phi (m + 1))).base := rfl
  rw [hend, knot_base, e1, cycloid_even_ends s b.tot hn h0 hc, Real.sin_nat_mul_pi]
  intro e
  simp only [beside, (hb _).1, (hb _).2.1, Spring.last, hlast, abs_zero, mul_zero, zero_mul, sub_zero, add_zero, Prod.mk.injEq] at e
  have hp : 0 < 2 * s.r * s.sinT := by positivity
  have d1 : d.1 = 0 := by
    have : 2 * s.r * s.sinT * d.1 = 0 := by linarith [e.1]
    exact (mul_eq_zero.1 this).resolve_left hp.ne'
  have d2 : d.2 = 0 := by
    have : 2 * s.r * s.sinT * d.2 = 0 := by linarith [e.2]
    exact (mul_eq_zero.1 this).resolve_left hp.ne'
  rw [Unit2, d1, d2] at hd
  norm_num at hd

/-- **C124.**  A base path which is too short is not deformed. -/
theorem cycloid_short (s : Spring) (b : BasePath) (h : b.tot ≤ s.first + s.last + 2 * s.r * s.sinT) : cycloid s b = .ok b.items := by
  unfold cycloid
  rw [if_pos h]

/-- **C124.**  `turnangle=90`, documented to give a row of connected circles, fails. -/
theorem cycloid_ninety (s : Spring) (b : BasePath) (h : s.turnangle = 90) (hl : s.first + s.last + 2 * s.r * s.sinT < b.tot) : cycloid s b = .error .zero := by
  have hc : s.cosT = 0 := by
    rw [Spring.cosT, Spring.turn, h, show (90 : ℝ) * Real.pi / 180 = Real.pi / 2 by ring, Real.cos_pi_div_two]
  unfold cycloid
  rw [if_neg (not_le.2 hl), hc, mul_zero]
  simp

/-- **C124.**  Near to `turnangle=90` the curves are no arcs of circles: the arms of the control points, as long as `L` for circles, get arbitrarily
short. -/
theorem cycloid_near_ninety (s : Spring) (b : BasePath) (o d : Pt) (hb : Straight b o d) (hd : Unit2 d) (hn : 0 < s.halfloops) (hc : 0 < s.cosT)
    (hr : 0 < s.r) (hcv : 0 < s.curves) (hl : s.first + s.last + 2 * s.r * s.sinT < b.tot) (phi : ℝ) (hphi : Real.cos phi ^ 2 = 1) :
    |(knot s b phi).post.1 - (knot s b phi).base.1| ≤
      s.arm * (s.r * s.halfloops * Real.pi + (b.tot - s.first - s.last - 2 * s.r * s.sinT)) / (b.tot - s.first - s.last - 2 * s.r * s.sinT) * s.cosT := by
  have hw : 0 < b.tot - s.first - s.last - 2 * s.r * s.sinT := by linarith
  have hn' : (0 : ℝ) < s.halfloops := by exact_mod_cast hn
  have hpi := Real.pi_pos
  have hp : 0 < s.pitch b.tot := by rw [Spring.pitch]; positivity
  have hpn : s.pitch b.tot ≤ s.norm b.tot phi := by
    rw [norm_eq]
    calc s.pitch b.tot = Real.sqrt (s.pitch b.tot ^ 2) := (Real.sqrt_sq hp.le).symm
      _ ≤ _ := Real.sqrt_le_sqrt (by nlinarith [sq_nonneg s.r])
  have hnp : 0 < s.norm b.tot phi := hp.trans_le hpn
  have ha := arm_pos s hr hcv
  have hf : factor (some 0) (s.r * Real.sin phi) = 1 := by simp [factor]
  have hsin : Real.sin phi = 0 := by
    have := Real.sin_sq_add_cos_sq phi
    have h0 : Real.sin phi ^ 2 = 0 := by linarith
    exact pow_eq_zero_iff (two_ne_zero) |>.1 h0
  have hy : |s.tangentY phi| = s.r := by
    rw [Spring.tangentY, abs_mul, abs_of_pos hr]
    have : |Real.cos phi| = 1 := by rw [← sq_eq_sq₀ (abs_nonneg _) zero_le_one, sq_abs, hphi]; norm_num
    rw [this, mul_one]
  have hz : s.tangentZ b.tot phi = s.pitch b.tot * s.cosT := by rw [Spring.tangentZ, hsin]; ring
  have e : (knot s b phi).post.1 - (knot s b phi).base.1 = s.arm / s.norm b.tot phi * (d.1 * s.tangentZ b.tot phi - d.2 * (sign s.sign * s.tangentY phi)) := by
    simp only [knot, BasePath.apply, (hb _).1, (hb _).2.1, (hb _).2.2, hf]
    field_simp
    ring
  have hd1 : |d.1| ≤ 1 := by
    rw [← sq_le_sq₀ (abs_nonneg _) zero_le_one, sq_abs]
    rw [Unit2] at hd
    nlinarith [sq_nonneg d.2]
  have hd2 : |d.2| ≤ 1 := by
    rw [← sq_le_sq₀ (abs_nonneg _) zero_le_one, sq_abs]
    rw [Unit2] at hd
    nlinarith [sq_nonneg d.1]
  have hsg : |sign s.sign| = 1 := by unfold sign; split_ifs <;> simp
  have hin : |d.1 * s.tangentZ b.tot phi - d.2 * (sign s.sign * s.tangentY phi)| ≤ s.pitch b.tot * s.cosT + s.r := by
    refine (abs_sub _ _).trans ?_
    rw [abs_mul, abs_mul, abs_mul, hsg, hy, hz, one_mul, abs_of_pos (mul_pos hp hc)]
    have := mul_le_of_le_one_left (mul_pos hp hc).le hd1
    have := mul_le_of_le_one_left hr.le hd2
    linarith
  rw [e, abs_mul, abs_of_pos (div_pos ha hnp)]
  have hstep : s.arm / s.norm b.tot phi ≤ s.arm / s.pitch b.tot := div_le_div_of_nonneg_left ha.le hp hpn
  have hmul := mul_le_mul hstep hin (abs_nonneg _) (div_nonneg ha.le hp.le)
  refine hmul.trans (le_of_eq ?_)
  have hcn := hc.ne'
  have hwn := hw.ne'
  rw [Spring.pitch]
  generalize b.tot - s.first - s.last - 2 * s.r * s.sinT = w at *
  field_simp
  ring

/-- Reflection at the first axis. -/
def mirror (p : Pt) : Pt := (p.1, -p.2)

/-- The reflected base path: the curvature changes its sign. -/
def BasePath.mirrored (b : BasePath) : BasePath :=
  ⟨b.tot, fun s => mirror (b.at_ s), fun s => mirror (b.dir s), fun s => (b.curv s).map (-·), b.part, b.items, b.eps⟩

/-- **C124.**  The other `sign` gives the mirror image, for straight base paths. -/
theorem cycloid_sign_partial (s : Spring) (b : BasePath) (o d : Pt) (hb : Straight b o d) (hs : 0 < s.sign) (phi : ℝ) :
    let m := knot { s with sign := -s.sign } b.mirrored phi
    m.pre = mirror (knot s b phi).pre ∧ m.base = mirror (knot s b phi).base ∧ m.post = mirror (knot s b phi).post := by
  have hb' : ∀ t, b.mirrored.curv t = some 0 := by intro t; simp [BasePath.mirrored, (hb t).2.2]
  have s1 : sign s.sign = 1 := by rw [sign, if_pos hs.le]
  have s2 : sign (-s.sign) = -1 := by rw [sign, if_neg (by linarith)]
  have e1 : ∀ t, Spring.pos { s with sign := -s.sign } b.mirrored.tot t = s.pos b.tot t := fun _ => rfl
  have e2 : ∀ t, Spring.norm { s with sign := -s.sign } b.mirrored.tot t = s.norm b.tot t := fun _ => rfl
  have e3 : ∀ t, Spring.tangentZ { s with sign := -s.sign } b.mirrored.tot t = s.tangentZ b.tot t := fun _ => rfl
  have e4 : ∀ t, Spring.tangentY { s with sign := -s.sign } t = s.tangentY t := fun _ => rfl
  have e5 : Spring.arm { s with sign := -s.sign } = s.arm := rfl
  have e6 : Spring.r { s with sign := -s.sign } = s.r := rfl
  simp only [knot, hb', e1, e2, e3, e4, e5, e6, s1, s2, (hb _).2.2, BasePath.apply, mirror]
  simp only [BasePath.mirrored, mirror]
  refine ⟨?_, ?_, ?_⟩ <;> ext <;> simp only <;> ring

/-- **C124.**  For curved base paths it does not: the length of the arms is taken for the other side of the path. -/
theorem cycloid_sign_wrong (s : Spring) (b : BasePath) (phi k : ℝ) (hk : b.curv (s.pos b.tot phi) = some k) (hd : Unit2 (b.dir (s.pos b.tot phi))) (hs : 0 < s.sign)
    (hr : 0 < s.r) (hcv : 0 < s.curves) (hky : 0 < |k * (s.r * Real.sin phi)|) (hty : s.tangentY phi ≠ 0) :
    (knot { s with sign := -s.sign } b.mirrored phi).post ≠ mirror (knot s b phi).post := by
  have hk0 : k ≠ 0 := by rintro rfl; simp at hky
  have hb' : b.mirrored.curv (s.pos b.tot phi) = some (-k) := by simp [BasePath.mirrored, hk]
  have s1 : sign s.sign = 1 := by rw [sign, if_pos hs.le]
  have s2 : sign (-s.sign) = -1 := by rw [sign, if_neg (by linarith)]
  have e1 : ∀ t, Spring.pos { s with sign := -s.sign } b.mirrored.tot t = s.pos b.tot t := fun _ => rfl
  have e2 : ∀ t, Spring.norm { s with sign := -s.sign } b.mirrored.tot t = s.norm b.tot t := fun _ => rfl
  have e3 : ∀ t, Spring.tangentZ { s with sign := -s.sign } b.mirrored.tot t = s.tangentZ b.tot t := fun _ => rfl
  have e4 : ∀ t, Spring.tangentY { s with sign := -s.sign } t = s.tangentY t := fun _ => rfl
  have e5 : Spring.arm { s with sign := -s.sign } = s.arm := rfl
  have e6 : Spring.r { s with sign := -s.sign } = s.r := rfl
  have f1 : factor (some k) (s.r * Real.sin phi) = |1 - k * (s.r * Real.sin phi)| := by
    simp only [factor, if_neg hk0]
    congr 1
    field_simp
  have f2 : factor (some (-k)) (s.r * Real.sin phi) = |1 + k * (s.r * Real.sin phi)| := by
    have : -k ≠ 0 := neg_ne_zero.2 hk0
    simp only [factor, if_neg this]
    congr 1
    field_simp
    ring
  have hne : |1 - k * (s.r * Real.sin phi)| ≠ |1 + k * (s.r * Real.sin phi)| := by
    intro e
    have := congrArg (· ^ 2) e
    simp only [sq_abs] at this
    have : k * (s.r * Real.sin phi) = 0 := by linarith
    rw [this] at hky
    simp at hky
  have hn : s.norm b.tot phi ≠ 0 := by
    rw [norm_eq]
    have : 0 < Real.sqrt (s.r ^ 2 + s.pitch b.tot ^ 2) := by positivity
    exact this.ne'
  have ha := (arm_pos s hr hcv).ne'
  intro e
  simp only [knot, hb', hk, e1, e2, e3, e4, e5, e6, s1, s2, f1, f2, BasePath.apply, mirror] at e
  simp only [BasePath.mirrored, mirror, Prod.mk.injEq] at e
  obtain ⟨g1, g2⟩ := e
  rw [Unit2] at hd
  have key : s.arm * (s.tangentY phi / s.norm b.tot phi) * (|1 + k * (s.r * Real.sin phi)| - |1 - k * (s.r * Real.sin phi)|) = 0 := by
    linear_combination (-(b.dir (s.pos b.tot phi)).1) * g2 - (b.dir (s.pos b.tot phi)).2 * g1 - s.arm * (s.tangentY phi / s.norm b.tot phi) * (|1 + k * (s.r * Real.sin phi)| - |1 - k * (s.r * Real.sin phi)|) * hd
  rcases mul_eq_zero.1 key with h | h
  · exact (mul_ne_zero ha (div_ne_zero hty hn)) h
  · exact hne (by linarith)

/-! ## Examples -/

/-- A straight base path of length 300, and one along a circle with the radius 50. -/
def exStraight : BasePath := ⟨300, fun s => (s, 0), fun _ => (1, 0), fun _ => some 0, fun x y => [.line ⟨x, 0, y, 0⟩], [.line ⟨0, 0, 300, 0⟩], 1 / 10 ^ 5⟩
def exRound : BasePath := ⟨300, fun s => (50 * Real.sin (s / 50), -50 * Real.cos (s / 50)), fun s => (Real.cos (s / 50), Real.sin (s / 50)), fun _ => some (1 / 50),
  fun _ _ => [], [], 1 / 10 ^ 5⟩

/-- A spring with ten half loops, like the default. -/
def exSpring : Spring := ⟨10, 10, 20, 0, 4, 1, 30⟩

theorem exSpring_sin : exSpring.sinT = 1 / 2 := by
  rw [Spring.sinT, Spring.turn, show exSpring.turnangle = 30 from rfl, show (30 : ℝ) * Real.pi / 180 = Real.pi / 6 by ring, Real.sin_pi_div_six]

theorem exSpring_cos : 0 < exSpring.cosT := by
  rw [Spring.cosT, Spring.turn, show exSpring.turnangle = 30 from rfl, show (30 : ℝ) * Real.pi / 180 = Real.pi / 6 by ring, Real.cos_pi_div_six]
  positivity

theorem exStraight_straight : Straight exStraight (0, 0) (1, 0) := by
  intro s
  simp [exStraight]

theorem exSpring_long : exSpring.first + exSpring.last + 2 * exSpring.r * exSpring.sinT < 300 := by
  rw [exSpring_sin]
  norm_num [Spring.first, Spring.last, Spring.r, exSpring]

example : ∃ items i, cycloid exSpring exStraight = .ok items ∧ items.getLast? = some i ∧ i.end_ ≠ (300, 0) :=
  cycloid_end_missing exSpring exStraight (0, 0) (1, 0) exStraight_straight (by norm_num [Unit2]) (by decide) (by decide) (by decide) exSpring_cos.ne'
    (by rw [exSpring_sin]; norm_num) (by norm_num [Spring.r, exSpring]) (by norm_num [exStraight]) rfl exSpring_long

/-- The cycloid of the example ends at 290, the end of the base path is at 300. -/
example : exSpring.pos 300 (exSpring.halfloops * Real.pi) = 290 := by
  rw [cycloid_even_ends exSpring 300 (by decide) (by decide) exSpring_cos.ne', exSpring_sin]
  norm_num [Spring.last, Spring.r, exSpring]

example : (knot { exSpring with sign := -1 } exRound.mirrored (Real.pi / 4)).post ≠ mirror (knot exSpring exRound (Real.pi / 4)).post := by
  have h2 : 0 < Real.sqrt 2 := by positivity
  refine cycloid_sign_wrong exSpring exRound (Real.pi / 4) (1 / 50) rfl ?_ (by norm_num [exSpring]) (by norm_num [Spring.r, exSpring]) (by decide) ?_ ?_
  · rw [Unit2]
    exact Real.cos_sq_add_sin_sq _
  · rw [Real.sin_pi_div_four]
    have : 0 < exSpring.r := by norm_num [Spring.r, exSpring]
    rw [abs_of_pos (by positivity)]
    positivity
  · rw [Spring.tangentY, Real.cos_pi_div_four]
    have : 0 < exSpring.r := by norm_num [Spring.r, exSpring]
    positivity

end

end PyX.Deform
