import Verif.Deform.CornerPath
import Verif.Path.Model

/-!
# C126: parallels of paths made of straight lines (`deformer.parallel` without the intersection step)

The model of `parallel.deformsubpath` (`pyx/deformer.py:901-1019`) for sub-paths made of lines.  The result is the list of items handed to
`normsubpath.append`, with the connection lines inserted by `normsubpath.join` and `normsubpath.close` (`append` drops lines shorter than epsilon).
-/

set_option linter.unusedSectionVars false

namespace PyX.Deform.Par

noncomputable section

open PyX.NormPath PyX.Deform
open PyX.Path (arctobezierpath arcnCurves arctobcurve bezierEndAngle radians arcpoint circlePoint)

/-! ## Model -/

/-- The distance in points and `sharpoutercorners` (`deformer.py:845-854`). -/
structure Parallel where
  dist : ℝ
  sharp : Bool

/-- `rotation([t])[0].apply_pt(0, y)`. -/
def orthogonal (i : Item ℝ) (t y : ℝ) : Except Bad Pt :=
  match i.rotation t with
  | some r => .ok (r.apply (0, y))
  | none => .error .zero

/-- `deformsubpathitem` for a line (`deformer.py:1033-1041`). -/
def lineItem (d : ℝ) (l : Line ℝ) : Except Bad (Line ℝ) :=
  (orthogonal (.line l) 0 1).map fun n => ⟨l.x0 + d * n.1, l.y0 + d * n.2, l.x1 + d * n.1, l.y1 + d * n.2⟩

/-- What `_get_angles` returns. -/
structure Angles where
  prev : Pt
  next : Pt
  straight : Bool
  concave : Bool

/-- `_get_angles` (`deformer.py:1301-1312`). -/
def angles (d eps : ℝ) (i j : Item ℝ) : Except Bad Angles :=
  (direction i 1).bind fun u => (orthogonal i 1 d).bind fun o => (direction j 0).map fun v =>
    let cosangle := u.1 * v.1 + u.2 * v.2
    let proj := o.1 * v.1 + o.2 * v.2
    open Classical in
    ⟨u, v, decide (cosangle > 0 ∧ |proj| < eps), decide (proj > 0)⟩

/-- A line between two points. -/
def conn (a b : Pt) : Item ℝ := .line ⟨a.1, a.2, b.1, b.2⟩

/-- `_path_around_corner` (`deformer.py:1192-1219`); `intersection` without result leads to a `TypeError`. -/
def aroundCorner (p : Parallel) (corner beg end_ u v : Pt) (concave : Bool) : Except Bad (List (Item ℝ)) :=
  if p.sharp && !concave then
    match intersection beg end_ u v with
    | some (t1, _) =>
      let B : Pt := (beg.1 + t1 * u.1, beg.2 + t1 * u.2)
      .ok [conn beg B, conn B end_]
    | none => .error .zero
  else
    let angle1 := degrees (atan2 (beg.2 - corner.2) (beg.1 - corner.1))
    let angle2 := degrees (atan2 (end_.2 - corner.2) (end_.1 - corner.1))
    open Classical in
    .ok ((if p.dist > 0 then arcnCurves corner.1 corner.2 |p.dist| angle1 angle2 else arctobezierpath corner.1 corner.2 |p.dist| angle1 angle2).map .curve)

/-- `result.join(items)` for a result which ends in `a` (`normpath.py:1217-1234`); nothing cannot be joined. -/
def joinTo (a : Pt) (items : List (Item ℝ)) : Except Bad (List (Item ℝ)) :=
  match items with
  | [] => .error .assertion
  | i :: _ => .ok (conn a i.begin_ :: items)

/-- The end of the last item. -/
def endOf (a : Pt) (items : List (Item ℝ)) : Pt := (items.getLast?.map Item.end_).getD a

/-- What is appended to a result, which ends with the parallel `pl` of `l`, before the parallel `pm` of `m` (`deformer.py:951-968`), or to close it (`deformer.py:983-1000`). -/
def between (p : Parallel) (eps : ℝ) (corner : Pt) (l m pl pm : Line ℝ) : Except Bad (List (Item ℝ)) :=
  (angles p.dist eps (.line l) (.line m)).bind fun a =>
    if a.straight then .ok [conn pl.end_ pm.begin_]
    else (aroundCorner p corner pl.end_ pm.begin_ a.prev a.next a.concave).bind fun k => (joinTo pl.end_ k).map fun k =>
      k ++ [conn (endOf pl.end_ k) pm.begin_]

/-- The items after the first one (`deformer.py:931-974`). -/
def steps (p : Parallel) (eps : ℝ) (l pl : Line ℝ) : List (Line ℝ) → Except Bad (List (Item ℝ) × (Line ℝ × Line ℝ))
  | [] => .ok ([], (l, pl))
  | m :: rest => (lineItem p.dist m).bind fun pm => (between p eps m.begin_ l m pl pm).bind fun k => (steps p eps m pm rest).map fun r =>
      (k ++ .line pm :: r.1, r.2)

/-- `parallel.deformsubpath` (`deformer.py:901-1019`) for lines. -/
def polyline (p : Parallel) (eps : ℝ) (closed : Bool) (lines : List (Line ℝ)) : Except Bad (List (Item ℝ)) :=
  match lines with
  | [] => .ok []
  | l :: rest =>
    open Classical in
    if |p.dist| < |eps| then .ok ((l :: rest).map .line)
    else
      (lineItem p.dist l).bind fun pl => (steps p eps l pl rest).bind fun r =>
        if closed then (between p eps r.2.1.end_ r.2.1 l r.2.2 pl).map fun k => .line pl :: r.1 ++ k
        else .ok (.line pl :: r.1)

/-! ## Specification -/

/-- The direction of a line. -/
def dirL (l : Line ℝ) : Pt := dirOf (.line l) 0

/-- A vector turned by 90 degrees to the left. -/
def leftOf (u : Pt) : Pt := (-u.2, u.1)

def dot (u v : Pt) : ℝ := u.1 * v.1 + u.2 * v.2

/-- The distance of two points. -/
def away (a b : Pt) : ℝ := hypot (a.1 - b.1) (a.2 - b.2)

/-- The line has a direction. -/
def Proper (l : Line ℝ) : Prop := (Item.line l).tangent 0 ≠ (0, 0)

/-- The items lead from one point to another one without gaps. -/
def Leads : List (Item ℝ) → Pt → Pt → Prop
  | [], a, b => a = b
  | i :: r, a, b => i.begin_ = a ∧ Leads r i.end_ b

/-- Successive lines are connected. -/
def Chain : List (Line ℝ) → Prop
  | l :: m :: r => l.end_ = m.begin_ ∧ Chain (m :: r)
  | _ => True

/-! ## Lines -/

theorem tangent_any (l : Line ℝ) (t s : ℝ) : (Item.line l).tangent t = (Item.line l).tangent s := rfl

theorem dirL_any (l : Line ℝ) (t : ℝ) : dirOf (.line l) t = dirL l := rfl

theorem orthogonal_eq {i : Item ℝ} {t : ℝ} (h : i.tangent t ≠ (0, 0)) (y : ℝ) : orthogonal i t y = .ok (-(dirOf i t).2 * y, (dirOf i t).1 * y) := by
  have hr : i.rotation t = Trafo.rotate (degrees (atan2 (i.tangent t).2 (i.tangent t).1)) none none := by
    cases i <;> rfl
  obtain ⟨r, h1, h2⟩ := rotate_atan2 (i.tangent t).1 (i.tangent t).2 h
  rw [orthogonal, hr, h1]
  simp only [Except.ok.injEq]
  subst h2
  ext <;> simp [Trafo.apply, dirOf]

/-- The parallel of a line. -/
def moved (d : ℝ) (l : Line ℝ) : Line ℝ :=
  ⟨l.x0 - d * (dirL l).2, l.y0 + d * (dirL l).1, l.x1 - d * (dirL l).2, l.y1 + d * (dirL l).1⟩

theorem lineItem_eq (d : ℝ) (l : Line ℝ) (h : Proper l) : lineItem d l = .ok (moved d l) := by
  rw [lineItem, orthogonal_eq h]
  simp only [Except.map, moved, dirL, Except.ok.injEq, Line.mk.injEq]
  refine ⟨?_, ?_, ?_, ?_⟩ <;> ring

theorem dirL_unit {l : Line ℝ} (h : Proper l) : Unit2 (dirL l) := dirOf_unit h

/-- **C126.**  The parallel of a line consists of the points of the line moved by the distance, to the left for positive distances. -/
theorem parallel_line (d : ℝ) (l : Line ℝ) (h : Proper l) :
    ∃ m, lineItem d l = .ok m ∧ ∀ t, m.at_ t = off (l.at_ t) (leftOf (dirL l)) d ∧ away (m.at_ t) (l.at_ t) = |d| := by
  refine ⟨_, lineItem_eq d l h, fun t => ?_⟩
  have e : (moved d l).at_ t = off (l.at_ t) (leftOf (dirL l)) d := by
    ext <;> simp [moved, Line.at_, off, leftOf] <;> ring
  refine ⟨e, ?_⟩
  rw [e, away, hypot, off, leftOf]
  have hu := dirL_unit h
  rw [Unit2] at hu
  rw [show ((l.at_ t).1 + d * -(dirL l).2 - (l.at_ t).1) ^ 2 + ((l.at_ t).2 + d * (dirL l).1 - (l.at_ t).2) ^ 2 = d ^ 2 * ((dirL l).1 ^ 2 + (dirL l).2 ^ 2) by ring, hu,
    mul_one, Real.sqrt_sq_eq_abs]

/-! ## Arcs -/

theorem Leads.append {l l' : List (Item ℝ)} : ∀ {a b c : Pt}, Leads l a b → Leads l' b c → Leads (l ++ l') a c := by
  induction l with
  | nil => rintro a b c rfl h; exact h
  | cons i r ih => rintro a b c ⟨h1, h2⟩ h; exact ⟨h1, ih h2 h⟩

theorem reversed_ends (i : Item ℝ) : i.reversed.begin_ = i.end_ ∧ i.reversed.end_ = i.begin_ := by
  cases i <;> exact ⟨rfl, rfl⟩

theorem Leads.reverse {l : List (Item ℝ)} : ∀ {a b : Pt}, Leads l a b → Leads (l.reverse.map Item.reversed) b a := by
  induction l with
  | nil => rintro a b rfl; exact rfl
  | cons i r ih =>
    rintro a b ⟨h1, h2⟩
    rw [List.reverse_cons, List.map_append]
    exact (ih h2).append ⟨(reversed_ends i).1, (reversed_ends i).2.trans h1⟩

theorem Leads.endOf {l : List (Item ℝ)} : ∀ {a b : Pt} (x : Pt), Leads l a b → (l = [] → x = b) → endOf x l = b := by
  induction l with
  | nil => rintro a b x rfl h; exact h rfl
  | cons i r ih =>
    rintro a b x ⟨_, h2⟩ _
    have := ih i.end_ h2 (by rintro rfl; exact h2)
    cases r with
    | nil => exact h2
    | cons j r =>
      simp only [Par.endOf, List.getLast?_cons_cons] at this ⊢
      rw [List.getLast?_eq_some_getLast (List.cons_ne_nil j r)] at this ⊢
      exact this

theorem leads_of_chain : ∀ (l : List (Curve ℝ)) (a b : Pt), l.head?.map Curve.begin_ = some a → l.getLast?.map Curve.end_ = some b →
    (l.IsChain fun c d => c.end_ = d.begin_) → Leads (l.map .curve) a b := by
  intro l
  induction l with
  | nil => intro a b h; simp at h
  | cons c r ih =>
    intro a b h1 h2 h3
    simp only [List.head?_cons, Option.map_some, Option.some.injEq] at h1
    refine ⟨h1, ?_⟩
    cases r with
    | nil =>
      simp only [List.getLast?_singleton, Option.map_some, Option.some.injEq] at h2
      exact h2
    | cons d r =>
      rw [List.isChain_cons_cons] at h3
      refine ih _ _ ?_ (by simpa using h2) h3.2
      simp only [List.head?_cons, Option.map_some, Option.some.injEq]
      exact h3.1.symm

theorem reversed_at (c : Curve ℝ) (t : ℝ) : c.reversed.at_ t = c.at_ (1 - t) := by
  ext <;> simp only [Curve.reversed, Curve.at_] <;> ring

theorem polar (s : Pt) (r : ℝ) (hs : s.1 ^ 2 + s.2 ^ 2 = r ^ 2) (hr : 0 < r) :
    -Real.pi < radians (degrees (atan2 s.2 s.1)) ∧ radians (degrees (atan2 s.2 s.1)) ≤ Real.pi ∧
    r * Real.cos (radians (degrees (atan2 s.2 s.1))) = s.1 ∧ r * Real.sin (radians (degrees (atan2 s.2 s.1))) = s.2 := by
  have hpi := Real.pi_pos
  have e : radians (degrees (atan2 s.2 s.1)) = Complex.arg ⟨s.1, s.2⟩ := by
    rw [radians, degrees, atan2]; field_simp
  rw [e]
  have hn : ‖(⟨s.1, s.2⟩ : ℂ)‖ = r := by
    rw [Complex.norm_eq_sqrt_sq_add_sq]
    simp only
    rw [hs, Real.sqrt_sq hr.le]
  refine ⟨Complex.neg_pi_lt_arg _, Complex.arg_le_pi _, ?_, ?_⟩
  · have := Complex.norm_mul_cos_arg (⟨s.1, s.2⟩ : ℂ)
    rwa [hn] at this
  · have := Complex.norm_mul_sin_arg (⟨s.1, s.2⟩ : ℂ)
    rwa [hn] at this

theorem arctobezierpath_mem (x y r angle1 angle2 : ℝ) (c : Curve ℝ) (hc : c ∈ arctobezierpath x y r angle1 angle2) :
    ∃ phi1 phi2, c = arctobcurve x y r phi1 phi2 ∧ phi1 < phi2 ∧ phi2 - phi1 ≤ Real.pi / 4 ∧ radians angle1 ≤ phi1 ∧
      phi2 ≤ bezierEndAngle (radians angle1) (radians angle2) := by
  have hpi := Real.pi_pos
  obtain ⟨h1, -, -, -⟩ := PyX.Path.bezierEndAngle_spec angle1 angle2
  unfold arctobezierpath at hc
  simp only at hc
  split_ifs at hc with h0
  · simp at hc
  push Not at h0
  generalize hA : radians angle1 = A at *
  generalize hE : bezierEndAngle A (radians angle2) = E at *
  have h45 : radians 45 = Real.pi / 4 := by simp only [radians]; ring
  rw [h45] at hc
  have hq : 0 < (E - A) / (Real.pi / 4) := by
    have : A ≠ E := fun e => h0.2 (by linarith)
    have := lt_of_le_of_ne h1 this
    apply div_pos <;> linarith
  have hf : 0 ≤ ⌊(E - A) / (Real.pi / 4)⌋ := Int.floor_nonneg.mpr hq.le
  obtain ⟨n, hn⟩ : ∃ n : ℕ, (⌊(E - A) / (Real.pi / 4)⌋ + 1).toNat = n + 1 := ⟨⌊(E - A) / (Real.pi / 4)⌋.toNat, by omega⟩
  have hnr : ((n + 1 : ℕ) : ℝ) = (⌊(E - A) / (Real.pi / 4)⌋ : ℝ) + 1 := by
    have : ((n + 1 : ℕ) : ℤ) = ⌊(E - A) / (Real.pi / 4)⌋ + 1 := by omega
    exact_mod_cast congrArg (fun z : ℤ => (z : ℝ)) this
  have hflo := Int.lt_floor_add_one ((E - A) / (Real.pi / 4))
  rw [← hnr, div_lt_iff₀ (by positivity)] at hflo
  rw [hn] at hc
  have hpos : (0 : ℝ) < ((n + 1 : ℕ) : ℝ) := by positivity
  have hlt : 0 < E - A := by
    have := (div_pos_iff_of_pos_right (by positivity : 0 < Real.pi / 4)).mp hq
    exact this
  generalize hD : (E - A) / ((n + 1 : ℕ) : ℝ) = D at hc
  have hDn : ((n + 1 : ℕ) : ℝ) * D = E - A := by rw [← hD]; field_simp
  have hD0 : 0 < D := by rw [← hD]; exact div_pos hlt hpos
  have hD1 : D ≤ Real.pi / 4 := by rw [← hD, div_le_iff₀ hpos]; linarith
  obtain ⟨i, hi, rfl⟩ := List.mem_map.mp hc
  have hi := List.mem_range.mp hi
  refine ⟨_, _, rfl, by linarith, by linarith, ?_, ?_⟩
  · have : 0 ≤ (i : ℝ) * D := by positivity
    linarith
  · have h5 : (i : ℝ) + 1 ≤ ((n + 1 : ℕ) : ℝ) := by exact_mod_cast hi
    have := mul_le_mul_of_nonneg_right h5 hD0.le
    linarith

/-- The points of a curve of an arc lie between its ends, as seen from the centre. -/
theorem arctobcurve_cone (x y r phi1 phi2 t : ℝ) (h1 : phi1 < phi2) (h2 : phi2 - phi1 ≤ Real.pi / 4) (ht0 : 0 ≤ t) (ht1 : t ≤ 1) :
    ∃ a b, 0 ≤ a ∧ 0 ≤ b ∧ (arctobcurve x y r phi1 phi2).at_ t =
      (x + r * (a * Real.cos phi1 + b * Real.cos phi2), y + r * (a * Real.sin phi1 + b * Real.sin phi2)) := by
  have hpi := Real.pi_pos
  obtain ⟨hl, hc⟩ := PyX.Path.tangentLength r (phi2 - phi1) (by linarith) (by linarith)
  obtain ⟨ec, es⟩ := PyX.Path.trig_of_tan (phi2 - phi1) hc.ne'
  obtain ⟨hu0, hu⟩ := PyX.Path.tan_le (phi2 - phi1) (by linarith) h2
  have hC := Real.cos_sub phi2 phi1
  have hS := Real.sin_sub phi2 phi1
  have hS0 : 0 < Real.sin (phi2 - phi1) := Real.sin_pos_of_pos_of_lt_pi (by linarith) (by linarith)
  have q1 := Real.sin_sq_add_cos_sq phi1
  have q2 := Real.sin_sq_add_cos_sq phi2
  simp only [arctobcurve, Curve.at_]
  rw [hl]
  generalize Real.tan ((phi2 - phi1) / 4) = w at *
  -- `left e1 = (e2 - cos e1)/sin`
  have hk : 4 / 3 * w * Real.cos (phi2 - phi1) ≤ Real.sin (phi2 - phi1) := by
    rw [ec, es]
    have : (0:ℝ) < (1 + w ^ 2) ^ 2 := by positivity
    rw [show 4 / 3 * w * (1 - 8 * w ^ 2 / (1 + w ^ 2) ^ 2) = 4 / 3 * w * ((1 + w ^ 2) ^ 2 - 8 * w ^ 2) / (1 + w ^ 2) ^ 2 by field_simp]
    rw [div_le_div_iff_of_pos_right this]
    have hw2 : w ^ 2 ≤ 1 := by nlinarith
    have hX : (1 + w ^ 2) ^ 2 - 8 * w ^ 2 ≤ 3 * (1 - w ^ 2) := by nlinarith [sq_nonneg w]
    nlinarith [mul_le_mul_of_nonneg_left hX hu0.le]
  generalize Real.cos (phi2 - phi1) = cd at *
  generalize Real.sin (phi2 - phi1) = sd at *
  generalize Real.cos phi1 = C1 at *
  generalize Real.sin phi1 = S1 at *
  generalize Real.cos phi2 = C2 at *
  generalize Real.sin phi2 = S2 at *
  have hi := mul_inv_cancel₀ hS0.ne'
  have hip : 0 < sd⁻¹ := inv_pos.mpr hS0
  generalize sd⁻¹ = g at *
  have hg : 4 / 3 * w * cd * g ≤ 1 := by
    calc _ ≤ sd * g := mul_le_mul_of_nonneg_right hk hip.le
      _ = 1 := hi
  have e1 : -S1 = (C2 - cd * C1) * g := by
    rw [hC]
    have : C2 - (C2 * C1 + S2 * S1) * C1 = -S1 * sd := by rw [hS]; linear_combination (-C2) * q1
    rw [this]; linear_combination (-(-S1)) * hi
  have e2 : C1 = (S2 - cd * S1) * g := by
    rw [hC]
    have : S2 - (C2 * C1 + S2 * S1) * S1 = C1 * sd := by rw [hS]; linear_combination (-S2) * q1
    rw [this]; linear_combination (-C1) * hi
  have e3 : S2 = (C1 - cd * C2) * g := by
    rw [hC]
    have : C1 - (C2 * C1 + S2 * S1) * C2 = S2 * sd := by rw [hS]; linear_combination (-C1) * q2
    rw [this]; linear_combination (-S2) * hi
  have e4 : -C2 = (S1 - cd * S2) * g := by
    rw [hC]
    have : S1 - (C2 * C1 + S2 * S1) * S2 = -C2 * sd := by rw [hS]; linear_combination (-S1) * q2
    rw [this]; linear_combination (C2) * hi
  have n1 : 0 ≤ 1 - t := by linarith
  have n2 : 0 ≤ 1 - 4 / 3 * w * cd * g := by linarith
  have n3 : 0 ≤ 4 / 3 * w * g := by positivity
  refine ⟨(1 - t) ^ 3 + 3 * (1 - t) ^ 2 * t * (1 - 4 / 3 * w * cd * g) + 3 * (1 - t) * t ^ 2 * (4 / 3 * w * g),
    t ^ 3 + 3 * (1 - t) * t ^ 2 * (1 - 4 / 3 * w * cd * g) + 3 * (1 - t) ^ 2 * t * (4 / 3 * w * g), by positivity, by positivity, ?_⟩
  refine Prod.ext ?_ ?_
  · simp only
    linear_combination (3 * (1 - t) ^ 2 * t * (4 / 3 * r * w)) * e1 + (3 * (1 - t) * t ^ 2 * (4 / 3 * r * w)) * e3
  · simp only
    linear_combination (3 * (1 - t) ^ 2 * t * (4 / 3 * r * w)) * e2 + (3 * (1 - t) * t ^ 2 * (4 / 3 * r * w)) * e4

/-- The difference of two points. -/
def sub (a b : Pt) : Pt := (a.1 - b.1, a.2 - b.2)

/-- The counterclockwise arc about `c` from `c + s1` to `c + s2`. -/
theorem arc_spec (c s1 s2 : Pt) (r : ℝ) (hr : 0 < r) (h1 : s1.1 ^ 2 + s1.2 ^ 2 = r ^ 2) (h2 : s2.1 ^ 2 + s2.2 ^ 2 = r ^ 2) (hne : s1 ≠ s2) :
    Leads ((arctobezierpath c.1 c.2 r (degrees (atan2 s1.2 s1.1)) (degrees (atan2 s2.2 s2.1))).map .curve) (c.1 + s1.1, c.2 + s1.2) (c.1 + s2.1, c.2 + s2.2) ∧
    ∀ k ∈ arctobezierpath c.1 c.2 r (degrees (atan2 s1.2 s1.1)) (degrees (atan2 s2.2 s2.1)), ∀ t, 0 ≤ t → t ≤ 1 →
      (r ≤ away (k.at_ t) c ∧ away (k.at_ t) c ≤ r * (1 + 1 / 200000)) ∧
      (0 ≤ wedge s1 s2 → 0 ≤ wedge s1 (sub (k.at_ t) c) ∧ 0 ≤ wedge (sub (k.at_ t) c) s2) := by
  have hpi := Real.pi_pos
  obtain ⟨a1, a2, a3, a4⟩ := polar s1 r h1 hr
  obtain ⟨b1, b2, b3, b4⟩ := polar s2 r h2 hr
  generalize degrees (atan2 s1.2 s1.1) = A at *
  generalize degrees (atan2 s2.2 s2.1) = B at *
  have hAB : A ≠ B := by
    rintro rfl
    exact hne (Prod.ext (a3.symm.trans b3) (a4.symm.trans b4))
  obtain ⟨x1, x2, x3, -, x5⟩ := PyX.Path.arctobezierpath_spec c.1 c.2 r A B hr.ne' hAB
  have hs : arcpoint c.1 c.2 r A = (c.1 + s1.1, c.2 + s1.2) := by rw [arcpoint, a3, a4]
  have he : arcpoint c.1 c.2 r B = (c.1 + s2.1, c.2 + s2.2) := by rw [arcpoint, b3, b4]
  refine ⟨leads_of_chain _ _ _ (hs ▸ x1) (he ▸ x2) x3, fun k hk t ht0 ht1 => ⟨x5 hr k hk t ht0 ht1, fun hw => ?_⟩⟩
  obtain ⟨g1, g2, rfl, g3, g4, g5, g6⟩ := arctobezierpath_mem _ _ _ _ _ k hk
  obtain ⟨e1, -, ⟨z, e3⟩, -⟩ := PyX.Path.bezierEndAngle_spec A B
  obtain ⟨a, b, ha, hb, hq⟩ := arctobcurve_cone c.1 c.2 r g1 g2 t g3 g4 ht0 ht1
  have eE : bezierEndAngle (radians A) (radians B) < radians A + 2 * Real.pi := by
    unfold bezierEndAngle
    by_cases hlt : radians B < radians A
    · rw [if_pos hlt]
      have : ⌊(radians A - radians B) / (2 * Real.pi)⌋ = 0 := by
        rw [Int.floor_eq_zero_iff]
        refine ⟨div_nonneg (by linarith) (by linarith), ?_⟩
        rw [div_lt_one (by linarith)]; linarith
      rw [this]; push_cast; linarith
    · rw [if_neg hlt, if_neg (by linarith)]
      linarith
  have c1 : r * Real.cos (bezierEndAngle (radians A) (radians B)) = s2.1 := by
    rw [e3, show radians B + 2 * Real.pi * (z : ℝ) = radians B + (z : ℝ) * (2 * Real.pi) by ring, Real.cos_add_int_mul_two_pi, b3]
  have c2 : r * Real.sin (bezierEndAngle (radians A) (radians B)) = s2.2 := by
    rw [e3, show radians B + 2 * Real.pi * (z : ℝ) = radians B + (z : ℝ) * (2 * Real.pi) by ring, Real.sin_add_int_mul_two_pi, b4]
  generalize bezierEndAngle (radians A) (radians B) = E at *
  generalize radians A = P at *
  have hpi' : E - P ≤ Real.pi := by
    by_contra hcon
    push Not at hcon
    have : Real.sin (E - P) < 0 := by
      rw [show E - P = (E - P - Real.pi) + Real.pi by ring, Real.sin_add_pi]
      have := Real.sin_pos_of_pos_of_lt_pi (x := E - P - Real.pi) (by linarith) (by linarith)
      linarith
    rw [Real.sin_sub] at this
    rw [wedge, ← a3, ← a4, ← c1, ← c2] at hw
    have hr2 : 0 < r ^ 2 := by positivity
    nlinarith
  have sA : ∀ f, P ≤ f → f ≤ E → 0 ≤ Real.sin (f - P) ∧ 0 ≤ Real.sin (E - f) := fun f hf1 hf2 =>
    ⟨Real.sin_nonneg_of_nonneg_of_le_pi (by linarith) (by linarith), Real.sin_nonneg_of_nonneg_of_le_pi (by linarith) (by linarith)⟩
  obtain ⟨m1, m2⟩ := sA g1 g5 (by linarith)
  obtain ⟨m3, m4⟩ := sA g2 (by linarith) g6
  rw [Real.sin_sub] at m1 m2 m3 m4
  rw [hq]
  simp only [wedge, sub]
  rw [← a3, ← a4, ← c1, ← c2]
  have hr2 : 0 < r ^ 2 := by positivity
  constructor
  · rw [show r * Real.cos P * (c.2 + r * (a * Real.sin g1 + b * Real.sin g2) - c.2) - r * Real.sin P * (c.1 + r * (a * Real.cos g1 + b * Real.cos g2) - c.1) =
      r ^ 2 * (a * (Real.sin g1 * Real.cos P - Real.cos g1 * Real.sin P) + b * (Real.sin g2 * Real.cos P - Real.cos g2 * Real.sin P)) by ring]
    positivity
  · rw [show (c.1 + r * (a * Real.cos g1 + b * Real.cos g2) - c.1) * (r * Real.sin E) - (c.2 + r * (a * Real.sin g1 + b * Real.sin g2) - c.2) * (r * Real.cos E) =
      r ^ 2 * (a * (Real.sin E * Real.cos g1 - Real.cos E * Real.sin g1) + b * (Real.sin E * Real.cos g2 - Real.cos E * Real.sin g2)) by ring]
    positivity

/-! ## Corners -/

/-- The vector from the points of a line to the points of its parallel. -/
def shift (d : ℝ) (l : Line ℝ) : Pt := (-(d * (dirL l).2), d * (dirL l).1)

/-- The path runs nearly straight ahead from one line to the next one. -/
def Straight (d eps : ℝ) (l m : Line ℝ) : Prop := 0 < dot (dirL l) (dirL m) ∧ |d * wedge (dirL l) (dirL m)| < eps

/-- The parallel is on the outer side of the corner. -/
def Outer (d : ℝ) (l m : Line ℝ) : Prop := d * wedge (dirL l) (dirL m) ≤ 0

/-- The squared distance of two points. -/
def away2 (a b : Pt) : ℝ := (a.1 - b.1) ^ 2 + (a.2 - b.2) ^ 2

/-- The vector lies between the directions to the parallels of both lines. -/
def Cone (d : ℝ) (l m : Line ℝ) (w : Pt) : Prop :=
  ∃ a b, 0 ≤ a ∧ 0 ≤ b ∧ w = (a * (shift d l).1 + b * (shift d m).1, a * (shift d l).2 + b * (shift d m).2)

/-- What holds for the points of the parallel at the corner between two lines. -/
structure AtCorner (p : Parallel) (eps : ℝ) (l m : Line ℝ) (q : Pt) : Prop where
  far : p.dist ^ 2 - eps ^ 2 / 2 ≤ away2 q l.end_
  notFar : Straight p.dist eps l m ∨ p.sharp = false ∨ ¬ Outer p.dist l m → away2 q l.end_ ≤ (|p.dist| * (1 + 1 / 200000)) ^ 2
  exact : ¬ Straight p.dist eps l m → p.dist ^ 2 ≤ away2 q l.end_
  cone : Straight p.dist eps l m ∨ p.dist * wedge (dirL l) (dirL m) < 0 → Cone p.dist l m (sub q l.end_)
  ahead : ¬ Straight p.dist eps l m → Outer p.dist l m → 0 ≤ dot (sub q l.end_) (dirL l) ∧ dot (sub q l.end_) (dirL m) ≤ 0

theorem away2_eq (a b : Pt) : away2 a b = away a b ^ 2 := by
  rw [away, hypot, Real.sq_sqrt (by positivity), away2]

theorem moved_end (d : ℝ) (l : Line ℝ) : (moved d l).end_ = (l.end_.1 + (shift d l).1, l.end_.2 + (shift d l).2) := by
  ext <;> simp [moved, Line.end_, shift] <;> ring

theorem moved_begin (d : ℝ) (l : Line ℝ) : (moved d l).begin_ = (l.begin_.1 + (shift d l).1, l.begin_.2 + (shift d l).2) := by
  ext <;> simp [moved, Line.begin_, shift] <;> ring

theorem shift_sq (d : ℝ) {l : Line ℝ} (h : Proper l) : (shift d l).1 ^ 2 + (shift d l).2 ^ 2 = d ^ 2 := by
  have hu := dirL_unit h
  rw [Unit2] at hu
  simp only [shift]
  linear_combination d ^ 2 * hu

theorem angles_eq (d eps : ℝ) {l m : Line ℝ} (hl : Proper l) (hm : Proper m) :
    ∃ a, angles d eps (.line l) (.line m) = .ok a ∧ a.prev = dirL l ∧ a.next = dirL m ∧ (a.straight = true ↔ Straight d eps l m) ∧
      (a.concave = true ↔ ¬ Outer d l m) := by
  rw [angles, direction_eq (tangent_any l 1 0 ▸ hl), orthogonal_eq (tangent_any l 1 0 ▸ hl), direction_eq hm]
  refine ⟨_, rfl, rfl, rfl, ?_, ?_⟩
  · simp only [dirL_any, Straight, dot, wedge, gt_iff_lt, decide_eq_true_eq]
    rw [show -(dirL l).2 * d * (dirL m).1 + (dirL l).1 * d * (dirL m).2 = d * ((dirL l).1 * (dirL m).2 - (dirL l).2 * (dirL m).1) by ring]
  · simp only [dirL_any, Outer, wedge, gt_iff_lt, decide_eq_true_eq, not_le]
    rw [show -(dirL l).2 * d * (dirL m).1 + (dirL l).1 * d * (dirL m).2 = d * ((dirL l).1 * (dirL m).2 - (dirL l).2 * (dirL m).1) by ring]

theorem conn_at (a b : Pt) (t : ℝ) : (conn a b).at_ t = (a.1 + (b.1 - a.1) * t, a.2 + (b.2 - a.2) * t) := by
  simp [conn, Item.at_, Line.at_]

theorem conn_leads (a b : Pt) : Leads [conn a b] a b := ⟨rfl, rfl⟩

/-- Two unit vectors. -/
theorem unit_pair {u v : Pt} (hu : Unit2 u) (hv : Unit2 v) : wedge u v ^ 2 + dot u v ^ 2 = 1 := by
  rw [Unit2] at hu hv
  simp only [wedge, dot]
  linear_combination hv * (u.1 ^ 2 + u.2 ^ 2) + hu

/-- A path which runs straight ahead, except for less than epsilon. -/
theorem straight_bound {d eps W D : ℝ} (h : W ^ 2 + D ^ 2 = 1) (hD : 0 < D) (hW : |d * W| < eps) : d ^ 2 * (1 - D) / 2 ≤ eps ^ 2 / 2 := by
  have h1 : (d * W) ^ 2 ≤ eps ^ 2 := by
    rw [← sq_abs (d * W)]
    exact pow_le_pow_left₀ (abs_nonneg _) hW.le 2
  have h2 : D ≤ 1 := by nlinarith [sq_nonneg W]
  have h3 : (d * W) ^ 2 = d ^ 2 * ((1 - D) * (1 + D)) := by linear_combination d ^ 2 * h
  have h4 : d ^ 2 * (1 - D) ≤ d ^ 2 * ((1 - D) * (1 + D)) := by
    apply mul_le_mul_of_nonneg_left _ (sq_nonneg d)
    nlinarith [mul_nonneg (sub_nonneg.mpr h2) hD.le]
  linarith

/-- The points of the connection line at a straight joint. -/
theorem atCorner_straight (p : Parallel) (eps : ℝ) {l m : Line ℝ} (hl : Proper l) (hm : Proper m) (he : l.end_ = m.begin_) (hs : Straight p.dist eps l m)
    (t : ℝ) (h0 : 0 ≤ t) (h1 : t ≤ 1) : AtCorner p eps l m ((conn (moved p.dist l).end_ (moved p.dist m).begin_).at_ t) := by
  have hw := unit_pair (dirL_unit hl) (dirL_unit hm)
  have s1 := shift_sq p.dist hl
  have s2 := shift_sq p.dist hm
  have hd : (shift p.dist l).1 * (shift p.dist m).1 + (shift p.dist l).2 * (shift p.dist m).2 = p.dist ^ 2 * dot (dirL l) (dirL m) := by
    simp only [shift, dot]; ring
  have hb := straight_bound hw hs.1 hs.2
  have hD1 : dot (dirL l) (dirL m) ≤ 1 := by nlinarith [sq_nonneg (wedge (dirL l) (dirL m)), hs.1]
  have e : (conn (moved p.dist l).end_ (moved p.dist m).begin_).at_ t =
      (l.end_.1 + ((1 - t) * (shift p.dist l).1 + t * (shift p.dist m).1), l.end_.2 + ((1 - t) * (shift p.dist l).2 + t * (shift p.dist m).2)) := by
    rw [conn_at, moved_end, moved_begin, ← he]
    ext <;> simp only <;> ring
  have q : away2 ((conn (moved p.dist l).end_ (moved p.dist m).begin_).at_ t) l.end_ = p.dist ^ 2 - 2 * t * (1 - t) * (p.dist ^ 2 * (1 - dot (dirL l) (dirL m))) := by
    rw [e, away2]
    simp only
    linear_combination (1 - t) ^ 2 * s1 + t ^ 2 * s2 + 2 * t * (1 - t) * hd
  have ht : 0 ≤ t * (1 - t) := mul_nonneg h0 (by linarith)
  have ht' : t * (1 - t) ≤ 1 / 4 := by nlinarith [sq_nonneg (2 * t - 1)]
  have hk : 0 ≤ p.dist ^ 2 * (1 - dot (dirL l) (dirL m)) := mul_nonneg (sq_nonneg _) (by linarith)
  refine ⟨?_, fun _ => ?_, fun h => absurd hs h, fun _ => ⟨1 - t, t, by linarith, h0, ?_⟩, fun h => absurd hs h⟩
  · rw [q]
    nlinarith [mul_le_mul_of_nonneg_right ht' hk]
  · rw [q, mul_pow, sq_abs]
    nlinarith [mul_nonneg ht hk, sq_nonneg p.dist]
  · rw [e, sub]
    ext <;> simp only <;> ring

/-- The cone from the sides. -/
theorem cone_of_wedge (d : ℝ) (hd : d ≠ 0) (l m : Line ℝ) (w : Pt) (h : d * wedge (dirL l) (dirL m) < 0) (h1 : 0 ≤ dot w (dirL l)) (h2 : dot w (dirL m) ≤ 0) :
    Cone d l m w := by
  have hW : wedge (dirL l) (dirL m) ≠ 0 := by rintro e; rw [e, mul_zero] at h; exact lt_irrefl _ h
  refine ⟨dot w (dirL m) / (d * wedge (dirL l) (dirL m)), -(dot w (dirL l)) / (d * wedge (dirL l) (dirL m)), div_nonneg_of_nonpos h2 h.le,
    div_nonneg_of_nonpos (by linarith) h.le, ?_⟩
  have hi := mul_inv_cancel₀ (mul_ne_zero hd hW)
  simp only [div_eq_mul_inv]
  generalize (d * wedge (dirL l) (dirL m))⁻¹ = g at hi ⊢
  simp only [wedge] at hi
  refine Prod.ext ?_ ?_
  · simp only [shift, dot]
    linear_combination (-w.1) * hi
  · simp only [shift, dot]
    linear_combination (-w.2) * hi

theorem wedge_ne_of {u v : Pt} (hu : Unit2 u) (hv : Unit2 v) (h : wedge u v = 0) (hd : 0 < dot u v) : u = v := by
  have hw := unit_pair hu hv
  rw [h] at hw
  have hd1 : dot u v = 1 := by nlinarith
  rw [Unit2] at hu hv
  simp only [wedge] at h
  simp only [dot] at hd1
  refine Prod.ext ?_ ?_
  · linear_combination (-u.1) * hv + v.1 * hd1 + v.2 * h
  · linear_combination (-u.2) * hv + v.2 * hd1 - v.1 * h

theorem shift_ne {d eps : ℝ} (he : 0 < eps) (hd : d ≠ 0) {l m : Line ℝ} (hl : Proper l) (hs : ¬ Straight d eps l m) : shift d l ≠ shift d m := by
  intro e
  apply hs
  simp only [shift, Prod.mk.injEq, neg_inj, mul_eq_mul_left_iff, hd, or_false] at e
  have : dirL l = dirL m := Prod.ext e.2 e.1
  have hu := dirL_unit hl
  rw [Unit2] at hu
  refine ⟨?_, ?_⟩
  · rw [← this, dot]; nlinarith
  · rw [← this, wedge]
    rw [show d * ((dirL l).1 * (dirL l).2 - (dirL l).2 * (dirL l).1) = 0 by ring, abs_zero]
    exact he

/-- The end of the parallel of the first line, and the begin of the parallel of the second line. -/
theorem atCorner_ends (p : Parallel) (eps : ℝ) {l m : Line ℝ} (hl : Proper l) (hm : Proper m) (he : l.end_ = m.begin_) :
    AtCorner p eps l m (moved p.dist l).end_ ∧ AtCorner p eps l m (moved p.dist m).begin_ := by
  have s1 := shift_sq p.dist hl
  have s2 := shift_sq p.dist hm
  have hb : p.dist ^ 2 ≤ (|p.dist| * (1 + 1 / 200000)) ^ 2 := by
    rw [mul_pow, sq_abs]; nlinarith [sq_nonneg p.dist]
  constructor
  · have e : away2 (moved p.dist l).end_ l.end_ = p.dist ^ 2 := by
      rw [moved_end, away2]; simp only; linear_combination s1
    refine ⟨by rw [e]; nlinarith [sq_nonneg eps], fun _ => by rw [e]; exact hb, fun _ => e.ge, fun _ => ⟨1, 0, zero_le_one, le_rfl, ?_⟩, fun _ ho => ⟨?_, ?_⟩⟩
    · rw [moved_end, sub]; ext <;> simp
    · apply le_of_eq; rw [moved_end, sub, dot, shift]; ring
    · rw [Outer, wedge] at ho
      rw [moved_end, sub, dot, shift]
      nlinarith
  · have e : away2 (moved p.dist m).begin_ l.end_ = p.dist ^ 2 := by
      rw [moved_begin, he, away2]; simp only; linear_combination s2
    refine ⟨by rw [e]; nlinarith [sq_nonneg eps], fun _ => by rw [e]; exact hb, fun _ => e.ge, fun _ => ⟨0, 1, le_rfl, zero_le_one, ?_⟩, fun _ ho => ⟨?_, ?_⟩⟩
    · rw [moved_begin, he, sub]; ext <;> simp
    · rw [Outer, wedge] at ho
      rw [moved_begin, he, sub, dot, shift]
      nlinarith
    · apply le_of_eq; rw [moved_begin, he, sub, dot, shift]; ring

theorem conn_same (a : Pt) (t : ℝ) : (conn a a).at_ t = a := by
  rw [conn_at]; ext <;> simp

/-- The arc around a corner. -/
theorem around_arc (p : Parallel) (eps : ℝ) (hd : p.dist ≠ 0) (hep : 0 < eps) {l m : Line ℝ} (hl : Proper l) (hm : Proper m) (he : l.end_ = m.begin_)
    (hs : ¬ Straight p.dist eps l m) (cc : Bool) (hcc : (p.sharp && !cc) = false) :
    ∃ k, aroundCorner p l.end_ (moved p.dist l).end_ (moved p.dist m).begin_ (dirL l) (dirL m) cc = .ok k ∧ k ≠ [] ∧
      Leads k (moved p.dist l).end_ (moved p.dist m).begin_ ∧ ∀ i ∈ k, ∀ t, 0 ≤ t → t ≤ 1 → AtCorner p eps l m (i.at_ t) := by
  have s1 := shift_sq p.dist hl
  have s2 := shift_sq p.dist hm
  rw [← sq_abs p.dist] at s1 s2
  have hne := shift_ne hep hd hl hs
  have hr : 0 < |p.dist| := abs_pos.mpr hd
  have hb := moved_begin p.dist m
  rw [← he] at hb
  unfold aroundCorner
  rw [hcc, hb, moved_end]
  simp only [Bool.false_eq_true, if_false, add_sub_cancel_left]
  -- what is common to both directions
  have fin : ∀ q : Pt, |p.dist| ≤ away q l.end_ → away q l.end_ ≤ |p.dist| * (1 + 1 / 200000) →
      (Outer p.dist l m → 0 ≤ dot (sub q l.end_) (dirL l) ∧ dot (sub q l.end_) (dirL m) ≤ 0) → AtCorner p eps l m q := by
    intro q h1 h2 h3
    have e1 : p.dist ^ 2 ≤ away2 q l.end_ := by
      rw [away2_eq, ← sq_abs p.dist]
      exact pow_le_pow_left₀ hr.le h1 2
    refine ⟨by nlinarith [sq_nonneg eps], fun _ => ?_, fun _ => e1, fun h => ?_, fun _ => h3⟩
    · rw [away2_eq]
      exact pow_le_pow_left₀ (hr.le.trans h1) h2 2
    · rcases h with h | h
      · exact absurd h hs
      · exact cone_of_wedge _ hd _ _ _ h (h3 h.le).1 (h3 h.le).2
  refine ⟨_, rfl, ?_⟩
  by_cases hpos : 0 < p.dist
  · obtain ⟨a1, a2⟩ := arc_spec l.end_ _ _ _ hr s2 s1 hne.symm
    simp only [gt_iff_lt, hpos, if_true, arcnCurves]
    have hL := a1.reverse
    rw [← List.map_reverse, List.map_map] at hL
    rw [List.map_map]
    have hf : (Item.reversed ∘ Item.curve : Curve ℝ → Item ℝ) = Item.curve ∘ Curve.reversed := rfl
    rw [hf] at hL
    refine ⟨?_, hL, ?_⟩
    · intro e
      rw [e] at hL
      simp only [Leads, Prod.mk.injEq, add_right_inj] at hL
      exact hne (Prod.ext hL.1 hL.2)
    · intro i hi t h0 h1
      obtain ⟨c, hc, rfl⟩ := List.mem_map.mp hi
      rw [List.mem_reverse] at hc
      obtain ⟨⟨b1, b2⟩, b3⟩ := a2 c hc (1 - t) (by linarith) (by linarith)
      have e : (Item.curve c.reversed).at_ t = c.at_ (1 - t) := reversed_at c t
      simp only [Function.comp]
      rw [e]
      refine fin _ b1 b2 fun h => ?_
      have hw : 0 ≤ wedge (shift p.dist m) (shift p.dist l) := by
        rw [Outer, wedge] at h
        simp only [wedge, shift]
        nlinarith
      obtain ⟨b4, b5⟩ := b3 hw
      simp only [wedge, shift] at b4 b5
      generalize sub (c.at_ (1 - t)) l.end_ = w at *
      simp only [dot]
      constructor
      · by_contra hcon
        push Not at hcon
        nlinarith [mul_pos_of_neg_of_neg hcon (neg_neg_of_pos hpos)]
      · by_contra hcon
        push Not at hcon
        nlinarith [mul_pos hpos hcon]
  · have hneg : p.dist < 0 := lt_of_le_of_ne (not_lt.mp hpos) hd
    obtain ⟨a1, a2⟩ := arc_spec l.end_ _ _ _ hr s1 s2 hne
    simp only [gt_iff_lt, hpos, if_false]
    refine ⟨?_, a1, ?_⟩
    · intro e
      rw [e] at a1
      simp only [Leads, Prod.mk.injEq, add_right_inj] at a1
      exact hne (Prod.ext a1.1 a1.2)
    · intro i hi t h0 h1
      obtain ⟨c, hc, rfl⟩ := List.mem_map.mp hi
      obtain ⟨⟨b1, b2⟩, b3⟩ := a2 c hc t h0 h1
      refine fin _ b1 b2 fun h => ?_
      have hw : 0 ≤ wedge (shift p.dist l) (shift p.dist m) := by
        rw [Outer, wedge] at h
        simp only [wedge, shift]
        nlinarith
      obtain ⟨b4, b5⟩ := b3 hw
      simp only [wedge, shift] at b4 b5
      simp only [Item.at_]
      generalize sub (c.at_ t) l.end_ = w at *
      simp only [dot]
      constructor
      · by_contra hcon
        push Not at hcon
        nlinarith [mul_pos_of_neg_of_neg hcon hneg]
      · by_contra hcon
        push Not at hcon
        nlinarith [mul_neg_of_neg_of_pos hneg hcon]

/-- How far the sharp corner is from the ends of the parallels. -/
def reach (d : ℝ) (l m : Line ℝ) : ℝ := -(d * wedge (dirL l) (dirL m)) / (1 + dot (dirL l) (dirL m))

theorem intersection_corner (d : ℝ) {l m : Line ℝ} (hl : Proper l) (hm : Proper m) (he : l.end_ = m.begin_) (hw : wedge (dirL l) (dirL m) ≠ 0) :
    intersection (moved d l).end_ (moved d m).begin_ (dirL l) (dirL m) = some (reach d l m, -reach d l m) ∧ 0 < 1 + dot (dirL l) (dirL m) := by
  have h := unit_pair (dirL_unit hl) (dirL_unit hm)
  have hu := dirL_unit hl
  have hv := dirL_unit hm
  have hp : 0 < 1 + dot (dirL l) (dirL m) := by
    have := sq_pos_of_ne_zero hw
    nlinarith [sq_nonneg (1 + dot (dirL l) (dirL m))]
  refine ⟨?_, hp⟩
  have hdet : -(dirL l).1 * (dirL m).2 + (dirL l).2 * (dirL m).1 ≠ 0 := by
    intro e; apply hw; rw [wedge]; linarith
  unfold intersection
  simp only
  rw [if_neg hdet, moved_end, moved_begin, ← he]
  simp only [reach, shift]
  rw [Unit2] at hu hv
  simp only [wedge, dot] at *
  generalize dirL l = u at *
  generalize dirL m = v at *
  rw [Option.some.injEq, Prod.mk.injEq]
  constructor
  · rw [div_eq_div_iff hdet hp.ne']
    linear_combination (d * (1 + (u.1 * v.1 + u.2 * v.2))) * hv - d * h
  · rw [← neg_div, div_eq_div_iff hdet hp.ne']
    linear_combination (-d * (1 + (u.1 * v.1 + u.2 * v.2))) * hu + d * h

/-- The two lines of a sharp corner. -/
theorem around_sharp (p : Parallel) (eps : ℝ) (hd : p.dist ≠ 0) {l m : Line ℝ} (hl : Proper l) (hm : Proper m) (he : l.end_ = m.begin_)
    (hs : ¬ Straight p.dist eps l m) (hsh : p.sharp = true) (ho : Outer p.dist l m) (hw : wedge (dirL l) (dirL m) ≠ 0) :
    let B := off (moved p.dist l).end_ (dirL l) (reach p.dist l m)
    aroundCorner p l.end_ (moved p.dist l).end_ (moved p.dist m).begin_ (dirL l) (dirL m) false = .ok [conn (moved p.dist l).end_ B, conn B (moved p.dist m).begin_] ∧
    B = off (moved p.dist m).begin_ (dirL m) (-reach p.dist l m) ∧ 0 < reach p.dist l m ∧
    ∀ i ∈ [conn (moved p.dist l).end_ B, conn B (moved p.dist m).begin_], ∀ t, 0 ≤ t → t ≤ 1 → AtCorner p eps l m (i.at_ t) := by
  intro B
  obtain ⟨hi, hp⟩ := intersection_corner p.dist hl hm he hw
  have hB := intersection_some hi
  have hlt : p.dist * wedge (dirL l) (dirL m) < 0 := lt_of_le_of_ne ho (mul_ne_zero hd hw)
  have hr : 0 < reach p.dist l m := div_pos (by linarith) hp
  refine ⟨?_, hB, hr, ?_⟩
  · unfold aroundCorner
    rw [hsh, hi]
    rfl
  have hu := dirL_unit hl
  have hv := dirL_unit hm
  rw [Unit2] at hu hv
  have e1 : ∀ x, away2 (off (moved p.dist l).end_ (dirL l) x) l.end_ = p.dist ^ 2 + x ^ 2 := by
    intro x
    rw [off, moved_end, away2, shift]
    simp only
    linear_combination (p.dist ^ 2 + x ^ 2) * hu
  have e2 : ∀ x, away2 (off (moved p.dist m).begin_ (dirL m) x) l.end_ = p.dist ^ 2 + x ^ 2 := by
    intro x
    rw [off, moved_begin, he, away2, shift]
    simp only
    linear_combination (p.dist ^ 2 + x ^ 2) * hv
  have hrw : reach p.dist l m * (1 + dot (dirL l) (dirL m)) = -(p.dist * wedge (dirL l) (dirL m)) := by
    rw [reach]; field_simp
  -- what is common to both lines
  have fin : ∀ q : Pt, p.dist ^ 2 ≤ away2 q l.end_ → 0 ≤ dot (sub q l.end_) (dirL l) → dot (sub q l.end_) (dirL m) ≤ 0 → AtCorner p eps l m q := by
    intro q h1 h2 h3
    refine ⟨by nlinarith [sq_nonneg eps], fun h => ?_, fun _ => h1, fun _ => cone_of_wedge _ hd _ _ _ hlt h2 h3, fun _ _ => ⟨h2, h3⟩⟩
    rcases h with h | h | h
    · exact absurd h hs
    · rw [hsh] at h; cases h
    · exact absurd ho h
  intro i hi t h0 h1
  simp only [List.mem_cons, List.not_mem_nil, or_false] at hi
  rcases hi with rfl | rfl
  · have e : (conn (moved p.dist l).end_ B).at_ t = off (moved p.dist l).end_ (dirL l) (t * reach p.dist l m) := by
      rw [conn_at]; ext <;> simp only [B, off] <;> ring
    rw [e]
    have ht : 0 ≤ t * reach p.dist l m := mul_nonneg h0 hr.le
    refine fin _ (by rw [e1]; nlinarith [sq_nonneg (t * reach p.dist l m)]) ?_ ?_
    · have : dot (sub (off (moved p.dist l).end_ (dirL l) (t * reach p.dist l m)) l.end_) (dirL l) = t * reach p.dist l m := by
        rw [off, moved_end, sub, dot, shift]
        simp only
        linear_combination (t * reach p.dist l m) * hu
      rw [this]; exact ht
    · have : dot (sub (off (moved p.dist l).end_ (dirL l) (t * reach p.dist l m)) l.end_) (dirL m) =
          p.dist * wedge (dirL l) (dirL m) + t * reach p.dist l m * dot (dirL l) (dirL m) := by
        rw [off, moved_end, sub, dot, shift, wedge, dot]
        simp only
        ring
      rw [this]
      have hle : t * (reach p.dist l m * (1 + dot (dirL l) (dirL m))) ≤ 1 * (reach p.dist l m * (1 + dot (dirL l) (dirL m))) :=
        mul_le_mul_of_nonneg_right h1 (mul_pos hr hp).le
      nlinarith
  · have e : (conn B (moved p.dist m).begin_).at_ t = off (moved p.dist m).begin_ (dirL m) (-((1 - t) * reach p.dist l m)) := by
      rw [conn_at, show B = off (moved p.dist m).begin_ (dirL m) (-reach p.dist l m) from hB]
      ext <;> simp only [off] <;> ring
    rw [e]
    have ht : 0 ≤ (1 - t) * reach p.dist l m := mul_nonneg (by linarith) hr.le
    refine fin _ (by rw [e2]; nlinarith [sq_nonneg ((1 - t) * reach p.dist l m)]) ?_ ?_
    · have : dot (sub (off (moved p.dist m).begin_ (dirL m) (-((1 - t) * reach p.dist l m))) l.end_) (dirL l) =
          -(p.dist * wedge (dirL l) (dirL m)) - (1 - t) * reach p.dist l m * dot (dirL l) (dirL m) := by
        rw [off, moved_begin, he, sub, dot, shift, wedge, dot]
        simp only
        ring
      rw [this]
      have hle : (1 - t) * (reach p.dist l m * (1 + dot (dirL l) (dirL m))) ≤ 1 * (reach p.dist l m * (1 + dot (dirL l) (dirL m))) :=
        mul_le_mul_of_nonneg_right (by linarith) (mul_pos hr hp).le
      nlinarith
    · have : dot (sub (off (moved p.dist m).begin_ (dirL m) (-((1 - t) * reach p.dist l m))) l.end_) (dirL m) = -((1 - t) * reach p.dist l m) := by
        rw [off, moved_begin, he, sub, dot, shift]
        simp only
        linear_combination (-((1 - t) * reach p.dist l m)) * hv
      rw [this]; linarith

/-- The path can be followed around the corner: no sharp corner is asked for where the path turns back. -/
def Possible (p : Parallel) (eps : ℝ) (l m : Line ℝ) : Prop :=
  Straight p.dist eps l m ∨ p.sharp = false ∨ wedge (dirL l) (dirL m) ≠ 0

/-- **C126.**  What is added between the parallels of two lines leads from the end of the first one to the begin of the second one, and its points are at the
given distance from the corner. -/
theorem between_spec (p : Parallel) (eps : ℝ) (hd : p.dist ≠ 0) (hep : 0 < eps) {l m : Line ℝ} (hl : Proper l) (hm : Proper m) (he : l.end_ = m.begin_)
    (hp : Possible p eps l m) :
    ∃ k, between p eps l.end_ l m (moved p.dist l) (moved p.dist m) = .ok k ∧ Leads k (moved p.dist l).end_ (moved p.dist m).begin_ ∧
      ∀ i ∈ k, ∀ t, 0 ≤ t → t ≤ 1 → AtCorner p eps l m (i.at_ t) := by
  obtain ⟨a, ha, ha1, ha2, ha3, ha4⟩ := angles_eq p.dist eps hl hm
  obtain ⟨f1, f2⟩ := atCorner_ends p eps hl hm he
  unfold between
  rw [ha]
  simp only [Except.bind]
  by_cases hs : Straight p.dist eps l m
  · rw [if_pos (ha3.mpr hs)]
    refine ⟨_, rfl, conn_leads _ _, ?_⟩
    intro i hi t h0 h1
    rw [List.mem_singleton] at hi
    rw [hi]
    exact atCorner_straight p eps hl hm he hs t h0 h1
  · rw [if_neg (fun h => hs (ha3.mp h)), ha1, ha2]
    have key : ∃ k, aroundCorner p l.end_ (moved p.dist l).end_ (moved p.dist m).begin_ (dirL l) (dirL m) a.concave = .ok k ∧ k ≠ [] ∧
        Leads k (moved p.dist l).end_ (moved p.dist m).begin_ ∧ ∀ i ∈ k, ∀ t, 0 ≤ t → t ≤ 1 → AtCorner p eps l m (i.at_ t) := by
      by_cases hx : p.sharp = true ∧ Outer p.dist l m
      · have hw : wedge (dirL l) (dirL m) ≠ 0 := by
          rcases hp with h | h | h
          · exact absurd h hs
          · rw [hx.1] at h; cases h
          · exact h
        obtain ⟨b1, b2, b3, b4⟩ := around_sharp p eps hd hl hm he hs hx.1 hx.2 hw
        have hcc : a.concave = false := by
          rw [Bool.eq_false_iff]
          intro h
          exact ha4.mp h hx.2
        rw [hcc]
        exact ⟨_, b1, List.cons_ne_nil _ _, ⟨rfl, rfl, rfl⟩, b4⟩
      · refine around_arc p eps hd hep hl hm he hs _ ?_
        by_cases hsh : p.sharp = true
        · rw [hsh, ha4.mpr fun ho => hx ⟨hsh, ho⟩]; rfl
        · rw [Bool.not_eq_true] at hsh
          rw [hsh]; rfl
    obtain ⟨k, hk, hk0, hkL, hkA⟩ := key
    rw [hk]
    cases k with
    | nil => exact absurd rfl hk0
    | cons i r =>
      have hib : i.begin_ = (moved p.dist l).end_ := hkL.1
      simp only [joinTo, Except.map]
      have hL2 : Leads (conn (moved p.dist l).end_ i.begin_ :: i :: r) (moved p.dist l).end_ (moved p.dist m).begin_ := by
        refine ⟨rfl, rfl, hkL.2⟩
      have hend := hL2.endOf (moved p.dist l).end_ (fun h => by cases h)
      refine ⟨_, rfl, hL2.append ⟨hend, rfl⟩, ?_⟩
      intro j hj t h0 h1
      rw [List.mem_append, List.mem_cons, List.mem_singleton] at hj
      rcases hj with (rfl | hj) | rfl
      · rw [hib, conn_same]; exact f1
      · exact hkA j hj t h0 h1
      · rw [hend, conn_same]; exact f2

/-! ## Paths -/

/-- One line comes after the other one. -/
def Next (closed : Bool) (lines : List (Line ℝ)) (l m : Line ℝ) : Prop :=
  (∃ a b, lines = a ++ l :: m :: b) ∨ (closed = true ∧ lines.getLast? = some l ∧ lines.head? = some m)

theorem steps_spec (p : Parallel) (eps : ℝ) (hd : p.dist ≠ 0) (hep : 0 < eps) : ∀ (rest : List (Line ℝ)) (l : Line ℝ), (∀ x ∈ l :: rest, Proper x) →
    (∀ a b x y, l :: rest = a ++ x :: y :: b → x.end_ = y.begin_ ∧ Possible p eps x y) →
    ∃ r z, steps p eps l (moved p.dist l) rest = .ok (r, (z, moved p.dist z)) ∧ (l :: rest).getLast? = some z ∧ Leads r (moved p.dist l).end_ (moved p.dist z).end_ ∧
      (∀ x ∈ rest, .line (moved p.dist x) ∈ r) ∧
      ∀ i ∈ r, (∃ x ∈ rest, i = .line (moved p.dist x)) ∨ ∃ a b x y, l :: rest = a ++ x :: y :: b ∧ ∀ t, 0 ≤ t → t ≤ 1 → AtCorner p eps x y (i.at_ t) := by
  intro rest
  induction rest with
  | nil =>
    intro l _ _
    exact ⟨[], l, rfl, rfl, rfl, by simp, by simp⟩
  | cons m rest ih =>
    intro l hP hN
    have hl := hP l (by simp)
    have hm := hP m (by simp)
    obtain ⟨n1, n2⟩ := hN [] rest l m rfl
    obtain ⟨k, hk, hkL, hkA⟩ := between_spec p eps hd hep hl hm n1 n2
    obtain ⟨r, z, hr, hz, hrL, hrM, hrA⟩ := ih m (fun x hx => hP x (List.mem_cons_of_mem _ hx)) (fun a b x y h => hN (l :: a) b x y (by rw [h]; rfl))
    rw [steps, lineItem_eq p.dist m hm]
    simp only [Except.bind]
    rw [← n1, hk]
    simp only
    rw [hr]
    refine ⟨_, z, rfl, by simpa using hz, hkL.append ⟨rfl, hrL⟩, ?_, ?_⟩
    · intro x hx
      rcases List.mem_cons.mp hx with rfl | hx
      · simp
      · simp only [List.mem_append, List.mem_cons]
        exact Or.inr (Or.inr (hrM x hx))
    · intro i hi
      simp only [List.mem_append, List.mem_cons] at hi
      rcases hi with hi | rfl | hi
      · exact Or.inr ⟨[], rest, l, m, rfl, hkA i hi⟩
      · exact Or.inl ⟨m, by simp, rfl⟩
      · rcases hrA i hi with ⟨x, hx, e⟩ | ⟨a, b, x, y, h, e⟩
        · exact Or.inl ⟨x, List.mem_cons_of_mem _ hx, e⟩
        · exact Or.inr ⟨l :: a, b, x, y, by rw [h]; rfl, e⟩

/-- **C126.**  The parallel of a path of lines: it exists, it is without gaps and closed if the path is closed, it contains the parallels of all lines, and everything
else of it belongs to the corners of the path. -/
theorem polyline_spec (p : Parallel) (eps : ℝ) (hep : 0 < eps) (hd : eps ≤ |p.dist|) (closed : Bool) (lines : List (Line ℝ)) (hne : lines ≠ [])
    (hP : ∀ x ∈ lines, Proper x) (hN : ∀ x y, Next closed lines x y → x.end_ = y.begin_ ∧ Possible p eps x y) :
    ∃ r a z, polyline p eps closed lines = .ok r ∧ lines.head? = some a ∧ lines.getLast? = some z ∧
      Leads r (moved p.dist a).begin_ (if closed then (moved p.dist a).begin_ else (moved p.dist z).end_) ∧
      (∀ x ∈ lines, .line (moved p.dist x) ∈ r) ∧
      ∀ i ∈ r, (∃ x ∈ lines, i = .line (moved p.dist x)) ∨ ∃ x y, Next closed lines x y ∧ ∀ t, 0 ≤ t → t ≤ 1 → AtCorner p eps x y (i.at_ t) := by
  have hd0 : p.dist ≠ 0 := by
    rintro e; rw [e, abs_zero] at hd; linarith
  cases lines with
  | nil => exact absurd rfl hne
  | cons l rest =>
    have hl := hP l (by simp)
    obtain ⟨r, z, hr, hz, hrL, hrM, hrA⟩ := steps_spec p eps hd0 hep rest l hP (fun a b x y h => hN x y (Or.inl ⟨a, b, h⟩))
    unfold polyline
    simp only
    rw [if_neg (by rw [abs_of_pos hep]; linarith), lineItem_eq p.dist l hl]
    simp only [Except.bind]
    rw [hr]
    simp only
    cases closed with
    | false =>
      refine ⟨_, l, z, rfl, rfl, hz, ⟨rfl, hrL⟩, ?_, ?_⟩
      · intro x hx
        rcases List.mem_cons.mp hx with rfl | hx
        · simp
        · exact List.mem_cons_of_mem _ (hrM x hx)
      · intro i hi
        rcases List.mem_cons.mp hi with rfl | hi
        · exact Or.inl ⟨l, by simp, rfl⟩
        · rcases hrA i hi with ⟨x, hx, e⟩ | ⟨a, b, x, y, h, e⟩
          · exact Or.inl ⟨x, List.mem_cons_of_mem _ hx, e⟩
          · exact Or.inr ⟨x, y, Or.inl ⟨a, b, h⟩, e⟩
    | true =>
      have hzm : z ∈ l :: rest := List.mem_of_getLast? hz
      have hnx : Next true (l :: rest) z l := Or.inr ⟨rfl, hz, rfl⟩
      obtain ⟨n1, n2⟩ := hN z l hnx
      obtain ⟨k, hk, hkL, hkA⟩ := between_spec p eps hd0 hep (hP z hzm) hl n1 n2
      simp only [if_true]
      rw [hk]
      refine ⟨_, l, z, rfl, rfl, hz, Leads.append (b := (moved p.dist z).end_) ⟨rfl, hrL⟩ hkL, ?_, ?_⟩
      · intro x hx
        rcases List.mem_cons.mp hx with rfl | hx
        · simp
        · simp only [List.cons_append, List.mem_cons, List.mem_append]
          exact Or.inr (Or.inl (hrM x hx))
      · intro i hi
        simp only [List.cons_append, List.mem_cons, List.mem_append] at hi
        rcases hi with rfl | hi | hi
        · exact Or.inl ⟨l, by simp, rfl⟩
        · rcases hrA i hi with ⟨x, hx, e⟩ | ⟨a, b, x, y, h, e⟩
          · exact Or.inl ⟨x, List.mem_cons_of_mem _ hx, e⟩
          · exact Or.inr ⟨x, y, Or.inl ⟨a, b, h⟩, e⟩
        · exact Or.inr ⟨z, l, hnx, hkA i hi⟩

theorem next_mem {closed : Bool} {lines : List (Line ℝ)} {l m : Line ℝ} (h : Next closed lines l m) : l ∈ lines ∧ m ∈ lines := by
  rcases h with ⟨a, b, rfl⟩ | ⟨_, h1, h2⟩
  · simp
  · exact ⟨List.mem_of_getLast? h1, List.mem_of_head? h2⟩

/-- A point of the path. -/
def OnPath (lines : List (Line ℝ)) (x : Pt) : Prop := ∃ l ∈ lines, ∃ s, 0 ≤ s ∧ s ≤ 1 ∧ x = l.at_ s

theorem at_end (l : Line ℝ) : l.at_ 1 = l.end_ := by
  ext <;> simp [Line.at_, Line.end_]

theorem at_begin (l : Line ℝ) : l.at_ 0 = l.begin_ := by
  ext <;> simp [Line.at_, Line.begin_]

theorem moved_at (d : ℝ) (l : Line ℝ) (t : ℝ) : (moved d l).at_ t = ((l.at_ t).1 + (shift d l).1, (l.at_ t).2 + (shift d l).2) := by
  ext <;> simp [moved, Line.at_, shift] <;> ring

/-- **C126.**  Without sharp corners every point of the parallel has a point of the path at the given distance, up to the error of the arcs and up to the error of
the joints which are nearly straight. -/
theorem polyline_distance (p : Parallel) (eps : ℝ) (hep : 0 < eps) (hd : eps ≤ |p.dist|) (hsh : p.sharp = false) (closed : Bool) (lines : List (Line ℝ))
    (hne : lines ≠ []) (hP : ∀ x ∈ lines, Proper x) (hN : ∀ x y, Next closed lines x y → x.end_ = y.begin_) :
    ∃ r, polyline p eps closed lines = .ok r ∧ ∀ i ∈ r, ∀ t, 0 ≤ t → t ≤ 1 → ∃ c, OnPath lines c ∧
      p.dist ^ 2 - eps ^ 2 / 2 ≤ away2 (i.at_ t) c ∧ away2 (i.at_ t) c ≤ (|p.dist| * (1 + 1 / 200000)) ^ 2 := by
  obtain ⟨r, a, z, hr, -, -, -, -, hA⟩ := polyline_spec p eps hep hd closed lines hne hP fun x y h => ⟨hN x y h, Or.inr (Or.inl hsh)⟩
  refine ⟨r, hr, fun i hi t h0 h1 => ?_⟩
  rcases hA i hi with ⟨x, hx, rfl⟩ | ⟨x, y, hxy, hc⟩
  · refine ⟨x.at_ t, ⟨x, hx, t, h0, h1, rfl⟩, ?_⟩
    have e : away2 ((moved p.dist x).at_ t) (x.at_ t) = p.dist ^ 2 := by
      rw [moved_at, away2]
      simp only
      linear_combination shift_sq p.dist (hP x hx)
    rw [show (Item.line (moved p.dist x)).at_ t = (moved p.dist x).at_ t from rfl, e, mul_pow, sq_abs]
    constructor <;> nlinarith [sq_nonneg eps, sq_nonneg p.dist]
  · have := hc t h0 h1
    exact ⟨x.end_, ⟨x, (next_mem hxy).1, 1, zero_le_one, le_rfl, (at_end x).symm⟩, this.far, this.notFar (Or.inr (Or.inl hsh))⟩

/-- The point is on the side of all lines on which the parallel is not: for the outlines of convex polygons, it is a point of the polygon. -/
def Inside (d : ℝ) (lines : List (Line ℝ)) (x : Pt) : Prop := ∀ l ∈ lines, dot (shift d l) (sub x l.begin_) ≤ 0

theorem line_vec {l : Line ℝ} (h : Proper l) : ∃ L, 0 < L ∧ ∀ s, l.at_ s = off l.begin_ (dirL l) (s * L) := by
  have ht := dirOf_tangent h
  refine ⟨_, hypot_pos h, fun s => ?_⟩
  have h1 := congrArg Prod.fst ht
  have h2 := congrArg Prod.snd ht
  simp only [Item.tangent] at h1 h2
  simp only [Item.tangent, off, Line.at_, Line.begin_, dirL]
  generalize hypot (l.x1 - l.x0) (l.y1 - l.y0) = L at *
  generalize dirOf (Item.line l) 0 = u at *
  ext
  · simp only; linear_combination s * h1
  · simp only; linear_combination s * h2

theorem inside_at {d : ℝ} {l : Line ℝ} (h : Proper l) (x : Pt) (s : ℝ) : dot (shift d l) (sub x (l.at_ s)) = dot (shift d l) (sub x l.begin_) := by
  obtain ⟨L, -, hL⟩ := line_vec h
  rw [hL]
  simp only [dot, shift, sub, off]
  ring

/-- **C126.**  The parallel on the outer side of a convex polygon: none of its points is nearer to the polygon than the given distance, and (without sharp corners)
none is further from the outline. -/
theorem convex_outward (p : Parallel) (eps : ℝ) (hep : 0 < eps) (hd : eps ≤ |p.dist|) (lines : List (Line ℝ)) (hne : lines ≠ []) (hP : ∀ x ∈ lines, Proper x)
    (hN : ∀ x y, Next true lines x y → x.end_ = y.begin_ ∧ dirL y ≠ opp (dirL x)) (hC : ∀ x, OnPath lines x → Inside p.dist lines x) :
    ∃ r, polyline p eps true lines = .ok r ∧ ∀ i ∈ r, ∀ t, 0 ≤ t → t ≤ 1 →
      (∀ x, Inside p.dist lines x → p.dist ^ 2 - eps ^ 2 / 2 ≤ away2 (i.at_ t) x) ∧
      (p.sharp = false → ∃ c, OnPath lines c ∧ away2 (i.at_ t) c ≤ (|p.dist| * (1 + 1 / 200000)) ^ 2) := by
  have hd0 : p.dist ≠ 0 := by
    rintro e; rw [e, abs_zero] at hd; linarith
  -- the corners
  have hcor : ∀ x y, Next true lines x y → Straight p.dist eps x y ∨ p.dist * wedge (dirL x) (dirL y) < 0 := by
    intro x y h
    obtain ⟨n1, n2⟩ := hN x y h
    obtain ⟨mx, my⟩ := next_mem h
    have hx := hP x mx
    have hy := hP y my
    have h1 := hC x.begin_ ⟨x, mx, 0, le_rfl, zero_le_one, (at_begin x).symm⟩ y my
    rw [← n1] at h1
    obtain ⟨L, hL0, hL⟩ := line_vec hx
    have h2 := hL 1
    rw [at_end, one_mul] at h2
    rw [h2] at h1
    simp only [dot, shift, sub, off] at h1
    have h3 : L * (p.dist * wedge (dirL x) (dirL y)) ≤ 0 := by
      rw [wedge]; nlinarith
    have h4 : p.dist * wedge (dirL x) (dirL y) ≤ 0 := by
      by_contra hcon
      push Not at hcon
      nlinarith [mul_pos hL0 hcon]
    rcases h4.lt_or_eq with h5 | h5
    · exact Or.inr h5
    · left
      have hw : wedge (dirL x) (dirL y) = 0 := by
        rcases mul_eq_zero.mp h5 with h | h
        · exact absurd h hd0
        · exact h
      have hu := dirL_unit hx
      have hv := dirL_unit hy
      have hpair := unit_pair hu hv
      rw [hw] at hpair
      refine ⟨?_, by rw [h5, abs_zero]; exact hep⟩
      by_contra hcon
      push Not at hcon
      have hD : dot (dirL x) (dirL y) = -1 := by nlinarith
      apply n2
      rw [Unit2] at hu hv
      simp only [wedge] at hw
      simp only [dot] at hD
      refine Prod.ext ?_ ?_
      · simp only [opp]
        linear_combination (-(dirL y).1) * hu + (dirL x).1 * hD - (dirL x).2 * hw
      · simp only [opp]
        linear_combination (-(dirL y).2) * hu + (dirL x).2 * hD + (dirL x).1 * hw
  obtain ⟨r, a, z, hr, -, -, -, -, hA⟩ := polyline_spec p eps hep hd true lines hne hP fun x y h => ⟨(hN x y h).1, by
    rcases hcor x y h with h | h
    · exact Or.inl h
    · exact Or.inr (Or.inr fun e => by rw [e, mul_zero] at h; exact lt_irrefl _ h)⟩
  refine ⟨r, hr, fun i hi t h0 h1 => ?_⟩
  rcases hA i hi with ⟨x, hx, rfl⟩ | ⟨x, y, hxy, hc⟩
  · have hq : (Item.line (moved p.dist x)).at_ t = ((x.at_ t).1 + (shift p.dist x).1, (x.at_ t).2 + (shift p.dist x).2) := moved_at p.dist x t
    have hs := shift_sq p.dist (hP x hx)
    rw [hq]
    constructor
    · intro w hw
      have h2 := hw x hx
      rw [← inside_at (hP x hx) w t] at h2
      simp only [dot, sub] at h2
      rw [away2]
      simp only
      nlinarith [sq_nonneg eps, sq_nonneg ((x.at_ t).1 - w.1), sq_nonneg ((x.at_ t).2 - w.2)]
    · intro _
      refine ⟨x.at_ t, ⟨x, hx, t, h0, h1, rfl⟩, ?_⟩
      rw [away2, mul_pow, sq_abs]
      simp only [add_sub_cancel_left]
      nlinarith [sq_nonneg p.dist]
  · have hAt := hc t h0 h1
    obtain ⟨mx, my⟩ := next_mem hxy
    have n1 := (hN x y hxy).1
    constructor
    · intro w hw
      obtain ⟨A, B, hA0, hB0, e⟩ := hAt.cone (hcor x y hxy)
      have h2 := hw x mx
      rw [← inside_at (hP x mx) w 1, at_end] at h2
      have h3 := hw y my
      rw [← n1] at h3
      have far := hAt.far
      generalize i.at_ t = q at *
      have e1 := congrArg Prod.fst e
      have e2 := congrArg Prod.snd e
      simp only [sub] at e1 e2
      simp only [dot, sub] at h2 h3
      simp only [away2] at far ⊢
      have h4 : (q.1 - x.end_.1) * (w.1 - x.end_.1) + (q.2 - x.end_.2) * (w.2 - x.end_.2) ≤ 0 := by
        rw [e1, e2]
        nlinarith [mul_nonneg hA0 (neg_nonneg.mpr h2), mul_nonneg hB0 (neg_nonneg.mpr h3)]
      nlinarith [sq_nonneg (w.1 - x.end_.1), sq_nonneg (w.2 - x.end_.2)]
    · intro hsh
      exact ⟨x.end_, ⟨x, mx, 1, zero_le_one, le_rfl, (at_end x).symm⟩, hAt.notFar (Or.inr (Or.inl hsh))⟩

/-- **C126.**  At the outer side of a corner the corner is the point of both lines which is nearest to each point of the parallel there. -/
theorem corner_nearest (p : Parallel) (eps : ℝ) {l m : Line ℝ} (hl : Proper l) (hm : Proper m) (he : l.end_ = m.begin_) (hs : ¬ Straight p.dist eps l m)
    (ho : Outer p.dist l m) (q : Pt) (hq : AtCorner p eps l m q) (s : ℝ) (h0 : 0 ≤ s) (h1 : s ≤ 1) :
    away2 q l.end_ ≤ away2 q (l.at_ s) ∧ away2 q l.end_ ≤ away2 q (m.at_ s) := by
  obtain ⟨a1, a2⟩ := hq.ahead hs ho
  obtain ⟨L, hL0, hL⟩ := line_vec hl
  obtain ⟨M, hM0, hM⟩ := line_vec hm
  have hu := dirL_unit hl
  have hv := dirL_unit hm
  rw [Unit2] at hu hv
  constructor
  · have e : l.at_ s = off l.end_ (dirL l) (-((1 - s) * L)) := by
      rw [← at_end, hL 1, hL s]
      ext <;> simp only [off] <;> ring
    rw [e]
    simp only [dot, sub, off, away2] at *
    have : 0 ≤ (1 - s) * L := mul_nonneg (by linarith) hL0.le
    generalize (1 - s) * L = k at *
    have e2 : (q.1 - (l.end_.1 + -k * (dirL l).1)) ^ 2 + (q.2 - (l.end_.2 + -k * (dirL l).2)) ^ 2 =
        (q.1 - l.end_.1) ^ 2 + (q.2 - l.end_.2) ^ 2 + 2 * (k * ((q.1 - l.end_.1) * (dirL l).1 + (q.2 - l.end_.2) * (dirL l).2)) + k ^ 2 := by
      linear_combination k ^ 2 * hu
    rw [e2]
    nlinarith [mul_nonneg this a1, sq_nonneg k]
  · rw [hM, ← he]
    simp only [dot, sub, off, away2] at *
    have : 0 ≤ s * M := mul_nonneg h0 hM0.le
    generalize s * M = k at *
    have e2 : (q.1 - (l.end_.1 + k * (dirL m).1)) ^ 2 + (q.2 - (l.end_.2 + k * (dirL m).2)) ^ 2 =
        (q.1 - l.end_.1) ^ 2 + (q.2 - l.end_.2) ^ 2 - 2 * (k * ((q.1 - l.end_.1) * (dirL m).1 + (q.2 - l.end_.2) * (dirL m).2)) + k ^ 2 := by
      linear_combination k ^ 2 * hv
    rw [e2]
    nlinarith [mul_nonneg this (neg_nonneg.mpr a2), sq_nonneg k]

/-- A distance below epsilon returns the path itself. -/
theorem tiny_distance (p : Parallel) (eps : ℝ) (h : |p.dist| < |eps|) (closed : Bool) (lines : List (Line ℝ)) : polyline p eps closed lines = .ok (lines.map .line) := by
  cases lines with
  | nil => rfl
  | cons l r => unfold polyline; simp only; rw [if_pos h]

/-- Finding: with sharp corners the parallel fails if the path turns back. -/
theorem sharp_turn_back (p : Parallel) (hsh : p.sharp = true) (eps : ℝ) {l m : Line ℝ} (hl : Proper l) (hm : Proper m) (hb : dirL m = opp (dirL l)) :
    between p eps l.end_ l m (moved p.dist l) (moved p.dist m) = .error .zero := by
  obtain ⟨a, ha, ha1, ha2, ha3, ha4⟩ := angles_eq p.dist eps hl hm
  have hu := dirL_unit hl
  rw [Unit2] at hu
  have hw : wedge (dirL l) (dirL m) = 0 := by rw [hb, wedge, opp]; ring
  have hs : ¬ Straight p.dist eps l m := by
    intro h
    have := h.1
    rw [hb, dot, opp] at this
    nlinarith
  have ho : Outer p.dist l m := by rw [Outer, hw, mul_zero]
  have hcc : a.concave = false := by
    rw [Bool.eq_false_iff]
    intro h
    exact ha4.mp h ho
  unfold between
  rw [ha]
  simp only [Except.bind]
  rw [if_neg (fun h => hs (ha3.mp h)), ha1, ha2, hcc]
  have hi : intersection (moved p.dist l).end_ (moved p.dist m).begin_ (dirL l) (dirL m) = none := by
    unfold intersection
    simp only
    rw [if_pos]
    rw [wedge] at hw
    linarith
  unfold aroundCorner
  rw [hsh, hi]
  rfl

/-! ## Examples -/

theorem dirL_of (l : Line ℝ) (L : ℝ) (hL : 0 < L) (h : (l.x1 - l.x0) ^ 2 + (l.y1 - l.y0) ^ 2 = L ^ 2) : Proper l ∧ dirL l = ((l.x1 - l.x0) / L, (l.y1 - l.y0) / L) := by
  have hh : hypot (l.x1 - l.x0) (l.y1 - l.y0) = L := by rw [hypot, h, Real.sqrt_sq hL.le]
  constructor
  · intro e
    simp only [Item.tangent, Prod.mk.injEq] at e
    rw [e.1, e.2] at h
    nlinarith
  · simp only [dirL, dirOf, Item.tangent]
    rw [hh]

/-- A triangle with the corners (0, 0), (4, 0) and (0, 3), counterclockwise. -/
def tri : List (Line ℝ) := [⟨0, 0, 4, 0⟩, ⟨4, 0, 0, 3⟩, ⟨0, 3, 0, 0⟩]

theorem tri_proper : (∀ x ∈ tri, Proper x) ∧ dirL ⟨0, 0, 4, 0⟩ = (1, 0) ∧ dirL ⟨4, 0, 0, 3⟩ = (-4 / 5, 3 / 5) ∧ dirL ⟨0, 3, 0, 0⟩ = (0, -1) := by
  have h1 := dirL_of ⟨0, 0, 4, 0⟩ 4 (by norm_num) (by norm_num)
  have h2 := dirL_of ⟨4, 0, 0, 3⟩ 5 (by norm_num) (by norm_num)
  have h3 := dirL_of ⟨0, 3, 0, 0⟩ 3 (by norm_num) (by norm_num)
  refine ⟨?_, ?_, ?_, ?_⟩
  · simp only [tri, List.mem_cons, List.not_mem_nil, or_false]
    rintro x (rfl | rfl | rfl)
    · exact h1.1
    · exact h2.1
    · exact h3.1
  · rw [h1.2]; norm_num
  · rw [h2.2]; norm_num
  · rw [h3.2]; norm_num

theorem tri_next (closed : Bool) {x y : Line ℝ} (h : Next closed tri x y) :
    (x = ⟨0, 0, 4, 0⟩ ∧ y = ⟨4, 0, 0, 3⟩) ∨ (x = ⟨4, 0, 0, 3⟩ ∧ y = ⟨0, 3, 0, 0⟩) ∨ (x = ⟨0, 3, 0, 0⟩ ∧ y = ⟨0, 0, 4, 0⟩) := by
  rcases h with ⟨a, b, h⟩ | ⟨_, h1, h2⟩
  · rcases a with _ | ⟨a1, _ | ⟨a2, _ | ⟨a3, a⟩⟩⟩
    · simp only [tri, List.nil_append, List.cons.injEq] at h
      exact Or.inl ⟨h.1.symm, h.2.1.symm⟩
    · simp only [tri, List.cons_append, List.nil_append, List.cons.injEq] at h
      exact Or.inr (Or.inl ⟨h.2.1.symm, h.2.2.1.symm⟩)
    · simp [tri] at h
    · simp [tri] at h
  · simp only [tri, List.getLast?_cons_cons, List.getLast?_singleton, Option.some.injEq, List.head?_cons] at h1 h2
    exact Or.inr (Or.inr ⟨h1.symm, h2.symm⟩)

/-- The hypotheses of the theorem about convex polygons hold for the triangle. -/
theorem tri_outward : ∃ r, polyline ⟨-1, false⟩ (1 / 100000) true tri = .ok r ∧ ∀ i ∈ r, ∀ t, 0 ≤ t → t ≤ 1 →
    (∀ x, Inside (-1) tri x → 1 - (1 / 100000) ^ 2 / 2 ≤ away2 (i.at_ t) x) ∧ ∃ c, OnPath tri c ∧ away2 (i.at_ t) c ≤ (1 + 1 / 200000) ^ 2 := by
  obtain ⟨h0, h1, h2, h3⟩ := tri_proper
  obtain ⟨r, hr, h⟩ := convex_outward ⟨-1, false⟩ (1 / 100000) (by norm_num) (by norm_num) tri (by simp [tri]) h0
    (by
      intro x y h
      rcases tri_next _ h with ⟨rfl, rfl⟩ | ⟨rfl, rfl⟩ | ⟨rfl, rfl⟩
      · exact ⟨rfl, by rw [h1, h2, opp]; norm_num⟩
      · exact ⟨rfl, by rw [h2, h3, opp]; norm_num⟩
      · exact ⟨rfl, by rw [h3, h1, opp]; norm_num⟩)
    (by
      rintro x ⟨l, hl, s, hs0, hs1, rfl⟩ m hm
      simp only [tri, List.mem_cons, List.not_mem_nil, or_false] at hl hm
      rcases hl with rfl | rfl | rfl <;> rcases hm with rfl | rfl | rfl <;> simp only [shift, dot, sub, Line.at_, Line.begin_, h1, h2, h3] <;> nlinarith)
  refine ⟨r, hr, fun i hi t ht0 ht1 => ?_⟩
  obtain ⟨a1, a2⟩ := h i hi t ht0 ht1
  refine ⟨fun x hx => ?_, ?_⟩
  · have := a1 x hx
    norm_num at this ⊢
    exact this
  · obtain ⟨c, hc, h⟩ := a2 rfl
    refine ⟨c, hc, ?_⟩
    norm_num at h ⊢
    exact h

/-- There and back again. -/
theorem turn_back_fails : polyline ⟨1, true⟩ (1 / 100000) false [⟨0, 0, 4, 0⟩, ⟨4, 0, 0, 0⟩] = .error .zero := by
  have h1 := dirL_of ⟨0, 0, 4, 0⟩ 4 (by norm_num) (by norm_num)
  have h2 := dirL_of ⟨4, 0, 0, 0⟩ 4 (by norm_num) (by norm_num)
  have hb := sharp_turn_back ⟨1, true⟩ rfl (1 / 100000) h1.1 h2.1 (by rw [h1.2, h2.2, opp]; norm_num)
  unfold polyline
  simp only
  rw [if_neg (by norm_num), lineItem_eq 1 _ h1.1]
  simp only [Except.bind, steps]
  rw [lineItem_eq 1 _ h2.1]
  simp only
  have e : Line.begin_ (⟨4, 0, 0, 0⟩ : Line ℝ) = Line.end_ (⟨0, 0, 4, 0⟩ : Line ℝ) := rfl
  rw [e, hb]

end

end PyX.Deform.Par
