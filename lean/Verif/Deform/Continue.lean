import Mathlib.Order.MinMax
import Verif.Deform.Corner

/-!
# C162: the crossings of a parallel path (`pyx/deformer.py:1540-1556, 1588-1659, 1691-1720`)

The direction in which a crossing of the parallel path is passed, pairs which are found several times, and the points which are excluded as they are between the path and its parallel.
-/

set_option linter.unusedSectionVars false
set_option linter.unusedSimpArgs false

namespace PyX.Deform.Continue

open PyX.Deform

/-! ## The direction of a crossing -/

/-- What is known at a parameter of the parallel path: the tangent (of length one), the curvature after it, and whether it is the end of a sub-path. -/
structure At where
  tangent : Pt
  curv : ℝ
  isEnd : Bool

inductive Err
  | intersection
  | assertion
deriving DecidableEq, Repr

noncomputable section

def dot (a b : Pt) : ℝ := a.1 * b.1 + a.2 * b.2

def cross (a b : Pt) : ℝ := a.1 * b.2 - a.2 * b.1

/-- `rotation.apply_pt(0, dist)`. -/
def orth (t : Pt) (d : ℝ) : Pt := (-t.2 * d, t.1 * d)

/-- `running_back` (`deformer.py:1621`). -/
def back (a b : At) : Bool := open Classical in decide (dot a.tangent b.tangent < 0)

/-- `curv2` (`deformer.py:1622-1624`). -/
def curv2 (a b : At) : ℝ := if back a b then -b.curv else b.curv

/-- `_can_continue` (`deformer.py:1588-1636`). -/
def canContinue (dist eps : ℝ) (a b : At) : Except Err Bool :=
  open Classical in
  if eps < |dot (orth a.tangent dist) b.tangent| then .ok (decide (0 < dot (orth a.tangent dist) b.tangent))
  else if !back a b && a.isEnd then .ok true
  else if a.curv = curv2 a b then .error .intersection
  else if 0 < dist then .ok (decide (a.curv < curv2 a b))
  else .ok (decide (curv2 a b < a.curv))

/-- The order of a pair (`deformer.py:1541-1543`): whether it is exchanged. -/
def order (dist eps : ℝ) (a b : At) : Except Err Bool :=
  match canContinue dist eps a b with
  | .error e => .error e
  | .ok true => .ok false
  | .ok false =>
    match canContinue dist eps b a with
    | .error e => .error e
    | .ok true => .ok true
    | .ok false => .error .assertion

theorem proj_eq (t u : Pt) (d : ℝ) : dot (orth t d) u = d * cross t u := by
  unfold dot orth cross
  ring

theorem cross_comm (t u : Pt) : cross u t = -cross t u := by
  unfold cross
  ring

/-- **C162.** A crossing which is no contact is passed in exactly one direction: onto the branch which leads away from the original path of the other one, that is to its left for positive distances. -/
theorem order_crossing (dist eps : ℝ) (he : 0 ≤ eps) (a b : At) (h : eps < |dist * cross a.tangent b.tangent|) :
    (canContinue dist eps a b = .ok true ↔ 0 < dist * cross a.tangent b.tangent) ∧ (canContinue dist eps b a = .ok true ↔ dist * cross a.tangent b.tangent < 0) ∧
    ((order dist eps a b = .ok false ∧ canContinue dist eps a b = .ok true ∧ canContinue dist eps b a = .ok false) ∨
      (order dist eps a b = .ok true ∧ canContinue dist eps b a = .ok true ∧ canContinue dist eps a b = .ok false)) := by
  have h1 : canContinue dist eps a b = .ok (open Classical in decide (0 < dist * cross a.tangent b.tangent)) := by
    unfold canContinue
    rw [proj_eq, if_pos h]
  have h2 : canContinue dist eps b a = .ok (open Classical in decide (dist * cross a.tangent b.tangent < 0)) := by
    unfold canContinue
    rw [proj_eq, cross_comm a.tangent b.tangent, if_pos (by rw [mul_neg, abs_neg]; exact h)]
    congr 2
    rw [mul_neg]
    exact propext Left.neg_pos_iff
  have hne : dist * cross a.tangent b.tangent ≠ 0 := by
    intro h0
    rw [h0] at h
    simp at h
    linarith
  refine ⟨by rw [h1]; simp, by rw [h2]; simp, ?_⟩
  rcases lt_or_gt_of_ne hne with g | g
  · right
    have e1 : canContinue dist eps a b = .ok false := by rw [h1]; simp [le_of_lt g]
    have e2 : canContinue dist eps b a = .ok true := by rw [h2]; simp [g]
    refine ⟨?_, e2, e1⟩
    unfold order
    rw [e1]
    dsimp only
    rw [e2]
  · left
    have e1 : canContinue dist eps a b = .ok true := by rw [h1]; simp [g]
    have e2 : canContinue dist eps b a = .ok false := by rw [h2]; simp [le_of_lt g]
    refine ⟨?_, e1, e2⟩
    unfold order
    rw [e1]

theorem back_comm (a b : At) : back b a = back a b := by
  unfold back dot
  rw [mul_comm b.tangent.1, mul_comm b.tangent.2]

/-- **C162.** Two branches which touch each other with the same direction: the branch is continued which turns more to the left (for positive distances; more to the right for negative ones), where it is
farther away from the original path. With equal curvatures the code gives up. -/
theorem order_contact (dist eps : ℝ) (a b : At) (h : |dist * cross a.tangent b.tangent| ≤ eps) (hb : back a b = false) (ha : a.isEnd = false) (hb' : b.isEnd = false) :
    (a.curv = b.curv → order dist eps a b = .error .intersection) ∧
    (0 < dist → (a.curv < b.curv → order dist eps a b = .ok false) ∧ (b.curv < a.curv → order dist eps a b = .ok true)) ∧
    (dist ≤ 0 → (b.curv < a.curv → order dist eps a b = .ok false) ∧ (a.curv < b.curv → order dist eps a b = .ok true)) := by
  have hab : canContinue dist eps a b = if a.curv = b.curv then .error .intersection else if 0 < dist then .ok (open Classical in decide (a.curv < b.curv)) else .ok (open Classical in decide (b.curv < a.curv)) := by
    unfold canContinue curv2
    rw [proj_eq, if_neg (not_lt.2 h), hb, ha]
    simp
  have hba : canContinue dist eps b a = if b.curv = a.curv then .error .intersection else if 0 < dist then .ok (open Classical in decide (b.curv < a.curv)) else .ok (open Classical in decide (a.curv < b.curv)) := by
    unfold canContinue curv2
    rw [proj_eq, cross_comm a.tangent b.tangent, if_neg (by rw [mul_neg, abs_neg]; exact not_lt.2 h), back_comm, hb, hb']
    simp
  refine ⟨fun he => ?_, fun hd => ⟨fun hl => ?_, fun hl => ?_⟩, fun hd => ⟨fun hl => ?_, fun hl => ?_⟩⟩
  · unfold order
    rw [hab, if_pos he]
  · unfold order
    rw [hab, if_neg (ne_of_lt hl), if_pos hd]
    simp [hl]
  · unfold order
    rw [hab, if_neg (ne_of_gt hl), if_pos hd, hba, if_neg (ne_of_lt hl), if_pos hd]
    simp [hl, not_lt.2 (le_of_lt hl)]
  · unfold order
    rw [hab, if_neg (ne_of_gt hl), if_neg (not_lt.2 hd)]
    simp [hl]
  · unfold order
    rw [hab, if_neg (ne_of_lt hl), if_neg (not_lt.2 hd), hba, if_neg (ne_of_gt hl), if_neg (not_lt.2 hd)]
    simp [hl, not_lt.2 (le_of_lt hl)]

/-- **C162, violated.** Two branches which touch each other with opposite directions: the test gives the same answer for both orders of the pair, and if it is negative, an assertion fails. For positive distances this is
the case if the curvatures have a positive sum, as for the parallel inside of an oval which is just as wide as twice the distance. -/
theorem order_back_fails (dist eps : ℝ) (a b : At) (h : |dist * cross a.tangent b.tangent| ≤ eps) (hb : back a b = true) (hd : 0 < dist) (hc : 0 < a.curv + b.curv) :
    order dist eps a b = .error .assertion := by
  have hab : canContinue dist eps a b = .ok false := by
    unfold canContinue curv2
    rw [proj_eq, if_neg (not_lt.2 h), hb, if_neg (by simp), if_pos rfl, if_neg (by intro he; linarith), if_pos hd]
    simp
    linarith
  have hba : canContinue dist eps b a = .ok false := by
    unfold canContinue curv2
    rw [proj_eq, cross_comm a.tangent b.tangent, if_neg (by rw [mul_neg, abs_neg]; exact not_lt.2 h), back_comm, hb, if_neg (by simp), if_pos rfl, if_neg (by intro he; linarith), if_pos hd]
    simp
    linarith
  unfold order
  rw [hab]
  dsimp only
  rw [hba]

/-- A crossing at a right angle, and such a contact. -/
theorem ex_order : order 1 0 ⟨(1, 0), 0, false⟩ ⟨(0, 1), 0, false⟩ = .ok false ∧ order 1 0 ⟨(0, 1), 0, false⟩ ⟨(1, 0), 0, false⟩ = .ok true ∧
    order 1 0 ⟨(1, 0), 1, false⟩ ⟨(-1, 0), 1, false⟩ = .error .assertion := by
  refine ⟨?_, ?_, ?_⟩
  · obtain ⟨h1, h2, h3⟩ := order_crossing 1 0 le_rfl ⟨(1, 0), 0, false⟩ ⟨(0, 1), 0, false⟩ (by unfold cross; norm_num)
    rcases h3 with h | h
    · exact h.1
    · have := h2.1 h.2.1
      unfold cross at this
      norm_num at this
  · obtain ⟨h1, h2, h3⟩ := order_crossing 1 0 le_rfl ⟨(0, 1), 0, false⟩ ⟨(1, 0), 0, false⟩ (by unfold cross; norm_num)
    rcases h3 with h | h
    · have := h1.1 h.2.1
      unfold cross at this
      norm_num at this
    · exact h.1
  · exact order_back_fails 1 0 _ _ (by unfold cross; norm_num) (by unfold back dot; norm_num) (by norm_num) (by norm_num)

/-! ## Points between the paths -/

/-- What a piece of the parallel belongs to (`par2orig`): a line with its begin, its direction (of length one) and its length, a curve, or an arc around a corner with the ends of the piece. -/
inductive Origin
  | line (begin dir : Pt) (len : ℝ)
  | curve
  | corner (c begin end_ : Pt)

/-- The test for lines (`deformer.py:1698-1702`); a line without length leads to a `TypeError`, here `False`. -/
def betweenLine (dist eps : ℝ) (pos begin dir : Pt) (len : ℝ) : Prop :=
  ∃ ts, intersection pos begin (orth dir (sign dist)) (dir.1 * len, dir.2 * len) = some ts ∧ 0 ≤ ts.2 ∧ ts.2 ≤ 1 ∧ -|dist| + eps < ts.1 ∧ ts.1 < -eps

/-- The test for corners (`deformer.py:1708-1719`), with the ends of the arc in the positive sense. -/
def betweenCorner (dist eps : ℝ) (pos c p0 p1 : Pt) : Prop :=
  Real.sqrt ((pos.1 - c.1) ^ 2 + (pos.2 - c.2) ^ 2) < |dist| - eps ∧
  ∃ a b, intersection pos c (-p0.2 + c.2, p0.1 - c.1) (p0.1 - c.1, p0.2 - c.2) = some a ∧ intersection pos c (p1.2 - c.2, -p1.1 + c.1) (p1.1 - c.1, p1.2 - c.2) = some b ∧
    a.1 ≤ 0 ∧ 0 ≤ a.2 ∧ b.1 ≤ 0 ∧ 0 ≤ b.2

/-- The test for one piece (`deformer.py:1696-1719`). -/
def betweenOne (dist eps : ℝ) (pos : Pt) : Origin → Prop
  | .line begin dir len => betweenLine dist eps pos begin dir len
  | .curve => False
  | .corner c begin end_ => if 0 < dist then betweenCorner dist eps pos c end_ begin else betweenCorner dist eps pos c begin end_

/-- `_between_paths` (`deformer.py:1691-1720`). -/
def betweenPaths (dist eps : ℝ) (pos : Pt) (l : List Origin) : Prop := ∃ o ∈ l, betweenOne dist eps pos o

/-- The strip between a line and its parallel. -/
def Strip (dist eps : ℝ) (begin dir : Pt) (len : ℝ) (pos : Pt) : Prop :=
  ∃ s u, 0 ≤ s ∧ s ≤ 1 ∧ eps < u ∧ u < |dist| - eps ∧ pos = (begin.1 + s * len * dir.1 + u * (orth dir (sign dist)).1, begin.2 + s * len * dir.2 + u * (orth dir (sign dist)).2)

/-- The sector of a piece of an arc around a corner. -/
def Sector (r : ℝ) (c p0 p1 pos : Pt) : Prop :=
  Real.sqrt ((pos.1 - c.1) ^ 2 + (pos.2 - c.2) ^ 2) < r ∧ ∃ a b, 0 ≤ a ∧ 0 ≤ b ∧ pos = (c.1 + a * (p0.1 - c.1) + b * (p1.1 - c.1), c.2 + a * (p0.2 - c.2) + b * (p1.2 - c.2))

/-- `intersection` gives the parameters of the crossing of two lines. -/
theorem intersection_iff (A D tA tD : Pt) (h : -tA.1 * tD.2 + tA.2 * tD.1 ≠ 0) (t s : ℝ) :
    intersection A D tA tD = some (t, s) ↔ A.1 + t * tA.1 = D.1 + s * tD.1 ∧ A.2 + t * tA.2 = D.2 + s * tD.2 := by
  unfold intersection
  dsimp only
  rw [if_neg h]
  simp only [Option.some.injEq, Prod.mk.injEq]
  rw [div_eq_iff h, div_eq_iff h]
  constructor
  · rintro ⟨h1, h2⟩
    constructor
    · apply mul_left_cancel₀ h
      linear_combination tA.1 * (-h1) - tD.1 * (-h2)
    · apply mul_left_cancel₀ h
      linear_combination tA.2 * (-h1) - tD.2 * (-h2)
  · rintro ⟨h1, h2⟩
    constructor
    · linear_combination tD.2 * h1 - tD.1 * h2
    · linear_combination tA.2 * h1 - tA.1 * h2

theorem sign_sq (x : ℝ) : sign x * sign x = 1 := by
  unfold sign
  split <;> norm_num

/-- **C162.** A point is excluded by a line if and only if it is in the strip between the line and its parallel, and not close to them. -/
theorem betweenLine_iff (dist eps : ℝ) (pos begin dir : Pt) (len : ℝ) (hl : len ≠ 0) (hd : dir.1 ^ 2 + dir.2 ^ 2 = 1) :
    betweenLine dist eps pos begin dir len ↔ Strip dist eps begin dir len pos := by
  have hs := sign_sq dist
  have hdet : -(orth dir (sign dist)).1 * (dir.2 * len) + (orth dir (sign dist)).2 * (dir.1 * len) ≠ 0 := by
    have e : -(orth dir (sign dist)).1 * (dir.2 * len) + (orth dir (sign dist)).2 * (dir.1 * len) = sign dist * len := by
      unfold orth
      linear_combination (sign dist * len) * hd
    rw [e]
    refine mul_ne_zero ?_ hl
    intro h0
    rw [h0] at hs
    norm_num at hs
  unfold betweenLine Strip
  constructor
  · rintro ⟨⟨t, s⟩, h1, h2, h3, h4, h5⟩
    dsimp only at h2 h3 h4 h5
    obtain ⟨e1, e2⟩ := (intersection_iff _ _ _ _ hdet t s).1 h1
    refine ⟨s, -t, h2, h3, by linarith, by linarith, ?_⟩
    refine Prod.ext ?_ ?_
    · dsimp only at e1 ⊢; linarith
    · dsimp only at e2 ⊢; linarith
  · rintro ⟨s, u, h2, h3, h4, h5, rfl⟩
    refine ⟨(-u, s), (intersection_iff _ _ _ _ hdet _ _).2 ⟨?_, ?_⟩, h2, h3, ?_, ?_⟩
    · dsimp only; ring
    · dsimp only; ring
    · dsimp only; linarith
    · dsimp only; linarith

/-- **C162.** A point is excluded by a piece of an arc (of at most a quarter of a circle) around a corner if and only if it is in the sector of it, and not close to the arc. -/
theorem betweenCorner_iff (dist eps : ℝ) (pos c p0 p1 : Pt) (h1 : 0 < cross (p0.1 - c.1, p0.2 - c.2) (p1.1 - c.1, p1.2 - c.2)) (h2 : 0 ≤ dot (p0.1 - c.1, p0.2 - c.2) (p1.1 - c.1, p1.2 - c.2)) :
    betweenCorner dist eps pos c p0 p1 ↔ Sector (|dist| - eps) c p0 p1 pos := by
  unfold cross at h1
  unfold dot at h2
  dsimp only at h1 h2
  generalize hx : p0.1 - c.1 = x at *
  generalize hy : p0.2 - c.2 = y at *
  generalize hz : p1.1 - c.1 = z at *
  generalize hw : p1.2 - c.2 = w at *
  have hxy : 0 < x ^ 2 + y ^ 2 := by
    by_contra hn
    have e1 : x = 0 := by nlinarith [sq_nonneg x, sq_nonneg y]
    have e2 : y = 0 := by nlinarith [sq_nonneg x, sq_nonneg y]
    rw [e1, e2] at h1
    simp at h1
  have hzw : 0 < z ^ 2 + w ^ 2 := by
    by_contra hn
    have e1 : z = 0 := by nlinarith [sq_nonneg z, sq_nonneg w]
    have e2 : w = 0 := by nlinarith [sq_nonneg z, sq_nonneg w]
    rw [e1, e2] at h1
    simp at h1
  have q0 : (-p0.2 + c.2, p0.1 - c.1) = ((-y, x) : Pt) := by rw [← hx, ← hy]; refine Prod.ext ?_ rfl; dsimp only; ring
  have q1 : (p1.2 - c.2, -p1.1 + c.1) = ((w, -z) : Pt) := by rw [← hz, ← hw]; refine Prod.ext rfl ?_; dsimp only; ring
  have d0 : -(-y) * y + x * x ≠ 0 := by nlinarith
  have d1 : -w * w + -z * z ≠ 0 := by nlinarith
  unfold betweenCorner Sector
  rw [q0, q1, hx, hy, hz, hw]
  refine and_congr_right fun _ => ?_
  constructor
  · rintro ⟨⟨t0, s0⟩, ⟨t1, s1⟩, g0, g1, k1, k2, k3, k4⟩
    dsimp only at k1 k2 k3 k4
    obtain ⟨e1, e2⟩ := (intersection_iff _ _ _ _ d0 t0 s0).1 g0
    obtain ⟨e3, e4⟩ := (intersection_iff _ _ _ _ d1 t1 s1).1 g1
    dsimp only at e1 e2 e3 e4
    -- q = s0 r0 - t0 r0⊥ = s1 r1 + t1 r1⊥
    have c0 : x * (pos.2 - c.2) - y * (pos.1 - c.1) = -t0 * (x ^ 2 + y ^ 2) := by linear_combination x * e2 - y * e1
    have c1 : (pos.1 - c.1) * w - (pos.2 - c.2) * z = -t1 * (z ^ 2 + w ^ 2) := by linear_combination w * e3 - z * e4
    refine ⟨-t1 * (z ^ 2 + w ^ 2) / (x * w - y * z), -t0 * (x ^ 2 + y ^ 2) / (x * w - y * z), ?_, ?_, ?_⟩
    · exact div_nonneg (mul_nonneg (by linarith) (le_of_lt hzw)) (le_of_lt h1)
    · exact div_nonneg (mul_nonneg (by linarith) (le_of_lt hxy)) (le_of_lt h1)
    · have hD : x * w - y * z ≠ 0 := ne_of_gt h1
      rw [← c0, ← c1]
      refine Prod.ext ?_ ?_
      · dsimp only; rw [div_mul_eq_mul_div, div_mul_eq_mul_div, add_assoc, ← add_div, ← sub_eq_iff_eq_add', eq_div_iff hD]; ring
      · dsimp only; rw [div_mul_eq_mul_div, div_mul_eq_mul_div, add_assoc, ← add_div, ← sub_eq_iff_eq_add', eq_div_iff hD]; ring
  · rintro ⟨a, b, ha, hb, rfl⟩
    refine ⟨(-(b * (x * w - y * z)) / (x ^ 2 + y ^ 2), (a * (x ^ 2 + y ^ 2) + b * (x * z + y * w)) / (x ^ 2 + y ^ 2)),
      (-(a * (x * w - y * z)) / (z ^ 2 + w ^ 2), (b * (z ^ 2 + w ^ 2) + a * (x * z + y * w)) / (z ^ 2 + w ^ 2)),
      (intersection_iff _ _ _ _ d0 _ _).2 ⟨?_, ?_⟩, (intersection_iff _ _ _ _ d1 _ _).2 ⟨?_, ?_⟩, ?_, ?_, ?_, ?_⟩
    · dsimp only; field_simp; ring
    · dsimp only; field_simp; ring
    · dsimp only; field_simp; ring
    · dsimp only; field_simp; ring
    · exact div_nonpos_of_nonpos_of_nonneg (by nlinarith) (le_of_lt hxy)
    · exact div_nonneg (by positivity) (le_of_lt hxy)
    · exact div_nonpos_of_nonpos_of_nonneg (by nlinarith) (le_of_lt hzw)
    · exact div_nonneg (by positivity) (le_of_lt hzw)

/-- **C162, violated.** Points between a curve and its parallel are never excluded (a `TODO` in the code). -/
theorem curve_never (dist eps : ℝ) (pos : Pt) (l : List Origin) (h : ∀ o ∈ l, o = .curve) : ¬ betweenPaths dist eps pos l := by
  rintro ⟨o, ho, hb⟩
  rw [h o ho] at hb
  exact hb

/-- A point in the middle between a line and its parallel, and one in a sector. -/
theorem ex_between : Strip 1 0 (0, 0) (1, 0) 2 (1, 1 / 2) ∧ Sector (1 - 0) (0, 0) (1, 0) (0, 1) (1 / 2, 1 / 4) := by
  constructor
  · refine ⟨1 / 2, 1 / 2, by norm_num, by norm_num, by norm_num, by norm_num, ?_⟩
    unfold orth sign
    norm_num
  · refine ⟨?_, 1 / 2, 1 / 4, by norm_num, by norm_num, by norm_num⟩
    rw [Real.sqrt_lt' (by norm_num)]
    norm_num

end

/-! ## Pairs which are found several times -/

section

variable {P : Type*} [LinearOrder P]

/-- The entries for the same crossing (`deformer.py:1647-1653`). -/
def same (eqv : P → P → Bool) (i j : P) (pairs : List (P × P)) : List (P × P) := pairs.filter fun x => eqv i x.1 && eqv j x.2

/-- `_skip_intersection_doublet` and the entry afterwards (`deformer.py:1638-1659, 1552-1554`); the pairs in the order of the dictionary. -/
def enter (eqv : P → P → Bool) (i j : P) (pairs : List (P × P)) : List (P × P) :=
  (pairs.filter fun x => !(eqv i x.1 && eqv j x.2)) ++ [(((same eqv i j pairs).map Prod.fst).foldl min i, ((same eqv i j pairs).map Prod.snd).foldl max j)]

theorem foldl_min_le (l : List P) (i : P) : l.foldl min i ≤ i ∧ (∀ x ∈ l, l.foldl min i ≤ x) ∧ (l.foldl min i = i ∨ l.foldl min i ∈ l) := by
  induction l generalizing i with
  | nil => simp
  | cons a l ih =>
    rw [List.foldl_cons]
    obtain ⟨h1, h2, h3⟩ := ih (min i a)
    refine ⟨le_trans h1 (min_le_left _ _), ?_, ?_⟩
    · intro x hx
      rw [List.mem_cons] at hx
      rcases hx with rfl | hx
      · exact le_trans h1 (min_le_right _ _)
      · exact h2 x hx
    · rcases h3 with h3 | h3
      · rcases min_choice i a with g | g
        · left; rw [h3, g]
        · right; rw [h3, g]; simp
      · right; simp [h3]

theorem le_foldl_max (l : List P) (i : P) : i ≤ l.foldl max i ∧ (∀ x ∈ l, x ≤ l.foldl max i) ∧ (l.foldl max i = i ∨ l.foldl max i ∈ l) := by
  induction l generalizing i with
  | nil => simp
  | cons a l ih =>
    rw [List.foldl_cons]
    obtain ⟨h1, h2, h3⟩ := ih (max i a)
    refine ⟨le_trans (le_max_left _ _) h1, ?_, ?_⟩
    · intro x hx
      rw [List.mem_cons] at hx
      rcases hx with rfl | hx
      · exact le_trans (le_max_right _ _) h1
      · exact h2 x hx
    · rcases h3 with h3 | h3
      · rcases max_choice i a with g | g
        · left; rw [h3, g]
        · right; rw [h3, g]; simp
      · right; simp [h3]

/-- **C162.** Entering a crossing: the other entries are kept, and all entries for this crossing become a single one, from the smallest first parameter to the largest second one, which are parameters of this crossing. -/
theorem enter_spec (eqv : P → P → Bool) (i j : P) (pairs : List (P × P)) :
    ∃ p q, enter eqv i j pairs = (pairs.filter fun x => !(eqv i x.1 && eqv j x.2)) ++ [(p, q)] ∧ p ≤ i ∧ j ≤ q ∧ (p = i ∨ eqv i p = true) ∧ (q = j ∨ eqv j q = true) ∧
      ∀ x ∈ pairs, eqv i x.1 = true → eqv j x.2 = true → p ≤ x.1 ∧ x.2 ≤ q := by
  obtain ⟨a1, a2, a3⟩ := foldl_min_le ((same eqv i j pairs).map Prod.fst) i
  obtain ⟨b1, b2, b3⟩ := le_foldl_max ((same eqv i j pairs).map Prod.snd) j
  refine ⟨_, _, rfl, a1, b1, ?_, ?_, ?_⟩
  · rcases a3 with h | h
    · exact Or.inl h
    · rw [List.mem_map] at h
      obtain ⟨x, hx, he⟩ := h
      unfold same at hx
      rw [List.mem_filter, Bool.and_eq_true] at hx
      right
      rw [← he]
      exact hx.2.1
  · rcases b3 with h | h
    · exact Or.inl h
    · rw [List.mem_map] at h
      obtain ⟨x, hx, he⟩ := h
      unfold same at hx
      rw [List.mem_filter, Bool.and_eq_true] at hx
      right
      rw [← he]
      exact hx.2.2
  · intro x hx h1 h2
    have hm : x ∈ same eqv i j pairs := by
      unfold same
      rw [List.mem_filter, Bool.and_eq_true]
      exact ⟨hx, h1, h2⟩
    exact ⟨a2 _ (List.mem_map_of_mem hm), b2 _ (List.mem_map_of_mem hm)⟩

/-- All crossings are entered one after the other. -/
def enterAll (eqv : P → P → Bool) (found : List (P × P)) : List (P × P) := found.foldl (fun pairs x => enter eqv x.1 x.2 pairs) []

/-- **C162.** If being at the same point is an equivalence, in the end there is exactly one entry for each crossing: every pair found has one which covers it, and no two entries are for the same crossing. -/
theorem enterAll_spec (eqv : P → P → Bool) (hr : ∀ a, eqv a a = true) (hs : ∀ a b, eqv a b = true → eqv b a = true) (ht : ∀ a b c, eqv a b = true → eqv b c = true → eqv a c = true) (found : List (P × P)) :
    (∀ x ∈ found, ∃ y ∈ enterAll eqv found, eqv x.1 y.1 = true ∧ eqv x.2 y.2 = true ∧ y.1 ≤ x.1 ∧ x.2 ≤ y.2) ∧
    (enterAll eqv found).Pairwise (fun x y => ¬ (eqv x.1 y.1 = true ∧ eqv x.2 y.2 = true)) ∧
    ∀ y ∈ enterAll eqv found, (∃ x ∈ found, x.1 = y.1 ∧ eqv x.2 y.2 = true) ∧ ∃ x ∈ found, x.2 = y.2 ∧ eqv x.1 y.1 = true := by
  induction found using List.reverseRecOn with
  | nil => simp [enterAll]
  | append_singleton found x ih =>
    obtain ⟨i, j⟩ := x
    obtain ⟨g1, g2, g3⟩ := ih
    have he : enterAll eqv (found ++ [(i, j)]) = enter eqv i j (enterAll eqv found) := by
      unfold enterAll
      rw [List.foldl_append]
      rfl
    rw [he]
    obtain ⟨p, q, e, k1, k2, k3, k4, k5⟩ := enter_spec eqv i j (enterAll eqv found)
    have hip : eqv i p = true := by
      rcases k3 with h | h
      · rw [h]; exact hr i
      · exact h
    have hjq : eqv j q = true := by
      rcases k4 with h | h
      · rw [h]; exact hr j
      · exact h
    refine ⟨?_, ?_, ?_⟩
    · intro x hx
      rw [e]
      rw [List.mem_append, List.mem_singleton] at hx
      rcases hx with hx | rfl
      · obtain ⟨y, hy, m1, m2, m3, m4⟩ := g1 x hx
        by_cases hxy : eqv i y.1 = true ∧ eqv j y.2 = true
        · refine ⟨(p, q), by simp, ?_, ?_, le_trans (k5 y hy hxy.1 hxy.2).1 m3, le_trans m4 (k5 y hy hxy.1 hxy.2).2⟩
          · exact ht _ _ _ m1 (ht _ _ _ (hs _ _ hxy.1) hip)
          · exact ht _ _ _ m2 (ht _ _ _ (hs _ _ hxy.2) hjq)
        · refine ⟨y, ?_, m1, m2, m3, m4⟩
          rw [List.mem_append, List.mem_filter]
          left
          refine ⟨hy, ?_⟩
          rw [Bool.not_eq_true', Bool.and_eq_false_iff, ← Bool.not_eq_true, ← Bool.not_eq_true]
          exact not_and_or.1 hxy
      · exact ⟨(p, q), by simp, hip, hjq, k1, k2⟩
    · rw [e, List.pairwise_append]
      refine ⟨g2.filter _, by simp, ?_⟩
      intro x hx y hy
      rw [List.mem_singleton] at hy
      subst hy
      rw [List.mem_filter] at hx
      rintro ⟨m1, m2⟩
      have n1 := ht _ _ _ hip (hs _ _ m1)
      have n2 := ht _ _ _ hjq (hs _ _ m2)
      have := hx.2
      rw [n1, n2] at this
      simp at this
    · intro y hy
      rw [e, List.mem_append, List.mem_singleton] at hy
      rcases hy with hy | rfl
      · obtain ⟨⟨x, hx, m⟩, ⟨x', hx', m'⟩⟩ := g3 y (List.mem_of_mem_filter hy)
        exact ⟨⟨x, by simp [hx], m⟩, ⟨x', by simp [hx'], m'⟩⟩
      · have ha := (foldl_min_le ((same eqv i j (enterAll eqv found)).map Prod.fst) i).2.2
        have hb := (le_foldl_max ((same eqv i j (enterAll eqv found)).map Prod.snd) j).2.2
        unfold enter at e
        have e' := List.append_cancel_left e
        simp only [List.cons.injEq, Prod.mk.injEq, and_true] at e'
        rw [e'.1] at ha
        rw [e'.2] at hb
        constructor
        · rcases ha with h | h
          · exact ⟨(i, j), by simp, h.symm, hjq⟩
          · rw [List.mem_map] at h
            obtain ⟨z, hz, hze⟩ := h
            unfold same at hz
            rw [List.mem_filter, Bool.and_eq_true] at hz
            obtain ⟨⟨x, hx, m1, m2⟩, _⟩ := g3 z hz.1
            exact ⟨x, by simp [hx], by rw [m1, hze], ht _ _ _ m2 (ht _ _ _ (hs _ _ hz.2.2) hjq)⟩
        · rcases hb with h | h
          · exact ⟨(i, j), by simp, h.symm, hip⟩
          · rw [List.mem_map] at h
            obtain ⟨z, hz, hze⟩ := h
            unfold same at hz
            rw [List.mem_filter, Bool.and_eq_true] at hz
            obtain ⟨_, ⟨x, hx, m1, m2⟩⟩ := g3 z hz.1
            exact ⟨x, by simp [hx], by rw [m1, hze], ht _ _ _ m2 (ht _ _ _ (hs _ _ hz.2.1) hip)⟩

/-- Three pairs of parameters (in tenths) near each other, and another one. -/
theorem ex_enter : enterAll (fun a b : ℕ => a / 10 == b / 10) [(12, 55), (31, 77), (11, 53), (13, 58)] = [(31, 77), (11, 58)] := by decide +kernel

end

end PyX.Deform.Continue
