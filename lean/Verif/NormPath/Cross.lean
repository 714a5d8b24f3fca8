import Verif.NormPath.ArclenParam

/-!
# Intersections of curves (`pyx/normpath.py:204-308, 385-486, 559-570, 724-780`): model

The recursion of `intersect` over two items, which are lines or curves, and the estimate for a curve which has been
replaced by a line.
-/

set_option linter.unusedSectionVars false

namespace PyX.NormPath.Cross

open PyX.NormPath.ByLength

noncomputable section

/-! ## Model -/

/-- The line between the ends of a curve (`normpath.py:469`). -/
def chordLine (c : Curve ℝ) : Line ℝ := ⟨c.x0, c.y0, c.x3, c.y3⟩

/-- `d1_pt_times_l0_pt` (`normpath.py:451`). -/
def d1 (c : Curve ℝ) : ℝ := (c.x3 - c.x0) * (c.y0 - c.y1) - (c.x0 - c.x1) * (c.y3 - c.y0)
/-- `d2_pt_times_l0_pt` (`normpath.py:452`). -/
def d2 (c : Curve ℝ) : ℝ := (c.x0 - c.x3) * (c.y3 - c.y2) - (c.x3 - c.x2) * (c.y0 - c.y3)
/-- `s1` (`normpath.py:458`). -/
def s1 (c : Curve ℝ) : ℝ := (c.x1 - c.x0) * (c.x3 - c.x0) + (c.y1 - c.y0) * (c.y3 - c.y0)
/-- `s2` (`normpath.py:459`). -/
def s2 (c : Curve ℝ) : ℝ := (c.x2 - c.x1) * (c.x3 - c.x0) + (c.y2 - c.y1) * (c.y3 - c.y0)
/-- `s3` (`normpath.py:460`). -/
def s3 (c : Curve ℝ) : ℝ := (c.x2 - c.x3) * (c.x0 - c.x3) + (c.y2 - c.y3) * (c.y0 - c.y3)

/-- The conditions to replace a part by a line when intersecting (`normpath.py:446-469`). -/
def Flat (c : Curve ℝ) (eps : ℝ) : Prop :=
  (|d1 c| < eps * c.chord ∧ |d2 c| < eps * c.chord) ∧
  (s1 c > 0 ∨ edge1 c < eps) ∧ (s2 c > 0 ∨ edge2 c < eps) ∧ (s3 c > 0 ∨ edge3 c < eps)

/-- What is intersected: a line, with the curve it replaces (`_leftnormline_pt`, `_rightnormline_pt`) if it is not
a `normline_pt` itself, or a curve. -/
inductive Piece
  | straight (l : Line ℝ) (behind : Option (Curve ℝ))
  | curve (c : Curve ℝ)

/-- `cbox` of a piece (`normpath.py:195-199, 531-535`). -/
def Piece.cbox : Piece → BBox ℝ
  | .straight l _ => l.bbox
  | .curve c => c.cbox

open Classical in
/-- `subcurve` when intersecting (`normpath.py:423-473`). -/
def half (c : Curve ℝ) (eps : ℝ) : Piece := if Flat c eps then .straight (chordLine c) (some c) else .curve c

/-- `subparamtoparam` of a left half (`normpath.py:740-757, 771-772`). -/
def subparam : Piece → ℝ → Except Fail ℝ
  | .straight _ (some c), t => lineSub c t
  | _, t => .ok (1 / 2 * t)

/-- The list comprehensions (`normpath.py:569-570`), with 0 for the left and 0.5 for the right half
(`normpath.py:764-765, 779-780`). -/
def backs (off : ℝ) (p : Piece) : List (ℝ × ℝ) → Except Fail (List (ℝ × ℝ))
  | [] => .ok []
  | r :: rs => (subparam p r.2).bind fun t => (backs off p rs).map fun l => (off + t, r.1) :: l

/-- `intersect` (`normpath.py:204-308, 559-570`).  The first argument bounds the depth of the recursion. -/
def cross : ℕ → Piece → Piece → ℝ → Except Fail (List (ℝ × ℝ))
  | 0, _, _, _ => .error .deep
  | n + 1, .curve c, o, eps =>
    if BBox.intersects (BBox.enlarged c.cbox eps none none none none) o.cbox = false then .ok [] else
      (cross n o (half (c.split (1 / 2)).1 eps) eps).bind fun ra =>
      (backs 0 (half (c.split (1 / 2)).1 eps) ra).bind fun la =>
      (cross n o (half (c.split (1 / 2)).2 eps) eps).bind fun rb =>
      (backs (1 / 2) (half (c.split (1 / 2)).2 eps) rb).map fun lb => la ++ lb
  | n + 1, .straight l b, .curve d, eps => (cross n (.curve d) (.straight l b) eps).map fun r => r.map Prod.swap
  | _ + 1, .straight l _, .straight l' _, eps => .ok (l.intersect l' eps)

/-! ## Specification -/

/-- The point of a piece at a parameter. -/
def pos : Piece → ℝ → ℝ × ℝ
  | .straight l _, t => l.at_ t
  | .curve c, t => (Item.curve c).point t

/-- The parts of a curve which are replaced by lines. -/
inductive Leaf (eps : ℝ) : Curve ℝ → Curve ℝ → Prop
  | left (c) (h : Flat (c.split (1 / 2)).1 eps) : Leaf eps c (c.split (1 / 2)).1
  | right (c) (h : Flat (c.split (1 / 2)).2 eps) : Leaf eps c (c.split (1 / 2)).2
  | leftward (c x) (h : ¬ Flat (c.split (1 / 2)).1 eps) (hx : Leaf eps (c.split (1 / 2)).1 x) : Leaf eps c x
  | rightward (c x) (h : ¬ Flat (c.split (1 / 2)).2 eps) (hx : Leaf eps (c.split (1 / 2)).2 x) : Leaf eps c x

/-! ## A curve close to a line -/

theorem hyp_mul (a b u v : ℝ) : hypot a b * hypot u v = hypot (a * u + b * v) (a * v - b * u) := by
  unfold hypot
  rw [← Real.sqrt_mul (by positivity)]
  congr 1
  ring

theorem hyp_le (x y : ℝ) : hypot x y ≤ |x| + |y| := by
  unfold hypot
  rw [Real.sqrt_le_left (by positivity)]
  have := mul_nonneg (abs_nonneg x) (abs_nonneg y)
  nlinarith [sq_abs x, sq_abs y]

theorem le_hyp (x y : ℝ) : |x| ≤ hypot x y := by
  unfold hypot
  exact Real.abs_le_sqrt (by nlinarith [sq_nonneg y])

/-- The length of an edge of the control polygon and its component along the chord. -/
theorem edge_excess (a b u v e : ℝ) (hd : |a * v - b * u| ≤ 2 * (e * hypot u v))
    (hs : a * u + b * v > 0 ∨ hypot a b < e) :
    0 ≤ hypot a b * hypot u v - (a * u + b * v) ∧ hypot a b * hypot u v - (a * u + b * v) ≤ 2 * (e * hypot u v) := by
  have hm := hyp_mul a b u v
  have h1 := le_hyp (a * u + b * v) (a * v - b * u)
  have h2 := hyp_le (a * u + b * v) (a * v - b * u)
  rw [← hm] at h1 h2
  refine ⟨by have := le_abs_self (a * u + b * v); linarith, ?_⟩
  rcases hs with hs | hs
  · rw [abs_of_pos hs] at h2
    linarith
  · have hu : 0 ≤ hypot u v := hypot_nonneg _ _
    have := neg_abs_le (a * u + b * v)
    have := mul_le_mul_of_nonneg_right hs.le hu
    linarith

set_option maxHeartbeats 1000000 in
/-- **C139 (error of a replacement).** A point of a flat curve and the point of the line at the parameter which
`subparamtoparam` relates to it are not further apart than seven times epsilon. -/
theorem flat_close (c : Curve ℝ) (eps t p : ℝ) (heps : 0 < eps) (hf : Flat c eps) (ht0 : 0 ≤ t) (ht1 : t ≤ 1)
    (hp0 : 0 ≤ p) (hp1 : p ≤ 1) (hb : bound c t = p * c.polygon) :
    dist2 ((Item.curve c).point t) ((chordLine c).at_ p) ≤ 7 * eps := by
  obtain ⟨⟨f1, f2⟩, g1, g2, g3⟩ := hf
  have hl : 0 < c.chord := by
    have := abs_nonneg (d1 c)
    by_contra hc
    have h0 : c.chord ≤ 0 := not_lt.mp hc
    nlinarith
  obtain ⟨u, hu⟩ : ∃ u, u = c.x3 - c.x0 := ⟨_, rfl⟩
  obtain ⟨v, hv⟩ : ∃ v, v = c.y3 - c.y0 := ⟨_, rfl⟩
  have hch : hypot u v = c.chord := by rw [hu, hv]; rfl
  have e1 := edge_excess (c.x1 - c.x0) (c.y1 - c.y0) u v eps (by
    rw [hch]
    have : (c.x1 - c.x0) * v - (c.y1 - c.y0) * u = d1 c := by rw [hu, hv]; unfold d1; ring
    rw [this]; have := abs_nonneg (d1 c); linarith) (by
    have : (c.x1 - c.x0) * u + (c.y1 - c.y0) * v = s1 c := by rw [hu, hv]; unfold s1; ring
    rw [this]; exact g1)
  have e2 := edge_excess (c.x2 - c.x1) (c.y2 - c.y1) u v eps (by
    rw [hch]
    have : (c.x2 - c.x1) * v - (c.y2 - c.y1) * u = -(d2 c) - d1 c := by rw [hu, hv]; unfold d1 d2; ring
    rw [this]
    have h3 := abs_sub (-(d2 c)) (d1 c)
    rw [abs_neg] at h3
    linarith) (by
    have : (c.x2 - c.x1) * u + (c.y2 - c.y1) * v = s2 c := by rw [hu, hv]; unfold s2; ring
    rw [this]; exact g2)
  have e3 := edge_excess (c.x3 - c.x2) (c.y3 - c.y2) u v eps (by
    rw [hch]
    have : (c.x3 - c.x2) * v - (c.y3 - c.y2) * u = d2 c := by rw [hu, hv]; unfold d2; ring
    rw [this]; have := abs_nonneg (d2 c); linarith) (by
    have : (c.x3 - c.x2) * u + (c.y3 - c.y2) * v = s3 c := by rw [hu, hv]; unfold s3; ring
    rw [this]; exact g3)
  rw [hch] at e1 e2 e3
  change 0 ≤ edge1 c * c.chord - _ ∧ edge1 c * c.chord - _ ≤ _ at e1
  change 0 ≤ edge2 c * c.chord - _ ∧ edge2 c * c.chord - _ ≤ _ at e2
  change 0 ≤ edge3 c * c.chord - _ ∧ edge3 c * c.chord - _ ≤ _ at e3
  obtain ⟨q1, hq1⟩ : ∃ q, q = edge1 c * c.chord - ((c.x1 - c.x0) * u + (c.y1 - c.y0) * v) := ⟨_, rfl⟩
  obtain ⟨q2, hq2⟩ : ∃ q, q = edge2 c * c.chord - ((c.x2 - c.x1) * u + (c.y2 - c.y1) * v) := ⟨_, rfl⟩
  obtain ⟨q3, hq3⟩ : ∃ q, q = edge3 c * c.chord - ((c.x3 - c.x2) * u + (c.y3 - c.y2) * v) := ⟨_, rfl⟩
  rw [← hq1] at e1; rw [← hq2] at e2; rw [← hq3] at e3
  have hsq : c.chord * c.chord = u * u + v * v := by
    have := hypot_sq u v
    rw [hch] at this
    nlinarith
  obtain ⟨w1, hw1⟩ : ∃ w, w = 1 - (1 - t) ^ 3 := ⟨_, rfl⟩
  obtain ⟨w2, hw2⟩ : ∃ w, w = 3 * t ^ 2 - 2 * t ^ 3 := ⟨_, rfl⟩
  obtain ⟨w3, hw3⟩ : ∃ w, w = t ^ 3 := ⟨_, rfl⟩
  have b1 : 0 ≤ w1 ∧ w1 ≤ 1 := by
    have h1 : (1 - t) ^ 3 ≤ 1 := pow_le_one₀ (by linarith) (by linarith)
    have h2 : 0 ≤ (1 - t) ^ 3 := pow_nonneg (by linarith) 3
    constructor <;> linarith
  have b2 : 0 ≤ w2 ∧ w2 ≤ 1 := by
    have h1 : 0 ≤ t ^ 2 * (3 - 2 * t) := mul_nonneg (sq_nonneg t) (by linarith)
    have h2 : 0 ≤ (1 - t) ^ 2 * (1 + 2 * t) := mul_nonneg (sq_nonneg _) (by linarith)
    constructor <;> nlinarith
  have b3 : 0 ≤ w3 ∧ w3 ≤ 1 := by
    rw [hw3]
    exact ⟨pow_nonneg ht0 3, pow_le_one₀ ht0 ht1⟩
  -- the difference
  obtain ⟨vx, hvx⟩ : ∃ x, x = ((Item.curve c).point t).1 - ((chordLine c).at_ p).1 := ⟨_, rfl⟩
  obtain ⟨vy, hvy⟩ : ∃ x, x = ((Item.curve c).point t).2 - ((chordLine c).at_ p).2 := ⟨_, rfl⟩
  have hxx : vx = w1 * (c.x1 - c.x0) + w2 * (c.x2 - c.x1) + w3 * (c.x3 - c.x2) - p * u := by
    rw [hvx, hw1, hw2, hw3, hu]
    simp only [Item.point, bezierPoint, linePoint, chordLine, Line.at_]
    ring
  have hyy : vy = w1 * (c.y1 - c.y0) + w2 * (c.y2 - c.y1) + w3 * (c.y3 - c.y2) - p * v := by
    rw [hvy, hw1, hw2, hw3, hv]
    simp only [Item.point, bezierPoint, linePoint, chordLine, Line.at_]
    ring
  have hbw : w1 * edge1 c + w2 * edge2 c + w3 * edge3 c = p * (edge1 c + edge2 c + edge3 c) := by
    rw [edges_polygon, ← hb, hw1, hw2, hw3]
    unfold bound along
    ring
  have hdot : vx * u + vy * v = p * (q1 + q2 + q3) - (w1 * q1 + w2 * q2 + w3 * q3) := by
    have hsum : q1 + q2 + q3 = (edge1 c + edge2 c + edge3 c) * c.chord - c.chord * c.chord := by
      rw [hq1, hq2, hq3, hsq, hu, hv]; ring
    have : w1 * q1 + w2 * q2 + w3 * q3 = p * (edge1 c + edge2 c + edge3 c) * c.chord - (vx * u + vy * v) - p * (c.chord * c.chord) := by
      rw [← hbw, hq1, hq2, hq3, hxx, hyy, hsq]; ring
    rw [this, hsum]; ring
  have hdot' : |vx * u + vy * v| ≤ 6 * (eps * c.chord) := by
    rw [hdot, abs_le]
    have m1 := mul_nonneg b1.1 e1.1
    have m2 := mul_nonneg b2.1 e2.1
    have m3 := mul_nonneg b3.1 e3.1
    have n1 := mul_le_of_le_one_left e1.1 b1.2
    have n2 := mul_le_of_le_one_left e2.1 b2.2
    have n3 := mul_le_of_le_one_left e3.1 b3.2
    have hs : 0 ≤ q1 + q2 + q3 := by linarith [e1.1, e2.1, e3.1]
    have k1 := mul_nonneg hp0 hs
    have k2 := mul_le_of_le_one_left hs hp1
    constructor <;> linarith [e1.2, e2.2, e3.2]
  have hcr : |vx * v - vy * u| ≤ eps * c.chord := by
    have : vx * v - vy * u = (w1 - w2) * d1 c - (w2 - w3) * d2 c := by
      rw [hxx, hyy, hu, hv]; unfold d1 d2; ring
    rw [this]
    have c1 : 0 ≤ w1 - w2 := by
      have : w1 - w2 = 3 * (t * (1 - t) ^ 2) := by rw [hw1, hw2]; ring
      rw [this]
      have := mul_nonneg ht0 (sq_nonneg (1 - t))
      linarith
    have c2 : 0 ≤ w2 - w3 := by
      have : w2 - w3 = 3 * (t ^ 2 * (1 - t)) := by rw [hw2, hw3]; ring
      rw [this]
      have := mul_nonneg (sq_nonneg t) (sub_nonneg.mpr ht1)
      linarith
    have h3 := abs_sub ((w1 - w2) * d1 c) ((w2 - w3) * d2 c)
    rw [abs_mul, abs_mul, abs_of_nonneg c1, abs_of_nonneg c2] at h3
    have k1 := mul_le_mul_of_nonneg_left f1.le c1
    have k2 := mul_le_mul_of_nonneg_left f2.le c2
    have k0 : 0 ≤ eps * c.chord := (mul_pos heps hl).le
    have k3 : (w1 - w3) * (eps * c.chord) ≤ eps * c.chord := mul_le_of_le_one_left k0 (by linarith [b1.2, b3.1])
    have k4 : (w1 - w3) * (eps * c.chord) = (w1 - w2) * (eps * c.chord) + (w2 - w3) * (eps * c.chord) := by ring
    linarith
  have hfin := hyp_mul vx vy u v
  have hle := hyp_le (vx * u + vy * v) (vx * v - vy * u)
  rw [← hfin, hch] at hle
  have : hypot vx vy * c.chord ≤ 7 * eps * c.chord := by linarith
  have hres := le_of_mul_le_mul_right this hl
  unfold dist2
  rw [← hvx, ← hvy]
  exact hres

end

end PyX.NormPath.Cross
