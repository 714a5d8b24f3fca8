import Verif.NormPath.CrossProps

/-!
# Intersections of curves: the recursion ends, curves changing the side of a line, wrong cases (C139)
-/

set_option linter.unusedSectionVars false

namespace PyX.NormPath.Cross

open PyX.NormPath.ByLength

/-! ## The recursion ends -/

/-- All control points are the same. -/
def Point (c : Curve ℝ) : Prop := (c.x1 = c.x0 ∧ c.x2 = c.x0 ∧ c.x3 = c.x0) ∧ (c.y1 = c.y0 ∧ c.y2 = c.y0 ∧ c.y3 = c.y0)

/-- After at most so many halvings all parts are replaced by lines. -/
def Settles (eps : ℝ) : ℕ → Curve ℝ → Prop
  | 0, _ => False
  | k + 1, c => (Flat (c.split (1 / 2)).1 eps ∨ Settles eps k (c.split (1 / 2)).1) ∧
      (Flat (c.split (1 / 2)).2 eps ∨ Settles eps k (c.split (1 / 2)).2)

theorem settles_mono {eps : ℝ} {k j : ℕ} (hkj : k ≤ j) {c : Curve ℝ} (h : Settles eps k c) : Settles eps j c := by
  induction k generalizing j c with
  | zero => exact h.elim
  | succ k ih =>
    obtain ⟨j, rfl⟩ : ∃ i, j = i + 1 := ⟨j - 1, by omega⟩
    exact ⟨h.1.imp_right (ih (by omega)), h.2.imp_right (ih (by omega))⟩

theorem point_left {c : Curve ℝ} (h : Point (c.split (1 / 2)).1) : Point c := by
  obtain ⟨⟨a1, a2, a3⟩, b1, b2, b3⟩ := h
  simp only [Curve.split] at a1 a2 a3 b1 b2 b3
  refine ⟨⟨?_, ?_, ?_⟩, ?_, ?_, ?_⟩ <;> linarith

theorem point_right {c : Curve ℝ} (h : Point (c.split (1 / 2)).2) : Point c := by
  obtain ⟨⟨a1, a2, a3⟩, b1, b2, b3⟩ := h
  simp only [Curve.split] at a1 a2 a3 b1 b2 b3
  refine ⟨⟨?_, ?_, ?_⟩, ?_, ?_, ?_⟩ <;> linarith

/-- All edges of the control polygon are shorter than a value. -/
def Small (c : Curve ℝ) (e : ℝ) : Prop := edge1 c < e ∧ edge2 c < e ∧ edge3 c < e

theorem hypot_scale (k x y u v e : ℝ) (hk : 0 ≤ k) (h : u = k * x) (h' : v = k * y) (he : hypot x y < e) : hypot u v ≤ k * e := by
  rw [h, h', hypot_smul, abs_of_nonneg hk]
  exact mul_le_mul_of_nonneg_left he.le hk

theorem hypot_sum {a b c d : ℝ} : hypot (a + c) (b + d) ≤ hypot a b + hypot c d := hypot_add_le a b c d

theorem small_split {c : Curve ℝ} {e : ℝ} (h : Small c (2 * e)) : Small (c.split (1 / 2)).1 e ∧ Small (c.split (1 / 2)).2 e := by
  obtain ⟨h1, h2, h3⟩ := h
  have a1 : hypot ((c.x1 - c.x0) + (c.x2 - c.x1)) ((c.y1 - c.y0) + (c.y2 - c.y1)) < 4 * e :=
    lt_of_le_of_lt hypot_sum (by unfold edge1 at h1; unfold edge2 at h2; linarith)
  have a2 : hypot ((c.x2 - c.x1) + (c.x3 - c.x2)) ((c.y2 - c.y1) + (c.y3 - c.y2)) < 4 * e :=
    lt_of_le_of_lt hypot_sum (by unfold edge3 at h3; unfold edge2 at h2; linarith)
  have a3 : hypot (((c.x1 - c.x0) + (c.x2 - c.x1)) + ((c.x2 - c.x1) + (c.x3 - c.x2)))
      (((c.y1 - c.y0) + (c.y2 - c.y1)) + ((c.y2 - c.y1) + (c.y3 - c.y2))) < 8 * e :=
    lt_of_le_of_lt hypot_sum (by linarith)
  have key : ∀ k x y u v b : ℝ, 0 < k → u = k * x → v = k * y → hypot x y < b → k * b = e → hypot u v < e := by
    intro k x y u v b hk h h' he hb
    rw [h, h', hypot_smul, abs_of_pos hk, ← hb]
    exact mul_lt_mul_of_pos_left he hk
  refine ⟨⟨?_, ?_, ?_⟩, ?_, ?_, ?_⟩
  · exact key (1 / 2) _ _ _ _ _ (by norm_num) (by simp only [Curve.split]; ring) (by simp only [Curve.split]; ring) h1 (by ring)
  · exact key (1 / 4) _ _ _ _ _ (by norm_num) (by simp only [Curve.split]; ring) (by simp only [Curve.split]; ring) a1 (by ring)
  · exact key (1 / 8) _ _ _ _ _ (by norm_num) (by simp only [Curve.split]; ring) (by simp only [Curve.split]; ring) a3 (by ring)
  · exact key (1 / 8) _ _ _ _ _ (by norm_num) (by simp only [Curve.split]; ring) (by simp only [Curve.split]; ring) a3 (by ring)
  · exact key (1 / 4) _ _ _ _ _ (by norm_num) (by simp only [Curve.split]; ring) (by simp only [Curve.split]; ring) a2 (by ring)
  · exact key (1 / 2) _ _ _ _ _ (by norm_num) (by simp only [Curve.split]; ring) (by simp only [Curve.split]; ring) h3 (by ring)

/-- The curve ends where it begins. -/
def Shut (c : Curve ℝ) : Prop := c.x3 = c.x0 ∧ c.y3 = c.y0

theorem shut_of_chord {c : Curve ℝ} (h : c.chord ≤ 0) : Shut c := by
  have h0 : c.chord = 0 := le_antisymm h (hypot_nonneg _ _)
  have := hypot_sq (c.x3 - c.x0) (c.y3 - c.y0)
  change c.chord ^ 2 = _ at this
  rw [h0] at this
  constructor <;> nlinarith [sq_nonneg (c.x3 - c.x0), sq_nonneg (c.y3 - c.y0)]

theorem chord_shut {c : Curve ℝ} (h : Shut c) : c.chord = 0 := by
  unfold Curve.chord
  rw [h.1, h.2]
  simp [hypot]

/-- Small parts are replaced by lines, except those which end where they begin. -/
theorem small_flat {c : Curve ℝ} {eps : ℝ} (h : Small c eps) : Flat c eps ∨ Shut c := by
  by_cases hc : c.chord ≤ 0
  · exact .inr (shut_of_chord hc)
  push Not at hc
  refine .inl ⟨⟨?_, ?_⟩, .inr h.1, .inr h.2.1, .inr h.2.2⟩
  · have h1 := le_hyp ((c.x1 - c.x0) * (c.y3 - c.y0) - (c.y1 - c.y0) * (c.x3 - c.x0)) ((c.x1 - c.x0) * (c.x3 - c.x0) + (c.y1 - c.y0) * (c.y3 - c.y0))
    have h2 := hyp_mul (c.x1 - c.x0) (c.y1 - c.y0) (c.x3 - c.x0) (c.y3 - c.y0)
    have h3 : hypot ((c.x1 - c.x0) * (c.y3 - c.y0) - (c.y1 - c.y0) * (c.x3 - c.x0)) ((c.x1 - c.x0) * (c.x3 - c.x0) + (c.y1 - c.y0) * (c.y3 - c.y0)) =
        hypot ((c.x1 - c.x0) * (c.x3 - c.x0) + (c.y1 - c.y0) * (c.y3 - c.y0)) ((c.x1 - c.x0) * (c.y3 - c.y0) - (c.y1 - c.y0) * (c.x3 - c.x0)) := by
      unfold hypot; rw [add_comm]
    rw [h3, ← h2] at h1
    have e : d1 c = (c.x1 - c.x0) * (c.y3 - c.y0) - (c.y1 - c.y0) * (c.x3 - c.x0) := by unfold d1; ring
    rw [e]
    exact lt_of_le_of_lt h1 (mul_lt_mul_of_pos_right h.1 hc)
  · have h1 := le_hyp ((c.x3 - c.x2) * (c.y3 - c.y0) - (c.y3 - c.y2) * (c.x3 - c.x0)) ((c.x3 - c.x2) * (c.x3 - c.x0) + (c.y3 - c.y2) * (c.y3 - c.y0))
    have h2 := hyp_mul (c.x3 - c.x2) (c.y3 - c.y2) (c.x3 - c.x0) (c.y3 - c.y0)
    have h3 : hypot ((c.x3 - c.x2) * (c.y3 - c.y0) - (c.y3 - c.y2) * (c.x3 - c.x0)) ((c.x3 - c.x2) * (c.x3 - c.x0) + (c.y3 - c.y2) * (c.y3 - c.y0)) =
        hypot ((c.x3 - c.x2) * (c.x3 - c.x0) + (c.y3 - c.y2) * (c.y3 - c.y0)) ((c.x3 - c.x2) * (c.y3 - c.y0) - (c.y3 - c.y2) * (c.x3 - c.x0)) := by
      unfold hypot; rw [add_comm]
    rw [h3, ← h2] at h1
    have e : d2 c = (c.x3 - c.x2) * (c.y3 - c.y0) - (c.y3 - c.y2) * (c.x3 - c.x0) := by unfold d2; ring
    rw [e]
    exact lt_of_le_of_lt h1 (mul_lt_mul_of_pos_right h.2.2 hc)

/-- One of the two halves. -/
def Halved (c g : Curve ℝ) : Prop := g = (c.split (1 / 2)).1 ∨ g = (c.split (1 / 2)).2

set_option maxHeartbeats 1000000 in
theorem shut_point {c g f : Curve ℝ} (hg : Halved c g) (hf : Halved g f) (h1 : Shut c) (h2 : Shut g) (h3 : Shut f) : Point c := by
  obtain ⟨a1, b1⟩ := h1
  obtain ⟨a2, b2⟩ := h2
  obtain ⟨a3, b3⟩ := h3
  have hx : c.x1 = c.x0 ∧ c.x2 = c.x0 := by
    clear b1 b2 b3
    rcases hg with rfl | rfl <;> rcases hf with rfl | rfl <;> simp only [Curve.split] at a2 a3 <;> constructor <;> linarith
  have hy : c.y1 = c.y0 ∧ c.y2 = c.y0 := by
    clear a1 a2 a3
    rcases hg with rfl | rfl <;> rcases hf with rfl | rfl <;> simp only [Curve.split] at b2 b3 <;> constructor <;> linarith
  exact ⟨⟨hx.1, hx.2, a1⟩, hy.1, hy.2, b1⟩

theorem small_halved {c g : Curve ℝ} {eps : ℝ} (heps : 0 < eps) (h : Small c eps) (hg : Halved c g) : Small g eps := by
  have : Small c (2 * eps) := ⟨by linarith [h.1], by linarith [h.2.1], by linarith [h.2.2]⟩
  rcases hg with rfl | rfl
  · exact (small_split this).1
  · exact (small_split this).2

theorem settles_succ {eps : ℝ} {k : ℕ} {c : Curve ℝ} (h : ∀ g, Halved c g → Flat g eps ∨ Settles eps k g) : Settles eps (k + 1) c :=
  ⟨h _ (.inl rfl), h _ (.inr rfl)⟩

theorem settles_small {c : Curve ℝ} {eps : ℝ} (heps : 0 < eps) (h : Small c eps) (hc : ¬ Point c) : Settles eps 3 c := by
  refine settles_succ fun a ha => ?_
  have hpa : ¬ Point a := fun hp => hc (by rcases ha with rfl | rfl; exacts [point_left hp, point_right hp])
  have sa := small_halved heps h ha
  refine (small_flat sa).imp_right fun za => settles_succ fun g hg => ?_
  have sg := small_halved heps sa hg
  refine (small_flat sg).imp_right fun zg => settles_succ fun f hf => ?_
  rcases small_flat (small_halved heps sg hf) with hh | zf
  · exact .inl hh
  · exact (hpa (shut_point hg hf za zg zf)).elim

/-- **C139.** Every curve is replaced by lines after a number of halvings, unless it is just a point. -/
theorem settles (c : Curve ℝ) (eps : ℝ) (heps : 0 < eps) (hc : ¬ Point c) : ∃ k, Settles eps k c := by
  have main : ∀ (j : ℕ) (c : Curve ℝ), ¬ Point c → Small c (2 ^ j * eps) → ∃ k, Settles eps k c := by
    intro j
    induction j with
    | zero => intro c hc h; exact ⟨3, settles_small heps (by simpa using h) hc⟩
    | succ j ih =>
      intro c hc h
      obtain ⟨h1, h2⟩ := small_split (c := c) (e := 2 ^ j * eps) (by rw [← mul_assoc, ← pow_succ']; exact h)
      obtain ⟨k1, s1⟩ := ih _ (fun hp => hc (point_left hp)) h1
      obtain ⟨k2, s2⟩ := ih _ (fun hp => hc (point_right hp)) h2
      exact ⟨max k1 k2 + 1, .inr (settles_mono (le_max_left _ _) s1), .inr (settles_mono (le_max_right _ _) s2)⟩
  obtain ⟨j, hj⟩ := pow_unbounded_of_one_lt (c.polygon / eps) (by norm_num : (1 : ℝ) < 2)
  rw [div_lt_iff₀ heps, ← edges_polygon] at hj
  obtain ⟨e1, e2, e3⟩ := edges_nonneg c
  exact main j c hc ⟨by linarith, by linarith, by linarith⟩

/-- A number of halvings for a piece. -/
def Depth (eps : ℝ) : Piece → ℕ → Prop
  | .straight _ _, _ => True
  | .curve c, k => Settles eps k c

/-- One more call for a line in front. -/
def more : Piece → ℕ
  | .straight _ _ => 1
  | .curve _ => 0

theorem more_le (p : Piece) : more p ≤ 1 := by cases p <;> simp [more]

theorem subparam_ok {h : Curve ℝ} {eps : ℝ} (heps : 0 < eps) (p : ℝ) : ∃ s, subparam (half h eps) p = .ok s := by
  by_cases hf : Flat h eps
  · rw [half_flat hf]
    change ∃ s, lineSub h p = .ok s
    unfold lineSub
    by_cases hp : 0 ≤ p ∧ p ≤ 1
    · have hP : 0 < h.polygon := lt_of_lt_of_le (flat_chord heps hf) (chord_le_polygon h)
      obtain ⟨r, rs, e⟩ := quartic_free h p hP hp.1 hp.2
      rw [if_pos hp, e]
      exact ⟨_, rfl⟩
    · rw [if_neg hp]
      exact ⟨_, rfl⟩
  · rw [half_not hf]
    exact ⟨_, rfl⟩

theorem backs_ok {h : Curve ℝ} {eps : ℝ} (heps : 0 < eps) (off : ℝ) (rs : List (ℝ × ℝ)) :
    ∃ l, backs off (half h eps) rs = .ok l := by
  induction rs with
  | nil => exact ⟨[], rfl⟩
  | cons r rs ih =>
    obtain ⟨s, hs⟩ := subparam_ok (h := h) heps r.2
    obtain ⟨l, hl⟩ := ih
    exact ⟨(off + s, r.1) :: l, by rw [backs, hs, hl]; rfl⟩

theorem depth_half {h : Curve ℝ} {eps : ℝ} {k : ℕ} (hh : Flat h eps ∨ Settles eps k h) : Depth eps (half h eps) k := by
  by_cases hf : Flat h eps
  · rw [half_flat hf]; trivial
  · rw [half_not hf]; exact hh.resolve_left hf

theorem cross_ok (n : ℕ) (p q : Piece) (eps : ℝ) (heps : 0 < eps) (j k : ℕ) (hp : Depth eps p j) (hq : Depth eps q k)
    (hn : 2 * (j + k) + 1 + more p ≤ n) : ∃ L, cross n p q eps = .ok L := by
  induction n generalizing p q j k with
  | zero => omega
  | succ n ih =>
    match p, q, hp, hq, hn with
    | .curve c, o, hp, hq, hn =>
      match j, hp with
      | j + 1, hp =>
        have := more_le o
        rw [cross]
        by_cases hb : BBox.intersects (BBox.enlarged c.cbox eps none none none none) o.cbox = false
        · exact ⟨[], if_pos hb⟩
        rw [if_neg hb]
        obtain ⟨ra, h1⟩ := ih o _ k j hq (depth_half hp.1) (by omega)
        obtain ⟨la, h2⟩ := backs_ok (h := (c.split (1 / 2)).1) heps 0 ra
        obtain ⟨rb, h3⟩ := ih o _ k j hq (depth_half hp.2) (by omega)
        obtain ⟨lb, h4⟩ := backs_ok (h := (c.split (1 / 2)).2) heps (1 / 2) rb
        rw [h1]
        change ∃ L, (Except.bind (backs 0 _ ra) _) = .ok L
        rw [h2]
        change ∃ L, (Except.bind (cross n o _ eps) _) = .ok L
        rw [h3]
        change ∃ L, (Except.map _ (backs (1 / 2) _ rb)) = .ok L
        rw [h4]
        exact ⟨_, rfl⟩
    | .straight l b, .curve d, hp, hq, hn =>
      rw [cross]
      obtain ⟨r, hr⟩ := ih (.curve d) (.straight l b) k j hq hp (by simp only [more] at hn ⊢; omega)
      rw [hr]
      exact ⟨_, rfl⟩
    | .straight l b, .straight l' b', _, _, _ => exact ⟨_, rfl⟩

/-- The result does not depend on the bound of the depth. -/
theorem cross_mono (n : ℕ) (p q : Piece) (eps : ℝ) (L : List (ℝ × ℝ)) (h : cross n p q eps = .ok L) :
    cross (n + 1) p q eps = .ok L := by
  induction n generalizing p q L with
  | zero => simp [cross] at h
  | succ n ih =>
    match p, q, h with
    | .curve c, o, h =>
      rw [cross]
      rcases cross_curve h with ⟨hb, rfl⟩ | ⟨ra, la, rb, lb, h1, h2, h3, h4, rfl⟩
      · rw [if_pos hb]
      · by_cases hb : BBox.intersects (BBox.enlarged c.cbox eps none none none none) o.cbox = false
        · rw [cross, if_pos hb] at h
          rw [if_pos hb]
          exact h
        · rw [if_neg hb, ih _ _ _ h1, ih _ _ _ h3]
          change Except.bind (backs 0 _ ra) _ = _
          rw [h2]
          change Except.map _ (backs (1 / 2) _ rb) = _
          rw [h4]
          rfl
    | .straight l b, .curve d, h =>
      rw [cross] at h
      obtain ⟨r', h', rfl⟩ := map_ok h
      rw [cross, ih _ _ _ h']
      rfl
    | .straight l b, .straight l' b', h => exact h

/-- What a normsubpath consists of: lines, and curves which are not just a point. -/
def Proper : Piece → Prop
  | .straight _ _ => True
  | .curve c => ¬ Point c

/-- **C139 (end of the recursion).** The intersection of two items always ends, without an exception. -/
theorem cross_total (p q : Piece) (eps : ℝ) (heps : 0 < eps) (hp : Proper p) (hq : Proper q) :
    ∃ L N, ∀ n, N ≤ n → cross n p q eps = .ok L := by
  have depth : ∀ p, Proper p → ∃ k, Depth eps p k := by
    intro p hp
    match p, hp with
    | .straight _ _, _ => exact ⟨0, trivial⟩
    | .curve c, hp => exact settles c eps heps hp
  obtain ⟨j, hj⟩ := depth p hp
  obtain ⟨k, hk⟩ := depth q hq
  obtain ⟨L, hL⟩ := cross_ok (2 * (j + k) + 1 + more p) p q eps heps j k hj hk le_rfl
  refine ⟨L, 2 * (j + k) + 1 + more p, fun n hn => ?_⟩
  induction n, hn using Nat.le_induction with
  | base => exact hL
  | succ n _ ih => exact cross_mono n p q eps L ih

/-- **C139.** For a curve which is just a point the recursion does not end when its box meets that of the line: each half
is the same curve again. -/
theorem point_endless (c : Curve ℝ) (l : Line ℝ) (b : Option (Curve ℝ)) (eps : ℝ) (heps : 0 < eps) (hc : Point c)
    (hb : BBox.intersects (BBox.enlarged c.cbox eps none none none none) l.bbox = true) (n : ℕ) :
    cross n (.curve c) (.straight l b) eps = .error .deep ∧ cross n (.straight l b) (.curve c) eps = .error .deep := by
  have hs : (c.split (1 / 2)).1 = c := by
    obtain ⟨⟨a1, a2, a3⟩, b1, b2, b3⟩ := hc
    cases c
    simp only at a1 a2 a3 b1 b2 b3
    subst a1 a2 a3 b1 b2 b3
    simp only [Curve.split]
    norm_num
    refine ⟨?_, ?_, ?_, ?_, ?_, ?_⟩ <;> ring
  have hf : ¬ Flat c eps := by
    intro hf
    have := flat_chord heps hf
    rw [chord_shut ⟨hc.1.2.2, hc.2.2.2⟩] at this
    exact lt_irrefl _ this
  induction n with
  | zero => exact ⟨rfl, rfl⟩
  | succ n ih =>
    constructor
    · rw [cross, hs, half_not hf]
      rw [if_neg (by change ¬ (BBox.intersects _ l.bbox = false); rw [hb]; simp), ih.2]
      rfl
    · rw [cross, ih.1]
      rfl

/-! ## A curve which changes the side of a line -/

/-- On which side of a line a point is (zero for points on the line). -/
def side (l : Line ℝ) (x y : ℝ) : ℝ := (x - l.x0) * (l.y1 - l.y0) - (y - l.y0) * (l.x1 - l.x0)
/-- Where along a line a point is: between 0 and the square of its length when it is beside the line. -/
def beside (l : Line ℝ) (x y : ℝ) : ℝ := (x - l.x0) * (l.x1 - l.x0) + (y - l.y0) * (l.y1 - l.y0)
/-- The square of the length of a line. -/
def len2 (l : Line ℝ) : ℝ := (l.x1 - l.x0) ^ 2 + (l.y1 - l.y0) ^ 2

/-- All control points are beside the line. -/
def Along (l : Line ℝ) (c : Curve ℝ) : Prop :=
  (0 ≤ beside l c.x0 c.y0 ∧ beside l c.x0 c.y0 ≤ len2 l) ∧ (0 ≤ beside l c.x1 c.y1 ∧ beside l c.x1 c.y1 ≤ len2 l) ∧
  (0 ≤ beside l c.x2 c.y2 ∧ beside l c.x2 c.y2 ≤ len2 l) ∧ (0 ≤ beside l c.x3 c.y3 ∧ beside l c.x3 c.y3 ≤ len2 l)

theorem beside_mid (l : Line ℝ) (a b c d : ℝ) :
    beside l ((1 - 1 / 2) * a + 1 / 2 * c) ((1 - 1 / 2) * b + 1 / 2 * d) = 1 / 2 * beside l a b + 1 / 2 * beside l c d := by
  unfold beside; ring

theorem along_split {l : Line ℝ} {c : Curve ℝ} (h : Along l c) : Along l (c.split (1 / 2)).1 ∧ Along l (c.split (1 / 2)).2 := by
  obtain ⟨⟨a1, a2⟩, ⟨a3, a4⟩, ⟨a5, a6⟩, a7, a8⟩ := h
  refine ⟨⟨⟨?_, ?_⟩, ⟨?_, ?_⟩, ⟨?_, ?_⟩, ?_, ?_⟩, ⟨?_, ?_⟩, ⟨?_, ?_⟩, ⟨?_, ?_⟩, ?_, ?_⟩ <;>
    simp only [Curve.split, beside_mid] <;> linarith

theorem leaf_side (l : Line ℝ) (eps e : ℝ) (k : ℕ) (c : Curve ℝ) (hk : Settles eps k c) (ha : Along l c)
    (h0 : e * side l c.x0 c.y0 ≤ 0) (h1 : 0 ≤ e * side l c.x3 c.y3) :
    ∃ x, Leaf eps c x ∧ Along l x ∧ e * side l x.x0 x.y0 ≤ 0 ∧ 0 ≤ e * side l x.x3 x.y3 := by
  induction k generalizing c with
  | zero => exact hk.elim
  | succ k ih =>
    obtain ⟨aL, aR⟩ := along_split ha
    by_cases hm : 0 ≤ e * side l (c.split (1 / 2)).1.x3 (c.split (1 / 2)).1.y3
    · by_cases hf : Flat (c.split (1 / 2)).1 eps
      · exact ⟨_, .left c hf, aL, h0, hm⟩
      · obtain ⟨x, hx, hr⟩ := ih _ (hk.1.resolve_left hf) aL h0 hm
        exact ⟨x, .leftward c x hf hx, hr⟩
    · push Not at hm
      by_cases hf : Flat (c.split (1 / 2)).2 eps
      · exact ⟨_, .right c hf, aR, hm.le, h1⟩
      · obtain ⟨x, hx, hr⟩ := ih _ (hk.2.resolve_left hf) aR hm.le h1
        exact ⟨x, .rightward c x hf hx, hr⟩

/-- **C139 (change of the side).** When a curve beside a line begins and ends at different sides of it, an intersection
is found. -/
theorem sides_found_partial (n : ℕ) (c : Curve ℝ) (l : Line ℝ) (b : Option (Curve ℝ)) (eps : ℝ) (heps : 0 < eps)
    (hc : ¬ Point c) (hl : 0 < len2 l) (ha : Along l c) (hs : side l c.x0 c.y0 * side l c.x3 c.y3 < 0)
    (hf : Fair eps (.curve c) (.straight l b)) (L : List (ℝ × ℝ)) (h : cross n (.curve c) (.straight l b) eps = .ok L) : L ≠ [] := by
  obtain ⟨k, hk⟩ := settles c eps heps hc
  obtain ⟨e, he0, h0, h1⟩ : ∃ e : ℝ, e ≠ 0 ∧ e * side l c.x0 c.y0 ≤ 0 ∧ 0 ≤ e * side l c.x3 c.y3 := by
    rcases mul_neg_iff.mp hs with ⟨p, q⟩ | ⟨p, q⟩
    · exact ⟨-1, by norm_num, by linarith, by linarith⟩
    · exact ⟨1, by norm_num, by linarith, by linarith⟩
  obtain ⟨x, hx, ⟨⟨a1, a2⟩, -, -, a7, a8⟩, s0, s1⟩ := leaf_side l eps e k c hk ha h0 h1
  -- the parameter on the chord
  obtain ⟨s, hs0, hs1, hss⟩ : ∃ s, 0 ≤ s ∧ s ≤ 1 ∧ (1 - s) * side l x.x0 x.y0 + s * side l x.x3 x.y3 = 0 := by
    by_cases hd : e * side l x.x3 x.y3 - e * side l x.x0 x.y0 = 0
    · have z0 : e * side l x.x0 x.y0 = 0 := by linarith
      have z0' : side l x.x0 x.y0 = 0 := (mul_eq_zero.mp z0).resolve_left he0
      exact ⟨0, le_rfl, by norm_num, by rw [z0']; ring⟩
    · have hpos : 0 < e * side l x.x3 x.y3 - e * side l x.x0 x.y0 := lt_of_le_of_ne (by linarith) (Ne.symm hd)
      refine ⟨(-(e * side l x.x0 x.y0)) / (e * side l x.x3 x.y3 - e * side l x.x0 x.y0), div_nonneg (by linarith) hpos.le,
        (div_le_one hpos).mpr (by linarith), ?_⟩
      have hne : side l x.x3 x.y3 - side l x.x0 x.y0 ≠ 0 := fun z => hd (by rw [← mul_sub, z, mul_zero])
      rw [← mul_sub, ← mul_neg, mul_div_mul_left _ _ he0]
      field_simp
      ring
  have eq : (chordLine x).at_ s = l.at_ (((1 - s) * beside l x.x0 x.y0 + s * beside l x.x3 x.y3) / len2 l) := by
    unfold side at hss
    ext
    · simp only [Line.at_, chordLine]
      field_simp
      unfold beside len2
      linear_combination (l.y1 - l.y0) * hss
    · simp only [Line.at_, chordLine]
      field_simp
      unfold beside len2
      linear_combination (-(l.x1 - l.x0)) * hss
  have hs' : 0 ≤ 1 - s := by linarith
  refine cross_nonempty_partial n _ _ eps heps hf L h (chordLine x) l ⟨x, hx, rfl⟩ rfl s _ ⟨hs0, hs1⟩ ⟨?_, ?_⟩ eq
  · apply div_nonneg _ hl.le
    nlinarith [mul_nonneg hs' a1, mul_nonneg hs0 a7]
  · rw [div_le_one hl]
    nlinarith [mul_le_mul_of_nonneg_left a2 hs', mul_le_mul_of_nonneg_left a8 hs0]

end PyX.NormPath.Cross
