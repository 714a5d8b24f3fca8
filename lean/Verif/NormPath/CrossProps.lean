import Verif.NormPath.Cross

/-!
# Intersections of curves: properties (C139)
-/

set_option linter.unusedSectionVars false

namespace PyX.NormPath.Cross

open PyX.NormPath.ByLength

/-! ## Specification -/

/-- The lines by which a piece is represented. -/
def Ends (eps : ℝ) : Piece → Line ℝ → Prop
  | .straight l _, m => m = l
  | .curve c, m => ∃ x, Leaf eps c x ∧ m = chordLine x

/-- `s` is a parameter of the line `l` where it meets the line `m`. -/
def Hit (eps : ℝ) (l m : Line ℝ) (s : ℝ) : Prop := (∃ t, (s, t) ∈ l.intersect m eps) ∨ ∃ t, (t, s) ∈ m.intersect l eps

/-- The cubic equations which relate the line parameters of the first piece to its curve parameters are solved
correctly where lines meet. -/
def Solved (eps : ℝ) (p q : Piece) : Prop :=
  match p with
  | .straight _ _ => True
  | .curve c => ∀ x, Leaf eps c x → ∀ m, Ends eps q m → ∀ s, Hit eps (chordLine x) m s → ¬ Wrong x s

/-- The misprint for short lines (`normpath.py:228`) does not matter. -/
def Fair (eps : ℝ) (p q : Piece) : Prop := ∀ l m, Ends eps p l → Ends eps q m → Regular l m eps ∧ Regular m l eps

/-- The error which is due to the replacement of a curve by lines, in units of epsilon. -/
def slack : Piece → ℝ
  | .straight _ _ => 0
  | .curve _ => 7

/-! ## Halves -/

theorem half_flat {h : Curve ℝ} {eps : ℝ} (hf : Flat h eps) : half h eps = .straight (chordLine h) (some h) := if_pos hf
theorem half_not {h : Curve ℝ} {eps : ℝ} (hf : ¬ Flat h eps) : half h eps = .curve h := if_neg hf

theorem flat_chord {c : Curve ℝ} {eps : ℝ} (heps : 0 < eps) (hf : Flat c eps) : 0 < c.chord := by
  have h1 := hf.1.1
  have h2 := abs_nonneg (d1 c)
  by_contra hc
  have h0 : c.chord ≤ 0 := not_lt.mp hc
  nlinarith

theorem ends_left {c : Curve ℝ} {eps : ℝ} {m : Line ℝ} (h : Ends eps (half (c.split (1 / 2)).1 eps) m) :
    Ends eps (.curve c) m := by
  by_cases hf : Flat (c.split (1 / 2)).1 eps
  · rw [half_flat hf] at h
    exact ⟨_, .left c hf, h⟩
  · rw [half_not hf] at h
    obtain ⟨x, hx, hm⟩ := h
    exact ⟨x, .leftward c x hf hx, hm⟩

theorem ends_right {c : Curve ℝ} {eps : ℝ} {m : Line ℝ} (h : Ends eps (half (c.split (1 / 2)).2 eps) m) :
    Ends eps (.curve c) m := by
  by_cases hf : Flat (c.split (1 / 2)).2 eps
  · rw [half_flat hf] at h
    exact ⟨_, .right c hf, h⟩
  · rw [half_not hf] at h
    obtain ⟨x, hx, hm⟩ := h
    exact ⟨x, .rightward c x hf hx, hm⟩

theorem ends_curve {c : Curve ℝ} {eps : ℝ} {m : Line ℝ} (h : Ends eps (.curve c) m) :
    Ends eps (half (c.split (1 / 2)).1 eps) m ∨ Ends eps (half (c.split (1 / 2)).2 eps) m := by
  obtain ⟨x, hx, hm⟩ := h
  cases hx with
  | left _ hf => left; rw [half_flat hf]; exact hm
  | right _ hf => right; rw [half_flat hf]; exact hm
  | leftward _ _ hf hx => left; rw [half_not hf]; exact ⟨x, hx, hm⟩
  | rightward _ _ hf hx => right; rw [half_not hf]; exact ⟨x, hx, hm⟩

theorem solved_left {c : Curve ℝ} {eps : ℝ} {q : Piece} (h : Solved eps (.curve c) q) :
    Solved eps (half (c.split (1 / 2)).1 eps) q := by
  by_cases hf : Flat (c.split (1 / 2)).1 eps
  · rw [half_flat hf]; trivial
  · rw [half_not hf]; exact fun x hx => h x (.leftward c x hf hx)

theorem solved_right {c : Curve ℝ} {eps : ℝ} {q : Piece} (h : Solved eps (.curve c) q) :
    Solved eps (half (c.split (1 / 2)).2 eps) q := by
  by_cases hf : Flat (c.split (1 / 2)).2 eps
  · rw [half_flat hf]; trivial
  · rw [half_not hf]; exact fun x hx => h x (.rightward c x hf hx)

theorem solved_ends {eps : ℝ} {p q q' : Piece} (h : Solved eps p q) (he : ∀ m, Ends eps q' m → Ends eps q m) : Solved eps p q' := by
  match p, h with
  | .straight _ _, _ => trivial
  | .curve c, h => exact fun x hx m hm => h x hx m (he m hm)

/-- The parameter of a half, as parameter of the curve, gives the same point up to the error of the replacement. -/
theorem half_back (h : Curve ℝ) (eps p : ℝ) (heps : 0 < eps) (hp : 0 ≤ p ∧ p ≤ 1)
    (hw : Flat h eps → ¬ Wrong h p) (s : ℝ) (hs : subparam (half h eps) p = .ok s) :
    (0 ≤ s ∧ s ≤ 1 / 2) ∧
    dist2 ((Item.curve h).point (2 * s)) (pos (half h eps) p) ≤ (7 - slack (half h eps)) * eps := by
  by_cases hf : Flat h eps
  · rw [half_flat hf] at hs ⊢
    have hP : 0 < h.polygon := lt_of_lt_of_le (flat_chord heps hf) (chord_le_polygon h)
    obtain ⟨t, ht, h0, h1, hb⟩ := lineSub_root h p hp.1 hp.2 hP (hw hf)
    change lineSub h p = .ok s at hs
    rw [ht] at hs
    injection hs with hs
    subst hs
    refine ⟨⟨by linarith, by linarith⟩, ?_⟩
    have := flat_close h eps t p heps hf h0 h1 hp.1 hp.2 hb
    rw [show 2 * (1 / 2 * t) = t by ring]
    simpa [slack, pos] using this
  · rw [half_not hf] at hs ⊢
    change Except.ok (1 / 2 * p) = Except.ok s at hs
    injection hs with hs
    subst hs
    refine ⟨⟨by linarith [hp.1], by linarith [hp.2]⟩, ?_⟩
    rw [show 2 * (1 / 2 * p) = p by ring]
    change dist2 ((Item.curve h).point p) ((Item.curve h).point p) ≤ _
    rw [dist2_self]
    simp [slack]

theorem pos_left (c : Curve ℝ) (s : ℝ) : (Item.curve (c.split (1 / 2)).1).point (2 * s) = pos (.curve c) (0 + s) := by
  have := (split_traces c (1 / 2)).1 (2 * s)
  rw [this]
  change _ = (Item.curve c).point (0 + s)
  congr 1
  ring

theorem pos_right (c : Curve ℝ) (s : ℝ) :
    (Item.curve (c.split (1 / 2)).2).point (2 * s) = pos (.curve c) (1 / 2 + s) := by
  have := (split_traces c (1 / 2)).2.1 (2 * s)
  rw [this]
  change _ = (Item.curve c).point (1 / 2 + s)
  congr 1
  ring

theorem backs_mem {off : ℝ} {p : Piece} {rs l : List (ℝ × ℝ)} (h : backs off p rs = .ok l) {r : ℝ × ℝ} (hr : r ∈ l) :
    ∃ s a, (r.2, a) ∈ rs ∧ subparam p a = .ok s ∧ r.1 = off + s := by
  induction rs generalizing l with
  | nil =>
    simp only [backs, Except.ok.injEq] at h
    subst h
    simp at hr
  | cons x xs ih =>
    rw [backs] at h
    obtain ⟨t, ht, h⟩ := bind_ok h
    obtain ⟨l', hl', rfl⟩ := map_ok h
    rcases List.mem_cons.mp hr with rfl | hr
    · exact ⟨t, x.2, by simp, ht, rfl⟩
    · obtain ⟨s, a, hm, hs⟩ := ih hl' hr
      exact ⟨s, a, List.mem_cons_of_mem _ hm, hs⟩

theorem backs_of_mem {off : ℝ} {p : Piece} {rs l : List (ℝ × ℝ)} (h : backs off p rs = .ok l) {r : ℝ × ℝ} (hr : r ∈ rs) :
    ∃ s, subparam p r.2 = .ok s ∧ (off + s, r.1) ∈ l := by
  induction rs generalizing l with
  | nil => simp at hr
  | cons x xs ih =>
    rw [backs] at h
    obtain ⟨t, ht, h⟩ := bind_ok h
    obtain ⟨l', hl', rfl⟩ := map_ok h
    rcases List.mem_cons.mp hr with rfl | hr
    · exact ⟨t, ht, by simp⟩
    · obtain ⟨s, hs, hm⟩ := ih hl' hr
      exact ⟨s, hs, List.mem_cons_of_mem _ hm⟩

theorem cross_curve {n : ℕ} {c : Curve ℝ} {o : Piece} {eps : ℝ} {L : List (ℝ × ℝ)} (h : cross (n + 1) (.curve c) o eps = .ok L) :
    (BBox.intersects (BBox.enlarged c.cbox eps none none none none) o.cbox = false ∧ L = []) ∨
    ∃ ra la rb lb, cross n o (half (c.split (1 / 2)).1 eps) eps = .ok ra ∧
      backs 0 (half (c.split (1 / 2)).1 eps) ra = .ok la ∧
      cross n o (half (c.split (1 / 2)).2 eps) eps = .ok rb ∧
      backs (1 / 2) (half (c.split (1 / 2)).2 eps) rb = .ok lb ∧ L = la ++ lb := by
  rw [cross] at h
  by_cases hb : BBox.intersects (BBox.enlarged c.cbox eps none none none none) o.cbox = false
  · rw [if_pos hb] at h
    injection h with h
    exact .inl ⟨hb, h.symm⟩
  · rw [if_neg hb] at h
    obtain ⟨ra, h1, h⟩ := bind_ok h
    obtain ⟨la, h2, h⟩ := bind_ok h
    obtain ⟨rb, h3, h⟩ := bind_ok h
    obtain ⟨lb, h4, h⟩ := map_ok h
    exact .inr ⟨ra, la, rb, lb, h1, h2, h3, h4, h.symm⟩

/-! ## Soundness -/

/-- The parameters of a line in the results are those of the intersections of lines. -/
theorem from_lines (n : ℕ) (p q : Piece) (eps : ℝ) (L : List (ℝ × ℝ)) (h : cross n p q eps = .ok L) (r : ℝ × ℝ) (hr : r ∈ L) :
    (∀ l b, p = .straight l b → ∃ m, Ends eps q m ∧ Hit eps l m r.1) ∧
    (∀ l b, q = .straight l b → ∃ m, Ends eps p m ∧ Hit eps l m r.2) := by
  induction n generalizing p q L r with
  | zero => simp [cross] at h
  | succ n ih =>
    match p, q, h with
    | .curve c, o, h =>
      refine ⟨fun _ _ e => by simp at e, ?_⟩
      intro l b e
      rcases cross_curve h with ⟨_, rfl⟩ | ⟨ra, la, rb, lb, h1, h2, h3, h4, rfl⟩
      · simp at hr
      rcases List.mem_append.mp hr with hr | hr
      · obtain ⟨s, a, hm, _, _⟩ := backs_mem h2 hr
        obtain ⟨m, i1, i2⟩ := (ih o _ ra h1 _ hm).1 l b e
        exact ⟨m, ends_left i1, i2⟩
      · obtain ⟨s, a, hm, _, _⟩ := backs_mem h4 hr
        obtain ⟨m, i1, i2⟩ := (ih o _ rb h3 _ hm).1 l b e
        exact ⟨m, ends_right i1, i2⟩
    | .straight l b, .curve d, h =>
      rw [cross] at h
      obtain ⟨r', h', rfl⟩ := map_ok h
      obtain ⟨x, hx, rfl⟩ := List.mem_map.mp hr
      exact (ih (.curve d) (.straight l b) r' h' x hx).symm
    | .straight l b, .straight l' b', h =>
      rw [cross] at h
      injection h with h
      subst h
      constructor
      · intro m c e
        injection e with e
        subst e
        exact ⟨l', rfl, .inl ⟨r.2, hr⟩⟩
      · intro m c e
        injection e with e
        subst e
        exact ⟨l, rfl, .inr ⟨r.1, hr⟩⟩

theorem leaf_left {n : ℕ} {c : Curve ℝ} {o : Piece} {eps : ℝ} (h : Solved eps (.curve c) o) {ra : List (ℝ × ℝ)}
    (h1 : cross n o (half (c.split (1 / 2)).1 eps) eps = .ok ra) {r : ℝ × ℝ} (hr : r ∈ ra) :
    Flat (c.split (1 / 2)).1 eps → ¬ Wrong (c.split (1 / 2)).1 r.2 := by
  intro hf
  obtain ⟨m, hm, hh⟩ := (from_lines n o _ eps ra h1 r hr).2 _ _ (half_flat hf)
  exact h _ (.left c hf) m hm _ hh

theorem leaf_right {n : ℕ} {c : Curve ℝ} {o : Piece} {eps : ℝ} (h : Solved eps (.curve c) o) {ra : List (ℝ × ℝ)}
    (h1 : cross n o (half (c.split (1 / 2)).2 eps) eps = .ok ra) {r : ℝ × ℝ} (hr : r ∈ ra) :
    Flat (c.split (1 / 2)).2 eps → ¬ Wrong (c.split (1 / 2)).2 r.2 := by
  intro hf
  obtain ⟨m, hm, hh⟩ := (from_lines n o _ eps ra h1 r hr).2 _ _ (half_flat hf)
  exact h _ (.right c hf) m hm _ hh

/-- **C139 (soundness).** The parameters are within [0, 1], and the points of the two items at the parameters are not
further apart than epsilon, and seven times epsilon more for each item which is a curve. -/
theorem cross_sound_partial (n : ℕ) (p q : Piece) (eps : ℝ) (heps : 0 < eps) (hf : Fair eps p q) (hp : Solved eps p q)
    (hq : Solved eps q p) (L : List (ℝ × ℝ)) (h : cross n p q eps = .ok L) (r : ℝ × ℝ) (hr : r ∈ L) :
    (0 ≤ r.1 ∧ r.1 ≤ 1) ∧ (0 ≤ r.2 ∧ r.2 ≤ 1) ∧ dist2 (pos p r.1) (pos q r.2) ≤ (1 + slack p + slack q) * eps := by
  induction n generalizing p q L r with
  | zero => simp [cross] at h
  | succ n ih =>
    match p, q, h with
    | .curve c, o, h =>
      rcases cross_curve h with ⟨_, rfl⟩ | ⟨ra, la, rb, lb, h1, h2, h3, h4, rfl⟩
      · simp at hr
      rcases List.mem_append.mp hr with hr | hr
      · obtain ⟨s, a, hm, hs, e⟩ := backs_mem h2 hr
        obtain ⟨i1, i2, i3⟩ := ih o (half (c.split (1 / 2)).1 eps)
          (fun l m hl hm => (hf m l (ends_left hm) hl).symm) (solved_ends hq fun _ => ends_left) (solved_left hp) ra h1 _ hm
        obtain ⟨b1, b2⟩ := half_back _ eps a heps i2 (leaf_left hp h1 hm) s hs
        rw [pos_left] at b2
        rw [e]
        refine ⟨⟨by linarith, by linarith⟩, i1, ?_⟩
        have := dist2_triangle (pos (.curve c) (0 + s)) (pos (half (c.split (1 / 2)).1 eps) a) (pos o r.2)
        rw [dist2_comm (pos (half (c.split (1 / 2)).1 eps) a)] at this
        simp only at i3
        change _ ≤ (1 + 7 + slack o) * eps
        nlinarith
      · obtain ⟨s, a, hm, hs, e⟩ := backs_mem h4 hr
        obtain ⟨i1, i2, i3⟩ := ih o (half (c.split (1 / 2)).2 eps)
          (fun l m hl hm => (hf m l (ends_right hm) hl).symm) (solved_ends hq fun _ => ends_right) (solved_right hp) rb h3 _ hm
        obtain ⟨b1, b2⟩ := half_back _ eps a heps i2 (leaf_right hp h3 hm) s hs
        rw [pos_right] at b2
        rw [e]
        refine ⟨⟨by linarith, by linarith⟩, i1, ?_⟩
        have := dist2_triangle (pos (.curve c) (1 / 2 + s)) (pos (half (c.split (1 / 2)).2 eps) a) (pos o r.2)
        rw [dist2_comm (pos (half (c.split (1 / 2)).2 eps) a)] at this
        simp only at i3
        change _ ≤ (1 + 7 + slack o) * eps
        nlinarith
    | .straight l b, .curve d, h =>
      rw [cross] at h
      obtain ⟨r', h', rfl⟩ := map_ok h
      obtain ⟨x, hx, rfl⟩ := List.mem_map.mp hr
      obtain ⟨i1, i2, i3⟩ := ih (.curve d) (.straight l b) (fun l m hl hm => (hf m l hm hl).symm) hq hp r' h' x hx
      refine ⟨i2, i1, ?_⟩
      rw [dist2_comm]
      simp only [Prod.fst_swap, Prod.snd_swap]
      linarith
    | .straight l b, .straight l' b', h =>
      rw [cross] at h
      injection h with h
      subst h
      obtain ⟨i1, i2, i3⟩ := intersect_sound_partial l l' eps heps (hf l l' rfl rfl).1 r hr
      refine ⟨i1, i2, ?_⟩
      simpa [slack, pos] using i3

/-! ## Completeness -/

/-- A point is in a box. -/
def InBox : BBox ℝ → ℝ × ℝ → Prop
  | some b, p => (b.llx ≤ p.1 ∧ p.1 ≤ b.urx) ∧ (b.lly ≤ p.2 ∧ p.2 ≤ b.ury)
  | none, _ => False

theorem boxes_meet (a b : BBox ℝ) (eps : ℝ) (heps : 0 < eps) (p : ℝ × ℝ) (ha : InBox a p) (hb : InBox b p) :
    BBox.intersects (BBox.enlarged a eps none none none none) b = true := by
  match a, b, ha, hb with
  | some a, some b, ha, hb =>
    obtain ⟨⟨a1, a2⟩, a3, a4⟩ := ha
    obtain ⟨⟨b1, b2⟩, b3, b4⟩ := hb
    simp only [BBox.enlarged, BBox.intersects, Option.getD_none]
    simp only [Bool.not_eq_true', Bool.or_eq_false_iff, decide_eq_false_iff_not, not_lt, gt_iff_lt]
    refine ⟨⟨⟨?_, ?_⟩, ?_⟩, ?_⟩ <;> linarith

/-- All control points are between two values. -/
def Between (c : Curve ℝ) (m M n N : ℝ) : Prop :=
  ((m ≤ c.x0 ∧ c.x0 ≤ M) ∧ (m ≤ c.x1 ∧ c.x1 ≤ M) ∧ (m ≤ c.x2 ∧ c.x2 ≤ M) ∧ (m ≤ c.x3 ∧ c.x3 ≤ M)) ∧
  ((n ≤ c.y0 ∧ c.y0 ≤ N) ∧ (n ≤ c.y1 ∧ c.y1 ≤ N) ∧ (n ≤ c.y2 ∧ c.y2 ≤ N) ∧ (n ≤ c.y3 ∧ c.y3 ≤ N))

theorem between_split {c : Curve ℝ} {m M n N : ℝ} (h : Between c m M n N) :
    Between (c.split (1 / 2)).1 m M n N ∧ Between (c.split (1 / 2)).2 m M n N := by
  obtain ⟨⟨⟨a1, a2⟩, ⟨a3, a4⟩, ⟨a5, a6⟩, a7, a8⟩, ⟨b1, b2⟩, ⟨b3, b4⟩, ⟨b5, b6⟩, b7, b8⟩ := h
  refine ⟨⟨⟨⟨?_, ?_⟩, ⟨?_, ?_⟩, ⟨?_, ?_⟩, ?_, ?_⟩, ⟨?_, ?_⟩, ⟨?_, ?_⟩, ⟨?_, ?_⟩, ?_, ?_⟩,
    ⟨⟨⟨?_, ?_⟩, ⟨?_, ?_⟩, ⟨?_, ?_⟩, ?_, ?_⟩, ⟨?_, ?_⟩, ⟨?_, ?_⟩, ⟨?_, ?_⟩, ?_, ?_⟩⟩ <;>
    simp only [Curve.split] <;> linarith

theorem between_leaf {eps : ℝ} {c x : Curve ℝ} (hx : Leaf eps c x) {m M n N : ℝ} (h : Between c m M n N) :
    Between x m M n N := by
  induction hx with
  | left c _ => exact (between_split h).1
  | right c _ => exact (between_split h).2
  | leftward c x _ _ ih => exact ih (between_split h).1
  | rightward c x _ _ ih => exact ih (between_split h).2

theorem segment_between {m M a b s : ℝ} (ha : m ≤ a ∧ a ≤ M) (hb : m ≤ b ∧ b ≤ M) (hs : 0 ≤ s ∧ s ≤ 1) :
    m ≤ a + (b - a) * s ∧ a + (b - a) * s ≤ M := by
  have e : a + (b - a) * s = (1 - s) * a + s * b := by ring
  have h1 : 0 ≤ 1 - s := by linarith [hs.2]
  rw [e]
  constructor <;> nlinarith [mul_le_mul_of_nonneg_left ha.1 h1, mul_le_mul_of_nonneg_left ha.2 h1,
    mul_le_mul_of_nonneg_left hb.1 hs.1, mul_le_mul_of_nonneg_left hb.2 hs.1]

/-- The lines which represent a piece are within the box of the piece. -/
theorem ends_box {eps : ℝ} {p : Piece} {l : Line ℝ} (h : Ends eps p l) {s : ℝ} (hs : 0 ≤ s ∧ s ≤ 1) :
    InBox p.cbox (l.at_ s) := by
  have key : ∀ (m M n N : ℝ), (m ≤ l.x0 ∧ l.x0 ≤ M) → (m ≤ l.x1 ∧ l.x1 ≤ M) → (n ≤ l.y0 ∧ l.y0 ≤ N) →
      (n ≤ l.y1 ∧ l.y1 ≤ N) → InBox (some ⟨m, n, M, N⟩) (l.at_ s) := by
    intro m M n N h1 h2 h3 h4
    have hx := segment_between h1 h2 hs
    have hy := segment_between h3 h4 hs
    have e1 : (l.at_ s).1 = l.x0 + (l.x1 - l.x0) * s := by simp only [Line.at_]
    have e2 : (l.at_ s).2 = l.y0 + (l.y1 - l.y0) * s := by simp only [Line.at_]
    change (m ≤ (l.at_ s).1 ∧ (l.at_ s).1 ≤ M) ∧ (n ≤ (l.at_ s).2 ∧ (l.at_ s).2 ≤ N)
    rw [e1, e2]
    exact ⟨hx, hy⟩
  match p, h with
  | .straight m b, h =>
    change l = m at h
    subst h
    exact key _ _ _ _ ⟨min_le_left _ _, le_max_left _ _⟩ ⟨min_le_right _ _, le_max_right _ _⟩
      ⟨min_le_left _ _, le_max_left _ _⟩ ⟨min_le_right _ _, le_max_right _ _⟩
  | .curve c, ⟨x, hx, e⟩ =>
    subst e
    have hb : Between c (min (min (min c.x0 c.x1) c.x2) c.x3) (max (max (max c.x0 c.x1) c.x2) c.x3)
        (min (min (min c.y0 c.y1) c.y2) c.y3) (max (max (max c.y0 c.y1) c.y2) c.y3) := by
      refine ⟨⟨⟨?_, ?_⟩, ⟨?_, ?_⟩, ⟨?_, ?_⟩, ?_, ?_⟩, ⟨?_, ?_⟩, ⟨?_, ?_⟩, ⟨?_, ?_⟩, ?_, ?_⟩ <;> simp
    obtain ⟨⟨a1, -, -, a4⟩, b1, -, -, b4⟩ := between_leaf hx hb
    exact key _ _ _ _ a1 a4 b1 b4

/-- **C139 (completeness).** Where two of the lines which represent the items cross, and are not almost parallel, there
is a result: its points on the items are within the error of the replacement at the point where the lines cross. -/
theorem cross_complete_partial (n : ℕ) (p q : Piece) (eps : ℝ) (heps : 0 < eps) (hp : Solved eps p q) (hq : Solved eps q p)
    (L : List (ℝ × ℝ)) (h : cross n p q eps = .ok L) (l m : Line ℝ) (hl : Ends eps p l) (hm : Ends eps q m)
    (hd : eps * eps ≤ |invdet l m|) (s t : ℝ) (hs : 0 ≤ s ∧ s ≤ 1) (ht : 0 ≤ t ∧ t ≤ 1) (hst : l.at_ s = m.at_ t) :
    ∃ r ∈ L, ((0 ≤ r.1 ∧ r.1 ≤ 1) ∧ (0 ≤ r.2 ∧ r.2 ≤ 1)) ∧ dist2 (pos p r.1) (l.at_ s) ≤ slack p * eps ∧
      dist2 (pos q r.2) (m.at_ t) ≤ slack q * eps := by
  induction n generalizing p q L l m s t with
  | zero => simp [cross] at h
  | succ n ih =>
    match p, q, h with
    | .curve c, o, h =>
      rcases cross_curve h with ⟨hb, _⟩ | ⟨ra, la, rb, lb, h1, h2, h3, h4, rfl⟩
      · have hbox := boxes_meet c.cbox o.cbox eps heps (l.at_ s) (ends_box hl hs) (by rw [hst]; exact ends_box hm ht)
        rw [hbox] at hb
        cases hb
      rw [← invdet_comm] at hd
      rcases ends_curve hl with hl' | hl'
      · obtain ⟨r, hr, ⟨k1, k2⟩, k3, k4⟩ := ih o _ (solved_ends hq fun _ => ends_left) (solved_left hp) ra h1 m l hm hl' hd t s ht hs hst.symm
        obtain ⟨u, hu, hmem⟩ := backs_of_mem h2 hr
        obtain ⟨b1, b2⟩ := half_back _ eps r.2 heps k2 (leaf_left hp h1 hr) u hu
        rw [pos_left] at b2
        refine ⟨_, List.mem_append_left _ hmem, ⟨⟨by simp only; linarith, by simp only; linarith⟩, k1⟩, ?_, k3⟩
        have := dist2_triangle (pos (.curve c) (0 + u)) (pos (half (c.split (1 / 2)).1 eps) r.2) (l.at_ s)
        change _ ≤ 7 * eps
        simp only
        linarith
      · obtain ⟨r, hr, ⟨k1, k2⟩, k3, k4⟩ := ih o _ (solved_ends hq fun _ => ends_right) (solved_right hp) rb h3 m l hm hl' hd t s ht hs hst.symm
        obtain ⟨u, hu, hmem⟩ := backs_of_mem h4 hr
        obtain ⟨b1, b2⟩ := half_back _ eps r.2 heps k2 (leaf_right hp h3 hr) u hu
        rw [pos_right] at b2
        refine ⟨_, List.mem_append_right _ hmem, ⟨⟨by simp only; linarith, by simp only; linarith⟩, k1⟩, ?_, k3⟩
        have := dist2_triangle (pos (.curve c) (1 / 2 + u)) (pos (half (c.split (1 / 2)).2 eps) r.2) (l.at_ s)
        change _ ≤ 7 * eps
        simp only
        linarith
    | .straight l' b, .curve d, h =>
      rw [cross] at h
      obtain ⟨r', h', rfl⟩ := map_ok h
      rw [← invdet_comm] at hd
      obtain ⟨r, hr, ⟨k1, k2⟩, k3, k4⟩ := ih (.curve d) (.straight l' b) hq hp r' h' m l hm hl hd t s ht hs hst.symm
      exact ⟨r.swap, List.mem_map_of_mem hr, ⟨k2, k1⟩, k4, k3⟩
    | .straight l' b, .straight m' b', h =>
      rw [cross] at h
      injection h with h
      subst h
      change l = l' at hl
      change m = m' at hm
      subst hl
      subst hm
      rw [intersect_complete l m eps heps hd s t hs ht hst]
      refine ⟨(s, t), by simp, ⟨hs, ht⟩, ?_, ?_⟩ <;> simp [slack, pos, dist2_self]

/-- **C139.** Something is found when two of the lines have a common point, also if they are almost parallel. -/
theorem cross_nonempty_partial (n : ℕ) (p q : Piece) (eps : ℝ) (heps : 0 < eps) (hf : Fair eps p q)
    (L : List (ℝ × ℝ)) (h : cross n p q eps = .ok L) (l m : Line ℝ) (hl : Ends eps p l) (hm : Ends eps q m)
    (s t : ℝ) (hs : 0 ≤ s ∧ s ≤ 1) (ht : 0 ≤ t ∧ t ≤ 1) (hst : l.at_ s = m.at_ t) : L ≠ [] := by
  induction n generalizing p q L l m s t with
  | zero => simp [cross] at h
  | succ n ih =>
    match p, q, h with
    | .curve c, o, h =>
      rcases cross_curve h with ⟨hb, _⟩ | ⟨ra, la, rb, lb, h1, h2, h3, h4, rfl⟩
      · have hbox := boxes_meet c.cbox o.cbox eps heps (l.at_ s) (ends_box hl hs) (by rw [hst]; exact ends_box hm ht)
        rw [hbox] at hb
        cases hb
      rcases ends_curve hl with hl' | hl'
      · obtain ⟨r, hr⟩ := List.exists_mem_of_ne_nil _ (ih o _ (fun l m hl hm => (hf m l (ends_left hm) hl).symm) ra h1 m l hm hl'
          t s ht hs hst.symm)
        obtain ⟨u, _, hmem⟩ := backs_of_mem h2 hr
        exact List.ne_nil_of_mem (List.mem_append_left _ hmem)
      · obtain ⟨r, hr⟩ := List.exists_mem_of_ne_nil _ (ih o _ (fun l m hl hm => (hf m l (ends_right hm) hl).symm) rb h3 m l hm hl'
          t s ht hs hst.symm)
        obtain ⟨u, _, hmem⟩ := backs_of_mem h4 hr
        exact List.ne_nil_of_mem (List.mem_append_right _ hmem)
    | .straight l' b, .curve d, h =>
      rw [cross] at h
      obtain ⟨r', h', rfl⟩ := map_ok h
      have := ih (.curve d) (.straight l' b) (fun l m hl hm => (hf m l hm hl).symm) r' h' m l hm hl t s ht hs hst.symm
      simpa using this
    | .straight l' b, .straight m' b', h =>
      rw [cross] at h
      injection h with h
      subst h
      change l = l' at hl
      change m = m' at hm
      subst hl
      subst hm
      exact intersect_nonempty_partial l m eps heps (hf l m rfl rfl).1 s t hs ht hst

end PyX.NormPath.Cross
