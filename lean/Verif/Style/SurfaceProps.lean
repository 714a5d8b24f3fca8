import Verif.Style.Surface
import Verif.Graph.ProjectorProps
import Mathlib.Tactic.NormNum
import Mathlib.Tactic.Positivity
import Mathlib.Tactic.FinCases

/-!
# C113: surfaces are drawn from the back to the front
-/

set_option linter.unusedSectionVars false

namespace PyX.Style.Surface

open PyX.Graph

/-! ## Specification -/

/-- Interior points of an element. -/
def Elem.Inner (e : Elem) (v : V3) : Prop :=
  ∃ a b c : ℝ, 0 < a ∧ 0 < b ∧ 0 < c ∧ a + b + c = 1 ∧ ∀ i, coord i v = a * coord i e.p + b * coord i e.q + c * coord i e.r

/-- Points of an element. -/
def Elem.Closed (e : Elem) (v : V3) : Prop :=
  ∃ a b c : ℝ, 0 ≤ a ∧ 0 ≤ b ∧ 0 ≤ c ∧ a + b + c = 1 ∧ ∀ i, coord i v = a * coord i e.p + b * coord i e.q + c * coord i e.r

/-- A point hides another: it has the same place in the picture and is nearer to the viewer. -/
def Hides (g : Graph3) (v w : V3) : Prop := (∃ P, g.vpos v = some P ∧ g.vpos w = some P) ∧ vzindex g v < vzindex g w

/-- A position within the graph. -/
def InBox (v : V3) : Prop := ∀ i, 0 ≤ coord i v ∧ coord i v ≤ 1

def scale (g : Graph3) (i : Fin 3) : ℝ := match i with
  | 0 => g.xscale
  | 1 => g.yscale
  | 2 => g.zscale

/-- The data are at the places of the grid, and those declared to be valid are within the graph. -/
def OnGrid (i1 i2 : Fin 3) (data : ℝ → ℝ → Option (Bool × V3)) : Prop := ∀ a b v, data a b = some (true, v) → coord i1 v = a ∧ coord i2 v = b ∧ InBox v

/-! ## Coordinates -/

theorem coord_of (f : Fin 3 → ℝ) (i : Fin 3) : coord i (ofCoords f) = f i := by fin_cases i <;> rfl

theorem coord_space (g : Graph3) (v : V3) (i : Fin 3) : coord i (g.space v) = 2 * scale g i * (coord i v - 1 / 2) := by fin_cases i <;> rfl

/-- The orientation of the values of a coordinate. -/
noncomputable def orient (g : Graph3) (i : Fin 3) : ℝ := open Classical in if Reversed g i then -1 else 1

theorem orient_cases (g : Graph3) (i : Fin 3) : (Reversed g i ∧ orient g i = -1) ∨ (¬ Reversed g i ∧ orient g i = 1) := by
  rw [orient]; by_cases h : Reversed g i
  · exact Or.inl ⟨h, if_pos h⟩
  · exact Or.inr ⟨h, if_neg h⟩

theorem sort_spec (l : List ℝ) (h : l.Nodup) : (l.mergeSort fun a b => decide (a ≤ b)).Pairwise (· < ·) := by
  have h1 := List.pairwise_mergeSort (le := fun a b : ℝ => decide (a ≤ b)) (fun a b c h1 h2 => by simp only [decide_eq_true_eq] at *; exact le_trans h1 h2)
    (fun a b => by simp only [Bool.or_eq_true, decide_eq_true_eq]; exact le_total a b) l
  have h2 : (l.mergeSort fun a b => decide (a ≤ b)).Nodup := (List.mergeSort_perm l _).nodup_iff.mpr h
  exact (h1.and h2).imp fun h => lt_of_le_of_ne (by simpa using h.1) h.2

theorem values_spec (g : Graph3) (i : Fin 3) (l : List ℝ) (h : l.Nodup) : (values g i l).Pairwise fun a b => orient g i * a < orient g i * b := by
  have hs := sort_spec l h
  rcases orient_cases g i with ⟨h1, h2⟩ | ⟨h1, h2⟩
  · rw [values, if_pos h1, h2, List.pairwise_reverse]
    exact hs.imp fun h => by linarith
  · rw [values, if_neg h1, h2]
    exact hs.imp fun h => by linarith

theorem pairs_spec (e : ℝ) (l : List ℝ) (h : l.Pairwise fun a b => e * a < e * b) :
    (pairs l).Pairwise (fun x y => e * x.2 ≤ e * y.1) ∧ ∀ x ∈ pairs l, x.1 ∈ l ∧ x.2 ∈ l ∧ e * x.1 < e * x.2 := by
  induction l with
  | nil => exact ⟨by simp [pairs], by simp [pairs]⟩
  | cons a l ih =>
    obtain ⟨h1, h2⟩ := List.pairwise_cons.mp h
    obtain ⟨i1, i2⟩ := ih h2
    cases l with
    | nil => exact ⟨by simp [pairs], by simp [pairs]⟩
    | cons b l =>
      have e' : pairs (a :: b :: l) = (a, b) :: pairs (b :: l) := rfl
      rw [e', List.pairwise_cons]
      refine ⟨⟨fun y hy => ?_, i1⟩, fun x hx => ?_⟩
      · rcases List.mem_cons.mp (i2 y hy).1 with hb | hb
        · rw [hb]
        · exact ((List.pairwise_cons.mp h2).1 _ hb).le
      · rcases List.mem_cons.mp hx with rfl | hx
        · exact ⟨by simp, by simp, h1 b (by simp)⟩
        · obtain ⟨m1, m2, m3⟩ := i2 x hx
          exact ⟨List.mem_cons_of_mem _ m1, List.mem_cons_of_mem _ m2, m3⟩

theorem cells_spec (e1 e2 : ℝ) (l1 l2 : List ℝ) (h1 : l1.Pairwise fun a b => e1 * a < e1 * b) (h2 : l2.Pairwise fun a b => e2 * a < e2 * b) :
    (cells l1 l2).Pairwise (fun c d => e1 * c.b1 ≤ e1 * d.a1 ∨ e2 * c.b2 ≤ e2 * d.a2) ∧ ∀ c ∈ cells l1 l2, e1 * c.a1 < e1 * c.b1 ∧ e2 * c.a2 < e2 * c.b2 := by
  obtain ⟨p1, q1⟩ := pairs_spec e1 l1 h1
  obtain ⟨p2, q2⟩ := pairs_spec e2 l2 h2
  constructor
  · rw [cells, List.pairwise_flatMap]
    refine ⟨fun x _ => ?_, p1.imp fun {x y} h c hc d hd => ?_⟩
    · rw [List.pairwise_map]
      exact p2.imp fun h => Or.inr h
    · obtain ⟨u, -, rfl⟩ := List.mem_map.mp hc
      obtain ⟨w, -, rfl⟩ := List.mem_map.mp hd
      exact Or.inl h
  · intro c hc
    obtain ⟨x, hx, hc⟩ := List.mem_flatMap.mp hc
    obtain ⟨y, hy, rfl⟩ := List.mem_map.mp hc
    exact ⟨(q1 x hx).2.2, (q2 y hy).2.2⟩

/-! ## Elements are within their cells -/

theorem corners_spec (data : ℝ → ℝ → Option (Bool × V3)) (c : Cell) (f : Corners) (h : corners data c = some f) :
    data c.a1 c.a2 = some (true, f.v1) ∧ data c.a1 c.b2 = some (true, f.v2) ∧ data c.b1 c.a2 = some (true, f.v3) ∧ data c.b1 c.b2 = some (true, f.v4) := by
  rw [corners] at h
  split at h
  · next h1 h2 h3 h4 =>
    obtain rfl := Option.some.inj h
    exact ⟨h1, h2, h3, h4⟩
  · cases h

/-- The two coordinates of the corners. -/
structure At (i1 i2 : Fin 3) (c : Cell) (s t : ℝ) (f : Corners) : Prop where
  x1 : coord i1 f.v1 = c.a1 + s * (c.b1 - c.a1)
  x2 : coord i1 f.v2 = c.a1 + s * (c.b1 - c.a1)
  x3 : coord i1 f.v3 = c.a1 + (1 - s) * (c.b1 - c.a1)
  x4 : coord i1 f.v4 = c.a1 + (1 - s) * (c.b1 - c.a1)
  y1 : coord i2 f.v1 = c.a2 + t * (c.b2 - c.a2)
  y2 : coord i2 f.v2 = c.a2 + (1 - t) * (c.b2 - c.a2)
  y3 : coord i2 f.v3 = c.a2 + t * (c.b2 - c.a2)
  y4 : coord i2 f.v4 = c.a2 + (1 - t) * (c.b2 - c.a2)

theorem at_shrunk (i1 i2 : Fin 3) (hne : i1 ≠ i2) (lines : ℝ × ℝ) (c : Cell) (f : Corners) (h : At i1 i2 c 0 0 f) : At i1 i2 c lines.2 lines.1 (shrunk i1 i2 lines f) := by
  obtain ⟨x1, x2, x3, x4, y1, y2, y3, y4⟩ := h
  have hn' : i2 ≠ i1 := hne.symm
  by_cases h1 : lines.1 = 0 <;> by_cases h2 : lines.2 = 0 <;> constructor <;> simp only [shrunk, h1, h2, ne_eq, not_true_eq_false, not_false_eq_true, if_true, if_false] <;>
    simp only [shrink, coord_of, hne, hn', ne_eq, not_true_eq_false, not_false_eq_true, if_true, if_false, x1, x2, x3, x4, y1, y2, y3, y4] <;> ring

theorem mid_at (i1 i2 : Fin 3) (c : Cell) (s t : ℝ) (f : Corners) (h : At i1 i2 c s t f) : coord i1 (mid f) = c.a1 + 1 / 2 * (c.b1 - c.a1) ∧ coord i2 (mid f) = c.a2 + 1 / 2 * (c.b2 - c.a2) := by
  obtain ⟨x1, x2, x3, x4, y1, y2, y3, y4⟩ := h
  constructor
  · rw [mid, coord_of, x1, x2, x3, x4]; ring
  · rw [mid, coord_of, y1, y2, y3, y4]; ring

/-- Three numbers between two ends, not all at the same end. -/
def Spans (a b x y z : ℝ) : Prop :=
  ∃ r s t : ℝ, 0 ≤ r ∧ r ≤ 1 ∧ 0 ≤ s ∧ s ≤ 1 ∧ 0 ≤ t ∧ t ≤ 1 ∧ 0 < r + s + t ∧ r + s + t < 3 ∧ x = a + r * (b - a) ∧ y = a + s * (b - a) ∧ z = a + t * (b - a)

theorem spans_mk (a b r s t : ℝ) (h1 : 0 ≤ r ∧ r ≤ 1) (h2 : 0 ≤ s ∧ s ≤ 1) (h3 : 0 ≤ t ∧ t ≤ 1) (h4 : 0 < r + s + t) (h5 : r + s + t < 3) :
    Spans a b (a + r * (b - a)) (a + s * (b - a)) (a + t * (b - a)) := ⟨r, s, t, h1.1, h1.2, h2.1, h2.2, h3.1, h3.2, h4, h5, rfl, rfl, rfl⟩

theorem face_spans (i1 i2 : Fin 3) (c : Cell) (s t : ℝ) (f : Corners) (h : At i1 i2 c s t f) (hs : 0 ≤ s) (hs' : s < 1 / 2) (ht : 0 ≤ t) (ht' : t < 1 / 2) (i : Fin 4) :
    Spans c.a1 c.b1 (coord i1 (face f i).1) (coord i1 (face f i).2.1) (coord i1 (face f i).2.2) ∧ Spans c.a2 c.b2 (coord i2 (face f i).1) (coord i2 (face f i).2.1) (coord i2 (face f i).2.2) := by
  obtain ⟨m1, m2⟩ := mid_at i1 i2 c s t f h
  obtain ⟨x1, x2, x3, x4, y1, y2, y3, y4⟩ := h
  fin_cases i <;> simp only [face, m1, m2, x1, x2, x3, x4, y1, y2, y3, y4] <;> constructor <;> apply spans_mk <;> first | constructor <;> linarith | linarith

theorem strip_spans (i1 i2 : Fin 3) (c : Cell) (lines : ℝ × ℝ) (f k : Corners) (h : At i1 i2 c 0 0 f) (h' : At i1 i2 c lines.2 lines.1 k)
    (hs : 0 ≤ lines.2) (hs' : lines.2 < 1 / 2) (ht : 0 ≤ lines.1) (ht' : lines.1 < 1 / 2) (i : Fin 4) (x : V3 × V3 × V3) (hx : x ∈ strips lines f k i) :
    Spans c.a1 c.b1 (coord i1 x.1) (coord i1 x.2.1) (coord i1 x.2.2) ∧ Spans c.a2 c.b2 (coord i2 x.1) (coord i2 x.2.1) (coord i2 x.2.2) := by
  obtain ⟨x1, x2, x3, x4, y1, y2, y3, y4⟩ := h
  obtain ⟨X1, X2, X3, X4, Y1, Y2, Y3, Y4⟩ := h'
  have key : ∀ b : Prop, ∀ inst : Decidable b, ∀ p q : V3 × V3 × V3, x ∈ (@ite _ b inst [p, q] []) → b ∧ (x = p ∨ x = q) := by
    intro b inst p q hm
    by_cases hb : b
    · rw [if_pos hb] at hm; exact ⟨hb, by simpa using hm⟩
    · rw [if_neg hb] at hm; simp at hm
  fin_cases i <;> simp only [strips] at hx <;> obtain ⟨hb, rfl | rfl⟩ := key _ _ _ _ hx <;>
    simp only [x1, x2, x3, x4, y1, y2, y3, y4, X1, X2, X3, X4, Y1, Y2, Y3, Y4] <;>
    first
    | (have hb' := lt_of_le_of_ne hs (Ne.symm hb); constructor <;> apply spans_mk <;> first | constructor <;> linarith | linarith)
    | (have hb' := lt_of_le_of_ne ht (Ne.symm hb); constructor <;> apply spans_mk <;> first | constructor <;> linarith | linarith)

theorem box_lerp (x y t : ℝ) (ht : 0 ≤ t) (ht' : t < 1 / 2) (hx : 0 ≤ x ∧ x ≤ 1) (hy : 0 ≤ y ∧ y ≤ 1) : 0 ≤ x + t * (y - x) ∧ x + t * (y - x) ≤ 1 := by
  constructor <;> nlinarith

def Corners.InBox (c : Corners) : Prop := Surface.InBox c.v1 ∧ Surface.InBox c.v2 ∧ Surface.InBox c.v3 ∧ Surface.InBox c.v4

theorem box_shrink (i : Fin 3) (v w : V3) (t : ℝ) (ht : 0 ≤ t) (ht' : t < 1 / 2) (hv : InBox v) (hw : InBox w) : InBox (shrink i v w t).1 ∧ InBox (shrink i v w t).2 := by
  constructor <;> intro k <;> rw [shrink, coord_of] <;> split
  · exact box_lerp _ _ _ ht ht' (hv k) (hw k)
  · exact hv k
  · exact box_lerp _ _ _ ht ht' (hw k) (hv k)
  · exact hw k

theorem box_shrunk (i1 i2 : Fin 3) (lines : ℝ × ℝ) (hs : 0 ≤ lines.2) (hs' : lines.2 < 1 / 2) (ht : 0 ≤ lines.1) (ht' : lines.1 < 1 / 2) (c : Corners) (h : c.InBox) :
    (shrunk i1 i2 lines c).InBox := by
  have h1 : ∀ c1 : Corners, c1.InBox → (if lines.2 ≠ 0 then
      (⟨(shrink i2 c1.v1 c1.v3 lines.2).1, (shrink i2 c1.v2 c1.v4 lines.2).1, (shrink i2 c1.v1 c1.v3 lines.2).2, (shrink i2 c1.v2 c1.v4 lines.2).2⟩ : Corners) else c1).InBox := by
    intro c1 h
    split
    · have a := box_shrink i2 _ _ _ hs hs' h.1 h.2.2.1
      have b := box_shrink i2 _ _ _ hs hs' h.2.1 h.2.2.2
      exact ⟨a.1, b.1, a.2, b.2⟩
    · exact h
  rw [shrunk]
  apply h1
  split
  · have a := box_shrink i1 _ _ _ ht ht' h.1 h.2.1
    have b := box_shrink i1 _ _ _ ht ht' h.2.2.1 h.2.2.2
    exact ⟨a.1, a.2, b.1, b.2⟩
  · exact h

theorem box_mid (c : Corners) (h : c.InBox) : InBox (mid c) := by
  intro i
  obtain ⟨h1, h2, h3, h4⟩ := h
  have := h1 i; have := h2 i; have := h3 i; have := h4 i
  rw [mid, coord_of]
  constructor <;> linarith

/-- What is known about an element of a cell. -/
theorem elem_spec (g : Graph3) (i1 i2 : Fin 3) (hne : i1 ≠ i2) (lines : ℝ × ℝ) (hs : 0 ≤ lines.2) (hs' : lines.2 < 1 / 2) (ht : 0 ≤ lines.1) (ht' : lines.1 < 1 / 2)
    (data : ℝ → ℝ → Option (Bool × V3)) (hd : OnGrid i1 i2 data) (c : Cell) (e : Elem) (he : e ∈ cellElements g i1 i2 lines data c) :
    e.cell = c ∧ Spans c.a1 c.b1 (coord i1 e.p) (coord i1 e.q) (coord i1 e.r) ∧ Spans c.a2 c.b2 (coord i2 e.p) (coord i2 e.q) (coord i2 e.r) ∧ InBox e.p ∧ InBox e.q ∧ InBox e.r := by
  rw [cellElements] at he
  cases hc : corners data c with
  | none => rw [hc] at he; cases he
  | some f =>
    rw [hc] at he
    simp only at he
    obtain ⟨k1, k2, k3, k4⟩ := corners_spec data c f hc
    have d1 := hd _ _ _ k1
    have d2 := hd _ _ _ k2
    have d3 := hd _ _ _ k3
    have d4 := hd _ _ _ k4
    have hat : At i1 i2 c 0 0 f := by
      constructor <;> [rw [d1.1]; rw [d2.1]; rw [d3.1]; rw [d4.1]; rw [d1.2.1]; rw [d2.2.1]; rw [d3.2.1]; rw [d4.2.1]] <;> ring
    have hbox : f.InBox := ⟨d1.2.2, d2.2.2, d3.2.2, d4.2.2⟩
    have hat' := at_shrunk i1 i2 hne lines c f hat
    have hbox' := box_shrunk i1 i2 lines hs hs' ht ht' f hbox
    have hmid := box_mid _ hbox'
    obtain ⟨i, -, he⟩ := List.mem_flatMap.mp he
    obtain ⟨x, hx, rfl⟩ := List.mem_map.mp he
    refine ⟨rfl, ?_⟩
    rcases List.mem_cons.mp hx with rfl | hx
    · have h1 := face_spans i1 i2 c _ _ _ hat' hs hs' ht ht' i
      refine ⟨h1.1, h1.2, ?_⟩
      fin_cases i <;> simp only [face] <;> simp only [hmid, hbox'.1, hbox'.2.1, hbox'.2.2.1, hbox'.2.2.2, and_self]
    · have h1 := strip_spans i1 i2 c lines f _ hat hat' hs hs' ht ht' i x hx
      refine ⟨h1.1, h1.2, ?_⟩
      have key : ∀ b : Prop, ∀ inst : Decidable b, ∀ p q : V3 × V3 × V3, x ∈ (@ite _ b inst [p, q] []) → (x = p ∨ x = q) := by
        intro b inst p q hm
        by_cases hb : b
        · rw [if_pos hb] at hm; simpa using hm
        · rw [if_neg hb] at hm; simp at hm
      fin_cases i <;> simp only [strips] at hx <;> obtain rfl | rfl := key _ _ _ _ hx <;>
        simp only [hbox.1, hbox.2.1, hbox.2.2.1, hbox.2.2.2, hbox'.1, hbox'.2.1, hbox'.2.2.1, hbox'.2.2.2, and_self]

theorem spans_inner (k a b x y z u v w : ℝ) (h : Spans a b x y z) (hk : k * a < k * b) (hu : 0 < u) (hv : 0 < v) (hw : 0 < w) (hs : u + v + w = 1) :
    k * a < k * (u * x + v * y + w * z) ∧ k * (u * x + v * y + w * z) < k * b := by
  obtain ⟨r, s, t, r0, r1, s0, s1, t0, t1, l, m, rfl, rfl, rfl⟩ := h
  have e : k * (u * (a + r * (b - a)) + v * (a + s * (b - a)) + w * (a + t * (b - a))) = k * a + (u * r + v * s + w * t) * (k * b - k * a) + (u + v + w - 1) * (k * a) := by ring
  rw [e, hs]
  have p1 : 0 < u * r + v * s + w * t := by
    rcases r0.eq_or_lt with rfl | hr
    · rcases s0.eq_or_lt with rfl | hs'
      · have : 0 < t := by linarith
        have := mul_pos hw this; linarith
      · have := mul_pos hv hs'; have := mul_nonneg hw.le t0; linarith
    · have := mul_pos hu hr; have := mul_nonneg hw.le t0; have := mul_nonneg hv.le s0; linarith
  have p2 : 0 < u * (1 - r) + v * (1 - s) + w * (1 - t) := by
    rcases r1.eq_or_lt with rfl | hr
    · rcases s1.eq_or_lt with rfl | hs'
      · have : 0 < 1 - t := by linarith
        have := mul_pos hw this; linarith
      · have := mul_pos hv (sub_pos.mpr hs'); have := mul_nonneg hw.le (sub_nonneg.mpr t1); linarith
    · have := mul_pos hu (sub_pos.mpr hr); have := mul_nonneg hw.le (sub_nonneg.mpr t1); have := mul_nonneg hv.le (sub_nonneg.mpr s1); linarith
  have q1 := mul_pos p1 (sub_pos.mpr hk)
  have q2 := mul_pos p2 (sub_pos.mpr hk)
  have e2 : (u * (1 - r) + v * (1 - s) + w * (1 - t)) * (k * b - k * a) = (u + v + w) * (k * b - k * a) - (u * r + v * s + w * t) * (k * b - k * a) := by ring
  rw [e2, hs] at q2
  constructor <;> linarith

theorem spans_closed (k a b x y z u v w : ℝ) (h : Spans a b x y z) (hk : k * a < k * b) (hu : 0 ≤ u) (hv : 0 ≤ v) (hw : 0 ≤ w) (hs : u + v + w = 1) :
    k * a ≤ k * (u * x + v * y + w * z) := by
  obtain ⟨r, s, t, r0, r1, s0, s1, t0, t1, l, m, rfl, rfl, rfl⟩ := h
  have e : k * (u * (a + r * (b - a)) + v * (a + s * (b - a)) + w * (a + t * (b - a))) = k * a + (u * r + v * s + w * t) * (k * b - k * a) + (u + v + w - 1) * (k * a) := by ring
  rw [e, hs]
  have p1 : 0 ≤ u * r + v * s + w * t := by positivity
  have := mul_nonneg p1 (sub_pos.mpr hk).le
  linarith

theorem box_comb (p q r v : V3) (u x w : ℝ) (hp : InBox p) (hq : InBox q) (hr : InBox r) (hu : 0 ≤ u) (hx : 0 ≤ x) (hw : 0 ≤ w) (hs : u + x + w = 1)
    (h : ∀ i, coord i v = u * coord i p + x * coord i q + w * coord i r) : InBox v := by
  intro i
  have := hp i; have := hq i; have := hr i
  rw [h i]
  constructor
  · have := mul_nonneg hu (hp i).1; have := mul_nonneg hx (hq i).1; have := mul_nonneg hw (hr i).1; linarith
  · have := mul_le_mul_of_nonneg_left (hp i).2 hu; have := mul_le_mul_of_nonneg_left (hq i).2 hx; have := mul_le_mul_of_nonneg_left (hr i).2 hw; linarith

/-! ## Cells -/

/-- Whatever is hidden comes not later in a coordinate. -/
def Sorted (g : Graph3) (i : Fin 3) : Prop := ∀ v w, InBox v → InBox w → Hides g v w → orient g i * coord i w ≤ orient g i * coord i v

/-- Elements of earlier cells do not hide elements of later ones, if the cells are in the order of sight. -/
theorem cells_sorted (g : Graph3) (i1 i2 : Fin 3) (hne : i1 ≠ i2) (h1 : Sorted g i1) (h2 : Sorted g i2)
    (lines : ℝ × ℝ) (hs : 0 ≤ lines.2) (hs' : lines.2 < 1 / 2) (ht : 0 ≤ lines.1) (ht' : lines.1 < 1 / 2)
    (data : ℝ → ℝ → Option (Bool × V3)) (hd : OnGrid i1 i2 data) (vals1 vals2 : List ℝ) (n1 : vals1.Nodup) (n2 : vals2.Nodup) :
    (cells (values g i1 vals1) (values g i2 vals2)).Pairwise fun c d => ∀ x ∈ cellElements g i1 i2 lines data c, ∀ y ∈ cellElements g i1 i2 lines data d,
      ∀ v w, x.Inner v → y.Closed w → ¬ Hides g v w := by
  obtain ⟨p, q⟩ := cells_spec _ _ _ _ (values_spec g i1 vals1 n1) (values_spec g i2 vals2 n2)
  refine p.imp_of_mem fun {c d} hc hd' hcd x hx y hy v w hv hw hh => ?_
  obtain ⟨-, x1, x2, bx1, bx2, bx3⟩ := elem_spec g i1 i2 hne lines hs hs' ht ht' data hd c x hx
  obtain ⟨-, y1, y2, by1, by2, by3⟩ := elem_spec g i1 i2 hne lines hs hs' ht ht' data hd d y hy
  obtain ⟨a, b, c', a0, b0, c0, e, ev⟩ := hv
  obtain ⟨a', b', c'', a0', b0', c0', e', ew⟩ := hw
  have bv := box_comb _ _ _ v a b c' bx1 bx2 bx3 a0.le b0.le c0.le e ev
  have bw := box_comb _ _ _ w a' b' c'' by1 by2 by3 a0' b0' c0' e' ew
  rcases hcd with hcd | hcd
  · have k1 := (spans_inner (orient g i1) _ _ _ _ _ _ _ _ x1 (q c hc).1 a0 b0 c0 e).2
    have k2 := spans_closed (orient g i1) _ _ _ _ _ _ _ _ y1 (q d hd').1 a0' b0' c0' e'
    rw [← ev] at k1
    rw [← ew] at k2
    linarith [h1 v w bv bw hh]
  · have k1 := (spans_inner (orient g i2) _ _ _ _ _ _ _ _ x2 (q c hc).2 a0 b0 c0 e).2
    have k2 := spans_closed (orient g i2) _ _ _ _ _ _ _ _ y2 (q d hd').2 a0' b0' c0' e'
    rw [← ev] at k1
    rw [← ew] at k2
    linarith [h2 v w bv bw hh]

/-! ## Directions of sight -/

/-- A graph with positive sizes. -/
structure Proper (g : Graph3) : Prop where
  size : g.size ≠ 0
  scale : ∀ i, 0 < scale g i

theorem zindexscale_pos (g : Graph3) (hg : Proper g) : 0 < Real.sqrt (g.xscale * g.xscale + g.yscale * g.yscale + g.zscale * g.zscale) := by
  have h0 : 0 < g.xscale := hg.scale 0
  apply Real.sqrt_pos.mpr
  have := mul_pos h0 h0; have := mul_self_nonneg g.yscale; have := mul_self_nonneg g.zscale
  linarith

theorem hides_space (g : Graph3) (hg : Proper g) (v w : V3) (h : Hides g v w) :
    (∃ P, g.projector.point (g.space v) = some P ∧ g.projector.point (g.space w) = some P) ∧ g.projector.zindex (g.space v) < g.projector.zindex (g.space w) := by
  obtain ⟨⟨P, e1, e2⟩, hz⟩ := h
  constructor
  · rw [Graph3.vpos] at e1 e2
    obtain ⟨A, a1, a2⟩ := Option.map_eq_some_iff.mp e1
    obtain ⟨B, b1, b2⟩ := Option.map_eq_some_iff.mp e2
    have : A = B := by
      have := a2.trans b2.symm
      obtain ⟨h1, h2⟩ := Prod.mk.inj this
      ext
      · exact mul_right_cancel₀ hg.size (add_left_cancel h1)
      · exact mul_right_cancel₀ hg.size (add_left_cancel h2)
    exact ⟨A, a1, this ▸ b1⟩
  · rw [vzindex, vzindex, div_lt_div_iff_of_pos_right (zindexscale_pos g hg)] at hz
    exact hz

/-- In a parallel projection something hidden is behind in the direction of sight. -/
theorem parallel_hides (g : Graph3) (hg : Proper g) (phi theta f : ℝ) (hp : g.projector = parallel phi theta f) (v w : V3) (h : Hides g v w) :
    ∃ t, 0 < t ∧ ∀ i, 2 * scale g i * (coord i w - coord i v) = t * coord i (vecC (phi * f) (theta * f)) := by
  obtain ⟨⟨P, e1, e2⟩, hz⟩ := hides_space g hg v w h
  rw [hp] at e1 e2 hz
  have e1' : (parallel phi theta f).point (g.space v) = some (dot (vecA (phi * f)) (g.space v), dot (vecB (phi * f) (theta * f)) (g.space v)) := rfl
  have e2' : (parallel phi theta f).point (g.space w) = some (dot (vecA (phi * f)) (g.space w), dot (vecB (phi * f) (theta * f)) (g.space w)) := rfl
  have z : ∀ p, (parallel phi theta f).zindex p = -dot (toViewer (phi * f) (theta * f)) p := by
    intro p; simp only [parallel, vecC, dot, toViewer]; ring
  rw [z, z] at hz
  obtain ⟨a1, a2⟩ := Prod.mk.inj (Option.some.inj ((e1'.symm.trans e1).trans (e2'.symm.trans e2).symm))
  have d1 := decompose (phi * f) (theta * f) (g.space v)
  have d2 := decompose (phi * f) (theta * f) (g.space w)
  rw [a1, a2] at d1
  generalize dot (vecA (phi * f)) (g.space w) = A at *
  generalize dot (vecB (phi * f) (theta * f)) (g.space w) = B at *
  generalize dot (toViewer (phi * f) (theta * f)) (g.space w) = C at *
  generalize dot (toViewer (phi * f) (theta * f)) (g.space v) = C' at *
  refine ⟨C' - C, by linarith, fun i => ?_⟩
  have e : 2 * scale g i * (coord i w - coord i v) = coord i (g.space w) - coord i (g.space v) := by rw [coord_space, coord_space]; ring
  rw [e]
  fin_cases i
  · have k1 := congrArg V3.x d1; have k2 := congrArg V3.x d2
    simp only [coord, add, smul, vecC, toViewer] at *
    linarith
  · have k1 := congrArg V3.y d1; have k2 := congrArg V3.y d2
    simp only [coord, add, smul, vecC, toViewer] at *
    linarith
  · have k1 := congrArg V3.z d1; have k2 := congrArg V3.z d2
    simp only [coord, add, smul, vecC, toViewer] at *
    linarith

theorem parallel_reversed (g : Graph3) (hg : Proper g) (phi theta f : ℝ) (hp : g.projector = parallel phi theta f) (i : Fin 3) :
    Reversed g i ↔ 0 < coord i (vecC (phi * f) (theta * f)) := by
  rw [Reversed, vzindex, vzindex, div_lt_div_iff_of_pos_right (zindexscale_pos g hg), hp]
  have hs := hg.scale i
  fin_cases i <;> simp only [parallel, Graph3.space, at1, ofCoords, coord, scale] at * <;> constructor <;> intro h <;> simp at * <;> nlinarith

theorem parallel_orient (g : Graph3) (hg : Proper g) (phi theta f : ℝ) (hp : g.projector = parallel phi theta f) (i : Fin 3) :
    orient g i * coord i (vecC (phi * f) (theta * f)) = -|coord i (vecC (phi * f) (theta * f))| := by
  rcases orient_cases g i with ⟨h1, h2⟩ | ⟨h1, h2⟩
  · rw [h2, abs_of_pos ((parallel_reversed g hg phi theta f hp i).mp h1)]; ring
  · rw [h2, abs_of_nonpos (not_lt.mp fun h => h1 ((parallel_reversed g hg phi theta f hp i).mpr h))]; ring

theorem parallel_sorted (g : Graph3) (hg : Proper g) (phi theta f : ℝ) (hp : g.projector = parallel phi theta f) (i : Fin 3) : Sorted g i := by
  intro v w _ _ h
  obtain ⟨t, ht, e⟩ := parallel_hides g hg phi theta f hp v w h
  have ho := parallel_orient g hg phi theta f hp i
  have hs := hg.scale i
  have e' : 2 * scale g i * (orient g i * coord i w - orient g i * coord i v) = t * (orient g i * coord i (vecC (phi * f) (theta * f))) := by linear_combination orient g i * e i
  rw [ho] at e'
  have : t * -|coord i (vecC (phi * f) (theta * f))| ≤ 0 := mul_nonpos_of_nonneg_of_nonpos ht.le (neg_nonpos.mpr (abs_nonneg _))
  rw [← e'] at this
  by_contra hn
  have := mul_pos (by linarith : 0 < 2 * scale g i) (sub_pos.mpr (not_le.mp hn))
  linarith

/-- C113: in a parallel projection no inner point of an element hides a point of an element of a cell drawn later. -/
theorem surface_parallel (g : Graph3) (hg : Proper g) (phi theta f : ℝ) (hp : g.projector = parallel phi theta f) (i1 i2 : Fin 3) (hne : i1 ≠ i2)
    (lines : ℝ × ℝ) (hs : 0 ≤ lines.2) (hs' : lines.2 < 1 / 2) (ht : 0 ≤ lines.1) (ht' : lines.1 < 1 / 2)
    (data : ℝ → ℝ → Option (Bool × V3)) (hd : OnGrid i1 i2 data) (vals1 vals2 : List ℝ) (n1 : vals1.Nodup) (n2 : vals2.Nodup) :
    (elements g i1 i2 lines data vals1 vals2).Pairwise fun x y => x.cell ≠ y.cell → ∀ v w, x.Inner v → y.Closed w → ¬ Hides g v w := by
  have h := cells_sorted g i1 i2 hne (parallel_sorted g hg phi theta f hp i1) (parallel_sorted g hg phi theta f hp i2) lines hs hs' ht ht' data hd vals1 vals2 n1 n2
  rw [elements, List.pairwise_flatMap]
  refine ⟨fun c _ => ?_, h.imp fun h x hx y hy _ => h x hx y hy⟩
  apply List.pairwise_of_forall_mem_list
  intro x hx y hy hxy
  exact absurd ((elem_spec g i1 i2 hne lines hs hs' ht ht' data hd c x hx).1.trans (elem_spec g i1 i2 hne lines hs hs' ht ht' data hd c y hy).1.symm) hxy

/-! ## The central projection -/

theorem central_hides (g : Graph3) (hg : Proper g) (D phi theta f : ℝ) (hD : 0 < D) (hp : g.projector = central D phi theta f) (v w : V3)
    (hv : InFront D (phi * f) (theta * f) (g.space v)) (hw : InFront D (phi * f) (theta * f) (g.space w)) (h : Hides g v w) :
    ∃ t, 0 < t ∧ ∀ i, coord i (g.space w) - coord i (g.space v) = t * (coord i (g.space v) - coord i (vecEye D (phi * f) (theta * f))) := by
  obtain ⟨⟨P, e1, e2⟩, hz⟩ := hides_space g hg v w h
  rw [hp] at e1 e2 hz
  rw [central_zindex D phi theta f hD _ _ hv hw (e1.trans e2.symm)] at hz
  have hv' : 0 < depth D (phi * f) (theta * f) (g.space v) := by simp only [depth]; simp only [InFront] at hv; linarith
  have hw' : 0 < depth D (phi * f) (theta * f) (g.space w) := by simp only [depth]; simp only [InFront] at hw; linarith
  rw [central_point D phi theta f _ hv'.ne'] at e1
  rw [central_point D phi theta f _ hw'.ne'] at e2
  obtain ⟨a1, a2⟩ := Prod.mk.inj (Option.some.inj (e1.trans e2.symm))
  have hE := (axes_orthonormal D (phi * f) (theta * f)).2.2.2.2.2.2.1
  have d1 := decompose (phi * f) (theta * f) (g.space v)
  have d2 := decompose (phi * f) (theta * f) (g.space w)
  have ev : dot (toViewer (phi * f) (theta * f)) (g.space v) = D - depth D (phi * f) (theta * f) (g.space v) := by simp [depth]
  have ew : dot (toViewer (phi * f) (theta * f)) (g.space w) = D - depth D (phi * f) (theta * f) (g.space w) := by simp [depth]
  rw [ev] at d1 hz
  rw [ew] at d2 hz
  rw [div_eq_div_iff hv'.ne' hw'.ne'] at a1 a2
  generalize depth D (phi * f) (theta * f) (g.space v) = hv0 at *
  generalize depth D (phi * f) (theta * f) (g.space w) = hw0 at *
  have b1 : dot (vecA (phi * f)) (g.space w) = dot (vecA (phi * f)) (g.space v) * hw0 / hv0 := by
    rw [eq_div_iff hv'.ne']; exact mul_left_cancel₀ hD.ne' (by linarith)
  have b2 : dot (vecB (phi * f) (theta * f)) (g.space w) = dot (vecB (phi * f) (theta * f)) (g.space v) * hw0 / hv0 := by
    rw [eq_div_iff hv'.ne']; exact mul_left_cancel₀ hD.ne' (by linarith)
  rw [b1, b2] at d2
  generalize dot (vecA (phi * f)) (g.space v) = A at *
  generalize dot (vecB (phi * f) (theta * f)) (g.space v) = B at *
  refine ⟨hw0 / hv0 - 1, by rw [sub_pos, lt_div_iff₀ hv']; linarith, fun i => ?_⟩
  have key : ∀ a b c : ℝ, (A * hw0 / hv0 * a + B * hw0 / hv0 * b + (D - hw0) * c) - (A * a + B * b + (D - hv0) * c) = (hw0 / hv0 - 1) * ((A * a + B * b + (D - hv0) * c) - D * c) := by
    intro a b c; field_simp; ring
  rw [hE]
  fin_cases i
  · have k1 := congrArg V3.x d1; have k2 := congrArg V3.x d2
    simp only [add, smul] at k1 k2
    simp only [coord, smul]
    rw [k1, k2]; exact key _ _ _
  · have k1 := congrArg V3.y d1; have k2 := congrArg V3.y d2
    simp only [add, smul] at k1 k2
    simp only [coord, smul]
    rw [k1, k2]; exact key _ _ _
  · have k1 := congrArg V3.z d1; have k2 := congrArg V3.z d2
    simp only [add, smul] at k1 k2
    simp only [coord, smul]
    rw [k1, k2]; exact key _ _ _

theorem central_reversed (g : Graph3) (hg : Proper g) (D phi theta f : ℝ) (hp : g.projector = central D phi theta f) (i : Fin 3) :
    Reversed g i ↔ coord i (vecEye D (phi * f) (theta * f)) < -scale g i := by
  rw [Reversed, vzindex, vzindex, div_lt_div_iff_of_pos_right (zindexscale_pos g hg), hp]
  have hs := hg.scale i
  simp only [central, sub_lt_sub_iff_right, norm3]
  rw [Real.sqrt_lt_sqrt_iff (by nlinarith [mul_self_nonneg ((g.space (at1 i (-1))).x - (vecEye D (phi * f) (theta * f)).x), mul_self_nonneg ((g.space (at1 i (-1))).y - (vecEye D (phi * f) (theta * f)).y), mul_self_nonneg ((g.space (at1 i (-1))).z - (vecEye D (phi * f) (theta * f)).z)])]
  generalize vecEye D (phi * f) (theta * f) = E
  fin_cases i <;> simp only [Graph3.space, at1, ofCoords, coord, scale] at * <;> simp <;> constructor <;> intro h <;> nlinarith

/-- C113: in a central projection no inner point of an element hides a point of an element of a cell drawn later, if the eye is beyond the graph in both coordinates of the grid. -/
theorem surface_central_partial (g : Graph3) (hg : Proper g) (D phi theta f : ℝ) (hD : 0 < D) (hp : g.projector = central D phi theta f)
    (hbox : g.xscale ^ 2 + g.yscale ^ 2 + g.zscale ^ 2 < D ^ 2) (i1 i2 : Fin 3) (hne : i1 ≠ i2)
    (heye : ∀ i, i = i1 ∨ i = i2 → coord i (vecEye D (phi * f) (theta * f)) < -scale g i ∨ scale g i ≤ coord i (vecEye D (phi * f) (theta * f)))
    (lines : ℝ × ℝ) (hs : 0 ≤ lines.2) (hs' : lines.2 < 1 / 2) (ht : 0 ≤ lines.1) (ht' : lines.1 < 1 / 2)
    (data : ℝ → ℝ → Option (Bool × V3)) (hd : OnGrid i1 i2 data) (vals1 vals2 : List ℝ) (n1 : vals1.Nodup) (n2 : vals2.Nodup) :
    (elements g i1 i2 lines data vals1 vals2).Pairwise fun x y => x.cell ≠ y.cell → ∀ v w, x.Inner v → y.Closed w → ¬ Hides g v w := by
  have hsort : ∀ i, i = i1 ∨ i = i2 → Sorted g i := by
    intro i hi v w bv bw h
    have front : ∀ v, InBox v → InFront D (phi * f) (theta * f) (g.space v) := fun v bv =>
      box_in_front D _ _ g (hg.scale 0).le (hg.scale 1).le (hg.scale 2).le hD.le hbox v ⟨(bv 0).1, (bv 0).2, (bv 1).1, (bv 1).2, (bv 2).1, (bv 2).2⟩
    obtain ⟨t, ht, e⟩ := central_hides g hg D phi theta f hD hp v w (front v bv) (front w bw) h
    have e := e i
    rw [coord_space, coord_space] at e
    have hsi := hg.scale i
    have hr := central_reversed g hg D phi theta f hp i
    have b1 := mul_le_mul_of_nonneg_left (bv i).1 hsi.le
    have b2 := mul_le_mul_of_nonneg_left (bv i).2 hsi.le
    have he : 2 * scale g i * (coord i w - coord i v) = t * (2 * scale g i * (coord i v - 1 / 2) - coord i (vecEye D (phi * f) (theta * f))) := by linarith
    rcases orient_cases g i with ⟨h1, h2⟩ | ⟨h1, h2⟩
    · rw [h2]
      have h3 := hr.mp h1
      have := mul_pos ht (by linarith : 0 < 2 * scale g i * (coord i v - 1 / 2) - coord i (vecEye D (phi * f) (theta * f)))
      rw [← he] at this
      have := (mul_pos_iff_of_pos_left (by linarith : 0 < 2 * scale g i)).mp this
      linarith
    · rw [h2]
      have h3 := (heye i hi).resolve_left fun h => h1 (hr.mpr h)
      have := mul_nonneg ht.le (by linarith : 0 ≤ -(2 * scale g i * (coord i v - 1 / 2) - coord i (vecEye D (phi * f) (theta * f))))
      have h4 : 0 ≤ 2 * scale g i * (coord i v - coord i w) := by linarith
      have := nonneg_of_mul_nonneg_right h4 (by linarith : 0 < 2 * scale g i)
      linarith
  have h := cells_sorted g i1 i2 hne (hsort i1 (Or.inl rfl)) (hsort i2 (Or.inr rfl)) lines hs hs' ht ht' data hd vals1 vals2 n1 n2
  rw [elements, List.pairwise_flatMap]
  refine ⟨fun c _ => ?_, h.imp fun h x hx y hy _ => h x hx y hy⟩
  apply List.pairwise_of_forall_mem_list
  intro x hx y hy hxy
  exact absurd ((elem_spec g i1 i2 hne lines hs hs' ht ht' data hd c x hx).1.trans (elem_spec g i1 i2 hne lines hs hs' ht ht' data hd c y hy).1.symm) hxy

/-! ## Triangles of a cell -/

/-- For a cell, the triangle to be drawn first is the same as for the whole graph: `u` are the sizes of the direction of sight, `s` the scales. -/
def Agrees (u1 u2 s1 s2 : ℝ) (c : Cell) : Prop := u2 * s2 ≤ u1 * s1 ↔ u2 * (s1 * |c.b1 - c.a1|) ≤ u1 * (s2 * |c.b2 - c.a2|)

theorem keys_parallel (g : Graph3) (hg : Proper g) (phi theta f : ℝ) (hp : g.projector = parallel phi theta f) (i1 i2 : Fin 3) (hne : i1 ≠ i2) :
    ∃ K N : ℝ, 0 < N ∧ keys g i1 i2 0 = (K - |coord i1 (vecC (phi * f) (theta * f))| * scale g i1) / N ∧ keys g i1 i2 1 = (K - |coord i2 (vecC (phi * f) (theta * f))| * scale g i2) / N ∧
      keys g i1 i2 2 = (K + |coord i2 (vecC (phi * f) (theta * f))| * scale g i2) / N ∧ keys g i1 i2 3 = (K + |coord i1 (vecC (phi * f) (theta * f))| * scale g i1) / N := by
  have r1 := parallel_reversed g hg phi theta f hp i1
  have r2 := parallel_reversed g hg phi theta f hp i2
  have z : ∀ v, vzindex g v = (coord 0 (vecC (phi * f) (theta * f)) * (2 * scale g 0 * (coord 0 v - 1 / 2)) + coord 1 (vecC (phi * f) (theta * f)) * (2 * scale g 1 * (coord 1 v - 1 / 2)) +
      coord 2 (vecC (phi * f) (theta * f)) * (2 * scale g 2 * (coord 2 v - 1 / 2))) / Real.sqrt (g.xscale * g.xscale + g.yscale * g.yscale + g.zscale * g.zscale) := by
    intro v; rw [vzindex, hp]; rfl
  have hN := zindexscale_pos g hg
  generalize Real.sqrt (g.xscale * g.xscale + g.yscale * g.yscale + g.zscale * g.zscale) = N at *
  generalize vecC (phi * f) (theta * f) = C at *
  obtain ⟨j, hj1, hj2⟩ : ∃ j : Fin 3, j ≠ i1 ∧ j ≠ i2 := (by decide : ∀ i1 i2 : Fin 3, ∃ j, j ≠ i1 ∧ j ≠ i2) i1 i2
  have k0 : keys0 g i1 i2 0 = (coord j C * scale g j + coord i1 C * scale g i1) / N ∧ keys0 g i1 i2 1 = (coord j C * scale g j + coord i2 C * scale g i2) / N ∧
      keys0 g i1 i2 2 = (coord j C * scale g j - coord i2 C * scale g i2) / N ∧ keys0 g i1 i2 3 = (coord j C * scale g j - coord i1 C * scale g i1) / N := by
    simp only [keys0, z, at2, coord_of]
    fin_cases i1 <;> fin_cases i2 <;> first | exact absurd rfl hne | skip
    all_goals fin_cases j <;> first | exact absurd rfl hj1 | exact absurd rfl hj2 | skip
    all_goals simp
    all_goals refine ⟨?_, ?_, ?_, ?_⟩ <;> ring
  obtain ⟨a0, a1, a2, a3⟩ := k0
  refine ⟨coord j C * scale g j, N, hN, ?_⟩
  by_cases h1 : Reversed g i1 <;> by_cases h2 : Reversed g i2 <;> simp only [keys, h1, h2, if_true, if_false, a0, a1, a2, a3]
  · rw [abs_of_pos (r1.mp h1), abs_of_pos (r2.mp h2)]; simp only [and_self]
  · rw [abs_of_pos (r1.mp h1), abs_of_nonpos (not_lt.mp fun h => h2 (r2.mpr h))]
    refine ⟨?_, ?_, ?_, ?_⟩ <;> ring
  · rw [abs_of_pos (r2.mp h2), abs_of_nonpos (not_lt.mp fun h => h1 (r1.mpr h))]
    refine ⟨?_, ?_, ?_, ?_⟩ <;> ring
  · rw [abs_of_nonpos (not_lt.mp fun h => h1 (r1.mpr h)), abs_of_nonpos (not_lt.mp fun h => h2 (r2.mpr h))]
    refine ⟨?_, ?_, ?_, ?_⟩ <;> ring

theorem order_spec (g : Graph3) (i1 i2 : Fin 3) :
    (order g i1 i2).Perm [0, 1, 2, 3] ∧ (order g i1 i2).Pairwise fun i j => i ≠ j ∧ (keys g i1 i2 i < keys g i1 i2 j ∨ (keys g i1 i2 i = keys g i1 i2 j ∧ i < j)) := by
  have hperm := List.mergeSort_perm ([0, 1, 2, 3].map fun i => (keys g i1 i2 i, i)) tupleLe
  have hp : (order g i1 i2).Perm [0, 1, 2, 3] := by
    have := hperm.map fun x => x.2
    simpa [order] using this
  refine ⟨hp, ?_⟩
  have hs := List.pairwise_mergeSort (le := tupleLe)
    (fun a b c h1 h2 => by
      simp only [tupleLe, decide_eq_true_eq] at *
      rcases h1 with h1 | h1 <;> rcases h2 with h2 | h2
      · exact Or.inl (lt_trans h1 h2)
      · exact Or.inl (h2.1 ▸ h1)
      · exact Or.inl (h1.1 ▸ h2)
      · exact Or.inr ⟨h1.1.trans h2.1, le_trans h1.2 h2.2⟩)
    (fun a b => by
      simp only [tupleLe, Bool.or_eq_true, decide_eq_true_eq]
      rcases lt_trichotomy a.1 b.1 with h | h | h
      · exact Or.inl (Or.inl h)
      · rcases le_total a.2 b.2 with h' | h'
        · exact Or.inl (Or.inr ⟨h, h'⟩)
        · exact Or.inr (Or.inr ⟨h.symm, h'⟩)
      · exact Or.inr (Or.inl h)) ([0, 1, 2, 3].map fun i => (keys g i1 i2 i, i))
  have hn : (order g i1 i2).Nodup := hp.nodup_iff.mpr (by decide)
  have h2 : (order g i1 i2).Pairwise fun i j => keys g i1 i2 i < keys g i1 i2 j ∨ (keys g i1 i2 i = keys g i1 i2 j ∧ i ≤ j) := by
    rw [order, List.pairwise_map]
    refine hs.imp_of_mem fun {x y} hx hy h => ?_
    obtain ⟨i, -, rfl⟩ := List.mem_map.mp (hperm.mem_iff.mp hx)
    obtain ⟨j, -, rfl⟩ := List.mem_map.mp (hperm.mem_iff.mp hy)
    simpa [tupleLe] using h
  refine (hn.and h2).imp fun {i j} h => ⟨h.1, h.2.imp id fun h' => ⟨h'.1, lt_of_le_of_ne h'.2 h.1⟩⟩

/-- Where a point of a colored triangle is, from the middle of the cell in units of half of its sizes. -/
def place (u v : ℝ) : Fin 4 → ℝ × ℝ
  | 0 => (-u - v, -u + v)
  | 1 => (u - v, -u - v)
  | 2 => (-u + v, u + v)
  | 3 => (u + v, u - v)

theorem face_place (i1 i2 : Fin 3) (c : Cell) (f : Corners) (h : At i1 i2 c 0 0 f) (i : Fin 4) (u v w : ℝ) (hs : u + v + w = 1) (p : V3)
    (hp : ∀ k, coord k p = u * coord k (face f i).1 + v * coord k (face f i).2.1 + w * coord k (face f i).2.2) :
    coord i1 p = (c.a1 + c.b1) / 2 + (place u v i).1 * ((c.b1 - c.a1) / 2) ∧ coord i2 p = (c.a2 + c.b2) / 2 + (place u v i).2 * ((c.b2 - c.a2) / 2) := by
  obtain ⟨m1, m2⟩ := mid_at i1 i2 c 0 0 f h
  obtain ⟨x1, x2, x3, x4, y1, y2, y3, y4⟩ := h
  have hw : w = 1 - u - v := by linarith
  rw [hp i1, hp i2, hw]
  fin_cases i <;> simp only [face, place, m1, m2, x1, x2, x3, x4, y1, y2, y3, y4] <;> constructor <;> ring

/-- Triangles of a cell, `k` being the step from the nearer to the farther point. -/
theorem triangles_plane (i j : Fin 4) (u v u' v' k1 k2 : ℝ) (hu : 0 < u) (hv : 0 < v) (hu' : 0 ≤ u') (hv' : 0 ≤ v') (h1 : 0 ≤ k1) (h2 : 0 ≤ k2)
    (e1 : (place u' v' j).1 = (place u v i).1 - k1) (e2 : (place u' v' j).2 = (place u v i).2 - k2)
    (X Y : ℝ) (hX : 0 ≤ X) (hY : 0 ≤ Y) (hag : Y ≤ X ↔ k2 ≤ k1) (K : Fin 4 → ℝ) (q : ℝ) (K0 : K 0 = q - X) (K1 : K 1 = q - Y) (K2 : K 2 = q + Y) (K3 : K 3 = q + X)
    (hne : i ≠ j) (hij : K i < K j ∨ (K i = K j ∧ i < j)) : False := by
  have hij' : K i ≤ K j := hij.elim le_of_lt fun h => h.1.le
  have hlt : j < i → K i < K j := fun h => hij.elim id fun h' => absurd h (lt_asymm h'.2)
  match i, j with
  | 0, 0 | 1, 1 | 2, 2 | 3, 3 => exact hne rfl
  | 0, 1 =>
    rw [K0, K1] at hij'
    have := hag.mp (by linarith)
    simp only [place] at e1 e2; linarith
  | 0, 2 => simp only [place] at e1 e2; linarith
  | 0, 3 => simp only [place] at e1 e2; linarith
  | 1, 0 =>
    have hl := hlt (by decide)
    rw [K0, K1] at hl
    have := not_le.mp fun h => absurd (hag.mpr h) (by linarith)
    simp only [place] at e1 e2; linarith
  | 1, 2 => simp only [place] at e1 e2; linarith
  | 1, 3 => simp only [place] at e1 e2; linarith
  | 2, 0 => have hl := hlt (by decide); rw [K0, K2] at hl; linarith
  | 2, 1 => have hl := hlt (by decide); rw [K1, K2] at hl; linarith
  | 2, 3 =>
    rw [K2, K3] at hij'
    have := hag.mp (by linarith)
    simp only [place] at e1 e2; linarith
  | 3, 0 => have hl := hlt (by decide); rw [K0, K3] at hl; linarith
  | 3, 1 => have hl := hlt (by decide); rw [K1, K3] at hl; linarith
  | 3, 2 =>
    have hl := hlt (by decide)
    rw [K2, K3] at hl
    have := not_le.mp fun h => absurd (hag.mpr h) (by linarith)
    simp only [place] at e1 e2; linarith

theorem shrunk_zero (i1 i2 : Fin 3) (f : Corners) : shrunk i1 i2 (0, 0) f = f := by simp [shrunk]

theorem strips_zero (f c : Corners) (i : Fin 4) : strips (0, 0) f c i = [] := by fin_cases i <;> simp [strips]

theorem cellElements_zero (g : Graph3) (i1 i2 : Fin 3) (data : ℝ → ℝ → Option (Bool × V3)) (c : Cell) (f : Corners) (h : corners data c = some f) :
    cellElements g i1 i2 (0, 0) data c = (order g i1 i2).map fun i => ⟨c, i, (face f i).1, (face f i).2.1, (face f i).2.2⟩ := by
  rw [cellElements, h]
  simp only [shrunk_zero, strips_zero, List.map_cons, List.map_nil]
  rw [← List.map_eq_flatMap]

/-- C113: in a parallel projection without grid lines no inner point of an element hides a point of an element drawn later, if the order of the triangles of the graph is that of each cell. -/
theorem surface_triangles_partial (g : Graph3) (hg : Proper g) (phi theta f : ℝ) (hp : g.projector = parallel phi theta f) (i1 i2 : Fin 3) (hne : i1 ≠ i2)
    (data : ℝ → ℝ → Option (Bool × V3)) (hd : OnGrid i1 i2 data) (vals1 vals2 : List ℝ) (n1 : vals1.Nodup) (n2 : vals2.Nodup)
    (hag : ∀ c ∈ cells (values g i1 vals1) (values g i2 vals2), Agrees |coord i1 (vecC (phi * f) (theta * f))| |coord i2 (vecC (phi * f) (theta * f))| (scale g i1) (scale g i2) c) :
    (elements g i1 i2 (0, 0) data vals1 vals2).Pairwise fun x y => ∀ v w, x.Inner v → y.Closed w → ¬ Hides g v w := by
  have h := cells_sorted g i1 i2 hne (parallel_sorted g hg phi theta f hp i1) (parallel_sorted g hg phi theta f hp i2) (0, 0) le_rfl (by norm_num) le_rfl (by norm_num) data hd vals1 vals2 n1 n2
  obtain ⟨-, hor⟩ := cells_spec _ _ _ _ (values_spec g i1 vals1 n1) (values_spec g i2 vals2 n2)
  rw [elements, List.pairwise_flatMap]
  refine ⟨fun c hc => ?_, h⟩
  cases hf : corners data c with
  | none => rw [cellElements, hf]; exact List.Pairwise.nil
  | some k =>
    rw [cellElements_zero g i1 i2 data c k hf, List.pairwise_map]
    refine (order_spec g i1 i2).2.imp fun {i j} hij v w hv hw hh => ?_
    obtain ⟨k1, k2, k3, k4⟩ := corners_spec data c k hf
    have d1 := hd _ _ _ k1
    have d2 := hd _ _ _ k2
    have d3 := hd _ _ _ k3
    have d4 := hd _ _ _ k4
    have hat : At i1 i2 c 0 0 k := by
      constructor <;> [rw [d1.1]; rw [d2.1]; rw [d3.1]; rw [d4.1]; rw [d1.2.1]; rw [d2.2.1]; rw [d3.2.1]; rw [d4.2.1]] <;> ring
    obtain ⟨a, b, c', a0, b0, c0, e, ev⟩ := hv
    obtain ⟨a', b', c'', a0', b0', c0', e', ew⟩ := hw
    obtain ⟨vx, vy⟩ := face_place i1 i2 c k hat i a b c' e v ev
    obtain ⟨wx, wy⟩ := face_place i1 i2 c k hat j a' b' c'' e' w ew
    obtain ⟨t, ht, ht'⟩ := parallel_hides g hg phi theta f hp v w hh
    have o1 := parallel_orient g hg phi theta f hp i1
    have o2 := parallel_orient g hg phi theta f hp i2
    obtain ⟨K, N, hN, K0, K1, K2, K3⟩ := keys_parallel g hg phi theta f hp i1 i2 hne
    have s1 := hg.scale i1
    have s2 := hg.scale i2
    have t1 := ht' i1
    have t2 := ht' i2
    have ha := hag c hc
    obtain ⟨w1, w2⟩ := hor c hc
    have u1 := abs_nonneg (coord i1 (vecC (phi * f) (theta * f)))
    have u2 := abs_nonneg (coord i2 (vecC (phi * f) (theta * f)))
    have q1 : orient g i1 * (c.b1 - c.a1) = |c.b1 - c.a1| := by
      rcases orient_cases g i1 with ⟨-, ho⟩ | ⟨-, ho⟩ <;> rw [ho] at w1 ⊢
      · rw [abs_of_neg (by linarith)]; ring
      · rw [abs_of_pos (by linarith)]; ring
    have q2 : orient g i2 * (c.b2 - c.a2) = |c.b2 - c.a2| := by
      rcases orient_cases g i2 with ⟨-, ho⟩ | ⟨-, ho⟩ <;> rw [ho] at w2 ⊢
      · rw [abs_of_neg (by linarith)]; ring
      · rw [abs_of_pos (by linarith)]; ring
    have W1 : 0 < |c.b1 - c.a1| := by rw [← q1]; linarith
    have W2 : 0 < |c.b2 - c.a2| := by rw [← q2]; linarith
    rw [Agrees] at ha
    generalize |coord i1 (vecC (phi * f) (theta * f))| = U1 at *
    generalize |coord i2 (vecC (phi * f) (theta * f))| = U2 at *
    generalize hW1 : |c.b1 - c.a1| = H1 at *
    generalize hW2 : |c.b2 - c.a2| = H2 at *
    have r1 : scale g i1 * H1 * ((place a b i).1 - (place a' b' j).1) = t * U1 := by
      rw [vx, wx] at t1
      rw [← q1]
      linear_combination -(orient g i1) * t1 - t * o1
    have r2 : scale g i2 * H2 * ((place a b i).2 - (place a' b' j).2) = t * U2 := by
      rw [vy, wy] at t2
      rw [← q2]
      linear_combination -(orient g i2) * t2 - t * o2
    have e1 : (place a b i).1 - (place a' b' j).1 = t * U1 / (scale g i1 * H1) := by rw [eq_div_iff (mul_pos s1 W1).ne']; linarith
    have e2 : (place a b i).2 - (place a' b' j).2 = t * U2 / (scale g i2 * H2) := by rw [eq_div_iff (mul_pos s2 W2).ne']; linarith
    refine triangles_plane i j a b a' b' (t * U1 / (scale g i1 * H1)) (t * U2 / (scale g i2 * H2)) a0 b0 a0' b0' (by positivity) (by positivity) (by linarith) (by linarith)
      (U1 * scale g i1 / N) (U2 * scale g i2 / N) (by positivity) (by positivity) ?_ (keys g i1 i2) (K / N) (by rw [K0]; ring) (by rw [K1]; ring) (by rw [K2]; ring) (by rw [K3]; ring) hij.1 hij.2
    rw [div_le_div_iff_of_pos_right hN, ha, div_le_div_iff₀ (mul_pos s2 W2) (mul_pos s1 W1)]
    constructor
    · intro h; have := mul_le_mul_of_nonneg_left h ht.le; linarith
    · intro h
      refine le_of_mul_le_mul_left ?_ ht
      linarith

/-- Cells of the same width in both directions with equal scales are such. -/
theorem agrees_square (u1 u2 s : ℝ) (hs : 0 < s) (c : Cell) (hc : |c.b1 - c.a1| = |c.b2 - c.a2|) (h0 : c.a1 ≠ c.b1) : Agrees u1 u2 s s c := by
  rw [Agrees, hc]
  have hw : 0 < |c.b2 - c.a2| := by rw [← hc]; exact abs_pos.mpr (sub_ne_zero.mpr h0.symm)
  rw [mul_le_mul_iff_left₀ hs, mul_le_mul_iff_left₀ (mul_pos hs hw)]

/-! ## Front and back -/

/-- A viewer in a direction is below a plane through three points (the third coordinate being upwards). -/
def Below (p q r d : V3) : Prop := ∃ N : V3, dot N (sub q p) = 0 ∧ dot N (sub r p) = 0 ∧ 0 < N.z ∧ dot N d < 0

theorem below_normal (p q r d : V3) (s : ℝ) (h : 0 < -s * (normal p q r).z) : Below p q r d ↔ 0 < s * dot (normal p q r) d := by
  constructor
  · rintro ⟨N, h1, h2, h3, h4⟩
    simp only [dot, sub] at h1 h2 h4
    have ex : N.x * (normal p q r).z = N.z * (normal p q r).x := by
      simp only [normal]; linear_combination (r.y - p.y) * h1 - (q.y - p.y) * h2
    have ey : N.y * (normal p q r).z = N.z * (normal p q r).y := by
      simp only [normal]; linear_combination -(r.x - p.x) * h1 + (q.x - p.x) * h2
    have e : (s * dot (normal p q r) d) * N.z = (-s * (normal p q r).z) * (-(N.x * d.x + N.y * d.y + N.z * d.z)) := by
      simp only [dot]; linear_combination -(s * d.x) * ex - (s * d.y) * ey
    have := mul_pos h (neg_pos.mpr h4)
    rw [← e] at this
    exact (mul_pos_iff_of_pos_right h3).mp this
  · intro hd
    refine ⟨smul (-s) (normal p q r), ?_, ?_, h, ?_⟩
    · simp only [dot, smul, sub, normal]; ring
    · simp only [dot, smul, sub, normal]; ring
    · simp only [dot, smul] at *; linarith

theorem sign_orient (g : Graph3) (i1 i2 : Fin 3) : sign g i1 i2 = orient g i1 * orient g i2 := rfl

/-- The normal vectors of the triangles of a cell point down, up to `sign`. -/
theorem face_normal (g : Graph3) (hg : Proper g) (c : Cell) (f : Corners) (h : At 0 1 c 0 0 f) (hc : orient g 0 * c.a1 < orient g 0 * c.b1) (hc' : orient g 1 * c.a2 < orient g 1 * c.b2) (i : Fin 4) :
    0 < -sign g 0 1 * (normal (g.space (face f i).1) (g.space (face f i).2.1) (g.space (face f i).2.2)).z := by
  have e : -sign g 0 1 * (normal (g.space (face f i).1) (g.space (face f i).2.1) (g.space (face f i).2.2)).z =
      2 * scale g 0 * scale g 1 * ((orient g 0 * c.b1 - orient g 0 * c.a1) * (orient g 1 * c.b2 - orient g 1 * c.a2)) := by
    obtain ⟨m1, m2⟩ := mid_at 0 1 c 0 0 f h
    obtain ⟨x1, x2, x3, x4, y1, y2, y3, y4⟩ := h
    have sx : ∀ v, (g.space v).x = 2 * scale g 0 * (coord 0 v - 1 / 2) := fun v => coord_space g v 0
    have sy : ∀ v, (g.space v).y = 2 * scale g 1 * (coord 1 v - 1 / 2) := fun v => coord_space g v 1
    simp only [normal, sx, sy, sign_orient]
    fin_cases i <;> simp only [face, m1, m2, x1, x2, x3, x4, y1, y2, y3, y4] <;> ring
  rw [e]
  have := hg.scale 0
  have := hg.scale 1
  have := sub_pos.mpr hc
  have := sub_pos.mpr hc'
  positivity

theorem norm3_pos (v : V3) (h : v.z ≠ 0) : 0 < norm3 v :=
  lt_of_le_of_ne (norm3_nonneg v) fun e => h (norm3_zero v e.symm).2.2

/-- C113: in a parallel projection (with the third coordinate upwards) a triangle gets the color of the back if and only if the viewer is below its plane. -/
theorem back_parallel (g : Graph3) (hg : Proper g) (phi theta fa : ℝ) (hp : g.projector = parallel phi theta fa) (c : Cell) (f : Corners) (h : At 0 1 c 0 0 f)
    (hc : orient g 0 * c.a1 < orient g 0 * c.b1) (hc' : orient g 1 * c.a2 < orient g 1 * c.b2) (i : Fin 4) :
    ∃ x, facing g 0 1 f i = some x ∧ (x < 0 ↔ Below (g.space (face f i).1) (g.space (face f i).2.1) (g.space (face f i).2.2) (toViewer (phi * fa) (theta * fa))) := by
  have hn := face_normal g hg c f h hc hc' i
  have hz : (normal (g.space (face f i).1) (g.space (face f i).2.1) (g.space (face f i).2.2)).z ≠ 0 := by
    intro e; rw [e, mul_zero] at hn; exact lt_irrefl _ hn
  rw [below_normal _ _ _ _ _ hn]
  have hN := norm3_pos _ hz
  rw [facing, Graph3.vangle, hp]
  simp only [parallel, divide]
  rw [if_neg hN.ne']
  refine ⟨_, rfl, ?_⟩
  generalize normal (g.space (face f i).1) (g.space (face f i).2.1) (g.space (face f i).2.2) = n at *
  have e : ((vecC (phi * fa) (theta * fa)).x * n.x + (vecC (phi * fa) (theta * fa)).y * n.y + (vecC (phi * fa) (theta * fa)).z * n.z) = -dot n (toViewer (phi * fa) (theta * fa)) := by
    simp only [vecC, toViewer, dot]; ring
  rw [e]
  have e2 : sign g 0 1 * (-dot n (toViewer (phi * fa) (theta * fa)) / norm3 n) = -(sign g 0 1 * dot n (toViewer (phi * fa) (theta * fa)) / norm3 n) := by ring
  change sign g 0 1 * _ < 0 ↔ _
  rw [e2, neg_lt_zero, div_pos_iff_of_pos_right hN]

/-- C113: the same in a central projection. -/
theorem back_central (g : Graph3) (hg : Proper g) (D phi theta fa : ℝ) (hp : g.projector = central D phi theta fa) (c : Cell) (f : Corners) (h : At 0 1 c 0 0 f)
    (hc : orient g 0 * c.a1 < orient g 0 * c.b1) (hc' : orient g 1 * c.a2 < orient g 1 * c.b2) (i : Fin 4)
    (hf : InFront D (phi * fa) (theta * fa) (g.space (face f i).1)) :
    ∃ x, facing g 0 1 f i = some x ∧
      (x < 0 ↔ Below (g.space (face f i).1) (g.space (face f i).2.1) (g.space (face f i).2.2) (sub (vecEye D (phi * fa) (theta * fa)) (g.space (face f i).1))) := by
  have hn := face_normal g hg c f h hc hc' i
  have hz : (normal (g.space (face f i).1) (g.space (face f i).2.1) (g.space (face f i).2.2)).z ≠ 0 := by
    intro e; rw [e, mul_zero] at hn; exact lt_irrefl _ hn
  rw [below_normal _ _ _ _ _ hn]
  have hN := norm3_pos _ hz
  rw [facing, Graph3.vangle, hp]
  simp only [central, divide]
  generalize normal (g.space (face f i).1) (g.space (face f i).2.1) (g.space (face f i).2.2) = n at *
  generalize g.space (face f i).1 = p at *
  have hM : 0 < norm3 ⟨p.x - (vecEye D (phi * fa) (theta * fa)).x, p.y - (vecEye D (phi * fa) (theta * fa)).y, p.z - (vecEye D (phi * fa) (theta * fa)).z⟩ := by
    refine lt_of_le_of_ne (norm3_nonneg _) fun e => ?_
    obtain ⟨h1, h2, h3⟩ := norm3_zero _ e.symm
    simp only at h1 h2 h3
    obtain ⟨-, -, hcc, -, -, -, hE, -⟩ := axes_orthonormal D (phi * fa) (theta * fa)
    have : p = smul D (toViewer (phi * fa) (theta * fa)) := by
      rw [← hE]; ext <;> linarith
    rw [InFront, this] at hf
    have : dot (toViewer (phi * fa) (theta * fa)) (smul D (toViewer (phi * fa) (theta * fa))) = D * dot (toViewer (phi * fa) (theta * fa)) (toViewer (phi * fa) (theta * fa)) := by
      simp only [dot, smul]; ring
    rw [this, hcc, mul_one] at hf
    exact lt_irrefl _ hf
  rw [if_neg hN.ne']
  simp only [Option.bind_some]
  rw [if_neg hM.ne']
  refine ⟨_, rfl, ?_⟩
  generalize vecEye D (phi * fa) (theta * fa) = E at *
  generalize norm3 ⟨p.x - E.x, p.y - E.y, p.z - E.z⟩ = M at *
  have e : ((p.x - E.x) * n.x + (p.y - E.y) * n.y + (p.z - E.z) * n.z) = -dot n (sub E p) := by
    simp only [sub, dot]; ring
  rw [e]
  have e2 : sign g 0 1 * (-dot n (sub E p) / norm3 n / M) = -(sign g 0 1 * dot n (sub E p) / norm3 n / M) := by ring
  change sign g 0 1 * _ < 0 ↔ _
  rw [e2, neg_lt_zero, div_pos_iff_of_pos_right hM, div_pos_iff_of_pos_right hN]

/-! ## Wrong orders -/

theorem values_sorted (g : Graph3) (i : Fin 3) (l : List ℝ) (h : ¬ Reversed g i) (hl : l.Pairwise (· ≤ ·)) : values g i l = l := by
  rw [values, if_neg h]
  exact List.mergeSort_of_pairwise (hl.imp fun h => by simpa using h)

/-- Data for a view along the second coordinate, from a point in the middle of the first one. -/
noncomputable def middleData (a b : ℝ) : Option (Bool × V3) :=
  if (a = 7 / 10 ∨ a = 37 / 50 ∨ a = 39 / 50) ∧ (b = 0 ∨ b = 1) then
    some (true, ⟨a, b, if b = 0 then (if a = 7 / 10 then 1 / 2 else if a = 37 / 50 then 2 / 5 else 4 / 5) else (if a = 7 / 10 then 299 / 750 else if a = 37 / 50 then 3 / 5 else 3 / 5)⟩)
  else none

noncomputable def middleGraph : Graph3 := ⟨0, 0, 1, 1, 1, 1, central 10 90 0 (Real.pi / 180)⟩

theorem middle_phi : 90 * (Real.pi / 180) = Real.pi / 2 := by ring

theorem middle_eye : vecEye 10 (90 * (Real.pi / 180)) (0 * (Real.pi / 180)) = ⟨0, 10, 0⟩ := by
  rw [middle_phi]; simp [vecEye]

theorem middle_proper : Proper middleGraph := ⟨by simp [middleGraph], fun i => by fin_cases i <;> simp [scale, middleGraph]⟩

/-- In a central projection with the eye in the middle of a coordinate an element may hide one drawn later, of another cell. -/
theorem surface_wrong : OnGrid 0 1 middleData ∧
    ¬ (elements middleGraph 0 1 (0, 0) middleData [7 / 10, 37 / 50, 39 / 50] [0, 1]).Pairwise fun x y => x.cell ≠ y.cell → ∀ v w, x.Inner v → y.Closed w → ¬ Hides middleGraph v w := by
  constructor
  · intro a b v h
    rw [middleData] at h
    by_cases h1 : (a = 7 / 10 ∨ a = 37 / 50 ∨ a = 39 / 50) ∧ (b = 0 ∨ b = 1)
    swap
    · rw [if_neg h1] at h; cases h
    rw [if_pos h1] at h
    obtain rfl := (Prod.mk.inj (Option.some.inj h)).2
    refine ⟨rfl, rfl, fun i => ?_⟩
    obtain ⟨ha, hb⟩ := h1
    fin_cases i <;> simp only [coord]
    · rcases ha with rfl | rfl | rfl <;> norm_num
    · rcases hb with rfl | rfl <;> norm_num
    · split_ifs <;> norm_num
  · intro hpw
    have r0 : ¬ Reversed middleGraph 0 := by
      rw [central_reversed middleGraph middle_proper 10 90 0 (Real.pi / 180) rfl, middle_eye]
      simp [coord, scale, middleGraph]
    have r1 : ¬ Reversed middleGraph 1 := by
      rw [central_reversed middleGraph middle_proper 10 90 0 (Real.pi / 180) rfl, middle_eye]
      simp only [coord, scale, middleGraph]; norm_num
    rw [elements, values_sorted _ _ _ r0 (by simp; norm_num), values_sorted _ _ _ r1 (by simp)] at hpw
    simp only [cells, pairs, List.tail_cons, List.zip_cons_cons, List.zip_nil_right, List.flatMap_cons, List.flatMap_nil, List.map_cons, List.map_nil, List.append_nil, List.cons_append, List.nil_append] at hpw
    have hA : corners middleData ⟨7 / 10, 37 / 50, 0, 1⟩ = some ⟨⟨7 / 10, 0, 1 / 2⟩, ⟨7 / 10, 1, 299 / 750⟩, ⟨37 / 50, 0, 2 / 5⟩, ⟨37 / 50, 1, 3 / 5⟩⟩ := by
      simp only [corners, middleData]; norm_num
    have hB : corners middleData ⟨37 / 50, 39 / 50, 0, 1⟩ = some ⟨⟨37 / 50, 0, 2 / 5⟩, ⟨37 / 50, 1, 3 / 5⟩, ⟨39 / 50, 0, 4 / 5⟩, ⟨39 / 50, 1, 3 / 5⟩⟩ := by
      simp only [corners, middleData]; norm_num
    rw [cellElements_zero _ _ _ _ _ _ hA, cellElements_zero _ _ _ _ _ _ hB, List.pairwise_append] at hpw
    have hord := (order_spec middleGraph 0 1).1
    have := hpw.2.2 _ (List.mem_map_of_mem (hord.mem_iff.mpr (by simp : (3 : Fin 4) ∈ _))) _ (List.mem_map_of_mem (hord.mem_iff.mpr (by simp : (1 : Fin 4) ∈ _)))
    refine this ?_ ⟨29 / 40, 119 / 200, 1 / 2⟩ ⟨3 / 4, 1 / 20, 1 / 2⟩ ?_ ?_ ?_
    · simp only [ne_eq, Cell.mk.injEq, not_and]; norm_num
    · refine ⟨22 / 100, 3 / 100, 75 / 100, by norm_num, by norm_num, by norm_num, by norm_num, fun i => ?_⟩
      fin_cases i <;> simp only [face, mid, ofCoords, coord] <;> norm_num
    · refine ⟨2 / 10, 7 / 10, 1 / 10, by norm_num, by norm_num, by norm_num, by norm_num, fun i => ?_⟩
      fin_cases i <;> simp only [face, mid, ofCoords, coord] <;> norm_num
    · constructor
      · have e1 : (central 10 90 0 (Real.pi / 180)).point ⟨9 / 20, 19 / 100, 0⟩ = some (-(50 / 109), 0) := by
          rw [central_point]
          · simp only [depth, dot, toViewer, vecA, vecB, middle_phi, zero_mul]; simp; norm_num
          · simp only [depth, dot, toViewer, middle_phi, zero_mul]; simp; norm_num
        have e2 : (central 10 90 0 (Real.pi / 180)).point ⟨1 / 2, -(9 / 10), 0⟩ = some (-(50 / 109), 0) := by
          rw [central_point]
          · simp only [depth, dot, toViewer, vecA, vecB, middle_phi, zero_mul]; simp; norm_num
          · simp only [depth, dot, toViewer, middle_phi, zero_mul]; simp; norm_num
        have s1 : middleGraph.space ⟨29 / 40, 119 / 200, 1 / 2⟩ = ⟨9 / 20, 19 / 100, 0⟩ := by ext <;> simp only [Graph3.space, middleGraph] <;> norm_num
        have s2 : middleGraph.space ⟨3 / 4, 1 / 20, 1 / 2⟩ = ⟨1 / 2, -(9 / 10), 0⟩ := by ext <;> simp only [Graph3.space, middleGraph] <;> norm_num
        refine ⟨(0 + -(50 / 109) * 1, 0 + 0 * 1), ?_, ?_⟩
        · rw [Graph3.vpos, s1, show middleGraph.projector = central 10 90 0 (Real.pi / 180) from rfl, e1]; rfl
        · rw [Graph3.vpos, s2, show middleGraph.projector = central 10 90 0 (Real.pi / 180) from rfl, e2]; rfl
      · rw [vzindex, vzindex, div_lt_div_iff_of_pos_right (zindexscale_pos _ middle_proper)]
        have : middleGraph.projector = central 10 90 0 (Real.pi / 180) := rfl
        rw [this]
        simp only [central, middle_eye, norm3, sub_lt_sub_iff_right]
        apply Real.sqrt_lt_sqrt
        · simp only [Graph3.space, middleGraph]; norm_num
        · simp only [Graph3.space, middleGraph]; norm_num

/-- A cell seen from the side in a graph with different scales. -/
noncomputable def wideData (a b : ℝ) : Option (Bool × V3) :=
  if (a = 0 ∨ a = 1) ∧ (b = 0 ∨ b = 1) then
    some (true, ⟨a, b, if a = 0 then (if b = 0 then 1 / 2 else 2 / 5) else (if b = 0 then 7 / 10 else 3 / 5)⟩)
  else none

noncomputable def wideGraph : Graph3 := ⟨0, 0, 1, 2, 1, 1, parallel 45 0 (Real.pi / 180)⟩

theorem wide_proper : Proper wideGraph := ⟨by simp [wideGraph], fun i => by fin_cases i <;> simp [scale, wideGraph]⟩

theorem wide_c : vecC (45 * (Real.pi / 180)) (0 * (Real.pi / 180)) = ⟨-(Real.sqrt 2 / 2), -(Real.sqrt 2 / 2), 0⟩ := by
  rw [show 45 * (Real.pi / 180) = Real.pi / 4 by ring]; simp [vecC]

/-- In a graph with different scales an element may hide one of the same cell drawn later. -/
theorem triangles_wrong : OnGrid 0 1 wideData ∧
    ¬ (elements wideGraph 0 1 (0, 0) wideData [0, 1] [0, 1]).Pairwise fun x y => ∀ v w, x.Inner v → y.Closed w → ¬ Hides wideGraph v w := by
  constructor
  · intro a b v h
    rw [wideData] at h
    by_cases h1 : (a = 0 ∨ a = 1) ∧ (b = 0 ∨ b = 1)
    swap
    · rw [if_neg h1] at h; cases h
    rw [if_pos h1] at h
    obtain rfl := (Prod.mk.inj (Option.some.inj h)).2
    refine ⟨rfl, rfl, fun i => ?_⟩
    obtain ⟨ha, hb⟩ := h1
    fin_cases i <;> simp only [coord]
    · rcases ha with rfl | rfl <;> norm_num
    · rcases hb with rfl | rfl <;> norm_num
    · split_ifs <;> norm_num
  · intro hpw
    have hsq : 0 < Real.sqrt 2 / 2 := by positivity
    have r0 : ¬ Reversed wideGraph 0 := by
      rw [parallel_reversed wideGraph wide_proper 45 0 (Real.pi / 180) rfl, wide_c]
      simp only [coord]; linarith
    have r1 : ¬ Reversed wideGraph 1 := by
      rw [parallel_reversed wideGraph wide_proper 45 0 (Real.pi / 180) rfl, wide_c]
      simp only [coord]; linarith
    obtain ⟨K, N, hN, K0, K1, K2, K3⟩ := keys_parallel wideGraph wide_proper 45 0 (Real.pi / 180) rfl 0 1 (by decide)
    rw [wide_c] at K0 K1 K2 K3
    simp only [coord, scale, wideGraph, abs_neg, abs_of_pos hsq] at K0 K1 K2 K3
    have hord : order wideGraph 0 1 = [0, 1, 2, 3] := by
      rw [order, List.mergeSort_of_pairwise]
      · rfl
      · simp only [List.map_cons, List.map_nil, List.pairwise_cons, List.mem_cons, List.not_mem_nil, or_false, forall_eq_or_imp, forall_eq, tupleLe, decide_eq_true_eq]
        have c : ∀ x y : ℝ, x < y → x / N < y / N := fun x y h => (div_lt_div_iff_of_pos_right hN).mpr h
        simp only [wideGraph] at *
        rw [K0, K1, K2, K3]
        refine ⟨⟨Or.inl (c _ _ ?_), Or.inl (c _ _ ?_), Or.inl (c _ _ ?_)⟩, ⟨Or.inl (c _ _ ?_), Or.inl (c _ _ ?_)⟩, Or.inl (c _ _ ?_), by simp, by simp⟩ <;> linarith
    rw [elements, values_sorted _ _ _ r0 (by simp), values_sorted _ _ _ r1 (by simp)] at hpw
    simp only [cells, pairs, List.tail_cons, List.zip_cons_cons, List.zip_nil_right, List.flatMap_cons, List.flatMap_nil, List.map_cons, List.map_nil, List.append_nil] at hpw
    have hA : corners wideData ⟨0, 1, 0, 1⟩ = some ⟨⟨0, 0, 1 / 2⟩, ⟨0, 1, 2 / 5⟩, ⟨1, 0, 7 / 10⟩, ⟨1, 1, 3 / 5⟩⟩ := by
      simp only [corners, wideData]; norm_num
    rw [cellElements_zero _ _ _ _ _ _ hA, hord, List.map_cons, List.pairwise_cons] at hpw
    have := hpw.1 _ (List.mem_map_of_mem (by simp : (1 : Fin 4) ∈ [1, 2, 3])) ⟨1 / 4, 3 / 10, 13 / 25⟩ ⟨3 / 20, 1 / 10, 13 / 25⟩
    refine this ?_ ?_ ?_
    · refine ⟨45 / 100, 5 / 100, 1 / 2, by norm_num, by norm_num, by norm_num, by norm_num, fun i => ?_⟩
      fin_cases i <;> simp only [face, mid, ofCoords, coord] <;> norm_num
    · refine ⟨5 / 100, 75 / 100, 2 / 10, by norm_num, by norm_num, by norm_num, by norm_num, fun i => ?_⟩
      fin_cases i <;> simp only [face, mid, ofCoords, coord] <;> norm_num
    · constructor
      · refine ⟨_, rfl, ?_⟩
        simp only [Graph3.vpos, wideGraph, parallel, Graph3.space, vecA, vecB, Option.map_some]
        rw [show 45 * (Real.pi / 180) = Real.pi / 4 by ring]
        simp only [Real.sin_pi_div_four, Real.cos_pi_div_four, zero_mul, Real.sin_zero, Real.cos_zero]
        congr 2 <;> ring
      · rw [vzindex, vzindex, div_lt_div_iff_of_pos_right (zindexscale_pos _ wide_proper)]
        have : ∀ p : V3, wideGraph.projector.zindex p = -(Real.sqrt 2 / 2) * p.x + -(Real.sqrt 2 / 2) * p.y + 0 * p.z := by
          intro p
          have : wideGraph.projector.zindex p = (vecC (45 * (Real.pi / 180)) (0 * (Real.pi / 180))).x * p.x + (vecC (45 * (Real.pi / 180)) (0 * (Real.pi / 180))).y * p.y + (vecC (45 * (Real.pi / 180)) (0 * (Real.pi / 180))).z * p.z := rfl
          rw [this, wide_c]
        rw [this, this]
        simp only [Graph3.space, wideGraph]
        linarith

/-! ## Cases -/

/-- The cells of the graph which has its triangles in the wrong order are in the right order. -/
example : (elements wideGraph 0 1 (1 / 20, 1 / 20) wideData [0, 1] [0, 1]).Pairwise fun x y => x.cell ≠ y.cell → ∀ v w, x.Inner v → y.Closed w → ¬ Hides wideGraph v w :=
  surface_parallel wideGraph wide_proper 45 0 (Real.pi / 180) rfl 0 1 (by decide) _ (by norm_num) (by norm_num) (by norm_num) (by norm_num) _ triangles_wrong.1 _ _ (by simp) (by simp)

/-- The default projection is such that the order of cells is right. -/
example : (elements ⟨0, 0, 1, 1, 1, 1, central 10 (-30) 30 (Real.pi / 180)⟩ 0 1 (1 / 20, 1 / 20) middleData [7 / 10, 37 / 50, 39 / 50] [0, 1]).Pairwise
    fun x y => x.cell ≠ y.cell → ∀ v w, x.Inner v → y.Closed w → ¬ Hides ⟨0, 0, 1, 1, 1, 1, central 10 (-30) 30 (Real.pi / 180)⟩ v w := by
  refine surface_central_partial _ ⟨by simp, fun i => by fin_cases i <;> simp [scale]⟩ 10 (-30) 30 (Real.pi / 180) (by norm_num) rfl (by norm_num) 0 1 (by decide) ?_
    _ (by norm_num) (by norm_num) (by norm_num) (by norm_num) _ surface_wrong.1 _ _ (by simp; norm_num) (by simp)
  have h1 : -30 * (Real.pi / 180) = -(Real.pi / 6) := by ring
  have h2 : 30 * (Real.pi / 180) = Real.pi / 6 := by ring
  have h3 : Real.sqrt 3 * Real.sqrt 3 = 3 := Real.mul_self_sqrt (by norm_num)
  have h4 : 0 ≤ Real.sqrt 3 := Real.sqrt_nonneg 3
  rintro i (rfl | rfl)
  · right
    simp only [coord, scale, vecEye, h1, h2, Real.cos_neg, Real.cos_pi_div_six]
    nlinarith
  · left
    simp only [coord, scale, vecEye, h1, h2, Real.sin_neg, Real.cos_pi_div_six, Real.sin_pi_div_six]
    nlinarith

end PyX.Style.Surface
