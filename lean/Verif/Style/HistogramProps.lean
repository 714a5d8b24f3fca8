import Verif.Style.Histogram
import Mathlib.Order.Interval.Set.UnorderedInterval

/-!
# C105: a histogram draws the outline of its bins, cut at the boundary of the graph
-/

set_option linter.unusedSectionVars false

namespace PyX.Style.Hist

variable {K : Type*} [Field K] [LinearOrder K] [IsStrictOrderedRing K]

/-! ## Specification -/

/-- A straight line along one of the axes, in the order in which it is drawn. -/
inductive Seg (K : Type*) where
  | vert (x a b : K)
  | horiz (y p q : K)
  deriving DecidableEq

/-- Begin and end. -/
def Seg.ends : Seg K → Pt K × Pt K
  | .vert x a b => ((x, a), (x, b))
  | .horiz y p q => ((p, y), (q, y))

/-- The points of a line along an axis. -/
def On (s : Pt K × Pt K) (p : Pt K) : Prop := p.1 ∈ Set.uIcc s.1.1 s.2.1 ∧ p.2 ∈ Set.uIcc s.1.2 s.2.2

/-- The lines where one range ends (position and value) and another one begins.  Neighbouring ranges share an edge: with steps it goes from value to value,
otherwise from the base to the value which is further away from it, or from value to value if these are on different sides. -/
def edge (steps : Bool) (eps base : K) : Option (K × K) → Option (Bin K) → List (Seg K)
  | none, none => []
  | some l, none => [.vert l.1 l.2 base]
  | none, some b => [.vert b.min base b.v]
  | some l, some b =>
    if |b.min - l.1| ≤ eps then
      if steps = true ∨ (l.2 < base ∧ base < b.v) ∨ (b.v < base ∧ base < l.2) then [.vert b.min l.2 b.v]
      else if |b.v - base| ≤ |l.2 - base| then [.vert l.1 l.2 base] else [.vert b.min base b.v]
    else [.vert l.1 l.2 base, .vert b.min base b.v]

def top : Option (Bin K) → List (Seg K)
  | none => []
  | some b => [.horiz b.v b.min b.max]

def endOfBin : Option (Bin K) → Option (K × K) := Option.map fun b => (b.max, b.v)

/-- The outline of all ranges, behind a given one. -/
def outlineFrom (steps : Bool) (eps base : K) : Option (K × K) → List (Option (Bin K)) → List (Seg K)
  | last, [] => edge steps eps base last none
  | last, b :: l => edge steps eps base last b ++ top b ++ outlineFrom steps eps base (endOfBin b) l

def In (x : K) : Prop := 0 ≤ x ∧ x ≤ 1

/-- The nearest value within the graph. -/
def cl (x : K) : K := max 0 (min 1 x)

/-- Completely on one side of the graph. -/
def beside (a b : K) : Prop := (a < 0 ∧ b < 0) ∨ (1 < a ∧ 1 < b)

open Classical in
/-- The part of a line within the graph. -/
noncomputable def clip : Seg K → Option (Pt K × Pt K)
  | .vert x a b => if In x ∧ ¬ beside a b then some ((x, cl a), (x, cl b)) else none
  | .horiz y p q => if In y ∧ ¬ beside p q then some ((cl p, y), (cl q, y)) else none

open Classical in
/-- The lines of a range moved into the graph, for filling. -/
noncomputable def fill (base : K) : Seg K → List (Pt K × Pt K)
  | .vert x a b => if In x then [((x, cl a), (x, cl b))] else []
  | .horiz y p q =>
    if beside p q then [] else
      (if In p then [] else [((cl p, base), (cl p, cl y))]) ++ [((cl p, cl y), (cl q, cl y))] ++ (if In q then [] else [((cl q, cl y), (cl q, base))])

/-- The lines drawn by a path: begin of the subpath and current point; `none`: a line without a current point. -/
def run : Option (Pt K × Pt K) → List (Op K) → Option (List (Pt K × Pt K) × Option (Pt K × Pt K))
  | pen, [] => some ([], pen)
  | _, .move p :: l => run (some (p, p)) l
  | none, _ :: _ => none
  | some (s, c), .line q :: l => (run (some (s, q)) l).map fun r => ((c, q) :: r.1, r.2)
  | some (s, c), .close :: l => (run (some (s, s)) l).map fun r => ((c, s) :: r.1, r.2)

/-- Not outside by less than the tolerance. -/
def Clr (eps x : K) : Prop := (x < 0 → x ≤ -eps) ∧ (1 < x → 1 + eps ≤ x)

/-- Ranges whose numbers are clear, and which are either exact neighbours of the previous one, or not neighbours. -/
def Regular (eps : K) : Option (K × K) → List (Option (Bin K)) → Prop
  | _, [] => True
  | last, b :: l => (∀ x, b = some x → Clr eps x.min ∧ Clr eps x.max ∧ Clr eps x.v ∧ ∀ y, last = some y → |x.min - y.1| ≤ eps → x.min = y.1) ∧ Regular eps (endOfBin b) l

/-! ## The specification of cuts -/

theorem cl_mem (x : K) : In (cl x) := ⟨le_max_left _ _, max_le zero_le_one (min_le_left _ _)⟩

theorem cl_of_in {x : K} (h : In x) : cl x = x := by
  unfold cl; rw [min_eq_right h.2, max_eq_right h.1]

theorem cl_of_neg {x : K} (h : x < 0) : cl x = 0 := by
  unfold cl; rw [max_eq_left]; exact le_trans (min_le_right _ _) h.le

theorem cl_of_gt {x : K} (h : 1 < x) : cl x = 1 := by
  unfold cl; rw [min_eq_left h.le, max_eq_right zero_le_one]

theorem in_or (x : K) : x < 0 ∨ 1 < x ∨ In x := by
  by_cases h : x < 0
  · exact Or.inl h
  · by_cases h1 : 1 < x
    · exact Or.inr (Or.inl h1)
    · exact Or.inr (Or.inr ⟨not_lt.mp h, not_lt.mp h1⟩)

theorem uIcc_cl (a b y : K) (h : ¬ beside a b) : y ∈ Set.uIcc (cl a) (cl b) ↔ y ∈ Set.uIcc a b ∧ In y := by
  simp only [Set.mem_uIcc, In]
  simp only [beside, not_or, not_and, not_lt] at h
  unfold cl
  constructor
  · rintro (⟨h1, h2⟩ | ⟨h1, h2⟩)
    · have g0 := le_trans (le_max_left _ _) h1
      have g1 := le_trans h2 (max_le zero_le_one (min_le_left _ _))
      refine ⟨?_, g0, g1⟩
      have k1 : min 1 a ≤ y := le_trans (le_max_right _ _) h1
      have k2 : y ≤ max 0 b := le_trans h2 (max_le_max_left 0 (min_le_right _ _))
      rcases min_le_iff.mp k1 with k1 | k1
      · have hy : y = 1 := le_antisymm g1 k1
        rcases le_max_iff.mp k2 with k2 | k2
        · exfalso; linarith
        · by_cases ha : a ≤ y
          · exact Or.inl ⟨ha, k2⟩
          · have := h.2 (by linarith [not_le.mp ha])
            exact Or.inr ⟨by linarith, by linarith [not_le.mp ha]⟩
      · rcases le_max_iff.mp k2 with k2 | k2
        · have hy : y = 0 := le_antisymm k2 g0
          by_cases hb : y ≤ b
          · exact Or.inl ⟨k1, hb⟩
          · by_cases ha : a < 0
            · have := h.1 ha; exfalso; linarith [not_le.mp hb]
            · exact Or.inr ⟨by linarith [not_le.mp hb], by linarith⟩
        · exact Or.inl ⟨k1, k2⟩
    · have g0 := le_trans (le_max_left _ _) h1
      have g1 := le_trans h2 (max_le zero_le_one (min_le_left _ _))
      refine ⟨?_, g0, g1⟩
      have k1 : min 1 b ≤ y := le_trans (le_max_right _ _) h1
      have k2 : y ≤ max 0 a := le_trans h2 (max_le_max_left 0 (min_le_right _ _))
      rcases min_le_iff.mp k1 with k1 | k1
      · have hy : y = 1 := le_antisymm g1 k1
        rcases le_max_iff.mp k2 with k2 | k2
        · exfalso; linarith
        · by_cases hb : b ≤ y
          · exact Or.inr ⟨hb, k2⟩
          · by_cases ha : 1 < a
            · have := h.2 ha; exfalso; linarith [not_le.mp hb]
            · exact Or.inl ⟨by linarith [not_lt.mp ha], by linarith [not_le.mp hb]⟩
      · rcases le_max_iff.mp k2 with k2 | k2
        · have hy : y = 0 := le_antisymm k2 g0
          by_cases ha : y ≤ a
          · exact Or.inr ⟨k1, ha⟩
          · have := h.1 (by linarith [not_le.mp ha])
            exact Or.inl ⟨by linarith [not_le.mp ha], by linarith⟩
        · exact Or.inr ⟨k1, k2⟩
  · rintro ⟨h1, g0, g1⟩
    rcases h1 with ⟨h1, h2⟩ | ⟨h1, h2⟩
    · exact Or.inl ⟨max_le g0 (le_trans (min_le_right _ _) h1), le_trans (le_min g1 h2) (le_max_right _ _)⟩
    · exact Or.inr ⟨max_le g0 (le_trans (min_le_right _ _) h1), le_trans (le_min g1 h2) (le_max_right _ _)⟩

/-- C105: `clip` is the part of a line within the graph. -/
theorem clip_spec (s : Seg K) (p : Pt K) : (On s.ends p ∧ In p.1 ∧ In p.2) ↔ ∃ c, clip s = some c ∧ On c p := by
  cases s with
  | vert x a b =>
    simp only [clip, Seg.ends, On, Set.uIcc_self, Set.mem_singleton_iff]
    constructor
    · rintro ⟨⟨rfl, h2⟩, h3, h4⟩
      have hb : ¬ beside a b := by
        rintro (⟨ha, hb⟩ | ⟨ha, hb⟩)
        · rcases Set.mem_uIcc.mp h2 with h | h
          · linarith [h4.1]
          · linarith [h4.1]
        · rcases Set.mem_uIcc.mp h2 with h | h
          · linarith [h4.2]
          · linarith [h4.2]
      rw [if_pos ⟨h3, hb⟩]
      exact ⟨_, rfl, by simp, (uIcc_cl a b _ hb).mpr ⟨h2, h4⟩⟩
    · rintro ⟨c, h1, h2⟩
      split_ifs at h1 with h
      cases h1
      simp only [Set.uIcc_self, Set.mem_singleton_iff] at h2
      obtain ⟨h3, h4⟩ := (uIcc_cl a b _ h.2).mp h2.2
      exact ⟨⟨h2.1, h3⟩, h2.1 ▸ h.1, h4⟩
  | horiz x a b =>
    simp only [clip, Seg.ends, On, Set.uIcc_self, Set.mem_singleton_iff]
    constructor
    · rintro ⟨⟨h2, rfl⟩, h4, h3⟩
      have hb : ¬ beside a b := by
        rintro (⟨ha, hb⟩ | ⟨ha, hb⟩)
        · rcases Set.mem_uIcc.mp h2 with h | h
          · linarith [h4.1]
          · linarith [h4.1]
        · rcases Set.mem_uIcc.mp h2 with h | h
          · linarith [h4.2]
          · linarith [h4.2]
      rw [if_pos ⟨h3, hb⟩]
      exact ⟨_, rfl, (uIcc_cl a b _ hb).mpr ⟨h2, h4⟩, by simp⟩
    · rintro ⟨c, h1, h2⟩
      split_ifs at h1 with h
      cases h1
      simp only [Set.uIcc_self, Set.mem_singleton_iff] at h2
      obtain ⟨h3, h4⟩ := (uIcc_cl a b _ h.2).mp h2.1
      exact ⟨⟨h3, h2.2⟩, h4, h2.2 ▸ h.1⟩

theorem ex_on_vert (x0 a b y : K) : (∃ x, ∃ s ∈ [Seg.vert x0 a b], On s.ends (x, y)) ↔ y ∈ Set.uIcc a b := by
  simp [On, Seg.ends]

/-- C105: without steps, the edge shared by two ranges consists of the edges of both. -/
theorem edge_hull (eps base : K) (l : K × K) (b : Bin K) (h : |b.min - l.1| ≤ eps) (y : K) :
    (∃ x, ∃ s ∈ edge false eps base (some l) (some b), On s.ends (x, y)) ↔ y ∈ Set.uIcc base l.2 ∨ y ∈ Set.uIcc base b.v := by
  simp only [edge, if_pos h, Bool.false_eq_true, false_or]
  split_ifs with h1 h2
  · rw [ex_on_vert]
    simp only [Set.mem_uIcc]
    constructor
    · intro h3
      rcases h1 with ⟨a, b⟩ | ⟨a, b⟩ <;> rcases h3 with ⟨c, d⟩ | ⟨c, d⟩ <;> rcases le_total y base with e | e
      · exact Or.inl (Or.inr ⟨c, e⟩)
      · exact Or.inr (Or.inl ⟨e, d⟩)
      · exfalso; linarith
      · exfalso; linarith
      · exfalso; linarith
      · exfalso; linarith
      · exact Or.inr (Or.inr ⟨c, e⟩)
      · exact Or.inl (Or.inl ⟨e, d⟩)
    · intro h3
      rcases h1 with ⟨a, b⟩ | ⟨a, b⟩ <;> rcases h3 with (⟨c, d⟩ | ⟨c, d⟩) | (⟨c, d⟩ | ⟨c, d⟩)
      · exfalso; linarith
      · exact Or.inl ⟨c, by linarith⟩
      · exact Or.inl ⟨by linarith, d⟩
      · exfalso; linarith
      · exact Or.inr ⟨by linarith, d⟩
      · exfalso; linarith
      · exfalso; linarith
      · exact Or.inr ⟨c, by linarith⟩
  · rw [ex_on_vert, Set.uIcc_comm l.2 base]
    constructor
    · intro h3; exact Or.inl h3
    · rintro (h3 | h3)
      · exact h3
      · push Not at h1
        simp only [Set.mem_uIcc] at h3 ⊢
        rcases le_total base l.2 with e | e
        · have hb : base ≤ b.v := by
            by_contra hc
            have := h1.2 (not_le.mp hc)
            have e2 : l.2 = base := le_antisymm this e
            rw [e2, sub_self, abs_zero] at h2
            have := abs_pos.mpr (sub_ne_zero.mpr (not_le.mp hc).ne)
            linarith
          rw [abs_of_nonneg (sub_nonneg.mpr hb), abs_of_nonneg (sub_nonneg.mpr e)] at h2
          rcases h3 with ⟨c, d⟩ | ⟨c, d⟩
          · exact Or.inl ⟨c, by linarith⟩
          · exact Or.inl ⟨by linarith, by linarith⟩
        · have hb : b.v ≤ base := by
            by_contra hc
            rcases e.eq_or_lt with e2 | e2
            · rw [e2, sub_self, abs_zero] at h2
              have := abs_pos.mpr (sub_ne_zero.mpr (not_le.mp hc).ne')
              linarith
            · have := h1.1 e2
              linarith [not_le.mp hc]
          rw [abs_of_nonpos (sub_nonpos.mpr hb), abs_of_nonpos (sub_nonpos.mpr e)] at h2
          rcases h3 with ⟨c, d⟩ | ⟨c, d⟩
          · exact Or.inr ⟨by linarith, by linarith⟩
          · exact Or.inr ⟨by linarith, d⟩
  · rw [ex_on_vert]
    constructor
    · intro h3; exact Or.inr h3
    · rintro (h3 | h3)
      · push Not at h1 h2
        simp only [Set.mem_uIcc] at h3 ⊢
        rcases le_total base b.v with e | e
        · have hb : base ≤ l.2 := by
            by_contra hc
            have := h1.1 (not_le.mp hc)
            have e2 : b.v = base := le_antisymm this e
            rw [e2, sub_self, abs_zero] at h2
            have := abs_nonneg (l.2 - base)
            linarith
          rw [abs_of_nonneg (sub_nonneg.mpr hb), abs_of_nonneg (sub_nonneg.mpr e)] at h2
          rcases h3 with ⟨c, d⟩ | ⟨c, d⟩
          · exact Or.inl ⟨c, by linarith⟩
          · exact Or.inl ⟨by linarith, by linarith⟩
        · have hb : l.2 ≤ base := by
            by_contra hc
            rcases e.eq_or_lt with e2 | e2
            · rw [e2, sub_self, abs_zero] at h2
              have := abs_nonneg (l.2 - base)
              linarith
            · have := h1.2 e2
              linarith [not_le.mp hc]
          rw [abs_of_nonpos (sub_nonpos.mpr hb), abs_of_nonpos (sub_nonpos.mpr e)] at h2
          rcases h3 with ⟨c, d⟩ | ⟨c, d⟩
          · exact Or.inr ⟨by linarith, by linarith⟩
          · exact Or.inr ⟨by linarith, d⟩
      · exact h3

/-! ## Paths -/

theorem run_append (pen : Option (Pt K × Pt K)) (a b : List (Op K)) (s1 s2 : List (Pt K × Pt K)) (p1 p2 : Option (Pt K × Pt K))
    (h1 : run pen a = some (s1, p1)) (h2 : run p1 b = some (s2, p2)) : run pen (a ++ b) = some (s1 ++ s2, p2) := by
  induction a generalizing pen s1 with
  | nil => simp only [run, Option.some.injEq, Prod.mk.injEq] at h1; obtain ⟨rfl, rfl⟩ := h1; exact h2
  | cons o a ih =>
    cases o with
    | move p =>
      rw [List.cons_append, run.eq_2]
      rw [run.eq_2] at h1
      exact ih _ _ h1
    | line q =>
      cases pen with
      | none => cases h1
      | some sc =>
        obtain ⟨s, c⟩ := sc
        simp only [run, List.cons_append, Option.map_eq_some_iff] at h1 ⊢
        obtain ⟨r, hr, he⟩ := h1
        cases he
        exact ⟨_, ih _ _ hr, rfl⟩
    | close =>
      cases pen with
      | none => cases h1
      | some sc =>
        obtain ⟨s, c⟩ := sc
        simp only [run, List.cons_append, Option.map_eq_some_iff] at h1 ⊢
        obtain ⟨r, hr, he⟩ := h1
        cases he
        exact ⟨_, ih _ _ hr, rfl⟩

/-- The current point is this one. -/
def At (pen : Option (Pt K × Pt K)) (p : Pt K) : Prop := ∃ s, pen = some (s, p)

theorem inGraph_iff (c : Cfg K) (he : 0 < c.eps) (x : K) (hx : Clr c.eps x) : inGraph c x = true ↔ In x := by
  simp only [inGraph, Bool.and_eq_true, decide_eq_true_eq, In]
  constructor
  · rintro ⟨h1, h2⟩
    exact ⟨not_lt.mp fun h => absurd (hx.1 h) (not_le.mpr h1), not_lt.mp fun h => absurd (hx.2 h) (not_le.mpr h2)⟩
  · rintro ⟨h1, h2⟩
    exact ⟨by linarith, by linarith⟩

theorem cut_of_in {x : K} (h : In x) : cut x = (x, 0) := by
  unfold cut; rw [if_neg (not_lt.mpr h.1), if_neg (not_lt.mpr h.2)]

theorem cut_fst (x : K) : (cut x).1 = cl x := by
  rcases in_or x with h | h | h
  · rw [cl_of_neg h]; simp [cut, h]
  · rw [cl_of_gt h]; simp [cut, h, not_lt.mpr (le_of_lt (lt_trans zero_lt_one h))]
  · rw [cl_of_in h, cut_of_in h]

theorem cut_ne (x : K) : (cut x).2 ≠ 0 ↔ ¬ In x := by
  rcases in_or x with h | h | h
  · simp [cut, h, In, not_le.mpr h]
  · simp [cut, h, In, not_le.mpr h, not_lt.mpr (le_of_lt (lt_trans zero_lt_one h))]
  · simp [cut_of_in h, h]

theorem cut_beside (a b : K) : |(cut a).2 + (cut b).2| ≤ 1 ↔ ¬ beside a b := by
  unfold beside cut
  have h01 : ∀ x : K, x < 0 → ¬ 1 < x := fun x h h1 => absurd (lt_trans h (lt_trans zero_lt_one h1)) (lt_irrefl _)
  by_cases a0 : a < 0 <;> by_cases b0 : b < 0 <;> by_cases a1 : 1 < a <;> by_cases b1 : 1 < b <;>
    first
    | exact absurd a1 (h01 a a0)
    | exact absurd b1 (h01 b b0)
    | (simp only [a0, b0, a1, b1, if_true, if_false]; decide)

section Open

variable (c : Cfg K) (he : 0 < c.eps) (hf : c.fillable = false)

include he hf

theorem run_vposline (pen : Option (Pt K × Pt K)) (pos v1 v2 : K) (hp : Clr c.eps pos) (hpen : In pos → In v1 → At pen (pos, v1)) :
    ∃ pen', run pen (vposline c pos v1 v2) = some ((clip (.vert pos v1 v2)).toList, pen') ∧ (In pos → In v2 → At pen' (pos, v2)) := by
  unfold vposline
  simp only [clip]
  by_cases hin : In pos
  · rw [if_pos ((inGraph_iff c he pos hp).mpr hin)]
    by_cases hb : beside v1 v2
    · rw [if_neg (fun h => (cut_beside v1 v2).mp h hb), if_neg (fun h => h.2 hb)]
      refine ⟨pen, rfl, fun _ h2 => ?_⟩
      rcases hb with ⟨_, h⟩ | ⟨_, h⟩
      · exact absurd h2.1 (not_le.mpr h)
      · exact absurd h2.2 (not_le.mpr h)
    · rw [if_pos ((cut_beside v1 v2).mpr hb), if_pos (c := In pos ∧ ¬ beside v1 v2) ⟨hin, hb⟩, cut_fst, cut_fst]
      by_cases h1 : In v1
      · obtain ⟨s, hs⟩ := hpen hin h1
        rw [if_neg (fun h => (cut_ne v1).mp h.1 h1), hs, cl_of_in h1]
        exact ⟨_, rfl, fun _ h2 => ⟨s, by rw [cl_of_in h2]⟩⟩
      · rw [if_pos ⟨(cut_ne v1).mpr h1, hf⟩]
        exact ⟨_, rfl, fun _ h2 => ⟨_, by rw [cl_of_in h2]⟩⟩
  · rw [if_neg (fun h => hin ((inGraph_iff c he pos hp).mp h)), if_neg (fun h => hin h.1)]
    exact ⟨pen, rfl, fun h => absurd h hin⟩

omit hf in
theorem run_vmoveto (pen : Option (Pt K × Pt K)) (pos v : K) (hp : Clr c.eps pos) (hv : Clr c.eps v) :
    ∃ pen', run pen (vmoveto c pos v) = some ([], pen') ∧ (In pos → In v → At pen' (pos, v)) := by
  unfold vmoveto
  split_ifs with h
  · exact ⟨_, rfl, fun _ _ => ⟨_, rfl⟩⟩
  · refine ⟨pen, rfl, fun h1 h2 => ?_⟩
    rw [(inGraph_iff c he pos hp).mpr h1, (inGraph_iff c he v hv).mpr h2] at h
    exact absurd rfl h

theorem run_vvalueline (pen : Option (Pt K × Pt K)) (v p1 p2 : K) (hv : Clr c.eps v) (hpen : In v → In p1 → At pen (p1, v)) :
    ∃ pen', run pen (vvalueline c v p1 p2) = some ((clip (.horiz v p1 p2)).toList, pen') ∧ (In p2 → In v → At pen' (p2, v)) := by
  unfold vvalueline
  simp only [clip, hf, Bool.false_eq_true, if_false, Bool.false_or, Bool.false_and, List.append_nil]
  by_cases hin : In v
  · rw [if_pos ((inGraph_iff c he v hv).mpr hin)]
    by_cases hb : beside p1 p2
    · rw [if_neg (fun h => (cut_beside p1 p2).mp h hb), if_neg (fun h => h.2 hb)]
      refine ⟨pen, rfl, fun h2 _ => ?_⟩
      rcases hb with ⟨_, h⟩ | ⟨_, h⟩
      · exact absurd h2.1 (not_le.mpr h)
      · exact absurd h2.2 (not_le.mpr h)
    · rw [if_pos ((cut_beside p1 p2).mpr hb), if_pos (c := In v ∧ ¬ beside p1 p2) ⟨hin, hb⟩, cut_fst, cut_fst]
      by_cases h1 : In p1
      · obtain ⟨s, hs⟩ := hpen hin h1
        rw [if_neg (fun h => (cut_ne p1).mp h h1), hs, cl_of_in h1]
        exact ⟨_, rfl, fun h2 _ => ⟨s, by rw [cl_of_in h2]⟩⟩
      · rw [if_pos ((cut_ne p1).mpr h1)]
        exact ⟨_, rfl, fun h2 _ => ⟨_, by rw [cl_of_in h2]⟩⟩
  · rw [if_neg (fun h => hin ((inGraph_iff c he v hv).mp h)), if_neg (fun h => hin h.1)]
    exact ⟨pen, rfl, fun _ h => absurd h hin⟩

end Open

/-- Where the pen is behind a range. -/
def PenOk (last : Option (K × K)) (pen : Option (Pt K × Pt K)) : Prop := ∀ l, last = some l → In l.1 → In l.2 → At pen l

theorem mul_neg_sides (l b base : K) : (l - base) * (b - base) < 0 ↔ (l < base ∧ base < b) ∨ (b < base ∧ base < l) := by
  rw [mul_neg_iff]
  constructor
  · rintro (⟨h1, h2⟩ | ⟨h1, h2⟩)
    · exact Or.inr ⟨by linarith, by linarith⟩
    · exact Or.inl ⟨by linarith, by linarith⟩
  · rintro (⟨h1, h2⟩ | ⟨h1, h2⟩)
    · exact Or.inr ⟨by linarith, by linarith⟩
    · exact Or.inl ⟨by linarith, by linarith⟩

theorem drawvalue_open (c : Cfg K) (he : 0 < c.eps) (hf : c.fillable = false) (hb : In c.base) (last : Option (K × K)) (bin : Option (Bin K)) (pen : Option (Pt K × Pt K))
    (hpen : PenOk last pen) (hl : ∀ l, last = some l → Clr c.eps l.1 ∧ Clr c.eps l.2)
    (hbin : ∀ x, bin = some x → Clr c.eps x.min ∧ Clr c.eps x.max ∧ Clr c.eps x.v ∧ ∀ y, last = some y → |x.min - y.1| ≤ c.eps → x.min = y.1) :
    ∃ pen', run pen (drawvalue c last bin).1 = some ((edge c.steps c.eps c.base last bin ++ top bin).filterMap clip, pen') ∧ PenOk (drawvalue c last bin).2 pen' ∧
      (drawvalue c last bin).2 = endOfBin bin := by
  have hbc : Clr c.eps c.base := ⟨fun h => absurd hb.1 (not_le.mpr h), fun h => absurd hb.2 (not_le.mpr h)⟩
  have hfm : ∀ s : Seg K, List.filterMap clip [s] = (clip s).toList := by
    intro s; cases h : clip s <;> simp [h]
  cases last with
  | none =>
    cases bin with
    | none => exact ⟨pen, rfl, fun l h => (by cases h), rfl⟩
    | some b =>
      obtain ⟨b1, b2, b3, -⟩ := hbin b rfl
      obtain ⟨q1, r1, a1⟩ := run_vmoveto c he pen b.min c.base b1 hbc
      obtain ⟨q2, r2, a2⟩ := run_vposline c he hf q1 b.min c.base b.v b1 a1
      obtain ⟨q3, r3, a3⟩ := run_vvalueline c he hf q2 b.v b.min b.max b3 (fun h1 h2 => a2 h2 h1)
      refine ⟨q3, ?_, fun l h h1 h2 => by cases h; exact a3 h1 h2, rfl⟩
      simp only [drawvalue, edge, top, List.filterMap_append, hfm]
      exact run_append _ _ _ _ _ _ _ (run_append _ _ _ _ _ _ _ r1 r2) r3
  | some l =>
    obtain ⟨l1, l2⟩ := hl l rfl
    cases bin with
    | none =>
      obtain ⟨q1, r1, a1⟩ := run_vposline c he hf pen l.1 l.2 c.base l1 (fun h1 h2 => hpen l rfl h1 h2)
      refine ⟨q1, ?_, fun l h => (by cases h), rfl⟩
      simp only [drawvalue, edge, top, List.append_nil, hfm]
      exact r1
    | some b =>
      obtain ⟨b1, b2, b3, b4⟩ := hbin b rfl
      have finish : ∀ (ops : List (Op K)) (segs : List (Seg K)) (q : Option (Pt K × Pt K)), run pen ops = some (segs.filterMap clip, q) → (In b.min → In b.v → At q (b.min, b.v)) →
          ∃ pen', run pen (ops ++ vvalueline c b.v b.min b.max) = some ((segs ++ top (some b)).filterMap clip, pen') ∧ PenOk (some (b.max, b.v)) pen' ∧
            some (b.max, b.v) = endOfBin (some b) := by
        intro ops segs q h1 h2
        obtain ⟨q3, r3, a3⟩ := run_vvalueline c he hf q b.v b.min b.max b3 (fun h h' => h2 h' h)
        refine ⟨q3, ?_, fun l h h1 h2 => by cases h; exact a3 h1 h2, rfl⟩
        simp only [List.filterMap_append, top, hfm]
        exact run_append _ _ _ _ _ _ _ h1 r3
      simp only [drawvalue, edge]
      by_cases hg : |b.min - l.1| ≤ c.eps
      · have e := b4 l rfl hg
        have hg' : gap c (some l) (some b) = false := decide_eq_false (not_lt.mpr hg)
        rw [if_pos hg]
        simp only [hg', Bool.not_false, Bool.true_and, Bool.or_false]
        by_cases hs : c.steps = true ∨ (l.2 < c.base ∧ c.base < b.v) ∨ (b.v < c.base ∧ c.base < l.2)
        · have hs' : (c.steps || decide ((l.2 - c.base) * (b.v - c.base) < 0)) = true := by
            rw [Bool.or_eq_true, decide_eq_true_eq, mul_neg_sides]; exact hs
          rw [if_pos hs', if_pos hs]
          obtain ⟨q1, r1, a1⟩ := run_vposline c he hf pen b.min l.2 b.v b1 (fun h1 h2 => by rw [e] at h1 ⊢; exact hpen l rfl h1 h2)
          exact finish _ [.vert b.min l.2 b.v] q1 (by rw [hfm]; exact r1) a1
        · have hs' : ¬ (c.steps || decide ((l.2 - c.base) * (b.v - c.base) < 0)) = true := by
            rw [Bool.or_eq_true, decide_eq_true_eq, mul_neg_sides]; exact hs
          rw [if_neg hs', if_neg hs]
          by_cases hbig : |b.v - c.base| ≤ |l.2 - c.base|
          · rw [if_pos hbig, decide_eq_false (not_lt.mpr hbig)]
            simp only [Bool.not_false, if_true, Bool.false_eq_true, if_false, List.append_nil]
            obtain ⟨q1, r1, a1⟩ := run_vposline c he hf pen l.1 l.2 c.base l1 (fun h1 h2 => hpen l rfl h1 h2)
            obtain ⟨q2, r2, a2⟩ := run_vmoveto c he q1 b.min b.v b1 b3
            exact finish _ [.vert l.1 l.2 c.base] q2 (by rw [hfm, ← List.append_nil (Option.toList _)]; exact run_append _ _ _ _ _ _ _ r1 r2) a2
          · rw [if_neg hbig, decide_eq_true (not_le.mp hbig)]
            simp only [Bool.not_true, if_true, Bool.false_eq_true, if_false, List.nil_append]
            obtain ⟨q1, r1, a1⟩ := run_vmoveto c he pen b.min c.base b1 hbc
            obtain ⟨q2, r2, a2⟩ := run_vposline c he hf q1 b.min c.base b.v b1 a1
            exact finish _ [.vert b.min c.base b.v] q2 (by rw [hfm]; exact run_append _ _ _ _ _ _ _ r1 r2) a2
      · have hg' : gap c (some l) (some b) = true := decide_eq_true (not_le.mp hg)
        rw [if_neg hg]
        simp only [hg', Bool.not_true, Bool.false_and, Bool.false_eq_true, if_false, Bool.or_true, if_true]
        obtain ⟨q1, r1, a1⟩ := run_vposline c he hf pen l.1 l.2 c.base l1 (fun h1 h2 => hpen l rfl h1 h2)
        obtain ⟨q2, r2, a2⟩ := run_vmoveto c he q1 b.min b.v b1 b3
        obtain ⟨q3, r3, a3⟩ := run_vmoveto c he q2 b.min c.base b1 hbc
        obtain ⟨q4, r4, a4⟩ := run_vposline c he hf q3 b.min c.base b.v b1 a3
        refine finish _ [.vert l.1 l.2 c.base, .vert b.min c.base b.v] q4 ?_ a4
        have : List.filterMap clip [Seg.vert l.1 l.2 c.base, Seg.vert b.min c.base b.v] = ((clip (.vert l.1 l.2 c.base)).toList ++ []) ++ ([] ++ (clip (.vert b.min c.base b.v)).toList) := by
          rw [← hfm, ← hfm, List.append_nil, List.nil_append, ← List.filterMap_append]; rfl
        rw [this]
        exact run_append _ _ _ _ _ _ _ (run_append _ _ _ _ _ _ _ r1 r2) (run_append _ _ _ _ _ _ _ r3 r4)

theorem drawAll_open (c : Cfg K) (he : 0 < c.eps) (hf : c.fillable = false) (hb : In c.base) (bins : List (Option (Bin K))) (last : Option (K × K)) (pen : Option (Pt K × Pt K))
    (hpen : PenOk last pen) (hl : ∀ l, last = some l → Clr c.eps l.1 ∧ Clr c.eps l.2) (hr : Regular c.eps last bins) :
    ∃ pen', run pen (drawAll c last bins) = some ((outlineFrom c.steps c.eps c.base last bins).filterMap clip, pen') := by
  induction bins generalizing last pen with
  | nil =>
    obtain ⟨q, r, -⟩ := drawvalue_open c he hf hb last none pen hpen hl (fun x h => by cases h)
    exact ⟨q, by simpa [drawAll, outlineFrom, top] using r⟩
  | cons b l ih =>
    obtain ⟨h1, h2⟩ := hr
    obtain ⟨q, r, hp, hlast⟩ := drawvalue_open c he hf hb last b pen hpen hl h1
    rw [hlast] at hp
    obtain ⟨q', r'⟩ := ih (endOfBin b) q hp (fun l hl' => by
      cases b with
      | none => cases hl'
      | some x => cases hl'; exact ⟨(h1 x rfl).2.1, (h1 x rfl).2.2.1⟩) h2
    refine ⟨q', ?_⟩
    simp only [drawAll, outlineFrom, List.filterMap_append, hlast]
    rw [← List.filterMap_append]
    exact run_append _ _ _ _ _ _ _ r r'

/-- C105: the path of a histogram (not fillable) draws exactly the parts within the graph of the outline of its ranges, in order. -/
theorem histogram_partial (c : Cfg K) (he : 0 < c.eps) (hf : c.fillable = false) (hb : In c.base) (bins : List (Option (Bin K))) (hr : Regular c.eps none bins) :
    ∃ pen, run none (path c bins) = some ((outlineFrom c.steps c.eps c.base none bins).filterMap clip, pen) :=
  drawAll_open c he hf hb bins none none (fun l h => by cases h) (fun l h => by cases h) hr

/-! ## Fillable histograms with steps -/

/-- Lines which are not just points. -/
def proper (l : List (Pt K × Pt K)) : List (Pt K × Pt K) := l.filter fun s => s.1 ≠ s.2

theorem proper_append (a b : List (Pt K × Pt K)) : proper (a ++ b) = proper a ++ proper b := List.filter_append _ _

theorem proper_eq (a : Pt K) : proper [(a, a)] = [] := by simp [proper]

theorem beside_cl (a b : K) (h : beside a b) : cl a = cl b := by
  rcases h with ⟨h1, h2⟩ | ⟨h1, h2⟩
  · rw [cl_of_neg h1, cl_of_neg h2]
  · rw [cl_of_gt h1, cl_of_gt h2]

theorem not_beside (a b : K) (h : In b) : ¬ beside a b := by
  rintro (⟨_, h2⟩ | ⟨_, h2⟩)
  · exact absurd h.1 (not_le.mpr h2)
  · exact absurd h.2 (not_le.mpr h2)

theorem clampFill_eq (c : Cfg K) (he : 0 < c.eps) (v : K) (hv : v < 0 ∨ 1 < v → Clr c.eps v ∧ v ≠ -c.eps ∧ v ≠ 1 + c.eps) : clampFill c v = cl v := by
  unfold clampFill
  rcases in_or v with h | h | h
  · obtain ⟨h1, h2, -⟩ := hv (Or.inl h)
    have : v < -c.eps := lt_of_le_of_ne (h1.1 h) h2
    simp only [if_pos this, cl_of_neg h]
    rw [if_neg (by linarith)]
  · obtain ⟨h1, -, h2⟩ := hv (Or.inr h)
    have h3 : 1 + c.eps < v := lt_of_le_of_ne (h1.2 h) (Ne.symm h2)
    have h4 : ¬ v < -c.eps := by linarith
    simp only [if_neg h4, if_pos h3, cl_of_gt h]
  · have h3 : ¬ v < -c.eps := by linarith [h.1]
    have h4 : ¬ 1 + c.eps < v := by linarith [h.2]
    simp only [if_neg h3, if_neg h4, cl_of_in h]

section Fill

variable (c : Cfg K) (he : 0 < c.eps) (hf : c.fillable = true)

include he hf

theorem fill_vposline (pen : Option (Pt K × Pt K)) (pos v1 v2 : K) (hp : Clr c.eps pos) (hpen : In pos → At pen (pos, cl v1)) :
    ∃ segs pen', run pen (vposline c pos v1 v2) = some (segs, pen') ∧ proper segs = proper (fill c.base (.vert pos v1 v2)) ∧ (In pos → At pen' (pos, cl v2)) := by
  unfold vposline
  simp only [fill]
  by_cases hin : In pos
  · rw [if_pos ((inGraph_iff c he pos hp).mpr hin), if_pos hin]
    obtain ⟨s, hs⟩ := hpen hin
    by_cases hb : beside v1 v2
    · rw [if_neg (fun h => (cut_beside v1 v2).mp h hb)]
      refine ⟨[], pen, rfl, ?_, fun _ => ⟨s, ?_⟩⟩
      · rw [beside_cl v1 v2 hb, proper_eq]; rfl
      · rw [hs, beside_cl v1 v2 hb]
    · rw [if_pos ((cut_beside v1 v2).mpr hb), cut_fst, cut_fst, hs]
      have : ¬ ((cut v1).2 ≠ 0 ∧ c.fillable = false) := fun h => by rw [hf] at h; cases h.2
      rw [if_neg this]
      exact ⟨_, _, rfl, rfl, fun _ => ⟨s, rfl⟩⟩
  · rw [if_neg (fun h => hin ((inGraph_iff c he pos hp).mp h)), if_neg hin]
    exact ⟨[], pen, rfl, rfl, fun h => absurd h hin⟩

theorem fill_vvalueline (pen : Option (Pt K × Pt K)) (v p1 p2 : K) (hv : v < 0 ∨ 1 < v → Clr c.eps v ∧ v ≠ -c.eps ∧ v ≠ 1 + c.eps) (hpen : In p1 → At pen (p1, cl v)) :
    ∃ pen', run pen (vvalueline c v p1 p2) = some (fill c.base (.horiz v p1 p2), pen') ∧ (In p2 → At pen' (p2, cl v)) := by
  unfold vvalueline
  simp only [fill, hf, if_true, Bool.true_or, Bool.true_and, clampFill_eq c he v hv, cut_fst]
  by_cases hb : beside p1 p2
  · rw [if_neg (fun h => (cut_beside p1 p2).mp h hb), if_pos hb]
    exact ⟨pen, rfl, fun h => absurd hb (not_beside p1 p2 h)⟩
  · rw [if_pos ((cut_beside p1 p2).mpr hb), if_neg hb]
    by_cases h1 : In p1
    · obtain ⟨s, hs⟩ := hpen h1
      rw [if_neg (fun h => (cut_ne p1).mp h h1), if_pos h1, hs, cl_of_in h1]
      by_cases h2 : In p2
      · rw [if_neg (fun h => (cut_ne p2).mp (of_decide_eq_true h) h2), if_pos h2]
        exact ⟨_, rfl, fun _ => ⟨s, by rw [cl_of_in h2]⟩⟩
      · rw [if_pos (decide_eq_true ((cut_ne p2).mpr h2)), if_neg h2]
        exact ⟨_, rfl, fun h => absurd h h2⟩
    · rw [if_pos ((cut_ne p1).mpr h1), if_neg h1]
      by_cases h2 : In p2
      · rw [if_neg (fun h => (cut_ne p2).mp (of_decide_eq_true h) h2), if_pos h2]
        exact ⟨_, rfl, fun _ => ⟨_, by rw [cl_of_in h2]⟩⟩
      · rw [if_pos (decide_eq_true ((cut_ne p2).mpr h2)), if_neg h2]
        exact ⟨_, rfl, fun h => absurd h h2⟩

end Fill

/-- Where the pen is behind a range of a fillable histogram. -/
def PenFill (last : Option (K × K)) (pen : Option (Pt K × Pt K)) : Prop := ∀ l, last = some l → In l.1 → At pen (l.1, cl l.2)

/-- Values of fillable histograms are also not at the tolerance. -/
def RegularFill (eps : K) (bins : List (Option (Bin K))) : Prop := ∀ x, some x ∈ bins → x.v ≠ -eps ∧ x.v ≠ 1 + eps

theorem drawvalue_fill (c : Cfg K) (he : 0 < c.eps) (hf : c.fillable = true) (hs : c.steps = true) (hb : In c.base) (last : Option (K × K)) (bin : Option (Bin K))
    (pen : Option (Pt K × Pt K)) (hpen : PenFill last pen) (hl : ∀ l, last = some l → Clr c.eps l.1)
    (hbin : ∀ x, bin = some x → Clr c.eps x.min ∧ Clr c.eps x.max ∧ Clr c.eps x.v ∧ ∀ y, last = some y → |x.min - y.1| ≤ c.eps → x.min = y.1)
    (hv : ∀ x, bin = some x → x.v ≠ -c.eps ∧ x.v ≠ 1 + c.eps) :
    ∃ segs pen', run pen (drawvalue c last bin).1 = some (segs, pen') ∧ proper segs = proper ((edge c.steps c.eps c.base last bin ++ top bin).flatMap (fill c.base)) ∧
      PenFill (drawvalue c last bin).2 pen' ∧ (drawvalue c last bin).2 = endOfBin bin := by
  have hbc : Clr c.eps c.base := ⟨fun h => absurd hb.1 (not_le.mpr h), fun h => absurd hb.2 (not_le.mpr h)⟩
  have hone : ∀ s : Seg K, List.flatMap (fill c.base) [s] = fill c.base s := fun s => by simp
  cases last with
  | none =>
    cases bin with
    | none => exact ⟨[], pen, rfl, rfl, fun l h => (by cases h), rfl⟩
    | some b =>
      obtain ⟨b1, b2, b3, -⟩ := hbin b rfl
      obtain ⟨q1, r1, a1⟩ := run_vmoveto c he pen b.min c.base b1 hbc
      obtain ⟨s2, q2, r2, e2, a2⟩ := fill_vposline c he hf q1 b.min c.base b.v b1 (fun h => by rw [cl_of_in hb]; exact a1 h hb)
      obtain ⟨q3, r3, a3⟩ := fill_vvalueline c he hf q2 b.v b.min b.max (fun _ => ⟨b3, hv b rfl⟩) a2
      refine ⟨_, q3, run_append _ _ _ _ _ _ _ (run_append _ _ _ _ _ _ _ r1 r2) r3, ?_, fun l h h1 => by cases h; exact a3 h1, rfl⟩
      simp only [edge, top, List.flatMap_append, hone, List.nil_append, proper_append, e2]
  | some l =>
    have l1 := hl l rfl
    cases bin with
    | none =>
      obtain ⟨s1, q1, r1, e1, a1⟩ := fill_vposline c he hf pen l.1 l.2 c.base l1 (hpen l rfl)
      refine ⟨s1, q1, r1, ?_, fun l h => (by cases h), rfl⟩
      simp only [edge, top, List.append_nil, hone, e1]
    | some b =>
      obtain ⟨b1, b2, b3, b4⟩ := hbin b rfl
      have finish : ∀ (ops : List (Op K)) (sg : List (Pt K × Pt K)) (segs : List (Seg K)) (q : Option (Pt K × Pt K)), run pen ops = some (sg, q) →
          proper sg = proper (segs.flatMap (fill c.base)) → (In b.min → At q (b.min, cl b.v)) →
          ∃ sg' pen', run pen (ops ++ vvalueline c b.v b.min b.max) = some (sg', pen') ∧ proper sg' = proper ((segs ++ top (some b)).flatMap (fill c.base)) ∧
            PenFill (some (b.max, b.v)) pen' ∧ some (b.max, b.v) = endOfBin (some b) := by
        intro ops sg segs q h1 h2 h3
        obtain ⟨q3, r3, a3⟩ := fill_vvalueline c he hf q b.v b.min b.max (fun _ => ⟨b3, hv b rfl⟩) h3
        refine ⟨_, q3, run_append _ _ _ _ _ _ _ h1 r3, ?_, fun l h h1 => by cases h; exact a3 h1, rfl⟩
        simp only [top, List.flatMap_append, hone, proper_append, h2]
      simp only [drawvalue, edge]
      by_cases hg : |b.min - l.1| ≤ c.eps
      · have e := b4 l rfl hg
        have hg' : gap c (some l) (some b) = false := decide_eq_false (not_lt.mpr hg)
        rw [if_pos hg]
        simp only [hg', hs, Bool.not_false, Bool.true_and, Bool.true_or, if_true, true_or]
        obtain ⟨s1, q1, r1, e1, a1⟩ := fill_vposline c he hf pen b.min l.2 b.v b1 (fun h1 => by rw [e] at h1 ⊢; exact hpen l rfl h1)
        exact finish _ s1 [.vert b.min l.2 b.v] q1 r1 (by rw [hone, e1]) a1
      · have hg' : gap c (some l) (some b) = true := decide_eq_true (not_le.mp hg)
        rw [if_neg hg]
        simp only [hg', Bool.not_true, Bool.false_and, Bool.false_eq_true, if_false, Bool.or_true, if_true]
        obtain ⟨s1, q1, r1, e1, a1⟩ := fill_vposline c he hf pen l.1 l.2 c.base l1 (hpen l rfl)
        obtain ⟨q2, r2, a2⟩ := run_vmoveto c he q1 b.min b.v b1 b3
        obtain ⟨q3, r3, a3⟩ := run_vmoveto c he q2 b.min c.base b1 hbc
        obtain ⟨s4, q4, r4, e4, a4⟩ := fill_vposline c he hf q3 b.min c.base b.v b1 (fun h => by rw [cl_of_in hb]; exact a3 h hb)
        refine finish _ _ [.vert l.1 l.2 c.base, .vert b.min c.base b.v] q4 (run_append _ _ _ _ _ _ _ (run_append _ _ _ _ _ _ _ r1 r2) (run_append _ _ _ _ _ _ _ r3 r4)) ?_ a4
        rw [List.append_nil, List.nil_append, List.flatMap_cons, hone, proper_append, proper_append, e1, e4]

theorem drawAll_fill (c : Cfg K) (he : 0 < c.eps) (hf : c.fillable = true) (hs : c.steps = true) (hb : In c.base) (bins : List (Option (Bin K))) (last : Option (K × K))
    (pen : Option (Pt K × Pt K)) (hpen : PenFill last pen) (hl : ∀ l, last = some l → Clr c.eps l.1) (hr : Regular c.eps last bins) (hv : RegularFill c.eps bins) :
    ∃ segs pen', run pen (drawAll c last bins) = some (segs, pen') ∧ proper segs = proper ((outlineFrom c.steps c.eps c.base last bins).flatMap (fill c.base)) := by
  induction bins generalizing last pen with
  | nil =>
    obtain ⟨sg, q, r, e, -⟩ := drawvalue_fill c he hf hs hb last none pen hpen hl (fun x h => by cases h) (fun x h => by cases h)
    exact ⟨sg, q, r, by simpa [outlineFrom, top] using e⟩
  | cons b l ih =>
    obtain ⟨h1, h2⟩ := hr
    obtain ⟨sg, q, r, e, hp, hlast⟩ := drawvalue_fill c he hf hs hb last b pen hpen hl h1 (fun x h => hv x (by rw [h]; exact List.mem_cons_self))
    rw [hlast] at hp
    obtain ⟨sg', q', r', e'⟩ := ih (endOfBin b) q hp (fun l hl' => by
      cases b with
      | none => cases hl'
      | some x => cases hl'; exact (h1 x rfl).2.1) h2 (fun x h => hv x (List.mem_cons_of_mem _ h))
    refine ⟨sg ++ sg', q', ?_, ?_⟩
    · simp only [drawAll, hlast]
      exact run_append _ _ _ _ _ _ _ r r'
    · simp only [outlineFrom]
      rw [List.flatMap_append, proper_append, proper_append, e, e']

/-- C105: the path of a fillable histogram with steps draws the outline moved into the graph: values outside are drawn at the boundary, and a range which is cut is closed
by a line at the boundary to the base. -/
theorem fillable_steps_partial (c : Cfg K) (he : 0 < c.eps) (hf : c.fillable = true) (hs : c.steps = true) (hb : In c.base) (bins : List (Option (Bin K)))
    (hr : Regular c.eps none bins) (hv : RegularFill c.eps bins) :
    ∃ segs pen, run none (path c bins) = some (segs, pen) ∧ proper segs = proper ((outlineFrom c.steps c.eps c.base none bins).flatMap (fill c.base)) :=
  drawAll_fill c he hf hs hb bins none none (fun l h => by cases h) (fun l h => by cases h) hr hv

/-! ## Fillable histograms without steps -/

/-- The corners of a range moved into the graph, counterclockwise. -/
def corners (base : K) (b : Bin K) : List (Pt K) := [(cl b.min, base), (cl b.max, base), (cl b.max, cl b.v), (cl b.min, cl b.v)]

/-- A polygon which is drawn without its last side, or with it. -/
def polygon (closed : Bool) : List (Pt K) → List (Op K)
  | [] => []
  | p :: l => .move p :: l.map .line ++ (if closed then [.line p, .close] else [])

open Classical in
/-- The sides of a rectangle which are cut, in the order of the corners: below, right, above, left. -/
noncomputable def cutSides (from_ : K) (b : Bin K) : List Bool := [decide (¬ In from_), decide (¬ In b.max), decide (¬ In b.v), decide (¬ In b.min)]

theorem onehot (a b c d : Bool) (k : ℕ) : (∀ j, [a, b, c, d][j]? = some true ↔ j = k) ↔
    (k = 0 ∧ a = true ∧ b = false ∧ c = false ∧ d = false) ∨ (k = 1 ∧ a = false ∧ b = true ∧ c = false ∧ d = false) ∨
    (k = 2 ∧ a = false ∧ b = false ∧ c = true ∧ d = false) ∨ (k = 3 ∧ a = false ∧ b = false ∧ c = false ∧ d = true) := by
  constructor
  · intro h
    have h0 := h 0
    have h1 := h 1
    have h2 := h 2
    have h3 := h 3
    have hk := (h k).mpr rfl
    rcases k with _ | _ | _ | _ | k
    all_goals simp_all
  · rintro (⟨rfl, rfl, rfl, rfl, rfl⟩ | ⟨rfl, rfl, rfl, rfl, rfl⟩ | ⟨rfl, rfl, rfl, rfl, rfl⟩ | ⟨rfl, rfl, rfl, rfl, rfl⟩) j <;>
      rcases j with _ | _ | _ | _ | j <;> simp

theorem cutEps_eq (eps x : K) (he : 0 ≤ eps) (hx : ClearAt eps x) : cutEps eps x = cut x := by
  unfold cutEps cut
  by_cases h0 : x < 0
  · rw [if_pos (hx.1 h0), if_pos h0]
  · have : ¬ x < -eps := by linarith [not_lt.mp h0]
    rw [if_neg this, if_neg h0]
    by_cases h1 : 1 < x
    · rw [if_pos (hx.2 h1), if_pos h1]
    · have : ¬ 1 + eps < x := by linarith [not_lt.mp h1]
      rw [if_neg this, if_neg h1]

open Classical in
theorem cut_abs (x : K) : |(cut x).2| = if In x then 0 else 1 := by
  rcases in_or x with h | h | h
  · have : ¬ In x := fun g => absurd g.1 (not_le.mpr h)
    rw [if_neg this]; simp [cut, h]
  · have : ¬ In x := fun g => absurd g.2 (not_le.mpr h)
    rw [if_neg this]; simp [cut, h, not_lt.mpr (le_of_lt (lt_trans zero_lt_one h))]
  · rw [if_pos h, cut_of_in h]; rfl

/-- C105: a range of a fillable histogram without steps gives nothing if it is beside the graph; if one side is cut, the other three are drawn, beginning behind the side
left out; otherwise the whole rectangle is drawn and closed. -/
theorem rectangle (eps : K) (he : 0 ≤ eps) (from_ : K) (b : Bin K) (h1 : ClearAt eps b.min) (h2 : ClearAt eps b.max) (h3 : ClearAt eps b.v) :
    ∃ ops, drawrect eps (initFrom (some from_)).1 (initFrom (some from_)).2 (some b) = some ops ∧
      ((beside b.min b.max ∨ beside b.v from_) → ops = []) ∧
      (¬ (beside b.min b.max ∨ beside b.v from_) →
        (∀ k : ℕ, (∀ j : ℕ, (cutSides from_ b)[j]? = some true ↔ j = k) → ops = polygon false ((corners (cl from_) b).rotate (k + 1))) ∧
        ((¬ ∃ k : ℕ, ∀ j : ℕ, (cutSides from_ b)[j]? = some true ↔ j = k) → ops = polygon true (corners (cl from_) b))) := by
  simp only [drawrect, initFrom, Option.map_some]
  rw [cutEps_eq eps _ he h1, cutEps_eq eps _ he h2, cutEps_eq eps _ he h3]
  refine ⟨_, rfl, ?_⟩
  have c1 := cut_beside b.min b.max
  have c2 := cut_beside b.v from_
  simp only [cut_fst, cut_abs]
  rw [← not_lt] at c1 c2
  rw [not_iff_not] at c1 c2
  have n1 := cut_ne b.min
  have n2 := cut_ne b.max
  have n3 := cut_ne b.v
  have n4 := cut_ne from_
  have g1 : beside b.min b.max → ¬ In b.min ∧ ¬ In b.max := fun h => ⟨fun g => not_beside b.max b.min g (h.imp And.symm And.symm), fun g => not_beside b.min b.max g h⟩
  have g2 : beside b.v from_ → ¬ In b.v ∧ ¬ In from_ := fun h => ⟨fun g => not_beside from_ b.v g (h.imp And.symm And.symm), fun g => not_beside b.v from_ g h⟩
  simp only [n1, n2, n3, n4, c1, c2, cutSides, onehot]
  by_cases i1 : In b.min <;> by_cases i2 : In b.max <;> by_cases i3 : In b.v <;> by_cases i4 : In from_ <;>
    simp only [i1, i2, i3, i4, if_true, if_false, not_true_eq_false, not_false_eq_true, decide_true, decide_false, and_true, and_false, or_false, false_or,
      imp_false, ite_not, reduceCtorEq] at g1 g2 ⊢ <;>
    by_cases k1 : beside b.min b.max <;> by_cases k2 : beside b.v from_ <;>
    simp_all [polygon, corners, List.rotate]

/-- C105 does not hold for a fillable histogram with `fromvalue = None`: an attribute is missing. -/
theorem rectangle_no_fromvalue (eps : K) (b : Bin K) : drawrect eps (initFrom (none : Option K)).1 (initFrom (none : Option K)).2 (some b) = none := rfl

/-! ## Automatic ranges -/

/-- The range around a position. -/
def around (a w : K) (p : K × Option K) : Option (Bin K) := p.2.map fun v => ⟨p.1 - a * w, p.1 + (1 - a) * w, v⟩

/-- All steps have the same width up to the tolerance. -/
def EqualSteps (eps w : K) : K → List (K × Option K) → Prop
  | _, [] => True
  | x, p :: l => |w - (p.1 - x)| ≤ eps ∧ EqualSteps eps w p.1 l

theorem autoFrom_some (a eps w : K) (l : List (K × Option K)) (last : K × Option K) :
    (EqualSteps eps w last.1 l → autoFrom a eps last (some w) l = some (l.map (around a w))) ∧ (¬ EqualSteps eps w last.1 l → autoFrom a eps last (some w) l = none) := by
  induction l generalizing last with
  | nil => exact ⟨fun _ => rfl, fun h => absurd trivial h⟩
  | cons p l ih =>
    obtain ⟨i1, i2⟩ := ih p
    constructor
    · rintro ⟨h1, h2⟩
      simp only [autoFrom, if_neg (not_lt.mpr h1), i1 h2, Option.map_some, List.map_cons]
      rfl
    · intro h
      simp only [autoFrom]
      by_cases h1 : eps < |w - (p.1 - last.1)|
      · rw [if_pos h1]
      · rw [if_neg h1, i2 (fun g => h ⟨not_lt.mp h1, g⟩)]
        rfl

/-- C105: the automatic ranges are around the positions, with the width of the first step; it is an error if another step differs. -/
theorem auto_ranges (a eps : K) (p q : K × Option K) (l : List (K × Option K)) :
    (EqualSteps eps (q.1 - p.1) q.1 l → autoBins a eps (p :: q :: l) = some ((p :: q :: l).map (around a (q.1 - p.1)))) ∧
    (¬ EqualSteps eps (q.1 - p.1) q.1 l → autoBins a eps (p :: q :: l) = none) := by
  obtain ⟨h1, h2⟩ := autoFrom_some a eps (q.1 - p.1) l q
  constructor
  · intro h
    simp only [autoBins, autoFrom, h1 h, Option.map_some, List.map_cons]
    rfl
  · intro h
    simp only [autoBins, autoFrom, h2 h, Option.map_none]

/-- C105: automatic ranges of neighbouring points are neighbours. -/
theorem auto_neighbours (a eps w : K) (p q : K × Option K) (x y : Bin K) (h : |w - (q.1 - p.1)| ≤ eps) (hx : around a w p = some x) (hy : around a w q = some y) :
    |y.min - x.max| ≤ eps := by
  unfold around at hx hy
  rw [Option.map_eq_some_iff] at hx hy
  obtain ⟨_, _, rfl⟩ := hx
  obtain ⟨_, _, rfl⟩ := hy
  have : q.1 - a * w - (p.1 + (1 - a) * w) = -(w - (q.1 - p.1)) := by ring
  simp only [this, abs_neg]
  exact h

/-! ## Examples -/

/-- Three ranges, of which the second one leaves the graph. -/
def exBins : List (Option (Bin ℚ)) := [some ⟨1 / 4, 1 / 2, 1 / 2⟩, some ⟨1 / 2, 3 / 4, 2⟩, some ⟨3 / 4, 2, 1 / 4⟩, none]

example : Regular (1 / 100) none exBins := by
  refine ⟨?_, ?_, ?_, ?_, trivial⟩ <;> intro x hx <;> cases hx <;> refine ⟨?_, ?_, ?_, ?_⟩ <;>
    first
    | (constructor <;> norm_num)
    | (intro y hy; cases hy; done)
    | (intro y hy; cases hy; intro; rfl)

example : run none (path ⟨false, false, 1 / 100, 0⟩ exBins) = some ([((1 / 4, 0), (1 / 4, 1 / 2)), ((1 / 4, 1 / 2), (1 / 2, 1 / 2)), ((1 / 2, 0), (1 / 2, 1)),
    ((3 / 4, 1), (3 / 4, 0)), ((3 / 4, 1 / 4), (1, 1 / 4))], some ((3 / 4, 1 / 4), (1, 1 / 4))) := by decide +kernel

example : run none (path ⟨true, true, 1 / 100, 0⟩ exBins) = some ([((1 / 4, 0), (1 / 4, 1 / 2)), ((1 / 4, 1 / 2), (1 / 2, 1 / 2)), ((1 / 2, 1 / 2), (1 / 2, 1)),
    ((1 / 2, 1), (3 / 4, 1)), ((3 / 4, 1), (3 / 4, 1 / 4)), ((3 / 4, 1 / 4), (1, 1 / 4)), ((1, 1 / 4), (1, 0))], some ((1 / 4, 0), (1, 0))) := by decide +kernel

example : drawrect (1 / 100) (initFrom (some (0 : ℚ))).1 (initFrom (some (0 : ℚ))).2 (some ⟨1 / 2, 3 / 4, 2⟩) =
    some (polygon false [(1 / 2, 1), (1 / 2, 0), (3 / 4, 0), (3 / 4, 1)]) := by decide +kernel

example : EqualSteps (1 / 100) (1 / 4) (1 / 2) [(3 / 4, some (1 : ℚ)), (1, none)] := ⟨by norm_num, by norm_num, trivial⟩

end PyX.Style.Hist
