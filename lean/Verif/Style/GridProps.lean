import Verif.Style.Grid
import Verif.Style.LineProps
import Mathlib.Data.List.Induction
import Mathlib.Data.List.Sort
import Mathlib.Algebra.Order.Ring.Rat
import Mathlib.Tactic.NormNum
import Mathlib.Tactic.Ring

/-!
# C112: data on a grid are collected, connected and put into bitmaps where they belong
-/

set_option linter.unusedSectionVars false

namespace PyX.Style.Grid

variable {K : Type*} [Field K] [LinearOrder K] [IsStrictOrderedRing K] {D C : Type*}

/-! ## Specification -/

/-- The value of the grid a coordinate belongs to: itself or the first one within the tolerance. -/
def rep (eps : K) (vals : List K) (v : K) : K := if v ∈ vals then v else (vals.find? fun h => decide (|v - h| ≤ eps)).getD v

/-- The last of the points at a place of the grid. -/
def lastAt (eps : K) (vals1 vals2 : List K) (pts : List (K × K × D)) (a b : K) : Option D :=
  (pts.reverse.find? fun p => decide (rep eps vals1 p.1 = a ∧ rep eps vals2 p.2.1 = b)).map fun p => p.2.2

/-- The pairs of neighbours in a list for which there are data. -/
def neighbours {A B : Type*} (g : A → Option B) (l : List A) : List (B × B) := (l.zip l.tail).filterMap fun p => (g p.1).bind fun x => (g p.2).map fun y => (x, y)

/-! ## Values of the grid -/

theorem near_iff (eps v h : K) : near eps v h = decide (|v - h| ≤ eps) := by
  rw [near, ← Bool.decide_and]
  congr 1
  rw [abs_le]
  apply propext
  constructor
  · rintro ⟨h1, h2⟩; constructor <;> linarith
  · rintro ⟨h1, h2⟩; constructor <;> linarith

theorem near_eq (eps v : K) : near eps v = fun h => decide (|v - h| ≤ eps) := funext fun h => near_iff eps v h

/-- A coordinate has a value of the grid. -/
def Covered (eps : K) (vals : List K) (v : K) : Prop := v ∈ vals ∨ ∃ h ∈ vals, |v - h| ≤ eps

theorem snap_cases (eps : K) (vals : List K) (v : K) :
    (Covered eps vals v ∧ snap eps vals v = (rep eps vals v, vals)) ∨ ((∀ h ∈ vals, eps < |v - h|) ∧ v ∉ vals ∧ snap eps vals v = (v, vals ++ [v])) := by
  rw [snap, near_eq]
  by_cases hv : v ∈ vals
  · exact Or.inl ⟨Or.inl hv, by rw [if_pos hv, rep, if_pos hv]⟩
  · rw [if_neg hv, rep, if_neg hv]
    cases hf : vals.find? fun h => decide (|v - h| ≤ eps) with
    | some h =>
      have h1 := List.find?_some hf
      have h2 := List.mem_of_find?_eq_some hf
      exact Or.inl ⟨Or.inr ⟨h, h2, by simpa using h1⟩, by simp⟩
    | none =>
      refine Or.inr ⟨fun h hh => ?_, hv, rfl⟩
      have := List.find?_eq_none.mp hf h hh
      simpa using this

theorem rep_append (eps : K) (vals : List K) (v x : K) (hc : Covered eps vals v) (hx : ∀ h ∈ vals, eps < |x - h|) (hx2 : x ∉ vals) : rep eps (vals ++ [x]) v = rep eps vals v := by
  by_cases hv : v ∈ vals
  · rw [rep, rep, if_pos hv, if_pos (List.mem_append_left _ hv)]
  · obtain ⟨h, hh, hn⟩ := hc.resolve_left hv
    have hne : v ≠ x := by rintro rfl; exact absurd (hx h hh) (not_lt.mpr hn)
    rw [rep, rep, if_neg hv, if_neg (by simp [hv, hne]), List.find?_append]
    have : (vals.find? fun h => decide (|v - h| ≤ eps)).isSome = true := by
      rw [List.find?_isSome]; exact ⟨h, hh, by simpa using hn⟩
    obtain ⟨y, hy⟩ := Option.isSome_iff_exists.mp this
    rw [hy]; rfl

theorem snap_rep (eps : K) (vals : List K) (x : K) : (snap eps vals x).1 = rep eps (snap eps vals x).2 x ∧ Covered eps (snap eps vals x).2 x := by
  rcases snap_cases eps vals x with ⟨h1, h2⟩ | ⟨-, -, h2⟩
  · rw [h2]; exact ⟨rfl, h1⟩
  · rw [h2]; exact ⟨by simp [rep], Or.inl (by simp)⟩

theorem snap_keep (eps : K) (vals : List K) (x v : K) (hc : Covered eps vals v) : rep eps (snap eps vals x).2 v = rep eps vals v ∧ Covered eps (snap eps vals x).2 v := by
  rcases snap_cases eps vals x with ⟨-, h2⟩ | ⟨h1, h3, h2⟩
  · rw [h2]; exact ⟨rfl, hc⟩
  · rw [h2]
    refine ⟨rep_append eps vals v x hc h1 h3, ?_⟩
    rcases hc with hc | ⟨h, hh, hn⟩
    · exact Or.inl (List.mem_append_left _ hc)
    · exact Or.inr ⟨h, List.mem_append_left _ hh, hn⟩

theorem snap_sep (eps : K) (vals : List K) (x : K) (h : vals.Pairwise fun a b => a ≠ b ∧ eps < |a - b|) : (snap eps vals x).2.Pairwise fun a b => a ≠ b ∧ eps < |a - b| := by
  rcases snap_cases eps vals x with ⟨-, h2⟩ | ⟨h1, h3, h2⟩
  · rw [h2]; exact h
  · rw [h2, List.pairwise_append]
    refine ⟨h, by simp, fun a ha b hb => ?_⟩
    obtain rfl := List.mem_singleton.mp hb
    exact ⟨fun e => h3 (e ▸ ha), by rw [abs_sub_comm]; exact h1 a ha⟩

theorem snap_mem (eps : K) (vals : List K) (x y : K) (h : y ∈ (snap eps vals x).2) : y ∈ vals ∨ y = x := by
  rcases snap_cases eps vals x with ⟨-, h2⟩ | ⟨-, -, h2⟩
  · rw [h2] at h; exact Or.inl h
  · rw [h2] at h; simpa using h

theorem rep_near (eps : K) (he : 0 ≤ eps) (vals : List K) (v : K) (h : Covered eps vals v) : rep eps vals v ∈ vals ∧ |v - rep eps vals v| ≤ eps := by
  by_cases hv : v ∈ vals
  · rw [rep, if_pos hv]; exact ⟨hv, by simpa using he⟩
  · obtain ⟨x, hx, hn⟩ := h.resolve_left hv
    have : (vals.find? fun h => decide (|v - h| ≤ eps)).isSome = true := by
      rw [List.find?_isSome]; exact ⟨x, hx, by simpa using hn⟩
    obtain ⟨y, hy⟩ := Option.isSome_iff_exists.mp this
    rw [rep, if_neg hv, hy]
    exact ⟨List.mem_of_find?_eq_some hy, by simpa using List.find?_some hy⟩

/-- What holds behind some points. -/
structure Inv (eps : K) (pts : List (K × K × D)) (s : Shared K D) : Prop where
  sep1 : s.values1.Pairwise fun a b => a ≠ b ∧ eps < |a - b|
  sep2 : s.values2.Pairwise fun a b => a ≠ b ∧ eps < |a - b|
  cov : ∀ p ∈ pts, Covered eps s.values1 p.1 ∧ Covered eps s.values2 p.2.1
  of1 : ∀ x ∈ s.values1, ∃ p ∈ pts, p.1 = x
  of2 : ∀ x ∈ s.values2, ∃ p ∈ pts, p.2.1 = x
  data : ∀ a b, s.data12 a b = lastAt eps s.values1 s.values2 pts a b
  swap : ∀ a b, s.data21 b a = s.data12 a b
  value : s.value = pts.getLast?.map fun p => (rep eps s.values1 p.1, rep eps s.values2 p.2.1)

theorem find?_congr' {A : Type*} (p q : A → Bool) (l : List A) (h : ∀ x ∈ l, p x = q x) : l.find? p = l.find? q := by
  induction l with
  | nil => rfl
  | cons a l ih =>
    rw [List.find?_cons, List.find?_cons, h a (List.mem_cons_self ..), ih fun x hx => h x (List.mem_cons_of_mem _ hx)]

theorem inv_step (eps : K) (pts : List (K × K × D)) (s : Shared K D) (h : Inv eps pts s) (v1 v2 : K) (d : D) : Inv eps (pts ++ [(v1, v2, d)]) (drawpoint eps s (some (v1, v2, d))) := by
  have r1 := snap_rep eps s.values1 v1
  have r2 := snap_rep eps s.values2 v2
  constructor
  · exact snap_sep eps _ _ h.sep1
  · exact snap_sep eps _ _ h.sep2
  · intro p hp
    rcases List.mem_append.mp hp with hp | hp
    · exact ⟨(snap_keep eps _ _ _ (h.cov p hp).1).2, (snap_keep eps _ _ _ (h.cov p hp).2).2⟩
    · obtain rfl := List.mem_singleton.mp hp
      exact ⟨r1.2, r2.2⟩
  · intro x hx
    rcases snap_mem eps _ _ _ hx with hx | rfl
    · obtain ⟨p, hp, e⟩ := h.of1 x hx; exact ⟨p, List.mem_append_left _ hp, e⟩
    · exact ⟨(x, v2, d), by simp, rfl⟩
  · intro x hx
    rcases snap_mem eps _ _ _ hx with hx | rfl
    · obtain ⟨p, hp, e⟩ := h.of2 x hx; exact ⟨p, List.mem_append_left _ hp, e⟩
    · exact ⟨(v1, x, d), by simp, rfl⟩
  · intro a b
    have e1 : rep eps (drawpoint eps s (some (v1, v2, d))).values1 v1 = (snap eps s.values1 v1).1 := r1.1.symm
    have e2 : rep eps (drawpoint eps s (some (v1, v2, d))).values2 v2 = (snap eps s.values2 v2).1 := r2.1.symm
    rw [lastAt, List.reverse_append, List.reverse_singleton, List.singleton_append, List.find?_cons]
    simp only [e1, e2]
    have ed : (drawpoint eps s (some (v1, v2, d))).data12 a b = if a = (snap eps s.values1 v1).1 ∧ b = (snap eps s.values2 v2).1 then some d else s.data12 a b := rfl
    rw [ed]
    by_cases hab : a = (snap eps s.values1 v1).1 ∧ b = (snap eps s.values2 v2).1
    · rw [if_pos hab, decide_eq_true (And.intro hab.1.symm hab.2.symm)]
      rfl
    · rw [if_neg hab, decide_eq_false (fun e => hab ⟨e.1.symm, e.2.symm⟩)]
      simp only
      rw [h.data a b, lastAt]
      congr 1
      refine find?_congr' _ _ _ fun p hp => ?_
      have hp' := List.mem_reverse.mp hp
      have k1 : rep eps (drawpoint eps s (some (v1, v2, d))).values1 p.1 = _ := (snap_keep eps s.values1 v1 p.1 (h.cov p hp').1).1
      have k2 : rep eps (drawpoint eps s (some (v1, v2, d))).values2 p.2.1 = _ := (snap_keep eps s.values2 v2 p.2.1 (h.cov p hp').2).1
      rw [k1, k2]
  · intro a b
    simp only [drawpoint, put]
    rw [h.swap a b]
    by_cases hab : a = (snap eps s.values1 v1).1 ∧ b = (snap eps s.values2 v2).1
    · rw [if_pos hab, if_pos ⟨hab.2, hab.1⟩]
    · rw [if_neg hab, if_neg fun e => hab ⟨e.2, e.1⟩]
  · simp only [drawpoint, List.getLast?_append, List.getLast?_singleton, Option.some_or, Option.map_some]
    rw [← r1.1, ← r2.1]

theorem inv_init (eps : K) : Inv eps [] (Shared.init : Shared K D) := by
  constructor <;> simp [Shared.init, lastAt]

theorem inv_points (eps : K) (pts : List (Option (K × K × D))) : Inv eps (pts.filterMap id) (points eps pts) := by
  induction pts using List.reverseRecOn with
  | nil => exact inv_init eps
  | append_singleton pts o ih =>
    rw [points, List.foldl_append, ← points]
    simp only [List.foldl_cons, List.foldl_nil]
    cases o with
    | none => simpa [drawpoint, List.filterMap_append] using ih
    | some p => simpa [List.filterMap_append] using inv_step eps _ _ ih p.1 p.2.1 p.2.2

/-- C112: the values of the grid are coordinates of points and more than the tolerance apart; every coordinate is within the tolerance of its value;
the data at a place of the grid are those of the last available point there, in both dictionaries. -/
theorem grid_points (eps : K) (he : 0 ≤ eps) (pts : List (Option (K × K × D))) :
    (points eps pts).values1.Pairwise (fun a b => eps < |a - b|) ∧ (points eps pts).values2.Pairwise (fun a b => eps < |a - b|) ∧
    (∀ x ∈ (points eps pts).values1, ∃ v2 d, some (x, v2, d) ∈ pts) ∧ (∀ x ∈ (points eps pts).values2, ∃ v1 d, some (v1, x, d) ∈ pts) ∧
    (∀ v1 v2 d, some (v1, v2, d) ∈ pts →
      rep eps (points eps pts).values1 v1 ∈ (points eps pts).values1 ∧ |v1 - rep eps (points eps pts).values1 v1| ≤ eps ∧
      rep eps (points eps pts).values2 v2 ∈ (points eps pts).values2 ∧ |v2 - rep eps (points eps pts).values2 v2| ≤ eps) ∧
    (∀ a b, (points eps pts).data12 a b = lastAt eps (points eps pts).values1 (points eps pts).values2 (pts.filterMap id) a b) ∧
    (∀ a b, (points eps pts).data21 b a = (points eps pts).data12 a b) := by
  have h := inv_points eps pts
  refine ⟨h.sep1.imp fun h => h.2, h.sep2.imp fun h => h.2, ?_, ?_, ?_, h.data, h.swap⟩
  · intro x hx
    obtain ⟨⟨v1, v2, d⟩, hp, rfl⟩ := h.of1 x hx
    exact ⟨v2, d, by simpa using hp⟩
  · intro x hx
    obtain ⟨⟨v1, v2, d⟩, hp, rfl⟩ := h.of2 x hx
    exact ⟨v1, d, by simpa using hp⟩
  · intro v1 v2 d hm
    have hc := h.cov (v1, v2, d) (by simpa using hm)
    have h1 := rep_near eps he _ _ hc.1
    have h2 := rep_near eps he _ _ hc.2
    exact ⟨h1.1, h1.2, h2.1, h2.2⟩

/-- On an exact grid every coordinate is a value of the grid. -/
theorem grid_exact (eps : K) (pts : List (Option (K × K × D)))
    (hx : ∀ p q, some p ∈ pts → some q ∈ pts → (p.1 ≠ q.1 → eps < |p.1 - q.1|) ∧ (p.2.1 ≠ q.2.1 → eps < |p.2.1 - q.2.1|)) (a b : K) :
    (points eps pts).data12 a b = ((pts.filterMap id).reverse.find? fun p => decide (p.1 = a ∧ p.2.1 = b)).map fun p => p.2.2 := by
  have h := inv_points eps pts
  rw [h.data a b, lastAt]
  congr 1
  refine find?_congr' _ _ _ fun p hp => ?_
  have hp' := List.mem_reverse.mp hp
  have hpm : some p ∈ pts := by simpa using hp'
  have e1 : rep eps (points eps pts).values1 p.1 = p.1 := by
    rw [rep]
    split
    · rfl
    · next hn =>
      obtain ⟨x, hx1, hx2⟩ := (h.cov p hp').1.resolve_left hn
      obtain ⟨q, hq, rfl⟩ := h.of1 x hx1
      have hqm : some q ∈ pts := by simpa using hq
      have hne : p.1 ≠ q.1 := fun e => hn (by rw [e]; exact hx1)
      exact absurd ((hx p q hpm hqm).1 hne) (not_lt.mpr hx2)
  have e2 : rep eps (points eps pts).values2 p.2.1 = p.2.1 := by
    rw [rep]
    split
    · rfl
    · next hn =>
      obtain ⟨x, hx1, hx2⟩ := (h.cov p hp').2.resolve_left hn
      obtain ⟨q, hq, rfl⟩ := h.of2 x hx1
      have hqm : some q ∈ pts := by simpa using hq
      have hne : p.2.1 ≠ q.2.1 := fun e => hn (by rw [e]; exact hx1)
      exact absurd ((hx p q hpm hqm).2 hne) (not_lt.mpr hx2)
  rw [e1, e2]

/-! ## Colors -/

theorem drawpoint_vals {D' : Type*} (eps : K) (s : Shared K D) (s' : Shared K D') (h : s.values1 = s'.values1 ∧ s.values2 = s'.values2 ∧ s.value = s'.value) (v1 v2 : K) (d : D) (d' : D') :
    (drawpoint eps s (some (v1, v2, d))).values1 = (drawpoint eps s' (some (v1, v2, d'))).values1 ∧ (drawpoint eps s (some (v1, v2, d))).values2 = (drawpoint eps s' (some (v1, v2, d'))).values2 ∧
      (drawpoint eps s (some (v1, v2, d))).value = (drawpoint eps s' (some (v1, v2, d'))).value := by
  simp [drawpoint, h.1, h.2.1]

theorem colors_sim (eps : K) (l : List ((K × K × D) × C)) (s : Shared K D) (s' : Shared K C) (h : s.values1 = s'.values1 ∧ s.values2 = s'.values2 ∧ s.value = s'.value) :
    colorsFrom eps (l.map fun x => (some x.1, x.2)) s s'.data12 =
      some ((l.map fun x => some x.1).foldl (drawpoint eps) s, ((l.map fun x => some (x.1.1, x.1.2.1, x.2)).foldl (drawpoint eps) s').data12) ∧
    ((l.map fun x => some x.1).foldl (drawpoint eps) s).values1 = ((l.map fun x => some (x.1.1, x.1.2.1, x.2)).foldl (drawpoint eps) s').values1 ∧
    ((l.map fun x => some x.1).foldl (drawpoint eps) s).values2 = ((l.map fun x => some (x.1.1, x.1.2.1, x.2)).foldl (drawpoint eps) s').values2 := by
  induction l generalizing s s' with
  | nil => exact ⟨rfl, h.1, h.2.1⟩
  | cons x l ih =>
    obtain ⟨⟨v1, v2, d⟩, c⟩ := x
    have hv := drawpoint_vals eps s s' h v1 v2 d c
    obtain ⟨i1, i2⟩ := ih (drawpoint eps s (some (v1, v2, d))) (drawpoint eps s' (some (v1, v2, c))) hv
    simp only [List.map_cons, List.foldl_cons]
    refine ⟨?_, i2⟩
    rw [colorsFrom, colorpoint]
    have e : (drawpoint eps s (some (v1, v2, d))).value.map (fun v => put s'.data12 v.1 v.2 c) = some (drawpoint eps s' (some (v1, v2, c))).data12 := by
      rw [hv.2.2]; rfl
    rw [e, Option.bind_some]
    exact i1

/-- C112: if the positions of all points are available, the color at a place of the grid is that of the last point there. -/
theorem grid_colors_partial (eps : K) (l : List ((K × K × D) × C)) :
    ∃ cols, colors eps (l.map fun x => (some x.1, x.2)) = some (points eps (l.map fun x => some x.1), cols) ∧
      ∀ a b, cols a b = lastAt eps (points eps (l.map fun x => some x.1)).values1 (points eps (l.map fun x => some x.1)).values2 (l.map fun x => (x.1.1, x.1.2.1, x.2)) a b := by
  have h := colors_sim eps l (Shared.init : Shared K D) (Shared.init : Shared K C) ⟨rfl, rfl, rfl⟩
  refine ⟨_, h.1, fun a b => ?_⟩
  have h2 := (inv_points eps (l.map fun x => some (x.1.1, x.1.2.1, x.2))).data a b
  rw [points] at h2
  rw [h2, points, h.2.1, h.2.2]
  congr 1
  rw [List.filterMap_map]
  have : (id ∘ fun x : (K × K × D) × C => some (x.1.1, x.1.2.1, x.2)) = fun x => some (x.1.1, x.1.2.1, x.2) := rfl
  rw [this, List.filterMap_eq_map']

/-- The color of a point whose position is not available replaces the color of the previous point. -/
theorem color_replaced : ∃ r, colors (0 : ℚ) [(some (1, 1, ()), 5), (none, 7)] = some r ∧ r.2 1 1 = some 7 :=
  ⟨_, rfl, by decide +kernel⟩

/-- A first point whose position is not available raises an exception. -/
theorem color_first : (colors (0 : ℚ) [((none : Option (ℚ × ℚ × Unit)), 7), (some (1, 1, ()), 5)]).isNone = true := rfl

/-! ## Lines -/

variable {n : ℕ} {P : Type*}

theorem dataLines_neighbours {A : Type*} (g : A → Option (VPos K n)) (l : List A) : dataLines (l.map g) = neighbours g l := by
  induction l with
  | nil => rfl
  | cons a l ih =>
    cases l with
    | nil => cases h : g a <;> simp [dataLines, neighbours, h]
    | cons b l =>
      have e : neighbours g (a :: b :: l) = ((g a).bind fun x => (g b).map fun y => (x, y)).toList ++ neighbours g (b :: l) := by
        simp only [neighbours, List.tail_cons, List.zip_cons_cons, List.filterMap_cons]
        cases (g a).bind fun x => (g b).map fun y => (x, y) <;> simp
      rw [e, ← ih]
      simp only [List.map_cons]
      cases ha : g a with
      | none => rw [dataLines.eq_2]; · rfl
                intro u v l' h; cases h
      | some x =>
        cases hb : g b with
        | none => rw [dataLines.eq_2]; · rfl
                  intro u v l' _ h; cases h
        | some y => rfl

theorem sorted_spec (l : List K) : (sorted l).Perm l ∧ (sorted l).Pairwise (· ≤ ·) := by
  refine ⟨List.mergeSort_perm _ _, ?_⟩
  have := List.pairwise_mergeSort (le := fun a b : K => decide (a ≤ b)) (fun a b c h1 h2 => by simp only [decide_eq_true_eq] at *; exact le_trans h1 h2)
    (fun a b => by simp only [Bool.or_eq_true, decide_eq_true_eq]; exact le_total a b) l
  exact this.imp fun h => by simpa using h

/-- C112: there is a path for every value of the one coordinate, which consists of exactly the parts within the graph of the lines between data at neighbouring values of the other coordinate
(if nothing is outside of the graph by no more than the tolerances; see C103). -/
theorem grid_lines_partial (f : VPos K n → P) (eps epsPos : K) (he : 0 ≤ eps) (hp : 0 ≤ epsPos) (s : Shared K (VPos K n)) (hs : ∀ a b, s.data21 b a = s.data12 a b)
    (hc : ∀ a b v, s.data12 a b = some v → Clear eps epsPos v) :
    (∃ L : K → List (List P), gridlines1 f eps epsPos s = ((sorted s.values2).map L).filter (fun p => p ≠ []) ∧
      ∀ b, ∃ (polys : List (List (VPos K n))) (clips : List (Option (VPos K n × VPos K n))), L b = polys.map (·.map f) ∧
        List.Forall₂ (fun d c => IsClip d.1 d.2 c) (neighbours (fun a => s.data12 a b) (sorted s.values1)) clips ∧ polys.flatMap linesOf = clips.filterMap id ∧ ∀ p ∈ polys, 2 ≤ p.length) ∧
    (∃ L : K → List (List P), gridlines2 f eps epsPos s = ((sorted s.values1).map L).filter (fun p => p ≠ []) ∧
      ∀ a, ∃ (polys : List (List (VPos K n))) (clips : List (Option (VPos K n × VPos K n))), L a = polys.map (·.map f) ∧
        List.Forall₂ (fun d c => IsClip d.1 d.2 c) (neighbours (fun b => s.data12 a b) (sorted s.values2)) clips ∧ polys.flatMap linesOf = clips.filterMap id ∧ ∀ p ∈ polys, 2 ≤ p.length) := by
  refine ⟨⟨_, rfl, fun b => ?_⟩, ⟨_, rfl, fun a => ?_⟩⟩
  · have e : (fun a => s.data21 b a) = fun a => s.data12 a b := funext fun a => hs a b
    rw [← dataLines_neighbours, e]
    refine line_clipped_partial f eps epsPos he hp _ fun v hv => ?_
    obtain ⟨a, -, h⟩ := List.mem_map.mp hv
    exact hc a b v h
  · rw [← dataLines_neighbours]
    refine line_clipped_partial f eps epsPos he hp _ fun v hv => ?_
    obtain ⟨b, -, h⟩ := List.mem_map.mp hv
    exact hc a b v h

/-! ## Bitmaps -/

theorem pixels_length (values1 values2 : List K) (data12 : K → K → Option D) (cols : K → K → Option C) (color : C → Option (List UInt8)) :
    (pixels values1 values2 data12 cols color).length = values2.length * values1.length := by
  simp [pixels, List.length_flatMap, List.map_const', List.sum_replicate]

theorem flatMap_block {A B : Type*} (f : A → List B) (w : Nat) (l : List A) (h : ∀ x ∈ l, (f x).length = w) (k : Nat) (x : A) (hk : l[k]? = some x) :
    ((l.flatMap f).drop (k * w)).take w = f x := by
  induction l generalizing k with
  | nil => cases hk
  | cons a l ih =>
    have ha := h a (List.mem_cons_self ..)
    cases k with
    | zero =>
      simp only [List.getElem?_cons_zero, Option.some.injEq] at hk
      subst hk
      simp [List.flatMap_cons, ← ha]
    | succ k =>
      simp only [List.getElem?_cons_succ] at hk
      rw [List.flatMap_cons, show (k + 1) * w = (f a).length + k * w by rw [ha]; ring, ← List.drop_drop, List.drop_left]
      exact ih (fun x hx => h x (List.mem_cons_of_mem _ hx)) k hk

theorem flatMap_map_getElem {A B E : Type*} (g : A → B → E) (l1 : List A) (l2 : List B) (i j : Nat) (a : A) (b : B) (ha : l1[i]? = some a) (hb : l2[j]? = some b) :
    (l2.flatMap fun b => l1.map fun a => g a b)[j * l1.length + i]? = some (g a b) := by
  have hi : i < l1.length := by
    by_contra hn
    rw [List.getElem?_eq_none (by omega)] at ha; cases ha
  induction l2 generalizing j with
  | nil => cases hb
  | cons c l2 ih =>
    rw [List.flatMap_cons]
    cases j with
    | zero =>
      simp only [List.getElem?_cons_zero, Option.some.injEq] at hb
      subst hb
      rw [List.getElem?_append_left (by simpa using hi)]
      simp [ha]
    | succ j =>
      simp only [List.getElem?_cons_succ] at hb
      rw [List.getElem?_append_right (by simp only [List.length_map]; nlinarith), List.length_map, show (j + 1) * l1.length + i - l1.length = j * l1.length + i by
        rw [Nat.succ_mul]; omega]
      exact ih j hb

/-- C112: the bitmap has as many bytes as its size requires, and the pixel in a column and a row (counted from below) has the color of the data with these numbers, or is transparent if there is none;
pixels have an alpha channel exactly if some pixel has no color. -/
theorem density_image (bands : Nat) (values1 values2 : List K) (data12 : K → K → Option D) (cols : K → K → Option C) (color : C → Option (List UInt8))
    (hcol : ∀ c x, color c = some x → x.length = bands) :
    let px := pixels values1 values2 data12 cols color
    let w := if needalpha px then bands + 1 else bands
    (needalpha px = true ↔ ∃ a ∈ values1, ∃ b ∈ values2, (data12 a b).bind (fun _ => (cols a b).bind color) = none) ∧
    (imagedata bands px).length = values1.length * values2.length * w ∧
    ∀ i j a b, values1[i]? = some a → values2[j]? = some b →
      ((imagedata bands px).drop ((j * values1.length + i) * w)).take w = match (data12 a b).bind (fun _ => (cols a b).bind color) with
        | some c => c ++ (if needalpha px then [255] else [])
        | none => List.replicate w 0 := by
  intro px w
  have hw : ∀ o ∈ px, (pixelBytes bands (needalpha px) o).length = w := by
    intro o ho
    cases o with
    | none => simp [w, pixelBytes]
    | some c =>
      simp only [px, pixels, List.mem_flatMap, List.mem_map] at ho
      obtain ⟨b, -, a, -, e⟩ := ho
      obtain ⟨x, -, e⟩ := Option.bind_eq_some_iff.mp e
      obtain ⟨y, -, e⟩ := Option.bind_eq_some_iff.mp e
      have := hcol y c e
      simp only [pixelBytes, List.length_append, this, w]
      split <;> rfl
  refine ⟨?_, ?_, ?_⟩
  · simp only [needalpha, List.any_eq_true, px, pixels, List.mem_flatMap, List.mem_map]
    constructor
    · rintro ⟨o, ⟨b, hb, a, ha, e⟩, ho⟩
      exact ⟨a, ha, b, hb, by rw [e]; exact Option.isNone_iff_eq_none.mp ho⟩
    · rintro ⟨a, ha, b, hb, e⟩
      exact ⟨_, ⟨b, hb, a, ha, rfl⟩, by rw [e]; rfl⟩
  · have hl : ∀ l : List (Option (List UInt8)), (∀ o ∈ l, o ∈ px) → (l.flatMap (pixelBytes bands (needalpha px))).length = l.length * w := by
      intro l
      induction l with
      | nil => simp
      | cons o l ih =>
        intro h
        rw [List.flatMap_cons, List.length_append, hw o (h o (List.mem_cons_self ..)), ih fun x hx => h x (List.mem_cons_of_mem _ hx), List.length_cons]
        ring
    have := hl px fun _ h => h
    rw [pixels_length] at this
    rw [imagedata, this, mul_comm values1.length]
  · intro i j a b ha hb
    have hk : px[j * values1.length + i]? = some ((data12 a b).bind fun _ => (cols a b).bind color) := flatMap_map_getElem (fun a b => (data12 a b).bind fun _ => (cols a b).bind color) values1 values2 i j a b ha hb
    have := flatMap_block _ w px hw _ _ hk
    rw [imagedata, this]
    cases (data12 a b).bind fun _ => (cols a b).bind color <;> rfl

/-- C112: if positions are proportional (as in two-dimensional graphs and for parallel projections), the bitmap is placed, and the pixel in a column and a row (counted from below; pixels of a bitmap fill the unit square, the first row at the top)
is the area of graph coordinates around the data with these numbers, up to the middle of neighbours. -/
theorem density_placed (eps : K) (he : 0 ≤ eps) (o p q : K × K) (hdet : p.1 * q.2 - p.2 * q.1 ≠ 0) (n1 n2 : Nat) (h1 : 2 ≤ n1) (h2 : 2 ≤ n2) (a1 b1 a2 b2 : K) (hab1 : a1 < b1) (hab2 : a2 < b2) :
    let f : K → K → K × K := fun u v => (o.1 + u * p.1 + v * q.1, o.2 + u * p.2 + v * q.2)
    let d1 := (b1 - a1) / ((n1 - 1 : Nat) : K)
    let d2 := (b2 - a2) / ((n2 - 1 : Nat) : K)
    ∃ t, bitmapTrafo eps f n1 n2 a1 b1 a2 b2 = some t ∧
      ∀ (i j : Nat) (x y : K), t.apply (((i : K) + x) / n1, 1 - ((j : K) + y) / n2) = f (a1 + ((i : K) + x - 1 / 2) * d1) (a2 + ((j : K) + y - 1 / 2) * d2) := by
  intro f d1 d2
  have m1 : ((n1 - 1 : Nat) : K) = (n1 : K) - 1 := by rw [Nat.cast_sub (by omega)]; simp
  have m2 : ((n2 - 1 : Nat) : K) = (n2 : K) - 1 := by rw [Nat.cast_sub (by omega)]; simp
  have k1 : (2 : K) ≤ n1 := by exact_mod_cast h1
  have k2 : (2 : K) ≤ n2 := by exact_mod_cast h2
  have z1 : (n1 : K) - 1 ≠ 0 := by linarith
  have z2 : (n2 : K) - 1 ≠ 0 := by linarith
  have y1 : (n1 : K) ≠ 0 := by linarith
  have y2 : (n2 : K) ≠ 0 := by linarith
  have ed1 : b1 = a1 + ((n1 : K) - 1) * d1 := by simp only [d1, m1]; field_simp; ring
  have ed2 : b2 = a2 + ((n2 : K) - 1) * d2 := by simp only [d2, m2]; field_simp; ring
  have p1 : 0 < d1 := by simp only [d1, m1]; exact div_pos (by linarith) (by linarith)
  have p2 : 0 < d2 := by simp only [d2, m2]; exact div_pos (by linarith) (by linarith)
  have e1 : (b1 - a1) * (1 / 2) / ((n1 - 1 : Nat) : K) = d1 / 2 := by simp only [d1]; ring
  have e2 : (b2 - a2) * (1 / 2) / ((n2 - 1 : Nat) : K) = d2 / 2 := by simp only [d2]; ring
  clear_value d1 d2
  subst ed1 ed2
  simp only [bitmapTrafo, e1, e2]
  have hD : ((n1 : K) * d1 * p.1) * (-((n2 : K) * d2 * q.2)) - (-((n2 : K) * d2 * q.1)) * ((n1 : K) * d1 * p.2) ≠ 0 := by
    have : ((n1 : K) * d1 * p.1) * (-((n2 : K) * d2 * q.2)) - (-((n2 : K) * d2 * q.1)) * ((n1 : K) * d1 * p.2) = -((n1 : K) * d1 * ((n2 : K) * d2) * (p.1 * q.2 - p.2 * q.1)) := by ring
    rw [this]
    exact neg_ne_zero.mpr (mul_ne_zero (mul_ne_zero (mul_ne_zero y1 p1.ne') (mul_ne_zero y2 p2.ne')) hdet)
  have t1 : (f (a1 + ((n1 : K) - 1) * d1 + d1 / 2) (a2 + ((n2 : K) - 1) * d2 + d2 / 2)).1 - (f (a1 - d1 / 2) (a2 + ((n2 : K) - 1) * d2 + d2 / 2)).1 = (n1 : K) * d1 * p.1 := by simp only [f]; ring
  have t2 : (f (a1 - d1 / 2) (a2 - d2 / 2)).1 - (f (a1 - d1 / 2) (a2 + ((n2 : K) - 1) * d2 + d2 / 2)).1 = -((n2 : K) * d2 * q.1) := by simp only [f]; ring
  have t3 : (f (a1 + ((n1 : K) - 1) * d1 + d1 / 2) (a2 + ((n2 : K) - 1) * d2 + d2 / 2)).2 - (f (a1 - d1 / 2) (a2 + ((n2 : K) - 1) * d2 + d2 / 2)).2 = (n1 : K) * d1 * p.2 := by simp only [f]; ring
  have t4 : (f (a1 - d1 / 2) (a2 - d2 / 2)).2 - (f (a1 - d1 / 2) (a2 + ((n2 : K) - 1) * d2 + d2 / 2)).2 = -((n2 : K) * d2 * q.2) := by simp only [f]; ring
  simp only [t1, t2, t3, t4]
  refine ⟨⟨(n1 : K) * d1 * p.1, -((n2 : K) * d2 * q.1), (n1 : K) * d1 * p.2, -((n2 : K) * d2 * q.2),
    (f (a1 - d1 / 2) (a2 + ((n2 : K) - 1) * d2 + d2 / 2)).1, (f (a1 - d1 / 2) (a2 + ((n2 : K) - 1) * d2 + d2 / 2)).2⟩, ?_, fun i j x y => ?_⟩
  · rw [Trafo.unapply]
    simp only
    rw [if_neg hD, Option.bind_some]
    have u1 : (-((n2 : K) * d2 * q.2) * ((f (a1 + ((n1 : K) - 1) * d1 + d1 / 2) (a2 - d2 / 2)).1 - (f (a1 - d1 / 2) (a2 + ((n2 : K) - 1) * d2 + d2 / 2)).1) -
        -((n2 : K) * d2 * q.1) * ((f (a1 + ((n1 : K) - 1) * d1 + d1 / 2) (a2 - d2 / 2)).2 - (f (a1 - d1 / 2) (a2 + ((n2 : K) - 1) * d2 + d2 / 2)).2)) =
        ((n1 : K) * d1 * p.1) * (-((n2 : K) * d2 * q.2)) - (-((n2 : K) * d2 * q.1)) * ((n1 : K) * d1 * p.2) := by simp only [f]; ring
    have u2 : ((n1 : K) * d1 * p.1 * ((f (a1 + ((n1 : K) - 1) * d1 + d1 / 2) (a2 - d2 / 2)).2 - (f (a1 - d1 / 2) (a2 + ((n2 : K) - 1) * d2 + d2 / 2)).2) -
        (n1 : K) * d1 * p.2 * ((f (a1 + ((n1 : K) - 1) * d1 + d1 / 2) (a2 - d2 / 2)).1 - (f (a1 - d1 / 2) (a2 + ((n2 : K) - 1) * d2 + d2 / 2)).1)) =
        ((n1 : K) * d1 * p.1) * (-((n2 : K) * d2 * q.2)) - (-((n2 : K) * d2 * q.1)) * ((n1 : K) * d1 * p.2) := by simp only [f]; ring
    rw [u1, u2, div_self hD]
    simp only [sub_self, abs_zero, or_self]
    rw [if_neg (not_lt.mpr he)]
  · simp only [Trafo.apply, f, Prod.mk.injEq]
    constructor <;> (field_simp; ring)

/-- C112: values are accepted for a bitmap exactly if there are at least two and they are equidistant up to the tolerance. -/
theorem density_accepts (eps : K) (vals : List K) :
    equidistant eps vals = some () ↔ 2 ≤ vals.length ∧ ∃ a b, vals.head? = some a ∧ vals.getLast? = some b ∧
      ∀ (i : Nat) (x : K), vals[i]? = some x → |x - (a + (i : K) * ((b - a) / ((vals.length - 1 : Nat) : K)))| ≤ eps := by
  rw [equidistant]
  cases ha : vals.head? with
  | none =>
    have : vals = [] := List.head?_eq_none_iff.mp ha
    subst this
    simp
  | some a =>
    cases hb : vals.getLast? with
    | none => simp
    | some b =>
      simp only
      by_cases h2 : vals.length < 2
      · rw [if_pos h2]
        constructor
        · intro h; cases h
        · rintro ⟨h, -⟩; omega
      · rw [if_neg h2]
        have key : ((vals.zipIdx).all fun x => !decide (eps < |x.1 - a - (x.2 : K) * (b - a) / ((vals.length - 1 : Nat) : K)|)) = true ↔
            ∀ (i : Nat) (x : K), vals[i]? = some x → |x - (a + (i : K) * ((b - a) / ((vals.length - 1 : Nat) : K)))| ≤ eps := by
          simp only [List.all_eq_true, Bool.not_eq_true', decide_eq_false_iff_not, not_lt]
          constructor
          · intro h i x hx
            have := h (x, i) (List.mk_mem_zipIdx_iff_getElem?.mpr hx)
            simp only at this
            rw [show x - (a + (i : K) * ((b - a) / ((vals.length - 1 : Nat) : K))) = x - a - (i : K) * (b - a) / ((vals.length - 1 : Nat) : K) by ring]
            exact this
          · rintro h ⟨x, i⟩ hx
            have := h i x (List.mk_mem_zipIdx_iff_getElem?.mp hx)
            rw [show x - (a + (i : K) * ((b - a) / ((vals.length - 1 : Nat) : K))) = x - a - (i : K) * (b - a) / ((vals.length - 1 : Nat) : K) by ring] at this
            exact this
        by_cases hk : ((vals.zipIdx).all fun x => !decide (eps < |x.1 - a - (x.2 : K) * (b - a) / ((vals.length - 1 : Nat) : K)|)) = true
        · rw [if_pos hk]
          exact ⟨fun _ => ⟨by omega, a, b, rfl, rfl, key.mp hk⟩, fun _ => rfl⟩
        · rw [if_neg hk]
          constructor
          · intro h; cases h
          · rintro ⟨-, a', b', e1, e2, h⟩
            obtain rfl := Option.some.inj e1
            obtain rfl := Option.some.inj e2
            exact absurd (key.mpr h) hk

/-! ## Cases -/

/-- Two values of the first coordinate are joined, the point at (2, 1) is replaced. -/
example : ((points (1/10 : ℚ) [some (1, 1, 'a'), some (2, 1, 'b'), none, some (1 + 1/20, 2, 'c'), some (2, 1, 'd')]).values1,
    (points (1/10 : ℚ) [some (1, 1, 'a'), some (2, 1, 'b'), none, some (1 + 1/20, 2, 'c'), some (2, 1, 'd')]).data12 1 2,
    (points (1/10 : ℚ) [some (1, 1, 'a'), some (2, 1, 'b'), none, some (1 + 1/20, 2, 'c'), some (2, 1, 'd')]).data21 1 2) = ([1, 2], some 'c', some 'd') := by decide +kernel

example : neighbours (fun k => if k = 2 then none else some (k * 10)) [0, 1, 2, 3, 4] = [(0, 10), (30, 40)] := by decide +kernel

example : imagedata 1 (pixels [(0 : ℚ), 1] [0, 1] (fun _ _ => some ()) (fun a b => some (a + 2 * b)) (fun c => if c = 3 then none else some [7])) = [7, 255, 7, 255, 7, 255, 0, 0] := by decide +kernel

example : equidistant (0 : ℚ) [0, 1/2, 1] = some () ∧ equidistant (0 : ℚ) [0, 1/3, 1] = none ∧ equidistant (0 : ℚ) [0] = none := by decide +kernel

end PyX.Style.Grid
