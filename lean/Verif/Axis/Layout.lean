import Verif.Axis.CreateBest
import Verif.Axis.Rate
import Mathlib.Tactic.Linarith
import Mathlib.Tactic.FieldSimp
import Mathlib.Tactic.Positivity

/-!
# C176: the distances of labels decide which partitions of an axis are suitable (`rater.ratelayout`, `pyx/graph/axis/rater.py:208-225`)

Labels are boxes of any type; `dist` is `boxdistance_pt` with `none` for the exception `BoxCrossError` (`box.py:224-244`, C-properties about boxes are in `Verif.Box`).
-/

set_option linter.unusedSectionVars false

namespace PyX.Axis.Layout

variable {K : Type} [Field K] [LinearOrder K] [IsStrictOrderedRing K] {B : Type}

/-- The list of distances (`rater.py:219-220`); `none` if two labels cross. -/
def distances (dist : B → B → Option K) : List B → Option (List K)
  | a :: b :: l => (dist a b).bind fun d => (distances dist (b :: l)).map (d :: ·)
  | _ => some []

/-- The result of `ratelayout`. -/
inductive Rated (K : Type) where
  | value (r : K)
  /-- `None` -/
  | unsuitable
  /-- `ZeroDivisionError` -/
  | zeroDivision
deriving DecidableEq, Repr

/-- Whether one of the quotients in `distance.rate` (`rater.py:109-112`) has the denominator 0. -/
def divides0 (opt : K) (ds : List K) : Bool := ds.any fun d => if d < opt then decide (d = 0) else decide (opt = 0)

/-- `rater.ratelayout` (`rater.py:208-225`) for the labels of a canvas (`None` if the layout is not to be rated), with `distance.rate` (`rater.py:99-114`). -/
def ratelayout (dist : B → B → Option K) (opt weight density : K) : Option (List B) → Rated K
  | none => .value 0
  | some labels =>
    if 1 < labels.length then
      match distances dist labels with
      | none => .unsuitable
      | some ds =>
        if divides0 (opt / density) ds then .zeroDivision
        else match distRate opt weight ds density with
          | none => .unsuitable
          | some r => .value r
    else .unsuitable

/-! ## Specification -/

/-- Two labels of which the second one follows the first one. -/
def Next (labels : List B) (a b : B) : Prop := ∃ i, labels[i]? = some a ∧ labels[i + 1]? = some b

/-- How far a distance is from the optimum: the ratio of the larger to the smaller one, less one. -/
def off (opt d : K) : K := max (opt / d) (d / opt) - 1

/-! ## Lemmas -/

theorem next_cons (a b : B) (l : List B) (x y : B) : Next (a :: b :: l) x y ↔ (x = a ∧ y = b) ∨ Next (b :: l) x y := by
  constructor
  · rintro ⟨i, h1, h2⟩
    cases i with
    | zero =>
      simp only [List.getElem?_cons_zero, Option.some.injEq, Nat.zero_add, List.getElem?_cons_succ] at h1 h2
      exact Or.inl ⟨h1.symm, h2.symm⟩
    | succ i => exact Or.inr ⟨i, h1, h2⟩
  · rintro (⟨rfl, rfl⟩ | ⟨i, h1, h2⟩)
    · exact ⟨0, rfl, rfl⟩
    · exact ⟨i + 1, h1, h2⟩

theorem next_short (l : List B) (h : l.length ≤ 1) (x y : B) : ¬ Next l x y := by
  rintro ⟨i, -, h2⟩
  have := (List.getElem?_eq_some_iff.mp h2).1
  omega

theorem distances_none (dist : B → B → Option K) : ∀ l : List B, distances dist l = none ↔ ∃ a b, Next l a b ∧ dist a b = none
  | [] => by
    simp only [distances, reduceCtorEq, false_iff]
    rintro ⟨a, b, h, -⟩
    exact next_short [] (by simp) a b h
  | [a] => by
    simp only [distances, reduceCtorEq, false_iff]
    rintro ⟨x, y, h, -⟩
    exact next_short [a] (by simp) x y h
  | a :: b :: l => by
    have ih := distances_none dist (b :: l)
    rw [distances]
    cases hd : dist a b with
    | none => simp only [Option.bind_none, true_iff]; exact ⟨a, b, (next_cons a b l a b).mpr (Or.inl ⟨rfl, rfl⟩), hd⟩
    | some d =>
      rw [Option.bind_some, Option.map_eq_none_iff, ih]
      constructor
      · rintro ⟨x, y, h, hn⟩
        exact ⟨x, y, (next_cons a b l x y).mpr (Or.inr h), hn⟩
      · rintro ⟨x, y, h, hn⟩
        rcases (next_cons a b l x y).mp h with ⟨rfl, rfl⟩ | h
        · rw [hd] at hn; cases hn
        · exact ⟨x, y, h, hn⟩

theorem distances_mem (dist : B → B → Option K) : ∀ (l : List B) (ds : List K), distances dist l = some ds →
    (∀ d, d ∈ ds ↔ ∃ a b, Next l a b ∧ dist a b = some d) ∧ ds.length = l.length - 1
  | [], ds, h => by
    simp only [distances, Option.some.injEq] at h
    subst h
    refine ⟨fun d => ⟨by simp, ?_⟩, rfl⟩
    rintro ⟨a, b, h, -⟩
    exact absurd h (next_short [] (by simp) a b)
  | [a], ds, h => by
    simp only [distances, Option.some.injEq] at h
    subst h
    refine ⟨fun d => ⟨by simp, ?_⟩, rfl⟩
    rintro ⟨x, y, h, -⟩
    exact absurd h (next_short [a] (by simp) x y)
  | a :: b :: l, ds, h => by
    rw [distances] at h
    cases hd : dist a b with
    | none => rw [hd] at h; simp at h
    | some e =>
      rw [hd, Option.bind_some, Option.map_eq_some_iff] at h
      obtain ⟨es, he, rfl⟩ := h
      obtain ⟨ih, hl⟩ := distances_mem dist (b :: l) es he
      refine ⟨fun d => ?_, by simp only [List.length_cons] at hl ⊢; omega⟩
      rw [List.mem_cons, ih]
      constructor
      · rintro (rfl | ⟨x, y, h, hx⟩)
        · exact ⟨a, b, (next_cons a b l a b).mpr (Or.inl ⟨rfl, rfl⟩), hd⟩
        · exact ⟨x, y, (next_cons a b l x y).mpr (Or.inr h), hx⟩
      · rintro ⟨x, y, h, hx⟩
        rcases (next_cons a b l x y).mp h with ⟨rfl, rfl⟩ | h
        · rw [hd, Option.some.injEq] at hx; exact Or.inl hx.symm
        · exact Or.inr ⟨x, y, h, hx⟩

theorem off_step (o w d : K) (ho : 0 < o) (hd : 0 < d) : (if d < o then w * (o / d - 1) else w * (d / o - 1)) = w * off o d := by
  unfold off
  split
  · next h =>
    have h1 : d / o ≤ 1 := (div_le_one ho).mpr h.le
    have h2 : 1 ≤ o / d := (one_le_div hd).mpr h.le
    rw [max_eq_left (h1.trans h2)]
  · next h =>
    have h1 : o / d ≤ 1 := (div_le_one hd).mpr (not_lt.mp h)
    have h2 : 1 ≤ d / o := (one_le_div ho).mpr (not_lt.mp h)
    rw [max_eq_right (h1.trans h2)]

theorem off_nonneg (o d : K) (ho : 0 < o) (hd : 0 < d) : 0 ≤ off o d := by
  unfold off
  rcases le_total d o with h | h
  · have : 1 ≤ o / d := (one_le_div hd).mpr h
    linarith [le_max_left (o / d) (d / o)]
  · have : 1 ≤ d / o := (one_le_div ho).mpr h
    linarith [le_max_right (o / d) (d / o)]

theorem off_zero (o d : K) (ho : 0 < o) (hd : 0 < d) : off o d = 0 ↔ d = o := by
  constructor
  · intro h
    have h0 : max (o / d) (d / o) = 1 := by unfold off at h; linarith
    have h1 : o / d ≤ 1 := h0 ▸ le_max_left _ _
    have h2 : d / o ≤ 1 := h0 ▸ le_max_right _ _
    exact le_antisymm ((div_le_one ho).mp h2) ((div_le_one hd).mp h1)
  · rintro rfl
    unfold off
    rw [div_self ho.ne', max_self, sub_self]

theorem foldl_off (o w : K) (ho : 0 < o) (ds : List K) (hp : ∀ d ∈ ds, 0 < d) (x : K) :
    ds.foldl (fun rate d => if d < o then rate + w * (o / d - 1) else rate + w * (d / o - 1)) x = x + w * (ds.map (off o)).sum := by
  induction ds generalizing x with
  | nil => simp
  | cons d ds ih =>
    rw [List.foldl_cons, ih fun e he => hp e (List.mem_cons_of_mem _ he), List.map_cons, List.sum_cons]
    have := off_step o w d ho (hp d List.mem_cons_self)
    by_cases h : d < o
    · rw [if_pos h] at this ⊢; rw [this]; ring
    · rw [if_neg h] at this ⊢; rw [this]; ring

theorem divides0_iff (o : K) (ho : 0 < o) (ds : List K) : divides0 o ds = true ↔ 0 ∈ ds := by
  unfold divides0
  rw [List.any_eq_true]
  constructor
  · rintro ⟨d, hd, h⟩
    split at h
    · rw [decide_eq_true_eq] at h; exact h ▸ hd
    · rw [decide_eq_true_eq] at h; exact absurd h ho.ne'
  · intro h
    exact ⟨0, h, by rw [if_pos ho]; simp⟩

/-! ## Properties -/

/-- **C176**: a layout is not suitable if and only if it has less than two labels or a label crosses the next one. -/
theorem unsuitable_iff (dist : B → B → Option K) (opt weight density : K) (labels : List B) :
    ratelayout dist opt weight density (some labels) = .unsuitable ↔ labels.length < 2 ∨ ∃ a b, Next labels a b ∧ dist a b = none := by
  unfold ratelayout
  simp only
  by_cases hl : 1 < labels.length
  · rw [if_pos hl]
    cases hd : distances dist labels with
    | none => simp only [true_iff]; exact Or.inr ((distances_none dist labels).mp hd)
    | some ds =>
      have hn : ¬ ∃ a b, Next labels a b ∧ dist a b = none := fun h => by
        rw [(distances_none dist labels).mpr h] at hd; cases hd
      have hne : ds ≠ [] := by
        have := (distances_mem dist labels ds hd).2
        intro h
        rw [h, List.length_nil] at this
        omega
      have hz : ds.isEmpty = false := by cases ds with
        | nil => exact absurd rfl hne
        | cons => rfl
      simp only [distRate, hz, Bool.false_eq_true, if_false]
      split
      · simp only [reduceCtorEq, false_iff, not_or]; exact ⟨by omega, hn⟩
      · simp only [reduceCtorEq, false_iff, not_or]; exact ⟨by omega, hn⟩
  · rw [if_neg hl]
    simp only [true_iff]
    exact Or.inl (by omega)

/-- **C176 (refuted)**: labels which touch without crossing are an error instead of a bad layout. -/
theorem touching_iff (dist : B → B → Option K) (opt weight density : K) (ho : 0 < opt) (hr : 0 < density) (labels : List B) :
    ratelayout dist opt weight density (some labels) = .zeroDivision ↔
      (∀ a b, Next labels a b → dist a b ≠ none) ∧ ∃ a b, Next labels a b ∧ dist a b = some 0 := by
  unfold ratelayout
  simp only
  by_cases hl : 1 < labels.length
  · rw [if_pos hl]
    cases hd : distances dist labels with
    | none =>
      simp only [reduceCtorEq, false_iff, not_and]
      obtain ⟨a, b, h1, h2⟩ := (distances_none dist labels).mp hd
      intro h
      exact absurd h2 (h a b h1)
    | some ds =>
      have hn : ∀ a b, Next labels a b → dist a b ≠ none := fun a b h1 h2 => by
        rw [(distances_none dist labels).mpr ⟨a, b, h1, h2⟩] at hd; cases hd
      have hm := (distances_mem dist labels ds hd).1 0
      rw [← divides0_iff (opt / density) (div_pos ho hr)] at hm
      simp only
      by_cases h0 : divides0 (opt / density) ds = true
      · rw [if_pos h0]; simp only [true_iff]; exact ⟨hn, hm.mp h0⟩
      · rw [if_neg h0]
        constructor
        · intro h
          split at h <;> cases h
        · exact fun h => absurd (hm.mpr h.2) h0
  · rw [if_neg hl]
    simp only [reduceCtorEq, false_iff, not_and]
    rintro - ⟨a, b, h, -⟩
    exact next_short labels (by omega) a b h

/-- **C176**: otherwise the rate is the mean of the weighted deviations of the distances; it is not negative, and 0 if and only if all distances are optimal. -/
theorem rate_value (dist : B → B → Option K) (opt weight density : K) (ho : 0 < opt) (hr : 0 < density) (hw : 0 < weight) (labels : List B) (hl : 2 ≤ labels.length)
    (hd : ∀ a b, Next labels a b → ∃ d, dist a b = some d ∧ 0 < d) :
    ∃ ds, distances dist labels = some ds ∧ ds.length = labels.length - 1 ∧
      ratelayout dist opt weight density (some labels) = .value (weight * (ds.map (off (opt / density))).sum / (labels.length - 1 : ℕ)) ∧
      0 ≤ weight * (ds.map (off (opt / density))).sum / (labels.length - 1 : ℕ) ∧
      (weight * (ds.map (off (opt / density))).sum / (labels.length - 1 : ℕ) = 0 ↔ ∀ a b, Next labels a b → dist a b = some (opt / density)) := by
  have ho' : 0 < opt / density := div_pos ho hr
  cases hds : distances dist labels with
  | none =>
    obtain ⟨a, b, h1, h2⟩ := (distances_none dist labels).mp hds
    obtain ⟨d, h3, -⟩ := hd a b h1
    rw [h2] at h3; cases h3
  | some ds =>
    obtain ⟨hm, hlen⟩ := distances_mem dist labels ds hds
    have hpos : ∀ d ∈ ds, 0 < d := by
      intro d h
      obtain ⟨a, b, h1, h2⟩ := (hm d).mp h
      obtain ⟨e, h3, h4⟩ := hd a b h1
      rw [h2, Option.some.injEq] at h3
      exact h3 ▸ h4
    have hz : ds.isEmpty = false := by
      cases ds with
      | nil => simp only [List.length_nil] at hlen; omega
      | cons => rfl
    have h0 : ¬ divides0 (opt / density) ds = true := by
      rw [divides0_iff _ ho']
      exact fun h => lt_irrefl _ (hpos 0 h)
    have hN : (0 : K) < ((labels.length - 1 : ℕ) : K) := by
      have : 0 < labels.length - 1 := by omega
      exact_mod_cast this
    have hsum : ∀ l : List K, (∀ d ∈ l, 0 < d) → 0 ≤ (l.map (off (opt / density))).sum ∧ ((l.map (off (opt / density))).sum = 0 ↔ ∀ d ∈ l, d = opt / density) := by
      intro l
      induction l with
      | nil => simp
      | cons d l ih =>
        intro hp
        obtain ⟨i1, i2⟩ := ih fun e he => hp e (List.mem_cons_of_mem _ he)
        have n := off_nonneg (opt / density) d ho' (hp d List.mem_cons_self)
        have z := off_zero (opt / density) d ho' (hp d List.mem_cons_self)
        rw [List.map_cons, List.sum_cons]
        refine ⟨by linarith, ?_⟩
        rw [List.forall_mem_cons, ← z, ← i2]
        constructor
        · intro h; exact ⟨by linarith, by linarith⟩
        · rintro ⟨h1, h2⟩; rw [h1, h2, add_zero]
    obtain ⟨s1, s2⟩ := hsum ds hpos
    refine ⟨ds, rfl, hlen, ?_, ?_, ?_⟩
    · unfold ratelayout
      simp only [if_pos (show 1 < labels.length by omega), hds, if_neg h0, distRate, hz, Bool.false_eq_true, if_false, foldl_off _ weight ho' ds hpos, zero_add, hlen]
    · exact div_nonneg (mul_nonneg hw.le s1) hN.le
    · rw [div_eq_zero_iff, or_iff_left hN.ne', mul_eq_zero, or_iff_right hw.ne', s2]
      constructor
      · intro h a b hab
        obtain ⟨d, h1, -⟩ := hd a b hab
        rw [h1, h d ((hm d).mpr ⟨a, b, hab, h1⟩)]
      · intro h d hd'
        obtain ⟨a, b, h1, h2⟩ := (hm d).mp hd'
        have := h a b h1
        rw [h2, Option.some.injEq] at this
        exact this

/-! ## Choosing a partition -/

open PyX.Axis.Create

variable {R L C : Type} [DecidableEq R]

/-- The rate of layouts as `_create` sees it; `labels` are the labels of a canvas. -/
def Rates (g : Cfg K R L C) (labels : C → Option (List B)) (dist : B → B → Option K) (opt weight density : K) : Prop :=
  ∀ c, match ratelayout dist opt weight density (labels c) with
    | .value r => g.ratelayout c = some r
    | .unsuitable => g.ratelayout c = none
    | .zeroDivision => False

/-- **C176**: if there are two partitions or more to choose from, the axis gets at least two labels, none of which crosses the next one, unless the painter says that labels
are not to be rated.  (Without touching labels, see `touching_iff`.) -/
theorem chosen_labels (g : Cfg K R L C) (labels : C → Option (List B)) (dist : B → B → Option K) (opt weight density : K) (ho : 0 < opt) (hr : 0 < density) (hw : 0 < weight)
    (hdist : ∀ a b d, dist a b = some d → 0 ≤ d) (hg : Rates g labels dist opt weight density)
    (p : Data K → List (R × K × Option L) → C) (hp : g.paint = some p) (hne : ∀ d ts, g.nonempty (p d ts) = true) (n : ℕ) (fallback : Option K) (h : Heap K R L)
    (d : Data K) (vs : List (K × List R)) (hlen : 2 ≤ vs.length) (hnd : ∀ v ∈ vs, v.2.Nodup) (hap : (vs.map Prod.snd).Pairwise List.Disjoint)
    (r : Made K R L C) (hres : Create.create g n fallback h d (.variants vs) = some (some r)) :
    labels r.canvas = none ∨ ∃ ls, labels r.canvas = some ls ∧ 2 ≤ ls.length ∧ ∀ a b, Next ls a b → dist a b ≠ none := by
  have hpos : ∀ c l, g.ratelayout c = some l → 0 ≤ l := by
    intro c l hc
    have hgc := hg c
    cases hls : labels c with
    | none =>
      rw [hls] at hgc
      simp only [ratelayout, hc, Option.some.injEq] at hgc
      exact hgc.ge
    | some ls =>
      rw [hls] at hgc
      by_cases hl : 2 ≤ ls.length
      · by_cases hx : ∃ a b, Next ls a b ∧ dist a b = none
        · rw [(unsuitable_iff dist opt weight density ls).mpr (Or.inr hx), hc] at hgc
          simp at hgc
        · by_cases hz : ∃ a b, Next ls a b ∧ dist a b = some 0
          · rw [(touching_iff dist opt weight density ho hr ls).mpr ⟨fun a b h1 h2 => hx ⟨a, b, h1, h2⟩, hz⟩] at hgc
            exact hgc.elim
          · have hall : ∀ a b, Next ls a b → ∃ d, dist a b = some d ∧ 0 < d := by
              intro a b hab
              cases hd : dist a b with
              | none => exact absurd ⟨a, b, hab, hd⟩ hx
              | some e =>
                refine ⟨e, rfl, lt_of_le_of_ne (hdist a b e hd) ?_⟩
                rintro rfl
                exact hz ⟨a, b, hab, hd⟩
            obtain ⟨ds, -, -, h1, h2, -⟩ := rate_value dist opt weight density ho hr hw ls hl hall
            rw [h1, hc] at hgc
            simp only [Option.some.injEq] at hgc
            exact hgc ▸ h2
      · rw [(unsuitable_iff dist opt weight density ls).mpr (Or.inl (by omega)), hc] at hgc
        simp at hgc
  obtain ⟨m, -, v, -, -, hcv, x, hx, -⟩ := create_best g p hp hne hpos n fallback h d vs hlen hnd hap r hres
  unfold Create.total at hx
  rw [← hcv, Option.map_eq_some_iff] at hx
  obtain ⟨l, hl, -⟩ := hx
  have hgc := hg r.canvas
  cases hls : labels r.canvas with
  | none => exact Or.inl rfl
  | some ls =>
    refine Or.inr ⟨ls, rfl, ?_⟩
    have hu : ¬ ratelayout dist opt weight density (some ls) = .unsuitable := by
      intro hu
      rw [hls, hu, hl] at hgc
      simp at hgc
    rw [unsuitable_iff, not_or] at hu
    exact ⟨by omega, fun a b h1 h2 => hu.2 ⟨a, b, h1, h2⟩⟩

/-- **C176 (refuted)**: an axis for which all partitions (two or more) give at most one label cannot be created at all, although such an axis is created if there is only one partition. -/
theorem few_labels_fail (g : Cfg K R L C) (labels : C → Option (List B)) (dist : B → B → Option K) (opt weight density : K)
    (hg : Rates g labels dist opt weight density) (hpos : ∀ c l, g.ratelayout c = some l → 0 ≤ l)
    (p : Data K → List (R × K × Option L) → C) (hp : g.paint = some p) (hne : ∀ d ts, g.nonempty (p d ts) = true) (n : ℕ) (fallback : Option K) (h : Heap K R L)
    (d : Data K) (vs : List (K × List R)) (hlen : 2 ≤ vs.length) (hn : vs.length < n) (hnd : ∀ v ∈ vs, v.2.Nodup) (hap : (vs.map Prod.snd).Pairwise List.Disjoint)
    (hfew : ∀ v ∈ vs, ∀ m : K × K, ∃ ls, labels (layout g h ⟨some m.1, some m.2⟩ v.2).2.2 = some ls ∧ ls.length < 2) :
    Create.create g n fallback h d (.variants vs) = some none := by
  have hend := create_ends g (fun q hq => by rw [hp, Option.some.injEq] at hq; subst hq; exact hne) fallback h d (.variants vs) n (by simpa [Source.lists] using hn)
  cases hres : Create.create g n fallback h d (.variants vs) with
  | none => exact absurd hres hend
  | some o =>
    cases o with
    | none => rfl
    | some r =>
      obtain ⟨m, -, v, hv, -, -, x, hx, -⟩ := create_best g p hp hne hpos n fallback h d vs hlen hnd hap r hres
      obtain ⟨ls, h1, h2⟩ := hfew v hv m
      have hgc := hg (layout g h ⟨some m.1, some m.2⟩ v.2).2.2
      rw [h1, (unsuitable_iff dist opt weight density ls).mpr (Or.inl h2)] at hgc
      unfold Create.total at hx
      rw [hgc] at hx
      simp at hx

/-! ## Examples -/

/-- Labels on a line: intervals. -/
def exDist (a b : ℚ × ℚ) : Option ℚ := if b.1 < a.2 then none else some (b.1 - a.2)

example : ratelayout exDist 2 1 1 (some [(0, 1), (3, 4), (8, 9)]) = .value (1 / 2) := by decide +kernel
example : ratelayout exDist 2 1 1 (some [(0, 1), (3, 4), (6, 9)]) = .value 0 := by decide +kernel
example : ratelayout exDist 2 1 1 (some [(0, 1), (1, 4)]) = .zeroDivision := by decide +kernel
example : ratelayout exDist 2 1 1 (some [(0, 3), (1, 4)]) = .unsuitable := by decide +kernel
example : ratelayout exDist 2 1 1 (some [(0, 3)]) = .unsuitable ∧ ratelayout exDist 2 1 1 none = .value 0 := by decide +kernel

/-- A painter which makes an interval for each tick. -/
def exBoxes (ts : List (ℕ × ℚ × Option ℚ)) : List (ℚ × ℚ) := ts.map fun t => (t.2.1, t.2.1 + 1)

/-- The rate, if there is one. -/
def valueOf : Rated ℚ → Option ℚ
  | .value r => some r
  | _ => none

def exCfg' : Cfg ℚ ℕ ℚ (List (ℕ × ℚ × Option ℚ)) :=
  { exCfg none with ratelayout := fun c => valueOf (ratelayout exDist 2 1 1 (some (exBoxes c))) }

set_option synthInstance.maxSize 1000 in
/-- Two partitions with one tick each: an error; the first of them alone: an axis. -/
example : Create.create exCfg' 3 none exHeap ⟨some 0, some 8⟩ (.variants [(0, [2]), (1, [4])]) |>.map Option.isSome |> (· = some false) := by decide +kernel

set_option synthInstance.maxSize 1000 in
example : Create.create exCfg' 3 none exHeap ⟨some 0, some 8⟩ (.variants [(0, [2])]) |>.map Option.isSome |> (· = some true) := by decide +kernel

set_option synthInstance.maxSize 1000 in
/-- Two partitions, the first one has only one label. -/
example : (Create.create exCfg' 3 none exHeap ⟨some 0, some 8⟩ (.variants [(0, [2]), (1, [0, 4])])).map (fun r => r.map Made.ticks) = some (some [0, 4]) := by decide +kernel

end PyX.Axis.Layout
