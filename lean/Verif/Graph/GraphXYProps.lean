import Verif.Graph.GraphXY
import Mathlib.Tactic.FieldSimp
import Mathlib.Tactic.LinearCombination

/-!
# C108: two-dimensional graphs put points, axes, grid and key where they belong
-/

set_option linter.unusedSectionVars false

namespace PyX.Graph.XY

variable {K : Type} [Field K] [LinearOrder K] [IsStrictOrderedRing K] (g : Graph2 K)

/-! ## Specification -/

/-- The point of the graph at the position `v` of the axes in one direction and `u` of those in the other. -/
def pt (yaxis : Bool) (v u : K) : P K := if yaxis then vpos g u v else vpos g v u

/-- The horizontal direction is that of the x-axes, unless the graph is flipped. -/
def horizontal (yaxis : Bool) : Bool := yaxis == g.flipped

/-! ## Axes -/

theorem pt_horizontal (yaxis : Bool) (v u : K) :
    pt g yaxis v u = if horizontal g yaxis then (g.xpos + v * g.width, g.ypos + u * g.height) else (g.xpos + u * g.width, g.ypos + v * g.height) := by
  cases yaxis <;> cases h : g.flipped <;> simp [pt, vpos, horizontal, h]

/-- What positioners of axes look like. -/
theorem positioner_form (present : Nat → Bool) (extent : Nat → K) (yaxis : Bool) (n : Nat) (l : LinePos K) (h : doaxispositioner g present extent yaxis n = some l) :
    (horizontal g yaxis = true → ∃ y, l.p1 = (g.xpos, y) ∧ l.p2 = (g.xpos + g.width, y) ∧ l.dir = (0, sign g yaxis n) ∧ l.grid = xvgridpath g) ∧
    (horizontal g yaxis = false → ∃ x, l.p1 = (x, g.ypos) ∧ l.p2 = (x, g.ypos + g.height) ∧ l.dir = (sign g yaxis n, 0) ∧ l.grid = yvgridpath g) := by
  match n with
  | 0 => simp [doaxispositioner] at h
  | 1 =>
    simp only [doaxispositioner] at h
    split_ifs at h
    obtain rfl := Option.some.inj h
    cases yaxis <;> cases hf : g.flipped <;> simp [horizontal, axespositioner, sign, hf, bottom, top, left, right] <;> norm_num
  | 2 =>
    simp only [doaxispositioner] at h
    split_ifs at h
    obtain rfl := Option.some.inj h
    cases yaxis <;> cases hf : g.flipped <;> simp [horizontal, axespositioner, sign, hf, bottom, top, left, right]
  | n + 3 =>
    simp only [doaxispositioner] at h
    by_cases hp : present (n + 3) = true
    swap
    · rw [if_neg hp] at h; cases h
    rw [if_pos hp] at h
    cases hd : doaxispositioner g present extent yaxis (n + 1) with
    | none => simp [hd] at h
    | some d =>
      simp only [hd, Option.map_some, Option.some.injEq] at h
      by_cases hh : (yaxis == g.flipped) = true
      · rw [if_pos hh] at h
        subst h
        exact ⟨fun _ => ⟨_, rfl, rfl, rfl, rfl⟩, fun h => by simp only [horizontal] at h; rw [hh] at h; cases h⟩
      · rw [if_neg hh] at h
        subst h
        exact ⟨fun h => absurd h hh, fun _ => ⟨_, rfl, rfl, rfl, rfl⟩⟩

/-- C108: every further axis is a copy of the one two numbers below, moved outwards (against the direction of the ticks) by the extent of that axis and `axesdist`. -/
theorem axes_outwards (present : Nat → Bool) (extent : Nat → K) (yaxis : Bool) (n : Nat) (l : LinePos K) (h : doaxispositioner g present extent yaxis (n + 3) = some l) :
    ∃ d, doaxispositioner g present extent yaxis (n + 1) = some d ∧ l.dir = d.dir ∧ l.grid = d.grid ∧
      ∀ v, l.tickpoint v = ((d.tickpoint v).1 - (extent (n + 1) + g.axesdist) * d.dir.1, (d.tickpoint v).2 - (extent (n + 1) + g.axesdist) * d.dir.2) := by
  have hs : (sign g yaxis (n + 3) : K) = sign g yaxis (n + 1) := by
    have : (n + 3) % 2 = (n + 1) % 2 := by omega
    simp only [sign, this]
  simp only [doaxispositioner] at h
  by_cases hp : present (n + 3) = true
  swap
  · rw [if_neg hp] at h; cases h
  rw [if_pos hp] at h
  cases hd : doaxispositioner g present extent yaxis (n + 1) with
  | none => simp [hd] at h
  | some d =>
    refine ⟨d, rfl, ?_⟩
    obtain ⟨f1, f2⟩ := positioner_form g present extent yaxis (n + 1) d hd
    simp only [hd, Option.map_some, Option.some.injEq] at h
    by_cases hh : (yaxis == g.flipped) = true
    · rw [if_pos hh] at h
      subst h
      obtain ⟨y, e1, e2, e3, e4⟩ := f1 hh
      refine ⟨by rw [e3, hs], e4.symm, fun v => ?_⟩
      simp only [LinePos.tickpoint, e1, e2, e3, hs]
      refine Prod.ext ?_ ?_ <;> simp only <;> ring
    · rw [if_neg hh] at h
      subst h
      obtain ⟨x, e1, e2, e3, e4⟩ := f2 (by simpa [horizontal] using hh)
      refine ⟨by rw [e3, hs], e4.symm, fun v => ?_⟩
      simp only [LinePos.tickpoint, e1, e2, e3, hs]
      refine Prod.ext ?_ ?_ <;> simp only <;> ring

/-- C108: the ticks of every axis point to the graph: the points of the graph at the value of a tick are in the direction of the tick. -/
theorem axes_face_graph (hw : 0 ≤ g.width) (hh : 0 ≤ g.height) (ha : 0 ≤ g.axesdist) (present : Nat → Bool) (extent : Nat → K) (he : ∀ n, 0 ≤ extent n) (yaxis : Bool) (n : Nat) (l : LinePos K)
    (h : doaxispositioner g present extent yaxis n = some l) (v u : K) (h0 : 0 ≤ u) (h1 : u ≤ 1) :
    ∃ c, 0 ≤ c ∧ pt g yaxis v u = ((l.tickpoint v).1 + c * l.dir.1, (l.tickpoint v).2 + c * l.dir.2) := by
  induction n using Nat.strong_induction_on generalizing l with
  | _ n ih =>
    match n, ih with
    | 0, _ => simp [doaxispositioner] at h
    | 1, _ =>
      simp only [doaxispositioner] at h
      split_ifs at h
      obtain rfl := Option.some.inj h
      have k1 := mul_nonneg h0 hw
      have k2 := mul_nonneg h0 hh
      have k3 := mul_nonneg (sub_nonneg.mpr h1) hw
      have k4 := mul_nonneg (sub_nonneg.mpr h1) hh
      cases yaxis <;> cases hf : g.flipped
      · exact ⟨u * g.height, k2, by simp only [pt, vpos, hf, axespositioner, bottom, LinePos.tickpoint]; refine Prod.ext ?_ ?_ <;> simp <;> ring⟩
      · exact ⟨(1 - u) * g.width, k3, by simp only [pt, vpos, hf, axespositioner, right, LinePos.tickpoint]; refine Prod.ext ?_ ?_ <;> simp <;> ring⟩
      · exact ⟨u * g.width, k1, by simp only [pt, vpos, hf, axespositioner, left, LinePos.tickpoint]; refine Prod.ext ?_ ?_ <;> simp <;> ring⟩
      · exact ⟨u * g.height, k2, by simp only [pt, vpos, hf, axespositioner, bottom, LinePos.tickpoint]; refine Prod.ext ?_ ?_ <;> simp <;> ring⟩
    | 2, _ =>
      simp only [doaxispositioner] at h
      split_ifs at h
      obtain rfl := Option.some.inj h
      have k1 := mul_nonneg h0 hw
      have k2 := mul_nonneg h0 hh
      have k3 := mul_nonneg (sub_nonneg.mpr h1) hw
      have k4 := mul_nonneg (sub_nonneg.mpr h1) hh
      cases yaxis <;> cases hf : g.flipped
      · exact ⟨(1 - u) * g.height, k4, by simp only [pt, vpos, hf, axespositioner, top, LinePos.tickpoint]; refine Prod.ext ?_ ?_ <;> simp <;> ring⟩
      · exact ⟨u * g.width, k1, by simp only [pt, vpos, hf, axespositioner, left, LinePos.tickpoint]; refine Prod.ext ?_ ?_ <;> simp <;> ring⟩
      · exact ⟨(1 - u) * g.width, k3, by simp only [pt, vpos, hf, axespositioner, right, LinePos.tickpoint]; refine Prod.ext ?_ ?_ <;> simp <;> ring⟩
      · exact ⟨(1 - u) * g.height, k4, by simp only [pt, vpos, hf, axespositioner, top, LinePos.tickpoint]; refine Prod.ext ?_ ?_ <;> simp <;> ring⟩
    | n + 3, ih =>
      obtain ⟨d, hd, e1, -, e3⟩ := axes_outwards g present extent yaxis n l h
      obtain ⟨c, hc, hp⟩ := ih (n + 1) (by omega) d hd
      refine ⟨c + (extent (n + 1) + g.axesdist), by have := he (n + 1); linarith, ?_⟩
      rw [hp, e3 v, e1]
      refine Prod.ext ?_ ?_ <;> simp only <;> ring

/-- C108: the first axes are at the boundary of the graph, at opposite sides. -/
theorem axes_boundary (present : Nat → Bool) (extent : Nat → K) (yaxis : Bool) (l m : LinePos K)
    (h1 : doaxispositioner g present extent yaxis 1 = some l) (h2 : doaxispositioner g present extent yaxis 2 = some m) :
    (∀ v, l.tickpoint v = pt g yaxis v 0 ∧ m.tickpoint v = pt g yaxis v 1) ∨ (∀ v, l.tickpoint v = pt g yaxis v 1 ∧ m.tickpoint v = pt g yaxis v 0) := by
  simp only [doaxispositioner] at h1 h2
  split_ifs at h1 h2
  obtain rfl := Option.some.inj h1
  obtain rfl := Option.some.inj h2
  cases yaxis <;> cases hf : g.flipped
  · left; intro v; constructor <;> simp only [pt, vpos, hf, axespositioner, bottom, top, LinePos.tickpoint] <;> refine Prod.ext ?_ ?_ <;> simp <;> ring
  · right; intro v; constructor <;> simp only [pt, vpos, hf, axespositioner, left, right, LinePos.tickpoint] <;> refine Prod.ext ?_ ?_ <;> simp <;> ring
  · left; intro v; constructor <;> simp only [pt, vpos, hf, axespositioner, left, right, LinePos.tickpoint] <;> refine Prod.ext ?_ ?_ <;> simp <;> ring
  · left; intro v; constructor <;> simp only [pt, vpos, hf, axespositioner, bottom, top, LinePos.tickpoint] <;> refine Prod.ext ?_ ?_ <;> simp <;> ring

/-- C108: the grid line of a value of any axis goes through all points of the graph at that value. -/
theorem grid_path (present : Nat → Bool) (extent : Nat → K) (yaxis : Bool) (n : Nat) (l : LinePos K) (h : doaxispositioner g present extent yaxis n = some l) (v : K) :
    l.grid v = (pt g yaxis v 0, pt g yaxis v 1) := by
  obtain ⟨f1, f2⟩ := positioner_form g present extent yaxis n l h
  cases hh : horizontal g yaxis with
  | true =>
    obtain ⟨y, -, -, -, e⟩ := f1 hh
    rw [e, pt_horizontal, pt_horizontal, if_pos hh, if_pos hh]
    simp [xvgridpath]
  | false =>
    obtain ⟨y, -, -, -, e⟩ := f2 hh
    rw [e, pt_horizontal, pt_horizontal]
    simp [hh, yvgridpath]

/-- C108: the base path of a positioner from `v1` to `v2` — by default the whole axis — is the line along the points of the ticks in between. -/
theorem base_path (l : LinePos K) (v1 v2 : Option K) (t : K) :
    ((1 - t) * (l.basepath v1 v2).1.1 + t * (l.basepath v1 v2).2.1, (1 - t) * (l.basepath v1 v2).1.2 + t * (l.basepath v1 v2).2.2) =
      l.tickpoint ((1 - t) * v1.getD 0 + t * v2.getD 1) := by
  simp only [LinePos.basepath, LinePos.tickpoint]
  refine Prod.ext ?_ ?_ <;> simp only <;> ring

example : (⟨(0, 0), (10, 0), (0, 1), fun _ => ((0, 0), (0, 0))⟩ : LinePos ℚ).basepath none (some (1 / 2)) = ((0, 0), (5, 0)) := by
  norm_num [LinePos.basepath]

theorem sign_ne (yaxis : Bool) (n : Nat) : (sign g yaxis n : K) ≠ 0 := by
  have : n % 2 = 0 ∨ n % 2 = 1 := by omega
  simp only [sign]
  rcases this with h | h <;> rw [h] <;> split_ifs <;> norm_num

/-- C108: an axis moved by `xaxisat` or `yaxisat` goes through the points of the graph at that value of the other axis. -/
theorem axis_at (present : Nat → Bool) (extent : Nat → K) (yaxis : Bool) (n : Nat) (l : LinePos K) (h : doaxispositioner g present extent yaxis n = some l) (v w : K) :
    ((l.tickpoint v).1 + (axisatv g l w).1, (l.tickpoint v).2 + (axisatv g l w).2) = pt g yaxis v w := by
  obtain ⟨f1, f2⟩ := positioner_form g present extent yaxis n l h
  rw [pt_horizontal]
  cases hh : horizontal g yaxis with
  | true =>
    obtain ⟨y, e1, e2, e3, -⟩ := f1 hh
    simp only [axisatv, e3, LinePos.tickpoint, e1, e2]
    refine Prod.ext ?_ ?_ <;> simp <;> ring
  | false =>
    obtain ⟨x, e1, e2, e3, -⟩ := f2 hh
    have := sign_ne g yaxis n
    simp only [axisatv, e3, LinePos.tickpoint, e1, e2]
    refine Prod.ext ?_ ?_ <;> simp [this] <;> ring

theorem rightmost_foldl (c : Nat → Bool) (nums : List Nat) (b : Option Nat) :
    let r := nums.foldl (fun best n => if c n then (match best with | none => some n | some b => if b < n then some n else best) else best) b
    (∀ m, r = some m → (m ∈ nums ∧ c m = true) ∨ b = some m) ∧ (∀ n ∈ nums, c n = true → ∃ m, r = some m ∧ n ≤ m) ∧ (∀ n, b = some n → ∃ m, r = some m ∧ n ≤ m) := by
  induction nums generalizing b with
  | nil => exact ⟨fun m h => Or.inr h, by simp, fun n h => ⟨n, h, le_rfl⟩⟩
  | cons a nums ih =>
    simp only [List.foldl_cons]
    by_cases ha : c a = true
    · simp only [ha, if_true]
      cases b with
      | none =>
        obtain ⟨h1, h2, h3⟩ := ih (some a)
        refine ⟨fun m h => ?_, ?_, by simp⟩
        · rcases h1 m h with h | h
          · exact Or.inl ⟨List.mem_cons_of_mem _ h.1, h.2⟩
          · obtain rfl := Option.some.inj h; exact Or.inl ⟨by simp, ha⟩
        · intro n hn hc
          rcases List.mem_cons.mp hn with rfl | hn
          · exact h3 n rfl
          · exact h2 n hn hc
      | some b =>
        by_cases hb : b < a
        · simp only [hb, if_true]
          obtain ⟨h1, h2, h3⟩ := ih (some a)
          refine ⟨fun m h => ?_, ?_, ?_⟩
          · rcases h1 m h with h | h
            · exact Or.inl ⟨List.mem_cons_of_mem _ h.1, h.2⟩
            · obtain rfl := Option.some.inj h; exact Or.inl ⟨by simp, ha⟩
          · intro n hn hc
            rcases List.mem_cons.mp hn with rfl | hn
            · exact h3 n rfl
            · exact h2 n hn hc
          · intro n hn
            obtain rfl := Option.some.inj hn
            obtain ⟨m, hm, hle⟩ := h3 a rfl
            exact ⟨m, hm, by omega⟩
        · simp only [hb, if_false]
          obtain ⟨h1, h2, h3⟩ := ih (some b)
          refine ⟨fun m h => ?_, ?_, h3⟩
          · rcases h1 m h with h | h
            · exact Or.inl ⟨List.mem_cons_of_mem _ h.1, h.2⟩
            · exact Or.inr h
          · intro n hn hc
            rcases List.mem_cons.mp hn with rfl | hn
            · obtain ⟨m, hm, hle⟩ := h3 b rfl
              exact ⟨m, hm, by omega⟩
            · exact h2 n hn hc
    · simp only [ha]
      obtain ⟨h1, h2, h3⟩ := ih b
      refine ⟨fun m h => ?_, ?_, h3⟩
      · rcases h1 m h with h | h
        · exact Or.inl ⟨List.mem_cons_of_mem _ h.1, h.2⟩
        · exact Or.inr h
      · intro n hn hc
        rcases List.mem_cons.mp hn with rfl | hn
        · exact absurd hc ha
        · exact h2 n hn hc

/-- The axes at the right of the graph. -/
def atRight (n : Nat) : Bool := (n % 2 == 0 && !g.flipped) || (n % 2 != 0 && g.flipped)

theorem right_dir (present : Nat → Bool) (extent : Nat → K) (n : Nat) (l : LinePos K) (h : doaxispositioner g present extent (!g.flipped) n = some l) :
    l.dir = (if atRight g n then -1 else 1, 0) := by
  obtain ⟨-, f2⟩ := positioner_form g present extent (!g.flipped) n l h
  obtain ⟨x, -, -, e3, -⟩ := f2 (by cases hf : g.flipped <;> simp [horizontal, hf])
  rw [e3]
  have : n % 2 = 0 ∨ n % 2 = 1 := by omega
  rcases this with h | h <;> cases hf : g.flipped <;> simp [sign, atRight, h, hf] <;> norm_num

/-- Further out on the same side. -/
theorem right_mono (ha : 0 ≤ g.axesdist) (present : Nat → Bool) (extent : Nat → K) (he : ∀ n, 0 ≤ extent n) (n k : Nat) (hn : atRight g n = true) (l m : LinePos K)
    (hl : doaxispositioner g present extent (!g.flipped) n = some l) (hm : doaxispositioner g present extent (!g.flipped) (n + 2 * k) = some m) :
    l.p1.1 + extent n ≤ m.p1.1 + extent (n + 2 * k) := by
  induction k generalizing m with
  | zero =>
    simp only [Nat.mul_zero, add_zero] at hm ⊢
    rw [hl] at hm
    obtain rfl := Option.some.inj hm
    exact le_rfl
  | succ k ih =>
    have hpos : 0 < n := by
      rcases Nat.eq_zero_or_pos n with rfl | h
      · simp [doaxispositioner] at hl
      · exact h
    obtain ⟨j, hj⟩ : ∃ j, n + 2 * k = j + 1 := ⟨n + 2 * k - 1, by omega⟩
    have e : n + 2 * (k + 1) = j + 3 := by omega
    rw [e] at hm ⊢
    obtain ⟨d, hd, -, -, h3⟩ := axes_outwards g present extent (!g.flipped) j m hm
    have h1 := ih d (by rw [hj]; exact hd)
    rw [hj] at h1
    have hdir := right_dir g present extent (j + 1) d hd
    have hr : atRight g (j + 1) = true := by
      have : (j + 1) % 2 = n % 2 := by omega
      simpa only [atRight, this] using hn
    have h4 := congrArg Prod.fst (h3 0)
    simp only [LinePos.tickpoint, hdir, hr, if_true] at h4
    have h5 := he (j + 3)
    linarith

/-- C108: the key graph of a density plot is to the right of the graph and of all axes there, by at least `axesdist`. -/
theorem keygraph_beyond (hw : 0 ≤ g.width) (hh : 0 ≤ g.height) (ha : 0 ≤ g.axesdist) (nums : List Nat) (extent : Nat → K) (he : ∀ n, 0 ≤ extent n) (x : K) (h : autokeygraph g nums extent = some x) :
    g.xpos + g.width + g.axesdist ≤ x ∧
    ∀ n l, doaxispositioner g (fun k => nums.contains k) extent (!g.flipped) n = some l → n ∈ nums → l.dir = (-1, 0) → l.p1.1 + extent n + g.axesdist ≤ x := by
  obtain ⟨r1, r2, -⟩ := rightmost_foldl (atRight g) nums none
  have hr : nums.foldl (fun best n => if atRight g n then (match best with | none => some n | some b => if b < n then some n else best) else best) none = rightmost g nums := rfl
  simp only [hr] at r1 r2
  have key : ∀ n l, doaxispositioner g (fun k => nums.contains k) extent (!g.flipped) n = some l → l.dir = (-1, 0) → atRight g n = true := by
    intro n l hl hd
    rw [right_dir g _ extent n l hl] at hd
    by_contra hc
    have := congrArg Prod.fst hd
    simp only [hc] at this
    norm_num at this
  simp only [autokeygraph] at h
  cases hm : rightmost g nums with
  | none =>
    rw [hm] at h
    obtain rfl := Option.some.inj h
    refine ⟨le_rfl, fun n l hl hn hd => ?_⟩
    obtain ⟨m, h1, -⟩ := r2 n hn (key n l hl hd)
    rw [hm] at h1; cases h1
  | some m =>
    rw [hm] at h
    simp only at h
    cases hp : doaxispositioner g (fun k => nums.contains k) extent (!g.flipped) m with
    | none => rw [hp] at h; cases h
    | some p =>
      rw [hp] at h
      obtain rfl := Option.some.inj h
      obtain ⟨-, hmr⟩ : m ∈ nums ∧ atRight g m = true := by
        rcases r1 m hm with h | h
        · exact h
        · cases h
      have hdir := right_dir g _ extent m p hp
      rw [hmr, if_pos rfl] at hdir
      constructor
      · obtain ⟨c, hc, e⟩ := axes_face_graph g hw hh ha _ extent he (!g.flipped) m p hp 0 1 zero_le_one le_rfl
        have e1 := congrArg Prod.fst e
        rw [pt_horizontal] at e1
        have hz : horizontal g (!g.flipped) = false := by cases hf : g.flipped <;> simp [horizontal, hf]
        simp only [hz, LinePos.tickpoint, hdir] at e1
        have := he m
        simp at e1
        linarith
      · intro n l hl hn hd
        have hnr := key n l hl hd
        obtain ⟨m', h1, hle⟩ := r2 n hn hnr
        rw [hm] at h1
        obtain rfl := Option.some.inj h1
        have hpar : m % 2 = n % 2 := by
          cases hf : g.flipped <;> simp [atRight, hf] at hnr hmr <;> omega
        obtain ⟨k, rfl⟩ : ∃ k, m = n + 2 * k := ⟨(m - n) / 2, by omega⟩
        have := right_mono g ha _ extent he n k hnr l p hl hp
        linarith

/-- The method `xvgridpath` of the graph itself does not know that the graph is flipped: its path is not at the value asked for. -/
theorem xvgridpath_flipped : ∃ (g : Graph2 ℚ) (v : ℚ), g.flipped = true ∧ ∀ u, vpos g v u ≠ (xvgridpath g v).1 ∧ vpos g v u ≠ (xvgridpath g v).2 := by
  refine ⟨⟨0, 0, 1, 1, 0, true⟩, 1 / 2, rfl, fun u => ⟨?_, ?_⟩⟩ <;> intro h <;> have := congrArg Prod.snd h <;> norm_num [vpos, xvgridpath] at this

/-- Axes can be missing: without x3 an axis x5 fails. -/
theorem axis_gap (extent : Nat → K) : doaxispositioner g (fun n => n != 3) extent false 5 = none := by simp [doaxispositioner]

/-! ## Lines and caps -/

/-- C108: a geodesic begins and ends at the positions of its points, and what it draws in between are the positions in between. -/
theorem geodesic2 (vx1 vy1 vx2 vy2 t : K) :
    vgeodesic g vx1 vy1 vx2 vy2 = (vpos g vx1 vy1, vpos g vx2 vy2) ∧
    vpos g ((1 - t) * vx1 + t * vx2) ((1 - t) * vy1 + t * vy2) =
      ((1 - t) * (vpos g vx1 vy1).1 + t * (vpos g vx2 vy2).1, (1 - t) * (vpos g vx1 vy1).2 + t * (vpos g vx2 vy2).2) := by
  cases hf : g.flipped <;> simp only [vgeodesic, vpos, hf] <;> refine ⟨rfl, Prod.ext ?_ ?_⟩ <;> simp <;> ring

/-- C108: a cap has the length asked for, its middle is the point, and it is in the direction in which its coordinate changes. -/
theorem cap (second : Bool) (length vx vy d : K) :
    let c := vcap g second length vx vy
    let q := if second then vpos g vx (vy + d) else vpos g (vx + d) vy
    (c.1.1 + c.2.1 = 2 * (vpos g vx vy).1 ∧ c.1.2 + c.2.2 = 2 * (vpos g vx vy).2) ∧
    (c.2.1 - c.1.1) ^ 2 + (c.2.2 - c.1.2) ^ 2 = length ^ 2 ∧
    (c.2.1 - c.1.1) * (q.2 - (vpos g vx vy).2) - (c.2.2 - c.1.2) * (q.1 - (vpos g vx vy).1) = 0 := by
  cases hf : g.flipped <;> cases second <;> simp only [vcap, vpos, hf] <;> refine ⟨⟨?_, ?_⟩, ?_, ?_⟩ <;> simp <;> ring

/-- C108: missing width or height follow from the ratio. -/
theorem size_ratio (ratio : K) (hr : ratio ≠ 0) (w h : Option K) (s : K × K) (hs : size ratio w h = some s) :
    (∀ x, w = some x → s.1 = x) ∧ (∀ y, h = some y → s.2 = y) ∧ ((w = none ∨ h = none) → s.1 = ratio * s.2) := by
  cases w <;> cases h <;> simp only [size, reduceCtorEq, Option.some.injEq] at hs <;> subst hs <;> simp
  field_simp

/-! ## Keys -/

/-- C108: a key inside of the graph at position 0 and 1 has the distance from the boundary, and in between it is in the graph if there is room; a key outside has the distance on the other side; at 1/2 the key is centred. -/
theorem key_placed (pmin pmax cmin cmax dist : K) :
    (cmin + parentchildalign pmin pmax cmin cmax 0 dist 1 = pmin + dist) ∧
    (cmax + parentchildalign pmin pmax cmin cmax 1 dist 1 = pmax - dist) ∧
    (cmax + parentchildalign pmin pmax cmin cmax 0 dist 0 = pmin - dist) ∧
    (cmin + parentchildalign pmin pmax cmin cmax 1 dist 0 = pmax + dist) ∧
    (∀ inside, (cmin + parentchildalign pmin pmax cmin cmax (1 / 2) dist inside) + (cmax + parentchildalign pmin pmax cmin cmax (1 / 2) dist inside) = pmin + pmax) ∧
    (∀ pos, 0 ≤ pos → pos ≤ 1 → cmax - cmin + 2 * dist ≤ pmax - pmin →
      pmin + dist ≤ cmin + parentchildalign pmin pmax cmin cmax pos dist 1 ∧ cmax + parentchildalign pmin pmax cmin cmax pos dist 1 ≤ pmax - dist) := by
  refine ⟨?_, ?_, ?_, ?_, ?_, ?_⟩
  · simp only [parentchildalign]; ring
  · simp only [parentchildalign]; ring
  · simp only [parentchildalign]; ring
  · simp only [parentchildalign]; ring
  · intro inside; simp only [parentchildalign]; ring
  · intro pos h0 h1 hr
    have a := mul_nonneg h0 (sub_nonneg.mpr hr)
    have b := mul_nonneg (sub_nonneg.mpr h1) (sub_nonneg.mpr hr)
    simp only [parentchildalign]
    constructor <;> linarith

theorem columnsLoop_spec {α : Type} (n : Nat) (hn : 0 < n) (fuel : Nat) (l : List α) (hf : l.length ≤ fuel) :
    ∃ c, columnsLoop n fuel l = some c ∧ c.flatten = l ∧ (∀ x ∈ c, x ≠ [] ∧ x.length ≤ n) ∧ (∀ x ∈ c.dropLast, x.length = n) ∧ n * (c.length - 1) < l.length + (if l = [] then 1 else 0) := by
  induction fuel generalizing l with
  | zero =>
    obtain rfl : l = [] := List.length_eq_zero_iff.mp (by omega)
    exact ⟨[], by simp [columnsLoop], rfl, by simp, by simp, by simp⟩
  | succ fuel ih =>
    cases l with
    | nil => exact ⟨[], by simp [columnsLoop], rfl, by simp, by simp, by simp⟩
    | cons a l =>
      obtain ⟨c, h1, h2, h3, h4, h5⟩ := ih ((a :: l).drop n) (by simp at hf ⊢; omega)
      refine ⟨(a :: l).take n :: c, by simp only [columnsLoop, h1, Option.map_some], by simp [h2], ?_, ?_, ?_⟩
      · intro x hx
        rcases List.mem_cons.mp hx with rfl | hx
        · refine ⟨?_, by simp⟩
          intro h; have := congrArg List.length h; simp at this; omega
        · exact h3 x hx
      · intro x hx
        cases c with
        | nil => simp at hx
        | cons b c =>
          simp only [List.dropLast_cons_of_ne_nil (List.cons_ne_nil b c), List.mem_cons] at hx
          rcases hx with rfl | hx
          · rw [List.length_take]
            have hb := (h3 b (by simp)).1
            have : 0 < ((a :: l).drop n).length := by
              rw [← h2]; simp only [List.flatten_cons, List.length_append]
              have := List.length_pos_iff.mpr hb; omega
            rw [List.length_drop] at this; omega
          · exact h4 x hx
      · simp only [List.length_cons, reduceCtorEq, if_false, Nat.add_sub_cancel, add_zero]
        by_cases hd : (a :: l).drop n = []
        · rw [hd] at h2
          have : c = [] := by
            cases c with
            | nil => rfl
            | cons b c => exfalso; have hb := (h3 b (by simp)).1; simp at h2; exact hb h2.1
          subst this; simp
        · rw [if_neg hd, add_zero, List.length_drop] at h5
          have hlt : n < (a :: l).length := by by_contra hc; apply hd; rw [List.drop_eq_nil_iff]; omega
          simp only [List.length_cons] at h5 hlt
          cases c with
          | nil => simp
          | cons b c =>
            simp only [List.length_cons, Nat.add_sub_cancel] at h5 ⊢
            rw [Nat.mul_succ]; omega

/-- C108: a key shows all its items in order, in at most as many columns as asked for, of the same number of items except for the last one. -/
theorem key_columns {α : Type} (items : List α) (k : Nat) (hk : 0 < k) :
    ∃ c, columns items k = some c ∧ c.flatten = items ∧ c.length ≤ k ∧ (∀ x ∈ c, x ≠ []) ∧
      ∀ x ∈ c.dropLast, ∀ y ∈ c, y.length ≤ x.length := by
  have hk0 : k ≠ 0 := by omega
  simp only [columns, if_neg hk0]
  cases items with
  | nil => exact ⟨[], by simp [columnsLoop], rfl, by simp, by simp, by simp⟩
  | cons a l =>
    have hn : 0 < itemspercolumn (a :: l).length k := by
      simp only [itemspercolumn, List.length_cons]
      exact Nat.div_pos (by omega) hk
    obtain ⟨c, h1, h2, h3, h4, h5⟩ := columnsLoop_spec (itemspercolumn (a :: l).length k) hn (a :: l).length (a :: l) le_rfl
    refine ⟨c, h1, h2, ?_, fun x hx => (h3 x hx).1, fun x hx y hy => by rw [h4 x hx]; exact (h3 y hy).2⟩
    simp only [reduceCtorEq, if_false, add_zero] at h5
    by_contra hc
    push Not at hc
    have h6 : itemspercolumn (a :: l).length k * k ≤ itemspercolumn (a :: l).length k * (c.length - 1) := Nat.mul_le_mul_left _ (by omega)
    have h7 : (a :: l).length ≤ itemspercolumn (a :: l).length k * k := by
      have h8 := Nat.div_add_mod ((a :: l).length + k - 1) k
      have h9 := Nat.mod_lt ((a :: l).length + k - 1) hk
      simp only [itemspercolumn]
      rw [Nat.mul_comm]
      omega
    omega

/-- Fewer columns than asked for: five items in four columns are put into three. -/
example : columns [1, 2, 3, 4, 5] 4 = some [[1, 2], [3, 4], [5]] := by decide

/-- C108: each column of a key starts the distance behind the end of the column before (columns which all start at 0). -/
theorem key_offsets (dist : K) (x : K) (ws : List K) (i : Nat) (hi : i + 1 < ws.length) :
    ∃ o, (offsets dist x ws)[i]? = some o ∧ (offsets dist x ws)[i + 1]? = some (o + ws[i] + dist) := by
  induction ws generalizing x i with
  | nil => simp at hi
  | cons w ws ih =>
    cases i with
    | zero =>
      cases ws with
      | nil => simp at hi
      | cons v ws => exact ⟨x, by simp [offsets], by simp [offsets]⟩
    | succ i =>
      simp only [List.length_cons] at hi
      obtain ⟨o, h1, h2⟩ := ih (x + w + dist) i (by omega)
      exact ⟨o, by simpa [offsets] using h1, by simpa [offsets] using h2⟩

/-! ## Examples -/

/-- The axis x3 below the axis x of extent 1. -/
example : (doaxispositioner (⟨0, 0, 10, 5, 1 / 2, false⟩ : Graph2 ℚ) (fun _ => true) (fun _ => 1) false 3).map (fun l => (l.p1, l.p2, l.dir)) = some ((0, -3 / 2), (10, -3 / 2), (0, 1)) := by
  decide +kernel

/-- In a flipped graph it is at the right. -/
example : (doaxispositioner (⟨0, 0, 10, 5, 1 / 2, true⟩ : Graph2 ℚ) (fun _ => true) (fun _ => 1) false 3).map (fun l => (l.p1, l.p2, l.dir)) = some ((23 / 2, 0), (23 / 2, 5), (-1, 0)) := by
  decide +kernel

/-- The axis y4 is 1/2 and the extent of y2 to the right of y2, the key graph behind it. -/
example : autokeygraph (⟨0, 0, 10, 5, 1 / 2, false⟩ : Graph2 ℚ) [1, 4, 2, 3] (fun _ => 1) = some (10 + 1 + 1 / 2 + 1 + 1 / 2) := by decide +kernel

/-- A key of width 2 in a graph of width 10. -/
example : parentchildalign (0 : ℚ) 10 3 5 1 (1 / 2) 1 = 9 / 2 := by decide +kernel

end PyX.Graph.XY
