import Verif.Parter.Model
import Verif.Tick.Props
import Mathlib.Algebra.Order.Floor.Ring
import Mathlib.Data.Rat.Floor
import Mathlib.Data.Rat.Cast.Order
import Mathlib.Tactic.IntervalCases
import Mathlib.Order.Monotone.Basic

/-!
# Properties C13 and C14: linear partitions
-/

set_option linter.unusedSectionVars false

namespace PyX.Parter
open PyX.Tick

variable {K : Type} [Field K] [LinearOrder K] [IsStrictOrderedRing K] [FloorRing K]

/-- A tick distance: positive. -/
def Pos (d : Frac) : Prop := 0 < d.num ∧ 0 < d.denom

theorem Pos.val {d : Frac} (h : Pos d) : 0 < d.val := by
  have h1 : (0 : ℚ) < d.num := by exact_mod_cast h.1
  have h2 : (0 : ℚ) < d.denom := by exact_mod_cast h.2
  exact div_pos h1 h2

theorem toK_val (d : Frac) : (toK d : K) = ((d.val : ℚ) : K) := by simp [toK, Frac.val]

theorem Pos.toK {d : Frac} (h : Pos d) : (0 : K) < toK d := by
  rw [toK_val]; exact_mod_cast h.val

/-! ## C13: ticks -/

/-- Specification: `p` is a multiple of the distance and lies in the range, up to the tolerance `eps/2` (relative to
the distance). -/
def IsTick (eps mn mx : K) (d : Frac) (p : ℚ) : Prop :=
  (∃ i : ℤ, p = i * d.val) ∧ mn - eps / 2 * toK d ≤ (p : K) ∧ (p : K) ≤ mx + eps / 2 * toK d

theorem mem_irange (a b i : ℤ) : i ∈ irange a b ↔ a ≤ i ∧ i < b := by
  simp only [irange, List.mem_map, List.mem_range]
  constructor
  · rintro ⟨k, hk, rfl⟩; omega
  · rintro ⟨h1, h2⟩; exact ⟨(i - a).toNat, by omega, by omega⟩

theorem irange_sorted (a b : ℤ) : (irange a b).Pairwise (· < ·) := by
  unfold irange
  rw [List.pairwise_map]
  exact List.pairwise_lt_range.imp fun h => by omega

theorem pos_val (i : ℤ) (d : Frac) : (Frac.mk (i * d.num) d.denom).val = i * d.val := by
  simp only [Frac.val]; push_cast; ring

/-- C13: `getticks` gives exactly the multiples of the distance in range. -/
theorem getticks_mem (eps mn mx : K) (d : Frac) (hd : Pos d) (tl ll : Option Int) (p : ℚ) :
    (∃ t ∈ getticks eps mn mx d tl ll, t.pos.val = p) ↔ IsTick eps mn mx d p := by
  have hk : (0 : K) < toK d := hd.toK
  have key : ∀ i : ℤ, (i ∈ irange ⌈mn / toK d - 1 / 2 * eps⌉ (⌊mx / toK d + 1 / 2 * eps⌋ + 1)) ↔
      mn - eps / 2 * toK d ≤ (i : K) * toK d ∧ (i : K) * toK d ≤ mx + eps / 2 * toK d := by
    intro i
    rw [mem_irange, Int.ceil_le, Int.lt_add_one_iff, Int.le_floor]
    have e1 : mn / toK d - 1 / 2 * eps = (mn - eps / 2 * toK d) / toK d := by field_simp
    have e2 : mx / toK d + 1 / 2 * eps = (mx + eps / 2 * toK d) / toK d := by field_simp
    rw [e1, e2, div_le_iff₀ hk, le_div_iff₀ hk]
  simp only [getticks, List.mem_map]
  constructor
  · rintro ⟨t, ⟨i, hi, rfl⟩, rfl⟩
    rw [key] at hi
    rw [pos_val]
    refine ⟨⟨i, rfl⟩, ?_⟩
    push_cast
    rw [← toK_val]; exact hi
  · rintro ⟨⟨i, rfl⟩, h⟩
    push_cast at h
    rw [← toK_val] at h
    exact ⟨_, ⟨i, (key i).2 h, rfl⟩, pos_val i d⟩

/-- C13: in increasing order, each once. -/
theorem getticks_sorted (eps mn mx : K) (d : Frac) (hd : Pos d) (tl ll : Option Int) :
    Sorted (getticks eps mn mx d tl ll) ∧ Good (getticks eps mn mx d tl ll) := by
  constructor
  · unfold Sorted getticks
    rw [List.pairwise_map]
    refine (irange_sorted _ _).imp fun {i j} h => ?_
    rw [pos_val, pos_val]
    have : (i : ℚ) < j := by exact_mod_cast h
    exact mul_lt_mul_of_pos_right this hd.val
  · intro t ht
    simp only [getticks, List.mem_map] at ht
    obtain ⟨i, -, rfl⟩ := ht
    exact hd.2

theorem getticks_level (eps mn mx : K) (d : Frac) (tl ll : Option Int) :
    ∀ t ∈ getticks eps mn mx d tl ll, t.ticklevel = tl ∧ t.labellevel = ll := by
  intro t ht
  simp only [getticks, List.mem_map] at ht
  obtain ⟨i, -, rfl⟩ := ht
  exact ⟨rfl, rfl⟩

/-- What the two loops need to know about `getticks`: for a distance `d` the ticks are those with `P d`. -/
structure TickFn {D : Type} (g : D → Option Int → Option Int → List T) (P : D → ℚ → Prop) (d : D) : Prop where
  sorted : ∀ tl ll, Sorted (g d tl ll) ∧ Good (g d tl ll)
  mem : ∀ tl ll p, (∃ t ∈ g d tl ll, t.pos.val = p) ↔ P d p
  level : ∀ tl ll, ∀ t ∈ g d tl ll, t.ticklevel = tl ∧ t.labellevel = ll

theorem getticks_fn (eps mn mx : K) (d : Frac) (hd : Pos d) : TickFn (getticks eps mn mx) (IsTick eps mn mx) d :=
  ⟨fun tl ll => getticks_sorted eps mn mx d hd tl ll, fun tl ll p => getticks_mem eps mn mx d hd tl ll p,
    fun tl ll => getticks_level eps mn mx d tl ll⟩

section Loops
variable {D : Type} {g : D → Option Int → Option Int → List T} {P : D → ℚ → Prop}

open Classical in
theorem levelAt_fn {d : D} (h : TickFn g P d) (tl ll : Option Int) (p : ℚ) :
    levelAt T.ticklevel (g d tl ll) p = (if P d p then tl else none) ∧
    levelAt T.labellevel (g d tl ll) p = (if P d p then ll else none) := by
  have hs := h.sorted tl ll
  by_cases hp : P d p
  · obtain ⟨t, ht, rfl⟩ := (h.mem tl ll p).2 hp
    rw [if_pos hp, if_pos hp, levelAt_sorted _ _ hs.1 t ht, levelAt_sorted _ _ hs.1 t ht]
    exact h.level tl ll t ht
  · have : ∀ f, levelAt f (g d tl ll) p = none := by
      intro f
      unfold levelAt
      rw [List.filter_eq_nil_iff.2]; · rfl
      intro x hx; simp; intro hq
      exact hp ((h.mem tl ll p).1 ⟨x, hx, hq⟩)
    simp [hp, this]

/-- Merging any number of ordered lists. -/
theorem mergeAll (ls : List (List T)) (acc : List T) (ha : Sorted acc ∧ Good acc) (hl : ∀ l ∈ ls, Sorted l ∧ Good l) :
    (Sorted (ls.foldl (fun a l => mergeticklists a l) acc) ∧ Good (ls.foldl (fun a l => mergeticklists a l) acc)) ∧
    (∀ p, (∃ t ∈ ls.foldl (fun a l => mergeticklists a l) acc, t.pos.val = p) ↔
      (∃ t ∈ acc, t.pos.val = p) ∨ ∃ l ∈ ls, ∃ t ∈ l, t.pos.val = p) ∧
    (∀ p, levelAt T.ticklevel (ls.foldl (fun a l => mergeticklists a l) acc) p =
      ls.foldl (fun a l => better a (levelAt T.ticklevel l p)) (levelAt T.ticklevel acc p)) ∧
    (∀ p, levelAt T.labellevel (ls.foldl (fun a l => mergeticklists a l) acc) p =
      ls.foldl (fun a l => better a (levelAt T.labellevel l p)) (levelAt T.labellevel acc p)) := by
  induction ls generalizing acc with
  | nil => exact ⟨ha, by simp, by simp, by simp⟩
  | cons l ls ih =>
    have hl0 := hl l (by simp)
    have hm := merge_sorted acc l ha.2 hl0.2 ha.1 hl0.1
    have hlev := merge_level acc l ha.2 hl0.2
    obtain ⟨h1, h2, h3, h4⟩ := ih (mergeticklists acc l) ⟨hm.1, merge_good acc l ha.2 hl0.2⟩ fun m hm => hl m (by simp [hm])
    refine ⟨h1, ?_, ?_, ?_⟩
    · intro p
      simp only [List.foldl_cons, h2 p, hm.2 p, List.exists_mem_cons_iff, or_assoc]
    · intro p; simp only [List.foldl_cons, h3 p, (hlev p).1]
    · intro p; simp only [List.foldl_cons, h4 p, (hlev p).2]

open Classical in
/-- Best index of the distances for which a property holds. -/
theorem firstIndex (l : List D) (P : D → Prop) :
    (∀ k, l.zipIdx.foldl (fun a d => better a (if P d.1 then some (d.2 : Int) else none)) none = some k ↔
      ∃ n : ℕ, k = n ∧ (∃ d, l[n]? = some d ∧ P d) ∧ ∀ j < n, ∀ d, l[j]? = some d → ¬ P d) := by
  have aux : (∀ k, l.zipIdx.foldl (fun a d => better a (if P d.1 then some (d.2 : Int) else none)) none = some k →
        ∃ n : ℕ, k = n ∧ (∃ d, l[n]? = some d ∧ P d) ∧ ∀ j < n, ∀ d, l[j]? = some d → ¬ P d) ∧
      (l.zipIdx.foldl (fun a d => better a (if P d.1 then some (d.2 : Int) else none)) none = none →
        ∀ d ∈ l, ¬ P d) := by
    induction l using List.reverseRecOn with
    | nil => simp
    | append_singleton l a ih =>
      rw [List.zipIdx_append, List.foldl_append]
      simp only [List.zipIdx_cons, List.zipIdx_nil, List.foldl_cons, List.foldl_nil, Nat.zero_add]
      cases hf : l.zipIdx.foldl (fun a d => better a (if P d.1 then some (d.2 : Int) else none)) none with
      | none =>
        have hno := ih.2 hf
        rw [better_none_left]
        by_cases ha : P a
        · refine ⟨?_, by simp [ha]⟩
          intro k hk
          rw [if_pos ha] at hk
          refine ⟨l.length, by simpa using hk.symm, ⟨a, by simp, ha⟩, ?_⟩
          intro j hj d hd
          rw [List.getElem?_append_left hj] at hd
          exact hno d (List.mem_of_getElem? hd)
        · refine ⟨by simp [ha], ?_⟩
          intro _ d hd
          rcases List.mem_append.1 hd with h | h
          · exact hno d h
          · rw [List.mem_singleton] at h; subst h; exact ha
      | some m =>
        obtain ⟨n, rfl, ⟨d, hd, hPd⟩, hmin⟩ := ih.1 m hf
        have hn : n < l.length := by
          by_contra h; rw [List.getElem?_eq_none (by omega)] at hd; cases hd
        have e : better (some (n : Int)) (if P a then some ((l.length : ℕ) : Int) else none) = some (n : Int) := by
          split
          · simp only [better]; congr 1; exact min_eq_left (by omega)
          · rfl
        rw [e]
        refine ⟨?_, by simp⟩
        intro k hk
        simp only [Option.some.injEq] at hk
        refine ⟨n, hk.symm, ⟨d, by rw [List.getElem?_append_left hn]; exact hd, hPd⟩, ?_⟩
        intro j hj d' hd'
        rw [List.getElem?_append_left (by omega)] at hd'
        exact hmin j hj d' hd'
  intro k
  refine ⟨aux.1 k, ?_⟩
  rintro ⟨n, rfl, ⟨d, hd, hPd⟩, hmin⟩
  cases hf : l.zipIdx.foldl (fun a d => better a (if P d.1 then some (d.2 : Int) else none)) none with
  | none => exact absurd hPd (aux.2 hf d (List.mem_of_getElem? hd))
  | some m =>
    obtain ⟨n', rfl, ⟨d', hd', hPd'⟩, hmin'⟩ := aux.1 m hf
    rcases lt_trichotomy n n' with h | h | h
    · exact absurd hPd (hmin' n h d hd)
    · subst h; rfl
    · exact absurd hPd' (hmin n' h d' hd')

theorem foldl_none_better (ls : List (D × ℕ)) (a : Option Int) :
    ls.foldl (fun a _ => better a none) a = a := by
  induction ls with
  | nil => rfl
  | cons x ls ih => simp [better_none]

theorem partG_eq (ticklist labellist : List D) :
    partG g ticklist labellist = (labellist.zipIdx.map fun d => g d.1 none (some (d.2 : Int))).foldl
      (fun a l => mergeticklists a l) ((ticklist.zipIdx.map fun d => g d.1 (some (d.2 : Int)) none).foldl
      (fun a l => mergeticklists a l) []) := by
  simp only [partG, List.foldl_map]

theorem zip_sorted (l : List D) (h : ∀ d ∈ l, TickFn g P d) (f : ℕ → Option Int × Option Int) :
    ∀ x ∈ l.zipIdx.map (fun d => g d.1 (f d.2).1 (f d.2).2), Sorted x ∧ Good x := by
  intro x hx
  obtain ⟨d, hd, rfl⟩ := List.mem_map.1 hx
  exact (h _ (List.fst_mem_of_mem_zipIdx hd)).sorted _ _

theorem partG_mem (ticklist labellist : List D) (ht : ∀ d ∈ ticklist, TickFn g P d) (hl : ∀ d ∈ labellist, TickFn g P d) :
    (Sorted (partG g ticklist labellist) ∧ Good (partG g ticklist labellist)) ∧
    ∀ q, (∃ t ∈ partG g ticklist labellist, t.pos.val = q) ↔ ∃ d ∈ ticklist ++ labellist, P d q := by
  have m1 := mergeAll _ [] ⟨List.Pairwise.nil, by intro t ht; cases ht⟩
    (zip_sorted ticklist ht fun k => (some (k : Int), none))
  have m2 := mergeAll _ _ m1.1 (zip_sorted labellist hl fun k => (none, some (k : Int)))
  rw [partG_eq]
  refine ⟨m2.1, ?_⟩
  intro q
  rw [m2.2.1 q, m1.2.1 q]
  simp only [List.mem_append]
  constructor
  · rintro ((⟨t, ht, -⟩ | ⟨l, hl', t, ht', e⟩) | ⟨l, hl', t, ht', e⟩)
    · cases ht
    · obtain ⟨d, hd, rfl⟩ := List.mem_map.1 hl'
      have hd' := List.fst_mem_of_mem_zipIdx hd
      exact ⟨d.1, .inl hd', ((ht _ hd').mem _ _ q).1 ⟨t, ht', e⟩⟩
    · obtain ⟨d, hd, rfl⟩ := List.mem_map.1 hl'
      have hd' := List.fst_mem_of_mem_zipIdx hd
      exact ⟨d.1, .inr hd', ((hl _ hd').mem _ _ q).1 ⟨t, ht', e⟩⟩
  · rintro ⟨d, hd | hd, h⟩
    · left; right
      obtain ⟨n, hn, rfl⟩ := List.mem_iff_getElem.1 hd
      have hz : (ticklist[n], n) ∈ ticklist.zipIdx := by
        rw [List.mem_iff_getElem?]; exact ⟨n, by simp [hn]⟩
      exact ⟨_, List.mem_map.2 ⟨_, hz, rfl⟩, ((ht _ hd).mem _ _ q).2 h⟩
    · right
      obtain ⟨n, hn, rfl⟩ := List.mem_iff_getElem.1 hd
      have hz : (labellist[n], n) ∈ labellist.zipIdx := by
        rw [List.mem_iff_getElem?]; exact ⟨n, by simp [hn]⟩
      exact ⟨_, List.mem_map.2 ⟨_, hz, rfl⟩, ((hl _ hd).mem _ _ q).2 h⟩

/-- `n` is the first index in the list with `P`. -/
def FirstAt (l : List D) (Q : D → Prop) (k : Int) : Prop :=
  ∃ n : ℕ, k = n ∧ (∃ d, l[n]? = some d ∧ Q d) ∧ ∀ j < n, ∀ d, l[j]? = some d → ¬ Q d

theorem partG_level (ticklist labellist : List D) (ht : ∀ d ∈ ticklist, TickFn g P d) (hl : ∀ d ∈ labellist, TickFn g P d)
    (t : T) (htm : t ∈ partG g ticklist labellist) (k : Int) :
    (t.ticklevel = some k ↔ FirstAt ticklist (fun d => P d t.pos.val) k) ∧
    (t.labellevel = some k ↔ FirstAt labellist (fun d => P d t.pos.val) k) := by
  classical
  have hsort := (partG_mem ticklist labellist ht hl).1.1
  have m1 := mergeAll _ [] ⟨List.Pairwise.nil, by intro t ht; cases ht⟩
    (zip_sorted ticklist ht fun k => (some (k : Int), none))
  have m2 := mergeAll _ _ m1.1 (zip_sorted labellist hl fun k => (none, some (k : Int)))
  have lt1 := m2.2.2.1 t.pos.val
  have lt2 := m2.2.2.2 t.pos.val
  rw [m1.2.2.1] at lt1
  rw [m1.2.2.2] at lt2
  simp only [] at lt1 lt2
  rw [← partG_eq] at lt1 lt2
  rw [levelAt_sorted _ _ hsort t htm] at lt1 lt2
  simp only [List.foldl_map, levelAt_nil] at lt1 lt2
  have c1 : ∀ (a : Option Int), ticklist.zipIdx.foldl
      (fun a d => better a (levelAt T.ticklevel (g d.1 (some (d.2 : Int)) none) t.pos.val)) a =
      ticklist.zipIdx.foldl (fun a d => better a (if P d.1 t.pos.val then some (d.2 : Int) else none)) a := by
    intro a
    apply List.foldl_ext
    intro a d hd
    rw [(levelAt_fn (ht _ (List.fst_mem_of_mem_zipIdx hd)) _ _ _).1]
  have c2 : ∀ (a : Option Int), labellist.zipIdx.foldl
      (fun a d => better a (levelAt T.ticklevel (g d.1 none (some (d.2 : Int))) t.pos.val)) a = a := by
    intro a
    conv => rhs; rw [← foldl_none_better labellist.zipIdx a]
    apply List.foldl_ext
    intro a d hd
    rw [(levelAt_fn (hl _ (List.fst_mem_of_mem_zipIdx hd)) _ _ _).1]; simp
  have c3 : ∀ (a : Option Int), ticklist.zipIdx.foldl
      (fun a d => better a (levelAt T.labellevel (g d.1 (some (d.2 : Int)) none) t.pos.val)) a = a := by
    intro a
    conv => rhs; rw [← foldl_none_better ticklist.zipIdx a]
    apply List.foldl_ext
    intro a d hd
    rw [(levelAt_fn (ht _ (List.fst_mem_of_mem_zipIdx hd)) _ _ _).2]; simp
  have c4 : ∀ (a : Option Int), labellist.zipIdx.foldl
      (fun a d => better a (levelAt T.labellevel (g d.1 none (some (d.2 : Int))) t.pos.val)) a =
      labellist.zipIdx.foldl (fun a d => better a (if P d.1 t.pos.val then some (d.2 : Int) else none)) a := by
    intro a
    apply List.foldl_ext
    intro a d hd
    rw [(levelAt_fn (hl _ (List.fst_mem_of_mem_zipIdx hd)) _ _ _).2]
  rw [c2, c1] at lt1
  rw [c3, c4] at lt2
  rw [lt1, lt2]
  exact ⟨firstIndex ticklist (fun d => P d t.pos.val) k, firstIndex labellist (fun d => P d t.pos.val) k⟩

end Loops

/-- C13: the partition of a linear partitioner with any lists of tick and label distances: it is ordered, and the positions are
exactly the multiples of one of the distances in the (extended) range. -/
theorem part_mem (p : Linear K) (mn mx : K) (em eM : Bool) (ht : ∀ d ∈ p.ticklist, Pos d) (hl : ∀ d ∈ p.labellist, Pos d) :
    Sorted (p.part mn mx em eM) ∧
    ∀ q, (∃ t ∈ p.part mn mx em eM, t.pos.val = q) ↔
      ∃ d ∈ p.ticklist ++ p.labellist, IsTick p.eps (p.range mn mx em eM).1 (p.range mn mx em eM).2 d q := by
  obtain ⟨h1, h2⟩ := partG_mem p.ticklist p.labellist
    (fun d hd => getticks_fn p.eps (p.range mn mx em eM).1 (p.range mn mx em eM).2 d (ht d hd))
    (fun d hd => getticks_fn p.eps (p.range mn mx em eM).1 (p.range mn mx em eM).2 d (hl d hd))
  exact ⟨h1.1, h2⟩

/-- C13: the tick level of a position is the index of the first tick distance it is a multiple of; the same for labels. -/
theorem part_level (p : Linear K) (mn mx : K) (em eM : Bool) (ht : ∀ d ∈ p.ticklist, Pos d) (hl : ∀ d ∈ p.labellist, Pos d)
    (t : T) (htm : t ∈ p.part mn mx em eM) (k : Int) :
    (t.ticklevel = some k ↔ FirstAt p.ticklist
      (fun d => IsTick p.eps (p.range mn mx em eM).1 (p.range mn mx em eM).2 d t.pos.val) k) ∧
    (t.labellevel = some k ↔ FirstAt p.labellist
      (fun d => IsTick p.eps (p.range mn mx em eM).1 (p.range mn mx em eM).2 d t.pos.val) k) :=
  partG_level p.ticklist p.labellist (fun d hd => getticks_fn _ _ _ d (ht d hd)) (fun d hd => getticks_fn _ _ _ d (hl d hd)) t htm k

/-- C13: with extension, the lower bound becomes the largest multiple of the distance not above the old one
(up to the tolerance), the upper bound the smallest multiple not below it; otherwise a bound stays. -/
theorem extend_nearest (eps mn mx : K) (d : Frac) (hd : Pos d) (em eM : Bool) :
    (em = false → (extendminmax eps mn mx d em eM).1 = mn) ∧ (eM = false → (extendminmax eps mn mx d em eM).2 = mx) ∧
    (em = true → ∃ i : ℤ, (extendminmax eps mn mx d em eM).1 = toK d * i ∧ toK d * i ≤ mn + eps * toK d ∧
      ∀ j : ℤ, toK d * j ≤ mn + eps * toK d → (j : K) ≤ i) ∧
    (eM = true → ∃ i : ℤ, (extendminmax eps mn mx d em eM).2 = toK d * i ∧ mx - eps * toK d ≤ toK d * i ∧
      ∀ j : ℤ, mx - eps * toK d ≤ toK d * j → (i : K) ≤ j) := by
  have hk : (0 : K) < toK d := hd.toK
  have e1 : mn / toK d + eps = (mn + eps * toK d) / toK d := by field_simp
  have e2 : mx / toK d - eps = (mx - eps * toK d) / toK d := by field_simp
  refine ⟨by rintro rfl; simp [extendminmax], by rintro rfl; simp [extendminmax], ?_, ?_⟩
  · rintro rfl
    refine ⟨⌊mn / toK d + eps⌋, by simp [extendminmax], ?_, ?_⟩
    · have := Int.floor_le (mn / toK d + eps)
      rw [e1] at this ⊢
      rw [mul_comm]; exact (le_div_iff₀ hk).1 this
    · intro j hj
      have : j ≤ ⌊mn / toK d + eps⌋ := by
        rw [Int.le_floor, e1, le_div_iff₀ hk, mul_comm]; exact hj
      exact_mod_cast this
  · rintro rfl
    refine ⟨⌈mx / toK d - eps⌉, by simp [extendminmax], ?_, ?_⟩
    · have := Int.le_ceil (mx / toK d - eps)
      rw [e2] at this ⊢
      rw [mul_comm (toK d)]; exact (div_le_iff₀ hk).1 this
    · intro j hj
      have : ⌈mx / toK d - eps⌉ ≤ j := by
        rw [Int.ceil_le, e2, div_le_iff₀ hk, mul_comm (j : K)]; exact hj
      exact_mod_cast this

/-- C13: hence the range never shrinks by more than the tolerance, nor grows by a full distance. -/
theorem extend_bounds (eps mn mx : K) (d : Frac) (hd : Pos d) (em eM : Bool) (he : 0 ≤ eps) :
    mn - toK d ≤ (extendminmax eps mn mx d em eM).1 ∧ (extendminmax eps mn mx d em eM).1 ≤ mn + eps * toK d ∧
    mx - eps * toK d ≤ (extendminmax eps mn mx d em eM).2 ∧ (extendminmax eps mn mx d em eM).2 ≤ mx + toK d := by
  have hk : (0 : K) < toK d := hd.toK
  have hek : 0 ≤ eps * toK d := mul_nonneg he hk.le
  obtain ⟨h1, h2, h3, h4⟩ := extend_nearest eps mn mx d hd em eM
  refine ⟨?_, ?_, ?_, ?_⟩
  · cases em with
    | false => rw [h1 rfl]; linarith
    | true =>
      obtain ⟨i, e, -, hi⟩ := h3 rfl
      rw [e]
      by_contra hc
      have := hi (i + 1) (by push_cast; linarith)
      push_cast at this; linarith
  · cases em with
    | false => rw [h1 rfl]; linarith
    | true => obtain ⟨i, e, hi, -⟩ := h3 rfl; rw [e]; exact hi
  · cases eM with
    | false => rw [h2 rfl]; linarith
    | true => obtain ⟨i, e, hi, -⟩ := h4 rfl; rw [e]; exact hi
  · cases eM with
    | false => rw [h2 rfl]; linarith
    | true =>
      obtain ⟨i, e, -, hi⟩ := h4 rfl
      rw [e]
      by_contra hc
      have := hi (i - 1) (by push_cast; linarith)
      push_cast at this; linarith

/-- Concrete case: distances 1 and 1/2 on the range [0.2, 2.2], extended. -/
example : ((Linear.mk' (some [⟨1, 1⟩, ⟨1, 2⟩]) none (some 0) none (1 / 1000 : ℚ)).map fun p =>
    (p.part (2 / 10) (22 / 10) true false).map fun t => (t.pos.num, t.pos.denom, t.ticklevel, t.labellevel)) =
    some [(0, 1, some 0, some 0), (1, 2, some 1, none), (1, 1, some 0, some 0), (3, 2, some 1, none), (2, 1, some 0, some 0)] := by
  decide +kernel

/-! ## C14 -/

/-- First tick distance of a state. -/
def firstDist (v : ℕ → ℚ) (d : Auto) : ℚ := v d.tickindex.toNat * d.base.val

theorem less_run (n : ℕ) (hn : 0 < n) (base : Frac) (k : ℕ) :
    (Auto.less base).run n k = ⟨1, ((k % n : ℕ) : Int), ⟨base.num * 10 ^ (k / n), base.denom⟩⟩ := by
  induction k with
  | zero =>
    simp only [Auto.run, Nat.zero_add, Function.iterate_one, Auto.less, Auto.step]
    have h : (-1 : Int) < (n : Int) - 1 := by omega
    simp [h]
  | succ k ih =>
    rw [Auto.run, Function.iterate_succ_apply', ← Auto.run, ih]
    simp only [Auto.step, if_true]
    by_cases h : k % n + 1 < n
    · have h1 : (k + 1) % n = k % n + 1 := by rw [Nat.add_mod, Nat.mod_eq_of_lt (by omega : 1 < n)]; exact Nat.mod_eq_of_lt h
      have h2 : (k + 1) / n = k / n := by
        have a := Nat.div_add_mod (k + 1) n
        have b := Nat.div_add_mod k n
        rw [h1] at a
        have : n * ((k + 1) / n) = n * (k / n) := by omega
        exact Nat.eq_of_mul_eq_mul_left hn this
      have : ((k % n : ℕ) : Int) < (n : Int) - 1 := by omega
      rw [if_pos this, h1, h2]; simp
    · have hk := Nat.mod_lt k hn
      have hkn : k % n = n - 1 := by omega
      have h1 : (k + 1) % n = 0 := by
        have b := Nat.div_add_mod k n
        have : k + 1 = n * (k / n + 1) := by rw [Nat.mul_add]; omega
        rw [this]; simp
      have h2 : (k + 1) / n = k / n + 1 := by
        have b := Nat.div_add_mod k n
        have : k + 1 = n * (k / n + 1) := by rw [Nat.mul_add]; omega
        rw [this, Nat.mul_div_cancel_left _ hn]
      have : ¬ ((k % n : ℕ) : Int) < (n : Int) - 1 := by omega
      rw [if_neg this, h1, h2]
      simp [pow_succ, mul_assoc]

theorem more_run (n : ℕ) (hn : 0 < n) (base : Frac) (k : ℕ) :
    (Auto.more base).run n k = ⟨-1, ((n - 1 - k % n : ℕ) : Int), ⟨base.num, base.denom * 10 ^ (k / n + 1)⟩⟩ := by
  induction k with
  | zero =>
    simp only [Auto.run, Nat.zero_add, Function.iterate_one, Auto.more, Auto.step]
    have h : ((n - 1 : ℕ) : Int) = (n : Int) - 1 := by omega
    simp [h]
  | succ k ih =>
    rw [Auto.run, Function.iterate_succ_apply', ← Auto.run, ih]
    have hs : ¬ (-1 : Int) = 1 := by decide
    simp only [Auto.step, if_neg hs]
    have hk := Nat.mod_lt k hn
    by_cases h : k % n + 1 < n
    · have h1 : (k + 1) % n = k % n + 1 := by rw [Nat.add_mod, Nat.mod_eq_of_lt (by omega : 1 < n)]; exact Nat.mod_eq_of_lt h
      have h2 : (k + 1) / n = k / n := by
        have a := Nat.div_add_mod (k + 1) n
        have b := Nat.div_add_mod k n
        rw [h1] at a
        have : n * ((k + 1) / n) = n * (k / n) := by omega
        exact Nat.eq_of_mul_eq_mul_left hn this
      have : ((n - 1 - k % n : ℕ) : Int) ≠ 0 := by omega
      rw [if_pos this, h1, h2]
      simp only [Auto.mk.injEq, and_true, true_and]
      omega
    · have hkn : k % n = n - 1 := by omega
      have h1 : (k + 1) % n = 0 := by
        have b := Nat.div_add_mod k n
        have : k + 1 = n * (k / n + 1) := by rw [Nat.mul_add]; omega
        rw [this]; simp
      have h2 : (k + 1) / n = k / n + 1 := by
        have b := Nat.div_add_mod k n
        have : k + 1 = n * (k / n + 1) := by rw [Nat.mul_add]; omega
        rw [this, Nat.mul_div_cancel_left _ hn]
      have : ¬ ((n - 1 - k % n : ℕ) : Int) ≠ 0 := by omega
      rw [if_neg this, h1, h2]
      simp only [Auto.mk.injEq, Frac.mk.injEq, true_and]
      refine ⟨by omega, ?_⟩
      ring

/-- Condition on the variants: the first distances increase strictly and stay within one decade. -/
structure Decade (n : ℕ) (v : ℕ → ℚ) : Prop where
  pos : ∀ i < n, 0 < v i
  mono : ∀ i j, i < j → j < n → v i < v j
  decade : ∀ i < n, v i < 10 * v 0

theorem less_dist (n : ℕ) (hn : 0 < n) (v : ℕ → ℚ) (base : Frac) (k : ℕ) :
    firstDist v ((Auto.less base).run n k) = v (k % n) * base.val * 10 ^ (k / n) := by
  rw [less_run n hn]; simp only [firstDist, Frac.val, Int.toNat_natCast]; push_cast; ring

theorem more_dist (n : ℕ) (hn : 0 < n) (v : ℕ → ℚ) (base : Frac) (k : ℕ) :
    firstDist v ((Auto.more base).run n k) = v (n - 1 - k % n) * base.val / 10 ^ (k / n + 1) := by
  rw [more_run n hn]; simp only [firstDist, Frac.val, Int.toNat_natCast]; push_cast
  rw [mul_div_assoc, div_div]

theorem less_step (n : ℕ) (hn : 0 < n) (v : ℕ → ℚ) (hv : Decade n v) (base : Frac) (hb : 0 < base.val) (k : ℕ) :
    firstDist v ((Auto.less base).run n k) < firstDist v ((Auto.less base).run n (k + 1)) := by
  rw [less_dist n hn, less_dist n hn]
  have hp : (0 : ℚ) < base.val * 10 ^ (k / n) := by positivity
  have hk := Nat.mod_lt k hn
  by_cases h : k % n + 1 < n
  · have h1 : (k + 1) % n = k % n + 1 := by rw [Nat.add_mod, Nat.mod_eq_of_lt (by omega : 1 < n)]; exact Nat.mod_eq_of_lt h
    have h2 : (k + 1) / n = k / n := by
      have a := Nat.div_add_mod (k + 1) n
      have b := Nat.div_add_mod k n
      rw [h1] at a
      have : n * ((k + 1) / n) = n * (k / n) := by omega
      exact Nat.eq_of_mul_eq_mul_left hn this
    rw [h1, h2, mul_assoc, mul_assoc]
    exact mul_lt_mul_of_pos_right (hv.mono _ _ (Nat.lt_succ_self _) h) hp
  · have b := Nat.div_add_mod k n
    have e : k + 1 = n * (k / n + 1) := by rw [Nat.mul_add]; omega
    have h1 : (k + 1) % n = 0 := by rw [e]; simp
    have h2 : (k + 1) / n = k / n + 1 := by rw [e, Nat.mul_div_cancel_left _ hn]
    rw [h1, h2, pow_succ]
    have := hv.decade _ hk
    calc v (k % n) * base.val * 10 ^ (k / n) = v (k % n) * (base.val * 10 ^ (k / n)) := by ring
      _ < 10 * v 0 * (base.val * 10 ^ (k / n)) := mul_lt_mul_of_pos_right this hp
      _ = _ := by ring

theorem more_step (n : ℕ) (hn : 0 < n) (v : ℕ → ℚ) (hv : Decade n v) (base : Frac) (hb : 0 < base.val) (k : ℕ) :
    firstDist v ((Auto.more base).run n (k + 1)) < firstDist v ((Auto.more base).run n k) := by
  rw [more_dist n hn, more_dist n hn]
  have hk := Nat.mod_lt k hn
  by_cases h : k % n + 1 < n
  · have h1 : (k + 1) % n = k % n + 1 := by rw [Nat.add_mod, Nat.mod_eq_of_lt (by omega : 1 < n)]; exact Nat.mod_eq_of_lt h
    have h2 : (k + 1) / n = k / n := by
      have a := Nat.div_add_mod (k + 1) n
      have b := Nat.div_add_mod k n
      rw [h1] at a
      have : n * ((k + 1) / n) = n * (k / n) := by omega
      exact Nat.eq_of_mul_eq_mul_left hn this
    rw [h1, h2]
    apply div_lt_div_of_pos_right _ (by positivity)
    exact mul_lt_mul_of_pos_right (hv.mono _ _ (by omega) (by omega)) hb
  · have b := Nat.div_add_mod k n
    have e : k + 1 = n * (k / n + 1) := by rw [Nat.mul_add]; omega
    have h1 : (k + 1) % n = 0 := by rw [e]; simp
    have h2 : (k + 1) / n = k / n + 1 := by rw [e, Nat.mul_div_cancel_left _ hn]
    have h3 : n - 1 - k % n = 0 := by omega
    rw [h1, h2, h3, Nat.sub_zero, pow_succ (10 : ℚ) (k / n + 1), div_lt_div_iff₀ (by positivity) (by positivity)]
    have := hv.decade (n - 1) (by omega)
    have hp : (0 : ℚ) < base.val * 10 ^ (k / n + 1) := by positivity
    calc v (n - 1) * base.val * 10 ^ (k / n + 1) = v (n - 1) * (base.val * 10 ^ (k / n + 1)) := by ring
      _ < 10 * v 0 * (base.val * 10 ^ (k / n + 1)) := mul_lt_mul_of_pos_right this hp
      _ = _ := by ring

/-- C14: the walk towards fewer ticks has strictly increasing tick distances, the other strictly decreasing ones. -/
theorem walks_monotone (n : ℕ) (hn : 0 < n) (v : ℕ → ℚ) (hv : Decade n v) (base : Frac) (hb : 0 < base.val) :
    StrictMono (fun k => firstDist v ((Auto.less base).run n k)) ∧
    StrictAnti (fun k => firstDist v ((Auto.more base).run n k)) :=
  ⟨strictMono_nat_of_lt_succ (less_step n hn v hv base hb), strictAnti_nat_of_succ_lt (more_step n hn v hv base hb)⟩

/-- C14: no distance occurs twice, neither in one walk nor in both: each distance of the walk towards more ticks is
smaller than each of the other walk. -/
theorem walks_disjoint (n : ℕ) (hn : 0 < n) (v : ℕ → ℚ) (hv : Decade n v) (base : Frac) (hb : 0 < base.val) (j k : ℕ) :
    firstDist v ((Auto.more base).run n j) < firstDist v ((Auto.less base).run n k) := by
  have hw := walks_monotone n hn v hv base hb
  have h0 : firstDist v ((Auto.more base).run n 0) < firstDist v ((Auto.less base).run n 0) := by
    rw [more_dist n hn, less_dist n hn]
    simp only [Nat.zero_mod, Nat.zero_div, Nat.sub_zero, pow_zero, mul_one, Nat.zero_add, pow_one]
    rw [div_lt_iff₀ (by norm_num)]
    have := hv.decade (n - 1) (by omega)
    calc v (n - 1) * base.val < 10 * v 0 * base.val := mul_lt_mul_of_pos_right this hb
      _ = _ := by ring
  calc firstDist v ((Auto.more base).run n j) ≤ firstDist v ((Auto.more base).run n 0) := hw.2.antitone (Nat.zero_le j)
    _ < _ := h0
    _ ≤ _ := hw.1.monotone (Nat.zero_le k)

/-- C14: each distance is a variant times the base times a power of ten. -/
theorem walks_form (n : ℕ) (hn : 0 < n) (v : ℕ → ℚ) (base : Frac) (k : ℕ) :
    (∃ i < n, ∃ e : ℤ, firstDist v ((Auto.less base).run n k) = v i * base.val * 10 ^ e) ∧
    (∃ i < n, ∃ e : ℤ, firstDist v ((Auto.more base).run n k) = v i * base.val * 10 ^ e) := by
  have hk := Nat.mod_lt k hn
  refine ⟨⟨k % n, hk, (k / n : ℕ), ?_⟩, ⟨n - 1 - k % n, by omega, -(k / n + 1 : ℕ), ?_⟩⟩
  · rw [less_dist n hn, zpow_natCast]
  · rw [more_dist n hn, zpow_neg, zpow_natCast, div_eq_mul_inv]

/-- The tick distance of the partition itself is the first distance of the state. -/
theorem dists_first (variants : List (List Frac)) (hpos : ∀ v ∈ variants, v ≠ [] ∧ ∀ d ∈ v, d.denom ≠ 0)
    (d : Auto) (hi : 0 ≤ d.tickindex ∧ d.tickindex < variants.length) (hb : d.base.denom ≠ 0) :
    ∃ l r, d.dists variants = some (l :: r) ∧
      l.val = firstDist (fun i => ((variants[i]?.getD []).head?.getD ⟨0, 1⟩).val) d := by
  have hlt : d.tickindex.toNat < variants.length := by omega
  have hm : variants[d.tickindex.toNat] ∈ variants := List.getElem_mem hlt
  unfold Auto.dists firstDist
  dsimp only
  rw [List.getElem?_eq_getElem hlt]
  simp only [Option.getD_some]
  obtain ⟨hne, hden⟩ := hpos _ hm
  generalize variants[d.tickindex.toNat] = w at hne hden
  have : ∀ w : List Frac, (∀ d ∈ w, d.denom ≠ 0) → ∃ r, w.mapM (fun t => mul t d.base) = some r := by
    intro w hw
    induction w with
    | nil => exact ⟨[], by simp⟩
    | cons a w ih =>
      obtain ⟨r, hr⟩ := ih fun x hx => hw x (by simp [hx])
      obtain ⟨q, hq, -⟩ := mul_val a d.base (hw a (by simp)) hb
      exact ⟨q :: r, by simp [List.mapM_cons, hq, hr]⟩
  cases w with
  | nil => exact absurd rfl hne
  | cons a w =>
    obtain ⟨r, hr⟩ := this w fun x hx => hden x (by simp [hx])
    obtain ⟨q, hq, hv, -⟩ := mul_val a d.base (hden a (by simp)) hb
    exact ⟨q, r, by simp [List.mapM_cons, hq, hr], by simp [hv]⟩

/-- The default variants satisfy the condition. -/
theorem default_decade : Decade 4 (fun i => ((defaultvariants[i]?.getD []).head?.getD ⟨0, 1⟩).val) := by
  refine ⟨?_, ?_, ?_⟩
  · intro i hi; interval_cases i <;> simp [defaultvariants, Frac.val]
  · intro i j hij hj
    interval_cases j <;> interval_cases i <;> simp [defaultvariants, Frac.val] <;> norm_num
  · intro i hi; interval_cases i <;> simp [defaultvariants, Frac.val] <;> norm_num

example : ((List.range 6).map fun k => ((Auto.less ⟨1, 10⟩).run 4 k).dists defaultvariants) =
    [some [⟨1, 10⟩, ⟨1, 20⟩], some [⟨2, 10⟩, ⟨1, 10⟩], some [⟨5, 20⟩, ⟨5, 40⟩], some [⟨5, 10⟩, ⟨5, 20⟩],
      some [⟨10, 10⟩, ⟨10, 20⟩], some [⟨20, 10⟩, ⟨10, 10⟩]] := by decide +kernel

end PyX.Parter
