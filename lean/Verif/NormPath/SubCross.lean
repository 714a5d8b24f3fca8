import Verif.NormPath.CrossCases
import Verif.NormPath.SegProps
import Mathlib.Data.List.Sort
import Mathlib.Data.List.Dedup
import Mathlib.Logic.Relation

/-!
# Intersections of sub-paths and paths (`pyx/normpath.py:1106-1215, 1763-1780`): model

The intersections of all items, and the search for intersections which are reported several times.
-/

set_option linter.unusedSectionVars false

namespace PyX.NormPath.SubCross

open PyX.NormPath.Sub

noncomputable section

variable (roots : ℝ → ℝ → ℝ → ℝ → List ℝ) (eps : Option ℝ) (n : ℕ)

/-- All intersections of the items, with parameters of the sub-paths (`normpath.py:1117-1121`); `meet` is the intersection of
two items (see `Cross`). -/
def raw (meet : Item ℝ → Item ℝ → List (ℝ × ℝ)) (as bs : List (Item ℝ)) : List (ℝ × ℝ) :=
  as.zipIdx.flatMap fun a => bs.zipIdx.flatMap fun b => (meet a.1 b.1).map fun r => (r.1 + a.2, r.2 + b.2)

/-- The order of tuples. -/
def tupleLe {α : Type} [LE α] (x y : ℝ × α) : Prop := x.1 < y.1 ∨ (x.1 = y.1 ∧ x.2 ≤ y.2)

open Classical in
/-- `intersections.sort()` (`normpath.py:1125-1126`). -/
def ordered (l : List (ℝ × ℝ)) : List (ℝ × ℝ) := l.insertionSort tupleLe

open Classical in
/-- `intersections_a` and `intersections_b` with the indices (`normpath.py:1127-1134`). -/
def indexedA (l : List (ℝ × ℝ)) : List (ℝ × ℕ) := (l.map Prod.fst).zipIdx
open Classical in
def indexedB (l : List (ℝ × ℝ)) : List (ℝ × ℕ) := ((l.map Prod.snd).zipIdx).insertionSort tupleLe

/-- The pair of two indices, the smaller one first (`normpath.py:1150-1154, 1169-1173`). -/
def sortPair (i j : ℕ) : ℕ × ℕ := if i < j then (i, j) else (j, i)

/-- `intersections[i-1][1], intersections[j][1]`; the index -1 is the last element. -/
def pairAt (ints : List (ℝ × ℕ)) (i j : ℕ) : Except Err (ℕ × ℕ) :=
  match (if i = 0 then ints.getLast? else ints[i - 1]?), ints[j]? with
  | some x, some y => .ok (sortPair x.2 y.2)
  | _, _ => .error .index

/-- The inner loop for an open sub-path (`normpath.py:1168-1179`): the values of `j` for which the joined segments are short.
`rest` are the segments after `j`, without the last one. -/
def shortRun : Sub → ℕ → List Sub → Except Err (List ℕ)
  | cur, j, [] => .ok (if cur.items = [] then [j] else [])
  | cur, j, s :: rest =>
    if cur.items = [] then (ok (join roots eps n cur s)).bind fun c => (shortRun c (j + 1) rest).map fun l => j :: l
    else .ok []

/-- The inner loop for a closed sub-path (`normpath.py:1149-1163`). The first argument bounds the number of turns. -/
def shortRound (split : List Sub) : ℕ → Sub → ℕ → Except Err (List ℕ)
  | 0, _, _ => .error .deep
  | m + 1, cur, j =>
    if cur.items = [] then
      match split[if j + 1 = split.length then 0 else j + 1]? with
      | none => .error .index
      | some s => (ok (join roots eps n cur s)).bind fun c =>
          (shortRound split m c (if j + 1 = split.length then 0 else j + 1)).map fun l => j :: l
    else .ok []

/-- All elements, or the first exception. -/
def all {α : Type} : List (Except Err α) → Except Err (List α)
  | [] => .ok []
  | x :: l => x.bind fun a => (all l).map fun as => a :: as

/-- The pairs for one `i`. -/
def pairsAt (ints : List (ℝ × ℕ)) (i : ℕ) (run : Except Err (List ℕ)) : Except Err (List (ℕ × ℕ)) :=
  run.bind fun js => all (js.map fun j => pairAt ints i j)

/-- The outer loop for an open sub-path (`normpath.py:1165-1180`): the segments `i`, `i+1`, … without the last one. -/
def openPairs (ints : List (ℝ × ℕ)) : ℕ → List Sub → Except Err (List (ℕ × ℕ))
  | _, [] => .ok []
  | i, s :: rest => (pairsAt ints i (shortRun roots eps n s i rest)).bind fun ps => (openPairs ints (i + 1) rest).map fun l => ps ++ l

/-- The outer loop for a closed sub-path (`normpath.py:1141-1164`). -/
def closedPairs (m : ℕ) (ints : List (ℝ × ℕ)) (split : List Sub) : ℕ → List Sub → Except Err (List (ℕ × ℕ))
  | _, [] => .ok []
  | i, s :: rest =>
    (pairsAt ints i (shortRound roots eps n split m s i)).bind fun ps => (closedPairs m ints split (i + 1) rest).map fun l => ps ++ l

/-- `closepoints` (`normpath.py:1138-1181`). -/
def closepoints (m : ℕ) (s : Sub) (ints : List (ℝ × ℕ)) : Except Err (List (ℕ × ℕ)) :=
  (segments roots eps n s (0 :: (ints.map Prod.fst ++ [(s.items.length : ℝ)]))).bind fun split =>
    if s.closed then closedPairs roots eps n m ints split 0 split else openPairs roots eps n ints 1 split.dropLast.tail

/-- The pairs which are close on both sub-paths, in the order of the loops (`normpath.py:1190-1192`). -/
def both (A B : List (ℕ × ℕ)) : List (ℕ × ℕ) := A.flatMap fun a => (B.filter fun b => a = b).map fun _ => a

/-- One equivalence (`normpath.py:1193-1195`); the list `equivalentpoints` is a function here. -/
def mergePair (f : ℕ → ℕ) (p : ℕ × ℕ) : ℕ → ℕ := fun i => if p.2 ≤ i ∧ f i = p.2 then p.1 else f i

/-- `equivalentpoints` (`normpath.py:1188-1195`). -/
def equivalent (l : List (ℕ × ℕ)) : ℕ → ℕ := l.foldl mergePair id

/-- The remaining points (`normpath.py:1198-1205`). -/
def keys (k : ℕ) (f : ℕ → ℕ) : List ℕ := ((List.range k).map f).dedup.insertionSort (· ≤ ·)

/-- The parameter with an index (`normpath.py:1207-1212`): the last one found. (There is always one, see `lookup_indexedA`,
`lookup_indexedB`.) -/
def lookup (l : List (ℝ × ℕ)) (k : ℕ) : ℝ := (((l.filter fun x => x.2 = k).getLast?).map Prod.fst).getD 0

/-- The pairs of parameters which are reported for the intersections and the close pairs (`normpath.py:1188-1213`). -/
def report (l : List (ℝ × ℝ)) (A B : List (ℕ × ℕ)) : List (ℝ × ℝ) :=
  (keys l.length (equivalent (both A B))).map fun k => (lookup (indexedA l) k, lookup (indexedB l) k)

/-- `normsubpath.intersect` (`normpath.py:1106-1217`). -/
def intersect (m : ℕ) (meet : Item ℝ → Item ℝ → List (ℝ × ℝ)) (epsA epsB : Option ℝ) (a b : Sub) : Except Err (List ℝ × List ℝ) :=
  let l := ordered (raw meet a.items b.items)
  (closepoints roots epsA n m a (indexedA l)).bind fun A =>
  (closepoints roots epsB n m b (indexedB l)).map fun B =>
    ((report l A B).map Prod.fst, (report l A B).map Prod.snd)

/-- `normpath.intersect` (`normpath.py:1763-1780`): the index of the sub-path and the parameter in it. -/
def pathIntersect (sub : Sub → Sub → Except Err (List ℝ × List ℝ)) (as bs : List Sub) :
    Except Err (List ((ℕ × ℝ) × (ℕ × ℝ))) :=
  (all (as.zipIdx.flatMap fun a => bs.zipIdx.map fun b =>
    (sub a.1 b.1).map fun r => (r.1.zip r.2).map fun x => ((a.2, x.1), (b.2, x.2)))).map List.flatten

end

/-! ## What is reported -/

theorem mem_raw (meet : Item ℝ → Item ℝ → List (ℝ × ℝ)) (as bs : List (Item ℝ)) (r : ℝ × ℝ) :
    r ∈ raw meet as bs ↔ ∃ i j a b s t, as[i]? = some a ∧ bs[j]? = some b ∧ (s, t) ∈ meet a b ∧ r = (s + (i : ℕ), t + (j : ℕ)) := by
  simp only [raw, List.mem_flatMap, List.mem_map, Prod.exists]
  constructor
  · rintro ⟨a, i, hi, b, j, hj, s, t, hm, rfl⟩
    exact ⟨i, j, a, b, s, t, List.mem_zipIdx_iff_getElem?.mp hi, List.mem_zipIdx_iff_getElem?.mp hj, hm, rfl⟩
  · rintro ⟨i, j, a, b, s, t, hi, hj, hm, rfl⟩
    exact ⟨a, i, List.mem_zipIdx_iff_getElem?.mpr hi, b, j, List.mem_zipIdx_iff_getElem?.mpr hj, s, t, hm, rfl⟩

theorem ordered_perm (l : List (ℝ × ℝ)) : (ordered l).Perm l := by classical exact List.perm_insertionSort _ _

theorem tupleLe_total {α : Type} [LinearOrder α] (x y : ℝ × α) : tupleLe x y ∨ tupleLe y x := by
  unfold tupleLe
  rcases lt_trichotomy x.1 y.1 with h | h | h
  · exact .inl (.inl h)
  · rcases le_total x.2 y.2 with h' | h'
    · exact .inl (.inr ⟨h, h'⟩)
    · exact .inr (.inr ⟨h.symm, h'⟩)
  · exact .inr (.inl h)

theorem tupleLe_trans {α : Type} [LinearOrder α] (x y z : ℝ × α) (h : tupleLe x y) (h' : tupleLe y z) : tupleLe x z := by
  unfold tupleLe at *
  rcases h with h | ⟨h, k⟩ <;> rcases h' with h' | ⟨h', k'⟩
  · exact .inl (h.trans h')
  · exact .inl (h'.subst h)
  · exact .inl (h.symm ▸ h')
  · exact .inr ⟨h.trans h', k.trans k'⟩

theorem sort_pairwise {α : Type} [LinearOrder α] [DecidableRel (tupleLe (α := α))] (l : List (ℝ × α)) :
    (l.insertionSort tupleLe).Pairwise tupleLe :=
  haveI : Std.Total (tupleLe (α := α)) := ⟨tupleLe_total⟩
  haveI : IsTrans (ℝ × α) tupleLe := ⟨tupleLe_trans⟩
  List.pairwise_insertionSort _ _

theorem ordered_sorted (l : List (ℝ × ℝ)) : (ordered l).Pairwise fun x y => x.1 ≤ y.1 := by
  classical
  refine (sort_pairwise l).imp ?_
  rintro x y (h | h)
  · exact h.le
  · exact h.1.le

theorem lookup_unique (l : List (ℝ × ℕ)) (x : ℝ) (k : ℕ) (hx : (x, k) ∈ l) (hu : ∀ y, (y, k) ∈ l → y = x) : lookup l k = x := by
  unfold lookup
  have hne : (l.filter fun z => decide (z.2 = k)) ≠ [] := List.ne_nil_of_mem (List.mem_filter.mpr ⟨hx, by simp⟩)
  rw [List.getLast?_eq_some_getLast hne]
  have hm := List.getLast_mem hne
  rw [List.mem_filter] at hm
  obtain ⟨h1, h2⟩ := hm
  simp only [decide_eq_true_eq] at h2
  generalize (l.filter fun z => decide (z.2 = k)).getLast hne = z at h1 h2
  obtain ⟨a, b⟩ := z
  simp only at h2
  subst h2
  exact hu a h1

theorem lookup_indexedA (l : List (ℝ × ℝ)) (k : ℕ) (x : ℝ × ℝ) (h : l[k]? = some x) : lookup (indexedA l) k = x.1 := by
  refine lookup_unique _ _ _ ?_ ?_
  · exact List.mem_zipIdx_iff_getElem?.mpr (by simp [h])
  · intro y hy
    have := List.mem_zipIdx_iff_getElem?.mp hy
    simp only [List.getElem?_map, h, Option.map_some, Option.some.injEq] at this
    exact this.symm

theorem lookup_indexedB (l : List (ℝ × ℝ)) (k : ℕ) (x : ℝ × ℝ) (h : l[k]? = some x) : lookup (indexedB l) k = x.2 := by
  classical
  have hp : ∀ z, z ∈ indexedB l ↔ z ∈ (l.map Prod.snd).zipIdx := fun z => (List.perm_insertionSort _ _).mem_iff
  refine lookup_unique _ _ _ ?_ ?_
  · exact (hp _).mpr (List.mem_zipIdx_iff_getElem?.mpr (by simp [h]))
  · intro y hy
    have := List.mem_zipIdx_iff_getElem?.mp ((hp _).mp hy)
    simp only [List.getElem?_map, h, Option.map_some, Option.some.injEq] at this
    exact this.symm

theorem mem_keys (k : ℕ) (f : ℕ → ℕ) (x : ℕ) : x ∈ keys k f ↔ ∃ i < k, f i = x := by
  simp [keys]

theorem keys_sorted (k : ℕ) (f : ℕ → ℕ) : (keys k f).Pairwise (· < ·) := by
  have h1 : (keys k f).Pairwise (· ≤ ·) := List.pairwise_insertionSort _ _
  have h2 : (keys k f).Nodup := (List.perm_insertionSort _ _).nodup_iff.mpr (List.nodup_dedup _)
  exact (h1.and h2).imp fun h => lt_of_le_of_ne h.1 h.2

theorem foldl_le (l : List (ℕ × ℕ)) (h : ∀ p ∈ l, p.1 ≤ p.2) (f : ℕ → ℕ) (hf : ∀ i, f i ≤ i) (i : ℕ) : l.foldl mergePair f i ≤ i := by
  induction l generalizing f with
  | nil => exact hf i
  | cons p l ih =>
    refine ih (fun q hq => h q (List.mem_cons_of_mem _ hq)) _ ?_
    intro j
    unfold mergePair
    split
    · rename_i hc
      exact (h p (by simp)).trans hc.1
    · exact hf j

theorem equivalent_le (l : List (ℕ × ℕ)) (h : ∀ p ∈ l, p.1 ≤ p.2) (i : ℕ) : equivalent l i ≤ i := foldl_le l h id (fun _ => le_rfl) i

theorem mem_both {A B : List (ℕ × ℕ)} {p : ℕ × ℕ} : p ∈ both A B ↔ p ∈ A ∧ p ∈ B := by
  simp only [both, List.mem_flatMap, List.mem_map, List.mem_filter, decide_eq_true_eq]
  constructor
  · rintro ⟨a, ha, b, ⟨hb, rfl⟩, rfl⟩
    exact ⟨ha, hb⟩
  · rintro ⟨ha, hb⟩
    exact ⟨p, ha, p, ⟨hb, rfl⟩, rfl⟩

/-- Taking elements of a list at increasing indices. -/
theorem map_get_sublist {α : Type} (l : List α) (ks : List ℕ) (g : ℕ → α) (hs : ks.Pairwise (· < ·))
    (hg : ∀ k ∈ ks, l[k]? = some (g k)) : (ks.map g).Sublist l := by
  have hlt : ∀ k ∈ ks, k < l.length := fun k hk => (List.getElem?_eq_some_iff.mp (hg k hk)).1
  have e : ks.map g = (ks.pmap (fun k (h : k < l.length) => (⟨k, h⟩ : Fin l.length)) hlt).map (l[·]) := by
    rw [List.map_pmap]
    apply List.ext_getElem
    · simp
    · intro i h1 h2
      simp only [List.getElem_map, List.getElem_pmap]
      have hi : i < ks.length := by simpa using h1
      have := hg ks[i] (List.getElem_mem hi)
      rw [List.getElem?_eq_some_iff] at this
      exact this.2.symm
  rw [e]
  refine List.map_getElem_sublist ?_
  rw [List.pairwise_pmap]
  exact hs.imp fun h _ _ => h

/-- **C140 (results are intersections).** What is reported is part of the sorted list of all intersections of the items. -/
theorem report_sublist (l : List (ℝ × ℝ)) (A B : List (ℕ × ℕ)) (hA : ∀ p ∈ A, p.1 ≤ p.2) : (report l A B).Sublist l := by
  refine map_get_sublist l _ _ (keys_sorted _ _) ?_
  intro k hk
  obtain ⟨i, hi, rfl⟩ := (mem_keys _ _ _).mp hk
  have hlt : equivalent (both A B) i < l.length :=
    lt_of_le_of_lt (equivalent_le _ (fun p hp => hA p (mem_both.mp hp).1) i) hi
  have hx : l[equivalent (both A B) i]? = some l[equivalent (both A B) i] := List.getElem?_eq_getElem hlt
  rw [lookup_indexedA l _ _ hx, lookup_indexedB l _ _ hx, hx]

/-- Linked by pairs. -/
def Linked (l : List (ℕ × ℕ)) : ℕ → ℕ → Prop := Relation.EqvGen fun i j => (i, j) ∈ l

theorem foldl_linked (all l : List (ℕ × ℕ)) (hsub : ∀ p ∈ l, p ∈ all) (f : ℕ → ℕ) (hf : ∀ i, Linked all i (f i)) (i : ℕ) :
    Linked all i (l.foldl mergePair f i) := by
  induction l generalizing f with
  | nil => exact hf i
  | cons p l ih =>
    refine ih (fun q hq => hsub q (List.mem_cons_of_mem _ hq)) _ ?_
    intro j
    unfold mergePair
    split
    · rename_i hc
      refine (hf j).trans _ _ _ ?_
      rw [hc.2]
      exact .symm _ _ (.rel _ _ (hsub p (by simp)))
    · exact hf j

theorem equivalent_linked (l : List (ℕ × ℕ)) (i : ℕ) : Linked l i (equivalent l i) := foldl_linked l l (fun _ h => h) id (fun _ => .refl _) i

/-- **C140 (nothing is lost).** For each intersection there is one which is reported and linked to it: by steps between
intersections which are close on both sub-paths. -/
theorem nothing_lost (l : List (ℝ × ℝ)) (A B : List (ℕ × ℕ)) (hA : ∀ p ∈ A, p.1 ≤ p.2) (i : ℕ) (hi : i < l.length) :
    ∃ k x, l[k]? = some x ∧ x ∈ report l A B ∧ Linked (both A B) i k := by
  have hlt : equivalent (both A B) i < l.length :=
    lt_of_le_of_lt (equivalent_le _ (fun p hp => hA p (mem_both.mp hp).1) i) hi
  have hx : l[equivalent (both A B) i]? = some l[equivalent (both A B) i] := List.getElem?_eq_getElem hlt
  refine ⟨_, _, hx, ?_, equivalent_linked _ i⟩
  refine List.mem_map.mpr ⟨equivalent (both A B) i, (mem_keys _ _ _).mpr ⟨i, hi, rfl⟩, ?_⟩
  rw [lookup_indexedA l _ _ hx, lookup_indexedB l _ _ hx]

/-- An intersection which is not close to another one on both sub-paths is reported. -/
theorem lonely_reported (l : List (ℝ × ℝ)) (A B : List (ℕ × ℕ)) (i : ℕ) (x : ℝ × ℝ) (hx : l[i]? = some x)
    (h : ∀ p ∈ both A B, p.2 ≠ i) : x ∈ report l A B := by
  have key : ∀ (ps : List (ℕ × ℕ)) (f : ℕ → ℕ), (∀ p ∈ ps, p.2 ≠ i) → f i = i → ps.foldl mergePair f i = i := by
    intro ps
    induction ps with
    | nil => intro f _ hf; exact hf
    | cons p ps ih =>
      intro f hp hf
      refine ih _ (fun q hq => hp q (List.mem_cons_of_mem _ hq)) ?_
      unfold mergePair
      rw [if_neg (by rintro ⟨-, e⟩; exact hp p (by simp) (by rw [← e, hf]))]
      exact hf
  have e : equivalent (both A B) i = i := key _ id h rfl
  have hi : i < l.length := (List.getElem?_eq_some_iff.mp hx).1
  refine List.mem_map.mpr ⟨i, (mem_keys _ _ _).mpr ⟨i, hi, e⟩, ?_⟩
  rw [lookup_indexedA l _ _ hx, lookup_indexedB l _ _ hx]

/-! ## No intersection twice -/

/-- The order in which `closepoints` gives the pairs for an open sub-path. -/
def pairLe (p q : ℕ × ℕ) : Prop := p.1 < q.1 ∨ (p.1 = q.1 ∧ p.2 ≤ q.2)

/-- Each point is mapped to the smallest point which is close to it, if there is any. -/
def First (done : List (ℕ × ℕ)) (f : ℕ → ℕ) : Prop :=
  ∀ i, (f i = i ∧ ∀ p ∈ done, p.2 ≠ i) ∨ ((f i, i) ∈ done ∧ ∀ p ∈ done, p.2 = i → f i ≤ p.1)

theorem first_step (done : List (ℕ × ℕ)) (hlt : ∀ p ∈ done, p.1 < p.2) (p : ℕ × ℕ) (hp : p.1 < p.2) (hord : ∀ q ∈ done, q.1 ≤ p.1)
    (f : ℕ → ℕ) (hf : First done f) : First (done ++ [p]) (mergePair f p) := by
  intro i
  unfold mergePair
  by_cases hi : i = p.2
  · subst hi
    right
    rcases hf p.2 with ⟨h1, h2⟩ | ⟨h1, h2⟩
    · rw [if_pos ⟨le_rfl, h1⟩]
      refine ⟨List.mem_append_right _ (by simp), ?_⟩
      intro q hq hq2
      rcases List.mem_append.mp hq with hq | hq
      · exact absurd hq2 (h2 q hq)
      · rw [List.mem_singleton.mp hq]
    · have h3 := hlt _ h1
      simp only at h3
      rw [if_neg (by rintro ⟨-, e⟩; omega)]
      refine ⟨List.mem_append_left _ h1, ?_⟩
      intro q hq hq2
      rcases List.mem_append.mp hq with hq | hq
      · exact h2 q hq hq2
      · rw [List.mem_singleton.mp hq]
        exact hord _ h1
  · have hne : f i ≠ p.2 := by
      intro e
      rcases hf i with ⟨h1, _⟩ | ⟨h1, _⟩
      · exact hi (h1.symm.trans e)
      · rw [e] at h1
        have := hord _ h1
        simp only at this
        omega
    rw [if_neg (fun hc => hne hc.2)]
    rcases hf i with ⟨h1, h2⟩ | ⟨h1, h2⟩
    · refine .inl ⟨h1, fun q hq => ?_⟩
      rcases List.mem_append.mp hq with hq | hq
      · exact h2 q hq
      · rw [List.mem_singleton.mp hq]
        exact fun e => hi e.symm
    · refine .inr ⟨List.mem_append_left _ h1, fun q hq hq2 => ?_⟩
      rcases List.mem_append.mp hq with hq | hq
      · exact h2 q hq hq2
      · rw [List.mem_singleton.mp hq] at hq2
        exact absurd hq2.symm hi

theorem equivalent_first (l : List (ℕ × ℕ)) (hlt : ∀ p ∈ l, p.1 < p.2) (hs : l.Pairwise pairLe) : First l (equivalent l) := by
  have key : ∀ (rest done : List (ℕ × ℕ)) (f : ℕ → ℕ), done ++ rest = l → First done f → First l (rest.foldl mergePair f) := by
    intro rest
    induction rest with
    | nil => intro done f e hf; rw [List.append_nil] at e; rw [← e]; exact hf
    | cons p rest ih =>
      intro done f e hf
      refine ih (done ++ [p]) _ (by simpa using e) ?_
      rw [← e] at hs
      refine first_step done (fun q hq => hlt q (by rw [← e]; exact List.mem_append_left _ hq)) p
        (hlt p (by rw [← e]; simp)) ?_ f hf
      intro q hq
      rcases (List.pairwise_append.mp hs).2.2 q hq p (by simp) with h | h
      · exact h.le
      · exact h.1.le
  exact key l [] id rfl fun i => .inl ⟨rfl, fun _ h => by simp at h⟩

theorem both_pairwise {A B : List (ℕ × ℕ)} (h : A.Pairwise pairLe) : (both A B).Pairwise pairLe := by
  induction A with
  | nil => simp [both]
  | cons a A ih =>
    have hc := List.pairwise_cons.mp h
    have e : both (a :: A) B = ((B.filter fun b => a = b).map fun _ => a) ++ both A B := rfl
    rw [e, List.pairwise_append]
    refine ⟨?_, ih hc.2, ?_⟩
    · rw [List.pairwise_map]
      exact List.pairwise_of_forall (fun _ _ => .inr ⟨rfl, le_rfl⟩)
    · intro x hx y hy
      obtain ⟨_, _, rfl⟩ := List.mem_map.mp hx
      exact hc.1 y (mem_both.mp hy).1

/-- What is reported: the intersections which are not close to one before, and those which are the first being close to
another one. -/
theorem kept_iff (k : ℕ) (A B : List (ℕ × ℕ)) (hA : A.Pairwise pairLe) (hlt : ∀ p ∈ A, p.1 < p.2) (y : ℕ) :
    y ∈ keys k (equivalent (both A B)) ↔
      (y < k ∧ ∀ x, (x, y) ∉ both A B) ∨ ∃ i < k, (y, i) ∈ both A B ∧ ∀ x, (x, i) ∈ both A B → y ≤ x := by
  have hf := equivalent_first (both A B) (fun p hp => hlt p (mem_both.mp hp).1) (both_pairwise hA)
  rw [mem_keys]
  constructor
  · rintro ⟨i, hi, rfl⟩
    rcases hf i with ⟨h1, h2⟩ | ⟨h1, h2⟩
    · rw [h1]
      exact .inl ⟨hi, fun x hx => h2 _ hx rfl⟩
    · exact .inr ⟨i, hi, h1, fun x hx => h2 _ hx rfl⟩
  · rintro (⟨h1, h2⟩ | ⟨i, hi, h1, h2⟩)
    · refine ⟨y, h1, ?_⟩
      rcases hf y with ⟨h3, _⟩ | ⟨h3, _⟩
      · exact h3
      · exact absurd h3 (h2 _)
    · refine ⟨i, hi, ?_⟩
      rcases hf i with ⟨_, h4⟩ | ⟨h3, h4⟩
      · exact absurd rfl (h4 _ h1)
      · exact le_antisymm (h4 _ h1 rfl) (h2 _ h3)

/-- The result is given by the indices which are kept. -/
theorem report_eq (l : List (ℝ × ℝ)) (A B : List (ℕ × ℕ)) (hA : ∀ p ∈ A, p.1 ≤ p.2) :
    (report l A B).map some = (keys l.length (equivalent (both A B))).map (fun k => l[k]?) := by
  unfold report
  rw [List.map_map]
  apply List.map_congr_left
  intro k hk
  obtain ⟨i, hi, rfl⟩ := (mem_keys _ _ _).mp hk
  have hlt : equivalent (both A B) i < l.length :=
    lt_of_le_of_lt (equivalent_le _ (fun p hp => hA p (mem_both.mp hp).1) i) hi
  have hx : l[equivalent (both A B) i]? = some l[equivalent (both A B) i] := List.getElem?_eq_getElem hlt
  simp only [Function.comp]
  rw [lookup_indexedA l _ _ hx, lookup_indexedB l _ _ hx, hx]

/-- **C140 (no point twice).** When being close on both sub-paths is transitive, no two points which are reported are close
on both sub-paths. -/
theorem one_per_cluster_partial (l : List (ℝ × ℝ)) (A B : List (ℕ × ℕ)) (hA : A.Pairwise pairLe) (hlt : ∀ p ∈ A, p.1 < p.2)
    (htrans : ∀ i j k, (i, j) ∈ both A B → (j, k) ∈ both A B → (i, k) ∈ both A B) :
    ∃ ks : List ℕ, ks.Pairwise (· < ·) ∧ (report l A B).map some = ks.map (fun k => l[k]?) ∧ ∀ i ∈ ks, ∀ j ∈ ks, (i, j) ∉ both A B := by
  refine ⟨_, keys_sorted _ _, report_eq l A B (fun p hp => (hlt p hp).le), ?_⟩
  intro i _ j hj hm
  rcases (kept_iff _ A B hA hlt j).mp hj with ⟨_, h⟩ | ⟨m, _, h1, h2⟩
  · exact h i hm
  · have := h2 i (htrans _ _ _ hm h1)
    have := hlt _ (mem_both.mp hm).1
    simp only at this
    omega

/-- Without transitivity this fails: of three points in a row, where neighbours are close, the first two are reported
although they are close, and the third one is dropped. -/
theorem chain_double (x y z : ℝ × ℝ) : report [x, y, z] [(0, 1), (1, 2)] [(0, 1), (1, 2)] = [x, y] := by
  have hk : keys 3 (equivalent (both [(0, 1), (1, 2)] [(0, 1), (1, 2)])) = [0, 1] := by decide
  unfold report
  rw [show [x, y, z].length = 3 from rfl, hk]
  simp only [List.map_cons, List.map_nil]
  rw [lookup_indexedA _ 0 x rfl, lookup_indexedB _ 0 x rfl, lookup_indexedA _ 1 y rfl, lookup_indexedB _ 1 y rfl]

/-- Three intersections which are all close to each other give one. -/
example (x y z : ℝ × ℝ) : report [x, y, z] [(0, 1), (0, 2), (1, 2)] [(1, 2), (0, 1), (0, 2)] = [x] := by
  have hk : keys 3 (equivalent (both [(0, 1), (0, 2), (1, 2)] [(1, 2), (0, 1), (0, 2)])) = [0] := by decide
  unfold report
  rw [show [x, y, z].length = 3 from rfl, hk]
  simp only [List.map_cons, List.map_nil]
  rw [lookup_indexedA _ 0 x rfl, lookup_indexedB _ 0 x rfl]

/-- Points which are close on one of the sub-paths only are both reported. -/
example (x y : ℝ × ℝ) : report [x, y] [(0, 1)] [] = [x, y] := by
  have hk : keys 2 (equivalent (both [(0, 1)] [])) = [0, 1] := by decide
  unfold report
  rw [show [x, y].length = 2 from rfl, hk]
  simp only [List.map_cons, List.map_nil]
  rw [lookup_indexedA _ 0 x rfl, lookup_indexedB _ 0 x rfl, lookup_indexedA _ 1 y rfl, lookup_indexedB _ 1 y rfl]

end PyX.NormPath.SubCross
