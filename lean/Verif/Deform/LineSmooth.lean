import Verif.Deform.CornerPath
import Verif.MetaPost.PathTangent

/-!
# C125: smooth curves through the corners of paths (`deformer.linesmoothed`)

The deformer gives the corners of a path to the MetaPost-like paths (C61, C92).
-/

set_option linter.unusedSectionVars false

namespace PyX.Deform

noncomputable section

open PyX.NormPath (Line Curve atan2)
open PyX.MetaPost (Elems Knot Link smoothknot beginknot endknot tensioncurve realEnv pen Seg pos link initial Draws linkedKnots Far pt dir)

/-! ## Model -/

/-- The attributes of `linesmoothed` (`deformer.py:1733-1738`): an "at least" tension is negative. -/
structure Smoother where
  tension : ℝ
  lcurl : Option ℝ
  rcurl : Option ℝ

/-- `linesmoothed.__init__` (`deformer.py:1729-1738`). -/
def Smoother.make (tension : ℝ) (atleast : Bool) (lcurl rcurl : Option ℝ) : Smoother :=
  ⟨if atleast then -|tension| else |tension|, lcurl, rcurl⟩

/-- `linesmoothed.__call__` (`deformer.py:1740-1749`); `none` is the marker. -/
def Smoother.call (s : Smoother) (tension : Option ℝ) (atleast : Option Bool) (lcurl rcurl : Option (Option ℝ)) : Smoother :=
  open Classical in
  Smoother.make (tension.getD s.tension) (atleast.getD (decide (s.tension < 0))) (lcurl.getD s.lcurl) (rcurl.getD s.rcurl)

/-- The angle of the path at an end (`deformer.py:1768-1770, 1786-1788`). -/
def endAngle (i : NormPath.Item ℝ) (t : ℝ) : Except Bad ℝ := (direction i t).map fun d => atan2 d.2 d.1

/-- The first knot of an open path (`deformer.py:1767-1773`). -/
def firstKnot (s : Smoother) (i : NormPath.Item ℝ) : Except Bad (Knot ℝ) :=
  match s.lcurl with
  | some c => .ok (beginknot i.begin_.1 i.begin_.2 c none)
  | none => (endAngle i 0).map fun a => beginknot i.begin_.1 i.begin_.2 1 (some a)

/-- The last knot of an open path (`deformer.py:1785-1791`). -/
def lastKnot (s : Smoother) (i : NormPath.Item ℝ) : Except Bad (Knot ℝ) :=
  match s.rcurl with
  | some c => .ok (endknot i.end_.1 i.end_.2 c none)
  | none => (endAngle i 1).map fun a => endknot i.end_.1 i.end_.2 1 (some a)

/-- The link between two knots (`deformer.py:1777, 1781`). -/
def tie (s : Smoother) : Link ℝ := tensioncurve s.tension false none none

/-- The intermediate knots (`deformer.py:1776-1778`). -/
def middle (s : Smoother) (items : List (NormPath.Item ℝ)) : Elems ℝ := items.dropLast.map fun i => (smoothknot i.end_.1 i.end_.2, some (tie s))

/-- The knots and links given to the MetaPost path (`deformer.py:1757-1793`); a sub-path without items has no begin. -/
def elems (s : Smoother) (closed : Bool) (items : List (NormPath.Item ℝ)) : Except Bad (Elems ℝ) :=
  match items with
  | [] => .error .empty
  | i :: rest =>
    if closed then .ok ((smoothknot i.begin_.1 i.begin_.2, some (tie s)) :: middle s (i :: rest))
    else (firstKnot s i).bind fun b => (lastKnot s ((i :: rest).getLast (List.cons_ne_nil _ _))).map fun e =>
      (b, some (tie s)) :: (middle s (i :: rest) ++ [(e, none)])

/-- `linesmoothed.deformsubpath` (`deformer.py:1757-1793`): the items of the path drawn. -/
def linesmoothed (eps : ℝ) (s : Smoother) (closed : Bool) (items : List (NormPath.Item ℝ)) : Except Bad (List (MetaPost.Item ℝ)) :=
  (elems s closed items).bind fun es =>
    match MetaPost.path (realEnv eps) es with
    | some l => .ok l
    | none => .error .zero

/-! ## Specification -/

/-- Every item begins where the item before ends; a closed path ends where it begins. -/
def Connected (closed : Bool) (items : List (NormPath.Item ℝ)) : Prop :=
  (∀ k (h : k + 1 < items.length), (items[k]'(by omega)).end_ = items[k + 1].begin_) ∧
    (closed = true → ∀ h : items ≠ [], (items.getLast h).end_ = (items.head h).begin_)

/-- Two curves meet with the same tangent direction, both with positive speed. -/
def Meet (s s' : Seg ℝ) : Prop :=
  ∃ (p a b q c d r : Pt) (T : ℂ) (α β : ℝ), s = .curve p a b q ∧ s' = .curve q c d r ∧ ‖T‖ = 1 ∧ 0 < α ∧ 0 < β ∧ pt c = pt q + α * T ∧ pt b = pt q - β * T

/-! ## Lemmas -/

theorem elems_length {s : Smoother} {closed : Bool} {items : List (NormPath.Item ℝ)} {es : Elems ℝ} (h : elems s closed items = .ok es) :
    0 < items.length ∧ es.length = items.length + (if closed then 0 else 1) := by
  cases items with
  | nil => simp [elems] at h
  | cons i rest =>
    rw [elems] at h
    cases closed with
    | true =>
      simp only [if_true, Except.ok.injEq] at h
      rw [← h]
      simp [middle]
    | false =>
      simp only [Bool.false_eq_true, if_false] at h
      obtain ⟨b, hb, h⟩ := NormPath.ByLength.bind_ok h
      obtain ⟨e, he, h⟩ := NormPath.ByLength.map_ok h
      rw [← h]
      simp [middle]

theorem tie_eq (s : Smoother) : tie s = .tension (max (3 / 4) |s.tension|) (max (3 / 4) |s.tension|) := by
  simp [tie, tensioncurve]

theorem mid_get (s : Smoother) (items : List (NormPath.Item ℝ)) (k : ℕ) (h : k + 1 < items.length) :
    (middle s items)[k]? = some (smoothknot (items[k]'(by omega)).end_.1 (items[k]'(by omega)).end_.2, some (tie s)) := by
  rw [middle, List.getElem?_map, List.getElem?_dropLast, if_pos (by omega), List.getElem?_eq_getElem (by omega)]
  rfl

theorem firstKnot_pos {s : Smoother} {i : NormPath.Item ℝ} {b : Knot ℝ} (h : firstKnot s i = .ok b) : (b.x, b.y) = i.begin_ := by
  unfold firstKnot at h
  cases hc : s.lcurl with
  | some c => rw [hc] at h; simp only [Except.ok.injEq] at h; rw [← h]; rfl
  | none =>
    rw [hc] at h
    obtain ⟨a, -, h⟩ := NormPath.ByLength.map_ok h
    rw [← h]; rfl

theorem lastKnot_pos {s : Smoother} {i : NormPath.Item ℝ} {b : Knot ℝ} (h : lastKnot s i = .ok b) : (b.x, b.y) = i.end_ := by
  unfold lastKnot at h
  cases hc : s.rcurl with
  | some c => rw [hc] at h; simp only [Except.ok.injEq] at h; rw [← h]; rfl
  | none =>
    rw [hc] at h
    obtain ⟨a, -, h⟩ := NormPath.ByLength.map_ok h
    rw [← h]; rfl

/-- The knots and links by their number. -/
theorem elems_get {s : Smoother} {closed : Bool} {items : List (NormPath.Item ℝ)} {es : Elems ℝ} (h : elems s closed items = .ok es) :
    (∀ k (hk : k < items.length), link es k = some (tie s)) ∧ (closed = false → link es items.length = none) ∧
    (∀ k (hk : k + 1 < items.length), initial es (k + 1) = smoothknot (items[k]'(by omega)).end_.1 (items[k]'(by omega)).end_.2) ∧
    (closed = true → ∀ hk : 0 < items.length, initial es 0 = smoothknot items[0].begin_.1 items[0].begin_.2) ∧
    (closed = false → ∀ hk : 0 < items.length, firstKnot s items[0] = .ok (initial es 0) ∧ lastKnot s (items[items.length - 1]'(by omega)) = .ok (initial es items.length)) := by
  cases items with
  | nil => simp [elems] at h
  | cons i rest =>
    rw [elems] at h
    have hmid : (middle s (i :: rest)).length = rest.length := by simp [middle]
    cases closed with
    | true =>
      simp only [if_true, Except.ok.injEq] at h
      refine ⟨?_, by simp, ?_, ?_, by simp⟩
      · intro k hk
        rw [link, ← h, List.getD_eq_getElem?_getD]
        cases k with
        | zero => rfl
        | succ k => rw [List.getElem?_cons_succ, mid_get s _ k hk]; rfl
      · intro k hk
        rw [initial, ← h, List.getD_eq_getElem?_getD, List.getElem?_cons_succ, mid_get s _ k hk]
        rfl
      · intro _ _
        rw [← h]; rfl
    | false =>
      simp only [Bool.false_eq_true, if_false] at h
      obtain ⟨b, hb, h⟩ := NormPath.ByLength.bind_ok h
      obtain ⟨e, he, h⟩ := NormPath.ByLength.map_ok h
      have hin : ∀ k, k + 1 < (i :: rest).length → (middle s (i :: rest) ++ [(e, none)])[k]? = (middle s (i :: rest))[k]? := by
        intro k hk
        rw [List.getElem?_append_left (by rw [hmid]; simpa using hk)]
      refine ⟨?_, ?_, ?_, by simp, ?_⟩
      · intro k hk
        rw [link, ← h, List.getD_eq_getElem?_getD]
        cases k with
        | zero => rfl
        | succ k => rw [List.getElem?_cons_succ, hin k hk, mid_get s _ k hk]; rfl
      · intro _
        rw [link, ← h, List.getD_eq_getElem?_getD, List.length_cons, List.getElem?_cons_succ, ← hmid, List.getElem?_append_right le_rfl]
        simp
      · intro k hk
        rw [initial, ← h, List.getD_eq_getElem?_getD, List.getElem?_cons_succ, hin k hk, mid_get s _ k hk]
        rfl
      · intro _ _
        constructor
        · rw [← h]; exact hb
        · have e1 : initial es (i :: rest).length = e := by
            rw [initial, ← h, List.getD_eq_getElem?_getD, List.length_cons, List.getElem?_cons_succ, ← hmid, List.getElem?_append_right le_rfl, Nat.sub_self]
            rfl
          rw [e1]
          rw [List.getLast_eq_getElem] at he
          exact he

theorem firstKnot_built {s : Smoother} {i : NormPath.Item ℝ} {b : Knot ℝ} (h : firstKnot s i = .ok b) : MetaPost.Built b := by
  unfold firstKnot at h
  cases hc : s.lcurl with
  | some c => rw [hc] at h; simp only [Except.ok.injEq] at h; exact Or.inl ⟨_, _, _, _, h.symm⟩
  | none =>
    rw [hc] at h
    obtain ⟨a, -, h⟩ := NormPath.ByLength.map_ok h
    exact Or.inl ⟨_, _, _, _, h.symm⟩

theorem lastKnot_built {s : Smoother} {i : NormPath.Item ℝ} {b : Knot ℝ} (h : lastKnot s i = .ok b) : MetaPost.Built b := by
  unfold lastKnot at h
  cases hc : s.rcurl with
  | some c => rw [hc] at h; simp only [Except.ok.injEq] at h; exact Or.inr (Or.inl ⟨_, _, _, _, h.symm⟩)
  | none =>
    rw [hc] at h
    obtain ⟨a, -, h⟩ := NormPath.ByLength.map_ok h
    exact Or.inr (Or.inl ⟨_, _, _, _, h.symm⟩)

theorem elems_built {s : Smoother} {closed : Bool} {items : List (NormPath.Item ℝ)} {es : Elems ℝ} (h : elems s closed items = .ok es) : MetaPost.Made es := by
  have ht : ∀ l, some (tie s) = some l → MetaPost.BuiltLink l := by
    intro l hl
    simp only [Option.some.injEq] at hl
    exact Or.inr (Or.inr ⟨_, _, _, _, hl.symm⟩)
  have hm : ∀ is, ∀ e ∈ middle s is, MetaPost.Built e.1 ∧ ∀ l, e.2 = some l → MetaPost.BuiltLink l := by
    intro is e he
    rw [middle, List.mem_map] at he
    obtain ⟨i, -, rfl⟩ := he
    exact ⟨Or.inr (Or.inr (Or.inl ⟨_, _, rfl⟩)), ht⟩
  cases items with
  | nil => simp [elems] at h
  | cons i rest =>
    rw [elems] at h
    cases closed with
    | true =>
      simp only [if_true, Except.ok.injEq] at h
      rw [← h]
      intro e he
      rcases List.mem_cons.1 he with rfl | he
      · exact ⟨Or.inr (Or.inr (Or.inl ⟨_, _, rfl⟩)), ht⟩
      · exact hm _ e he
    | false =>
      simp only [Bool.false_eq_true, if_false] at h
      obtain ⟨b, hb, h⟩ := NormPath.ByLength.bind_ok h
      obtain ⟨e', he', h⟩ := NormPath.ByLength.map_ok h
      rw [← h]
      intro e he
      rcases List.mem_cons.1 he with rfl | he
      · exact ⟨firstKnot_built hb, ht⟩
      · rcases List.mem_append.1 he with he | he
        · exact hm _ e he
        · rw [List.mem_singleton.1 he]
          exact ⟨lastKnot_built he', nofun⟩

/-- The positions of the knots are the corners of the path. -/
theorem elems_pos {s : Smoother} {closed : Bool} {items : List (NormPath.Item ℝ)} {es : Elems ℝ} (h : elems s closed items = .ok es) (hc : Connected closed items)
    (k : ℕ) (hk : k < items.length) : pos es k = items[k].begin_ ∧ pos es ((k + 1) % es.length) = items[k].end_ := by
  obtain ⟨hn, hlen⟩ := elems_length h
  obtain ⟨h1, h2, h3, h4, h5⟩ := elems_get h
  have hbegin : ∀ k (hk : k < items.length), pos es k = items[k].begin_ := by
    intro k hk
    cases k with
    | zero =>
      cases closed with
      | true => rw [pos, h4 rfl hn]; rfl
      | false => exact firstKnot_pos (h5 rfl hn).1
    | succ k =>
      rw [pos, h3 k hk, ← hc.1 k hk]
      rfl
  refine ⟨hbegin k hk, ?_⟩
  by_cases hl : k + 1 < items.length
  · rw [Nat.mod_eq_of_lt (by rw [hlen]; split_ifs <;> omega), hbegin (k + 1) hl, hc.1 k hl]
  · have hke : k + 1 = items.length := by omega
    have hne : items ≠ [] := by intro e; simp [e] at hn
    have hlast : items[k] = items.getLast hne := by
      rw [List.getLast_eq_getElem]
      congr 1
      omega
    cases closed with
    | true =>
      simp only [if_true, add_zero] at hlen
      rw [hlen, hke, Nat.mod_self, hbegin 0 hn, hlast, hc.2 rfl hne, List.head_eq_getElem]
    | false =>
      simp only [Bool.false_eq_true, if_false] at hlen
      rw [hlen, hke, Nat.mod_eq_of_lt (by omega)]
      have := lastKnot_pos (h5 rfl hn).2
      have e : items[items.length - 1]'(by omega) = items[k] := by congr 1; omega
      rw [e] at this
      exact this

theorem elems_linked {s : Smoother} {closed : Bool} {items : List (NormPath.Item ℝ)} {es : Elems ℝ} (h : elems s closed items = .ok es) :
    linkedKnots es es.length = List.range items.length := by
  obtain ⟨hn, hlen⟩ := elems_length h
  obtain ⟨h1, h2, -⟩ := elems_get h
  have hall : (List.range items.length).filter (fun i => (link es i).isSome) = List.range items.length := by
    rw [List.filter_eq_self]
    intro i hi
    rw [h1 i (List.mem_range.1 hi)]
    rfl
  rw [linkedKnots, hlen]
  cases closed with
  | true => simpa using hall
  | false =>
    simp only [Bool.false_eq_true, if_false]
    rw [List.range_succ, List.filter_append, hall]
    simp [h2 rfl]

theorem elems_made {s : Smoother} {closed : Bool} {items : List (NormPath.Item ℝ)} {es : Elems ℝ} (h : elems s closed items = .ok es) :
    (∀ keep, link es (es.length - 1) ≠ some (.line keep)) ∧ ((link es (es.length - 1)).isSome → ∀ i < es.length, (link es i).isSome) ∧
      ∀ i < es.length, link es i = some (tie s) ∨ link es i = none := by
  obtain ⟨hn, hlen⟩ := elems_length h
  obtain ⟨h1, h2, -⟩ := elems_get h
  cases closed with
  | true =>
    simp only [if_true, add_zero] at hlen
    rw [hlen]
    refine ⟨?_, ?_, ?_⟩
    · intro keep; rw [h1 _ (by omega), tie_eq]; simp
    · intro _ i hi; rw [h1 i hi]; rfl
    · intro i hi; exact Or.inl (h1 i hi)
  | false =>
    simp only [Bool.false_eq_true, if_false] at hlen
    rw [hlen]
    refine ⟨?_, ?_, ?_⟩
    · intro keep; rw [Nat.add_sub_cancel, h2 rfl]; simp
    · intro hh; rw [Nat.add_sub_cancel, h2 rfl] at hh; simp at hh
    · intro i hi
      rcases Nat.lt_succ_iff_lt_or_eq.1 hi with hi | rfl
      · exact Or.inl (h1 i hi)
      · exact Or.inr (h2 rfl)

theorem linesmoothed_path {eps : ℝ} {s : Smoother} {closed : Bool} {items : List (NormPath.Item ℝ)} {l : List (MetaPost.Item ℝ)}
    (h : linesmoothed eps s closed items = .ok l) : ∃ es, elems s closed items = .ok es ∧ MetaPost.path (realEnv eps) es = some l := by
  obtain ⟨es, h1, h2⟩ := NormPath.ByLength.bind_ok h
  refine ⟨es, h1, ?_⟩
  cases hp : MetaPost.path (realEnv eps) es with
  | none => rw [hp] at h2; simp at h2
  | some l' => rw [hp] at h2; simpa using h2

/-- The direction of an angle computed from a unit vector. -/
theorem dir_atan2 {u : Pt} (h : Unit2 u) : dir (atan2 u.2 u.1) = pt u := by
  have hn : ‖(⟨u.1, u.2⟩ : ℂ)‖ = 1 := by
    rw [Complex.norm_def, Complex.normSq_mk, show u.1 * u.1 + u.2 * u.2 = 1 by rw [Unit2] at h; linarith, Real.sqrt_one]
  have := Complex.norm_mul_exp_arg_mul_I (⟨u.1, u.2⟩ : ℂ)
  rw [hn, Complex.ofReal_one, one_mul] at this
  exact this

theorem pt_off {u a p : Pt} {α : ℝ} (hu : Unit2 u) (h : pt a = pt p + α * dir (atan2 u.2 u.1)) : a = off p u α := by
  rw [dir_atan2 hu] at h
  have h1 := congrArg Complex.re h
  have h2 := congrArg Complex.im h
  simp [pt] at h1 h2
  exact Prod.ext h1 h2

/-! ## Theorems -/

/-- **C125.**  Every line or curve of the path is replaced by one curve with the same end points. -/
theorem linesmoothed_through (eps : ℝ) (s : Smoother) (closed : Bool) (items : List (NormPath.Item ℝ)) (hc : Connected closed items) (l : List (MetaPost.Item ℝ))
    (h : linesmoothed eps s closed items = .ok l) :
    List.Forall₂ (fun (i : NormPath.Item ℝ) (c : Seg ℝ) => ∃ a b, c = .curve i.begin_ a b i.end_) items (pen l).segs := by
  obtain ⟨es, he, hp⟩ := linesmoothed_path h
  obtain ⟨m1, m2, m3⟩ := elems_made he
  obtain ⟨-, hlen⟩ := elems_length he
  have hd := MetaPost.draws_links_partial (realEnv eps) es l hp m1 m2 (by
    intro i a b hl hi
    rcases m3 i (by omega) with e | e
    · rw [e, tie_eq] at hl; simp at hl
    · rw [e] at hl; simp at hl)
  rw [Draws, elems_linked he] at hd
  rw [List.forall₂_iff_get] at hd ⊢
  simp only [List.length_range] at hd
  refine ⟨hd.1, ?_⟩
  intro i hi hi'
  have := hd.2 i (by simpa using hi) hi'
  simp only [List.get_eq_getElem, List.getElem_range] at this
  obtain ⟨p1, p2⟩ := elems_pos he hc i hi
  rw [MetaPost.Asks, (elems_get he).1 i hi, tie_eq] at this
  simp only at this
  rw [p1, p2] at this
  exact this

/-- **C125.**  The curves meet with the same tangent direction in all corners of the path, also where a closed path is closed. -/
theorem linesmoothed_smooth (eps : ℝ) (heps : 0 < eps) (s : Smoother) (closed : Bool) (items : List (NormPath.Item ℝ)) (hc : Connected closed items)
    (hfar : ∀ i ∈ items, eps ^ 2 ≤ (i.begin_.1 - i.end_.1) ^ 2 + (i.begin_.2 - i.end_.2) ^ 2) (l : List (MetaPost.Item ℝ))
    (h : linesmoothed eps s closed items = .ok l) :
    (∀ k (h1 : k + 1 < (pen l).segs.length), Meet ((pen l).segs[k]'(by omega)) (pen l).segs[k + 1]) ∧
      (closed = true → ∀ hne : (pen l).segs ≠ [], Meet ((pen l).segs.getLast hne) ((pen l).segs.head hne)) := by
  obtain ⟨es, he, hp⟩ := linesmoothed_path h
  obtain ⟨m1, m2, m3⟩ := elems_made he
  obtain ⟨hn, hlen⟩ := elems_length he
  obtain ⟨g1, g2, g3, g4, g5⟩ := elems_get he
  have hthrough := linesmoothed_through eps s closed items hc l h
  have hsl : (pen l).segs.length = items.length := hthrough.length_eq.symm
  have hmade := elems_built he
  have hdrawn : ∀ k (hk : k < items.length), MetaPost.Drawn es l k ((pen l).segs[k]'(by omega)) := by
    intro k hk
    rw [MetaPost.Drawn, elems_linked he]
    rw [List.mem_iff_getElem]
    exact ⟨k, by simp; omega, by simp⟩
  have key : ∀ j i (hj : j < items.length) (hi : i < items.length) x y, (j + 1) % es.length = i → initial es i = smoothknot x y →
      Meet ((pen l).segs[j]'(by omega)) ((pen l).segs[i]'(by omega)) := by
    intro j i hj hi x y hji hk
    obtain ⟨p1, p2⟩ := elems_pos he hc j hj
    obtain ⟨q1, q2⟩ := elems_pos he hc i hi
    have f1 : Far (realEnv eps) (pos es j) (pos es i) := by
      rw [← hji, p1, p2]; exact hfar _ (List.getElem_mem hj)
    have f2 : Far (realEnv eps) (pos es i) (pos es ((i + 1) % es.length)) := by
      rw [q1, q2]; exact hfar _ (List.getElem_mem hi)
    have lj := g1 j hj
    have li := g1 i hi
    rw [tie_eq] at lj li
    have hje : j < es.length := by rw [hlen]; split_ifs <;> omega
    have hpos : (0 : ℝ) ≤ max (3 / 4) |s.tension| := le_max_of_le_left (by norm_num)
    obtain ⟨T, α, β, a, b, c, d, e1, e2, hT, -, -, ha, hb, e3, e4⟩ := MetaPost.smooth_knots eps heps es hmade l hp m1 m2 j i hje hji x y _ _ _ _ hk lj li f1 f2 _ _
      (hdrawn j hj) (hdrawn i hi)
    exact ⟨_, _, _, _, _, _, _, T, α, β, e1, e2, hT, ha hpos, hb hpos, e3, e4⟩
  constructor
  · intro k h1
    have hk1 : k + 1 < items.length := by omega
    exact key k (k + 1) (by omega) hk1 _ _ (Nat.mod_eq_of_lt (by rw [hlen]; split_ifs <;> omega)) (g3 k hk1)
  · intro hcl hne
    subst hcl
    simp only [if_true, add_zero] at hlen
    have e1 : (pen l).segs.getLast hne = (pen l).segs[items.length - 1]'(by omega) := by
      rw [List.getLast_eq_getElem]; congr 1; omega
    rw [e1, List.head_eq_getElem]
    exact key (items.length - 1) 0 (by omega) hn _ _ (by rw [hlen, Nat.sub_add_cancel hn, Nat.mod_self]) (g4 rfl hn)

/-- **C125.**  A closed path stays closed, without a gap. -/
theorem linesmoothed_closed (eps : ℝ) (s : Smoother) (items : List (NormPath.Item ℝ)) (hc : Connected true items) (l : List (MetaPost.Item ℝ))
    (h : linesmoothed eps s true items = .ok l) : ∃ l', l = l' ++ [.closepath] ∧ (pen l').cur = (pen l').start := by
  obtain ⟨es, he, hp⟩ := linesmoothed_path h
  obtain ⟨hn, hlen⟩ := elems_length he
  obtain ⟨g1, g2, g3, g4, g5⟩ := elems_get he
  simp only [if_true, add_zero] at hlen
  obtain ⟨l', e1, -, e2⟩ := MetaPost.closed_curves (realEnv eps) es l hp (by
    intro i hi
    rw [hlen] at hi
    cases i with
    | zero => rw [g4 rfl hn]; simp [smoothknot]
    | succ k => rw [g3 k hi]; simp [smoothknot]) (by
    intro i hi
    rw [hlen] at hi
    exact ⟨_, g1 i hi, by intro keep; rw [tie_eq]; simp⟩)
  exact ⟨l', e1, e2⟩

/-- **C125.**  Without `lcurl` the result leaves the first point in the direction of the original path; without `rcurl` it arrives in this way. -/
theorem linesmoothed_ends (eps : ℝ) (heps : 0 < eps) (s : Smoother) (items : List (NormPath.Item ℝ)) (hc : Connected false items) (hne : items ≠ [])
    (hfar : ∀ i ∈ items, eps ^ 2 ≤ (i.begin_.1 - i.end_.1) ^ 2 + (i.begin_.2 - i.end_.2) ^ 2) (l : List (MetaPost.Item ℝ))
    (h : linesmoothed eps s false items = .ok l) :
    (s.lcurl = none → (items.head hne).tangent 0 ≠ (0, 0) → ∃ hs : (pen l).segs ≠ [], ∃ p a b q, ∃ α : ℝ, (pen l).segs.head hs = .curve p a b q ∧ 0 < α ∧
      a = off p (dirOf (items.head hne) 0) α) ∧
    (s.rcurl = none → (items.getLast hne).tangent 1 ≠ (0, 0) → ∃ hs : (pen l).segs ≠ [], ∃ p a b q, ∃ α : ℝ, (pen l).segs.getLast hs = .curve p a b q ∧ 0 < α ∧
      b = off q (dirOf (items.getLast hne) 1) (-α)) := by
  obtain ⟨es, he, hp⟩ := linesmoothed_path h
  obtain ⟨m1, m2, m3⟩ := elems_made he
  obtain ⟨hn, hlen⟩ := elems_length he
  obtain ⟨g1, g2, g3, g4, g5⟩ := elems_get he
  simp only [Bool.false_eq_true, if_false] at hlen
  have hsl : (pen l).segs.length = items.length := (linesmoothed_through eps s false items hc l h).length_eq.symm
  have hsne : (pen l).segs ≠ [] := by intro e; rw [e] at hsl; simp at hsl; omega
  have hdrawn : ∀ k (hk : k < items.length), MetaPost.Drawn es l k ((pen l).segs[k]'(by omega)) := by
    intro k hk
    rw [MetaPost.Drawn, elems_linked he]
    rw [List.mem_iff_getElem]
    exact ⟨k, by simp; omega, by simp⟩
  have hpos : (0 : ℝ) ≤ max (3 / 4) |s.tension| := le_max_of_le_left (by norm_num)
  have hline : ∀ t < es.length, link es t ≠ some (.line true) := by
    intro t ht
    rcases m3 t ht with e | e
    · rw [e, tie_eq]; simp
    · rw [e]; simp
  constructor
  · intro hl ht
    obtain ⟨p1, p2⟩ := elems_pos he hc 0 hn
    have hk := (g5 rfl hn).1
    rw [firstKnot, hl] at hk
    simp only at hk
    rw [List.head_eq_getElem] at ht
    rw [endAngle, direction_eq ht] at hk
    simp only [Except.map, Except.ok.injEq] at hk
    have hl0 := g1 0 hn
    rw [tie_eq] at hl0
    obtain ⟨α, a, d, e1, -, e2, e3⟩ := MetaPost.leaves_angle eps heps es (elems_built he) l hp m1 m2 0 (by omega) _ _ _ (by rw [← hk]; exact .begin_ _ _ _ _) hl0
      (fun t ht _ => hline t ht) (by rw [p1, p2]; exact hfar _ (List.getElem_mem hn)) _ (hdrawn 0 hn)
    refine ⟨hsne, _, _, _, _, α, (by rw [List.head_eq_getElem]; exact e1), e2 hpos, ?_⟩
    rw [List.head_eq_getElem]
    exact pt_off (dirOf_unit ht) e3
  · intro hl ht
    have hn1 : items.length - 1 < items.length := by omega
    obtain ⟨p1, p2⟩ := elems_pos he hc (items.length - 1) hn1
    have hk := (g5 rfl hn).2
    have em : (items.length - 1 + 1) % es.length = items.length := by
      rw [Nat.sub_add_cancel hn, Nat.mod_eq_of_lt (by omega)]
    rw [lastKnot, hl] at hk
    simp only at hk
    rw [List.getLast_eq_getElem] at ht
    rw [endAngle, direction_eq ht] at hk
    simp only [Except.map, Except.ok.injEq] at hk
    have hl0 := g1 (items.length - 1) hn1
    rw [tie_eq] at hl0
    rw [em] at p2
    obtain ⟨α, c, b, e1, -, e2, e3⟩ := MetaPost.arrives_angle eps heps es l hp m1 m2 (items.length - 1) items.length (by omega) em _ _ _
      (by rw [← hk]; exact .end_ _ _ _ _) hl0 (hline _ (by omega)) (by rw [p1, p2]; exact hfar _ (List.getElem_mem hn1)) _ (hdrawn _ hn1)
    refine ⟨hsne, _, _, _, _, α, (by rw [List.getLast_eq_getElem, ← e1]; congr 1; omega), e2 hpos, ?_⟩
    rw [List.getLast_eq_getElem]
    refine pt_off (dirOf_unit ht) ?_
    rw [e3]; push_cast; ring

/-- **C125.**  `atleast` has no effect: the tension given to the MetaPost path is its absolute value. -/
theorem linesmoothed_atleast (eps tension : ℝ) (lcurl rcurl : Option ℝ) (closed : Bool) (items : List (NormPath.Item ℝ)) :
    linesmoothed eps (.make tension true lcurl rcurl) closed items = linesmoothed eps (.make tension false lcurl rcurl) closed items := by
  have ht : tie (.make tension true lcurl rcurl) = tie (.make tension false lcurl rcurl) := by
    rw [tie_eq, tie_eq]
    simp [Smoother.make]
  have hf : ∀ i, firstKnot (.make tension true lcurl rcurl) i = firstKnot (.make tension false lcurl rcurl) i := fun _ => rfl
  have hl : ∀ i, lastKnot (.make tension true lcurl rcurl) i = lastKnot (.make tension false lcurl rcurl) i := fun _ => rfl
  have hm : ∀ is, middle (.make tension true lcurl rcurl) is = middle (.make tension false lcurl rcurl) is := by
    intro is; rw [middle, middle, ht]
  rw [linesmoothed, linesmoothed]
  congr 1
  cases items with
  | nil => rfl
  | cons i rest => rw [elems, elems, ht, hm, hf]; simp only [hl]

/-! ## A concrete case -/

/-- Two lines in a row. -/
def twoLines : List (NormPath.Item ℝ) := [.line ⟨0, 0, 1, 0⟩, .line ⟨1, 0, 2, 0⟩]

def twoKnots : MetaPost.Table ℝ := fun i =>
  match i with
  | 0 => ⟨0, 0, .endpoint, none, none, .given, some 0, some 1⟩
  | 1 => ⟨1, 0, .opn, none, some 1, .opn, none, some 1⟩
  | 2 => ⟨2, 0, .given, some 0, some 1, .endpoint, none, none⟩
  | _ => smoothknot 0 0

def twoElems : Elems ℝ :=
  [(beginknot 0 0 1 (some 0), some (.tension 1 1)), (smoothknot 1 0, some (.tension 1 1)), (endknot 2 0 1 (some 0), none)]

theorem two_elems : elems (.make 1 false none none) false twoLines = .ok twoElems := by
  have e0 : ∀ (x0 x1 t : ℝ), x1 - x0 = 1 → endAngle (.line ⟨x0, 0, x1, 0⟩) t = .ok 0 := by
    intro x0 x1 t hx
    have ht : (NormPath.Item.line (⟨x0, 0, x1, 0⟩ : Line ℝ)).tangent t = (1, 0) := by
      simp [NormPath.Item.tangent, hx]
    rw [endAngle, direction_eq (by rw [ht]; simp)]
    simp only [Except.map, dirOf, ht]
    have h1 : NormPath.hypot (1 : ℝ) 0 = 1 := by norm_num [NormPath.hypot]
    rw [h1, zero_div, div_one, atan2]
    exact congrArg Except.ok MetaPost.arg_one
  have ht : tie (.make 1 false none none) = .tension 1 1 := by
    rw [tie_eq]; norm_num [Smoother.make]
  rw [twoLines, elems]
  simp only [Bool.false_eq_true, if_false, firstKnot, lastKnot, Smoother.make, List.getLast_cons_cons, List.getLast_singleton]
  rw [e0 0 1 0 (by norm_num), e0 1 2 1 (by norm_num)]
  have hs : (⟨|1|, none, none⟩ : Smoother) = .make 1 false none none := by simp [Smoother.make]
  rw [hs]
  simp only [middle, ht]
  rfl

theorem two_linked : MetaPost.linked (realEnv 1) twoElems 3 = some twoKnots := by
  have h : MetaPost.linked (realEnv 1) twoElems 3 = some (MetaPost.mod (MetaPost.mod (MetaPost.mod (MetaPost.mod (initial twoElems)
      0 fun k => k.setR k.rt k.rx (some 1)) 1 fun k => k.setL k.lt k.lx (some 1))
      1 fun k => k.setR k.rt k.rx (some 1)) 2 fun k => k.setL k.lt k.lx (some 1)) := rfl
  rw [h]
  congr 1
  funext n
  rcases n with _ | _ | _ | n <;> rfl

theorem two_joined : MetaPost.joined (realEnv 1) 3 twoKnots 3 = twoKnots := by
  have e0 : MetaPost.joinStep (realEnv 1) twoKnots 0 1 = twoKnots :=
    MetaPost.joinStep_apart (Or.inr (by change (1 : ℝ) ^ 2 ≤ (0 - 1) ^ 2 + (0 - 0) ^ 2; norm_num))
  have e1 : MetaPost.joinStep (realEnv 1) twoKnots 1 2 = twoKnots :=
    MetaPost.joinStep_apart (Or.inr (by change (1 : ℝ) ^ 2 ≤ (1 - 2) ^ 2 + (0 - 0) ^ 2; norm_num))
  have e2 : MetaPost.joinStep (realEnv 1) twoKnots 2 0 = twoKnots := MetaPost.joinStep_apart (Or.inl rfl)
  change MetaPost.joinStep _ (MetaPost.joinStep _ (MetaPost.joinStep _ twoKnots 0 1) 1 2) 2 0 = _
  rw [e0, e1, e2]

/-- The run through these knots. -/
def twoRun : MetaPost.Run :=
  ⟨2, fun k => (twoKnots ((0 + k) % 3)).x, fun k => (twoKnots ((0 + k) % 3)).y,
    fun k => ((twoKnots ((0 + k) % 3)).ry).getD 1, fun k => ((twoKnots ((0 + k) % 3)).ly).getD 1, .given 0, .given 0⟩

theorem two_proper : MetaPost.Proper twoRun := by
  have three : ∀ r, r < 3 → r = 0 ∨ r = 1 ∨ r = 2 := by omega
  refine ⟨by norm_num [twoRun], fun k => ?_, fun k => ?_, fun k => ?_, fun g hg => ?_, fun g hg => ?_, ?_, ?_⟩
  · rintro ⟨h, -⟩
    change (twoKnots ((0 + (k + 1)) % 3)).x = (twoKnots ((0 + k) % 3)).x at h
    rcases three _ (Nat.mod_lt (0 + k) (by norm_num)) with e | e | e
    · rw [show (0 + (k + 1)) % 3 = 1 by omega, e] at h; norm_num [twoKnots] at h
    · rw [show (0 + (k + 1)) % 3 = 2 by omega, e] at h; norm_num [twoKnots] at h
    · rw [show (0 + (k + 1)) % 3 = 0 by omega, e] at h; norm_num [twoKnots] at h
  · change 3 / 4 ≤ |((twoKnots ((0 + k) % 3)).ry).getD 1|
    rcases three _ (Nat.mod_lt (0 + k) (by norm_num)) with e | e | e <;> rw [e] <;> norm_num [twoKnots]
  · change 3 / 4 ≤ |((twoKnots ((0 + k) % 3)).ly).getD 1|
    rcases three _ (Nat.mod_lt (0 + k) (by norm_num)) with e | e | e <;> rw [e] <;> norm_num [twoKnots]
  · simp [twoRun] at hg
  · simp [twoRun] at hg
  · simp [twoRun]
  · intro h; simp [twoRun] at h

theorem two_first : (twoRun.segment 0).isSome = true := by
  refine MetaPost.segment_defined _ two_proper rfl 0 fun h => ?_
  have h1 : twoRun.chain.start = .given 0 := by
    change twoRun.start' = _
    unfold MetaPost.Run.start'
    rw [show twoRun.start = .given 0 from rfl]
    simp only
    rw [show MetaPost.nArg (twoRun.dx 0) (twoRun.dy 0) = 0 by change MetaPost.nArg (1 - 0) (0 - 0) = 0; norm_num; exact MetaPost.arg_one]
    simp [MetaPost.reduceAngle, Real.pi_pos.le]
  have h2 : twoRun.chain.stop ≠ .cycle := by
    change twoRun.stop' ≠ _
    unfold MetaPost.Run.stop'
    rw [show twoRun.stop = .given 0 from rfl]
    simp
  rw [MetaPost.theta_first _ (by change 1 ≤ 2; norm_num) h2 h1, Real.cos_zero] at h
  norm_num at h

theorem two_last : (twoRun.segment 1).isSome = true := by
  refine MetaPost.segment_defined _ two_proper rfl 1 fun h => ?_
  have h1 : twoRun.chain.stop = .given 0 := by
    change twoRun.stop' = _
    unfold MetaPost.Run.stop'
    rw [show twoRun.stop = .given 0 from rfl]
    simp only
    rw [show twoRun.n = 2 from rfl,
      show MetaPost.nArg (twoRun.dx (2 - 1)) (twoRun.dy (2 - 1)) = 0 by change MetaPost.nArg (2 - 1) (0 - 0) = 0; norm_num; exact MetaPost.arg_one]
    simp [MetaPost.reduceAngle, Real.pi_pos.le]
  have h2 := MetaPost.theta_given _ h1
  rw [show twoRun.chain.n = 2 from rfl] at h2
  have h3 : twoRun.psi 2 = 0 := by
    unfold MetaPost.Run.psi
    rw [show twoRun.stop = .given 0 from rfl]
    simp only
    exact if_pos rfl
  rw [show 1 + 1 = 2 by rfl, h2, h3] at h
  norm_num at h

/-- Two lines in a row can be smoothed. -/
theorem two_smoothed : ∃ l, linesmoothed 1 (.make 1 false none none) false twoLines = .ok l := by
  obtain ⟨c0, h0⟩ := Option.isSome_iff_exists.mp two_first
  obtain ⟨c1, h1⟩ := Option.isSome_iff_exists.mp two_last
  let t1 : MetaPost.Table ℝ := MetaPost.mod (MetaPost.mod (MetaPost.mod (MetaPost.mod twoKnots 0 (·.setR .explicit (some c0.1.1) (some c0.1.2)))
    1 (·.setL .explicit (some c0.2.1) (some c0.2.2))) 1 (·.setR .explicit (some c1.1.1) (some c1.1.2)))
    2 (·.setL .explicit (some c1.2.1) (some c1.2.2))
  have w1 : MetaPost.walkStep (realEnv 1) 3 twoKnots 0 = some (2, t1) := by
    have : MetaPost.walkStep (realEnv 1) 3 twoKnots 0 =
        (MetaPost.store twoRun.segment 3 twoKnots 0 2).map fun ks => (2, ks) := rfl
    rw [this]
    simp only [MetaPost.store, Option.bind_some]
    rw [h0]
    simp only [Option.map_some, Option.bind_some]
    rw [show twoRun.segment 1 = some c1 from h1]
    rfl
  let t2 : MetaPost.Table ℝ := MetaPost.mod (MetaPost.mod t1 2 fun k => k.setR k.rt (some k.x) (some k.y)) 0 fun k => k.setL k.lt (some k.x) (some k.y)
  have w2 : MetaPost.walkStep (realEnv 1) 3 t1 2 = some (1, t2) := rfl
  have hm : MetaPost.makeChoices (realEnv 1) 3 twoKnots = some t2 := by
    unfold MetaPost.makeChoices
    simp only
    rw [two_joined]
    change MetaPost.walk (realEnv 1) 3 0 3 0 twoKnots = some t2
    unfold MetaPost.walk
    rw [if_neg (by norm_num), show (0 + 0) % 3 = 0 from rfl, w1, Option.bind_some]
    simp only
    unfold MetaPost.walk
    rw [if_neg (by norm_num), show (0 + (0 + 2)) % 3 = 2 from rfl, w2, Option.bind_some]
    simp only
    unfold MetaPost.walk
    rw [if_pos (by norm_num)]
  have hp : ∃ l, MetaPost.path (realEnv 1) twoElems = some l := by
    unfold MetaPost.path
    rw [if_neg (by simp [twoElems]), show twoElems.length = 3 from rfl, two_linked, Option.bind_some, hm, Option.bind_some]
    exact ⟨_, rfl⟩
  obtain ⟨l, hl⟩ := hp
  refine ⟨l, ?_⟩
  rw [linesmoothed, two_elems]
  simp only [Except.bind, hl]

/-- It meets the conditions of the theorems above. -/
example : Connected false twoLines ∧ (∀ i ∈ twoLines, (1 : ℝ) ^ 2 ≤ (i.begin_.1 - i.end_.1) ^ 2 + (i.begin_.2 - i.end_.2) ^ 2) ∧
    (∀ i ∈ twoLines, ∀ t, i.tangent t ≠ (0, 0)) := by
  refine ⟨⟨fun k h => ?_, nofun⟩, fun i hi => ?_, fun i hi t => ?_⟩
  · have : k = 0 := by simp [twoLines] at h; omega
    subst this
    rfl
  · simp only [twoLines, List.mem_cons, List.not_mem_nil, or_false] at hi
    rcases hi with rfl | rfl <;> norm_num [NormPath.Item.begin_, NormPath.Item.end_, Line.begin_, Line.end_]
  · simp only [twoLines, List.mem_cons, List.not_mem_nil, or_false] at hi
    rcases hi with rfl | rfl <;> norm_num [NormPath.Item.tangent]

end

end PyX.Deform
