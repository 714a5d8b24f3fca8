import Verif.Style.Columns
import Mathlib.Data.List.Nodup
import Mathlib.Data.List.Induction

/-!
# C111: columns of the data go to the axes they are named after
-/

set_option linter.unusedSectionVars false

namespace PyX.Style.Columns

variable {A : Type} [DecidableEq A] {V K : Type}

/-! ## Specification -/

/-- The axis of a dimension that has a column. -/
def posAxis (use : A → Name) (cols : List Name) (d : List A) : Option A := (d.filter fun a => decide (use a ∈ cols)).head?

/-- An axis has columns for a range. -/
def hasLower (cols : List Name) (u : Name) : Bool := nmin u ∈ cols || ndmin u ∈ cols || nd u ∈ cols
def hasUpper (cols : List Name) (u : Name) : Bool := nmax u ∈ cols || ndmax u ∈ cols || nd u ∈ cols
def hasRange (cols : List Name) (u : Name) : Bool := hasLower cols u || hasUpper cols u

/-- The columns for a range of an axis are consistent: at most one definition of each end, and deltas only with values. -/
def consistent (cols : List Name) (u : Name) : Prop :=
  ([nmin u, ndmin u, nd u].filter fun c => decide (c ∈ cols)).length ≤ 1 ∧ ([nmax u, ndmax u, nd u].filter fun c => decide (c ∈ cols)).length ≤ 1 ∧
  ((ndmin u ∈ cols ∨ ndmax u ∈ cols ∨ nd u ∈ cols) → u ∈ cols)

instance (cols : List Name) (u : Name) : Decidable (consistent cols u) := by unfold consistent; infer_instance

/-- The axis of a dimension that has columns for a range. -/
def rangeAxis (use : A → Name) (cols : List Name) (d : List A) : Option A := (d.filter fun a => hasRange cols (use a)).head?

/-- The lower end of the range of an axis at a point. -/
def lowerSpec (conv : V → Option K) (sub : V → V → Option V) (point : Name → V) (cols : List Name) (u : Name) : Option K :=
  if nmin u ∈ cols then conv (point (nmin u))
  else if ndmin u ∈ cols then (sub (point u) (point (ndmin u))).bind conv
  else if nd u ∈ cols then (sub (point u) (point (nd u))).bind conv
  else none

/-- The upper end. -/
def upperSpec (conv : V → Option K) (add : V → V → Option V) (point : Name → V) (cols : List Name) (u : Name) : Option K :=
  if nmax u ∈ cols then conv (point (nmax u))
  else if ndmax u ∈ cols then (add (point u) (point (ndmax u))).bind conv
  else if nd u ∈ cols then (add (point u) (point (nd u))).bind conv
  else none

/-! ## Indices -/

/-- The positions of missing entries. -/
def nonePos {α : Type} (l : List (Option α)) : List Nat := (l.zipIdx).filterMap fun x => if x.1.isNone then some x.2 else none

theorem nonePos_append {α : Type} (l : List (Option α)) (o : Option α) : nonePos (l ++ [o]) = nonePos l ++ (if o.isNone then [l.length] else []) := by
  simp only [nonePos, List.zipIdx_append, List.filterMap_append]
  cases o <;> simp

theorem shift_append (ms : List Nat) (m i : Nat) : shift (ms ++ [m]) i = if m ≤ shift ms i then shift ms i + 1 else shift ms i := by
  unfold shift; rw [List.foldl_append]; rfl

theorem shift_end {α : Type} (l : List (Option α)) (d : Nat) : shift (nonePos l) ((l.filterMap id).length + d) = l.length + d := by
  induction l using List.reverseRecOn generalizing d with
  | nil => simp [nonePos, shift]
  | append_singleton l o ih =>
    rw [nonePos_append]
    cases o with
    | none =>
      have e : (l ++ [(none : Option α)]).filterMap id = l.filterMap id := by simp [List.filterMap_append]
      rw [if_pos Option.isNone_none, shift_append, e, ih, if_pos (by omega)]; simp; omega
    | some x =>
      simp only [Option.isNone_some, Bool.false_eq_true, if_false, List.append_nil, List.filterMap_append, List.filterMap_cons, id, List.filterMap_nil, List.length_append, List.length_singleton]
      have := ih (d + 1)
      rw [show (List.filterMap (fun x => x) l).length + 1 + d = (List.filterMap id l).length + (d + 1) from by simp only [id]; omega, this]; omega

/-- The indices are the positions of the entries. -/
theorem shift_positions {α : Type} (l : List (Option α)) :
    ((l.filterMap id).zipIdx).map (fun x => (x.1, shift (nonePos l) x.2)) = (l.zipIdx).filterMap fun x => x.1.map fun y => (y, x.2) := by
  induction l using List.reverseRecOn with
  | nil => rfl
  | append_singleton l o ih =>
    have bound : ∀ x ∈ (l.filterMap id).zipIdx, shift (nonePos l) x.2 < l.length := by
      intro x hx
      have h1 : (x.1, shift (nonePos l) x.2) ∈ (l.zipIdx).filterMap fun x => x.1.map fun y => (y, x.2) := by
        rw [← ih]; exact List.mem_map.mpr ⟨x, hx, rfl⟩
      obtain ⟨y, hy, e⟩ := List.mem_filterMap.mp h1
      obtain ⟨z, -, e2⟩ := Option.map_eq_some_iff.mp e
      have := (List.mem_zipIdx hy).2.1
      simp only [Prod.mk.injEq] at e2
      omega
    rw [nonePos_append, List.zipIdx_append, List.filterMap_append (l := l.zipIdx), ← ih]
    cases o with
    | none =>
      simp only [Option.isNone_none, if_true, List.filterMap_append, List.filterMap_cons, id, List.filterMap_nil, List.append_nil, List.zipIdx_cons, List.zipIdx_nil, Option.map_none]
      refine List.map_congr_left fun x hx => ?_
      have := bound x (by simpa only [id] using hx)
      rw [shift_append, if_neg (by omega)]
    | some x =>
      have e := shift_end l 0
      simp only [Nat.add_zero] at e
      simp only [Option.isNone_some, Bool.false_eq_true, if_false, List.append_nil, List.filterMap_append, List.filterMap_cons, id, List.filterMap_nil, List.zipIdx_append, List.map_append,
        List.zipIdx_cons, List.zipIdx_nil, Option.map_some, List.map_cons, List.map_nil]
      simp only [id] at e
      simp [e]

/-- Changing the entries of a list at the positions of others. -/
def applyAll {X Y : Type} (g : X → Y → Y) : List (X × Nat) → List Y → List Y
  | [], v => v
  | (x, i) :: l, v => applyAll g l (v.modify i (g x))

theorem applyAll_getElem {X Y : Type} (g : X → Y → Y) (E : List (Option X)) (n : Nat) (v : List Y) (j : Nat) :
    (applyAll g ((E.zipIdx n).filterMap fun x => x.1.map fun y => (y, x.2)) v)[j]? =
      if j < n then v[j]? else match E[j - n]? with
        | some (some x) => v[j]?.map (g x)
        | _ => v[j]? := by
  induction E generalizing n v with
  | nil => simp [applyAll]
  | cons o E ih =>
    rw [List.zipIdx_cons]
    cases o with
    | none =>
      simp only [List.filterMap_cons, Option.map_none]
      rw [ih]
      by_cases h1 : j < n
      · rw [if_pos (by omega), if_pos h1]
      · rw [if_neg h1]
        by_cases h2 : j = n
        · subst h2
          rw [if_pos (by omega)]; simp
        · rw [if_neg (by omega), show j - n = (j - (n + 1)) + 1 from by omega]
          simp
    | some x =>
      simp only [List.filterMap_cons, Option.map_some, applyAll]
      rw [ih, List.getElem?_modify]
      by_cases h1 : j < n
      · rw [if_pos (by omega), if_pos h1]; have hnj : ¬ n = j := (by omega); simp [hnj]
      · rw [if_neg h1]
        by_cases h2 : j = n
        · subst h2
          rw [if_pos (by omega)]; simp
        · rw [if_neg (by omega), show j - n = (j - (n + 1)) + 1 from by omega]
          have hnj : ¬ n = j := by omega
          simp only [hnj, if_false, List.getElem?_cons_succ, Functor.map, Option.map_id']

/-! ## Positions -/

theorem posInner (use : A → Name) (cols : List Name) (hc : cols.Nodup) (a : A) (st : PosCols A) :
    cols.foldl (fun st c => if use a = c then { st with names := st.names ++ [some c], axis := fun x => if x = c then some a else st.axis x } else st) st =
      if use a ∈ cols then { st with names := st.names ++ [some (use a)], axis := fun x => if x = use a then some a else st.axis x } else st := by
  induction cols generalizing st with
  | nil => simp
  | cons c cols ih =>
    simp only [List.nodup_cons] at hc
    simp only [List.foldl_cons]
    rw [ih hc.2]
    by_cases h : use a = c
    · subst h
      simp [hc.1]
    · have : ¬ c = use a := fun e => h e.symm
      simp [h]

/-- The axis used last for a column. -/
def lastAxis (use : A → Name) (cols : List Name) (as : List A) (init : Name → Option A) : Name → Option A :=
  as.foldl (fun f a => if use a ∈ cols then (fun x => if x = use a then some a else f x) else f) init

theorem posAxes_spec (use : A → Name) (cols : List Name) (hc : cols.Nodup) (d : List A) (st : PosCols A) :
    posAxes use cols d st = ⟨st.names ++ (d.filter fun a => decide (use a ∈ cols)).map (fun a => some (use a)), st.missing, lastAxis use cols d st.axis⟩ := by
  induction d generalizing st with
  | nil => simp [posAxes, lastAxis]
  | cons a d ih =>
    rw [posAxes, posInner use cols hc, ih]
    by_cases h : use a ∈ cols
    · simp [h, lastAxis]
    · simp [h, lastAxis]

theorem head_eq {α : Type} (l : List α) (h : l.length ≤ 1) : l = (match l.head? with | some a => [a] | none => []) := by
  match l, h with
  | [], _ => rfl
  | [a], _ => rfl
  | a :: b :: l, h => simp at h

theorem posDims_spec (use : A → Name) (cols : List Name) (hc : cols.Nodup) (ds : List (List A)) (st : PosCols A) (hm : st.missing = nonePos st.names) :
    posDims use cols st.names.length ds st =
      if ∀ d ∈ ds, (d.filter fun a => decide (use a ∈ cols)).length ≤ 1 then
        some ⟨st.names ++ ds.map (fun d => (posAxis use cols d).map use), nonePos (st.names ++ ds.map (fun d => (posAxis use cols d).map use)), lastAxis use cols ds.flatten st.axis⟩
      else none := by
  induction ds generalizing st with
  | nil => simp [posDims, lastAxis, ← hm]
  | cons d ds ih =>
    simp only [posDims]
    rw [posAxes_spec use cols hc]
    simp only [List.length_append, List.length_map]
    by_cases h1 : (d.filter fun a => decide (use a ∈ cols)).length ≤ 1
    · have hcond : (∀ e ∈ d :: ds, (e.filter fun a => decide (use a ∈ cols)).length ≤ 1) ↔ ∀ e ∈ ds, (e.filter fun a => decide (use a ∈ cols)).length ≤ 1 := by
        simp [h1]
      rw [if_neg (by omega)]
      have hl : lastAxis use cols (d :: ds).flatten st.axis = lastAxis use cols ds.flatten (lastAxis use cols d st.axis) := by
        simp [lastAxis, List.foldl_append]
      by_cases h0 : (d.filter fun a => decide (use a ∈ cols)).length = 0
      · rw [if_pos (by omega)]
        have e0 := List.length_eq_zero_iff.mp h0
        have hp : posAxis use cols d = none := by simp [posAxis, e0]
        have := ih ⟨st.names ++ [none], st.missing ++ [st.names.length], lastAxis use cols d st.axis⟩ (by simp only [nonePos_append, hm]; simp)
        simp only [List.length_append, List.length_singleton] at this
        simp only [e0, List.map_nil, List.append_nil]
        rw [this]
        simp only [hcond, hp, List.map_cons, Option.map_none, List.append_assoc, List.singleton_append, hl]
      · rw [if_neg (by omega)]
        obtain ⟨a, e1⟩ := List.length_eq_one_iff.mp (by omega : (d.filter fun a => decide (use a ∈ cols)).length = 1)
        have hp : posAxis use cols d = some a := by simp [posAxis, e1]
        have := ih ⟨st.names ++ [some (use a)], st.missing, lastAxis use cols d st.axis⟩ (by simp only [nonePos_append, hm]; simp)
        simp only [List.length_append, List.length_singleton] at this
        simp only [e1, List.map_cons, List.map_nil]
        rw [this]
        simp only [hcond, hp, List.map_cons, Option.map_some, List.append_assoc, List.singleton_append, hl]
    · rw [if_pos (by omega), if_neg (fun h => h1 (h d (by simp)))]

/-- C111: `pos` fails exactly if a dimension has several axes with columns; otherwise the missing dimensions are those without. -/
theorem pos_columns (use : A → Name) (cols : List Name) (hc : cols.Nodup) (axesnames : List (List A)) :
    (posColumns use cols axesnames = none ↔ ∃ d ∈ axesnames, 2 ≤ (d.filter fun a => decide (use a ∈ cols)).length) ∧
    ∀ p, posColumns use cols axesnames = some p → p.names = axesnames.map (fun d => (posAxis use cols d).map use) ∧ p.missing = nonePos p.names := by
  have e := posDims_spec use cols hc axesnames (⟨[], [], fun _ => none⟩ : PosCols A) rfl
  simp only [List.length_nil, List.nil_append] at e
  simp only [posColumns, e]
  by_cases h : ∀ d ∈ axesnames, (d.filter fun a => decide (use a ∈ cols)).length ≤ 1
  · rw [if_pos h]
    refine ⟨⟨fun h => (by cases h), fun ⟨d, hd, h2⟩ => (by have := h d hd; omega)⟩, fun p hp => ?_⟩
    obtain rfl := Option.some.inj hp
    exact ⟨rfl, rfl⟩
  · rw [if_neg h]
    refine ⟨⟨fun _ => ?_, fun _ => rfl⟩, fun p hp => by cases hp⟩
    by_contra hn
    apply h
    intro d hd
    by_contra h2
    exact hn ⟨d, hd, by omega⟩

theorem posDraw_applyAll (conv : A → V → Option K) (point : Name → V) (axis : Name → Option A) (l : List (Name × Nat)) (v : List (Option K)) :
    posDraw conv point (l.map fun x => (x.1, x.2, axis x.1)) v = applyAll (fun c _ => (axis c).bind fun a => conv a (point c)) l v := by
  induction l generalizing v with
  | nil => rfl
  | cons x l ih =>
    simp only [List.map_cons, posDraw, applyAll]
    rw [ih]
    congr 1
    apply List.ext_getElem?
    intro i
    rw [List.getElem?_set, List.getElem?_modify]
    by_cases h : x.2 = i
    · subst h
      by_cases h2 : x.2 < v.length
      · simp [h2]
      · simp [h2, List.getElem?_eq_none (by omega : v.length ≤ x.2)]
    · simp [h]

theorem lastAxis_inj (use : A → Name) (cols : List Name) (as : List A) (init : Name → Option A) (a : A) (ha : a ∈ as) (hu : use a ∈ cols) (hi : ∀ b ∈ as, use b = use a → b = a) :
    lastAxis use cols as init (use a) = some a := by
  have gen : ∀ (as : List A) (init : Name → Option A), (∀ b ∈ as, use b = use a → b = a) → (a ∈ as ∨ init (use a) = some a) → lastAxis use cols as init (use a) = some a := by
    intro as
    induction as with
    | nil => intro init _ h; exact h.resolve_left (by simp)
    | cons b as ih =>
      intro init hi h
      simp only [lastAxis, List.foldl_cons]
      refine ih _ (fun c hc => hi c (List.mem_cons_of_mem _ hc)) ?_
      by_cases hm : a ∈ as
      · exact Or.inl hm
      · right
        rcases h with h | h
        · rcases List.mem_cons.mp h with rfl | h
          · simp [hu]
          · exact absurd h hm
        · by_cases hb : use b ∈ cols
          · rw [if_pos hb]
            by_cases e : use a = use b
            · rw [if_pos e, hi b (List.mem_cons_self ..) e.symm]
            · simp only [if_neg e, h]
          · rw [if_neg hb]; exact h
  exact gen as init hi (Or.inl ha)

/-- C111: the position in a dimension is the value in the column of the axis of this dimension converted by that axis (if no column is used for two axes); in missing dimensions it is left alone. -/
theorem pos_draw_partial (use : A → Name) (cols : List Name) (hc : cols.Nodup) (axesnames : List (List A)) (p : PosCols A) (hp : posColumns use cols axesnames = some p)
    (hu : ∀ a ∈ axesnames.flatten, ∀ b ∈ axesnames.flatten, use a ∈ cols → use a = use b → a = b)
    (conv : A → V → Option K) (point : Name → V) (vpos : List (Option K)) (k : Nat) (d : List A) (hd : axesnames[k]? = some d) (hk : k < vpos.length) :
    (posDraw conv point (pointpostmplist p) vpos)[k]? = match posAxis use cols d with
      | some a => some (conv a (point (use a)))
      | none => vpos[k]? := by
  have e := posDims_spec use cols hc axesnames (⟨[], [], fun _ => none⟩ : PosCols A) rfl
  simp only [List.length_nil, List.nil_append] at e
  simp only [posColumns, e] at hp
  split_ifs at hp with hcond
  obtain rfl := Option.some.inj hp
  have e1 : pointpostmplist (⟨axesnames.map (fun d => (posAxis use cols d).map use), nonePos (axesnames.map (fun d => (posAxis use cols d).map use)), lastAxis use cols axesnames.flatten fun _ => none⟩ : PosCols A) =
      ((axesnames.map (fun d => (posAxis use cols d).map use)).zipIdx.filterMap fun x => x.1.map fun y => (y, x.2)).map fun x => (x.1, x.2, lastAxis use cols axesnames.flatten (fun _ => none) x.1) := by
    rw [← shift_positions]
    simp [pointpostmplist]
  rw [e1, posDraw_applyAll, applyAll_getElem]
  simp only [Nat.not_lt_zero, if_false, Nat.sub_zero, List.getElem?_map, hd, Option.map_some]
  cases ha : posAxis use cols d with
  | none => simp
  | some a =>
    simp only [Option.map_some]
    have hmem : a ∈ d.filter fun a => decide (use a ∈ cols) := List.mem_of_mem_head? (by rw [posAxis] at ha; rw [ha]; rfl)
    simp only [List.mem_filter, decide_eq_true_eq] at hmem
    have hflat : a ∈ axesnames.flatten := List.mem_flatten.mpr ⟨d, List.mem_of_getElem? hd, hmem.1⟩
    rw [lastAxis_inj use cols _ _ a hflat hmem.2 (fun b hb hbe => (hu a hflat b hb hmem.2 hbe.symm).symm)]
    simp [List.getElem?_eq_getElem hk]

/-- A column used for both x and y is converted by the axis y in both dimensions: `pos(usenames={"x": "a", "y": "a"})`. -/
theorem pos_same_column : ∃ p, posColumns (fun _ : Bool => ['a']) [['a']] [[false], [true]] = some p ∧
    posDraw (fun a v => some (if a then v + 100 else v)) (fun _ => 7) (pointpostmplist p) [none, none] = [some 107, some 107] :=
  ⟨_, rfl, by decide +kernel⟩

/-! ## Ranges -/

/-- The names of the columns of a range and the value. -/
def rangeNames (u : Name) : List Name := [u, nmin u, nmax u, ndmin u, ndmax u, nd u]

theorem rangeNames_nodup (u : Name) : (rangeNames u).Nodup := by
  have e (a b : Name) (h : a.length ≠ b.length) : a ≠ b := fun h2 => h (by rw [h2])
  have h1 : nmin u ≠ nmax u := by simp [nmin, nmax]
  have h2 : ndmin u ≠ ndmax u := by simp [ndmin, ndmax]
  simp only [rangeNames, List.nodup_cons, List.mem_cons, List.not_mem_nil, or_false, not_or, List.nodup_nil, and_true, not_false_eq_true]
  refine ⟨⟨?_, ?_, ?_, ?_, ?_⟩, ⟨h1, ?_, ?_, ?_⟩, ⟨?_, ?_, ?_⟩, ⟨h2, ?_⟩, ?_⟩ <;> exact e _ _ (by simp [nmin, nmax, ndmin, ndmax, nd] <;> omega)

def fullMask (cols : List Name) (u : Name) : Mask :=
  ⟨decide (u ∈ cols), decide (nmin u ∈ cols), decide (nmax u ∈ cols), decide (ndmin u ∈ cols), decide (ndmax u ∈ cols), decide (nd u ∈ cols)⟩

theorem maskOf_spec (u : Name) (cols : List Name) (m : Mask) (l : List Name) :
    maskOf u cols (m, l) = (⟨m.value || decide (u ∈ cols), m.min || decide (nmin u ∈ cols), m.max || decide (nmax u ∈ cols), m.dmin || decide (ndmin u ∈ cols), m.dmax || decide (ndmax u ∈ cols), m.d || decide (nd u ∈ cols)⟩,
      l ++ cols.filter fun c => decide (c ∈ rangeNames u)) := by
  induction cols generalizing m l with
  | nil => simp [maskOf]
  | cons c cols ih =>
    have nd' := rangeNames_nodup u
    simp only [rangeNames, List.nodup_cons, List.mem_cons, List.not_mem_nil, or_false, not_or, List.nodup_nil, and_true, not_false_eq_true] at nd'
    obtain ⟨⟨a1, a2, a3, a4, a5⟩, ⟨b1, b2, b3, b4⟩, ⟨c1, c2, c3⟩, ⟨d1, d2⟩, e1⟩ := nd'
    rw [maskOf]
    by_cases h1 : u = c
    · subst h1
      rw [if_pos rfl, ih]
      simp [rangeNames, Ne.symm a1, Ne.symm a2, Ne.symm a3, Ne.symm a4, Ne.symm a5]
    rw [if_neg h1]
    by_cases h2 : nmin u = c
    · subst h2
      rw [if_pos rfl, ih]
      simp [rangeNames, a1, Ne.symm b1, Ne.symm b2, Ne.symm b3, Ne.symm b4]
    rw [if_neg h2]
    by_cases h3 : nmax u = c
    · subst h3
      rw [if_pos rfl, ih]
      simp [rangeNames, a2, b1, Ne.symm c1, Ne.symm c2, Ne.symm c3]
    rw [if_neg h3]
    by_cases h4 : ndmin u = c
    · subst h4
      rw [if_pos rfl, ih]
      simp [rangeNames, a3, b2, c1, Ne.symm d1, Ne.symm d2]
    rw [if_neg h4]
    by_cases h5 : ndmax u = c
    · subst h5
      rw [if_pos rfl, ih]
      simp [rangeNames, a4, b3, c2, d1, Ne.symm e1]
    rw [if_neg h5]
    by_cases h6 : nd u = c
    · subst h6
      rw [if_pos rfl, ih]
      simp [rangeNames, a5, b4, c3, d2, e1]
    rw [if_neg h6, ih]
    simp [rangeNames, h1, h2, h3, h4, h5, h6, Ne.symm h1, Ne.symm h2, Ne.symm h3, Ne.symm h4, Ne.symm h5, Ne.symm h6]

/-- The columns used for an axis. -/
def usedCols (cols : List Name) (u : Name) : List Name := if hasRange cols u then cols.filter (fun c => decide (c ∈ rangeNames u)) else []

theorem filter_value (cols : List Name) (hc : cols.Nodup) (u : Name) (h : hasRange cols u = false) (hv : u ∈ cols) :
    cols.filter (fun c => decide (c ∈ rangeNames u)) = [u] := by
  simp only [hasRange, hasLower, hasUpper, Bool.or_eq_false_iff, decide_eq_false_iff_not] at h
  have e : cols.filter (fun c => decide (c ∈ rangeNames u)) = cols.filter (fun c => decide (c = u)) := by
    refine List.filter_congr fun c hcc => ?_
    have n1 : c ≠ nmin u := fun e => h.1.1.1 (e ▸ hcc)
    have n2 : c ≠ ndmin u := fun e => h.1.1.2 (e ▸ hcc)
    have n3 : c ≠ nd u := fun e => h.1.2 (e ▸ hcc)
    have n4 : c ≠ nmax u := fun e => h.2.1.1 (e ▸ hcc)
    have n5 : c ≠ ndmax u := fun e => h.2.1.2 (e ▸ hcc)
    simp [rangeNames, n1, n2, n3, n4, n5]
  rw [e]
  clear e h
  induction cols with
  | nil => cases hv
  | cons c cols ih =>
    simp only [List.nodup_cons] at hc
    by_cases hcu : c = u
    · subst hcu
      rw [List.filter_cons_of_pos (by simp)]
      congr 1
      refine List.filter_eq_nil_iff.mpr fun x hx => ?_
      simp only [decide_eq_true_eq]
      rintro rfl; exact hc.1 hx
    · rw [List.filter_cons_of_neg (by simp [hcu])]
      exact ih hc.2 ((List.mem_cons.mp hv).resolve_left (Ne.symm hcu))

theorem filter_none (cols : List Name) (u : Name) (h : hasRange cols u = false) (hv : u ∉ cols) :
    cols.filter (fun c => decide (c ∈ rangeNames u)) = [] := by
  simp only [hasRange, hasLower, hasUpper, Bool.or_eq_false_iff, decide_eq_false_iff_not] at h
  refine List.filter_eq_nil_iff.mpr fun c hcc => ?_
  have n0 : c ≠ u := fun e => hv (e ▸ hcc)
  have n1 : c ≠ nmin u := fun e => h.1.1.1 (e ▸ hcc)
  have n2 : c ≠ ndmin u := fun e => h.1.1.2 (e ▸ hcc)
  have n3 : c ≠ nd u := fun e => h.1.2 (e ▸ hcc)
  have n4 : c ≠ nmax u := fun e => h.2.1.1 (e ▸ hcc)
  have n5 : c ≠ ndmax u := fun e => h.2.1.2 (e ▸ hcc)
  simp [rangeNames, n0, n1, n2, n3, n4, n5]

theorem rangeAxes_step (use : A → Name) (cols : List Name) (hc : cols.Nodup) (a : A) (as : List A) (st : RangeCols A) :
    rangeAxes use cols (a :: as) st =
      if hasRange cols (use a) = true then
        if consistent cols (use a) then rangeAxes use cols as { st with use := st.use ++ usedCols cols (use a), pos := st.pos ++ [(a, use a, fullMask cols (use a))] } else none
      else rangeAxes use cols as st := by
  rw [rangeAxes, maskOf_spec]
  simp only [Bool.false_or]
  have hr : hasRange cols (use a) = (decide (nmin (use a) ∈ cols) || decide (nmax (use a) ∈ cols) || decide (ndmin (use a) ∈ cols) || decide (ndmax (use a) ∈ cols) || decide (nd (use a) ∈ cols)) := by
    simp only [hasRange, hasLower, hasUpper]
    cases decide (nmin (use a) ∈ cols) <;> cases decide (nmax (use a) ∈ cols) <;> cases decide (ndmin (use a) ∈ cols) <;> cases decide (ndmax (use a) ∈ cols) <;> cases decide (nd (use a) ∈ cols) <;> rfl
  rw [← hr]
  by_cases h : hasRange cols (use a) = true
  · rw [if_pos h, if_pos h]
    have hlen (x y z : Name) : ([x, y, z].filter fun c => decide (c ∈ cols)).length = [decide (x ∈ cols), decide (y ∈ cols), decide (z ∈ cols)].count true := by
      by_cases h1 : x ∈ cols <;> by_cases h2 : y ∈ cols <;> by_cases h3 : z ∈ cols <;> simp [h1, h2, h3]
    have hneg : ∀ m : Mask, [m.min, m.dmin, m.d].count true ≤ 1 → [m.max, m.dmax, m.d].count true ≤ 1 → ¬ (decide (m.lower.count true > 1) || decide (m.upper.count true > 1)) = true := by
      intro m h1 h2 hh
      rw [Bool.or_eq_true] at hh
      rcases hh with hh | hh
      · have h3 := of_decide_eq_true hh
        change [m.min, m.dmin, m.d].count true > 1 at h3; omega
      · have h3 := of_decide_eq_true hh
        change [m.max, m.dmax, m.d].count true > 1 at h3; omega
    have hpos : ∀ m : Mask, ¬ ([m.min, m.dmin, m.d].count true ≤ 1 ∧ [m.max, m.dmax, m.d].count true ≤ 1) → (decide (m.lower.count true > 1) || decide (m.upper.count true > 1)) = true := by
      intro m hh
      rw [Bool.or_eq_true]
      by_cases h1 : [m.min, m.dmin, m.d].count true ≤ 1
      · right
        have h2 : [m.max, m.dmax, m.d].count true > 1 := by by_contra h2; exact hh ⟨h1, by omega⟩
        exact decide_eq_true h2
      · left
        have h2 : [m.min, m.dmin, m.d].count true > 1 := by omega
        exact decide_eq_true h2
    by_cases hcons : consistent cols (use a)
    · rw [if_pos hcons]
      obtain ⟨h1, h2, h3⟩ := hcons
      rw [hlen] at h1 h2
      rw [if_neg (hneg _ h1 h2), if_neg]
      · simp only [usedCols, if_pos h, fullMask]
      · simp only [Bool.and_eq_true, Bool.or_eq_true, decide_eq_true_eq, Bool.not_eq_true', decide_eq_false_iff_not, not_and, not_not]
        exact fun h => h3 (by tauto)
    · rw [if_neg hcons]
      simp only [consistent, hlen] at hcons
      by_cases h4 : [decide (nmin (use a) ∈ cols), decide (ndmin (use a) ∈ cols), decide (nd (use a) ∈ cols)].count true ≤ 1 ∧
          [decide (nmax (use a) ∈ cols), decide (ndmax (use a) ∈ cols), decide (nd (use a) ∈ cols)].count true ≤ 1
      · rw [if_neg (hneg _ h4.1 h4.2), if_pos]
        simp only [Bool.and_eq_true, Bool.or_eq_true, decide_eq_true_eq, Bool.not_eq_true', decide_eq_false_iff_not]
        by_contra hn
        exact hcons ⟨h4.1, h4.2, fun h5 => by_contra fun h6 => hn ⟨by tauto, h6⟩⟩
      · rw [if_pos (hpos _ h4)]
  · rw [if_neg h, if_neg h]
    simp only [Bool.not_eq_true] at h
    by_cases hv : use a ∈ cols
    · simp [hv, filter_value cols hc (use a) h hv]
    · simp [hv, filter_none cols (use a) h hv]

theorem rangeAxes_spec (use : A → Name) (cols : List Name) (hc : cols.Nodup) (d : List A) (st : RangeCols A) :
    rangeAxes use cols d st =
      if ∀ a ∈ d, hasRange cols (use a) = true → consistent cols (use a) then
        some { st with use := st.use ++ d.flatMap (fun a => usedCols cols (use a)), pos := st.pos ++ (d.filter fun a => hasRange cols (use a)).map (fun a => (a, use a, fullMask cols (use a))) }
      else none := by
  induction d generalizing st with
  | nil => simp [rangeAxes]
  | cons a d ih =>
    rw [rangeAxes_step use cols hc]
    by_cases h : hasRange cols (use a) = true
    · rw [if_pos h]
      by_cases hcons : consistent cols (use a)
      · rw [if_pos hcons, ih]
        have : (∀ b ∈ a :: d, hasRange cols (use b) = true → consistent cols (use b)) ↔ ∀ b ∈ d, hasRange cols (use b) = true → consistent cols (use b) := by
          simp [hcons]
        simp only [this, h, List.flatMap_cons, List.filter_cons_of_pos, List.map_cons, List.append_assoc, List.singleton_append]
      · rw [if_neg hcons, if_neg (fun hh => hcons (hh a (List.mem_cons_self ..) h))]
    · rw [if_neg h, ih]
      have : (∀ b ∈ a :: d, hasRange cols (use b) = true → consistent cols (use b)) ↔ ∀ b ∈ d, hasRange cols (use b) = true → consistent cols (use b) := by
        simp [h]
      have hu : usedCols cols (use a) = [] := by simp [usedCols, h]
      simp only [this, hu, List.flatMap_cons, List.nil_append, List.filter_cons_of_neg (p := fun a => hasRange cols (use a)) h]

/-- The positions of entries with a property. -/
def posWhere {α : Type} (p : α → Bool) (l : List α) : List Nat := (l.zipIdx).filterMap fun x => if p x.1 then some x.2 else none

theorem posWhere_append {α : Type} (p : α → Bool) (l : List α) (o : α) : posWhere p (l ++ [o]) = posWhere p l ++ (if p o then [l.length] else []) := by
  simp only [posWhere, List.zipIdx_append, List.filterMap_append]
  cases h : p o <;> simp [h]

theorem mem_posWhere {α : Type} (p : α → Bool) (l : List α) (k : Nat) : k ∈ posWhere p l ↔ ∃ x, l[k]? = some x ∧ p x = true := by
  simp only [posWhere, List.mem_filterMap]
  constructor
  · rintro ⟨⟨x, i⟩, hx, e⟩
    by_cases h : p x = true
    · simp only [h, if_true, Option.some.injEq] at e
      subst e
      exact ⟨x, by have := List.mk_mem_zipIdx_iff_getElem?.mp hx; exact this, h⟩
    · simp [h] at e
  · rintro ⟨x, hx, h⟩
    exact ⟨(x, k), List.mk_mem_zipIdx_iff_getElem?.mpr hx, by simp [h]⟩

theorem nonePos_length {α : Type} (l : List (Option α)) : (l.filterMap id).length + (nonePos l).length = l.length := by
  induction l using List.reverseRecOn with
  | nil => rfl
  | append_singleton l o ih =>
    rw [nonePos_append]
    cases o with
    | none => simp [List.filterMap_append] at *; omega
    | some x => simp [List.filterMap_append] at *; omega

/-- The entry of a dimension. -/
def entry (use : A → Name) (cols : List Name) (d : List A) : Option (A × Name × Mask) := (rangeAxis use cols d).map fun a => (a, use a, fullMask cols (use a))

def noLower : Option (A × Name × Mask) → Bool
  | none => true
  | some x => !(x.2.2.min || x.2.2.dmin || x.2.2.d)
def noUpper : Option (A × Name × Mask) → Bool
  | none => true
  | some x => !(x.2.2.max || x.2.2.dmax || x.2.2.d)

/-- The dimension can be used. -/
def okDim (use : A → Name) (cols : List Name) (d : List A) : Prop :=
  (∀ a ∈ d, hasRange cols (use a) = true → consistent cols (use a)) ∧ (d.filter fun a => hasRange cols (use a)).length ≤ 1

instance (use : A → Name) (cols : List Name) (d : List A) : Decidable (okDim use cols d) := by unfold okDim; infer_instance

theorem rangeDims_spec (use : A → Name) (cols : List Name) (hc : cols.Nodup) (ds : List (List A)) (u0 : List Name) (E : List (Option (A × Name × Mask))) :
    rangeDims use cols E.length ds ⟨u0, E.filterMap id, nonePos E, posWhere noLower E, posWhere noUpper E⟩ =
      if ∀ d ∈ ds, okDim use cols d then
        some ⟨u0 ++ ds.flatten.flatMap (fun a => usedCols cols (use a)), (E ++ ds.map (entry use cols)).filterMap id, nonePos (E ++ ds.map (entry use cols)),
          posWhere noLower (E ++ ds.map (entry use cols)), posWhere noUpper (E ++ ds.map (entry use cols))⟩
      else none := by
  induction ds generalizing u0 E with
  | nil => simp [rangeDims]
  | cons d ds ih =>
    rw [rangeDims, rangeAxes_spec use cols hc]
    by_cases h : ∀ a ∈ d, hasRange cols (use a) = true → consistent cols (use a)
    · rw [if_pos h]
      have hn := nonePos_length E
      simp only [List.length_append, List.length_map]
      by_cases h1 : (d.filter fun a => hasRange cols (use a)).length ≤ 1
      · rw [if_neg (by omega)]
        have hcond : (∀ e ∈ d :: ds, okDim use cols e) ↔ ∀ e ∈ ds, okDim use cols e := by
          simp only [List.forall_mem_cons, and_iff_right_iff_imp]
          exact fun _ => ⟨h, h1⟩
        by_cases h0 : (d.filter fun a => hasRange cols (use a)).length = 0
        · rw [if_pos (by omega)]
          have e0 := List.length_eq_zero_iff.mp h0
          have hp : entry use cols d = none := by simp [entry, rangeAxis, e0]
          have := ih (u0 ++ d.flatMap fun a => usedCols cols (use a)) (E ++ [none])
          simp only [nonePos_append, posWhere_append, List.length_append, List.length_singleton, Option.isNone_none, if_true, noLower, noUpper, List.filterMap_append (l := E),
            List.filterMap_cons, id, List.filterMap_nil, List.append_nil] at this
          simp only [e0, List.map_nil, List.append_nil, id]
          rw [this]
          simp only [hcond, hp, List.map_cons, List.append_assoc, List.singleton_append, List.flatten_cons, List.flatMap_append, List.filterMap_append]
        · rw [if_neg (by omega)]
          obtain ⟨a, e1⟩ := List.length_eq_one_iff.mp (by omega : (d.filter fun a => hasRange cols (use a)).length = 1)
          have hp : entry use cols d = some (a, use a, fullMask cols (use a)) := by simp [entry, rangeAxis, e1]
          have := ih (u0 ++ d.flatMap fun a => usedCols cols (use a)) (E ++ [some (a, use a, fullMask cols (use a))])
          simp only [nonePos_append, posWhere_append, List.length_append, List.length_singleton, Option.isNone_some, Bool.false_eq_true, if_false, noLower, noUpper, List.filterMap_append (l := E),
            List.filterMap_cons, id, List.filterMap_nil, List.append_nil] at this
          simp only [e1, List.map_cons, List.map_nil, List.getLast?_append, List.getLast?_singleton, Option.some_or, Option.map_some, Option.getD_some, id]
          have hite (b : Bool) (l : List Nat) (n : Nat) : (if b = true then l else l ++ [n]) = l ++ (if (!b) = true then [n] else []) := by cases b <;> simp
          rw [hite, hite]
          refine this.trans ?_
          simp only [hcond, hp, List.map_cons, List.append_assoc, List.singleton_append, List.flatten_cons, List.flatMap_append, List.filterMap_append]
      · rw [if_pos (by omega), if_neg (fun hh => h1 (hh d (by simp)).2)]
    · rw [if_neg h, if_neg (fun hh => h (hh d (by simp)).1)]

theorem rangeColumns_eq (use : A → Name) (cols : List Name) (hc : cols.Nodup) (axesnames : List (List A)) :
    rangeColumns use cols axesnames =
      if ∀ d ∈ axesnames, okDim use cols d then
        some ⟨axesnames.flatten.flatMap (fun a => usedCols cols (use a)), (axesnames.map (entry use cols)).filterMap id, nonePos (axesnames.map (entry use cols)),
          posWhere noLower (axesnames.map (entry use cols)), posWhere noUpper (axesnames.map (entry use cols))⟩
      else none := by
  have := rangeDims_spec use cols hc axesnames [] []
  simpa [rangeColumns, nonePos, posWhere] using this

/-- C111: `range` fails exactly if the columns of an axis are inconsistent or a dimension has several axes with ranges; otherwise exactly the columns of axes with ranges are used, and the missing ends are those without columns. -/
theorem range_columns (use : A → Name) (cols : List Name) (hc : cols.Nodup) (axesnames : List (List A)) :
    (rangeColumns use cols axesnames = none ↔ ∃ d ∈ axesnames, (∃ a ∈ d, hasRange cols (use a) = true ∧ ¬ consistent cols (use a)) ∨ 2 ≤ (d.filter fun a => hasRange cols (use a)).length) ∧
    ∀ r, rangeColumns use cols axesnames = some r →
      (∀ c, c ∈ r.use ↔ ∃ d ∈ axesnames, ∃ a ∈ d, hasRange cols (use a) = true ∧ c ∈ cols ∧ c ∈ rangeNames (use a)) ∧
      (∀ k, k ∈ r.missing ↔ ∃ d, axesnames[k]? = some d ∧ rangeAxis use cols d = none) ∧
      (∀ k, k ∈ r.minmissing ↔ ∃ d, axesnames[k]? = some d ∧ ∀ a, rangeAxis use cols d = some a → hasLower cols (use a) = false) ∧
      (∀ k, k ∈ r.maxmissing ↔ ∃ d, axesnames[k]? = some d ∧ ∀ a, rangeAxis use cols d = some a → hasUpper cols (use a) = false) := by
  rw [rangeColumns_eq use cols hc]
  by_cases h : ∀ d ∈ axesnames, okDim use cols d
  · rw [if_pos h]
    refine ⟨⟨fun h => (by cases h), ?_⟩, ?_⟩
    · rintro ⟨d, hd, ⟨a, ha, h1, h2⟩ | h3⟩
      · exact absurd ((h d hd).1 a ha h1) h2
      · have := (h d hd).2; omega
    · intro r hr
      obtain rfl := Option.some.inj hr
      have hnp : nonePos (axesnames.map (entry use cols)) = posWhere Option.isNone (axesnames.map (entry use cols)) := rfl
      refine ⟨fun c => ?_, fun k => ?_, fun k => ?_, fun k => ?_⟩
      · simp only [List.mem_flatMap, List.mem_flatten, usedCols]
        constructor
        · rintro ⟨a, ⟨d, hd, ha⟩, hcc⟩
          by_cases hr : hasRange cols (use a) = true
          · rw [if_pos hr] at hcc
            simp only [List.mem_filter, decide_eq_true_eq] at hcc
            exact ⟨d, hd, a, ha, hr, hcc.1, hcc.2⟩
          · rw [if_neg hr] at hcc; cases hcc
        · rintro ⟨d, hd, a, ha, hr, h1, h2⟩
          exact ⟨a, ⟨d, hd, ha⟩, by rw [if_pos hr]; simp [h1, h2]⟩
      · simp only [hnp, mem_posWhere, List.getElem?_map]
        cases axesnames[k]? with
        | none => simp
        | some d => simp [entry]
      · simp only [mem_posWhere, List.getElem?_map]
        cases axesnames[k]? with
        | none => simp
        | some d =>
          cases hx : rangeAxis use cols d with
          | none => simp [entry, hx, noLower]
          | some a => simp [entry, hx, noLower, fullMask, hasLower]
      · simp only [mem_posWhere, List.getElem?_map]
        cases axesnames[k]? with
        | none => simp
        | some d =>
          cases hx : rangeAxis use cols d with
          | none => simp [entry, hx, noUpper]
          | some a => simp [entry, hx, noUpper, fullMask, hasUpper]
  · rw [if_neg h]
    refine ⟨⟨fun _ => ?_, fun _ => rfl⟩, fun r hr => (by cases hr)⟩
    by_contra hn
    apply h
    intro d hd
    refine ⟨fun a ha h1 => ?_, ?_⟩
    · by_contra h2
      exact hn ⟨d, hd, Or.inl ⟨a, ha, h1, h2⟩⟩
    · by_contra h2
      exact hn ⟨d, hd, Or.inr (by omega)⟩

theorem rangeDraw_applyAll (conv : A → V → Option K) (sub add : V → V → Option V) (point : Name → V) (l : List ((A × Name × Mask) × Nat)) (v : List (Option K × Option K)) :
    rangeDraw conv sub add point (l.map fun x => (x.1.2.1, x.1.2.2, x.2, x.1.1)) v =
      applyAll (fun e x => ((lowerEnd conv sub point e.2.1 e.2.2 e.1).getD x.1, (upperEnd conv add point e.2.1 e.2.2 e.1).getD x.2)) l v := by
  induction l generalizing v with
  | nil => rfl
  | cons x l ih => simp only [List.map_cons, rangeDraw, applyAll]; rw [ih]

theorem one_of {p q r : Name} (cols : List Name) (h : ([p, q, r].filter fun c => decide (c ∈ cols)).length ≤ 1) : (r ∈ cols → p ∉ cols ∧ q ∉ cols) ∧ (q ∈ cols → p ∉ cols) := by
  by_cases h1 : p ∈ cols <;> by_cases h2 : q ∈ cols <;> by_cases h3 : r ∈ cols <;> simp [h1, h2, h3] at h ⊢

/-- C111: the range in a dimension is that of its axis: the ends are converted from the columns with minima and maxima, or from the value and the differences; ends without columns are missing. -/
theorem range_draw (use : A → Name) (cols : List Name) (hc : cols.Nodup) (axesnames : List (List A)) (r : RangeCols A) (hr : rangeColumns use cols axesnames = some r)
    (conv : A → V → Option K) (sub add : V → V → Option V) (point : Name → V) (k : Nat) (d : List A) (hd : axesnames[k]? = some d) :
    (rangeDraw conv sub add point (rangepostmplist r) (List.replicate (r.pos.length + r.missing.length) (none, none)))[k]? =
      some (match rangeAxis use cols d with
        | some a => (lowerSpec (conv a) sub point cols (use a), upperSpec (conv a) add point cols (use a))
        | none => (none, none)) := by
  rw [rangeColumns_eq use cols hc] at hr
  by_cases h : ∀ d ∈ axesnames, okDim use cols d
  · rw [if_pos h] at hr
    obtain rfl := Option.some.inj hr
    simp only [nonePos_length, List.length_map]
    have e1 : rangepostmplist (⟨axesnames.flatten.flatMap (fun a => usedCols cols (use a)), (axesnames.map (entry use cols)).filterMap id, nonePos (axesnames.map (entry use cols)),
          posWhere noLower (axesnames.map (entry use cols)), posWhere noUpper (axesnames.map (entry use cols))⟩ : RangeCols A) =
        ((axesnames.map (entry use cols)).zipIdx.filterMap fun x => x.1.map fun y => (y, x.2)).map fun x => (x.1.2.1, x.1.2.2, x.2, x.1.1) := by
      rw [← shift_positions]
      simp [rangepostmplist]
    rw [e1, rangeDraw_applyAll, applyAll_getElem]
    have hk : k < axesnames.length := by
      by_contra hk
      rw [List.getElem?_eq_none (by omega)] at hd
      cases hd
    simp only [Nat.not_lt_zero, if_false, Nat.sub_zero, List.getElem?_map, hd, Option.map_some, List.getElem?_replicate, hk, if_true]
    cases ha : rangeAxis use cols d with
    | none => simp [entry, ha]
    | some a =>
      simp only [entry, ha, Option.map_some, Option.some.injEq, Prod.mk.injEq]
      have hmem : a ∈ d.filter fun a => hasRange cols (use a) := List.mem_of_mem_head? (by rw [rangeAxis] at ha; rw [ha]; rfl)
      simp only [List.mem_filter] at hmem
      obtain ⟨h1, h2, -⟩ := (h d (List.mem_of_getElem? hd)).1 a hmem.1 hmem.2
      have l1 := one_of cols h1
      have l2 := one_of cols h2
      constructor
      · by_cases a1 : nd (use a) ∈ cols
        · simp [lowerEnd, lowerSpec, fullMask, a1, l1.1 a1]
        · by_cases a2 : ndmin (use a) ∈ cols
          · simp [lowerEnd, lowerSpec, fullMask, a1, a2, l1.2 a2]
          · by_cases a3 : nmin (use a) ∈ cols <;> simp [lowerEnd, lowerSpec, fullMask, a1, a2, a3]
      · by_cases a1 : nd (use a) ∈ cols
        · simp [upperEnd, upperSpec, fullMask, a1, l2.1 a1]
        · by_cases a2 : ndmax (use a) ∈ cols
          · simp [upperEnd, upperSpec, fullMask, a1, a2, l2.2 a2]
          · by_cases a3 : nmax (use a) ∈ cols <;> simp [upperEnd, upperSpec, fullMask, a1, a2, a3]
  · rw [if_neg h] at hr; cases hr

/-! ## Adjusting an axis -/

/-- The data in a column. -/
def column (data : List (Name × List V)) (c : Name) : Option (List V) := (data.find? fun x => x.1 = c).map fun x => x.2

/-- A call for optional data. -/
def call (o : Option (List V)) : List (List V) := (o.map fun x => [x]).getD []

/-- Values and differences combined, if both are there. -/
def both (op : V → V → Option V) (vs ds : Option (List V)) : Option (List V) := vs.bind fun vs => ds.map fun ds => combine op vs ds

/-- What an axis is adjusted to. -/
def expected (sub add : V → V → Option V) (u : Name) (data : List (Name × List V)) : List (List V) :=
  call (column data (nmin u)) ++ call (column data (nmax u)) ++ call (both sub (column data u) (column data (ndmin u))) ++ call (both add (column data u) (column data (ndmax u))) ++
    call (both sub (column data u) (column data (nd u))) ++ call (both add (column data u) (column data (nd u)))

theorem column_append (data : List (Name × List V)) (c : Name) (x : List V) (hn : c ∉ data.map fun x => x.1) (n : Name) :
    column (data ++ [(c, x)]) n = if n = c then some x else column data n := by
  by_cases h : n = c
  · subst h
    have : data.find? (fun x => decide (x.1 = n)) = none := by
      refine List.find?_eq_none.mpr fun y hy e => hn (List.mem_map.mpr ⟨y, hy, by simpa using e⟩)
    simp [column, List.find?_append, this]
  · have : ¬ c = n := fun e => h e.symm
    simp [column, List.find?_append, h, this]

theorem adjustAll_append (sub add : V → V → Option V) (u : Name) (m : Mask) (l l' : List (Name × List V)) (st : Delta V × List (List V)) :
    adjustAll sub add u m (l ++ l') st = adjustAll sub add u m l' (adjustAll sub add u m l st) := by
  induction l generalizing st with
  | nil => rfl
  | cons x l ih => simp only [List.cons_append, adjustAll, ih]

theorem column_none (data : List (Name × List V)) (c : Name) (h : c ∉ data.map fun x => x.1) : column data c = none := by
  have : data.find? (fun x => decide (x.1 = c)) = none := List.find?_eq_none.mpr fun y hy e => h (List.mem_map.mpr ⟨y, hy, by simpa using e⟩)
  simp [column, this]

theorem adjustAll_inv (sub add : V → V → Option V) (u : Name) (m : Mask) (data : List (Name × List V)) (hn : (data.map fun x => x.1).Nodup)
    (hm : ∀ c ∈ data.map (fun x => x.1), (c = nmin u → m.min = true) ∧ (c = nmax u → m.max = true) ∧ (c = ndmin u → m.dmin = true) ∧ (c = ndmax u → m.dmax = true) ∧ (c = nd u → m.d = true))
    (hd : (m.dmin || m.dmax || m.d) = true) :
    (adjustAll sub add u m data (⟨none, none, none, none⟩, [])).1 =
      ⟨column data u, if (column data u).isSome then none else column data (ndmin u), if (column data u).isSome then none else column data (ndmax u), if (column data u).isSome then none else column data (nd u)⟩ ∧
    (adjustAll sub add u m data (⟨none, none, none, none⟩, [])).2.Perm (expected sub add u data) := by
  classical
  induction data using List.reverseRecOn with
  | nil => simp [adjustAll, column, expected, call, both]
  | append_singleton data x ih =>
    obtain ⟨c, ds⟩ := x
    simp only [List.map_append, List.map_cons, List.map_nil, List.nodup_append, List.mem_append, List.mem_singleton, List.mem_cons, List.not_mem_nil, or_false] at hn hm
    have hcn : c ∉ data.map fun x => x.1 := fun h => hn.2.2 c h c rfl rfl
    obtain ⟨i1, i2⟩ := ih hn.1 (fun c' hc' => hm c' (Or.inl hc'))
    obtain ⟨m1, m2, m3, m4, m5⟩ := hm c (Or.inr rfl)
    rw [adjustAll_append]
    generalize adjustAll sub add u m data (⟨none, none, none, none⟩, []) = st at i1 i2
    obtain ⟨s, out⟩ := st
    simp only at i1 i2
    subst i1
    simp only [adjustAll]
    have hcol := column_append data c ds hcn
    have nd' := rangeNames_nodup u
    simp only [rangeNames, List.nodup_cons, List.mem_cons, List.not_mem_nil, or_false, not_or, List.nodup_nil, and_true, not_false_eq_true] at nd'
    obtain ⟨⟨a1, a2, a3, a4, a5⟩, ⟨b1, b2, b3, b4⟩, ⟨c1, c2, c3⟩, ⟨d1, d2⟩, e1⟩ := nd'
    simp only [expected, hcol] at i2 ⊢
    rw [List.perm_iff_count] at i2 ⊢
    by_cases h1 : c = u
    · subst h1
      have hcv := column_none data c hcn
      simp only [hcv] at i2
      simp only [adjust, hd, a1, a2, a3, a4, a5, hcv, process, Ne.symm a1, Ne.symm a2, Ne.symm a3, Ne.symm a4, Ne.symm a5]
      refine ⟨by simp, fun a => ?_⟩
      have := i2 a
      cases column data (ndmin c) <;> cases column data (ndmax c) <;> cases column data (nd c) <;> simp [both, call, List.count_append, List.count_cons] at this ⊢ <;> omega
    have h1' : ¬ u = c := fun e => h1 e.symm
    simp only [if_neg h1']
    by_cases h2 : c = nmin u
    · subst h2
      simp only [adjust, h1, m1 rfl, Ne.symm b1, Ne.symm b2, Ne.symm b3, Ne.symm b4, b1, b2, b3, b4, process]
      refine ⟨by cases column data u <;> simp, fun a => ?_⟩
      have := i2 a
      have hcv := column_none data _ hcn
      simp only [hcv] at this
      revert this; cases column data u <;> intro this <;> simp [call, List.count_append, List.count_cons] at this ⊢ <;> omega
    have h2' : ¬ nmin u = c := fun e => h2 e.symm
    simp only [if_neg h2']
    by_cases h3 : c = nmax u
    · subst h3
      simp only [adjust, h1, m2 rfl, Ne.symm b1, Ne.symm c1, Ne.symm c2, Ne.symm c3, b1, c1, c2, c3, process]
      refine ⟨by cases column data u <;> simp, fun a => ?_⟩
      have := i2 a
      have hcv := column_none data _ hcn
      simp only [hcv] at this
      revert this; cases column data u <;> intro this <;> simp [call, List.count_append, List.count_cons] at this ⊢ <;> omega
    have h3' : ¬ nmax u = c := fun e => h3 e.symm
    simp only [if_neg h3']
    by_cases h4 : c = ndmin u
    · subst h4
      simp only [adjust, h1, h2, h3, m3 rfl, Ne.symm d1, Ne.symm d2, d1, d2, process]
      have hcv := column_none data _ hcn
      refine ⟨by cases column data u <;> simp, fun a => ?_⟩
      have := i2 a
      simp only [hcv] at this
      revert this; cases column data u <;> intro this <;> simp [call, both, List.count_append, List.count_cons] at this ⊢ <;> omega
    have h4' : ¬ ndmin u = c := fun e => h4 e.symm
    simp only [if_neg h4']
    by_cases h5 : c = ndmax u
    · subst h5
      simp only [adjust, h1, h2, h3, h4, m4 rfl, Ne.symm e1, e1, process]
      have hcv := column_none data _ hcn
      refine ⟨by cases column data u <;> simp, fun a => ?_⟩
      have := i2 a
      simp only [hcv] at this
      revert this; cases column data u <;> intro this <;> simp [call, both, List.count_append, List.count_cons] at this ⊢ <;> omega
    have h5' : ¬ ndmax u = c := fun e => h5 e.symm
    simp only [if_neg h5']
    by_cases h6 : c = nd u
    · subst h6
      simp only [adjust, h1, h2, h3, h4, h5, m5 rfl, process]
      have hcv := column_none data _ hcn
      refine ⟨by cases column data u <;> simp, fun a => ?_⟩
      have := i2 a
      simp only [hcv] at this
      revert this; cases column data u <;> intro this <;> simp [call, both, List.count_append, List.count_cons] at this ⊢ <;> omega
    have h6' : ¬ nd u = c := fun e => h6 e.symm
    simp only [if_neg h6', adjust, h1, h2, h3, h4, h5, h6, process]
    refine ⟨by cases column data u <;> simp, fun a => ?_⟩
    have := i2 a
    revert this; cases column data u <;> intro this <;> simp [call, both] at this ⊢ <;> omega

theorem adjustAll_plain (sub add : V → V → Option V) (u : Name) (m : Mask) (data : List (Name × List V)) (hn : (data.map fun x => x.1).Nodup)
    (hm : ∀ c ∈ data.map (fun x => x.1), (c = nmin u → m.min = true) ∧ (c = nmax u → m.max = true) ∧ (c = ndmin u → m.dmin = true) ∧ (c = ndmax u → m.dmax = true) ∧ (c = nd u → m.d = true))
    (hd : m.dmin = false ∧ m.dmax = false ∧ m.d = false) :
    (adjustAll sub add u m data (⟨none, none, none, none⟩, [])).1 = ⟨none, none, none, none⟩ ∧
    (adjustAll sub add u m data (⟨none, none, none, none⟩, [])).2.Perm (call (column data (nmin u)) ++ call (column data (nmax u))) := by
  classical
  induction data using List.reverseRecOn with
  | nil => simp [adjustAll, column, call]
  | append_singleton data x ih =>
    obtain ⟨c, ds⟩ := x
    simp only [List.map_append, List.map_cons, List.map_nil, List.nodup_append, List.mem_append, List.mem_cons, List.not_mem_nil, or_false] at hn hm
    have hcn : c ∉ data.map fun x => x.1 := fun h => hn.2.2 c h c rfl rfl
    obtain ⟨i1, i2⟩ := ih hn.1 (fun c' hc' => hm c' (Or.inl hc'))
    obtain ⟨m1, m2, m3, m4, m5⟩ := hm c (Or.inr rfl)
    rw [adjustAll_append]
    generalize adjustAll sub add u m data (⟨none, none, none, none⟩, []) = st at i1 i2
    obtain ⟨s, out⟩ := st
    simp only at i1 i2
    subst i1
    have hcol := column_append data c ds hcn
    have hcv := column_none data _ hcn
    have b1 : ¬ nmin u = nmax u := by have := rangeNames_nodup u; simp [rangeNames] at this; tauto
    simp only [adjustAll, adjust, hd, process, hcol] at i2 ⊢
    rw [List.perm_iff_count] at i2 ⊢
    refine ⟨by simp, fun a => ?_⟩
    have := i2 a
    by_cases h2 : c = nmin u
    · subst h2
      have b1' : ¬ nmax u = nmin u := fun e => b1 e.symm
      simp [hcv, call, b1, b1', m1 rfl, List.count_append, List.count_cons] at this ⊢; omega
    · have h2' : ¬ nmin u = c := fun e => h2 e.symm
      by_cases h3 : c = nmax u
      · subst h3
        simp [hcv, call, h2', b1, h2, m2 rfl, List.count_append, List.count_cons] at this ⊢; omega
      · have h3' : ¬ nmax u = c := fun e => h3 e.symm
        simp [call, h2, h3, h2', h3'] at this ⊢; omega

/-- C111: whatever the order of the columns, the axis is adjusted to the minima, the maxima and the values decreased and increased by the differences, each exactly once, and to nothing else. -/
theorem range_adjust (sub add : V → V → Option V) (u : Name) (data : List (Name × List V)) (hn : (data.map fun x => x.1).Nodup) :
    (adjustAll sub add u (fullMask (data.map fun x => x.1) u) data (⟨none, none, none, none⟩, [])).2.Perm (expected sub add u data) := by
  have hm : ∀ c ∈ data.map (fun x => x.1), (c = nmin u → (fullMask (data.map fun x => x.1) u).min = true) ∧ (c = nmax u → (fullMask (data.map fun x => x.1) u).max = true) ∧
      (c = ndmin u → (fullMask (data.map fun x => x.1) u).dmin = true) ∧ (c = ndmax u → (fullMask (data.map fun x => x.1) u).dmax = true) ∧
      (c = nd u → (fullMask (data.map fun x => x.1) u).d = true) := by
    intro c hc
    refine ⟨?_, ?_, ?_, ?_, ?_⟩ <;> (rintro rfl; exact decide_eq_true hc)
  by_cases hd : ((fullMask (data.map fun x => x.1) u).dmin || (fullMask (data.map fun x => x.1) u).dmax || (fullMask (data.map fun x => x.1) u).d) = true
  · exact (adjustAll_inv sub add u _ data hn hm hd).2
  · simp only [Bool.not_eq_true, Bool.or_eq_false_iff] at hd
    have := (adjustAll_plain sub add u _ data hn hm ⟨hd.1.1, hd.1.2, hd.2⟩).2
    simp only [fullMask, decide_eq_false_iff_not] at hd
    rw [expected, column_none data _ hd.1.1, column_none data _ hd.1.2, column_none data _ hd.2]
    have hb (op : V → V → Option V) (o : Option (List V)) : call (both op o none) = [] := by cases o <;> rfl
    simp only [hb, List.append_nil]
    exact this

/-! ## Cases -/

/-- Axes x, x2 and y; columns x2, y and dymin: positions in both dimensions and a lower end in the second. -/
example : (posColumns (fun a : Nat => [['x'], ['x', '2'], ['y']].getD a []) [['y'], ['x', '2'], nd ['y'] ++ ['m', 'i', 'n']] [[0, 1], [2]]).map (fun p => (p.names, p.missing)) =
    some ([some ['x', '2'], some ['y']], []) := by decide +kernel

/-- Two axes of a dimension with columns. -/
example : (posColumns (fun a : Nat => [['x'], ['x', '2'], ['y']].getD a []) [['x'], ['x', '2']] [[0, 1], [2]]).isNone = true := by decide +kernel

example : (rangeColumns (fun a : Nat => [['x'], ['x', '2'], ['y']].getD a []) [['y'], ['x', '2'], ndmin ['y']] [[0, 1], [2]]).map (fun p => (p.use, p.missing, p.minmissing, p.maxmissing)) =
    some ([['y'], ndmin ['y']], [0], [0], [0, 1]) := by decide +kernel

/-- A difference without a value. -/
example : (rangeColumns (fun a : Nat => [['x'], ['y']].getD a []) [['x'], nd ['y']] [[0], [1]]).isNone = true := by decide +kernel

example : (rangeColumns (fun a : Nat => [['x'], ['y']].getD a []) [['x'], nd ['y'], ['y']] [[0], [1]]).map (fun r =>
    rangeDraw (fun _ v => some v) (fun a b => some (a - b)) (fun a b => some (a + b)) (fun c => if c = ['y'] then (7 : Int) else 2) (rangepostmplist r) [(none, none), (none, none)]) =
    some [(none, none), (some 5, some 9)] := by decide +kernel

example : (adjustAll (fun a b => some (a - b)) (fun a b => some (a + b)) ['y'] (fullMask [nd ['y'], ['y']] ['y']) [(nd ['y'], [(1 : Int), 2]), (['y'], [5, 5])] (⟨none, none, none, none⟩, [])).2 =
    [[4, 3], [6, 7]] := by decide +kernel

end PyX.Style.Columns
