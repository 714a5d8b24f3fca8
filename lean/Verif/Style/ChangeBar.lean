import Verif.Style.BarProps
import Verif.Attr.Model

/-!
# Bars with an attribute for each value (`graph/style.py`, `changebar`): model and C147
-/

set_option linter.unusedSectionVars false

namespace PyX.Style.ChangeBar

open PyX.Style.Bar PyX.Attr

variable {K : Type} [Field K] [LinearOrder K] [IsStrictOrderedRing K] {A : Type}

/-! ## Model -/

/-- A filled polygon with its attributes. -/
structure Filled (K : Type) (A : Type) where
  corners : List (K × K)
  attrs : List A
  deriving DecidableEq

/-- Exceptions: of `select`, of `list(None)` in `canvas.fill`, the RuntimeError for several data instances, and the TypeError for other graphs. -/
inductive Err
  | select | noAttrs | several | dimension
  deriving DecidableEq

/-- `canvas.fill` with the result of `attr.selectattrs` (`canvas.py:390-400`, `attr.py:178-199`): `[deco.filled]+list(attrs)` is a TypeError for `None`. -/
def fill (p : List (K × K)) : Option (Option (List A)) → Except Err (Filled K A)
  | none => .error .select
  | some none => .error .noAttrs
  | some (some a) => .ok ⟨p, a⟩

/-- The value of `vbarrange` for a point. -/
abbrev Ranges (K : Type) := List (Option K × Option K)

/-- The points of a `bar` in two dimensions (`style.py:1509-1535`): each is filled at once with the attributes of the style. -/
def fillAll (attrs : Option (List A)) : List (Ranges K) → Except Err (List (Filled K A))
  | [] => .ok []
  | r :: rs =>
    match drawpoint r with
    | none => fillAll attrs rs
    | some p =>
      match fill p (some attrs) with
      | .error e => .error e
      | .ok f => (fillAll attrs rs).map (f :: ·)

/-- `bar` (`style.py:1500-1535`) for the data instance `index` of `total`.  `attrs` are `defaultbarattrs + barattrs`;
a gradient is the `Change.multi` with its colours for each total (`color.py:375-381`). -/
def bar (attrs : List (A ⊕ Change A)) (index total : ℕ) (points : List (Ranges K)) : Except Err (List (Filled K A)) :=
  match selectattrs (some attrs) index total with
  | none => .error .select
  | some a => fillAll a points

/-- The loop of `changebar.donedrawpoints` (`style.py:1613-1616`) from the number `i` on. -/
def done (attrs : List (A ⊕ Change A)) (total : ℕ) : ℕ → List (Option (List (K × K))) → Except Err (List (Filled K A))
  | _, [] => .ok []
  | i, none :: bars => done attrs total (i + 1) bars
  | i, some p :: bars =>
    match fill p (selectattrs (some attrs) i total) with
    | .error e => .error e
    | .ok f => (done attrs total (i + 1) bars).map (f :: ·)

/-- `changebar` (`style.py:1596-1616`) for a graph with `axes` axes, as the data instance of `total`. -/
def changebar (attrs : List (A ⊕ Change A)) (axes total : ℕ) (points : List (Ranges K)) : Except Err (List (Filled K A)) :=
  if total ≠ 1 then .error .several
  else if axes ≠ 2 then .error .dimension
  else done attrs points.length 0 (points.map drawpoint)

/-! ## Specification -/

/-- Something of a bar is inside of the graph. -/
def Visible (r : Ranges K) : Prop := ∃ p, drawpoint r = some p

instance (r : Ranges K) : Decidable (Visible r) :=
  match h : drawpoint r with
  | some p => isTrue ⟨p, h⟩
  | none => isFalse (by rintro ⟨p, hp⟩; rw [h] at hp; cases hp)

/-- The numbers of the visible bars. -/
def visible (points : List (Ranges K)) : List ℕ := (List.range points.length).filter fun i => points[i]?.any fun r => decide (Visible r)

/-! ## Proofs -/

theorem map_ok {α β : Type*} (f : α → β) (x : Except Err α) (b : β) : x.map f = .ok b ↔ ∃ a, x = .ok a ∧ f a = b := by
  cases x with
  | error e => simp [Except.map]
  | ok a => simp [Except.map]

theorem fill_ok (p : List (K × K)) (o : Option (Option (List A))) (f : Filled K A) : fill p o = .ok f ↔ ∃ a, o = some (some a) ∧ f = ⟨p, a⟩ := by
  match o with
  | none => simp [fill]
  | some none => simp [fill]
  | some (some a) =>
    simp only [fill, Except.ok.injEq, Option.some.injEq]
    constructor
    · rintro rfl; exact ⟨a, rfl, rfl⟩
    · rintro ⟨_, rfl, rfl⟩; rfl

/-- A bar is visible if some point between its limits is in the graph in each direction. -/
theorem visible_iff (x y : Option K × Option K) : Visible [x, y] ↔
    ∃ x0 x1 y0 y1, x = (some x0, some x1) ∧ y = (some y0, some y1) ∧ (∃ v, 0 ≤ v ∧ v ≤ 1 ∧ Between x0 x1 v) ∧ ∃ v, 0 ≤ v ∧ v ≤ 1 ∧ Between y0 y1 v := by
  have one : ∀ r : Option K × Option K, (∃ c, clip r = some c) ↔ ∃ a b, r = (some a, some b) ∧ ∃ v, 0 ≤ v ∧ v ≤ 1 ∧ Between a b v := by
    intro r
    constructor
    · rintro ⟨c, hc⟩
      obtain ⟨h1, a, b, rfl⟩ := clip_ordered r c hc
      exact ⟨a, b, rfl, c.1, (clip_spec a b c.1).mp ⟨c, hc, le_rfl, h1⟩⟩
    · rintro ⟨a, b, rfl, v, h⟩
      obtain ⟨c, hc, _⟩ := (clip_spec a b v).mpr h
      exact ⟨c, hc⟩
  have two : Visible [x, y] ↔ (∃ c, clip x = some c) ∧ ∃ c, clip y = some c := by
    unfold Visible drawpoint
    simp only [clipAll]
    cases clip x <;> cases clip y <;> simp
  rw [two, one, one]
  constructor
  · rintro ⟨⟨a, b, h1, h2⟩, c, d, h3, h4⟩; exact ⟨a, b, c, d, h1, h3, h2, h4⟩
  · rintro ⟨a, b, c, d, h1, h3, h2, h4⟩; exact ⟨⟨a, b, h1, h2⟩, c, d, h3, h4⟩

/-- What a loop fills: the visible bars in their order, each with its polygon and the attributes for its number. -/
theorem done_spec (attrs : List (A ⊕ Change A)) (total : ℕ) (points : List (Ranges K)) (i : ℕ) (fs : List (Filled K A)) :
    done attrs total i (points.map drawpoint) = .ok fs ↔
      List.Forall₂ (fun (k : ℕ) f => ∃ r p a, points[k]? = some r ∧ drawpoint r = some p ∧ selectattrs (some attrs) (i + k) total = some (some a) ∧ f = ⟨p, a⟩) (visible points) fs := by
  induction points generalizing i fs with
  | nil => cases fs <;> simp [done, visible]
  | cons r rs ih =>
    have hv : visible (r :: rs) = (if Visible r then [0] else []) ++ (visible rs).map (· + 1) := by
      unfold visible
      rw [List.length_cons, List.range_succ_eq_map, List.filter_cons]
      have e : ((List.map Nat.succ (List.range rs.length)).filter fun i => (r :: rs)[i]?.any fun r => decide (Visible r)) =
          ((List.range rs.length).filter fun i => rs[i]?.any fun r => decide (Visible r)).map (· + 1) := by
        rw [List.filter_map]
        congr 1
      rw [e]
      simp only [List.getElem?_cons_zero, Option.any_some, decide_eq_true_eq]
      split <;> simp
    have shift : ∀ fs : List (Filled K A), (List.Forall₂ (fun (k : ℕ) f => ∃ r' p a, (r :: rs)[k]? = some r' ∧ drawpoint r' = some p ∧ selectattrs (some attrs) (i + k) total = some (some a) ∧ f = (⟨p, a⟩ : Filled K A))
        ((visible rs).map (· + 1)) fs ↔ List.Forall₂ (fun (k : ℕ) f => ∃ r p a, rs[k]? = some r ∧ drawpoint r = some p ∧ selectattrs (some attrs) (i + 1 + k) total = some (some a) ∧ f = (⟨p, a⟩ : Filled K A)) (visible rs) fs) := by
      intro fs
      rw [List.forall₂_map_left_iff]
      simp only [List.getElem?_cons_succ, add_assoc, add_comm 1]
    rw [hv]
    cases hd : drawpoint r with
    | none =>
      have hn : ¬ Visible r := by rintro ⟨p, hp⟩; rw [hd] at hp; cases hp
      rw [if_neg hn, List.nil_append, shift fs, ← ih]
      simp only [List.map_cons, hd, done]
    | some p =>
      rw [if_pos ⟨p, hd⟩, List.singleton_append]
      simp only [List.map_cons, hd, done]
      constructor
      · intro h
        cases hf : fill p (selectattrs (some attrs) i total) with
        | error e => rw [hf] at h; cases h
        | ok f =>
          rw [hf] at h
          simp only [map_ok] at h
          obtain ⟨gs, hg, rfl⟩ := h
          obtain ⟨a, ha, rfl⟩ := (fill_ok _ _ _).mp hf
          exact List.Forall₂.cons ⟨r, p, a, rfl, hd, by simpa using ha, rfl⟩ ((shift gs).mpr ((ih (i + 1) gs).mp hg))
      · intro h
        cases h with
        | cons h1 h2 =>
          rename_i f gs
          obtain ⟨r', p', a, e1, e2, e3, rfl⟩ := h1
          simp only [List.getElem?_cons_zero, Option.some.injEq] at e1
          subst e1
          rw [hd] at e2
          cases e2
          rw [show selectattrs (some attrs) i total = some (some a) by simpa using e3]
          simp only [fill, map_ok]
          exact ⟨gs, (ih (i + 1) gs).mpr ((shift gs).mp h2), rfl⟩

/-- **C147 (attributes of bars).** The style fills exactly the visible bars, in the order of the values, each with the attributes selected for its number among all values. -/
theorem changebar_fills (attrs : List (A ⊕ Change A)) (points : List (Ranges K)) (fs : List (Filled K A)) :
    changebar attrs 2 1 points = .ok fs ↔
      List.Forall₂ (fun (k : ℕ) f => ∃ r p a, points[k]? = some r ∧ drawpoint r = some p ∧ selectattrs (some attrs) k points.length = some (some a) ∧ f = ⟨p, a⟩) (visible points) fs := by
  unfold changebar
  rw [if_neg (by simp), if_neg (by simp), done_spec]
  simp only [zero_add]

/-- **C147 (restrictions).** Several data instances and other graphs are refused. -/
theorem changebar_refused (attrs : List (A ⊕ Change A)) (axes total : ℕ) (points : List (Ranges K)) (h : axes ≠ 2 ∨ total ≠ 1) (fs : List (Filled K A)) : changebar attrs axes total points ≠ .ok fs := by
  unfold changebar
  by_cases ht : total ≠ 1
  · rw [if_pos ht]; simp
  · rw [if_neg ht, if_pos (by rcases h with h | h; exact h; exact absurd h ht)]; simp

theorem fillAll_spec (a : Option (List A)) (points : List (Ranges K)) (fs : List (Filled K A)) (h : fillAll a points = .ok fs) :
    fs.map (·.corners) = points.filterMap drawpoint ∧ ∀ f ∈ fs, a = some f.attrs := by
  induction points generalizing fs with
  | nil => simp only [fillAll, Except.ok.injEq] at h; subst h; simp
  | cons r rs ih =>
    rw [fillAll] at h
    cases hd : drawpoint r with
    | none =>
      rw [hd] at h
      rw [List.filterMap_cons_none hd]
      exact ih fs h
    | some p =>
      rw [hd] at h
      dsimp only at h
      cases hf : fill p (some a) with
      | error e => rw [hf] at h; cases h
      | ok f =>
        rw [hf] at h
        simp only [map_ok] at h
        obtain ⟨gs, hg, rfl⟩ := h
        obtain ⟨b, hb, rfl⟩ := (fill_ok _ _ _).mp hf
        obtain ⟨h1, h2⟩ := ih gs hg
        rw [List.filterMap_cons_some hd]
        refine ⟨by rw [List.map_cons, h1], ?_⟩
        intro f hm
        rcases List.mem_cons.mp hm with rfl | hm
        · exact Option.some.inj hb
        · exact h2 f hm

theorem done_corners (attrs : List (A ⊕ Change A)) (total i : ℕ) (bars : List (Option (List (K × K)))) (fs : List (Filled K A)) (h : done attrs total i bars = .ok fs) : fs.map (·.corners) = bars.filterMap id := by
  induction bars generalizing i fs with
  | nil => simp only [done, Except.ok.injEq] at h; subst h; simp
  | cons b bars ih =>
    cases b with
    | none => rw [List.filterMap_cons_none rfl]; exact ih (i + 1) fs (by rw [done] at h; exact h)
    | some p =>
      rw [done] at h
      cases hf : fill p (selectattrs (some attrs) i total) with
      | error e => rw [hf] at h; cases h
      | ok f =>
        rw [hf] at h
        simp only [map_ok] at h
        obtain ⟨gs, hg, rfl⟩ := h
        obtain ⟨b, hb, rfl⟩ := (fill_ok _ _ _).mp hf
        simp [ih _ gs hg]

/-- **C147 (shapes).** The polygons are those of the style `bar`; only the attributes differ, which are the same for all bars there. -/
theorem same_shapes (attrs attrs' : List (A ⊕ Change A)) (axes total index total' : ℕ) (points : List (Ranges K)) (fs gs : List (Filled K A))
    (hf : changebar attrs axes total points = .ok fs) (hg : bar attrs' index total' points = .ok gs) :
    fs.map (·.corners) = gs.map (·.corners) ∧ ∀ g ∈ gs, selectattrs (some attrs') index total' = some (some g.attrs) := by
  unfold bar at hg
  cases hs : selectattrs (some attrs') index total' with
  | none => rw [hs] at hg; cases hg
  | some a =>
    rw [hs] at hg
    obtain ⟨h1, h2⟩ := fillAll_spec a points gs hg
    have h3 : fs.map (·.corners) = points.filterMap drawpoint := by
      unfold changebar at hf
      split at hf
      · cases hf
      · split at hf
        · cases hf
        · rw [done_corners _ _ _ _ _ hf, List.filterMap_map]
          rfl
    exact ⟨by rw [h3, h1], fun g hg => by rw [h2 g hg]⟩

/-- Selecting fixed attributes succeeds with them. -/
theorem selectLoop_const (i t : ℕ) (res : List A) (c : Change A) (as : List A) : selectLoop i t res (.inr c :: as.map .inl) =
    match c.select i t with
    | none => none
    | some none => some none
    | some (some a) => some (some (res ++ a :: as)) := by
  have fixed : ∀ (as res : List A), selectLoop i t res (as.map .inl) = some (some (res ++ as)) := by
    intro as
    induction as with
    | nil => intro res; simp [selectLoop]
    | cons a as ih => intro res; rw [List.map_cons, selectLoop, ih]; simp
  rw [selectLoop]
  split <;> simp_all

/-- **C147 (cyclic lists).** With a cyclic list of attributes followed by fixed ones the style always succeeds, and bar `k` has the attribute `k` modulo the length of the list. -/
theorem changebar_cyclic (list : List A) (hne : list ≠ []) (fixed : List A) (points : List (Ranges K)) :
    ∃ fs, changebar (.inr (.list list true) :: fixed.map .inl) 2 1 points = .ok fs ∧
      List.Forall₂ (fun (k : ℕ) f => ∃ r p, points[k]? = some r ∧ drawpoint r = some p ∧ f = ⟨p, list[k % list.length]'(Nat.mod_lt _ (List.length_pos_of_ne_nil hne)) :: fixed⟩) (visible points) fs := by
  have hsel : ∀ k, selectattrs (some (.inr (.list list true) :: fixed.map .inl)) k points.length =
      some (some (list[k % list.length]'(Nat.mod_lt _ (List.length_pos_of_ne_nil hne)) :: fixed)) := by
    intro k
    unfold selectattrs
    simp only
    rw [selectLoop_const]
    have : (Change.list list true).select k points.length = some (some (list[k % list.length]'(Nat.mod_lt _ (List.length_pos_of_ne_nil hne)))) := by
      rw [Change.select]; unfold selectList
      have h0 : list.length ≠ 0 := by simpa using hne
      rw [if_pos rfl, if_neg h0, List.getElem?_eq_getElem (Nat.mod_lt _ (List.length_pos_of_ne_nil hne))]
      rfl
    rw [this]
    rfl
  have hvis : ∀ k ∈ visible points, ∃ r p, points[k]? = some r ∧ drawpoint r = some p := by
    intro k hk
    unfold visible at hk
    simp only [List.mem_filter, Option.any_eq_true, decide_eq_true_eq] at hk
    obtain ⟨_, r, h1, p, h2⟩ := hk
    exact ⟨r, p, h1, h2⟩
  have build : ∀ ks : List ℕ, (∀ k ∈ ks, ∃ r p, points[k]? = some r ∧ drawpoint r = some p) → ∃ fs : List (Filled K A),
      List.Forall₂ (fun (k : ℕ) f => ∃ r p, points[k]? = some r ∧ drawpoint r = some p ∧ f = ⟨p, list[k % list.length]'(Nat.mod_lt _ (List.length_pos_of_ne_nil hne)) :: fixed⟩) ks fs := by
    intro ks
    induction ks with
    | nil => intro _; exact ⟨[], List.Forall₂.nil⟩
    | cons k ks ih =>
      intro h
      obtain ⟨r, p, h1, h2⟩ := h k List.mem_cons_self
      obtain ⟨fs, hfs⟩ := ih fun k hk => h k (List.mem_cons_of_mem _ hk)
      exact ⟨_, List.Forall₂.cons ⟨r, p, h1, h2, rfl⟩ hfs⟩
  obtain ⟨fs, hfs⟩ := build _ hvis
  refine ⟨fs, (changebar_fills _ _ _).mpr (hfs.imp ?_), hfs⟩
  rintro k f ⟨r, p, h1, h2, rfl⟩
  exact ⟨r, p, _, h1, h2, hsel k, rfl⟩

/-- But a list which is not cyclic and too short is an exception, instead of leaving out the bar: if a bar beyond its end is visible, nothing is drawn. -/
theorem short_list_fails (list fixed : List A) (points : List (Ranges K)) (k : ℕ) (hk : k ∈ visible points) (hl : list.length ≤ k) (fs : List (Filled K A)) :
    changebar (.inr (.list list false) :: fixed.map .inl) 2 1 points ≠ .ok fs := by
  intro h
  rw [changebar_fills] at h
  have : ∀ (ks : List ℕ) (fs : List (Filled K A)), k ∈ ks → ¬ List.Forall₂ (fun (k : ℕ) f => ∃ r p a, points[k]? = some r ∧ drawpoint r = some p ∧
      selectattrs (some (.inr (.list list false) :: fixed.map .inl)) k points.length = some (some a) ∧ f = (⟨p, a⟩ : Filled K A)) ks fs := by
    intro ks fs hm h
    induction h with
    | nil => cases hm
    | cons h1 h2 ih =>
      rcases List.mem_cons.mp hm with rfl | hm
      · obtain ⟨r, p, a, _, _, h3, _⟩ := h1
        unfold selectattrs at h3
        simp only at h3
        rw [selectLoop_const] at h3
        have : (Change.list list false).select k points.length = some none := by
          rw [Change.select]; unfold selectList
          rw [if_neg (by simp), if_neg (by omega)]
        rw [this] at h3
        simp at h3
      · exact ih hm
  exact this _ _ hk h

/-- The second of three bars is missing; the third has the third attribute. -/
example : changebar (K := ℚ) [.inr (.list ["red", "green", "blue"] true), .inl "stroked"] 2 1
    [[(some 0, some (1 / 3)), (some 0, some (1 / 2))], [(some (1 / 3), some (2 / 3)), (some 0, none)], [(some (2 / 3), some 1), (some (1 / 2), some 3)]] =
    .ok [⟨[(0, 0), (1 / 3, 0), (1 / 3, 1 / 2), (0, 1 / 2), (0, 0)], ["red", "stroked"]⟩, ⟨[(2 / 3, 1 / 2), (1, 1 / 2), (1, 1), (2 / 3, 1), (2 / 3, 1 / 2)], ["blue", "stroked"]⟩] := by
  decide +kernel

/-- Two bars and a list of one attribute. -/
example : changebar (K := ℚ) [.inr (.list ["red"] false), .inl "stroked"] 2 1
    [[(some 0, some (1 / 3)), (some 0, some (1 / 2))], [(some (2 / 3), some 1), (some (1 / 2), some 3)]] = .error .noAttrs ∧
    1 ∈ visible (K := ℚ) [[(some 0, some (1 / 3)), (some 0, some (1 / 2))], [(some (2 / 3), some 1), (some (1 / 2), some 3)]] := by
  decide +kernel

end PyX.Style.ChangeBar
