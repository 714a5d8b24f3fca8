import Verif.NormPath.Item

set_option linter.unusedSectionVars false

/-!
# Showing the items of a path (`deco.py:690-739`)

`shownormpath` draws the items of the normalised path, the lines to their control points, the control points and the end points.  Ornaments are listed in the order in which they are drawn; attributes are
arbitrary (see C09 for `refineattrs`), `none` leaves something out.  A stroked item is the path of `moveto` to its begin and its path item, a dot is a circle.
-/

namespace PyX.ShowPath

open PyX.NormPath

variable {K A : Type*} [Field K]

/-- What is put on the canvas of ornaments. -/
inductive Ornament (K A : Type*)
  | item (i : Item K) (attrs : A)
  | line (p q : K × K) (attrs : A)
  | dot (p : K × K) (size : K) (attrs : A)
  deriving DecidableEq

/-- The arguments of `shownormpath` (`deco.py:698-708`). -/
structure Show (K A : Type*) where
  normline : Option A
  normcurve : Option A
  endpointSize : K
  endpoint : Option A
  controlline : Option A
  controlpointSize : K
  controlpoint : Option A

/-- The items (`deco.py:712-720`). -/
def drawItem (s : Show K A) : Item K → List (Ornament K A)
  | .curve c => match s.normcurve with
    | some a => [.item (.curve c) a]
    | none => []
  | .line l => match s.normline with
    | some a => [.item (.line l) a]
    | none => []

/-- Control lines and control points (`deco.py:721-731`). -/
def drawControl (s : Show K A) : Item K → List (Ornament K A)
  | .curve c =>
    (match s.controlline with
    | some a => [.line (c.x0, c.y0) (c.x1, c.y1) a, .line (c.x2, c.y2) (c.x3, c.y3) a]
    | none => []) ++
    match s.controlpoint with
    | some a => [.dot (c.x1, c.y1) s.controlpointSize a, .dot (c.x2, c.y2) s.controlpointSize a]
    | none => []
  | .line _ => []

/-- The end points of one sub-path (`deco.py:733-739`); `i` counts the items. -/
def drawEnds (s : Show K A) (a : A) : ℕ → List (Item K) → List (Ornament K A)
  | _, [] => []
  | i, it :: its => (if i = 0 then [.dot it.begin_ s.endpointSize a] else []) ++ .dot it.end_ s.endpointSize a :: drawEnds s a (i + 1) its

/-- `decorate` (`deco.py:710-739`) for the sub-paths of the normalised path: what is added to the ornaments. -/
def decorate (s : Show K A) (path : List (List (Item K))) : List (Ornament K A) :=
  (path.flatMap fun sub => sub.flatMap (drawItem s)) ++ (path.flatMap fun sub => sub.flatMap (drawControl s)) ++
    match s.endpoint with
    | some a => path.flatMap (drawEnds s a 0)
    | none => []

/-! ## Specification -/

def Ornament.isItem : Ornament K A → Bool
  | .item _ _ => true
  | _ => false

/-- The vertices of a sub-path. -/
def vertices : List (Item K) → List (K × K)
  | [] => []
  | it :: its => it.begin_ :: (it :: its).map Item.end_

theorem drawEnds_later (s : Show K A) (a : A) (its : List (Item K)) (i : ℕ) (hi : i ≠ 0) :
    drawEnds s a i its = its.map fun it => Ornament.dot it.end_ s.endpointSize a := by
  induction its generalizing i with
  | nil => rfl
  | cons it its ih => simp [drawEnds, hi, ih (i + 1) (by omega)]

/-- **C179 (end points).**  Each sub-path has one dot at each vertex: one more than it has items, in the order of the path. -/
theorem drawEnds_vertices (s : Show K A) (a : A) (its : List (Item K)) : drawEnds s a 0 its = (vertices its).map fun p => Ornament.dot p s.endpointSize a := by
  cases its with
  | nil => rfl
  | cons it its => simp [drawEnds, vertices, drawEnds_later]

theorem vertices_length (its : List (Item K)) (h : its ≠ []) : (vertices its).length = its.length + 1 := by
  cases its with
  | nil => exact absurd rfl h
  | cons it its => simp [vertices]

/-- In a connected sub-path the begin of each item has a dot as well. -/
theorem begin_vertex (its : List (Item K)) (h : its.IsChain fun i j => i.end_ = j.begin_) (it : Item K) (hit : it ∈ its) : it.begin_ ∈ vertices its ∧ it.end_ ∈ vertices its := by
  have key : ∀ (l : List (Item K)), l.IsChain (fun i j => i.end_ = j.begin_) → ∀ it ∈ l, it.begin_ ∈ vertices l ∧ it.end_ ∈ vertices l := by
    intro l
    induction l with
    | nil => intro _ it hit; simp at hit
    | cons a l ih =>
      intro hc it hit
      rcases List.mem_cons.mp hit with rfl | hit
      · simp [vertices]
      · obtain ⟨h1, h2⟩ := ih hc.tail it hit
        cases l with
        | nil => simp at hit
        | cons b l =>
          have hab : a.end_ = b.begin_ := by simpa using (List.isChain_cons_cons.mp hc).1
          simp only [vertices, List.map_cons, List.mem_cons] at h1 h2 ⊢
          rw [hab]
          exact ⟨.inr (by tauto), .inr (by tauto)⟩
  exact key its h it hit

/-- What an item is stroked with. -/
def itemAttrs (s : Show K A) : Item K → Option A
  | .line _ => s.normline
  | .curve _ => s.normcurve

theorem drawItem_eq (s : Show K A) (it : Item K) : drawItem s it = (itemAttrs s it).toList.map (.item it) := by
  cases it with
  | line l => cases h : s.normline <;> simp [drawItem, itemAttrs, h]
  | curve c => cases h : s.normcurve <;> simp [drawItem, itemAttrs, h]

theorem control_not_item (s : Show K A) (it : Item K) : ∀ o ∈ drawControl s it, o.isItem = false := by
  intro o ho
  cases it with
  | line l => simp [drawControl] at ho
  | curve c =>
    cases h1 : s.controlline <;> cases h2 : s.controlpoint <;> simp [drawControl, h1, h2] at ho
    · rcases ho with rfl | rfl <;> rfl
    · rcases ho with rfl | rfl <;> rfl
    · rcases ho with rfl | rfl | rfl | rfl <;> rfl

/-- **C179 (items).**  The stroked items are the items of the path, in order, each once, with the attributes for lines and curves; those whose attributes are `None` are left out. -/
theorem items_shown (s : Show K A) (path : List (List (Item K))) :
    (decorate s path).filter Ornament.isItem = path.flatten.flatMap fun it => (itemAttrs s it).toList.map (.item it) := by
  unfold decorate
  rw [List.filter_append, List.filter_append]
  have h2 : (path.flatMap fun sub => sub.flatMap (drawControl s)).filter Ornament.isItem = [] := by
    rw [List.filter_eq_nil_iff]
    intro o ho
    obtain ⟨sub, _, ho⟩ := List.mem_flatMap.mp ho
    obtain ⟨it, _, ho⟩ := List.mem_flatMap.mp ho
    simp [control_not_item s it o ho]
  have h3 : (match s.endpoint with
      | some a => path.flatMap (drawEnds s a 0)
      | none => []).filter Ornament.isItem = [] := by
    cases s.endpoint with
    | none => rfl
    | some a =>
      rw [List.filter_eq_nil_iff]
      intro o ho
      obtain ⟨sub, _, ho⟩ := List.mem_flatMap.mp ho
      rw [drawEnds_vertices] at ho
      obtain ⟨p, _, rfl⟩ := List.mem_map.mp ho
      simp [Ornament.isItem]
  have h1 : (path.flatMap fun sub => sub.flatMap (drawItem s)) = path.flatten.flatMap fun it => (itemAttrs s it).toList.map (.item it) := by
    rw [show (fun sub : List (Item K) => sub.flatMap (drawItem s)) = fun sub => sub.flatMap fun it => (itemAttrs s it).toList.map (.item it) from
      funext fun sub => congrArg (fun f => sub.flatMap f) (funext (drawItem_eq s))]
    rw [List.flatMap_def, List.flatMap_def, List.map_flatten, List.flatten_flatten, List.map_map]
    simp only [Function.comp_def, List.flatMap_def]
  rw [h1, h2, h3, List.append_nil, List.append_nil, List.filter_eq_self]
  intro o ho
  obtain ⟨it, _, ho⟩ := List.mem_flatMap.mp ho
  obtain ⟨a, _, rfl⟩ := List.mem_map.mp ho
  rfl

/-- **C179 (control points).**  Lines go from the begin of each curve to its first control point and from the second one to its end, and both control points have a dot; lines have none of that. -/
theorem control_shown (s : Show K A) (path : List (List (Item K))) (o : Ornament K A) : o ∈ path.flatMap (fun sub => sub.flatMap (drawControl s)) ↔
    ∃ sub ∈ path, ∃ c : Curve K, .curve c ∈ sub ∧
      ((∃ a, s.controlline = some a ∧ (o = .line c.begin_ (c.x1, c.y1) a ∨ o = .line (c.x2, c.y2) c.end_ a)) ∨
        ∃ a, s.controlpoint = some a ∧ (o = .dot (c.x1, c.y1) s.controlpointSize a ∨ o = .dot (c.x2, c.y2) s.controlpointSize a)) := by
  simp only [List.mem_flatMap]
  constructor
  · rintro ⟨sub, hs, it, hit, ho⟩
    cases it with
    | line l => simp [drawControl] at ho
    | curve c =>
      refine ⟨sub, hs, c, hit, ?_⟩
      unfold drawControl at ho
      rcases List.mem_append.mp ho with ho | ho
      · cases h : s.controlline with
        | none => simp [h] at ho
        | some a =>
          simp only [h, List.mem_cons, List.not_mem_nil, or_false] at ho
          exact .inl ⟨a, rfl, ho⟩
      · cases h : s.controlpoint with
        | none => simp [h] at ho
        | some a =>
          simp only [h, List.mem_cons, List.not_mem_nil, or_false] at ho
          exact .inr ⟨a, rfl, ho⟩
  · rintro ⟨sub, hs, c, hc, h⟩
    refine ⟨sub, hs, .curve c, hc, ?_⟩
    unfold drawControl
    rcases h with ⟨a, ha, h⟩ | ⟨a, ha, h⟩
    · refine List.mem_append_left _ ?_
      rw [ha]
      simpa [Curve.begin_, Curve.end_] using h
    · refine List.mem_append_right _ ?_
      rw [ha]
      simpa using h

/-- **C179 (order).**  The dots of the end points are above all the rest: the last ornaments are the dots of all vertices. -/
theorem ends_last (s : Show K A) (path : List (List (Item K))) (a : A) (h : s.endpoint = some a) :
    ∃ below, decorate s path = below ++ (path.flatMap vertices).map (fun p => Ornament.dot p s.endpointSize a) ∧
      ∀ o ∈ below, (∃ it ∈ path.flatten, o ∈ drawItem s it) ∨ ∃ it ∈ path.flatten, o ∈ drawControl s it := by
  refine ⟨(path.flatMap fun sub => sub.flatMap (drawItem s)) ++ path.flatMap fun sub => sub.flatMap (drawControl s), ?_, ?_⟩
  · unfold decorate
    rw [h, List.map_flatMap]
    simp only
    rw [show (fun sub => (vertices sub).map fun p => Ornament.dot p s.endpointSize a) = drawEnds s a 0 from funext fun sub => (drawEnds_vertices s a sub).symm]
  · intro o ho
    rcases List.mem_append.mp ho with ho | ho
    · obtain ⟨sub, hs, ho⟩ := List.mem_flatMap.mp ho
      obtain ⟨it, hit, ho⟩ := List.mem_flatMap.mp ho
      exact .inl ⟨it, List.mem_flatten.mpr ⟨sub, hs, hit⟩, ho⟩
    · obtain ⟨sub, hs, ho⟩ := List.mem_flatMap.mp ho
      obtain ⟨it, hit, ho⟩ := List.mem_flatMap.mp ho
      exact .inr ⟨it, List.mem_flatten.mpr ⟨sub, hs, hit⟩, ho⟩

/-- **C179.**  With `None` for everything nothing is drawn, and a path without items has no ornaments. -/
theorem nothing_shown (s : Show K A) (path : List (List (Item K))) :
    decorate s path = [] ↔ (∀ it ∈ path.flatten, itemAttrs s it = none) ∧ (∀ c : Curve K, .curve c ∈ path.flatten → s.controlline = none ∧ s.controlpoint = none) ∧
      (path.flatten ≠ [] → s.endpoint = none) := by
  unfold decorate
  rw [List.append_eq_nil_iff, List.append_eq_nil_iff, and_assoc]
  simp only [List.flatMap_eq_nil_iff, List.mem_flatten]
  refine and_congr ?_ (and_congr ?_ ?_)
  · constructor
    · rintro h it ⟨sub, hs, hit⟩
      have := h sub hs it hit
      rw [drawItem_eq] at this
      cases h' : itemAttrs s it with
      | none => rfl
      | some a => simp [h'] at this
    · intro h sub hs it hit
      rw [drawItem_eq, h it ⟨sub, hs, hit⟩]
      rfl
  · constructor
    · rintro h c ⟨sub, hs, hc⟩
      have := h sub hs _ hc
      cases h1 : s.controlline <;> cases h2 : s.controlpoint <;> simp [drawControl, h1, h2] at this ⊢
    · intro h sub hs it hit
      cases it with
      | line l => rfl
      | curve c =>
        obtain ⟨h1, h2⟩ := h c ⟨sub, hs, hit⟩
        simp [drawControl, h1, h2]
  · cases h : s.endpoint with
    | none => simp
    | some a =>
      simp only [reduceCtorEq, imp_false, not_not, List.flatMap_eq_nil_iff, List.flatten_eq_nil_iff]
      refine forall_congr' fun sub => imp_congr_right fun _ => ?_
      rw [drawEnds_vertices]
      cases sub <;> simp [vertices]

/-- A line and a curve. -/
example : decorate (⟨some 1, some 2, 5, some 3, some 4, 6, none⟩ : Show ℚ ℕ) [[.line ⟨0, 0, 1, 0⟩, .curve ⟨1, 0, 2, 0, 3, 1, 3, 2⟩]] =
    [.item (.line ⟨0, 0, 1, 0⟩) 1, .item (.curve ⟨1, 0, 2, 0, 3, 1, 3, 2⟩) 2, .line (1, 0) (2, 0) 4, .line (3, 1) (3, 2) 4,
      .dot (0, 0) 5 3, .dot (1, 0) 5 3, .dot (3, 2) 5 3] := rfl

/-- The last dot of a closed sub-path is on the first one. -/
example : vertices ([.line ⟨0, 0, 1, 0⟩, .line ⟨1, 0, 0, 0⟩] : List (Item ℚ)) = [(0, 0), (1, 0), (0, 0)] := rfl

end PyX.ShowPath
