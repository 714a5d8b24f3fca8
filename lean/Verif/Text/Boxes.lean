import Verif.Trafo.Props
import Mathlib.Data.List.Basic
import Mathlib.Tactic.Linarith

/-!
# C164: text boxes and what is drawn in them (`pyx/text.py:803-908, 1589-1701`, `pyx/box.py:63-74, 249-253, 306-318`)

A text is typeset at the origin, scaled by `unit.scale["x"]` and moved to its place.  The box may be transformed before and after the page of the text has been
read from the DVI file.  The page is a list of items, given by the points of their outlines; groups (color, rotation) are one level deep.
-/

set_option linter.unusedSectionVars false
set_option linter.unusedSimpArgs false

namespace PyX.Text.Boxes

/-! ## The model -/

/-- What is on a page: characters, rules (`dvifile.py` fills a path) and groups (`dvifile.py:114-119` inserts a canvas). -/
inductive Item (K : Type) where
  | chars (outline : List (K × K))
  | rule (outline : List (K × K))
  | group (t : Trafo K) (outline : List (K × K))

/-- The canvas of a page (`dvifile.py:431-432`): its transformation, items and markers in points. -/
structure Page (K : Type) where
  trafo : Trafo K
  items : List (Item K)
  markers : String → Option (K × K)

/-- `textextbox_pt` (`text.py:803-847`): corners and center of `box.rect_pt`, `texttrafo` and `_dvicanvas`. -/
structure TBox (K : Type) where
  corners : List (K × K)
  center : K × K
  texttrafo : Trafo K
  page : Option (Page K)

section
variable {K : Type} [Field K]

/-- `rect_pt` with `relcenter=(0, 0)` (`box.py:308-318`): corners and center. -/
def rect (x y w h : K) (abscenter : K × K) : List (K × K) × (K × K) :=
  ([(x, y), (x + w, y), (x + w, y + h), (x, y + h)], (x + 0 * w + abscenter.1, y + 0 * h + abscenter.2))

/-- `trafo.scale(unit.scale["x"]).translated_pt(x_pt, y_pt)` (`text.py:841, 1595`). -/
def startTrafo (s x y : K) : Trafo K := Trafo.mul (Trafo.translate x y) ⟨s, 0, 0, s, 0, 0⟩

/-- `textextbox_pt.__init__` (`text.py:841-847`). -/
def tex (s x y left right height depth : K) : TBox K :=
  let r := rect (x - left * s) (y - depth * s) ((left + right) * s) ((depth + height) * s) (left * s, depth * s)
  ⟨r.1, r.2, startTrafo s x y, none⟩

/-- The transformations one after the other (`box.py:64-67`). -/
def applyAll (ts : List (Trafo K)) (p : K × K) : K × K := ts.foldl (fun p t => t.apply p) p

/-- The transformations multiplied from the left (`text.py:851-852, 854-855`). -/
def mulAll (ts : List (Trafo K)) (t : Trafo K) : Trafo K := ts.foldl (fun u t => Trafo.mul t u) t

/-- `transform` (`text.py:849-855`, `box.py:63-67`). -/
def transform (ts : List (Trafo K)) (keep : Bool) (b : TBox K) : TBox K where
  corners := b.corners.map (applyAll ts)
  center := if keep then b.center else applyAll ts b.center
  texttrafo := mulAll ts b.texttrafo
  page := b.page.map fun p => { p with trafo := mulAll ts p.trafo }

/-- `reltransform` (`box.py:69-74`). -/
def reltransform (ts : List (Trafo K)) (b : TBox K) : TBox K :=
  transform ([Trafo.translate (-b.center.1) (-b.center.2)] ++ ts ++ [Trafo.translate b.center.1 b.center.2]) false b

/-- `readdvipage` (`text.py:857-859`) with the transformation of the new canvas (`canvas.py:122, 143-145`), when the page has not been read (`text.py:863`). -/
def read (items : List (Item K)) (markers : String → Option (K × K)) (b : TBox K) : TBox K :=
  match b.page with
  | some _ => b
  | none => { b with page := some ⟨Trafo.mul Trafo.one b.texttrafo, items, markers⟩ }

/-- What may happen to a text box.  Alignment is a translation by a vector (`box.py:172-186, 256-290`). -/
inductive Op (K : Type) where
  | transform (ts : List (Trafo K)) (keep : Bool)
  | rel (ts : List (Trafo K))
  | align (v : K × K)
  | read

/-- One of them. -/
def step (items : List (Item K)) (markers : String → Option (K × K)) (b : TBox K) : Op K → TBox K
  | .transform ts keep => transform ts keep b
  | .rel ts => reltransform ts b
  | .align v => transform [Trafo.translate v.1 v.2] false b
  | .read => read items markers b

/-- All of them in turn. -/
def run (items : List (Item K)) (markers : String → Option (K × K)) (ops : List (Op K)) (b : TBox K) : TBox K := ops.foldl (step items markers) b

/-- The points an item draws in the coordinates of its canvas. -/
def Item.drawn : Item K → List (K × K)
  | .chars o => o
  | .rule o => o
  | .group t o => o.map t.apply

/-- What is drawn by `processPS`, `processPDF`, `processSVG` (`text.py:893-906`, `canvas.py:203-207`): the page, which is read if needed. -/
def drawn (items : List (Item K)) (markers : String → Option (K × K)) (b : TBox K) : List (K × K) :=
  match (read items markers b).page with
  | some p => (p.items.flatMap Item.drawn).map p.trafo.apply
  | none => []

/-- `marker` (`text.py:867-885`): none for the KeyError. -/
def marker (items : List (Item K)) (markers : String → Option (K × K)) (b : TBox K) (name : String) : Option (K × K) :=
  match (read items markers b).page with
  | some p => (p.markers name).map b.texttrafo.apply
  | none => none

/-- `item.textpath()`: only the texts of fonts have this method; none for the AttributeError. -/
def Item.textpath : Item K → Option (List (K × K))
  | .chars o => some o
  | .rule _ => none
  | .group _ _ => none

/-- `textpath` (`text.py:887-891`). -/
def textpath (items : List (Item K)) (markers : String → Option (K × K)) (b : TBox K) : Option (List (K × K)) :=
  match (read items markers b).page with
  | some p => (p.items.mapM Item.textpath).map fun os => os.flatten.map b.texttrafo.apply
  | none => some []

/-- `unicodetextbox_pt.__init__` (`text.py:1595, 1634-1638`); `ll`, `ur`: the box of the canvas with the points `(0, 0)` and `(x_pt, 0)`. -/
def unicode (s x y : K) (ll ur : K × K) : TBox K :=
  let r := rect ll.1 ll.2 (ur.1 - ll.1) (ur.2 - ll.2) (0, 0)
  ⟨r.1.map (applyAll [startTrafo s x y]), applyAll [startTrafo s x y] r.2, startTrafo s x y, none⟩

/-- Items of the canvas of `unicodetextbox_pt` as read by its `textpath` (`text.py:1679-1689`): groups and rules are included. -/
def unicodeTextpath (items : List (Item K)) (b : TBox K) : List (K × K) :=
  (items.flatMap fun
    | .group t o => o.map t.apply
    | .rule o => o
    | .chars o => o).map b.texttrafo.apply

/-! ## Specification -/

/-- Where an anchor and a point go. -/
def follow : List (Op K) → (K × K) × (K × K) → (K × K) × (K × K)
  | [], s => s
  | .transform ts keep :: ops, (a, p) => follow ops (if keep then a else applyAll ts a, applyAll ts p)
  | .rel ts :: ops, (a, p) => follow ops (applyAll ts (0, 0) + a, applyAll ts (p - a) + a)
  | .align v :: ops, (a, p) => follow ops (a + v, p + v)
  | .read :: ops, s => follow ops s

/-- The corners of the typeset text around its origin. -/
def extents (left right height depth : K) : List (K × K) := [(-left, -depth), (right, -depth), (right, height), (-left, height)]

/-- The operation leaves the anchor where it is while the text moves. -/
def Op.keeps : Op K → Bool
  | .transform _ keep => keep
  | _ => false

def Op.isRead : Op K → Bool
  | .read => true
  | _ => false

/-! ## Lemmas -/

theorem mulAll_apply (ts : List (Trafo K)) (t : Trafo K) (p : K × K) : (mulAll ts t).apply p = applyAll ts (t.apply p) := by
  induction ts generalizing t with
  | nil => rfl
  | cons u ts ih =>
    change (mulAll ts (Trafo.mul u t)).apply p = applyAll ts (u.apply (t.apply p))
    rw [ih, Trafo.mul_apply]

theorem applyAll_append (ts us : List (Trafo K)) (p : K × K) : applyAll (ts ++ us) p = applyAll us (applyAll ts p) := List.foldl_append

theorem translate_apply (v p : K × K) : (Trafo.translate v.1 v.2).apply p = p + v := by
  simp only [Trafo.translate, Trafo.apply]
  ext <;> simp

theorem applyAll_rel (ts : List (Trafo K)) (c p : K × K) :
    applyAll ([Trafo.translate (-c.1) (-c.2)] ++ ts ++ [Trafo.translate c.1 c.2]) p = applyAll ts (p - c) + c := by
  rw [applyAll_append, applyAll_append]
  change (Trafo.translate c.1 c.2).apply (applyAll ts ((Trafo.translate (-c.1) (-c.2)).apply p)) = _
  rw [translate_apply]
  have : (Trafo.translate (-c.1) (-c.2)).apply p = p - c := by
    have := translate_apply (-c) p
    rw [sub_eq_add_neg]
    exact this
  rw [this]

/-- One operation moves center and text as specified. -/
theorem step_place (items : List (Item K)) (markers : String → Option (K × K)) (b : TBox K) (o : Op K) (q : K × K) :
    follow [o] (b.center, b.texttrafo.apply q) = ((step items markers b o).center, (step items markers b o).texttrafo.apply q) := by
  cases o with
  | transform ts keep =>
    change (if keep then b.center else applyAll ts b.center, applyAll ts (b.texttrafo.apply q)) = (if keep then b.center else applyAll ts b.center, (mulAll ts b.texttrafo).apply q)
    rw [mulAll_apply]
  | rel ts =>
    change (applyAll ts (0, 0) + b.center, applyAll ts (b.texttrafo.apply q - b.center) + b.center) = (applyAll _ b.center, (mulAll _ b.texttrafo).apply q)
    rw [mulAll_apply, applyAll_rel, applyAll_rel, sub_self]
    rfl
  | align v =>
    change (b.center + v, b.texttrafo.apply q + v) = ((Trafo.translate v.1 v.2).apply b.center, (mulAll [Trafo.translate v.1 v.2] b.texttrafo).apply q)
    rw [mulAll_apply]
    change _ = (_, (Trafo.translate v.1 v.2).apply _)
    rw [translate_apply, translate_apply]
  | read =>
    change (b.center, b.texttrafo.apply q) = ((read items markers b).center, (read items markers b).texttrafo.apply q)
    unfold read
    split <;> rfl

theorem follow_cons (o : Op K) (ops : List (Op K)) (s : (K × K) × (K × K)) : follow (o :: ops) s = follow ops (follow [o] s) := by
  cases o <;> rfl

/-! ## Where the text goes -/

/-- C164: after any operations, in any order, each point of the text is where the operations bring it one after the other, and so is the anchor. -/
theorem text_follows (items : List (Item K)) (markers : String → Option (K × K)) (ops : List (Op K)) (b : TBox K) (q : K × K) :
    ((run items markers ops b).center, (run items markers ops b).texttrafo.apply q) = follow ops (b.center, b.texttrafo.apply q) := by
  induction ops generalizing b with
  | nil => rfl
  | cons o ops ih =>
    change ((run items markers ops (step items markers b o)).center, (run items markers ops (step items markers b o)).texttrafo.apply q) = _
    rw [ih, follow_cons, step_place items markers]

theorem step_corners (items : List (Item K)) (markers : String → Option (K × K)) (b : TBox K) (o : Op K) (e : List (K × K)) (h : b.corners = e.map b.texttrafo.apply) :
    (step items markers b o).corners = e.map (step items markers b o).texttrafo.apply := by
  have key (ts : List (Trafo K)) (keep : Bool) : (transform ts keep b).corners = e.map (transform ts keep b).texttrafo.apply := by
    change b.corners.map (applyAll ts) = e.map (mulAll ts b.texttrafo).apply
    rw [h, List.map_map]
    exact List.map_congr_left fun p _ => (mulAll_apply ts b.texttrafo p).symm
  cases o with
  | transform ts keep => exact key ts keep
  | rel ts => exact key _ _
  | align v => exact key _ _
  | read =>
    change (read items markers b).corners = e.map (read items markers b).texttrafo.apply
    unfold read
    split <;> exact h

theorem run_corners (items : List (Item K)) (markers : String → Option (K × K)) (ops : List (Op K)) (b : TBox K) (e : List (K × K)) (h : b.corners = e.map b.texttrafo.apply) :
    (run items markers ops b).corners = e.map (run items markers ops b).texttrafo.apply := by
  induction ops generalizing b with
  | nil => exact h
  | cons o ops ih => exact ih _ (step_corners items markers b o e h)

theorem start_apply (s x y : K) (p : K × K) : (startTrafo s x y).apply p = (x + s * p.1, y + s * p.2) := by
  simp only [startTrafo, Trafo.mul, Trafo.translate, Trafo.apply]
  ext <;> simp only [] <;> ring

/-- C164: a text is put with its origin at the given place, scaled; this is its anchor. -/
theorem tex_start (s x y left right height depth : K) (q : K × K) :
    (tex s x y left right height depth).center = (x, y) ∧ (tex s x y left right height depth).texttrafo.apply q = (x + s * q.1, y + s * q.2) := by
  refine ⟨?_, start_apply s x y q⟩
  simp only [tex, rect]
  ext <;> simp only [] <;> ring

theorem tex_corners (s x y left right height depth : K) :
    (tex s x y left right height depth).corners = (extents left right height depth).map (tex s x y left right height depth).texttrafo.apply := by
  simp only [tex, rect, extents, List.map_cons, List.map_nil, start_apply]
  simp only [List.cons.injEq, Prod.mk.injEq, and_true]
  refine ⟨⟨?_, ?_⟩, ⟨?_, ?_⟩, ⟨?_, ?_⟩, ?_, ?_⟩ <;> ring

/-- C164: the corners of the box are the corners of the typeset text moved together with the text, after any operations. -/
theorem box_follows (items : List (Item K)) (markers : String → Option (K × K)) (ops : List (Op K)) (s x y left right height depth : K) :
    (run items markers ops (tex s x y left right height depth)).corners =
      (extents left right height depth).map (run items markers ops (tex s x y left right height depth)).texttrafo.apply :=
  run_corners items markers ops _ _ (tex_corners s x y left right height depth)

theorem follow_same (ops : List (Op K)) (h : ∀ o ∈ ops, o.keeps = false) (p : K × K) : (follow ops (p, p)).1 = (follow ops (p, p)).2 := by
  induction ops generalizing p with
  | nil => rfl
  | cons o ops ih =>
    have h' : ∀ o ∈ ops, o.keeps = false := fun o ho => h o (List.mem_cons_of_mem _ ho)
    have h0 := h o (List.mem_cons_self)
    cases o with
    | transform ts keep =>
      have : keep = false := h0
      subst this
      exact ih h' _
    | rel ts =>
      have := ih h' (applyAll ts (0, 0) + p)
      change (follow ops (applyAll ts (0, 0) + p, applyAll ts (p - p) + p)).1 = (follow ops (applyAll ts (0, 0) + p, applyAll ts (p - p) + p)).2
      rw [sub_self]
      exact this
    | align v => exact ih h' _
    | read => exact ih h' _

/-- C164: as long as no operation keeps the anchor, the anchor is the origin of the text. -/
theorem anchor_is_origin (items : List (Item K)) (markers : String → Option (K × K)) (ops : List (Op K)) (h : ∀ o ∈ ops, o.keeps = false) (s x y left right height depth : K) :
    (run items markers ops (tex s x y left right height depth)).center = (run items markers ops (tex s x y left right height depth)).texttrafo.apply (0, 0) := by
  have t := text_follows items markers ops (tex s x y left right height depth) (0, 0)
  obtain ⟨h1, h2⟩ := tex_start s x y left right height depth (0, 0)
  rw [h1, h2] at t
  have e : (x + s * ((0, 0) : K × K).1, y + s * ((0, 0) : K × K).2) = (x, y) := by simp
  rw [e] at t
  have := follow_same ops h (x, y)
  rw [← t] at this
  exact this

/-- C164: a relative transformation without a shift leaves the anchor in place. -/
theorem rel_keeps_anchor (ts : List (Trafo K)) (h : ∀ t ∈ ts, t.e = 0 ∧ t.f = 0) (b : TBox K) : (reltransform ts b).center = b.center := by
  change applyAll _ b.center = _
  rw [applyAll_rel, sub_self]
  have : applyAll ts 0 = 0 := by
    induction ts with
    | nil => rfl
    | cons t ts ih =>
      have h0 := h t List.mem_cons_self
      change applyAll ts (t.apply 0) = 0
      have : t.apply 0 = 0 := by
        simp only [Trafo.apply, Prod.fst_zero, Prod.snd_zero, mul_zero, add_zero, zero_add, h0.1, h0.2]
        rfl
      rw [this]
      exact ih fun t ht => h t (List.mem_cons_of_mem _ ht)
  rw [this, zero_add]

/-! ## What is drawn -/

/-- A page which has been read is the page of the text and is placed like the text. -/
def Good (items : List (Item K)) (markers : String → Option (K × K)) (b : TBox K) : Prop := ∀ p, b.page = some p → p = ⟨b.texttrafo, items, markers⟩

theorem transform_good (items : List (Item K)) (markers : String → Option (K × K)) (ts : List (Trafo K)) (keep : Bool) (b : TBox K) (h : Good items markers b) :
    Good items markers (transform ts keep b) := by
  intro p hp
  change b.page.map _ = some p at hp
  cases hq : b.page with
  | none => rw [hq] at hp; cases hp
  | some q =>
    rw [hq] at hp
    injection hp with hp
    rw [← hp, h q hq]
    rfl

theorem read_good (items : List (Item K)) (markers : String → Option (K × K)) (b : TBox K) (h : Good items markers b) : Good items markers (read items markers b) := by
  unfold read
  cases hq : b.page with
  | some q => exact h
  | none =>
    intro p hp
    injection hp with hp
    rw [← hp, (Trafo.one_unit b.texttrafo (0, 0)).1]

theorem run_good (items : List (Item K)) (markers : String → Option (K × K)) (ops : List (Op K)) (b : TBox K) (h : Good items markers b) : Good items markers (run items markers ops b) := by
  induction ops generalizing b with
  | nil => exact h
  | cons o ops ih =>
    refine ih _ ?_
    cases o with
    | transform ts keep => exact transform_good _ _ _ _ _ h
    | rel ts => exact transform_good _ _ _ _ _ h
    | align v => exact transform_good _ _ _ _ _ h
    | read => exact read_good _ _ _ h

theorem read_page (items : List (Item K)) (markers : String → Option (K × K)) (b : TBox K) (h : Good items markers b) :
    (read items markers b).page = some ⟨b.texttrafo, items, markers⟩ := by
  unfold read
  cases hq : b.page with
  | some q => dsimp only; rw [hq, h q hq]
  | none => dsimp only; rw [(Trafo.one_unit b.texttrafo (0, 0)).1]

/-- C164: whenever the page is read, what is drawn is the typeset text, each point at the place of the text. -/
theorem drawn_follows (items : List (Item K)) (markers : String → Option (K × K)) (ops : List (Op K)) (b : TBox K) (h : b.page = none) :
    drawn items markers (run items markers ops b) = (items.flatMap Item.drawn).map fun q => (follow ops (b.center, b.texttrafo.apply q)).2 := by
  have hg : Good items markers b := by intro p hp; rw [h] at hp; cases hp
  unfold drawn
  rw [read_page _ _ _ (run_good items markers ops b hg)]
  dsimp only
  refine List.map_congr_left fun q _ => ?_
  rw [← text_follows items markers ops b q]

/-- C164: a marker is found where its place in the text is drawn. -/
theorem marker_follows (items : List (Item K)) (markers : String → Option (K × K)) (ops : List (Op K)) (b : TBox K) (h : b.page = none) (name : String) :
    marker items markers (run items markers ops b) name = (markers name).map fun q => (follow ops (b.center, b.texttrafo.apply q)).2 := by
  have hg : Good items markers b := by intro p hp; rw [h] at hp; cases hp
  unfold marker
  rw [read_page _ _ _ (run_good items markers ops b hg)]
  dsimp only
  congr 1
  funext q
  rw [← text_follows items markers ops b q]

theorem follow_reads (ops : List (Op K)) (st : (K × K) × (K × K)) : follow (ops.filter fun o => !o.isRead) st = follow ops st := by
  induction ops generalizing st with
  | nil => rfl
  | cons o ops ih =>
    cases o with
    | transform ts keep => exact ih _
    | rel ts => exact ih _
    | align v => exact ih _
    | read => exact ih _

/-- C164: when the page is read makes no difference. -/
theorem reading_time (items : List (Item K)) (markers : String → Option (K × K)) (ops : List (Op K)) (b : TBox K) (h : b.page = none) :
    drawn items markers (run items markers ops b) = drawn items markers (run items markers (ops.filter fun o => !o.isRead) b) := by
  rw [drawn_follows _ _ _ _ h, drawn_follows _ _ _ _ h]
  refine List.map_congr_left fun q _ => ?_
  rw [follow_reads]

/-! ## Outlines -/

theorem mapM_textpath (items : List (Item K)) (h : ∀ i ∈ items, ∃ o, i = .chars o) : items.mapM Item.textpath = some (items.map Item.drawn) := by
  induction items with
  | nil => rfl
  | cons i items ih =>
    obtain ⟨o, ho⟩ := h i List.mem_cons_self
    rw [List.mapM_cons, ih fun j hj => h j (List.mem_cons_of_mem _ hj), ho]
    rfl

theorem mapM_none (items : List (Item K)) (h : ∃ i ∈ items, ∀ o, i ≠ .chars o) : items.mapM Item.textpath = none := by
  induction items with
  | nil => obtain ⟨i, hi, _⟩ := h; cases hi
  | cons i items ih =>
    rw [List.mapM_cons]
    by_cases hi : ∀ o, i ≠ .chars o
    · have : i.textpath = none := by
        cases i with
        | chars o => exact absurd rfl (hi o)
        | rule o => rfl
        | group t o => rfl
      rw [this]
      rfl
    · obtain ⟨j, hj, hjo⟩ := h
      rcases List.mem_cons.mp hj with rfl | hj
      · exact absurd hjo hi
      · rw [ih ⟨j, hj, hjo⟩]
        cases i.textpath <;> rfl

/-- C164: the outline of a text of characters only is what is drawn, after any operations. -/
theorem textpath_drawn_partial (items : List (Item K)) (markers : String → Option (K × K)) (ops : List (Op K)) (b : TBox K) (hb : b.page = none) (h : ∀ i ∈ items, ∃ o, i = .chars o) :
    textpath items markers (run items markers ops b) = some (drawn items markers (run items markers ops b)) := by
  have hg : Good items markers b := by intro p hp; rw [hb] at hp; cases hp
  unfold textpath drawn
  rw [read_page _ _ _ (run_good items markers ops b hg)]
  dsimp only
  rw [mapM_textpath items h]
  rfl

/-- C164 (violation): a text with a rule (a fraction, a root) or a group (a color) has no outline: an AttributeError is raised. -/
theorem textpath_fails (items : List (Item K)) (markers : String → Option (K × K)) (ops : List (Op K)) (b : TBox K) (hb : b.page = none) (h : ∃ i ∈ items, ∀ o, i ≠ .chars o) :
    textpath items markers (run items markers ops b) = none := by
  have hg : Good items markers b := by intro p hp; rw [hb] at hp; cases hp
  unfold textpath
  rw [read_page _ _ _ (run_good items markers ops b hg)]
  dsimp only
  rw [mapM_none items h]
  rfl

/-- C164: Unicode texts have an outline which is what is drawn, with rules and groups. -/
theorem unicode_textpath (items : List (Item K)) (markers : String → Option (K × K)) (ops : List (Op K)) (b : TBox K) (hb : b.page = none) :
    unicodeTextpath items (run items markers ops b) = drawn items markers (run items markers ops b) := by
  have hg : Good items markers b := by intro p hp; rw [hb] at hp; cases hp
  unfold unicodeTextpath drawn
  rw [read_page _ _ _ (run_good items markers ops b hg)]
  dsimp only
  congr 2
  funext i
  cases i <;> rfl

/-! ## Unicode texts -/

/-- C164: the box of a Unicode text moves with the text. -/
theorem unicode_box (items : List (Item K)) (markers : String → Option (K × K)) (ops : List (Op K)) (s x y : K) (ll ur : K × K) :
    (run items markers ops (unicode s x y ll ur)).corners = [ll, (ur.1, ll.2), ur, (ll.1, ur.2)].map (run items markers ops (unicode s x y ll ur)).texttrafo.apply := by
  refine run_corners items markers ops _ _ ?_
  simp only [unicode, rect, List.map_cons, List.map_nil, applyAll, List.foldl_cons, List.foldl_nil, add_sub_cancel]

/-- C164 (violation): the anchor of a Unicode text is the lower left corner of its box: the given place only if nothing is left of or below it. -/
theorem unicode_anchor (s x y : K) (hs : s ≠ 0) (ll ur : K × K) : (unicode s x y ll ur).center = (x, y) ↔ ll = (0, 0) := by
  have e : (unicode s x y ll ur).center = (x + s * ll.1, y + s * ll.2) := by
    simp only [unicode, rect, applyAll, List.foldl_cons, List.foldl_nil, start_apply]
    ext <;> simp
  rw [e]
  constructor
  · intro h
    simp only [Prod.mk.injEq, add_eq_left, mul_eq_zero, hs, false_or] at h
    exact Prod.ext h.1 h.2
  · intro h
    rw [h]
    simp

end

/-! ## The bounding box -/

section
variable {K : Type} [Field K] [LinearOrder K] [IsStrictOrderedRing K]

/-- `min`, `max` of a list which is not empty. -/
def lmin : List K → K
  | [] => 0
  | a :: l => l.foldl min a

def lmax : List K → K
  | [] => 0
  | a :: l => l.foldl max a

/-- `bbox` (`box.py:249-253`), by which `processPS`, `processPDF`, `processSVG` enlarge the box (`text.py:896, 901, 906`): lower left and upper right corner. -/
def bbox (b : TBox K) : (K × K) × (K × K) :=
  ((lmin (b.corners.map Prod.fst), lmin (b.corners.map Prod.snd)), (lmax (b.corners.map Prod.fst), lmax (b.corners.map Prod.snd)))

theorem affine_between (α β γ l r d h u v : K) (hu : l ≤ u ∧ u ≤ r) (hv : d ≤ v ∧ v ≤ h) :
    lmin [α * l + β * d + γ, α * r + β * d + γ, α * r + β * h + γ, α * l + β * h + γ] ≤ α * u + β * v + γ ∧
      α * u + β * v + γ ≤ lmax [α * l + β * d + γ, α * r + β * d + γ, α * r + β * h + γ, α * l + β * h + γ] := by
  simp only [lmin, lmax, List.foldl_cons, List.foldl_nil, min_le_iff, le_max_iff]
  rcases le_total 0 α with ha | ha <;> rcases le_total 0 β with hb | hb
  · have a1 := mul_le_mul_of_nonneg_left hu.1 ha
    have a2 := mul_le_mul_of_nonneg_left hu.2 ha
    have b1 := mul_le_mul_of_nonneg_left hv.1 hb
    have b2 := mul_le_mul_of_nonneg_left hv.2 hb
    exact ⟨Or.inl (Or.inl (Or.inl (by linarith))), Or.inl (Or.inr (by linarith))⟩
  · have a1 := mul_le_mul_of_nonneg_left hu.1 ha
    have a2 := mul_le_mul_of_nonneg_left hu.2 ha
    have b1 := mul_le_mul_of_nonpos_left hv.1 hb
    have b2 := mul_le_mul_of_nonpos_left hv.2 hb
    exact ⟨Or.inr (by linarith), Or.inl (Or.inl (Or.inr (by linarith)))⟩
  · have a1 := mul_le_mul_of_nonpos_left hu.1 ha
    have a2 := mul_le_mul_of_nonpos_left hu.2 ha
    have b1 := mul_le_mul_of_nonneg_left hv.1 hb
    have b2 := mul_le_mul_of_nonneg_left hv.2 hb
    exact ⟨Or.inl (Or.inl (Or.inr (by linarith))), Or.inr (by linarith)⟩
  · have a1 := mul_le_mul_of_nonpos_left hu.1 ha
    have a2 := mul_le_mul_of_nonpos_left hu.2 ha
    have b1 := mul_le_mul_of_nonpos_left hv.1 hb
    have b2 := mul_le_mul_of_nonpos_left hv.2 hb
    exact ⟨Or.inl (Or.inr (by linarith)), Or.inl (Or.inl (Or.inl (by linarith)))⟩

/-- C164: the bounding box contains everything which is inside of the extents of the typeset text, after any operations (also rotations). -/
theorem bbox_contains (items : List (Item K)) (markers : String → Option (K × K)) (ops : List (Op K)) (s x y left right height depth : K) (q : K × K)
    (h1 : -left ≤ q.1 ∧ q.1 ≤ right) (h2 : -depth ≤ q.2 ∧ q.2 ≤ height) :
    let b := run items markers ops (tex s x y left right height depth)
    ((bbox b).1.1 ≤ (b.texttrafo.apply q).1 ∧ (b.texttrafo.apply q).1 ≤ (bbox b).2.1) ∧ (bbox b).1.2 ≤ (b.texttrafo.apply q).2 ∧ (b.texttrafo.apply q).2 ≤ (bbox b).2.2 := by
  intro b
  have hc : b.corners = (extents left right height depth).map b.texttrafo.apply := box_follows items markers ops s x y left right height depth
  unfold bbox
  rw [hc]
  simp only [extents, List.map_cons, List.map_nil, Trafo.apply]
  have e1 := affine_between b.texttrafo.a b.texttrafo.b b.texttrafo.e (-left) right (-depth) height q.1 q.2 h1 h2
  have e2 := affine_between b.texttrafo.c b.texttrafo.d b.texttrafo.f (-left) right (-depth) height q.1 q.2 h1 h2
  exact ⟨e1, e2⟩

end

/-! ## Concrete cases -/

/-- A text moved, turned around its anchor after its page was read, and aligned, with a rule and a marker. -/
def sample : List (Op ℚ) := [.transform [Trafo.translate 1 2] false, .read, .rel [⟨0, -1, 1, 0, 0, 0⟩], .align (5, 0), .transform [Trafo.translate 0 (-3)] true]

def sampleItems : List (Item ℚ) := [.chars [(0, 0), (3, 1)], .rule [(3, 0)]]

def sampleMarkers (n : String) : Option (ℚ × ℚ) := if n = "a" then some (3, 1) else none

example : drawn sampleItems sampleMarkers (run sampleItems sampleMarkers sample (tex 2 10 20 0 4 2 1)) = [(16, 19), (14, 25), (16, 25)] := by decide +kernel
example : marker sampleItems sampleMarkers (run sampleItems sampleMarkers sample (tex 2 10 20 0 4 2 1)) "a" = some (14, 25) := by decide +kernel
example : (run sampleItems sampleMarkers sample (tex 2 10 20 0 4 2 1)).center = (16, 22) := by decide +kernel
example : bbox (run sampleItems sampleMarkers sample (tex 2 10 20 0 4 2 1)) = ((12, 19), (18, 27)) := by decide +kernel
example : ((-0 : ℚ) ≤ 3 ∧ (3 : ℚ) ≤ 4) ∧ (-1 : ℚ) ≤ 1 ∧ (1 : ℚ) ≤ 2 := by norm_num
example : (tex (2 : ℚ) 10 20 0 4 2 1).page = none ∧ ∀ o ∈ sample.take 4, o.keeps = false := by
  refine ⟨rfl, ?_⟩
  intro o ho
  simp only [sample, List.take, List.mem_cons, List.not_mem_nil, or_false] at ho
  rcases ho with rfl | rfl | rfl | rfl <;> rfl
example : textpath sampleItems sampleMarkers (run sampleItems sampleMarkers sample (tex 2 10 20 0 4 2 1)) = none := by decide +kernel
example : textpath (sampleItems.take 1) sampleMarkers (run (sampleItems.take 1) sampleMarkers sample (tex 2 10 20 0 4 2 1)) = some [(16, 19), (14, 25)] := by decide +kernel
/-- A Unicode text with descenders: the anchor is below the base line. -/
example : (unicode (1 : ℚ) 10 20 (0, -2) (8, 7)).center = (10, 18) := by decide +kernel

end PyX.Text.Boxes
