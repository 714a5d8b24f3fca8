import Verif.Box.Lists
import Verif.Graph.GraphXYProps

/-!
# C128: the layout of graph keys (`graph/key.py`)
-/

set_option linter.unusedSectionVars false

namespace PyX.Graph.Key

noncomputable section

open PyX.Box

/-! ## Model -/

/-- The extents of a title (`text.py:830-834`). -/
structure Title where
  left : ℝ
  right : ℝ
  height : ℝ
  depth : ℝ

/-- The box of the text at the origin (`text.py:842-845`), with the scale of texts one. -/
def Title.box (t : Title) : Polygon := rect (0 - t.left) (0 - t.depth) (t.left + t.right) (t.depth + t.height) (0, 0) (t.left, t.depth)

/-- The settings of a key (`graph/key.py:33-47`), in points. -/
structure Settings where
  dist : ℝ
  symbolwidth : ℝ
  symbolheight : ℝ
  symbolspace : ℝ

/-- The symbols are placed one below the other (`graph/key.py:90-93`). -/
def symbolsFrom (y dy : ℝ) : ℕ → List Pt
  | 0 => []
  | n + 1 => (0, y) :: symbolsFrom (y - dy) dy n

/-- What `paintcolumn` draws: the boxes of the titles and the lower left corners of the symbols. -/
structure Column where
  titles : List Polygon
  symbols : List Pt

/-- The symbols for the aligned titles (`graph/key.py:90-93`). -/
def withSymbols (s : Settings) (dy : ℝ) (Ps : List Polygon) : Except Err Column :=
  match Ps with
  | [] => .error .noCorners
  | P :: _ => .ok ⟨Ps, symbolsFrom (-(1 / 2) * s.symbolheight + P.center.2) dy Ps.length⟩

/-- `paintcolumn` (`graph/key.py:74-97`). -/
def paintcolumn (s : Settings) (ts : List Title) : Except Err Column :=
  (tile (ts.map Title.box) s.dist (0, -1)).bind fun r =>
    (linealignequal r.1 (s.symbolwidth + s.symbolspace) (1, 0)).bind fun Ps => withSymbols s r.2 Ps

/-- The table of `pos` (`graph/key.py:53-61`). -/
def posTable : List (List String × Rat × Rat) :=
  [(["tr", "rt"], 1, 1), (["tc", "ct"], 1 / 2, 1), (["tl", "lt"], 0, 1), (["mr", "rm"], 1, 1 / 2), (["mc", "cm"], 1 / 2, 1 / 2), (["ml", "lm"], 0, 1 / 2),
   (["br", "rb"], 1, 0), (["bc", "cb"], 1 / 2, 0), (["bl", "lb"], 0, 0)]

/-- The choice of the position (`graph/key.py:50-72`); `none` stands for a `ValueError`. -/
def choosePos (pos : Option String) (hpos vpos : Option Rat) : Option (Rat × Rat) :=
  match pos with
  | some p => if vpos.isSome || hpos.isSome then none else (posTable.find? fun r => p ∈ r.1).map Prod.snd
  | none =>
    match vpos, hpos with
    | some v, some h => some (h, v)
    | _, _ => none

/-! ## Columns -/

/-- A title whose box is not degenerate. -/
def Title.Proper (t : Title) : Prop := 1 / 10 ^ 5 ≤ t.left + t.right ∧ 1 / 10 ^ 5 ≤ t.depth + t.height

/-- The title with its anchor (the left end of its baseline, for titles which are not shifted) at a point. -/
def Title.at_ (t : Title) (p : Pt) : Polygon :=
  ⟨[(p.1 - t.left, p.2 - t.depth), (p.1 + t.right, p.2 - t.depth), (p.1 + t.right, p.2 + t.height), (p.1 - t.left, p.2 + t.height)], p⟩

theorem box_eq (t : Title) : t.box = t.at_ (0, 0) := by
  simp only [Title.box, rect, Title.at_, Polygon.mk.injEq, List.cons.injEq, Prod.mk.injEq, and_true]
  constructorm* _ ∧ _ <;> first | trivial | ring

theorem moved_at (t : Title) (p v : Pt) : moved (t.at_ p) v = t.at_ (p + v) := by
  simp only [moved, Title.at_, List.map_cons, List.map_nil, Polygon.mk.injEq, List.cons.injEq, and_true, Prod.ext_iff, Prod.fst_add, Prod.snd_add]
  constructorm* _ ∧ _ <;> first | trivial | ring

theorem at_rect (t : Title) (p : Pt) : t.at_ p = rect (p.1 - t.left) (p.2 - t.depth) (t.left + t.right) (t.depth + t.height) (0, 0) (t.left, t.depth) := by
  simp only [rect, Title.at_, Polygon.mk.injEq, List.cons.injEq, Prod.mk.injEq, and_true, Prod.ext_iff]
  constructorm* _ ∧ _ <;> first | trivial | ring

theorem proper_box {t : Title} (h : t.Proper) (p d : Pt) (hd : d = (1, 0) ∨ d = (-1, 0) ∨ d = (0, 1) ∨ d = (0, -1)) :
    Convex (t.at_ p) ∧ Long (t.at_ p) ∧ ClearLine (t.at_ p) d := by
  obtain ⟨h1, h2⟩ := h
  have e : epsilon = 1 / 10 ^ 10 := by norm_num [epsilon]
  have e1 : epsilon < 1 / 10 ^ 5 := by rw [e]; norm_num
  rw [at_rect]
  refine ⟨rect_convex _ _ _ _ _ _ (by linarith [epsilon_pos]) (by linarith [epsilon_pos]), rect_long _ _ _ _ _ _ ?_ ?_, rect_clear _ _ _ _ _ _ _ (by linarith) (by linarith) hd⟩
  · rw [e]; nlinarith
  · rw [e]; nlinarith

theorem symbolsFrom_get (dy : ℝ) : ∀ (n : ℕ) (y : ℝ) (k : ℕ), k < n → (symbolsFrom y dy n)[k]? = some (0, y - k * dy) := by
  intro n
  induction n with
  | zero => intro y k h; omega
  | succ n ih =>
    intro y k h
    cases k with
    | zero => simp [symbolsFrom]
    | succ k =>
      rw [symbolsFrom, List.getElem?_cons_succ, ih _ _ (by omega)]
      push_cast
      congr 2
      ring

theorem symbolsFrom_length (dy : ℝ) : ∀ (n : ℕ) (y : ℝ), (symbolsFrom y dy n).length = n := by
  intro n
  induction n with
  | zero => intro y; rfl
  | succ n ih => intro y; simp [symbolsFrom, ih]

theorem unitOf_unit {d : Pt} (hd : d.1 ^ 2 + d.2 ^ 2 = 1) : unitOf d = d := by
  unfold unitOf
  rw [hd]
  simp

/-- The extent of a title downwards. -/
theorem extent_title {t : Title} (h : t.Proper) : extent t.box (0, -1) = .ok (t.depth + t.height) := by
  have hu : unitOf (0, -1) = (0, -1) := unitOf_unit (by norm_num)
  rw [box_eq]
  obtain ⟨c1, c2, c3⟩ := proper_box h (0, 0) (0, -1) (by simp)
  obtain ⟨p, hp, q, hq, he, hm⟩ := extent_partial c1 c2 (0, -1) (by simp) (by rw [hu]; exact c3)
  rw [hu] at he hm
  rw [he]
  have hpos := h.2
  have m1 := hm (0 - t.left, 0 - t.depth) (by simp [Title.at_])
  have m2 := hm (0 - t.left, 0 + t.height) (by simp [Title.at_])
  simp only [dot] at m1 m2 ⊢
  congr 1
  simp only [Title.at_, List.mem_cons, List.not_mem_nil, or_false] at hp hq
  have k : (0 : ℝ) < 1 / 10 ^ 5 := by positivity
  rcases hp with rfl | rfl | rfl | rfl <;> rcases hq with rfl | rfl | rfl | rfl <;> simp only at m1 m2 ⊢ <;> linarith

/-- **C128.**  A column of a key: the anchors of the titles are one below the other at equal distances (`delta`), which are the largest height of a title and `dist` together;
no title reaches to the left of the symbols and `symbolspace`, and one of them begins there; the middle of each symbol is at the height of the anchor of its title. -/
theorem column_spec (s : Settings) (ts : List Title) (hne : ts ≠ []) (hp : ∀ t ∈ ts, t.Proper) :
    ∃ c X delta, paintcolumn s ts = .ok c ∧ c.titles.length = ts.length ∧ c.symbols.length = ts.length ∧
      (∃ t ∈ ts, delta = t.depth + t.height + s.dist) ∧ (∀ t ∈ ts, t.depth + t.height + s.dist ≤ delta) ∧
      (∀ t ∈ ts, s.symbolwidth + s.symbolspace ≤ X - t.left) ∧ (∃ t ∈ ts, s.symbolwidth + s.symbolspace = X - t.left) ∧
      ∀ k (hk : k < ts.length), c.titles[k]? = some (ts[k].at_ (X, -(k * delta))) ∧
        c.symbols[k]? = some (0, -(k * delta) - s.symbolheight / 2) := by
  classical
  obtain ⟨t0, tr, rfl⟩ := List.exists_cons_of_ne_nil hne
  obtain ⟨m, hm, ⟨P, hP, hmP⟩, hle⟩ := maxextent_spec t0.box (tr.map Title.box) (0, -1)
    (fun P => if h : ∃ t ∈ t0 :: tr, t.box = P then h.choose.depth + h.choose.height else 0) (by
      intro P hP
      have h : ∃ t ∈ t0 :: tr, t.box = P := by
        rcases List.mem_cons.mp hP with rfl | hP
        · exact ⟨t0, by simp, rfl⟩
        · obtain ⟨t, ht, rfl⟩ := List.mem_map.mp hP
          exact ⟨t, List.mem_cons_of_mem _ ht, rfl⟩
      rw [dif_pos h]
      have hc := h.choose_spec
      conv_lhs => rw [← hc.2]
      exact extent_title (hp _ hc.1))
  have hext : ∀ t ∈ t0 :: tr, (if h : ∃ t' ∈ t0 :: tr, t'.box = t.box then h.choose.depth + h.choose.height else 0) = t.depth + t.height := by
    intro t ht
    have h : ∃ t' ∈ t0 :: tr, t'.box = t.box := ⟨t, ht, rfl⟩
    rw [dif_pos h]
    have hc := h.choose_spec
    have e1 := extent_title (hp _ hc.1)
    rw [hc.2, extent_title (hp _ ht)] at e1
    injection e1 with e1
    exact e1.symm
  have hle' : ∀ t ∈ t0 :: tr, t.depth + t.height ≤ m := by
    intro t ht
    have := hle t.box (by
      rcases List.mem_cons.mp ht with rfl | ht
      · simp
      · exact List.mem_cons_of_mem _ (List.mem_map.mpr ⟨t, ht, rfl⟩))
    rwa [hext t ht] at this
  have hat : ∃ t ∈ t0 :: tr, m = t.depth + t.height := by
    obtain ⟨t, ht, rfl⟩ : ∃ t ∈ t0 :: tr, t.box = P := by
      rcases List.mem_cons.mp hP with rfl | hP
      · exact ⟨t0, by simp, rfl⟩
      · obtain ⟨t, ht, rfl⟩ := List.mem_map.mp hP
        exact ⟨t, List.mem_cons_of_mem _ ht, rfl⟩
    exact ⟨t, ht, by rw [hmP, hext t ht]⟩
  have htile : tile ((t0 :: tr).map Title.box) s.dist (0, -1) = .ok (tileMove (m + s.dist) (0, -1) 0 ((t0 :: tr).map Title.box), m + s.dist) := by
    unfold tile
    rw [List.map_cons, hm]
    rfl
  obtain ⟨hlen, hget⟩ := tileMove_spec (m + s.dist) (0, -1) 0 ((t0 :: tr).map Title.box)
  have hget' : ∀ k (hk : k < (t0 :: tr).length), (tileMove (m + s.dist) (0, -1) 0 ((t0 :: tr).map Title.box))[k]? =
      some ((t0 :: tr)[k].at_ (0, -(k * (m + s.dist)))) := by
    intro k hk
    rw [hget k (by simpa using hk), List.getElem_map, box_eq, moved_at]
    congr 2
    ext <;> simp
  generalize tileMove (m + s.dist) (0, -1) 0 ((t0 :: tr).map Title.box) = Qs at *
  have hQ : ∀ Q ∈ Qs, ∃ k, ∃ hk : k < (t0 :: tr).length, Q = (t0 :: tr)[k].at_ (0, -(k * (m + s.dist))) := by
    intro Q hQ
    obtain ⟨k, hk, e⟩ := List.getElem_of_mem hQ
    have hk' : k < (t0 :: tr).length := by rw [hlen, List.length_map] at hk; exact hk
    refine ⟨k, hk', ?_⟩
    have := hget' k hk'
    rw [List.getElem?_eq_getElem hk, e] at this
    injection this
  have hQne : Qs ≠ [] := by
    intro h
    rw [h] at hlen
    simp at hlen
  have hu : unitOf (1, 0) = (1, 0) := unitOf_axis.1
  obtain ⟨X, h1, h2, h3⟩ := linealignequal_partial Qs hQne (s.symbolwidth + s.symbolspace) (1, 0) (by simp) (by
    intro Q hQ'
    obtain ⟨k, hk, rfl⟩ := hQ Q hQ'
    rw [hu]
    exact proper_box (hp _ (List.getElem_mem _)) _ _ (by simp))
  rw [hu] at h2 h3
  obtain ⟨Q0, Qr, rfl⟩ := List.exists_cons_of_ne_nil hQne
  have hQ0 : Q0 = t0.at_ (0, 0) := by
    have := hget' 0 (by simp)
    simp only [List.getElem?_cons_zero, Option.some.injEq, List.getElem_cons_zero] at this
    rw [this]
    simp
  refine ⟨⟨(Q0 :: Qr).map fun P => moved P (X * 1, X * 0), symbolsFrom (-(1 / 2) * s.symbolheight + 0) (m + s.dist) (Q0 :: Qr).length⟩, X, m + s.dist, ?_, ?_, ?_, ?_, ?_, ?_, ?_, ?_⟩
  · rw [paintcolumn, htile]
    simp only [Except.bind]
    rw [h1]
    simp only [List.map_cons, withSymbols, hQ0, moved_at, List.length_cons, List.length_map]
    simp [Title.at_]
  · simp only [List.length_map]
    rw [hlen, List.length_map]
  · simp only [symbolsFrom_length]
    rw [hlen, List.length_map]
  · obtain ⟨t, ht, e⟩ := hat
    exact ⟨t, ht, by rw [e]⟩
  · intro t ht
    linarith [hle' t ht]
  · intro t ht
    obtain ⟨k, hk, e⟩ := List.getElem_of_mem ht
    have hmem : t.at_ (0, -(k * (m + s.dist))) ∈ Q0 :: Qr := by
      have := hget' k hk
      rw [e] at this
      exact List.mem_of_getElem? this
    have := h2 _ hmem (0 - t.left, -(k * (m + s.dist)) - t.depth) (by simp [Title.at_])
    simp only [dot, Title.at_, Prod.fst_sub, Prod.snd_sub, Prod.fst_add, Prod.snd_add] at this
    linarith
  · obtain ⟨Q, hQm, p, hpm, e⟩ := h3
    obtain ⟨k, hk, rfl⟩ := hQ Q hQm
    have hpr := (hp _ (List.getElem_mem hk)).1
    have hlow := h2 _ hQm (0 - (t0 :: tr)[k].left, -(k * (m + s.dist)) - (t0 :: tr)[k].depth) (by simp [Title.at_])
    refine ⟨(t0 :: tr)[k], List.getElem_mem _, ?_⟩
    have k0 : (0 : ℝ) < 1 / 10 ^ 5 := by positivity
    simp only [Title.at_, List.mem_cons, List.not_mem_nil, or_false] at hpm
    simp only [dot, Title.at_, Prod.fst_sub, Prod.snd_sub, Prod.fst_add, Prod.snd_add] at e hlow
    rcases hpm with rfl | rfl | rfl | rfl <;> simp only at e <;> linarith
  · intro k hk
    constructor
    · rw [List.getElem?_map, hget' k hk, Option.map_some, moved_at]
      congr 2
      ext <;> simp
    · simp only
      rw [symbolsFrom_get _ _ _ _ (by rw [hlen, List.length_map]; exact hk)]
      congr 2
      ring

/-- **C128.**  The space between a title and the next one; it is `dist` and the difference of the largest height and the space which the lower part of the title and the
upper part of the next one need. -/
theorem title_space (t u : Title) (X delta : ℝ) (k : ℕ) :
    (∀ p ∈ (t.at_ (X, -(k * delta))).corners, ∀ q ∈ (u.at_ (X, -((k + 1 : ℕ) * delta))).corners, 0 ≤ t.depth + t.height → 0 ≤ u.depth + u.height →
      delta - t.depth - u.height ≤ p.2 - q.2) ∧
    ∃ p ∈ (t.at_ (X, -(k * delta))).corners, ∃ q ∈ (u.at_ (X, -((k + 1 : ℕ) * delta))).corners, delta - t.depth - u.height = p.2 - q.2 := by
  push_cast
  constructor
  · intro p hp q hq h1 h2
    simp only [Title.at_, List.mem_cons, List.not_mem_nil, or_false] at hp hq
    rcases hp with rfl | rfl | rfl | rfl <;> rcases hq with rfl | rfl | rfl | rfl <;> simp only <;> linarith
  · refine ⟨(X - t.left, -(k * delta) - t.depth), by simp [Title.at_], (X - u.left, -((k + 1) * delta) + u.height), by simp [Title.at_], ?_⟩
    simp only
    ring

/-- **C128 (partial).**  If no title is deeper than the others or none is higher, the titles are at least `dist` apart.  Missing: titles of different depths and heights, for
which it is wrong (`titles_overlap`). -/
theorem titles_apart_partial (s : Settings) (ts : List Title) (hne : ts ≠ []) (hp : ∀ t ∈ ts, t.Proper)
    (hsame : (∀ t ∈ ts, ∀ u ∈ ts, t.depth = u.depth) ∨ ∀ t ∈ ts, ∀ u ∈ ts, t.height = u.height) :
    ∃ c, paintcolumn s ts = .ok c ∧ ∀ k, k + 1 < ts.length → ∃ P Q, c.titles[k]? = some P ∧ c.titles[k + 1]? = some Q ∧
      ∀ p ∈ P.corners, ∀ q ∈ Q.corners, s.dist ≤ p.2 - q.2 := by
  obtain ⟨c, X, delta, h, -, -, -, hle, -, -, hk⟩ := column_spec s ts hne hp
  refine ⟨c, h, fun k hk1 => ⟨_, _, (hk k (by omega)).1, (hk (k + 1) hk1).1, fun p hpp q hq => ?_⟩⟩
  have k0 : (0 : ℝ) < 1 / 10 ^ 5 := by positivity
  have m1 : ts[k] ∈ ts := List.getElem_mem _
  have m2 : ts[k + 1] ∈ ts := List.getElem_mem _
  have := (title_space ts[k] ts[k + 1] X delta k).1 p hpp q hq (by linarith [(hp _ m1).2]) (by linarith [(hp _ m2).2])
  rcases hsame with hs | hs
  · have e := hs _ m1 _ m2
    have := hle _ m2
    linarith
  · have e := hs _ m1 _ m2
    have := hle _ m1
    linarith

/-- **C128.**  A title with a large depth (a paragraph aligned at its first line) above one with a large height: they overlap. -/
theorem titles_overlap (s : Settings) (hs : s.dist < 8) : ∃ c, paintcolumn s [⟨0, 20, 2, 10⟩, ⟨0, 20, 10, 2⟩] = .ok c ∧
    ∃ P Q, c.titles = [P, Q] ∧ ∃ p ∈ P.corners, ∃ q ∈ Q.corners, p.2 < q.2 := by
  obtain ⟨c, X, delta, h, hl, -, ⟨t, ht, hd⟩, -, -, -, hk⟩ := column_spec s [⟨0, 20, 2, 10⟩, ⟨0, 20, 10, 2⟩] (by simp) (by
    intro t ht
    simp only [List.mem_cons, List.not_mem_nil, or_false] at ht
    rcases ht with rfl | rfl <;> norm_num [Title.Proper])
  refine ⟨c, h, ?_⟩
  have h0 := (hk 0 (by simp)).1
  have h1 := (hk 1 (by simp)).1
  have hc : c.titles = [Title.at_ ⟨0, 20, 2, 10⟩ (X, -((0 : ℕ) * delta)), Title.at_ ⟨0, 20, 10, 2⟩ (X, -((1 : ℕ) * delta))] := by
    apply List.ext_getElem?
    intro i
    match i with
    | 0 => simpa using h0
    | 1 => simpa using h1
    | i + 2 => simp [hl]
  refine ⟨_, _, hc, ?_⟩
  obtain ⟨p, hp, q, hq, e⟩ := (title_space ⟨0, 20, 2, 10⟩ ⟨0, 20, 10, 2⟩ X delta 0).2
  refine ⟨p, hp, q, hq, ?_⟩
  have : delta = 12 + s.dist := by
    simp only [List.mem_cons, List.not_mem_nil, or_false] at ht
    rcases ht with rfl | rfl <;> rw [hd] <;> norm_num
  simp only at e
  linarith

/-! ## The columns -/

/-- **C128.**  There may be fewer columns than asked for, even if there are more items than columns: five items in four columns (the columns are those of C108). -/
theorem fewer_columns {α : Type} (a b c d e : α) : XY.columns [a, b, c, d, e] 4 = some [[a, b], [c, d], [e]] := by
  simp [XY.columns, XY.itemspercolumn, XY.columnsLoop]

/-- **C128.**  With the left and right ends of the columns: between a column and the next one there is `columndist`, if both begin at the same place; in general the difference of
their begins is added. -/
theorem column_gap (cd : ℝ) : ∀ (bs : List (ℝ × ℝ)) (x : ℝ) (j : ℕ) (b b' : ℝ × ℝ) (y y' : ℝ), bs[j]? = some b → bs[j + 1]? = some b' →
    (XY.offsets cd x (bs.map fun b => b.2 - b.1))[j]? = some y → (XY.offsets cd x (bs.map fun b => b.2 - b.1))[j + 1]? = some y' →
      (y' + b'.1) - (y + b.2) = cd + (b'.1 - b.1) := by
  intro bs x j b b' y y' hb hb' hy hy'
  have hj : j + 1 < bs.length := (List.getElem?_eq_some_iff.mp hb').1
  obtain ⟨o, h1, h2⟩ := XY.key_offsets cd x (bs.map fun b => b.2 - b.1) j (by simpa using hj)
  rw [hy] at h1
  rw [hy'] at h2
  injection h1 with h1
  injection h2 with h2
  have e : bs[j] = b := by
    rw [List.getElem?_eq_getElem (by omega)] at hb
    injection hb
  rw [List.getElem_map, e] at h2
  rw [h2, h1]
  ring

/-! ## The position -/

/-- **C128.**  The letters for the vertical and the horizontal position can be given in any order and mean what they say. -/
theorem pos_letters : ∀ v ∈ [("t", (1 : Rat)), ("m", 1 / 2), ("b", 0)], ∀ h ∈ [("l", (0 : Rat)), ("c", 1 / 2), ("r", 1)],
    choosePos (some (v.1 ++ h.1)) none none = some (h.2, v.2) ∧ choosePos (some (h.1 ++ v.1)) none none = some (h.2, v.2) := by
  decide +kernel

/-- **C128.**  `hpos` and `vpos` have to be given together and with `pos=None`; otherwise there is a `ValueError`. -/
theorem pos_numbers (pos : Option String) (hpos vpos : Option Rat) (h v : Rat) (hsome : hpos.isSome ∨ vpos.isSome) :
    choosePos pos hpos vpos = some (h, v) ↔ pos = none ∧ hpos = some h ∧ vpos = some v := by
  cases pos <;> cases hpos <;> cases vpos <;> simp [choosePos] at hsome ⊢

/-! ## Examples -/

example : ∃ c X delta, paintcolumn ⟨2, 10, 5, 3⟩ [⟨0, 20, 7, 2⟩, ⟨0, 30, 7, 2⟩] = .ok c ∧ c.titles[1]? = some (Title.at_ ⟨0, 30, 7, 2⟩ (X, -delta)) ∧
    X = 13 ∧ delta = 11 ∧ c.symbols = [(0, -(5 / 2)), (0, -11 - 5 / 2)] := by
  obtain ⟨c, X, delta, h, hl, hs, ⟨t, ht, hd⟩, -, -, ⟨u, hu, hX⟩, hk⟩ := column_spec ⟨2, 10, 5, 3⟩ [⟨0, 20, 7, 2⟩, ⟨0, 30, 7, 2⟩] (by simp) (by
    intro t ht
    simp only [List.mem_cons, List.not_mem_nil, or_false] at ht
    rcases ht with rfl | rfl <;> norm_num [Title.Proper])
  have hdelta : delta = 11 := by
    simp only [List.mem_cons, List.not_mem_nil, or_false] at ht
    rcases ht with rfl | rfl <;> rw [hd] <;> norm_num
  have hX' : X = 13 := by
    simp only [List.mem_cons, List.not_mem_nil, or_false] at hu
    rcases hu with rfl | rfl <;> simp only at hX <;> linarith
  subst hdelta hX'
  refine ⟨c, 13, 11, h, by simpa using (hk 1 (by simp)).1, rfl, rfl, ?_⟩
  apply List.ext_getElem?
  intro i
  match i with
  | 0 => simpa using (hk 0 (by simp)).2
  | 1 => simpa using (hk 1 (by simp)).2
  | i + 2 => simp [hs]

example : XY.offsets (5 : ℝ) 0 ([(0, 30), (0, 20), (-1, 10)].map fun b : ℝ × ℝ => b.2 - b.1) = [0, 35, 60] := by norm_num [XY.offsets]

end

end PyX.Graph.Key
