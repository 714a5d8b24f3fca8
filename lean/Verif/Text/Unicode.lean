import Verif.Text.AttrsProps
import Mathlib.Algebra.Order.Field.Basic
import Mathlib.Algebra.Order.Group.Unbundled.Abs

/-!
# C133: texts of the `UnicodeEngine` (`text.py:1542-1762`)
-/

set_option linter.unusedSectionVars false

namespace PyX.UniText

variable {K : Type}

/-! ## Model -/

/-- `Text` (`text.py:1557-1569`). -/
structure Txt (K : Type) where
  text : List Char
  scale : K
  shift : K

/-- What is typeset: a `Text` (strings are `Text`s with scale 1 and shift 0) or a `StackedText` (`text.py:1572-1586`). -/
inductive Piece (K : Type)
  | text (t : Txt K)
  | stacked (ts : List (Txt K)) (frac : Bool) (align : K)

/-- What is known of the font at the size of the engine: the width of a string at a size (`none` if a character is missing, which is a `KeyError`), and the extents of the minus sign (`text.py:1640-1669`). -/
structure Font (K : Type) where
  width : List Char → K → Option K
  axis : K
  minusWidth : K
  minusLength : K
  minusThick : K

/-- What is put into the canvas: strings with position and size, and filled rectangles. -/
inductive Draw (K : Type)
  | str (x y : K) (s : List Char) (size : K)
  | rect (x y w h : K)
  deriving DecidableEq

/-- The replacement of missing dots (`text.py:1619`). -/
def replaceDot (s : List Char) : List Char := s.map fun c => if c = '·' then 'x' else c

section
variable [Field K] [LinearOrder K]

/-- A string at `x` (`text.py:1614-1621`): what is drawn and the width. A missing character other than `·` is an `AssertionError`. -/
def put (f : Font K) (size : K) (t : Txt K) (x : K) (s : List Char) : Option (Draw K × K) :=
  match f.width s (t.scale * size) with
  | some w => some (.str x (t.shift * size) s (t.scale * size), w)
  | none =>
    if '·' ∈ s then (f.width (replaceDot s) (t.scale * size)).map fun w => (.str x (t.shift * size) (replaceDot s) (t.scale * size), w)
    else none

/-- The minus sign at `x` (`text.py:1611`). -/
def minus (f : Font K) (x : K) : Draw K :=
  .rect (x + 1 / 2 * (f.minusWidth - f.minusLength)) (f.axis - 1 / 2 * f.minusThick) f.minusLength f.minusThick

/-- A fragment if it is not empty (`text.py:1613-1621`). -/
def putFrag (f : Font K) (size : K) (t : Txt K) (x : K) (s : List Char) : Option (List (Draw K) × K) :=
  if s = [] then some ([], x) else (put f size t x s).map fun r => ([r.1], x + r.2)

/-- The loop over the fragments (`text.py:1609-1621`); `first` tells whether the index is 0. -/
def fragLoop (f : Font K) (size : K) (t : Txt K) : Bool → List (List Char) → K → Option (List (Draw K) × K)
  | _, [], x => some ([], x)
  | first, s :: l, x =>
    match putFrag f size t (if first then x else x + f.minusWidth) s with
    | none => none
    | some r => (fragLoop f size t false l r.2).map fun q => ((if first then [] else [minus f x]) ++ r.1 ++ q.1, q.2)

/-- The fragments of a text (`text.py:1605-1608`). -/
def fragments (mathmode : Bool) (s : List Char) : List (List Char) := if mathmode then s.splitOn '-' else [s]

/-- The strings of a stack with their widths (`text.py:1624-1626`); here a missing character is a `KeyError`. -/
def stackWidths (f : Font K) (size : K) (ts : List (Txt K)) : Option (List (Txt K × K)) :=
  ts.mapM fun t => (f.width t.text (t.scale * size)).map fun w => (t, w)

/-- `max` of the widths (`text.py:1627`). -/
def maxWidth : List (Txt K × K) → Option K
  | [] => none
  | [p] => some p.2
  | p :: q :: l => (maxWidth (q :: l)).map fun w => max p.2 w

/-- A stack (`text.py:1623-1632`). -/
def stack (f : Font K) (size : K) (ts : List (Txt K)) (frac : Bool) (align x : K) : Option (List (Draw K) × K) :=
  match stackWidths f size ts with
  | none => none
  | some ws =>
    match maxWidth ws with
    | none => none
    | some w => some ((if frac then [.rect x (f.axis - 1 / 2 * f.minusThick) w f.minusThick] else []) ++
        (ws.map fun p => .str (x + align * (w - p.2)) (p.1.shift * size + if frac then f.axis else 0) p.1.text (p.1.scale * size)), x + w)

/-- One piece (`text.py:1601-1632`). -/
def piece (f : Font K) (size : K) (mathmode : Bool) (p : Piece K) (x : K) : Option (List (Draw K) × K) :=
  match p with
  | .text t => fragLoop f size t true (fragments mathmode t.text) x
  | .stacked ts frac align => stack f size ts frac align x

/-- `unicodetextbox_pt.__init__` (`text.py:1600-1632`): what is drawn and where the text ends. -/
def layout (f : Font K) (size : K) (mathmode : Bool) : List (Piece K) → K → Option (List (Draw K) × K)
  | [], x => some ([], x)
  | p :: l, x =>
    match piece f size mathmode p x with
    | none => none
    | some r => (layout f size mathmode l r.2).map fun q => (r.1 ++ q.1, q.2)

end

/-- `UnicodeEngine.text_pt` (`text.py:1742-1759`) up to the box: a list of attributes, whose elements are text attributes or something else (`none`: transformations and fill styles). -/
def textPt [Field K] [LinearOrder K] (f : Font K) (size : K) (attrs : List (TextAttr.TA K)) (l : List (Piece K)) : Option (List (Draw K) × K) :=
  let merged := Attr.mergeattrs (TextAttr.sys K) attrs
  let mathmode := merged.any fun a => (TextAttr.sys K).inst a .mathmode
  if merged ≠ [] then none else layout f size mathmode l 0

/-! ## Specification and properties -/

section
variable [Field K] [LinearOrder K] [IsStrictOrderedRing K]

/-- A drawing lies between two positions; the width of a string is that of the font. -/
def Within (f : Font K) (a b : K) : Draw K → Prop
  | .str x _ s size => ∃ w, f.width s size = some w ∧ a ≤ x ∧ x + w ≤ b
  | .rect x _ w _ => a ≤ x ∧ x + w ≤ b

/-- The usual assumptions on a font: widths are not negative and the minus sign has space at its sides. -/
structure Usual (f : Font K) : Prop where
  width : ∀ s size w, f.width s size = some w → 0 ≤ w
  len : f.minusLength ≤ f.minusWidth
  pos : 0 ≤ f.minusWidth

theorem within_mono (f : Font K) {a b a' b' : K} (ha : a' ≤ a) (hb : b ≤ b') (d : Draw K) (h : Within f a b d) : Within f a' b' d := by
  cases d with
  | str x y s size => obtain ⟨w, h1, h2, h3⟩ := h; exact ⟨w, h1, le_trans ha h2, le_trans h3 hb⟩
  | rect x y w h' => exact ⟨le_trans ha h.1, le_trans h.2 hb⟩

/-- The advance of a fragment. -/
def fragWidth (f : Font K) (size : K) (t : Txt K) (s : List Char) : K :=
  if s = [] then 0 else
    match f.width s (t.scale * size) with
    | some w => w
    | none => (f.width (replaceDot s) (t.scale * size)).getD 0

theorem putFrag_spec (f : Font K) (hf : Usual f) (size : K) (t : Txt K) (x : K) (s : List Char) (r : List (Draw K) × K)
    (h : putFrag f size t x s = some r) : r.2 = x + fragWidth f size t s ∧ x ≤ r.2 ∧ ∀ d ∈ r.1, Within f x r.2 d := by
  unfold putFrag at h
  unfold fragWidth
  by_cases hs : s = []
  · rw [if_pos hs] at h ⊢
    obtain rfl := Option.some.inj h
    simp
  · rw [if_neg hs] at h ⊢
    unfold put at h
    cases e : f.width s (t.scale * size) with
    | some w =>
      simp only [e, Option.map_some, Option.some.injEq] at h
      subst h
      have := hf.width _ _ _ e
      refine ⟨rfl, by simpa using this, ?_⟩
      intro d hd
      simp only [List.mem_singleton] at hd
      subst hd
      exact ⟨w, e, le_refl _, le_refl _⟩
    | none =>
      simp only [e] at h
      by_cases hd : '·' ∈ s
      · rw [if_pos hd] at h
        cases e' : f.width (replaceDot s) (t.scale * size) with
        | none => simp [e'] at h
        | some w =>
          simp only [e', Option.map_some, Option.some.injEq] at h
          subst h
          have := hf.width _ _ _ e'
          refine ⟨by simp, by simpa using this, ?_⟩
          intro d hd
          simp only [List.mem_singleton] at hd
          subst hd
          exact ⟨w, e', le_refl _, le_refl _⟩
      · rw [if_neg hd] at h; simp at h

theorem minus_within (f : Font K) (hf : Usual f) (x : K) : Within f x (x + f.minusWidth) (minus f x) := by
  have := hf.len
  constructor <;> linarith

theorem fragLoop_spec (f : Font K) (hf : Usual f) (size : K) (t : Txt K) : ∀ (l : List (List Char)) (first : Bool) (x : K) (r : List (Draw K) × K),
    fragLoop f size t first l x = some r →
      r.2 = x + (l.map (fragWidth f size t)).sum + ((l.length : K) - if first then (if l = [] then 0 else 1) else 0) * f.minusWidth ∧
      x ≤ r.2 ∧ ∀ d ∈ r.1, Within f x r.2 d
  | [], first, x, r, h => by
    obtain rfl := Option.some.inj h
    cases first <;> simp
  | s :: l, first, x, r, h => by
    rw [fragLoop] at h
    cases e : putFrag f size t (if first then x else x + f.minusWidth) s with
    | none => simp [e] at h
    | some p =>
      simp only [e] at h
      cases e' : fragLoop f size t false l p.2 with
      | none => simp [e'] at h
      | some q =>
        simp only [e', Option.map_some, Option.some.injEq] at h
        subst h
        obtain ⟨a1, a2, a3⟩ := putFrag_spec f hf size t _ s p e
        obtain ⟨b1, b2, b3⟩ := fragLoop_spec f hf size t l false p.2 q e'
        have hx : x ≤ if first then x else x + f.minusWidth := by
          have := hf.pos
          cases first <;> simp [this]
        refine ⟨?_, by linarith, ?_⟩
        · dsimp only
          rw [b1, a1]
          cases first <;> simp <;> ring
        · intro d hd
          simp only [List.mem_append] at hd
          rcases hd with (hd | hd) | hd
          · cases first with
            | true => simp at hd
            | false =>
              simp only [Bool.false_eq_true, if_false, List.mem_singleton] at hd a2
              subst hd
              exact within_mono f (le_refl _) (by linarith) _ (minus_within f hf x)
          · exact within_mono f (by linarith) (by linarith) _ (a3 d hd)
          · exact within_mono f (by linarith) (le_refl _) _ (b3 d hd)

theorem maxWidth_spec : ∀ (l : List (Txt K × K)) (w : K), maxWidth l = some w → (∀ p ∈ l, p.2 ≤ w) ∧ ∃ p ∈ l, p.2 = w
  | [], w, h => by simp [maxWidth] at h
  | [p], w, h => by simp only [maxWidth, Option.some.injEq] at h; simp [h]
  | p :: q :: l, w, h => by
    rw [maxWidth] at h
    cases e : maxWidth (q :: l) with
    | none => simp [e] at h
    | some v =>
      simp only [e, Option.map_some, Option.some.injEq] at h
      obtain ⟨h1, r, h2, h3⟩ := maxWidth_spec (q :: l) v e
      constructor
      · intro a ha
        rcases List.mem_cons.mp ha with rfl | ha
        · rw [← h]; exact le_max_left _ _
        · rw [← h]; exact le_trans (h1 a ha) (le_max_right _ _)
      · rcases le_total p.2 v with hv | hv
        · exact ⟨r, List.mem_cons_of_mem _ h2, by rw [h3, ← h, max_eq_right hv]⟩
        · exact ⟨p, by simp, by rw [← h, max_eq_left hv]⟩

theorem mapM_mem {A B : Type} (g : A → Option B) : ∀ (l : List A) (r : List B), l.mapM g = some r → ∀ b ∈ r, ∃ a ∈ l, g a = some b
  | [], r, h, b, hb => by simp at h; subst h; simp at hb
  | a :: l, r, h, b, hb => by
    rw [List.mapM_cons] at h
    cases e : g a with
    | none => simp [e] at h
    | some y =>
      cases e' : l.mapM g with
      | none => simp [e, e'] at h
      | some ys =>
        simp [e, e'] at h
        subst h
        rcases List.mem_cons.mp hb with rfl | hb
        · exact ⟨a, by simp, e⟩
        · obtain ⟨x, hx, hg⟩ := mapM_mem g l ys e' b hb
          exact ⟨x, List.mem_cons_of_mem _ hx, hg⟩

theorem stackWidths_spec (f : Font K) (size : K) (ts : List (Txt K)) (ws : List (Txt K × K)) (h : stackWidths f size ts = some ws) :
    ∀ p ∈ ws, f.width p.1.text (p.1.scale * size) = some p.2 := by
  intro p hp
  obtain ⟨t, -, ht⟩ := mapM_mem _ ts ws h p hp
  cases e : f.width t.text (t.scale * size) with
  | none => simp [e] at ht
  | some w =>
    simp only [e, Option.map_some, Option.some.injEq] at ht
    subst ht
    exact e

/-- **C133**: a stack of texts is as wide as its widest text; all its texts (and the line of a fraction) are within this width for alignments from 0 to 1, and the texts touch the left end for 0 and the right end for 1. -/
theorem stack_spec (f : Font K) (hf : Usual f) (size : K) (ts : List (Txt K)) (frac : Bool) (align x : K) (ha : 0 ≤ align) (hb : align ≤ 1)
    (r : List (Draw K) × K) (h : stack f size ts frac align x = some r) :
    x ≤ r.2 ∧ (∀ d ∈ r.1, Within f x r.2 d) ∧
    (∃ t ∈ ts, f.width t.text (t.scale * size) = some (r.2 - x)) ∧
    ∀ d ∈ r.1, ∀ X Y s sz w, d = .str X Y s sz → f.width s sz = some w → X - x = align * (r.2 - x - w) := by
  unfold stack at h
  cases e : stackWidths f size ts with
  | none => simp [e] at h
  | some ws =>
    simp only [e] at h
    cases e' : maxWidth ws with
    | none => simp [e'] at h
    | some w =>
      simp only [e', Option.some.injEq] at h
      subst h
      obtain ⟨m1, p, hp, m2⟩ := maxWidth_spec ws w e'
      have hw := stackWidths_spec f size ts ws e
      have hw0 : 0 ≤ w := by rw [← m2]; exact hf.width _ _ _ (hw p hp)
      refine ⟨by simpa using hw0, ?_, ?_, ?_⟩
      · intro d hd
        rcases List.mem_append.mp hd with hd | hd
        · cases frac with
          | false => simp at hd
          | true =>
            simp only [if_true, List.mem_singleton] at hd
            subst hd
            exact ⟨le_refl _, le_refl _⟩
        · obtain ⟨q, hq, rfl⟩ := List.mem_map.mp hd
          have h1 := m1 q hq
          have h3 : 0 ≤ align * (w - q.2) := mul_nonneg ha (by linarith)
          have h4 : align * (w - q.2) ≤ 1 * (w - q.2) := mul_le_mul_of_nonneg_right hb (by linarith)
          exact ⟨q.2, hw q hq, by linarith, by linarith⟩
      · unfold stackWidths at e
        obtain ⟨t, ht, hg⟩ := mapM_mem _ ts ws e p hp
        refine ⟨t, ht, ?_⟩
        cases e2 : f.width t.text (t.scale * size) with
        | none => simp [e2] at hg
        | some v =>
          simp only [e2, Option.map_some, Option.some.injEq] at hg
          subst hg
          simp only at m2
          simp [m2]
      · intro d hd X Y s sz v hd' hv
        rcases List.mem_append.mp hd with hd | hd
        · cases frac with
          | false => simp at hd
          | true =>
            simp only [if_true, List.mem_singleton] at hd
            rw [hd] at hd'; cases hd'
        · obtain ⟨q, hq, rfl⟩ := List.mem_map.mp hd
          simp only [Draw.str.injEq] at hd'
          obtain ⟨rfl, -, rfl, rfl⟩ := hd'
          rw [hw q hq] at hv
          obtain rfl := Option.some.inj hv
          ring

/-- A piece with an alignment from 0 to 1. -/
def Aligned : Piece K → Prop
  | .text _ => True
  | .stacked _ _ a => 0 ≤ a ∧ a ≤ 1

/-- **C133**: the pieces of a text follow each other without overlap: there are positions `x = p₀ ≤ p₁ ≤ … ≤ end` such that everything drawn for piece `i` is between `pᵢ` and `pᵢ₊₁`. -/
theorem pieces_follow (f : Font K) (hf : Usual f) (size : K) (mathmode : Bool) : ∀ (l : List (Piece K)) (x : K) (r : List (Draw K) × K),
    (∀ p ∈ l, Aligned p) → layout f size mathmode l x = some r →
    ∃ parts : List (List (Draw K) × K × K), parts.length = l.length ∧ r.1 = (parts.map (·.1)).flatten ∧
      List.IsChain (fun a b => a.2.2 = b.2.1) parts ∧ (∀ p ∈ parts.head?, p.2.1 = x) ∧ (∀ p ∈ parts.getLast?, p.2.2 = r.2) ∧
      ∀ p ∈ parts, p.2.1 ≤ p.2.2 ∧ ∀ d ∈ p.1, Within f p.2.1 p.2.2 d
  | [], x, r, _, h => by
    obtain rfl := Option.some.inj h
    exact ⟨[], by simp⟩
  | p :: l, x, r, ha, h => by
    rw [layout] at h
    cases e : piece f size mathmode p x with
    | none => simp [e] at h
    | some q =>
      simp only [e] at h
      cases e' : layout f size mathmode l q.2 with
      | none => simp [e'] at h
      | some r' =>
        simp only [e', Option.map_some, Option.some.injEq] at h
        subst h
        obtain ⟨parts, h1, h2, h3, h4, h5, h6⟩ := pieces_follow f hf size mathmode l q.2 r' (fun p hp => ha p (List.mem_cons_of_mem _ hp)) e'
        have hpiece : x ≤ q.2 ∧ ∀ d ∈ q.1, Within f x q.2 d := by
          cases p with
          | text t => exact (fragLoop_spec f hf size t _ _ x q e).2
          | stacked ts frac align =>
            have hal := ha (.stacked ts frac align) (by simp)
            have := stack_spec f hf size ts frac align x hal.1 hal.2 q e
            exact ⟨this.1, this.2.1⟩
        refine ⟨(q.1, x, q.2) :: parts, by simp [h1], by simp [h2], ?_, by simp, ?_, ?_⟩
        · cases parts with
          | nil => simp
          | cons a parts =>
            rw [List.isChain_cons_cons]
            exact ⟨(h4 a (by simp)).symm, h3⟩
        · cases parts with
          | nil =>
            have : l = [] := List.length_eq_zero_iff.mp (by simpa using h1.symm)
            subst this
            obtain rfl := Option.some.inj e'
            simp
          | cons a parts => simpa using h5
        · intro a hmem
          rcases List.mem_cons.mp hmem with rfl | hmem
          · exact hpiece
          · exact h6 a hmem

theorem splitOn_cons' (c : Char) (s : List Char) :
    (c :: s).splitOn '-' = if c = '-' then [] :: s.splitOn '-' else List.modifyHead (List.cons c) (s.splitOn '-') := by
  unfold List.splitOn
  rw [List.splitOnP_cons_eq_if_modifyHead]
  by_cases h : c = '-' <;> simp [h]

theorem splitOn_length (s : List Char) : (s.splitOn '-').length = s.count '-' + 1 := by
  induction s with
  | nil => simp
  | cons c s ih =>
    rw [splitOn_cons']
    by_cases h : c = '-'
    · simp [h, ih]
    · simp [h, ih]

/-- **C133**: a text advances by the widths of its fragments and, in math mode, by the width of a minus sign for every hyphen. -/
theorem text_advance (f : Font K) (hf : Usual f) (size : K) (mathmode : Bool) (t : Txt K) (x : K) (r : List (Draw K) × K)
    (h : piece f size mathmode (.text t) x = some r) :
    r.2 = x + ((fragments mathmode t.text).map (fragWidth f size t)).sum + (if mathmode then (t.text.count '-' : K) else 0) * f.minusWidth := by
  have := (fragLoop_spec f hf size t _ true x r h).1
  rw [this]
  cases mathmode with
  | false => simp [fragments]
  | true =>
    have hne : t.text.splitOn '-' ≠ [] := by
      intro e
      have := splitOn_length t.text
      rw [e] at this; simp at this
    simp only [fragments, if_true, if_neg hne, splitOn_length]
    push_cast
    ring

/-- What a drawing of a text shows: its characters, or a minus sign. -/
def shown : Draw K → List Char
  | .str _ _ s _ => s
  | .rect _ _ _ _ => ['-']

theorem replaceDot_append (a b : List Char) : replaceDot (a ++ b) = replaceDot a ++ replaceDot b := by simp [replaceDot]

theorem replaceDot_idem (a : List Char) : replaceDot (replaceDot a) = replaceDot a := by
  unfold replaceDot
  rw [List.map_map]
  apply List.map_congr_left
  intro c _
  by_cases h : c = '·'
  · subst h; decide
  · simp [h]

/-- How a drawing of a text is placed vertically. -/
def Placed (f : Font K) (size : K) (t : Txt K) : Draw K → Prop
  | .str _ y _ sz => y = t.shift * size ∧ sz = t.scale * size
  | .rect _ y w h => y + h / 2 = f.axis ∧ w = f.minusLength ∧ h = f.minusThick

theorem putFrag_shown (f : Font K) (size : K) (t : Txt K) (x : K) (s : List Char) (r : List (Draw K) × K)
    (h : putFrag f size t x s = some r) : replaceDot (r.1.map shown).flatten = replaceDot s ∧ ∀ d ∈ r.1, Placed f size t d := by
  unfold putFrag at h
  by_cases hs : s = []
  · rw [if_pos hs] at h
    obtain rfl := Option.some.inj h
    simp [hs]
  · rw [if_neg hs] at h
    unfold put at h
    cases e : f.width s (t.scale * size) with
    | some w =>
      simp only [e, Option.map_some, Option.some.injEq] at h
      subst h
      simp [shown, Placed]
    | none =>
      simp only [e] at h
      by_cases hd : '·' ∈ s
      · rw [if_pos hd] at h
        cases e' : f.width (replaceDot s) (t.scale * size) with
        | none => simp [e'] at h
        | some w =>
          simp only [e', Option.map_some, Option.some.injEq] at h
          subst h
          simp [shown, Placed, replaceDot_idem]
      · rw [if_neg hd] at h; simp at h

/-- The text of which fragments are made. -/
def joined : Bool → List (List Char) → List Char
  | _, [] => []
  | first, s :: l => (if first then [] else ['-']) ++ s ++ joined false l

theorem fragLoop_shown (f : Font K) (size : K) (t : Txt K) : ∀ (l : List (List Char)) (first : Bool) (x : K) (r : List (Draw K) × K),
    fragLoop f size t first l x = some r →
      replaceDot (r.1.map shown).flatten = replaceDot (joined first l) ∧ ∀ d ∈ r.1, Placed f size t d
  | [], first, x, r, h => by
    obtain rfl := Option.some.inj h
    simp [joined]
  | s :: l, first, x, r, h => by
    rw [fragLoop] at h
    cases e : putFrag f size t (if first then x else x + f.minusWidth) s with
    | none => simp [e] at h
    | some p =>
      simp only [e] at h
      cases e' : fragLoop f size t false l p.2 with
      | none => simp [e'] at h
      | some q =>
        simp only [e', Option.map_some, Option.some.injEq] at h
        subst h
        obtain ⟨a1, a2⟩ := putFrag_shown f size t _ s p e
        obtain ⟨b1, b2⟩ := fragLoop_shown f size t l false p.2 q e'
        constructor
        · cases first <;> simp [joined, replaceDot_append, a1, b1, shown, minus, replaceDot] <;> simp [replaceDot] at a1 b1 <;> simp [a1, b1]
        · intro d hd
          simp only [List.mem_append] at hd
          rcases hd with (hd | hd) | hd
          · cases first with
            | true => simp at hd
            | false =>
              simp only [Bool.false_eq_true, if_false, List.mem_singleton] at hd
              subst hd
              refine ⟨?_, rfl, rfl⟩
              ring
          · exact a2 d hd
          · exact b2 d hd

theorem joined_modifyHead (c : Char) (l : List (List Char)) (h : l ≠ []) : joined true (l.modifyHead (List.cons c)) = c :: joined true l := by
  cases l with
  | nil => exact absurd rfl h
  | cons a l => simp [joined]

theorem joined_false (l : List (List Char)) (h : l ≠ []) : joined false l = '-' :: joined true l := by
  cases l with
  | nil => exact absurd rfl h
  | cons a l => simp [joined]

theorem splitOn_ne (s : List Char) : s.splitOn '-' ≠ [] := by
  intro e
  have := splitOn_length s
  rw [e] at this; simp at this

theorem joined_split (s : List Char) : joined true (s.splitOn '-') = s := by
  induction s with
  | nil => simp [joined]
  | cons c s ih =>
    rw [splitOn_cons']
    by_cases h : c = '-'
    · rw [if_pos h]
      have : joined true ([] :: s.splitOn '-') = joined false (s.splitOn '-') := by simp [joined]
      rw [this, joined_false _ (splitOn_ne s), ih, h]
    · rw [if_neg h, joined_modifyHead _ _ (splitOn_ne s), ih]

/-- **C133**: what is drawn for a text shows all its characters in their order (up to dots, which may be replaced by an `x`), in math mode with bars for the hyphens; strings have the shift and size asked for, and the bars are centred at the math axis and as long and thick as the minus sign. -/
theorem text_content (f : Font K) (size : K) (mathmode : Bool) (t : Txt K) (x : K) (r : List (Draw K) × K)
    (h : piece f size mathmode (.text t) x = some r) :
    replaceDot (r.1.map shown).flatten = replaceDot t.text ∧ (∀ d ∈ r.1, Placed f size t d) ∧
    (mathmode = true → ∀ d ∈ r.1, ∀ X Y s sz, d = .str X Y s sz → '-' ∉ s) := by
  obtain ⟨h1, h2⟩ := fragLoop_shown f size t _ true x r h
  refine ⟨?_, h2, ?_⟩
  · rw [h1]
    cases mathmode with
    | false => simp [fragments, joined]
    | true => simp only [fragments, if_true, joined_split]
  · intro hm d hd X Y s sz hds
    subst hm
    have key : ∀ (l : List (List Char)) (first : Bool) (x : K) (r : List (Draw K) × K), (∀ s ∈ l, '-' ∉ s) →
        fragLoop f size t first l x = some r → ∀ d ∈ r.1, ∀ X Y s sz, d = .str X Y s sz → '-' ∉ s := by
      intro l
      induction l with
      | nil =>
        intro first x r _ h
        obtain rfl := Option.some.inj h
        simp
      | cons a l ih =>
        intro first x r hl h d hd X Y s sz hds
        rw [fragLoop] at h
        cases e : putFrag f size t (if first then x else x + f.minusWidth) a with
        | none => simp [e] at h
        | some p =>
          simp only [e] at h
          cases e' : fragLoop f size t false l p.2 with
          | none => simp [e'] at h
          | some q =>
            simp only [e', Option.map_some, Option.some.injEq] at h
            subst h
            simp only [List.mem_append] at hd
            rcases hd with (hd | hd) | hd
            · cases first with
              | true => simp at hd
              | false =>
                simp only [Bool.false_eq_true, if_false, List.mem_singleton] at hd
                rw [hd] at hds; cases hds
            · have ha := hl a (by simp)
              have hr : '-' ∉ replaceDot a := by
                intro hc
                unfold replaceDot at hc
                obtain ⟨c, hc, he⟩ := List.mem_map.mp hc
                by_cases hdot : c = '·'
                · rw [if_pos hdot] at he; exact absurd he (by decide)
                · rw [if_neg hdot] at he; exact ha (he ▸ hc)
              have hs := putFrag_shown f size t _ a p e
              have hmem : ∀ c ∈ s, c ∈ (p.1.map shown).flatten := by
                intro c hc
                rw [List.mem_flatten]
                exact ⟨s, List.mem_map.mpr ⟨d, hd, by rw [hds]; rfl⟩, hc⟩
              intro hc
              apply hr
              rw [← hs.1]
              unfold replaceDot
              exact List.mem_map.mpr ⟨'-', hmem _ hc, by decide⟩
            · exact ih false p.2 q (fun s hs => hl s (List.mem_cons_of_mem _ hs)) e' d hd X Y s sz hds
    refine key _ true x r ?_ h d hd X Y s sz hds
    have hsplit : ∀ u : List Char, ∀ s ∈ u.splitOn '-', '-' ∉ s := by
      intro u
      induction u with
      | nil => simp
      | cons c u ih =>
        rw [splitOn_cons']
        intro s hs
        by_cases hc : c = '-'
        · rw [if_pos hc] at hs
          rcases List.mem_cons.mp hs with rfl | hs
          · simp
          · exact ih s hs
        · rw [if_neg hc] at hs
          cases hu : u.splitOn '-' with
          | nil => exact absurd hu (splitOn_ne u)
          | cons a l =>
            rw [hu] at hs ih
            rcases List.mem_cons.mp hs with rfl | hs
            · intro hmem
              rcases List.mem_cons.mp hmem with hmem | hmem
              · exact hc hmem.symm
              · exact ih a (by simp) hmem
            · exact ih s (List.mem_cons_of_mem _ hs)
    simpa [fragments] using hsplit t.text

/-- **C133**: every text attribute (which is not cleared) raises `ValueError`: also `mathmode` for which the minus signs are made, which is the default of the labels of axes. -/
theorem attrs_refused (f : Font K) (size : K) (attrs : List (TextAttr.TA K)) (l : List (Piece K)) :
    (Attr.mergeattrs (TextAttr.sys K) attrs ≠ [] → textPt f size attrs l = none) ∧
    textPt f size [.mathmode] l = none ∧
    (Attr.mergeattrs (TextAttr.sys K) attrs = [] → textPt f size attrs l = layout f size false l 0) := by
  refine ⟨fun h => by simp only [textPt]; rw [if_pos h], rfl, ?_⟩
  intro h
  simp only [textPt, h]
  simp

/-- **C133.** A minus sign is in the middle of the width which is kept for it, and at the mathematical axis. -/
theorem minus_centred (f : Font K) (x : K) : ∃ a b w h, minus f x = .rect a b w h ∧ w = f.minusLength ∧ h = f.minusThick ∧
    a + w / 2 = x + f.minusWidth / 2 ∧ b + h / 2 = f.axis := by
  refine ⟨_, _, _, _, rfl, rfl, rfl, ?_, ?_⟩ <;> ring

end

/-- A font with characters of width 5, without `·`. -/
def fixed : Font ℚ := ⟨fun s _ => if '·' ∈ s then none else some (5 * s.length), 3, 7, 5, 1⟩

example : layout fixed 10 true [.text ⟨['a', '-', 'b'], 1, 0⟩, .stacked [⟨['1'], 1, 1⟩, ⟨['2', '3'], 1, -1⟩] true (1 / 2)] 0 =
    some ([.str 0 0 ['a'] 10, .rect 6 (5 / 2) 5 1, .str 12 0 ['b'] 10, .rect 17 (5 / 2) 10 1,
      .str (39 / 2) 13 ['1'] 10, .str 17 (-7) ['2', '3'] 10], 27) ∧ Usual fixed := by
  refine ⟨by decide +kernel, ⟨?_, by decide +kernel, by decide +kernel⟩⟩
  intro s size w h
  unfold fixed at h
  by_cases hs : '·' ∈ s
  · simp [hs] at h
  · simp only [hs, if_false, Option.some.injEq] at h
    rw [← h]
    positivity

/-- A dot which is not in the font is typeset as `x`; other missing characters are refused. -/
example : layout fixed 10 false [.text ⟨['2', '·', '3'], 1, 0⟩] 0 = some ([.str 0 0 ['2', 'x', '3'] 10], 15) := by decide +kernel

/-- Without math mode hyphens are characters, and text attributes are refused. -/
example : textPt fixed 10 [] [.text ⟨['-', '1'], 1, 0⟩] = some ([.str 0 0 ['-', '1'] 10], 10) ∧
    textPt fixed 10 [.mathmode] [.text ⟨['-', '1'], 1, 0⟩] = none := by decide +kernel

end PyX.UniText
