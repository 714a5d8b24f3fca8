import Verif.Font.T1Text
import Mathlib.Tactic.Ring
import Mathlib.Tactic.Linarith
import Mathlib.Tactic.FieldSimp
import Mathlib.Tactic.NormNum
import Mathlib.Algebra.BigOperators.Group.List.Basic
import Mathlib.Data.Rat.Floor

/-!
# C131: texts in Type 1 fonts: properties
-/

set_option linter.unusedSectionVars false

namespace PyX.T1Text

variable {G K : Type} [DecidableEq G]

/-! ## Ligatures -/

/-- A glyph is formed from glyphs of the text by ligatures with the next glyph. -/
inductive Forms (m : Metric G K) : G → List G → Prop
  | self (g : G) : Forms m g [g]
  | lig {g h r : G} {l : List G} : Forms m g l → m.lig g h = some r → Forms m r (l ++ [h])

theorem ligLoop_parts (m : Metric G K) : ∀ (t : List G) (g : G) (l : List G), Forms m g l →
    ∃ parts : List (List G), parts.flatten = l ++ t ∧ List.Forall₂ (Forms m) (ligLoop m g t) parts ∧
      (∃ q ps, parts = q :: ps ∧ ∃ a as, ligLoop m g t = a :: as ∧ ∃ s, q = l ++ s) ∧
      (List.zip (ligLoop m g t) (parts.drop 1)).Forall fun p => ∀ h ∈ p.2.head?, m.lig p.1 h = none
  | [], g, l, hg => ⟨[l], by simp, by simpa [ligLoop] using hg, ⟨l, [], rfl, g, [], rfl, [], by simp⟩, by simp [ligLoop]⟩
  | h :: t, g, l, hg => by
    rw [ligLoop]
    cases e : m.lig g h with
    | some r =>
      obtain ⟨parts, h1, h2, ⟨q, ps, hq, a, as, ha, s, hs⟩, h4⟩ := ligLoop_parts m t r (l ++ [h]) (Forms.lig hg e)
      exact ⟨parts, by simpa using h1, h2, ⟨q, ps, hq, a, as, ha, h :: s, by simpa using hs⟩, h4⟩
    | none =>
      obtain ⟨parts, h1, h2, ⟨q, ps, hq, a, as, ha, s, hs⟩, h4⟩ := ligLoop_parts m t h [h] (Forms.self h)
      refine ⟨l :: parts, by simp [h1], List.Forall₂.cons hg h2, ⟨l, parts, rfl, g, _, rfl, [], by simp⟩, ?_⟩
      show (List.zip (g :: ligLoop m h t) parts).Forall _
      rw [hq] at h4 ⊢
      rw [List.zip_cons_cons, List.forall_cons]
      refine ⟨?_, by simpa using h4⟩
      intro x hx
      rw [hs] at hx
      simp only [List.cons_append, List.head?_cons, Option.mem_def, Option.some.injEq] at hx
      rw [← hx]; exact e

/-- **C131**: with ligatures a text is split into consecutive pieces and every glyph shown is formed from its piece by ligatures of the font, from the left to the right; a piece ends only where its glyph has no ligature with the next glyph of the text. -/
theorem ligatures_spec (m : Metric G K) (gs : List G) :
    ∃ parts : List (List G), parts.flatten = gs ∧ List.Forall₂ (Forms m) (resolveLigatures m gs) parts ∧
      (List.zip (resolveLigatures m gs) (parts.drop 1)).Forall fun p => ∀ h ∈ p.2.head?, m.lig p.1 h = none := by
  cases gs with
  | nil => exact ⟨[], rfl, List.Forall₂.nil, by simp [resolveLigatures]⟩
  | cons g t =>
    obtain ⟨parts, h1, h2, -, h4⟩ := ligLoop_parts m t g [g] (Forms.self g)
    exact ⟨parts, by simpa using h1, h2, h4⟩

/-- Whether a ligature is left in a list of glyphs. -/
def NoLig (m : Metric G K) (gs : List G) : Prop := List.IsChain (fun a b => m.lig a b = none) gs

theorem ligLoop_noLig (m : Metric G K) (hm : ∀ a g h r, m.lig g h = some r → m.lig a r = none) :
    ∀ (t : List G) (g : G), NoLig m (ligLoop m g t) ∧
      ∃ a as, ligLoop m g t = a :: as ∧ (a = g ∨ ∀ b, m.lig b a = none)
  | [], g => ⟨by simp [NoLig, ligLoop], g, [], rfl, Or.inl rfl⟩
  | h :: t, g => by
    rw [ligLoop]
    cases e : m.lig g h with
    | some r =>
      obtain ⟨h1, a, as, ha, hb⟩ := ligLoop_noLig m hm t r
      refine ⟨h1, a, as, ha, Or.inr ?_⟩
      rcases hb with rfl | hb
      · exact fun b => hm b g h _ e
      · exact hb
    | none =>
      obtain ⟨h1, a, as, ha, hb⟩ := ligLoop_noLig m hm t h
      refine ⟨?_, g, _, rfl, Or.inl rfl⟩
      show NoLig m (g :: ligLoop m h t)
      rw [ha] at h1 ⊢
      unfold NoLig at h1 ⊢
      rw [List.isChain_cons_cons]
      refine ⟨?_, h1⟩
      rcases hb with rfl | hb
      · exact e
      · exact hb g

/-- **C131 (part)**: no ligature of the font is left in the text if no replacement takes part in a ligature as the second glyph (as in usual fonts). In general this is not so (`ligature_left`). -/
theorem ligatures_done_partial (m : Metric G K) (hm : ∀ a g h r, m.lig g h = some r → m.lig a r = none) (gs : List G) :
    NoLig m (resolveLigatures m gs) := by
  cases gs with
  | nil => simp [NoLig, resolveLigatures]
  | cons g t => exact (ligLoop_noLig m hm t g).1

/-- A font with the ligatures `f f`, `ff i` and `f i` (glyphs 1, 2, 3 are `f`, `i`, `ff`; 4 is `ffi`, 5 is `fi`), a kerning between `f` and `x` = 6. -/
def usual : Metric ℕ ℚ := ⟨fun _ => 500, fun _ => 700, fun _ => -200,
  fun g => if g = 1 then [(2, 5), (1, 3)] else if g = 3 then [(2, 4)] else [], fun g h => if (g, h) = (1, 6) then some (-27) else none⟩

example : resolveLigatures usual [6, 1, 1, 2, 1, 2, 1, 1, 6] = [6, 4, 5, 3, 6] ∧
    (∀ a g h r, usual.lig g h = some r → usual.lig a r = none) := by
  refine ⟨by decide, ?_⟩
  intro a g h r e
  have hr : r = 5 ∨ r = 3 ∨ r = 4 := by
    unfold Metric.lig usual at e
    dsimp only at e
    split_ifs at e <;> simp [List.find?] at e
    · split at e <;> simp_all
      split at e <;> simp_all
    · split at e <;> simp_all
  have key : ∀ r, r = 5 ∨ r = 3 ∨ r = 4 → usual.lig a r = none := by
    intro r hr
    unfold Metric.lig usual
    dsimp only
    split_ifs <;> rcases hr with rfl | rfl | rfl <;> simp [List.find?]
  exact key r hr

/-- **C131**: a ligature can be left: with `b c → x` and `a x → y` the text `abc` gets `a x`. -/
theorem ligature_left : ∃ (m : Metric ℕ ℚ) (gs : List ℕ), resolveLigatures m gs = [0, 3] ∧ m.lig 0 3 = some 4 ∧ gs = [0, 1, 2] :=
  ⟨⟨fun _ => 0, fun _ => 0, fun _ => 0, fun g => if g = 1 then [(2, 3)] else if g = 0 then [(3, 4)] else [], fun _ _ => none⟩,
    [0, 1, 2], by decide, by decide, rfl⟩

/-! ## Positions -/

section
variable [Field K] [LinearOrder K] [IsStrictOrderedRing K]

/-- The kerning between the glyphs `j` and `j + 1` of a text. -/
def kernAt (m : Metric G K) (kerning : Bool) (scale : K) (gs : List G) (j : ℕ) : K :=
  match gs[j]?, gs[j + 1]? with
  | some a, some b => if kerning then ((m.kern a b).getD 0) * scale else 0
  | _, _ => 0

/-- Where glyph `k` of a text has to be: behind the advances of the glyphs before, the spaces and the kernings between. -/
def posAt (m : Metric G K) (adv : G → K × K) (kerning : Bool) (scale spaced x y : K) (gs : List G) (k : ℕ) : K × K :=
  (x + ((gs.take k).map fun g => (adv g).1).sum + k * spaced + ((List.range k).map (kernAt m kerning scale gs)).sum,
   y + ((gs.take k).map fun g => (adv g).2).sum)

/-- The positions glyph after glyph. -/
def place (m : Metric G K) (adv : G → K × K) (kerning : Bool) (scale spaced : K) : List G → K → K → List (G × K × K)
  | [], _, _ => []
  | [g], x, y => [(g, x, y)]
  | g :: h :: t, x, y => (g, x, y) :: place m adv kerning scale spaced (h :: t)
      (x + (adv g).1 + spaced + (if kerning then ((m.kern g h).getD 0) * scale else 0)) (y + (adv g).2)

theorem place_length (m : Metric G K) (adv : G → K × K) (kerning : Bool) (scale spaced : K) :
    ∀ (gs : List G) (x y : K), (place m adv kerning scale spaced gs x y).length = gs.length
  | [], _, _ => rfl
  | [_], _, _ => rfl
  | g :: h :: t, x, y => by rw [place]; simp [place_length m adv kerning scale spaced (h :: t)]

theorem place_getElem (m : Metric G K) (adv : G → K × K) (kerning : Bool) (scale spaced : K) :
    ∀ (gs : List G) (x y : K) (k : ℕ) (g : G), gs[k]? = some g →
      (place m adv kerning scale spaced gs x y)[k]? = some (g, posAt m adv kerning scale spaced x y gs k)
  | [], _, _, k, g, h => by simp at h
  | [a], x, y, 0, g, h => by simp at h; simp [place, posAt, h]
  | [a], x, y, k + 1, g, h => by simp at h
  | a :: b :: t, x, y, 0, g, h => by simp at h; simp [place, posAt, h]
  | a :: b :: t, x, y, k + 1, g, h => by
    rw [List.getElem?_cons_succ] at h
    rw [place, List.getElem?_cons_succ, place_getElem m adv kerning scale spaced (b :: t) _ _ k g h]
    simp only [posAt, List.take_succ_cons, List.map_cons, List.sum_cons, List.range_succ_eq_map, List.map_map, Nat.cast_add, Nat.cast_one,
      Option.some.injEq, Prod.mk.injEq, true_and]
    have : (kernAt m kerning scale (a :: b :: t) ∘ Nat.succ) = kernAt m kerning scale (b :: t) := by
      funext j; simp [kernAt]
    rw [this]
    constructor
    · simp only [kernAt, List.getElem?_cons_zero, List.getElem?_cons_succ]; ring
    · ring

theorem pathLoop_kerns (m : Metric G K) (adv : G → K × K) (scale spaced : K) :
    ∀ (gs : List G) (first : Bool) (x y : K), pathLoop adv spaced first (resolveKernings m scale gs) x y =
      place m adv true scale spaced gs (if first then x else x + spaced) y
  | [], _, _, _ => by simp [resolveKernings, pathLoop, place]
  | [g], _, _, _ => by simp [resolveKernings, pathLoop, place]
  | g :: h :: t, first, x, y => by
    rw [resolveKernings, pathLoop, pathLoop, place, pathLoop_kerns m adv scale spaced (h :: t) false]
    congr 2
    simp only [if_true, Bool.false_eq_true, if_false]
    have : (Option.map (fun x => x * scale) (m.kern g h)).getD 0 = (m.kern g h).getD 0 * scale := by
      cases m.kern g h <;> simp
    rw [this]; ring

theorem pathLoop_plain (m : Metric G K) (adv : G → K × K) (scale spaced : K) :
    ∀ (gs : List G) (first : Bool) (x y : K), pathLoop adv spaced first (gs.map Item.glyph) x y =
      place m adv false scale spaced gs (if first then x else x + spaced) y
  | [], _, _, _ => by simp [pathLoop, place]
  | [g], _, _, _ => by simp [pathLoop, place]
  | g :: h :: t, first, x, y => by
    have := pathLoop_plain m adv scale spaced (h :: t) false ((if first then x else x + spaced) + (adv g).1) (y + (adv g).2)
    rw [List.map_cons, pathLoop, place, this]
    congr 2
    simp

theorem textPath_eq (m : Metric G K) (adv : G → K × K) (kerning : Bool) (size spaced x y : K) (gs : List G) :
    textPath m adv kerning size spaced x y gs = place m adv kerning (size / 1000) spaced gs x y := by
  unfold textPath dataOf
  cases kerning
  · simpa using pathLoop_plain m adv (size / 1000) spaced gs true x y
  · simpa using pathLoop_kerns m adv (size / 1000) spaced gs true x y

/-- **C131**: the path of a text consists of its glyphs in order, glyph `k` is at the start plus the advances of the glyphs before, `k` times the space between characters and the kernings of the pairs before. -/
theorem path_positions (m : Metric G K) (adv : G → K × K) (kerning : Bool) (size spaced x y : K) (gs : List G) :
    (textPath m adv kerning size spaced x y gs).length = gs.length ∧
    ∀ (k : ℕ) (g : G), gs[k]? = some g →
      (textPath m adv kerning size spaced x y gs)[k]? = some (g, posAt m adv kerning (size / 1000) spaced x y gs k) := by
  rw [textPath_eq]
  exact ⟨place_length .., fun k g h => place_getElem m adv kerning _ spaced gs x y k g h⟩

/-! ## PostScript -/

/-- `show`: every character is put at the current point which is then moved. -/
def showAll (adv : ℕ → K × K) : List ℕ → K → K → List (ℕ × K × K)
  | [], _, _ => []
  | c :: cs, x, y => (c, x, y) :: showAll adv cs (x + (adv c).1) (y + (adv c).2)

/-- What a PostScript interpreter does: the characters shown with their positions. -/
def runPS (adv : ℕ → K × K) : List (PSOp K) → K → K → List (ℕ × K × K)
  | [], _, _ => []
  | .moveto x y :: l, _, _ => runPS adv l x y
  | .rmoveto dx :: l, x, y => runPS adv l (x + dx) y
  | .show cs :: l, x, y => showAll adv cs x y ++
      runPS adv l (x + (cs.map fun c => (adv c).1).sum) (y + (cs.map fun c => (adv c).2).sum)

theorem showAll_append (adv : ℕ → K × K) : ∀ (a b : List ℕ) (x y : K), showAll adv (a ++ b) x y =
    showAll adv a x y ++ showAll adv b (x + (a.map fun c => (adv c).1).sum) (y + (a.map fun c => (adv c).2).sum)
  | [], b, x, y => by simp [showAll]
  | c :: a, b, x, y => by
    simp only [List.cons_append, showAll, showAll_append adv a b, List.map_cons, List.sum_cons, add_assoc]

theorem psLoop_kerns (m : Metric G K) (enc : G → ℕ) (adv : G → K × K) (advc : ℕ → K × K) (scale spaced : K) :
    ∀ (gs : List G) (first : Bool) (cur : List ℕ) (x y : K), (∀ g ∈ gs, advc (enc g) = adv g) →
      runPS advc (psLoop enc true spaced first (resolveKernings m scale gs) cur) x y =
        showAll advc cur x y ++ (place m adv true scale spaced gs (x + (cur.map fun c => (advc c).1).sum)
          (y + (cur.map fun c => (advc c).2).sum)).map fun p => (enc p.1, p.2)
  | [], _, cur, x, y, _ => by simp [resolveKernings, psLoop, runPS, place]
  | [g], _, cur, x, y, h => by
    simp [resolveKernings, psLoop, runPS, place, showAll_append, showAll]
  | g :: h :: t, first, cur, x, y, ha => by
    have hg := ha g (by simp)
    have ih := psLoop_kerns m enc adv advc scale spaced (h :: t) false
    have hat : ∀ g ∈ h :: t, advc (enc g) = adv g := fun g hh => ha g (List.mem_cons_of_mem _ hh)
    rw [resolveKernings, psLoop, if_neg (by simp), place, List.map_cons]
    cases e : m.kern g h with
    | some k =>
      rw [Option.map_some, psLoop, runPS, runPS, ih _ _ _ hat, showAll_append]
      simp only [showAll, List.map_append, List.sum_append, List.map_cons, List.map_nil, List.sum_cons, List.sum_nil, hg, List.append_assoc,
        List.nil_append, List.cons_append, Option.getD_some, if_true]
      congr 4 <;> ring
    | none =>
      rw [Option.map_none, psLoop]
      by_cases hs : spaced = 0
      · rw [if_neg (by simpa using hs), ih _ _ _ hat, showAll_append]
        simp only [showAll, List.map_append, List.sum_append, List.map_cons, List.map_nil, List.sum_cons, List.sum_nil, hg, List.append_assoc,
          List.nil_append, List.cons_append, Option.getD_none, if_true, hs]
        congr 4 <;> ring
      · rw [if_pos hs, runPS, runPS, ih _ _ _ hat, showAll_append]
        simp only [showAll, List.map_append, List.sum_append, List.map_cons, List.map_nil, List.sum_cons, List.sum_nil, hg, List.append_assoc,
          List.nil_append, List.cons_append, Option.getD_none, if_true]
        congr 4 <;> ring

theorem psLoop_plain (m : Metric G K) (enc : G → ℕ) (adv : G → K × K) (advc : ℕ → K × K) (scale spaced : K) :
    ∀ (gs : List G) (first : Bool) (cur : List ℕ) (x y : K), (∀ g ∈ gs, advc (enc g) = adv g) →
      runPS advc (psLoop enc false spaced first (gs.map Item.glyph) cur) x y =
        showAll advc cur x y ++ (place m adv false scale spaced gs (x + (cur.map fun c => (advc c).1).sum + (if first then 0 else spaced))
          (y + (cur.map fun c => (advc c).2).sum)).map fun p => (enc p.1, p.2)
  | [], _, cur, x, y, _ => by simp [psLoop, runPS, place]
  | g :: t, first, cur, x, y, ha => by
    have hg := ha g (by simp)
    have ih := psLoop_plain m enc adv advc scale spaced t false
    have hat : ∀ g ∈ t, advc (enc g) = adv g := fun g hh => ha g (List.mem_cons_of_mem _ hh)
    have hp : ∀ X Y, place m adv false scale spaced (g :: t) X Y =
        (g, X, Y) :: place m adv false scale spaced t (X + (adv g).1 + spaced) (Y + (adv g).2) := by
      intro X Y
      cases t with
      | nil => simp [place]
      | cons h t => simp [place]
    rw [List.map_cons, psLoop, hp, List.map_cons]
    by_cases hc : first = false ∧ spaced ≠ 0
    · rw [if_pos ⟨hc.1, rfl, hc.2⟩, runPS, runPS, ih _ _ _ hat, hc.1]
      simp only [showAll, List.map_cons, List.map_nil, List.sum_cons, List.sum_nil, hg, List.append_assoc,
        List.nil_append, List.cons_append, if_true, Bool.false_eq_true, if_false]
      congr 4 <;> ring
    · rw [if_neg (by tauto), ih _ _ _ hat, showAll_append]
      have hz : (if first then 0 else spaced) = (0 : K) := by
        cases first
        · simp only [true_and, not_not] at hc; simp [hc]
        · simp
      simp only [showAll, List.map_append, List.sum_append, List.map_cons, List.map_nil, List.sum_cons, List.sum_nil, hg, List.append_assoc,
        List.nil_append, List.cons_append, hz, Bool.false_eq_true, if_false]
      congr 4 <;> ring

/-- **C131**: a PostScript interpreter whose font has the advances of the font file shows the codes of the glyphs at the positions of the path of the text. -/
theorem ps_positions (m : Metric G K) (enc : G → ℕ) (adv : G → K × K) (advc : ℕ → K × K) (kerning : Bool) (size spaced x y x0 y0 : K)
    (gs : List G) (h : ∀ g ∈ gs, advc (enc g) = adv g) :
    runPS advc (processPS m enc kerning size spaced x y gs) x0 y0 =
      (textPath m adv kerning size spaced x y gs).map fun p => (enc p.1, p.2) := by
  rw [textPath_eq, processPS, runPS]
  unfold dataOf
  cases kerning
  · simpa [showAll] using psLoop_plain m enc adv advc (size / 1000) spaced gs true [] x y h
  · simpa [showAll] using psLoop_kerns m enc adv advc (size / 1000) spaced gs true [] x y h

/-! ## PDF -/

/-- What a PDF viewer does with the array of `TJ`: the codes with their distances from the origin of the text matrix; `w` are the widths of the codes in units of 1/1000. -/
def runTJ (w : ℕ → K) (size : K) : List (TJ K) → K → List (ℕ × K)
  | [], _ => []
  | .num n :: l, x => runTJ w size l (x - n / 1000 * size)
  | .str cs :: l, x => ((showAll (fun c => (w c / 1000 * size, 0)) cs x 0).map fun p => (p.1, p.2.1)) ++
      runTJ w size l (x + (cs.map fun c => w c / 1000 * size).sum)

/-- The array of `TJ` as operators of PostScript. -/
def psOf (size : K) : List (TJ K) → List (PSOp K)
  | [] => []
  | .num n :: l => .rmoveto (-n / 1000 * size) :: psOf size l
  | .str cs :: l => .show cs :: psOf size l

theorem runTJ_eq (w : ℕ → K) (size : K) : ∀ (l : List (TJ K)) (x y : K),
    runTJ w size l x = (runPS (fun c => (w c / 1000 * size, 0)) (psOf size l) x y).map fun p => (p.1, p.2.1)
  | [], _, _ => rfl
  | .num n :: l, x, y => by
    rw [runTJ, psOf, runPS, ← runTJ_eq w size l]; congr 1; ring
  | .str cs :: l, x, y => by
    rw [runTJ, psOf, runPS, List.map_append, ← runTJ_eq w size l]
    congr 1
    have : ∀ (cs : List ℕ) (x y y' : K), ((showAll (fun c => (w c / 1000 * size, 0)) cs x y).map fun p => (p.1, p.2.1)) =
        (showAll (fun c => (w c / 1000 * size, 0)) cs x y').map fun p => (p.1, p.2.1) := by
      intro cs
      induction cs with
      | nil => intros; rfl
      | cons c cs ih => intro x y y'; simp only [showAll, List.map_cons, List.cons.injEq, true_and]; exact ih _ _ _
    exact this cs x 0 y

theorem psOf_pdfLoop_kerns (m : Metric G K) (enc : G → ℕ) (size spaced : K) (hsz : size ≠ 0) :
    ∀ (gs : List G) (first : Bool) (cur : List ℕ),
      psOf size (pdfLoop enc true (spaced * 1000 / size) first (resolveKernings m 1 gs) cur) =
        psLoop enc true spaced first (resolveKernings m (size / 1000) gs) cur
  | [], _, cur => by simp [resolveKernings, psLoop, pdfLoop, psOf]
  | [g], _, cur => by simp [resolveKernings, psLoop, pdfLoop, psOf]
  | g :: h :: t, first, cur => by
    have ih := psOf_pdfLoop_kerns m enc size spaced hsz (h :: t) false
    rw [resolveKernings, resolveKernings, psLoop, pdfLoop, if_neg (by simp), if_neg (by simp)]
    cases e : m.kern g h with
    | some k =>
      rw [Option.map_some, Option.map_some, psLoop, pdfLoop, psOf, psOf, ih]
      congr 3
      field_simp; ring
    | none =>
      rw [Option.map_none, Option.map_none, psLoop, pdfLoop]
      by_cases hs : spaced = 0
      · rw [if_neg (by simp [hs]), if_neg (by simp [hs]), ih]
      · rw [if_pos hs, if_pos (by simp [hs, hsz]), psOf, psOf, ih]
        congr 3
        field_simp

theorem psOf_pdfLoop_plain (enc : G → ℕ) (size spaced : K) (hsz : size ≠ 0) :
    ∀ (gs : List G) (first : Bool) (cur : List ℕ),
      psOf size (pdfLoop enc false (spaced * 1000 / size) first (gs.map Item.glyph) cur) =
        psLoop enc false spaced first (gs.map Item.glyph) cur
  | [], _, cur => by simp [psLoop, pdfLoop, psOf]
  | g :: t, first, cur => by
    have ih := psOf_pdfLoop_plain enc size spaced hsz t false
    rw [List.map_cons, psLoop, pdfLoop]
    by_cases hc : first = false ∧ spaced ≠ 0
    · rw [if_pos ⟨hc.1, rfl, by simp [hc.2, hsz]⟩, if_pos ⟨hc.1, rfl, hc.2⟩, psOf, psOf, ih]
      congr 3
      field_simp
    · have h1 : ¬ (first = false ∧ false = false ∧ spaced ≠ 0) := by tauto
      have h2 : ¬ (first = false ∧ false = false ∧ spaced * 1000 / size ≠ 0) := by
        rintro ⟨a, -, b⟩
        exact hc ⟨a, fun e => b (by simp [e])⟩
      rw [if_neg h1, if_neg h2, ih]

/-- **C131**: a PDF viewer with the widths `w` of the codes puts the codes of the glyphs where the path of the text would have them for those widths. -/
theorem pdf_positions (m : Metric G K) (enc : G → ℕ) (w : ℕ → K) (kerning : Bool) (size spaced x y : K) (hsz : size ≠ 0) (gs : List G) :
    (runTJ w size (processPDF m enc kerning size spaced gs) 0).map (fun p => (p.1, x + p.2)) =
      (textPath m (fun g => (w (enc g) / 1000 * size, 0)) kerning size spaced x y gs).map fun p => (enc p.1, p.2.1) := by
  have key : psOf size (processPDF m enc kerning size spaced gs) = psLoop enc kerning spaced true (dataOf m kerning (size / 1000) gs) [] := by
    unfold processPDF dataOf
    cases kerning
    · exact psOf_pdfLoop_plain enc size spaced hsz gs true []
    · exact psOf_pdfLoop_kerns m enc size spaced hsz gs true []
  have h := ps_positions m enc (fun g => (w (enc g) / 1000 * size, 0)) (fun c => (w c / 1000 * size, 0)) kerning size spaced 0 y 0 0 gs
    (fun _ _ => rfl)
  rw [processPS, runPS, ← key] at h
  rw [runTJ_eq w size _ 0 y, h, textPath_eq, textPath_eq]
  simp only [List.map_map]
  have shift : ∀ (gs : List G) (a b : K), (place m (fun g => (w (enc g) / 1000 * size, 0)) kerning (size / 1000) spaced gs (a + b) y).map
      (fun p => (enc p.1, p.2.1)) = (place m (fun g => (w (enc g) / 1000 * size, 0)) kerning (size / 1000) spaced gs b y).map
      (fun p => (enc p.1, a + p.2.1)) := by
    intro gs
    induction gs with
    | nil => intros; rfl
    | cons g t ih =>
      intro a b
      cases t with
      | nil => simp [place]
      | cons h t =>
        simp only [place, List.map_cons, List.cons.injEq, true_and, add_zero]
        rw [← ih a]
        congr 2
        ring
  have := shift gs x 0
  rw [add_zero] at this
  rw [this]
  rfl

/-! ## SVG -/

/-- What an SVG viewer does: `dx` of a `tspan` shifts its first character; nested `tspan`s do not occur. -/
def runSVG (adv : ℕ → K) : List (SVGEv K) → K → List (ℕ × K)
  | [], _ => []
  | .start dx :: l, x => runSVG adv l (x + dx)
  | .stop :: l, x => runSVG adv l x
  | .char c :: l, x => (c, x) :: runSVG adv l (x + adv c)

/-- The elements are closed in order, are not nested and not empty: `inside` tells whether there is an open `tspan`, `need` whether it still needs a character. -/
def wellFormed : Bool → Bool → List (SVGEv K) → Prop
  | inside, _, [] => inside = false
  | inside, need, .start _ :: l => inside = false ∧ need = false ∧ wellFormed true true l
  | inside, need, .stop :: l => inside = true ∧ need = false ∧ wellFormed false false l
  | inside, _, .char _ :: l => wellFormed inside false l

theorem runSVG_stopIf (adv : ℕ → K) (b : Bool) (l : List (SVGEv K)) (x : K) : runSVG adv (stopIf b l) x = runSVG adv l x := by
  cases b <;> simp [stopIf, runSVG]

theorem wellFormed_stopIf_start (b : Bool) (dx : K) (l : List (SVGEv K)) (h : wellFormed true true l) :
    wellFormed b false (stopIf b (.start dx :: l)) := by
  cases b <;> simp [stopIf, wellFormed, h]

theorem svgLoop_kerns (m : Metric G K) (chr : G → ℕ) (adv : G → K × K) (advc : ℕ → K) (scale spaced : K) :
    ∀ (gs : List G) (first tspan : Bool) (x y : K), (∀ g ∈ gs, advc (chr g) = (adv g).1) →
      runSVG advc (svgLoop chr true spaced first tspan (resolveKernings m scale gs)) x =
        (place m adv true scale spaced gs x y).map (fun p => (chr p.1, p.2.1)) ∧
      ∀ need, (need = true → gs ≠ [] ∧ tspan = true) → wellFormed tspan need (svgLoop chr true spaced first tspan (resolveKernings m scale gs))
  | [], _, tspan, x, y, _ => by
    refine ⟨by rw [resolveKernings, svgLoop, runSVG_stopIf]; simp [runSVG, place], ?_⟩
    intro need hn
    have : need = false := by cases need <;> simp_all
    cases tspan <;> simp [resolveKernings, svgLoop, stopIf, wellFormed, this]
  | [g], _, tspan, x, y, h => by
    refine ⟨?_, ?_⟩
    · simp [resolveKernings, svgLoop, runSVG, runSVG_stopIf, place]
    · intro need _
      cases tspan <;> simp [resolveKernings, svgLoop, stopIf, wellFormed]
  | g :: h :: t, first, tspan, x, y, ha => by
    have hg := ha g (by simp)
    have ih := fun ts x y => svgLoop_kerns m chr adv advc scale spaced (h :: t) false ts x y (fun g hh => ha g (List.mem_cons_of_mem _ hh))
    rw [resolveKernings, svgLoop, if_neg (by simp), place, List.map_cons, runSVG]
    cases e : m.kern g h with
    | some k =>
      rw [Option.map_some, svgLoop, runSVG_stopIf, runSVG]
      refine ⟨?_, ?_⟩
      · rw [(ih _ _ (y + (adv g).2)).1, hg]
        simp only [Option.getD_some, if_true]
        congr 3
        ring
      · intro need _
        rw [wellFormed]
        exact wellFormed_stopIf_start _ _ _ ((ih true 0 0).2 true (by simp))
    | none =>
      rw [Option.map_none, svgLoop]
      by_cases hs : spaced = 0
      · rw [if_neg (by simpa using hs)]
        refine ⟨?_, ?_⟩
        · rw [(ih _ _ (y + (adv g).2)).1, hg]
          simp [hs]
        · intro need _
          rw [wellFormed]
          exact (ih tspan 0 0).2 false (by simp)
      · rw [if_pos hs, runSVG_stopIf, runSVG]
        refine ⟨?_, ?_⟩
        · rw [(ih _ _ (y + (adv g).2)).1, hg]
          simp only [Option.getD_none, if_true]
          congr 3
          ring
        · intro need _
          rw [wellFormed]
          exact wellFormed_stopIf_start _ _ _ ((ih true 0 0).2 true (by simp))

theorem svgLoop_plain (m : Metric G K) (chr : G → ℕ) (adv : G → K × K) (advc : ℕ → K) (scale spaced : K) :
    ∀ (gs : List G) (first tspan : Bool) (x y : K), (∀ g ∈ gs, advc (chr g) = (adv g).1) →
      runSVG advc (svgLoop chr false spaced first tspan (gs.map Item.glyph)) x =
        (place m adv false scale spaced gs (x + (if first then 0 else spaced)) y).map (fun p => (chr p.1, p.2.1)) ∧
      wellFormed tspan false (svgLoop chr false spaced first tspan (gs.map Item.glyph))
  | [], _, tspan, x, y, _ => by
    refine ⟨by rw [List.map_nil, svgLoop, runSVG_stopIf]; simp [runSVG, place], ?_⟩
    cases tspan <;> simp [svgLoop, stopIf, wellFormed]
  | g :: t, first, tspan, x, y, ha => by
    have hg := ha g (by simp)
    have ih := fun ts x y => svgLoop_plain m chr adv advc scale spaced t false ts x y (fun g hh => ha g (List.mem_cons_of_mem _ hh))
    have hp : ∀ X Y, place m adv false scale spaced (g :: t) X Y =
        (g, X, Y) :: place m adv false scale spaced t (X + (adv g).1 + spaced) (Y + (adv g).2) := by
      intro X Y
      cases t with
      | nil => simp [place]
      | cons h t => simp [place]
    rw [List.map_cons, svgLoop, hp, List.map_cons]
    by_cases hc : first = false ∧ spaced ≠ 0
    · rw [if_pos ⟨hc.1, rfl, hc.2⟩, runSVG_stopIf, runSVG, runSVG, hc.1]
      refine ⟨?_, ?_⟩
      · rw [(ih _ _ (y + (adv g).2)).1, hg]; simp
      · apply wellFormed_stopIf_start
        rw [wellFormed]
        exact (ih true 0 0).2
    · have hz : (if first then 0 else spaced) = (0 : K) := by
        cases first
        · simp only [true_and, not_not] at hc; simp [hc]
        · simp
      rw [if_neg (by tauto), runSVG, hz, add_zero, wellFormed]
      refine ⟨?_, (ih tspan 0 0).2⟩
      rw [(ih _ _ (y + (adv g).2)).1, hg]; simp

/-- **C131**: in SVG the elements are closed, not nested and not empty, and the characters of the glyphs are at the positions of the path of the text. -/
theorem svg_positions (m : Metric G K) (chr : G → ℕ) (adv : G → K × K) (advc : ℕ → K) (kerning : Bool) (size spaced x y : K)
    (gs : List G) (h : ∀ g ∈ gs, advc (chr g) = (adv g).1) :
    wellFormed false false (processSVG m chr kerning size spaced gs) ∧
    runSVG advc (processSVG m chr kerning size spaced gs) x =
      (textPath m adv kerning size spaced x y gs).map fun p => (chr p.1, p.2.1) := by
  rw [textPath_eq]
  unfold processSVG dataOf
  cases kerning
  · have := svgLoop_plain m chr adv advc (size / 1000) spaced gs true false x y h
    exact ⟨by simpa using this.2, by simpa using this.1⟩
  · have := svgLoop_kerns m chr adv advc (size / 1000) spaced gs true false x y h
    exact ⟨by simpa using this.2 false (by simp), by simpa using this.1⟩

example : (processSVG usual id true 10 1 [6, 4, 1, 6] : List (SVGEv ℚ)).length = 10 ∧
    textPath usual (fun g => (usual.width g * 10 / 1000, 0)) true 10 1 100 200 [6, 4, 1, 6] =
      [(6, 100, 200), (4, 106, 200), (1, 112, 200), (6, 11773 / 100, 200)] := by
  refine ⟨by decide +kernel, by decide +kernel⟩

/-! ## The bounding box -/

theorem kernSum_eq (m : Metric G K) (scale : K) : ∀ gs : List G,
    kernSum (resolveKernings m scale gs) = ((List.range (gs.length - 1)).map (kernAt m true scale gs)).sum
  | [] => rfl
  | [_] => rfl
  | g :: h :: t => by
    have ih := kernSum_eq m scale (h :: t)
    have e : (g :: h :: t).length - 1 = ((h :: t).length - 1) + 1 := by simp
    rw [e, List.range_succ_eq_map, List.map_cons, List.map_map, List.sum_cons]
    have : (kernAt m true scale (g :: h :: t) ∘ Nat.succ) = kernAt m true scale (h :: t) := by
      funext j; simp [kernAt]
    rw [this, ← ih, resolveKernings]
    cases e : m.kern g h <;> simp [kernSum, kernAt, e]

/-- **C131**: the bounding box ends where the last glyph of the text ends: at its position plus its width in the metric. -/
theorem bbox_end (m : Metric G K) (kerning : Bool) (size spaced x y : K) (gs : List G) (g : G) :
    x + bboxWidth m kerning size spaced (gs ++ [g]) =
      (posAt m (fun g => (m.width g * size / 1000, 0)) kerning (size / 1000) spaced x y (gs ++ [g]) gs.length).1 + m.width g * size / 1000 := by
  unfold bboxWidth posAt
  have hk : (if kerning then kernSum (resolveKernings m (size / 1000) (gs ++ [g])) else 0) =
      ((List.range gs.length).map (kernAt m kerning (size / 1000) (gs ++ [g]))).sum := by
    cases kerning
    · simp only [Bool.false_eq_true, if_false]
      symm
      apply List.sum_eq_zero
      intro v hv
      obtain ⟨j, -, rfl⟩ := List.mem_map.mp hv
      unfold kernAt
      split <;> simp
    · rw [if_pos rfl, kernSum_eq]; simp
  rw [hk]
  have hw : ∀ l : List G, (l.map fun g => m.width g * size / 1000).sum = (l.map m.width).sum * size / 1000 := by
    intro l
    induction l with
    | nil => simp
    | cons a l ih => simp only [List.map_cons, List.sum_cons, ih]; ring
  simp only [List.take_left, List.map_append, List.map_cons, List.map_nil, List.sum_append, List.sum_cons, List.sum_nil, List.length_append,
    List.length_cons, List.length_nil, hw]
  push_cast
  ring

/-! ## Widths in PDF -/

theorem trunc_near [FloorRing K] (w : K) : |w - trunc w| < 1 := by
  unfold trunc
  by_cases h : 0 ≤ w
  · rw [if_pos h, abs_lt]
    constructor
    · have := Int.floor_le w; linarith
    · have := Int.lt_floor_add_one w; linarith
  · rw [if_neg h, abs_lt]
    constructor
    · have := Int.ceil_lt_add_one w; linarith
    · have := Int.le_ceil w; linarith

/-- **C131**: the array of widths has the truncated width of every code used. -/
theorem widths_spec [FloorRing K] (width : ℕ → K) (codes : List ℕ) (first last c : ℕ) (hc : c ∈ codes) (h1 : first ≤ c) (h2 : c ≤ last) :
    (widths width codes first last)[c - first]? = some (trunc (width c)) := by
  unfold widths
  rw [List.getElem?_map, List.getElem?_range' (by omega)]
  have : first + (c - first) = c := by omega
  simp [this, hc]

/-- **C131**: as the widths in PDF are truncated, a viewer puts glyph `k` less than `k` times `size/1000` from where it is in the path of the text (in the other formats it is exactly there); it is exactly there if the widths are integers. -/
theorem pdf_error [FloorRing K] (m : Metric G K) (kerning : Bool) (size spaced x y : K) (hsz : 0 < size) (gs : List G) (k : ℕ) (hk : k ≤ gs.length) :
    |(posAt m (fun g => (m.width g * size / 1000, 0)) kerning (size / 1000) spaced x y gs k).1 -
      (posAt m (fun g => ((trunc (m.width g) : K) / 1000 * size, 0)) kerning (size / 1000) spaced x y gs k).1| ≤ k * (size / 1000) ∧
    ((∀ g ∈ gs, ((trunc (m.width g) : ℤ) : K) = m.width g) →
      posAt m (fun g => (m.width g * size / 1000, 0)) kerning (size / 1000) spaced x y gs k =
        posAt m (fun g => ((trunc (m.width g) : K) / 1000 * size, 0)) kerning (size / 1000) spaced x y gs k) := by
  have key : ∀ (gs : List G) (k : ℕ), k ≤ gs.length → |((gs.take k).map fun g => m.width g * size / 1000).sum -
      ((gs.take k).map fun g => (trunc (m.width g) : K) / 1000 * size).sum| ≤ k * (size / 1000) := by
    intro gs
    induction gs with
    | nil => intro k hk; simp at hk; simp [hk]
    | cons g t ih =>
      intro k hk
      cases k with
      | zero => simp
      | succ k =>
        have := ih k (by simpa using hk)
        simp only [List.take_succ_cons, List.map_cons, List.sum_cons, Nat.cast_add, Nat.cast_one]
        have h1 := trunc_near (m.width g)
        have h2 : |m.width g * size / 1000 - (trunc (m.width g) : K) / 1000 * size| ≤ size / 1000 := by
          have : m.width g * size / 1000 - (trunc (m.width g) : K) / 1000 * size = (m.width g - trunc (m.width g)) * (size / 1000) := by ring
          rw [this, abs_mul, abs_of_pos (show 0 < size / 1000 by positivity)]
          have : 0 ≤ size / 1000 := by positivity
          nlinarith
        rw [abs_le] at this h2 ⊢
        constructor <;> nlinarith [this.1, this.2, h2.1, h2.2]
  constructor
  · have := key gs k hk
    unfold posAt
    dsimp only
    have e : ∀ a b c d x : K, x + a + c + d - (x + b + c + d) = a - b := by intros; ring
    rw [e]
    exact this
  · intro h
    unfold posAt
    congr 1
    have : ((gs.take k).map fun g => m.width g * size / 1000) = ((gs.take k).map fun g => (trunc (m.width g) : K) / 1000 * size) := by
      apply List.map_congr_left
      intro g hg
      rw [h g (List.mem_of_mem_take hg)]; ring
    dsimp only
    rw [this]

/-- **C131**: the truncation shows: with widths of 500.9 the second glyph in PDF is 0.009 left of that in the path (size 10). -/
theorem pdf_drift : ∃ m : Metric ℕ ℚ, (posAt m (fun g => (m.width g * 10 / 1000, 0)) false (10 / 1000) 0 0 0 [1, 1] 1).1 -
    (posAt m (fun g => ((trunc (m.width g) : ℚ) / 1000 * 10, 0)) false (10 / 1000) 0 0 0 [1, 1] 1).1 = 9 / 1000 :=
  ⟨⟨fun _ => 5009 / 10, fun _ => 0, fun _ => 0, fun _ => [], fun _ _ => none⟩, by decide +kernel⟩

/-! ## Slanted texts -/

/-- **C131**: slanted texts are the same in PostScript and PDF: every point of a glyph is shifted by `slant` times its height. -/
theorem slant_same (slant : Option K) (x y dx : K) (p : K × K) :
    pointPS slant (x + dx, y) p = pointPDF slant (x, y) dx p ∧
    pointPS slant (x + dx, y) p = (x + dx + p.1 + slant.getD 0 * p.2, y + p.2) := by
  unfold pointPS pointPDF slantBy
  constructor
  · ext
    · dsimp only; ring
    · rfl
  · ext
    · dsimp only; ring
    · rfl

/-- **C131**: the path of a slanted text is not slanted: it is the text of the other outputs only if there is no slant (or for points on the base line). -/
theorem slant_lost (slant : Option K) (pos p : K × K) :
    pointPath slant pos p = pointPS slant pos p ↔ slant.getD 0 = 0 ∨ p.2 = 0 := by
  unfold pointPath pointPS slantBy
  constructor
  · intro h
    have := congrArg Prod.fst h
    dsimp only at this
    have : slant.getD 0 * p.2 = 0 := by linarith
    exact mul_eq_zero.mp this
  · intro h
    have : slant.getD 0 * p.2 = 0 := mul_eq_zero.mpr h
    rw [this, add_zero]

end

/-! ## Strings -/

/-- The value of an octal digit. -/
def octVal (c : Char) : Option ℕ := if 48 ≤ c.toNat ∧ c.toNat < 56 then some (c.toNat - 48) else none

/-- How strings in parentheses are read (of the escapes only those which are written): `none` where the string ends or is not as expected. -/
def readString : List Char → Option (List ℕ)
  | [] => some []
  | '\\' :: a :: b :: c :: l =>
    match octVal a, octVal b, octVal c, readString l with
    | some x, some y, some z, some r => some ((64 * x + 8 * y + z) :: r)
    | _, _, _, _ => none
  | c :: l => if c = '\\' ∨ c = '(' ∨ c = ')' ∨ c.toNat < 32 then none else (readString l).map fun r => c.toNat :: r

theorem octVal_octDigit (d : ℕ) (h : d < 8) : octVal (octDigit d) = some d := by
  revert d; decide

theorem readString_escape (plain : ℕ → Bool) (hp : ∀ v, plain v = true → v < 128 ∧ 32 ≤ v ∧ Char.ofNat v ∉ ['(', ')', '[', ']', '<', '>', '\\'])
    (v : ℕ) (hv : v < 256) (l : List Char) : readString (escape plain v ++ l) = (readString l).map fun r => v :: r := by
  unfold escape
  by_cases h : plain v = true
  · obtain ⟨h1, h2, h3⟩ := hp v h
    have ht : (Char.ofNat v).toNat = v := by
      have : ∀ v, v < 128 → (Char.ofNat v).toNat = v := by decide
      exact this v h1
    rw [if_pos h, List.singleton_append, readString.eq_def]
    split
    · exact absurd ‹_› (by simp)
    · rename_i heq
      simp only [List.cons.injEq] at heq
      exact absurd heq.1 (fun e => h3 (by simp [e]))
    · rename_i heq
      simp only [List.cons.injEq] at heq
      obtain ⟨rfl, rfl⟩ := heq
      rw [if_neg, ht]
      rintro (e | e | e | e)
      · exact h3 (by simp [e])
      · exact h3 (by simp [e])
      · exact h3 (by simp [e])
      · omega
  · rw [if_neg h, octal]
    simp only [List.cons_append, List.nil_append]
    rw [readString, octVal_octDigit _ (by omega), octVal_octDigit _ (by omega), octVal_octDigit _ (by omega)]
    cases readString l with
    | none => rfl
    | some r => simp; omega

/-- **C131**: a reader of PostScript or PDF gets the codes of the text from the string written, whatever the codes below 256 are. -/
theorem strings_read (plain : ℕ → Bool) (hp : plain = plainPS ∨ plain = plainPDF) (codes : List ℕ) (h : ∀ v ∈ codes, v < 256) :
    readString (codes.flatMap (escape plain)) = some codes := by
  have hp' : ∀ v, plain v = true → v < 128 ∧ 32 ≤ v ∧ Char.ofNat v ∉ ['(', ')', '[', ']', '<', '>', '\\'] := by
    intro v hv
    rcases hp with rfl | rfl
    · simp only [plainPS, Bool.and_eq_true, decide_eq_true_eq, Bool.not_eq_true', List.contains_eq_mem, decide_eq_false_iff_not] at hv
      exact ⟨by omega, by omega, hv.2⟩
    · simp only [plainPDF, Bool.and_eq_true, decide_eq_true_eq, Bool.not_eq_true', List.contains_eq_mem, decide_eq_false_iff_not] at hv
      exact ⟨by omega, by omega, hv.2⟩
  induction codes with
  | nil => rfl
  | cons v l ih =>
    rw [List.flatMap_cons, readString_escape plain hp' v (h v (by simp)), ih (fun w hw => h w (List.mem_cons_of_mem _ hw))]
    rfl

example : ([40, 65, 255, 127, 92].flatMap (escape plainPDF) : List Char) = "\\050A\\377\x7f\\134".toList := by decide +kernel

/-! ## Encodings -/

/-- An encoding as it has to be: every glyph once, with the codes `0, 1, …`, at most 256. -/
structure Good (e : Enc G) : Prop where
  keys : (e.map (·.1)).Nodup
  codes : e.map (·.2) = List.range e.length
  small : e.length ≤ 256

theorem inj_of_nodup {A B : Type} (f : A → B) : ∀ (l : List A), (l.map f).Nodup → ∀ a ∈ l, ∀ b ∈ l, f a = f b → a = b
  | [], _, a, ha, _, _, _ => by simp at ha
  | x :: l, h, a, ha, b, hb, e => by
    rw [List.map_cons, List.nodup_cons] at h
    rcases List.mem_cons.mp ha with rfl | ha <;> rcases List.mem_cons.mp hb with rfl | hb
    · rfl
    · exact absurd (List.mem_map.mpr ⟨b, hb, e.symm⟩) h.1
    · exact absurd (List.mem_map.mpr ⟨a, ‹a ∈ l›, e⟩ : f b ∈ l.map f) h.1
    · exact inj_of_nodup f l h.2 a ha b hb e

theorem has_iff (e : Enc G) (g : G) : e.has g = true ↔ g ∈ e.map (·.1) := by
  simp [Enc.has]

theorem extend_eq : ∀ (l : List G) (e : Enc G), e.extend l = e ++ l.zipIdx e.length
  | [], e => by simp [Enc.extend]
  | g :: l, e => by
    rw [Enc.extend, extend_eq l]
    simp [List.zipIdx_cons]

theorem zipIdx_keys (l : List G) (n : ℕ) : (l.zipIdx n).map (·.1) = l := by simp

theorem extend_good (e : Enc G) (l : List G) (he : Good e) (hn : l.Nodup) (hd : ∀ g ∈ l, g ∉ e.map (·.1)) (hs : e.length + l.length ≤ 256) :
    Good (e.extend l) := by
  rw [extend_eq]
  refine ⟨?_, ?_, by simpa using hs⟩
  · rw [List.map_append, zipIdx_keys, List.nodup_append]
    exact ⟨he.keys, hn, fun a ha b hb e' => hd b hb (e' ▸ ha)⟩
  · rw [List.map_append, he.codes]
    have : (l.zipIdx e.length).map (·.2) = List.range' e.length l.length := by simp
    rw [this, List.range_eq_range', List.range_eq_range', List.length_append, List.length_zipIdx, ← List.range'_append]
    simp

theorem code_append (e e' : Enc G) (g : G) (c : ℕ) (h : e.code g = some c) : Enc.code (e ++ e') g = some c := by
  unfold Enc.code at *
  rw [List.find?_append]
  cases f : e.find? (fun p => p.1 = g) with
  | none => simp [f] at h
  | some p => simpa [f] using h

theorem code_of_has (e : Enc G) (g : G) (h : e.has g = true) : ∃ c, e.code g = some c ∧ (g, c) ∈ e := by
  unfold Enc.has at h
  unfold Enc.code
  cases f : e.find? (fun p => p.1 = g) with
  | none =>
    rw [List.find?_eq_none] at f
    rw [List.any_eq_true] at h
    obtain ⟨p, hp, hp'⟩ := h
    exact absurd hp' (f p hp)
  | some p =>
    have h1 := List.find?_some f
    have h2 := List.mem_of_find?_eq_some f
    refine ⟨p.2, rfl, ?_⟩
    have : p.1 = g := by simpa using h1
    rw [← this]; exact h2

/-- What a text needs of the encodings, and what the texts before rely on. -/
structure Ok (gs : List G) (es : List (Enc G)) (n : ℕ) (es' : List (Enc G)) : Prop where
  good : ∀ e ∈ es', Good e
  has : ∃ e, es'[n]? = some e ∧ ∀ g ∈ gs, ∃ c, e.code g = some c ∧ c < 256
  old : ∀ (i : ℕ) (e : Enc G), es[i]? = some e → ∃ e', es'[i]? = some e' ∧ ∀ g c, e.code g = some c → e'.code g = some c

theorem good_code_lt (e : Enc G) (he : Good e) (g : G) (c : ℕ) (h : (g, c) ∈ e) : c < 256 := by
  have : c ∈ e.map (·.2) := List.mem_map.mpr ⟨_, h, rfl⟩
  rw [he.codes, List.mem_range] at this
  exact lt_of_lt_of_le this he.small

theorem good_has (e : Enc G) (he : Good e) (gs : List G) (h : ∀ g ∈ gs, g ∈ e.map (·.1)) : ∀ g ∈ gs, ∃ c, e.code g = some c ∧ c < 256 := by
  intro g hg
  obtain ⟨c, h1, h2⟩ := code_of_has e g ((has_iff e g).mpr (h g hg))
  exact ⟨c, h1, good_code_lt e he g c h2⟩

theorem findEncoding_ok (gs : List G) (hn : gs.Nodup) : ∀ (es : List (Enc G)) (n : ℕ) (r : ℕ × List (Enc G)), (∀ e ∈ es, Good e) →
    findEncoding gs n es = some r → n ≤ r.1 ∧ Ok gs es (r.1 - n) r.2
  | [], n, r, _, h => by simp [findEncoding] at h
  | e :: es, n, r, hg, h => by
    rw [findEncoding] at h
    by_cases hc : (gs.filter fun g => !e.has g).length + e.length < 256
    · rw [if_pos hc] at h
      obtain rfl := Option.some.inj h
      have he := hg e (by simp)
      have hgood : Good (e.extend (gs.filter fun g => !e.has g)) := by
        apply extend_good e _ he (hn.filter _)
        · intro g hgm hin
          have := (List.mem_filter.mp hgm).2
          rw [(has_iff e g).mpr hin] at this
          simp at this
        · omega
      refine ⟨le_refl _, ⟨?_, ?_, ?_⟩⟩
      · intro e' he'
        rcases List.mem_cons.mp he' with rfl | he'
        · exact hgood
        · exact hg e' (List.mem_cons_of_mem _ he')
      · refine ⟨_, by simp only [Nat.sub_self, List.getElem?_cons_zero], good_has _ hgood gs ?_⟩
        intro g hgm
        rw [extend_eq, List.map_append, zipIdx_keys, List.mem_append, List.mem_filter]
        by_cases hh : e.has g = true
        · exact Or.inl ((has_iff e g).mp hh)
        · exact Or.inr ⟨hgm, by simp [hh]⟩
      · intro i e' he'
        cases i with
        | zero =>
          simp only [List.getElem?_cons_zero, Option.some.injEq] at he'
          subst he'
          exact ⟨_, rfl, fun g c hcode => by rw [extend_eq]; exact code_append _ _ _ _ hcode⟩
        | succ i => exact ⟨e', by simpa using he', fun _ _ h => h⟩
    · rw [if_neg hc] at h
      cases f : findEncoding gs (n + 1) es with
      | none => simp [f] at h
      | some q =>
        rw [f, Option.map_some] at h
        obtain rfl := Option.some.inj h
        obtain ⟨h1, h2⟩ := findEncoding_ok gs hn es (n + 1) q (fun e he => hg e (List.mem_cons_of_mem _ he)) f
        have hi : q.1 - n = (q.1 - (n + 1)) + 1 := by omega
        refine ⟨by simp only; omega, ⟨?_, ?_, ?_⟩⟩
        · intro e' he'
          rcases List.mem_cons.mp he' with rfl | he'
          · exact hg _ (by simp)
          · exact h2.good e' he'
        · obtain ⟨e', he', hh⟩ := h2.has
          exact ⟨e', by simp only [hi, List.getElem?_cons_succ]; exact he', hh⟩
        · intro i e' he'
          cases i with
          | zero => exact ⟨e', by simpa using he', fun _ _ h => h⟩
          | succ i => exact h2.old i e' (by simpa using he')

/-- **C131**: a text whose glyphs are at most 256 gets an encoding with a code below 256 for each of its glyphs; all encodings have the codes `0, 1, …` once each, and the codes of the texts before stay as they are. Only more than 256 glyphs are an error. -/
theorem encodings (gs : List G) (hn : gs.Nodup) (es : List (Enc G)) (hg : ∀ e ∈ es, Good e) :
    (getEncoding gs es = none ↔ 256 < gs.length) ∧ ∀ n es', getEncoding gs es = some (n, es') → Ok gs es n es' := by
  unfold getEncoding
  by_cases h : 256 < gs.length
  · rw [if_pos h]; exact ⟨by simp [h], by simp⟩
  · rw [if_neg h]
    cases f : findEncoding gs 0 es with
    | some r =>
      refine ⟨by simp [h], ?_⟩
      rintro n es' e
      obtain rfl := Option.some.inj e
      exact (findEncoding_ok gs hn es 0 _ hg f).2
    | none =>
      refine ⟨by simp [h], ?_⟩
      rintro n es' e
      simp only [Option.some.injEq, Prod.mk.injEq] at e
      obtain ⟨rfl, rfl⟩ := e
      have hgood : Good (Enc.extend [] gs) :=
        extend_good [] gs ⟨List.nodup_nil, rfl, by simp⟩ hn (by simp) (by simp; omega)
      refine ⟨?_, ⟨_, by rw [List.getElem?_append_right (le_refl _), Nat.sub_self]; rfl, good_has _ hgood gs ?_⟩, ?_⟩
      · intro e' he'
        rcases List.mem_append.mp he' with he' | he'
        · exact hg e' he'
        · rw [List.mem_singleton.mp he']; exact hgood
      · intro g hgm
        rw [extend_eq, List.map_append, zipIdx_keys]; simpa using hgm
      · intro i e' he'
        have hi : i < es.length := (List.getElem?_eq_some_iff.mp he').1
        exact ⟨e', by rw [List.getElem?_append_left hi]; exact he', fun _ _ h => h⟩

theorem vectorLoop_ok : ∀ (e : Enc G) (v : List (Option G)), (e.map (·.2)).Nodup → (∀ p ∈ e, p.2 < v.length) →
    ∃ v', vectorLoop e v = some v' ∧ v'.length = v.length ∧ (∀ p ∈ e, v'[p.2]? = some (some p.1)) ∧
      ∀ i, i ∉ e.map (·.2) → v'[i]? = v[i]?
  | [], v, _, _ => ⟨v, rfl, rfl, by simp, by simp⟩
  | p :: e, v, hn, hl => by
    rw [List.map_cons, List.nodup_cons] at hn
    obtain ⟨v', h1, h2, h3, h4⟩ := vectorLoop_ok e (v.set p.2 (some p.1)) hn.2
      (fun q hq => by rw [List.length_set]; exact hl q (List.mem_cons_of_mem _ hq))
    have hp := hl p (by simp)
    refine ⟨v', by rw [vectorLoop, if_pos hp, h1], by simpa using h2, ?_, ?_⟩
    · intro q hq
      rcases List.mem_cons.mp hq with rfl | hq
      · rw [h4 _ hn.1, List.getElem?_set_self hp]
      · exact h3 q hq
    · intro i hi
      rw [List.map_cons, List.mem_cons, not_or] at hi
      rw [h4 i hi.2, List.getElem?_set_ne (fun e => hi.1 e.symm)]

/-- **C131**: the vector written for an encoding (in PDF and PostScript) has every glyph at its code, and a glyph at every code: a viewer gets back the glyphs from the codes. -/
theorem vector_inverse (e : Enc G) (he : Good e) : ∃ v, getVector e = some v ∧ v.length = e.length ∧
    (∀ g c, e.code g = some c → v[c]? = some (some g)) ∧ ∀ c, c < e.length → ∃ g, v[c]? = some (some g) ∧ e.code g = some c := by
  have hn : (e.map (·.2)).Nodup := by rw [he.codes]; exact List.nodup_range
  have hl : ∀ p ∈ e, p.2 < (List.replicate e.length (none : Option G)).length := by
    intro p hp
    have : p.2 ∈ e.map (·.2) := List.mem_map.mpr ⟨p, hp, rfl⟩
    rw [he.codes, List.mem_range] at this
    simpa using this
  obtain ⟨v, h1, h2, h3, -⟩ := vectorLoop_ok e _ hn hl
  have hcode : ∀ g c, e.code g = some c → (g, c) ∈ e := by
    intro g c h
    unfold Enc.code at h
    cases f : e.find? (fun p => p.1 = g) with
    | none => simp [f] at h
    | some p =>
      have a := List.find?_some f
      have b := List.mem_of_find?_eq_some f
      rw [f] at h
      simp at h a
      rw [← h, ← a]; exact b
  refine ⟨v, h1, by simpa using h2, fun g c h => h3 _ (hcode g c h), ?_⟩
  intro c hc
  have : c ∈ e.map (·.2) := by rw [he.codes]; exact List.mem_range.mpr hc
  obtain ⟨p, hp, rfl⟩ := List.mem_map.mp this
  refine ⟨p.1, h3 p hp, ?_⟩
  obtain ⟨d, hd, hmem⟩ := code_of_has e p.1 ((has_iff e p.1).mpr (List.mem_map.mpr ⟨p, hp, rfl⟩))
  have : (p.1, d) = p := inj_of_nodup _ _ he.keys _ hmem _ hp rfl
  rw [hd, ← congrArg Prod.snd this]

example : getEncoding [10, 11, 12] [[(11, 0), (13, 1)]] = some (0, [[(11, 0), (13, 1), (10, 2), (12, 3)]]) ∧
    Good ([(11, 0), (13, 1)] : Enc ℕ) := ⟨by decide, ⟨by decide, by decide, by decide⟩⟩

/-! ## Characters in SVG -/

/-- Private characters are above all known ones and below the next one; no character is used twice. -/
structure MGood (known : G → Option ℕ) (lo : ℕ) (m : Mapping G) : Prop where
  keys : (m.table.map (·.1)).Nodup
  vals : (m.table.map (·.2)).Nodup
  from_ : ∀ p ∈ m.table, known p.1 = some p.2 ∨ known p.1 = none ∧ lo ≤ p.2 ∧ p.2 < m.next

theorem char_none (m : Mapping G) (g : G) : m.char g = none ↔ g ∉ m.table.map (·.1) := by
  unfold Mapping.char
  simp only [Option.map_eq_none_iff, List.find?_eq_none, decide_eq_true_eq, List.mem_map, not_exists, not_and]

theorem add_good (known : G → Option ℕ) (lo : ℕ) (hinj : ∀ a b c, known a = some c → known b = some c → a = b)
    (hlo : ∀ a c, known a = some c → c < lo) (m : Mapping G) (h : MGood known lo m) (hn : lo ≤ m.next) (g : G) :
    MGood known lo (m.add known g) ∧ lo ≤ (m.add known g).next ∧ (m.add known g).char g ≠ none ∧
      ∀ a c, m.char a = some c → (m.add known g).char a = some c := by
  unfold Mapping.add
  by_cases hs : (m.char g).isSome
  · rw [if_pos hs]
    exact ⟨h, hn, by intro e; simp [e] at hs, fun _ _ h => h⟩
  · rw [if_neg hs]
    have hnone : m.char g = none := by simpa using hs
    have hkey := (char_none m g).mp hnone
    have hold : ∀ (e : G × ℕ) (nx : ℕ) a c, m.char a = some c → Mapping.char ⟨m.table ++ [e], nx⟩ a = some c := by
      intro e nx a c hc
      exact code_append m.table [e] a c hc
    have hnew : ∀ (c nx : ℕ), Mapping.char ⟨m.table ++ [(g, c)], nx⟩ g ≠ none := by
      intro c nx e
      rw [char_none] at e
      simp at e
    cases k : known g with
    | some c =>
      refine ⟨⟨?_, ?_, ?_⟩, hn, hnew c m.next, hold _ _⟩
      · rw [List.map_append, List.nodup_append]
        exact ⟨h.keys, by simp, fun a ha b hb e => hkey (by simp at hb; rw [← hb, ← e]; exact ha)⟩
      · rw [List.map_append, List.nodup_append]
        refine ⟨h.vals, by simp, ?_⟩
        intro a ha b hb e
        simp at hb
        subst hb; subst e
        obtain ⟨p, hp, hpe⟩ := List.mem_map.mp ha
        rcases h.from_ p hp with hk | ⟨-, hk, -⟩
        · rw [hpe] at hk
          exact hkey (List.mem_map.mpr ⟨p, hp, hinj _ _ _ hk k⟩)
        · have := hlo g _ k; omega
      · intro p hp
        rcases List.mem_append.mp hp with hp | hp
        · exact h.from_ p hp
        · rw [List.mem_singleton.mp hp]; exact Or.inl k
    | none =>
      refine ⟨⟨?_, ?_, ?_⟩, by simp only; omega, hnew _ _, hold _ _⟩
      · rw [List.map_append, List.nodup_append]
        exact ⟨h.keys, by simp, fun a ha b hb e => hkey (by simp at hb; rw [← hb, ← e]; exact ha)⟩
      · rw [List.map_append, List.nodup_append]
        refine ⟨h.vals, by simp, ?_⟩
        intro a ha b hb e
        simp at hb
        subst hb; subst e
        obtain ⟨p, hp, hpe⟩ := List.mem_map.mp ha
        rcases h.from_ p hp with hk | ⟨-, -, hk⟩
        · have := hlo _ _ hk; omega
        · omega
      · intro p hp
        rcases List.mem_append.mp hp with hp | hp
        · rcases h.from_ p hp with hk | ⟨h1, h2, h3⟩
          · exact Or.inl hk
          · exact Or.inr ⟨h1, h2, by simp only; omega⟩
        · rw [List.mem_singleton.mp hp]; exact Or.inr ⟨k, hn, by simp⟩

theorem merge_good (known : G → Option ℕ) (lo : ℕ) (hinj : ∀ a b c, known a = some c → known b = some c → a = b)
    (hlo : ∀ a c, known a = some c → c < lo) : ∀ (gs : List G) (m : Mapping G), MGood known lo m → lo ≤ m.next →
    MGood known lo (m.merge known gs) ∧ lo ≤ (m.merge known gs).next ∧ (∀ g ∈ gs, (m.merge known gs).char g ≠ none) ∧
      ∀ a c, m.char a = some c → (m.merge known gs).char a = some c
  | [], m, h, hn => ⟨h, hn, by simp, fun _ _ h => h⟩
  | g :: gs, m, h, hn => by
    obtain ⟨h1, h2, h3, h4⟩ := add_good known lo hinj hlo m h hn g
    obtain ⟨i1, i2, i3, i4⟩ := merge_good known lo hinj hlo gs _ h1 h2
    refine ⟨i1, i2, ?_, fun a c hc => i4 a c (h4 a c hc)⟩
    intro a ha
    rcases List.mem_cons.mp ha with rfl | ha
    · obtain ⟨c, hc⟩ := Option.ne_none_iff_exists'.mp h3
      intro e
      have := i4 _ _ hc
      rw [Mapping.merge, List.foldl_cons] at e
      unfold Mapping.merge at this
      rw [this] at e; cases e
    · exact i3 a ha

/-- **C131**: in SVG fonts all glyphs of all texts get characters; those of the texts before do not change, a glyph with a known unicode character gets this one, and different glyphs get different characters. -/
theorem svg_characters (known : G → Option ℕ) (lo : ℕ) (hinj : ∀ a b c, known a = some c → known b = some c → a = b)
    (hlo : ∀ a c, known a = some c → c < lo) (m : Mapping G) (h : MGood known lo m) (hn : lo ≤ m.next) (gs : List G) :
    (∀ g ∈ gs, ∃ c, (m.merge known gs).char g = some c) ∧
    (∀ a c, m.char a = some c → (m.merge known gs).char a = some c) ∧
    (∀ a c d, known a = some c → (m.merge known gs).char a = some d → d = c) ∧
    ∀ a b c, (m.merge known gs).char a = some c → (m.merge known gs).char b = some c → a = b := by
  obtain ⟨h1, h2, h3, h4⟩ := merge_good known lo hinj hlo gs m h hn
  have hmem : ∀ a c, (m.merge known gs).char a = some c → (a, c) ∈ (m.merge known gs).table := by
    intro a c hc
    unfold Mapping.char at hc
    cases f : (m.merge known gs).table.find? (fun p => p.1 = a) with
    | none => simp [f] at hc
    | some p =>
      have x := List.find?_some f
      have y := List.mem_of_find?_eq_some f
      rw [f] at hc
      simp at hc x
      rw [← hc, ← x]; exact y
  refine ⟨fun g hg => Option.ne_none_iff_exists'.mp (h3 g hg), h4, ?_, ?_⟩
  · intro a c d hk hd
    rcases h1.from_ _ (hmem a d hd) with e | ⟨e, -, -⟩
    · rw [hk] at e; exact (Option.some.inj e).symm
    · rw [hk] at e; cases e
  · intro a b c ha hb
    exact congrArg Prod.fst (inj_of_nodup _ _ h1.vals _ (hmem a c ha) _ (hmem b c hb) rfl)

example : MGood (fun g : ℕ => if g < 100 then some (g + 32) else none) 0xf0000 ⟨[], 0xf0000⟩ ∧
    (Mapping.merge (fun g : ℕ => if g < 100 then some (g + 32) else none) ⟨[], 0xf0000⟩ [200, 3, 201, 200]).table =
      [(200, 0xf0000), (3, 35), (201, 0xf0001)] :=
  ⟨⟨by simp, by simp, by simp⟩, by decide⟩

/-- **C131**: glyph names and codes are mapped apart from each other: a code and another glyph of the same font can get the same character (here the code 39 is `quoteright` in the standard encoding, and the glyph `quotesingle` = 1 has the character 39). -/
theorem svg_shared : ∃ (g c : ℕ), (Mapping.merge (fun g : ℕ => if g = 1 then some 39 else none) ⟨[], 0xf0000⟩ [g]).char g =
    (Mapping.merge (fun c : ℕ => if 32 ≤ c ∧ c < 127 then some c else none) ⟨[], 0x100000⟩ [c]).char c ∧ (g, c) = (1, 39) :=
  ⟨1, 39, by decide, rfl⟩

/-! ## Construction and the font descriptor -/

/-- **C131**: kerning and ligatures need a decoding; a text with a decoding has one glyph per character (before ligatures), an unknown character is an error. -/
theorem create_spec {C : Type} (m : Metric G K) (d : C → Option G) (kerning ligatures : Bool) (chars : List C) :
    ((create m (none : Option (C → Option G)) kerning ligatures chars).isNone ↔ kerning = true ∨ ligatures = true) ∧
    (∀ gs, create m (some d) kerning ligatures chars = some (.glyphs gs) ↔
      ∃ l, List.Forall₂ (fun c g => d c = some g) chars l ∧ gs = if ligatures then resolveLigatures m l else l) ∧
    ((create m (some d) kerning ligatures chars).isNone ↔ ∃ c ∈ chars, d c = none) := by
  have key : ∀ l, chars.mapM d = some l ↔ List.Forall₂ (fun c g => d c = some g) chars l := by
    induction chars with
    | nil => intro l; cases l <;> simp
    | cons c cs ih =>
      intro l
      cases e : d c with
      | none =>
        simp [List.mapM_cons, e]
        intro h
        cases h with
        | cons a b => simp [e] at a
      | some g =>
        cases f : cs.mapM d with
        | none =>
          simp [List.mapM_cons, e, f]
          intro h
          cases h with
          | cons a b => rw [← ih, f] at b; cases b
        | some r =>
          have hr := (ih r).mp f
          simp only [List.mapM_cons, e, f, Option.pure_def, Option.bind_eq_bind, Option.bind_some, Option.some.injEq]
          constructor
          · rintro rfl; exact List.Forall₂.cons e hr
          · intro h
            cases h with
            | cons a b =>
              rw [e] at a
              rw [← ih, f] at b
              rw [Option.some.inj a, Option.some.inj b]
  have hnone : chars.mapM d = none ↔ ∃ c ∈ chars, d c = none := by
    clear key
    induction chars with
    | nil => simp
    | cons c cs ih =>
      cases e : d c with
      | none => simp [List.mapM_cons, e]
      | some g =>
        cases f : cs.mapM d with
        | none => simpa [List.mapM_cons, e, f] using ih.mp f
        | some r =>
          have : ¬ ∃ c ∈ cs, d c = none := fun h => by rw [ih.mpr h] at f; cases f
          simpa [List.mapM_cons, e, f] using this
  refine ⟨by cases kerning <;> cases ligatures <;> simp [create], ?_, ?_⟩
  · intro gs
    unfold create
    constructor
    · intro h
      cases f : chars.mapM d with
      | none => simp [f] at h
      | some l =>
        simp only [f, Option.map_some, Option.some.injEq, Content.glyphs.injEq] at h
        exact ⟨l, (key l).mp f, h.symm⟩
    · rintro ⟨l, h1, h2⟩
      simp only [(key l).mpr h1, Option.map_some, h2]
  · unfold create
    rw [← hnone]
    cases f : chars.mapM d <;> simp [f]

/-- **C131**: without a descender in the AFM file the descent of the font descriptor is the top of the bounding box of the font (not its bottom). -/
theorem descent_is_top : (ascentDescent (some 700) none (some [-10, -200, 1000, 800]) : ℚ × ℚ) = (700, 800) := by decide +kernel

/-- **C131 (part)**: with an ascender and a descender, or without a bounding box, ascent and descent are those of the AFM file (or 1000 and -200). -/
theorem descent_partial (a d : Option ℚ) (b : Option (List ℚ)) (h : d ≠ none ∨ b = none) :
    (∀ v, d = some v → (ascentDescent a d b).2 = v) ∧ (d = none → (ascentDescent a d b).2 = -200) ∧ ∀ v, a = some v → (ascentDescent a d b).1 = v := by
  refine ⟨?_, ?_, ?_⟩
  · rintro v rfl; rfl
  · rintro rfl
    rcases h with h | rfl
    · exact absurd rfl h
    · rfl
  · rintro v rfl; rfl

end PyX.T1Text
