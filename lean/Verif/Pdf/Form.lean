import Verif.Pdf.Props
import Mathlib.Data.Nat.Bitwise
import Mathlib.Analysis.Real.Sqrt
import Mathlib.Tactic.LinearCombination
import Mathlib.Tactic.FieldSimp

/-!
# Form fields (`pdfextra.py`): model and C144
-/

set_option linter.unusedSectionVars false

namespace PyX.Form

/-! ## Flags: model -/

/-- `PDFannotflags` (`pdfextra.py:45-46`). -/
def annotFlags : List (String × ℕ) :=
  [("invisible", 0), ("hidden", 1), ("printable", 2), ("nozoom", 3), ("norotate", 4), ("noview", 5), ("readonly", 6)]

/-- `PDFformflags` (`pdfextra.py:49-56`). -/
def formFlags : List (String × ℕ) :=
  [("readonly", 0), ("required", 1), ("noexport", 2), ("notoggletooff", 14), ("radio", 15), ("pushbutton", 16), ("combo", 17), ("edit", 18), ("sort", 19),
   ("multiselect", 21), ("multiline", 12), ("password", 13), ("fileselect", 20), ("donotspellcheck", 22), ("donotscroll", 23)]

/-- `flag.set` for a value which is not None (`pdfextra.py:68-72`). -/
def setBit (v bit : ℕ) : ℕ := v ||| 1 <<< bit

/-- One of the loops of `_pdfflags` (`pdfextra.py:97-103`); `flags`: the key is present and its value is true. -/
def collect (table : List (String × ℕ)) (flags : String → Bool) : ℕ := table.foldl (fun v e => if flags e.1 then setBit v e.2 else v) 0

/-- `_pdfflags` (`pdfextra.py:84-105`). -/
def pdfflags (flags : String → Bool) : ℕ × ℕ := (collect annotFlags flags, collect formFlags flags)

/-- Assignment in a dictionary. -/
def assign (d : List (String × Bool)) (k : String) (v : Bool) : List (String × Bool) := d.map fun e => if e.1 = k then (k, v) else e

/-- `selectflags` (`pdfextra.py:140-148`): none for the RuntimeError. -/
def selectflags (defaults : List (String × Bool)) : List (String × Bool) → Option (List (String × Bool))
  | [] => some defaults
  | (k, v) :: l => if k ∈ defaults.map Prod.fst then selectflags (assign defaults k v) l else none

/-! ## Flags: specification and theorems -/

/-- Annotation flags of the PDF reference (table "Annotation flags"), with bit positions from 1. -/
def refAnnot : List (ℕ × String) := [(1, "invisible"), (2, "hidden"), (3, "printable"), (4, "nozoom"), (5, "norotate"), (6, "noview"), (7, "readonly")]

/-- Field flags of the PDF reference (tables of the flags of all fields, buttons, texts and choices). -/
def refForm : List (ℕ × String) :=
  [(1, "readonly"), (2, "required"), (3, "noexport"), (13, "multiline"), (14, "password"), (15, "notoggletooff"), (16, "radio"), (17, "pushbutton"), (18, "combo"),
   (19, "edit"), (20, "sort"), (21, "fileselect"), (22, "multiselect"), (23, "donotspellcheck"), (24, "donotscroll")]

theorem testBit_setBit (v b n : ℕ) : (setBit v b).testBit n = (v.testBit n || decide (b = n)) := by
  unfold setBit
  rw [Nat.testBit_or, Nat.one_shiftLeft, Nat.testBit_two_pow]

theorem fold_bits (table : List (String × ℕ)) (flags : String → Bool) (v n : ℕ) :
    (table.foldl (fun v e => if flags e.1 then setBit v e.2 else v) v).testBit n = true ↔ v.testBit n = true ∨ ∃ k, (k, n) ∈ table ∧ flags k = true := by
  induction table generalizing v with
  | nil => simp
  | cons e table ih =>
    rw [List.foldl_cons, ih]
    by_cases hf : flags e.1 = true
    · rw [if_pos hf, testBit_setBit]
      simp only [Bool.or_eq_true, decide_eq_true_eq, List.mem_cons]
      constructor
      · rintro ((h | h) | ⟨k, h1, h2⟩)
        · exact .inl h
        · exact .inr ⟨e.1, .inl (by rw [← h]), hf⟩
        · exact .inr ⟨k, .inr h1, h2⟩
      · rintro (h | ⟨k, h1 | h1, h2⟩)
        · exact .inl (.inl h)
        · exact .inl (.inr (by rw [← h1]))
        · exact .inr ⟨k, h1, h2⟩
    · rw [if_neg hf]
      simp only [List.mem_cons]
      constructor
      · rintro (h | ⟨k, h1, h2⟩)
        · exact .inl h
        · exact .inr ⟨k, .inr h1, h2⟩
      · rintro (h | ⟨k, h1 | h1, h2⟩)
        · exact .inl h
        · exfalso
          apply hf
          rw [← h1]; exact h2
        · exact .inr ⟨k, h1, h2⟩

/-- **C144 (flags).** A bit is set if and only if the flag at this position of the PDF reference is given, for annotations and for fields. -/
theorem flag_bits (flags : String → Bool) (n : ℕ) :
    ((pdfflags flags).1.testBit n = true ↔ ∃ k, (n + 1, k) ∈ refAnnot ∧ flags k = true) ∧
    ((pdfflags flags).2.testBit n = true ↔ ∃ k, (n + 1, k) ∈ refForm ∧ flags k = true) := by
  unfold pdfflags collect
  constructor
  · rw [fold_bits]
    simp only [Nat.zero_testBit, Bool.false_eq_true, false_or]
    have : ∀ k, (k, n) ∈ annotFlags ↔ (n + 1, k) ∈ refAnnot := by
      intro k
      simp only [annotFlags, refAnnot, List.mem_cons, Prod.mk.injEq, List.not_mem_nil, or_false, Nat.add_eq_right, Nat.reduceEqDiff]
      constructor <;> intro h <;> (rcases h with h | h | h | h | h | h | h) <;> simp [h.1, h.2]
    simp only [this]
  · rw [fold_bits]
    simp only [Nat.zero_testBit, Bool.false_eq_true, false_or]
    have : ∀ k, (k, n) ∈ formFlags ↔ (n + 1, k) ∈ refForm := by
      intro k
      simp only [formFlags, refForm, List.mem_cons, Prod.mk.injEq, List.not_mem_nil, or_false, Nat.add_eq_right, Nat.reduceEqDiff]
      constructor <;> intro h <;> (rcases h with h | h | h | h | h | h | h | h | h | h | h | h | h | h | h) <;> simp [h.1, h.2]
    simp only [this]

example : pdfflags (fun k => k = "readonly" ∨ k = "multiline") = (64, 4097) := by decide +kernel

theorem assign_keys (d : List (String × Bool)) (k : String) (v : Bool) : (assign d k v).map Prod.fst = d.map Prod.fst := by
  unfold assign
  rw [List.map_map]
  apply List.map_congr_left
  intro e _
  show (if e.1 = k then (k, v) else e).1 = e.1
  split_ifs with h
  · exact h.symm
  · rfl

/-- **C144 (arguments).** Arguments are accepted if and only if all of them are flags of the field. -/
theorem select_some (d l : List (String × Bool)) : (selectflags d l).isSome ↔ ∀ e ∈ l, e.1 ∈ d.map Prod.fst := by
  induction l generalizing d with
  | nil => simp [selectflags]
  | cons e l ih =>
    obtain ⟨k, v⟩ := e
    unfold selectflags
    by_cases h : k ∈ d.map Prod.fst
    · rw [if_pos h, ih, assign_keys]
      simp only [List.mem_cons, forall_eq_or_imp]
      exact ⟨fun g => ⟨h, g⟩, fun g => g.2⟩
    · rw [if_neg h]
      simp only [Option.isSome_none, Bool.false_eq_true, List.mem_cons, forall_eq_or_imp, false_iff]
      exact fun g => h g.1

/-- The values of an accepted call: the last one given for the key, or the default. -/
def given (l : List (String × Bool)) (k : String) : Option Bool := (l.reverse.find? fun e => e.1 = k).map Prod.snd

/-- **C144 (values).** Each flag has the value given, and the default if none is given. -/
theorem select_value (d l r : List (String × Bool)) (h : selectflags d l = some r) (k : String) (v : Bool) :
    (k, v) ∈ r ↔ (∃ w, (k, w) ∈ d) ∧ given l k = some v ∨ (k, v) ∈ d ∧ given l k = none := by
  induction l generalizing d with
  | nil =>
    simp only [selectflags, Option.some.injEq] at h
    subst h
    simp [given]
  | cons e l ih =>
    obtain ⟨k', v'⟩ := e
    unfold selectflags at h
    split at h
    case isFalse => cases h
    case isTrue hk =>
      rw [ih _ h]
      have hg : given ((k', v') :: l) k = (given l k).orElse fun _ => if k' = k then some v' else none := by
        unfold given
        rw [List.reverse_cons, List.find?_append]
        cases hf : List.find? (fun e => decide (e.1 = k)) l.reverse with
        | some x => simp
        | none =>
          by_cases hkk : k' = k <;> simp [hkk]
      have hex : (∃ w, (k, w) ∈ assign d k' v') ↔ ∃ w, (k, w) ∈ d := by
        have h1 : ∀ D : List (String × Bool), (∃ w, (k, w) ∈ D) ↔ k ∈ D.map Prod.fst := by
          intro D
          rw [List.mem_map]
          constructor
          · rintro ⟨w, hw⟩; exact ⟨(k, w), hw, rfl⟩
          · rintro ⟨⟨a, b⟩, hw, rfl⟩; exact ⟨b, hw⟩
        rw [h1, h1, assign_keys]
      rw [hex, hg]
      have hmem : (k, v) ∈ assign d k' v' ↔ if k' = k then v = v' ∧ ∃ w, (k, w) ∈ d else (k, v) ∈ d := by
        unfold assign
        rw [List.mem_map]
        split_ifs with hkk
        · subst hkk
          constructor
          · rintro ⟨⟨a, b⟩, ha, hb⟩
            split_ifs at hb with hc
            · simp only at hc
              subst hc
              simp only [Prod.mk.injEq, true_and] at hb
              exact ⟨hb.symm, b, ha⟩
            · simp only [Prod.mk.injEq] at hb
              exact absurd hb.1 hc
          · rintro ⟨rfl, w, hw⟩
            exact ⟨(k', w), hw, by simp⟩
        · constructor
          · rintro ⟨⟨a, b⟩, ha, hb⟩
            split_ifs at hb with hc
            · simp only [Prod.mk.injEq] at hb
              exact absurd hb.1 hkk
            · simp only [Prod.mk.injEq] at hb
              rw [← hb.1, ← hb.2]; exact ha
          · intro hw
            exact ⟨(k, v), hw, by simp [Ne.symm hkk]⟩
      rw [hmem]
      cases hgl : given l k with
      | some x => simp
      | none =>
        by_cases hkk : k' = k
        · simp only [hkk, if_true, Option.orElse_none, reduceCtorEq, and_false, false_or, and_true, or_false, Option.some.injEq]
          constructor
          · rintro ⟨rfl, w⟩; exact ⟨w, rfl⟩
          · rintro ⟨w, rfl⟩; exact ⟨rfl, w⟩
        · simp [hkk]

example : selectflags [("readonly", false), ("printable", true)] [("readonly", true)] = some [("readonly", true), ("printable", true)] := by decide +kernel
example : selectflags [("readonly", false), ("printable", true)] [("radio", true)] = none := by decide +kernel

/-! ## Places -/

/-- A transformation: matrix and vector (`trafo.py:106-118`). -/
structure Mat where
  a : ℝ
  b : ℝ
  c : ℝ
  d : ℝ
  x : ℝ
  y : ℝ

/-- `apply_pt`. -/
def Mat.app (t : Mat) (p : ℝ × ℝ) : ℝ × ℝ := (t.a * p.1 + t.b * p.2 + t.x, t.c * p.1 + t.d * p.2 + t.y)

/-- `_sizetrafo` (`pdfextra.py:128-131`). -/
noncomputable def sizetrafo (s : ℝ) (t : Mat) : ℝ :=
  Real.sqrt (((t.app (s, s)).1 - (t.app (0, 0)).1) ^ 2 + ((t.app (s, s)).2 - (t.app (0, 0)).2) ^ 2) * Real.sqrt (1 / 2)

/-- The rectangle of a text or choice field: the two corners (`pdfextra.py:187-188, 636-637`). -/
def fieldRect (t : Mat) (ll ur : ℝ × ℝ) : (ℝ × ℝ) × (ℝ × ℝ) := (t.app ll, t.app ur)

/-- The rectangle of a checkbox or radio button (`pdfextra.py:378-379, 419-420, 500`). -/
noncomputable def buttonRect (t : Mat) (pos : ℝ × ℝ) (size : ℝ) : (ℝ × ℝ) × (ℝ × ℝ) :=
  (t.app pos, ((t.app pos).1 + sizetrafo size t, (t.app pos).2 + sizetrafo size t))

/-- Specification: the points of a rectangle given by two opposite corners in any order (PDF reference, section on rectangles). -/
def Within (r : (ℝ × ℝ) × (ℝ × ℝ)) (p : ℝ × ℝ) : Prop := p.1 ∈ Set.uIcc r.1.1 r.2.1 ∧ p.2 ∈ Set.uIcc r.1.2 r.2.2

/-- A transformation with axes parallel to the axes. -/
def Mat.Straight (t : Mat) : Prop := (t.b = 0 ∧ t.c = 0 ∧ t.a ≠ 0 ∧ t.d ≠ 0) ∨ (t.a = 0 ∧ t.d = 0 ∧ t.b ≠ 0 ∧ t.c ≠ 0)

theorem uIcc_scale {k v a b z : ℝ} (hk : k ≠ 0) : k * z + v ∈ Set.uIcc (k * a + v) (k * b + v) ↔ z ∈ Set.uIcc a b := by
  rw [Set.mem_uIcc, Set.mem_uIcc]
  rcases lt_or_gt_of_ne hk with h | h
  · constructor
    · rintro (⟨h1, h2⟩ | ⟨h1, h2⟩)
      · exact .inr ⟨by nlinarith, by nlinarith⟩
      · exact .inl ⟨by nlinarith, by nlinarith⟩
    · rintro (⟨h1, h2⟩ | ⟨h1, h2⟩)
      · exact .inr ⟨by nlinarith, by nlinarith⟩
      · exact .inl ⟨by nlinarith, by nlinarith⟩
  · constructor
    · rintro (⟨h1, h2⟩ | ⟨h1, h2⟩)
      · exact .inl ⟨by nlinarith, by nlinarith⟩
      · exact .inr ⟨by nlinarith, by nlinarith⟩
    · rintro (⟨h1, h2⟩ | ⟨h1, h2⟩)
      · exact .inl ⟨by nlinarith, by nlinarith⟩
      · exact .inr ⟨by nlinarith, by nlinarith⟩

/-- **C144 (places of text fields).** On a canvas which is shifted, scaled (differently for both directions), mirrored or turned by right angles the rectangle of a field is
where the canvas puts it. -/
theorem field_place (t : Mat) (ht : t.Straight) (ll ur p : ℝ × ℝ) : Within (fieldRect t ll ur) (t.app p) ↔ Within (ll, ur) p := by
  unfold Within fieldRect Mat.app
  rcases ht with ⟨hb, hc, ha, hd⟩ | ⟨ha, hd, hb, hc⟩
  · simp only [hb, hc, zero_mul, add_zero, zero_add]
    rw [uIcc_scale ha, uIcc_scale hd]
  · simp only [ha, hd, zero_mul, add_zero, zero_add]
    rw [uIcc_scale hb, uIcc_scale hc]
    exact and_comm

theorem sizetrafo_scale (s k : ℝ) (hs : 0 ≤ s) (t : Mat) (ha : t.a = k) (hd : t.d = k) (hb : t.b = 0) (hc : t.c = 0) : sizetrafo s t = s * |k| := by
  unfold sizetrafo Mat.app
  rw [ha, hd, hb, hc]
  have e : (k * s + 0 * s + t.x - (k * 0 + 0 * 0 + t.x)) ^ 2 + (0 * s + k * s + t.y - (0 * 0 + k * 0 + t.y)) ^ 2 = (s * k) ^ 2 * 2 := by ring
  simp only
  rw [e, Real.sqrt_mul (sq_nonneg _), Real.sqrt_sq_eq_abs, abs_mul, abs_of_nonneg hs, mul_assoc, ← Real.sqrt_mul (by norm_num)]
  norm_num

/-- **C144 (places of buttons).** On a canvas which is shifted and scaled a button is where the canvas puts it. -/
theorem button_place (t : Mat) (k : ℝ) (hk : 0 < k) (ha : t.a = k) (hd : t.d = k) (hb : t.b = 0) (hc : t.c = 0) (pos : ℝ × ℝ) (s : ℝ) (hs : 0 ≤ s) (p : ℝ × ℝ) :
    Within (buttonRect t pos s) (t.app p) ↔ Within (pos, (pos.1 + s, pos.2 + s)) p := by
  unfold buttonRect
  rw [sizetrafo_scale s k hs t ha hd hb hc, abs_of_pos hk]
  have e : ((t.app pos).1 + s * k, (t.app pos).2 + s * k) = t.app (pos.1 + s, pos.2 + s) := by
    unfold Mat.app
    rw [ha, hd, hb, hc]
    apply Prod.ext <;> simp only <;> ring
  rw [e]
  exact field_place t (.inl ⟨hb, hc, by rw [ha]; exact hk.ne', by rw [hd]; exact hk.ne'⟩) pos _ p

/-- On a mirrored canvas the button is on the wrong side: its right edge is mirrored to the left, but the button still extends to the right. -/
theorem button_mirrored : ∃ (t : Mat) (pos p : ℝ × ℝ) (s : ℝ), t.Straight ∧ 0 < s ∧ Within (pos, (pos.1 + s, pos.2 + s)) p ∧ ¬ Within (buttonRect t pos s) (t.app p) := by
  refine ⟨⟨-1, 0, 0, 1, 0, 0⟩, (0, 0), (5, 5), 10, .inl ⟨rfl, rfl, by norm_num, by norm_num⟩, by norm_num, ?_, ?_⟩
  · unfold Within
    simp only [Set.mem_uIcc]
    constructor
    · left; constructor <;> norm_num
    · left; constructor <;> norm_num
  · unfold Within buttonRect
    intro h
    have h1 := h.1
    rw [Set.mem_uIcc] at h1
    have hpos : 0 ≤ sizetrafo 10 ⟨-1, 0, 0, 1, 0, 0⟩ := mul_nonneg (Real.sqrt_nonneg _) (Real.sqrt_nonneg _)
    simp only [Mat.app] at h1
    rcases h1 with ⟨h1, _⟩ | ⟨h1, _⟩ <;> linarith

/-! ## Strings -/

/-- Balanced parentheses, with `n` open ones before. -/
def balanced : ℕ → List Char → Bool
  | n, [] => n = 0
  | n, c :: s => if c = '(' then balanced (n + 1) s else if c = ')' then (if n = 0 then false else balanced (n - 1) s) else balanced n s

/-- **C144 (strings).** A name or value, which is written between parentheses as it is, is read back if its parentheses are balanced and it has no backslash and no carriage
return. -/
theorem string_read_partial (s rest : List Char) (n : ℕ) (acc : List ℕ) (hb : balanced n s = true) (h1 : '\\' ∉ s) (h2 : '\r' ∉ s) (fuel : ℕ) (hf : s.length < fuel) :
    Pdf.readLit fuel (s ++ ')' :: rest) n acc = some (acc ++ s.map Char.toNat, rest) := by
  induction s generalizing n acc fuel with
  | nil =>
    cases fuel with
    | zero => simp at hf
    | succ fuel =>
      have : n = 0 := by simpa [balanced] using hb
      subst this
      simp [Pdf.readLit]
  | cons c s ih =>
    cases fuel with
    | zero => simp at hf
    | succ fuel =>
      have hf' : s.length < fuel := by simpa using hf
      simp only [List.mem_cons, not_or] at h1 h2
      rw [List.cons_append, Pdf.readLit]
      unfold balanced at hb
      by_cases hc1 : c = ')'
      · subst hc1
        rw [if_neg (by decide), if_pos rfl] at hb
        split_ifs at hb with hn
        rw [if_pos rfl, if_neg hn, ih (n - 1) _ hb h1.2 h2.2 fuel hf']
        simp
      · by_cases hc2 : c = '('
        · subst hc2
          rw [if_pos rfl] at hb
          rw [if_neg (by decide), if_pos rfl, ih (n + 1) _ hb h1.2 h2.2 fuel hf']
          simp
        · rw [if_neg hc2, if_neg hc1] at hb
          rw [if_neg hc1, if_neg hc2, if_neg (Ne.symm h1.1), if_neg (Ne.symm h2.1), ih n _ hb h1.2 h2.2 fuel hf']
          simp

example : Pdf.readLit 20 ("a(b)c".toList ++ ')' :: "\n/TU".toList) 0 [] = some ("a(b)c".toList.map Char.toNat, "\n/TU".toList) :=
  string_read_partial "a(b)c".toList "\n/TU".toList 0 [] (by decide) (by decide) (by decide) 20 (by decide)

/-- Other names are not: a parenthesis ends the string, and what follows becomes part of the dictionary; a backslash is lost. -/
theorem string_wrong : Pdf.readLit 20 ("a)b".toList ++ ")\n".toList) 0 [] = some ([97], "b)\n".toList) ∧
    Pdf.readLit 20 ("a\\d".toList ++ ")\n".toList) 0 [] = some ([97, 100], "\n".toList) := by decide +kernel

/-! ## Buttons -/

/-- `_simplestring` (`pdfextra.py:121-126`); `isalnum` of characters is a parameter. -/
def simple (alnum : Char → Bool) (s : List Char) : List Char := s.filter alnum

/-- A button: the name of its state when on, and its initial state (`pdfextra.py:500-507, 526-527`). -/
structure Button where
  pos : ℝ × ℝ
  on : List Char
  initial : List Char

/-- The buttons of `PDFbuttonlist` (`pdfextra.py:462-467`). -/
def buttons (alnum : Char → Bool) (positions : List (ℝ × ℝ)) (values : List (List Char)) (default : Option (List Char)) : List Button :=
  (positions.zip values).map fun e => ⟨e.1, simple alnum e.2, if default = some e.2 then simple alnum e.2 else "Off".toList⟩

/-- The value which is written for the field (`pdfextra.py:486`); none for `None`. -/
def fieldValue (default : Option (List Char)) : List Char := default.getD "None".toList

/-- A button is on. -/
def Button.IsOn (b : Button) : Prop := b.initial = b.on

theorem simple_id (alnum : Char → Bool) (s : List Char) (h : ∀ c ∈ s, alnum c = true) : simple alnum s = s := List.filter_eq_self.mpr h

/-- **C144 (buttons).** With values of letters and digits which are different from each other and from `Off`, the states of the buttons have different names, and exactly the
buttons whose value is the default are on, with the value of the field. -/
theorem buttons_spec (alnum : Char → Bool) (positions : List (ℝ × ℝ)) (values : List (List Char)) (default : Option (List Char)) (hlen : positions.length = values.length)
    (ha : ∀ v ∈ values, ∀ c ∈ v, alnum c = true) (hn : values.Nodup) (hoff : "Off".toList ∉ values) :
    (buttons alnum positions values default).map Button.pos = positions ∧ (buttons alnum positions values default).map Button.on = values ∧
    ((buttons alnum positions values default).map Button.on).Nodup ∧
    ∀ b ∈ buttons alnum positions values default, (b.IsOn ↔ default = some b.on) ∧ (b.IsOn → b.initial = fieldValue default) := by
  have h1 : (buttons alnum positions values default).map Button.on = values := by
    unfold buttons
    rw [List.map_map]
    have : ((positions.zip values).map (Button.on ∘ fun e => (⟨e.1, simple alnum e.2, if default = some e.2 then simple alnum e.2 else "Off".toList⟩ : Button))) =
        (positions.zip values).map Prod.snd := by
      apply List.map_congr_left
      intro e he
      exact simple_id alnum e.2 (ha e.2 (List.of_mem_zip he).2)
    rw [this, List.map_snd_zip (by omega)]
  refine ⟨?_, h1, by rw [h1]; exact hn, ?_⟩
  · unfold buttons
    rw [List.map_map]
    exact List.map_fst_zip (by omega)
  · intro b hb
    unfold buttons at hb
    obtain ⟨e, he, rfl⟩ := List.mem_map.mp hb
    have hv := (List.of_mem_zip he).2
    have hs := simple_id alnum e.2 (ha e.2 hv)
    unfold Button.IsOn fieldValue
    simp only [hs]
    by_cases hd : default = some e.2
    · rw [if_pos hd]
      refine ⟨⟨fun _ => hd, fun _ => rfl⟩, fun _ => by rw [hd]; rfl⟩
    · rw [if_neg hd]
      have hne : "Off".toList ≠ e.2 := fun h => hoff (h ▸ hv)
      exact ⟨⟨fun h => absurd h hne, fun h => absurd h hd⟩, fun h => absurd h hne⟩

example : (buttons Char.isAlphanum [(0, 0), (10, 0)] ["red".toList, "blue".toList] (some "blue".toList)).map (fun b => (b.on, b.initial)) =
    [("red".toList, "Off".toList), ("blue".toList, "blue".toList)] := by
  unfold buttons
  simp only [List.zip_cons_cons, List.zip_nil_right, List.map_cons, List.map_nil]
  decide +kernel

/-- Other values: two buttons get the same name, and the field has a value which no button has. -/
theorem buttons_wrong (p q : ℝ × ℝ) :
    (buttons Char.isAlphanum [p, q] ["a b".toList, "ab".toList] none).map Button.on = ["ab".toList, "ab".toList] ∧
    (buttons Char.isAlphanum [p] ["a b".toList] (some "a b".toList)).map Button.on = ["ab".toList] ∧ fieldValue (some "a b".toList) = "a b".toList := by
  unfold buttons
  simp only [List.zip_cons_cons, List.zip_nil_right, List.map_cons, List.map_nil]
  decide +kernel

/-- A button with the value `Off` is always on, and values without a position are dropped. -/
theorem button_off (p : ℝ × ℝ) : (∀ b ∈ buttons Char.isAlphanum [p] ["Off".toList] none, b.IsOn) ∧ (buttons Char.isAlphanum [p] ["a".toList, "b".toList] none).length = 1 := by
  refine ⟨?_, rfl⟩
  intro b hb
  unfold buttons at hb
  simp only [List.zip_cons_cons, List.zip_nil_right, List.map_cons, List.map_nil, List.mem_singleton] at hb
  subst hb
  show (if (none : Option (List Char)) = some "Off".toList then simple Char.isAlphanum "Off".toList else "Off".toList) = simple Char.isAlphanum "Off".toList
  decide +kernel

/-! ## Default texts -/

/-- `split("\n")`. -/
def splitLines : List Char → List (List Char)
  | [] => [[]]
  | c :: s =>
    match splitLines s with
    | [] => [[]]
    | l :: r => if c = '\n' then [] :: l :: r else (c :: l) :: r

/-- `self.texts` (`pdfextra.py:233, 294`). -/
def texts (value : List Char) : List (List Char) := (splitLines value).filter fun t => t ≠ []

/-- The default text which is written: none if there is no value, and an exception (false) for `self.texts[0]` (`pdfextra.py:232-238, 317`). -/
def written (value : List Char) : Option (List (List Char)) × Bool :=
  if value = [] then (none, true) else (some (texts value), texts value ≠ [])

theorem splitLines_ne (s : List Char) : splitLines s ≠ [] := by
  cases s with
  | nil => simp [splitLines]
  | cons c s =>
    unfold splitLines
    cases splitLines s with
    | nil => simp
    | cons l r => simp only; split_ifs <;> simp

theorem splitLines_join (s : List Char) : [ '\n' ].intercalate (splitLines s) = s := by
  induction s with
  | nil => simp [splitLines, List.intercalate]
  | cons c s ih =>
    unfold splitLines
    cases h : splitLines s with
    | nil => exact absurd h (splitLines_ne s)
    | cons l r =>
      rw [h] at ih
      simp only
      split_ifs with hc
      · subst hc
        rw [← ih]
        simp [List.intercalate]
      · rw [← ih]
        cases r <;> simp [List.intercalate]

theorem splitLines_mem (s : List Char) : ∀ l ∈ splitLines s, '\n' ∉ l := by
  induction s with
  | nil => simp [splitLines]
  | cons c s ih =>
    unfold splitLines
    cases h : splitLines s with
    | nil => simp
    | cons l r =>
      rw [h] at ih
      simp only
      split_ifs with hc
      · intro x hx
        simp only [List.mem_cons] at hx
        rcases hx with rfl | hx
        · simp
        · exact ih x (by simpa using hx)
      · intro x hx
        simp only [List.mem_cons] at hx
        rcases hx with rfl | hx
        · have := ih l (by simp)
          simp [this, Ne.symm hc]
        · exact ih x (by simp [hx])

/-- **C144 (default texts).** The lines of a default text are written if there is no empty line between them or at the ends. -/
theorem texts_lines (lines : List (List Char)) (h0 : lines ≠ []) (h : ∀ l ∈ lines, l ≠ [] ∧ '\n' ∉ l) : written ([ '\n' ].intercalate lines) = (some lines, true) := by
  have hs : ∀ (l : List Char) (s : List Char), '\n' ∉ l → splitLines (l ++ '\n' :: s) = l :: splitLines s := by
    intro l s hl
    induction l with
    | nil =>
      rw [List.nil_append]
      conv_lhs => unfold splitLines
      cases h : splitLines s with
      | nil => exact absurd h (splitLines_ne s)
      | cons a b => simp
    | cons c l ih =>
      simp only [List.mem_cons, not_or] at hl
      rw [List.cons_append]
      conv_lhs => unfold splitLines
      rw [ih hl.2]
      simp [Ne.symm hl.1]
  have hs1 : ∀ l : List Char, '\n' ∉ l → splitLines l = [l] := by
    intro l hl
    induction l with
    | nil => rfl
    | cons c l ih =>
      simp only [List.mem_cons, not_or] at hl
      unfold splitLines
      rw [ih hl.2]
      simp [Ne.symm hl.1]
  have key : splitLines ([ '\n' ].intercalate lines) = lines := by
    induction lines with
    | nil => exact absurd rfl h0
    | cons l r ih =>
      cases r with
      | nil => simpa [List.intercalate] using hs1 l (h l (by simp)).2
      | cons m r =>
        have : [ '\n' ].intercalate (l :: m :: r) = l ++ '\n' :: [ '\n' ].intercalate (m :: r) := by simp [List.intercalate]
        rw [this, hs l _ (h l (by simp)).2, ih (by simp) fun x hx => h x (by simp [hx])]
  have hne : [ '\n' ].intercalate lines ≠ [] := by
    intro he
    rw [he] at key
    cases lines with
    | nil => exact h0 rfl
    | cons l r =>
      simp only [splitLines, List.cons.injEq] at key
      exact (h l (by simp)).1 key.1.symm
  have ht : texts ([ '\n' ].intercalate lines) = lines := by
    unfold texts
    rw [key]
    exact List.filter_eq_self.mpr fun l hl => by simpa using (h l hl).1
  unfold written
  rw [if_neg hne, ht]
  simp [h0]

/-- **C144 (exceptions).** There is an exception if and only if the value has nothing but line ends. -/
theorem texts_fail (value : List Char) : (written value).2 = false ↔ value ≠ [] ∧ ∀ c ∈ value, c = '\n' := by
  have key : ∀ s : List Char, (∀ c ∈ s, c = '\n') ↔ ∀ l ∈ splitLines s, l = [] := by
    intro s
    induction s with
    | nil => simp [splitLines]
    | cons c s ih =>
      unfold splitLines
      cases h : splitLines s with
      | nil => exact absurd h (splitLines_ne s)
      | cons l r =>
        rw [h] at ih
        simp only [List.mem_cons, forall_eq_or_imp] at ih ⊢
        split_ifs with hc
        · rw [ih]; simp [hc]
        · simp [hc]
  unfold written
  by_cases h : value = []
  · simp [h]
  · rw [if_neg h]
    simp only [ne_eq, h, not_false_eq_true, true_and, key]
    unfold texts
    simp only [decide_eq_false_iff_not, not_not, List.filter_eq_nil_iff, ne_eq, decide_not, Bool.not_eq_true', decide_eq_false_iff_not]
    rw [Bool.not_eq_false', decide_eq_true_eq]

/-- So a line end alone fails, and empty lines are lost. -/
theorem texts_wrong : written "\n".toList = (some [], false) ∧ written "a\n\nb".toList = (some ["a".toList, "b".toList], true) := by decide +kernel

/-- `self.vshift` with `vcenter` (`pdfextra.py:300-302`), for `n` lines. -/
noncomputable def vshift (h leading fontsize : ℝ) (n : ℕ) : ℝ := 1 / 2 * h + ((n : ℝ) / 2 - 1) * leading + 0.215 * fontsize

/-- **C144 (centred).** The lines, each from 0.215 font sizes below its base line and as high as the distance of lines, are centred in the field. -/
theorem centred (h leading fontsize : ℝ) (n : ℕ) :
    (vshift h leading fontsize n - 0.215 * fontsize + leading) + (vshift h leading fontsize n - ((n : ℝ) - 1) * leading - 0.215 * fontsize) = h := by
  unfold vshift
  ring

/-! ## Fill styles -/

/-- What is done on a page, in order: a canvas with fill styles begins, a canvas ends, a text field is placed. -/
inductive Event
  | opening (styles : List ℕ)
  | closing
  | field (name : ℕ)

/-- The text fields with the list `context.fillstyles` which they see.  The list is the same one in all contexts, since `context()` makes a shallow copy
(`canvas.py:217, 225`, `pdfwriter.py:408-412`; only canvases with items): styles are added and never removed. -/
def seen (list : List ℕ) : List Event → List (ℕ × List ℕ)
  | [] => []
  | .opening s :: l => seen (list ++ s) l
  | .closing :: l => seen list l
  | .field n :: l => (n, list) :: seen list l

/-- `PDFtextfield.__init__` calls `processPDF` of the styles with one argument too much (`pdfextra.py:242-247`): a TypeError if there is any style. -/
def fieldFails (f : ℕ × List ℕ) : Bool := f.2 ≠ []

/-- Specification: the styles of the canvases around a field, innermost last. -/
def around (stack : List (List ℕ)) : List Event → List (ℕ × List ℕ)
  | [] => []
  | .opening s :: l => around (stack ++ [s]) l
  | .closing :: l => around stack.dropLast l
  | .field n :: l => (n, stack.flatten) :: around stack l

/-- A text field on a page with a canvas with a fill style before is a TypeError, even if that canvas has ended. -/
theorem field_fails (before after : List Event) (list styles : List ℕ) (hs : styles ≠ []) (n : ℕ) (mid : List Event) :
    ∃ f ∈ seen list (before ++ .opening styles :: mid ++ .field n :: after), f.1 = n ∧ fieldFails f = true := by
  have mono : ∀ (l : List Event) (list : List ℕ), list ≠ [] → ∃ f ∈ seen list (l ++ .field n :: after), f.1 = n ∧ fieldFails f = true := by
    intro l
    induction l with
    | nil => intro list h; exact ⟨(n, list), by simp [seen], rfl, by simpa [fieldFails] using h⟩
    | cons e l ih =>
      intro list h
      cases e with
      | opening s => exact ih _ (by simp [h])
      | closing => exact ih _ h
      | field m =>
        obtain ⟨f, h1, h2⟩ := ih list h
        exact ⟨f, List.mem_cons_of_mem _ h1, h2⟩
  induction before generalizing list with
  | nil => exact mono mid (list ++ styles) (by simp [hs])
  | cons e l ih =>
    cases e with
    | opening s => exact ih _
    | closing => exact ih _
    | field m =>
      obtain ⟨f, h1, h2⟩ := ih list
      exact ⟨f, List.mem_cons_of_mem _ h1, h2⟩

/-- The list is not what the canvases around say: a style of a canvas which has ended is still there. -/
theorem styles_leak : seen [] [.opening [1], .closing, .field 7] = [(7, [1])] ∧ around [] [.opening [1], .closing, .field 7] = [(7, [])] := ⟨rfl, rfl⟩

/-- **C144 (fill styles).** Without any fill style there is no exception. -/
theorem field_plain (l : List Event) (h : ∀ s, Event.opening s ∈ l → s = []) : ∀ f ∈ seen [] l, fieldFails f = false := by
  induction l with
  | nil => simp [seen]
  | cons e l ih =>
    have ih := ih fun s hs => h s (List.mem_cons_of_mem _ hs)
    cases e with
    | opening s =>
      have : s = [] := h s (by simp)
      subst this
      simpa [seen] using ih
    | closing => exact ih
    | field m =>
      intro f hf
      simp only [seen, List.mem_cons] at hf
      rcases hf with rfl | hf
      · simp [fieldFails]
      · exact ih f hf

end PyX.Form
