import Verif.Text.Engine
import Verif.Text.MessageProps
import Verif.Text.MessageLoad
import Mathlib.Tactic.FieldSimp
import Mathlib.Tactic.Ring
import Mathlib.Tactic.NormNum

/-!
# C130: what the output of TeX must contain
-/

set_option linter.unusedSectionVars false

namespace PyX.TexEngine

open PyX.TexMsg

/-! ## Specification -/

/-- `b` is `a` with one occurrence of `t` removed. -/
def Removed (t a b : Str) : Prop := ∃ x y, a = x ++ t ++ y ∧ b = x ++ y

/-- The message with the page and the extents of a box. -/
def boxText (m : BoxMsg) : Str :=
  (lit "PyXBox:page=") ++ m.page ++ (lit ",lt=") ++ m.lt ++ (lit "pt,rt=") ++ m.rt ++ (lit "pt,ht=") ++ m.ht ++
    (lit "pt,dp=") ++ m.dp ++ (lit "pt:")

/-- Without the prompts and the spaces, a text consists of newlines and asterisks in front of newlines. -/
def Blank (s : Str) : Prop :=
  ∃ pieces : List Str, (∀ p ∈ pieces, p = ['*', '\n'] ∨ p = ['\n']) ∧ (replaceAll prompt s).filter (· ≠ ' ') = pieces.flatten

/-- A number as TeX writes it: digits with at most one dot, perhaps after a minus sign. -/
def IsNumber (s : Str) : Prop :=
  ∃ sign a b : Str, (sign = [] ∨ sign = ['-']) ∧ (∀ c ∈ a, c.isDigit) ∧ (∀ c ∈ b, c.isDigit) ∧ a ++ b ≠ [] ∧
    (s = sign ++ a ++ '.' :: b ∨ s = sign ++ a ++ b)

/-! ## Numbers -/

theorem str_digits {n : ℕ} {c : Char} (h : c ∈ str n) : c.isDigit := Nat.isDigit_of_mem_toDigits (by omega) (by omega) h

theorem str_ne_nil (n : ℕ) : str n ≠ [] := Nat.toDigits_ne_nil

theorem digitsVal_snoc (s : Str) (c : Char) : digitsVal (s ++ [c]) = 10 * digitsVal s + ((c.toNat : ℚ) - 48) := by
  simp [digitsVal]

theorem digitChar_val {n : ℕ} (h : n < 10) : ((n.digitChar).toNat : ℚ) - 48 = n := by
  have h1 : ((n.digitChar).toNat : ℚ) - 48 = n ↔ n.digitChar.toNat = n + 48 := by
    rw [sub_eq_iff_eq_add]; exact_mod_cast Iff.rfl
  rw [h1]
  clear h1
  revert n; decide

/-- The value of the decimal digits of a number is the number. -/
theorem digitsVal_str (n : ℕ) : digitsVal (str n) = n := by
  induction n using Nat.strong_induction_on with
  | _ n ih =>
    by_cases h : n < 10
    · rw [str, Nat.toDigits_of_lt_base h]
      have := digitChar_val h
      simp only [digitsVal, List.foldl_cons, List.foldl_nil]
      linarith
    · rw [str, Nat.toDigits_of_base_le (by omega) (by omega), digitsVal_snoc, digitChar_val (Nat.mod_lt _ (by omega))]
      have := ih (n / 10) (by omega)
      rw [str] at this
      rw [this]
      have h2 : (n : ℚ) = ((10 * (n / 10) + n % 10 : ℕ) : ℚ) := by rw [Nat.div_add_mod]
      rw [h2]; push_cast; ring

theorem str_inj {m n : ℕ} (h : str m = str n) : m = n := by
  have := congrArg digitsVal h
  rw [digitsVal_str, digitsVal_str] at this
  exact_mod_cast this

theorem takeWhile_digits {a t : Str} (h : ∀ c ∈ a, c.isDigit) (ht : ∀ c ∈ t.head?, ¬ c.isDigit) :
    (a ++ t).takeWhile Char.isDigit = a ∧ (a ++ t).dropWhile Char.isDigit = t := by
  induction a with
  | nil =>
    cases t with
    | nil => simp
    | cons c t =>
      have := ht c (by simp)
      simp [List.takeWhile, List.dropWhile, this]
  | cons c a ih =>
    have h1 := h c (by simp)
    obtain ⟨h2, h3⟩ := ih (fun x hx => h x (by simp [hx]))
    simp [List.takeWhile, List.dropWhile, h1, h2, h3]

theorem dot_split {a b : Str} (h : ∀ c ∈ a, c.isDigit) :
    (a ++ '.' :: b).takeWhile (· ≠ '.') = a ∧ (a ++ '.' :: b).dropWhile (· ≠ '.') = '.' :: b := by
  induction a with
  | nil => simp [List.takeWhile, List.dropWhile]
  | cons c a ih =>
    have h1 : c ≠ '.' := by
      rintro rfl
      have := h '.' (by simp)
      revert this; decide
    obtain ⟨h2, h3⟩ := ih (fun x hx => h x (by simp [hx]))
    simp only [List.cons_append, List.takeWhile, List.dropWhile, h1, ne_eq, not_false_eq_true, decide_true]
    exact ⟨by rw [h2], h3⟩

theorem sign_digits {a : Str} (h : ∀ c ∈ a, c.isDigit ∨ c = '.') : signAt a = ([], a) := by
  cases a with
  | nil => rfl
  | cons c a =>
    rcases h c (by simp) with h | h
    · have : c ≠ '-' := by
        rintro rfl
        revert h; decide
      rw [signAt.eq_def]
      split
      · rename_i h'; simp only [List.cons.injEq] at h'; exact absurd h'.1 this
      · rfl
    · subst h; rfl

/-- **C130.**  The extents are decimal numbers: digits before and after the dot, with a sign. -/
theorem float_spec (m : ℕ) (b : Str) (hb : ∀ c ∈ b, c.isDigit) :
    float (str m ++ '.' :: b) = m + digitsVal b / 10 ^ b.length ∧
    float ('-' :: (str m ++ '.' :: b)) = -(m + digitsVal b / 10 ^ b.length) := by
  have hs : ∀ c ∈ str m, c.isDigit := fun c => str_digits
  have h1 : signAt (str m ++ '.' :: b) = ([], str m ++ '.' :: b) := sign_digits (by
    intro c hc
    simp only [List.mem_append, List.mem_cons] at hc
    rcases hc with hc | hc | hc
    · exact Or.inl (hs c hc)
    · exact Or.inr hc
    · exact Or.inl (hb c hc))
  obtain ⟨h2, h3⟩ := dot_split (b := b) hs
  have h4 : decimalVal (str m ++ '.' :: b) = m + digitsVal b / 10 ^ b.length := by
    rw [decimalVal, h2, h3]
    simp [digitsVal_str]
  have h5 : signAt ('-' :: (str m ++ '.' :: b)) = (['-'], str m ++ '.' :: b) := rfl
  constructor
  · rw [float, h1, if_pos rfl, h4]
  · rw [float, h5, if_neg (by simp), h4]

example : float (lit "-12.05") = -241 / 20 := by decide +kernel

example : psPoints (lit "72.27") = 72 := by decide +kernel

/-! ## Markers -/

/-- **C130.**  The marker of one expression is not found in that of another one. -/
theorem marker_apart (i j : ℕ) (h : (removeString (marker i) (marker j)).2 = true) : i = j := by
  have hne : marker i ≠ [] := by simp [marker]
  rcases removeString_spec (marker i) (marker j) hne with ⟨a, b, h1, -, -⟩ | ⟨-, h2⟩
  · have hP : lit "PyXInputMarker:executeid=" = 'P' :: lit "yXInputMarker:executeid=" := by decide +kernel
    have hj : marker j = 'P' :: ((lit "yXInputMarker:executeid=") ++ str j ++ [':']) := by rw [marker, hP]; rfl
    have hi : marker i = 'P' :: ((lit "yXInputMarker:executeid=") ++ str i ++ [':']) := by rw [marker, hP]; rfl
    have hno : ∀ k, 'P' ∉ (lit "yXInputMarker:executeid=") ++ str k ++ [':'] := by
      intro k hk
      simp only [List.mem_append] at hk
      rcases hk with (hk | hk) | hk
      · revert hk; decide +kernel
      · have := str_digits hk
        revert this; decide
      · revert hk; decide
    have ha : a = [] := by
      cases a with
      | nil => rfl
      | cons c a =>
        exfalso
        rw [hj, hi] at h1
        simp only [List.cons_append, List.cons.injEq] at h1
        have h3 := h1.2
        apply hno j
        rw [h3]
        simp
    subst ha
    rw [hj, hi] at h1
    simp only [List.nil_append, List.cons_append, List.cons.injEq, true_and, List.append_assoc] at h1
    have h3 := List.append_cancel_left h1
    have hd : ∀ k, ∀ c ∈ str k, c.isDigit := fun k c => str_digits
    have hc : ∀ (l : Str), ∀ c ∈ (':' :: l).head?, ¬ c.isDigit := by
      intro l c hc
      simp only [List.head?_cons, Option.mem_def, Option.some.injEq] at hc
      subst hc; decide
    have e1 := (takeWhile_digits (hd j) (hc [])).1
    have e2 := (takeWhile_digits (hd i) (hc b)).1
    rw [h3] at e1
    exact str_inj (e2.symm.trans e1)
  · rw [h2] at h; simp at h

example : (removeString (marker 1) (marker 11)).2 = false := by decide +kernel

example : (removeString (marker 7) ((lit "*") ++ marker 7 ++ (lit "\n"))) = ((lit "*\n"), true) := by decide +kernel

/-! ## The message of a box -/

theorem after_some {p s t : Str} (h : after p s = some t) : s = p ++ t := by
  rw [after] at h
  split at h
  · rename_i h1
    obtain ⟨u, hu⟩ := List.isPrefixOf_iff_prefix.mp h1
    simp only [Option.some.injEq] at h
    rw [← h, ← hu]; simp
  · simp at h

theorem after_append (p t : Str) : after p (p ++ t) = some t := by
  rw [after, if_pos (List.isPrefixOf_iff_prefix.mpr ⟨t, rfl⟩)]; simp

theorem digitsAt_some {s a t : Str} (h : digitsAt s = some (a, t)) : s = a ++ t ∧ a ≠ [] ∧ ∀ c ∈ a, c.isDigit := by
  rw [digitsAt] at h
  split at h
  · simp at h
  · rename_i h1
    simp only [Option.some.injEq, Prod.mk.injEq] at h
    obtain ⟨rfl, rfl⟩ := h
    exact ⟨(List.takeWhile_append_dropWhile).symm, h1, fun c hc => List.mem_takeWhile_imp hc⟩

theorem decimalAt_some {s n t : Str} (h : decimalAt s = some (n, t)) : s = n ++ t ∧
    ∃ a b : Str, (∀ c ∈ a, c.isDigit) ∧ (∀ c ∈ b, c.isDigit) ∧ a ++ b ≠ [] ∧ (n = a ++ '.' :: b ∨ n = a ++ b) := by
  rw [decimalAt] at h
  split at h
  · rename_i u hu
    split at h
    · simp at h
    · rename_i h1
      simp only [Option.some.injEq, Prod.mk.injEq] at h
      obtain ⟨rfl, rfl⟩ := h
      refine ⟨?_, _, _, fun c hc => List.mem_takeWhile_imp hc, fun c hc => List.mem_takeWhile_imp hc, ?_, Or.inl rfl⟩
      · rw [List.append_assoc, List.cons_append, List.takeWhile_append_dropWhile, ← hu, List.takeWhile_append_dropWhile]
      · intro h2; exact h1 (List.append_eq_nil_iff.mp h2)
  · split at h
    · simp at h
    · rename_i h1
      simp only [Option.some.injEq, Prod.mk.injEq] at h
      obtain ⟨rfl, rfl⟩ := h
      exact ⟨(List.takeWhile_append_dropWhile).symm, _, [], fun c hc => List.mem_takeWhile_imp hc, by simp, by simpa using h1, Or.inr (by simp)⟩

theorem signAt_spec (s : Str) : s = (signAt s).1 ++ (signAt s).2 ∧ ((signAt s).1 = [] ∨ (signAt s).1 = ['-']) := by
  rw [signAt.eq_def]
  split
  · simp
  · simp

theorem numberAt_some {s n t : Str} (h : numberAt s = some (n, t)) : s = n ++ t ∧ IsNumber n := by
  rw [numberAt] at h
  simp only [Option.map_eq_some_iff, Prod.mk.injEq] at h
  obtain ⟨⟨m, u⟩, h1, h2, h3⟩ := h
  simp only at h2 h3
  obtain ⟨h4, a, b, ha, hb, hab, h5⟩ := decimalAt_some h1
  obtain ⟨h6, h7⟩ := signAt_spec s
  subst h3
  refine ⟨by rw [← h2, List.append_assoc, ← h4, ← h6], (signAt s).1, a, b, h7, ha, hb, hab, ?_⟩
  rcases h5 with h5 | h5
  · left; rw [← h2, h5]; simp
  · right; rw [← h2, h5]; simp

theorem boxAt_some {s t : Str} {m : BoxMsg} (h : boxAt s = some (m, t)) : s = boxText m ++ t ∧
    (∀ c ∈ m.page, c.isDigit) ∧ IsNumber m.lt ∧ IsNumber m.rt ∧ IsNumber m.ht ∧ IsNumber m.dp := by
  simp only [boxAt, Option.bind_eq_bind, Option.bind_eq_some_iff, Option.pure_def, Option.some.injEq, Prod.exists, Prod.mk.injEq] at h
  obtain ⟨s1, h1, p, s2, h2, s3, h3, lt, s4, h4, s5, h5, rt, s6, h6, s7, h7, ht, s8, h8, s9, h9, dp, s10, h10, s11, h11, rfl, rfl⟩ := h
  have e1 := after_some h1
  have e2 := digitsAt_some h2
  have e3 := after_some h3
  have e4 := numberAt_some h4
  have e5 := after_some h5
  have e6 := numberAt_some h6
  have e7 := after_some h7
  have e8 := numberAt_some h8
  have e9 := after_some h9
  have e10 := numberAt_some h10
  have e11 := after_some h11
  refine ⟨?_, e2.2.2, e4.2, e6.2, e8.2, e10.2⟩
  rw [boxText, e1, e2.1, e3, e4.1, e5, e6.1, e7, e8.1, e9, e10.1, e11]
  simp only [List.append_assoc]

theorem removeBox_some {s r : Str} {m : BoxMsg} (h : removeBox s = some (m, r)) : Removed (boxText m) s r ∧
    (∀ c ∈ m.page, c.isDigit) ∧ IsNumber m.lt ∧ IsNumber m.rt ∧ IsNumber m.ht ∧ IsNumber m.dp := by
  induction s generalizing r with
  | nil => simp [removeBox] at h
  | cons c s ih =>
    rw [removeBox] at h
    split at h
    · rename_i q hq
      simp only [Option.some.injEq] at h
      subst h
      obtain ⟨h1, h2⟩ := boxAt_some hq
      exact ⟨⟨[], r, by simpa using h1, by simp⟩, h2⟩
    · simp only [Option.map_eq_some_iff, Prod.mk.injEq] at h
      obtain ⟨⟨m', r'⟩, h1, h2, h3⟩ := h
      simp only at h2 h3
      subst h2 h3
      obtain ⟨⟨x, y, h4, h5⟩, h6⟩ := ih h1
      exact ⟨⟨c :: x, y, by simp [h4], by simp [h5]⟩, h6⟩

/-! ## What is ignored -/

theorem replaceAll_char (a : Char) (s : Str) : replaceAll [a] s = s.filter (· ≠ a) := by
  rw [replaceAll]
  induction s with
  | nil => rfl
  | cons c s ih =>
    rw [replaceAllFrom]
    by_cases h : c = a
    · subst h
      rw [if_pos (by simp), List.filter_cons_of_neg (by simp)]
      simpa using ih
    · rw [if_neg (by simpa using fun h' => h h'.symm), List.filter_cons_of_pos (by simpa using h), ih]

theorem filter_nl_nil (s : Str) : s.filter (· ≠ '\n') = [] ↔ ∀ c ∈ s, c = '\n' := by simp [List.filter_eq_nil_iff]

theorem stars (s : Str) : (∀ c ∈ replaceAll ['*', '\n'] s, c = '\n') ↔
    ∃ pieces : List Str, (∀ p ∈ pieces, p = ['*', '\n'] ∨ p = ['\n']) ∧ s = pieces.flatten := by
  rw [replaceAll]
  induction hn : s.length using Nat.strong_induction_on generalizing s with
  | _ n ih =>
    subst hn
    match s with
    | [] => simp only [replaceAllFrom]; exact ⟨fun _ => ⟨[], by simp⟩, fun _ => by simp⟩
    | c :: s =>
      rw [replaceAllFrom]
      by_cases h : ['*', '\n'].isPrefixOf (c :: s)
      · rw [if_pos h]
        obtain ⟨u, hu⟩ := List.isPrefixOf_iff_prefix.mp h
        simp only [List.cons_append, List.nil_append, List.cons.injEq] at hu
        obtain ⟨rfl, rfl⟩ := hu
        have h1 : replaceAllFrom ['*', '\n'] (['*', '\n'].length - 1) ('\n' :: u) = replaceAllFrom ['*', '\n'] 0 u := rfl
        rw [h1, ih u.length (by simp only [List.length_cons]; omega) u rfl]
        constructor
        · rintro ⟨ps, h2, h3⟩
          exact ⟨['*', '\n'] :: ps, by simpa using h2, by simp [h3]⟩
        · rintro ⟨ps, h2, h3⟩
          cases ps with
          | nil => simp at h3
          | cons p ps =>
            rcases h2 p (by simp) with rfl | rfl
            · exact ⟨ps, fun q hq => h2 q (by simp [hq]), by simpa using h3⟩
            · simp at h3
      · rw [if_neg h]
        constructor
        · intro h1
          have hc : c = '\n' := h1 c (by simp)
          obtain ⟨ps, h2, h3⟩ := (ih s.length (by simp) s rfl).mp (fun x hx => h1 x (by simp [hx]))
          exact ⟨['\n'] :: ps, by simpa using h2, by simp [h3, hc]⟩
        · rintro ⟨ps, h2, h3⟩
          cases ps with
          | nil => simp at h3
          | cons p ps =>
            rcases h2 p (by simp) with rfl | rfl
            · exfalso; apply h; rw [h3]; simp
            · simp only [List.flatten_cons, List.cons_append, List.nil_append, List.cons.injEq] at h3
              have h4 := (ih s.length (by simp) s rfl).mpr ⟨ps, fun q hq => h2 q (by simp [hq]), h3.2⟩
              intro x hx
              simp only [List.mem_cons] at hx
              rcases hx with rfl | hx
              · exact h3.1
              · exact h4 x hx

/-- **C130.**  The rest of a message is ignored exactly if it consists of prompts, spaces, newlines and asterisks at the end of lines. -/
theorem leftover_spec (s : Str) : leftover s = [] ↔ Blank s := by
  rw [leftover, replaceAll_char, replaceAll_char, filter_nl_nil, stars, Blank]

example : Blank (lit "*(Please type a command or say `\\end')\n *\n") := by rw [← leftover_spec]; decide +kernel
example : ¬ Blank (lit "! Undefined control sequence.") := by rw [← leftover_spec]; decide +kernel
example : ¬ Blank (lit "*") := by rw [← leftover_spec]; decide +kernel

/-! ## The output for a text -/

theorem removeString_true {p s r : Str} (hp : p ≠ []) (h : removeString p s = (r, true)) : Removed p s r := by
  rcases removeString_spec p s hp with ⟨a, b, h1, -, h2⟩ | ⟨-, h2⟩
  · rw [h2] at h
    simp only [Prod.mk.injEq, and_true] at h
    exact ⟨a, b, h1, h.symm⟩
  · rw [h2] at h; simp at h

theorem finishParse_ok {ps : List Parser} {s : Str} (h : finishParse ps s = .ok ()) : ∃ r, parseAll ps s = .ok r ∧ Blank r := by
  rw [finishParse] at h
  split at h
  · simp at h
  · rename_i r hr
    split at h
    · rename_i h1; exact ⟨r, hr, (leftover_spec r).mp h1⟩
    · simp at h

/-- **C130.**  The output of TeX is accepted for a text only if it contains the marker of this expression, the message of the box with the number of the page, and the message of the page; of the rest nothing is left by the message parsers but prompts, spaces, newlines and asterisks. The extents are those in the message, in PostScript points. -/
theorem text_accepted (id page : ℕ) (ps : List Parser) (out : Str) (ext : List ℚ) (h : checkText id page ps out = .ok ext) :
    ∃ s₁ s₂ s₃ r m, Removed (marker id) out s₁ ∧ Removed (boxText m) s₁ s₂ ∧ m.page = str page ∧ Removed (pageOut page) s₂ s₃ ∧
      parseAll ps s₃ = .ok r ∧ Blank r ∧ IsNumber m.lt ∧ IsNumber m.rt ∧ IsNumber m.ht ∧ IsNumber m.dp ∧
      ext = [m.lt, m.rt, m.ht, m.dp].map fun x => float x * (72 * 100 / 7227) := by
  rw [checkText] at h
  split at h
  · rename_i h1
    have r1 := removeString_true (p := marker id) (by simp [marker]) (Prod.ext rfl h1)
    split at h
    · simp at h
    · rename_i m s hm
      obtain ⟨r2, -, n1, n2, n3, n4⟩ := removeBox_some hm
      rw [checkPage] at h
      split at h
      · simp at h
      · rename_i hp
        split at h
        · rename_i h3
          have r3 := removeString_true (p := pageOut page) (by simp [pageOut]) (Prod.ext rfl h3)
          split at h
          · simp at h
          · rename_i u hu
            obtain ⟨r, h4, h5⟩ := finishParse_ok hu
            refine ⟨_, _, _, r, m, r1, r2, by push Not at hp; exact hp, r3, h4, h5, n1, n2, n3, n4, ?_⟩
            simp only [Except.ok.injEq] at h
            rw [← h]
            simp only [psPoints, List.map_cons, List.map_nil, List.cons.injEq, and_true]
            refine ⟨?_, ?_, ?_, ?_⟩ <;> ring
        · simp at h
  · simp at h

/-- The output for a small text. -/
def sampleOut : Str :=
  (lit "*PyXBox:page=2,lt=0.0pt,rt=36.135pt,ht=7.227pt,dp=0.0pt:\n[80.121.88.2]\n*PyXInputMarker:executeid=9:\n")

example : checkText 9 2 [] sampleOut = .ok [0, 36, 36 / 5, 0] := by decide +kernel
example : checkText 9 1 [] sampleOut = .error .texResult := by decide +kernel
example : checkText 8 2 [] sampleOut = .error .texResult := by decide +kernel
example : checkText 9 2 [] ((lit "! Missing $ inserted.\n") ++ sampleOut) = .error .texResult := by decide +kernel

/-! ## The end of TeX -/

theorem after_getD {p s : Str} : ∃ q, (q = [] ∨ q = p) ∧ s = q ++ (after p s).getD s := by
  rcases h : after p s with - | t
  · exact ⟨[], .inl rfl, rfl⟩
  · exact ⟨p, .inr rfl, after_some h⟩

/-- The message about the file: `q` is an optional quote, `e` the optional plural. -/
def dviText (q page e bytes : Str) : Str :=
  lit "texput.dvi" ++ q ++ lit " (" ++ page ++ lit " page" ++ e ++ lit ", " ++ bytes ++ lit " bytes)."

theorem dviTail_some {s n : Str} {k : ℕ} (h : dviTail s = some (n, k)) :
    ∃ q e d c, (q = [] ∨ q = ['"']) ∧ (e = [] ∨ e = ['s']) ∧ (d ≠ [] ∧ ∀ x ∈ d, x.isDigit) ∧ s = dviText q n e d ++ c := by
  unfold dviTail at h
  simp only [Option.bind_eq_bind, Option.bind_eq_some_iff] at h
  obtain ⟨t1, h1, t2, h2, ⟨pg, t3⟩, h3, t4, h4, t5, h5, ⟨d, t6⟩, h6, t7, h7, h8⟩ := h
  simp only [Option.pure_def, Option.some.injEq, Prod.mk.injEq] at h8
  obtain ⟨rfl, -⟩ := h8
  obtain ⟨q, hq, eq⟩ := after_getD (p := ['"']) (s := t1)
  obtain ⟨e, he, ee⟩ := after_getD (p := ['s']) (s := t4)
  have d6 := digitsAt_some h6
  simp only at h4 h7
  refine ⟨q, e, d, t7, hq, he, d6.2, ?_⟩
  rw [after_some h1, eq, after_some h2, (digitsAt_some h3).1, after_some h4, ee, after_some h5, d6.1, after_some h7]
  simp [dviText, List.append_assoc]

theorem lastTail_some {s n : Str} {m k : ℕ} (h : lastTail m s = some (n, k)) :
    ∃ b q e d c, (q = [] ∨ q = ['"']) ∧ (e = [] ∨ e = ['s']) ∧ (d ≠ [] ∧ ∀ x ∈ d, x.isDigit) ∧ s = b ++ dviText q n e d ++ c := by
  induction s generalizing m with
  | nil => simp [lastTail] at h
  | cons x s ih =>
    rw [lastTail] at h
    split at h
    · rename_i r hr
      rw [h] at hr
      obtain ⟨b, q, e, d, c, h1, h2, h3, h4⟩ := ih hr
      exact ⟨x :: b, q, e, d, c, h1, h2, h3, by rw [h4]; simp⟩
    · obtain ⟨⟨n', k'⟩, hr, he⟩ := Option.map_eq_some_iff.mp h
      simp only [Prod.mk.injEq] at he
      obtain ⟨rfl, -⟩ := he
      obtain ⟨q, e, d, c, h1, h2, h3, h4⟩ := dviTail_some hr
      exact ⟨[], q, e, d, c, h1, h2, h3, by rw [h4]; simp⟩

/-- **C130.**  At the end, the output of TeX is accepted only if it reports the number of pages which have been typeset: no pages, or a file with just this number of pages. -/
theorem done_accepted (page : ℕ) (ps : List Parser) (out : Str) (h : checkDone page ps out = .ok ()) :
    (page = 0 → ∃ s r, Removed (lit "No pages of output.") out s ∧ parseAll ps s = .ok r ∧ Blank r) ∧
    (page ≠ 0 → ∃ a b q e d c, (q = [] ∨ q = ['"']) ∧ (e = [] ∨ e = ['s']) ∧ (d ≠ [] ∧ ∀ x ∈ d, x.isDigit) ∧
      dropNl out = a ++ lit "Output written on " ++ b ++ dviText q (str page) e d ++ c) := by
  rw [checkDone] at h
  constructor
  · intro h0
    rw [if_pos h0] at h
    split at h
    · rename_i h1
      obtain ⟨r, h2, h3⟩ := finishParse_ok h
      exact ⟨_, r, removeString_true (p := lit "No pages of output.") (by decide) (Prod.ext rfl h1), h2, h3⟩
    · simp at h
  · intro h0
    rw [if_neg h0] at h
    split at h
    · simp at h
    · rename_i s m hm
      split at h
      · simp at h
      · rename_i hp
        push Not at hp
        rw [← hp]
        unfold removePattern at hm
        simp only [if_true] at hm
        split at hm
        · simp at hm
        · rename_i m' hm'
          simp only [Prod.mk.injEq, Option.some.injEq] at hm
          obtain ⟨-, rfl⟩ := hm
          obtain ⟨a, t, k, e1, e2, -⟩ := (searchFrom_spec dviAt (dropNl out) 0).1 m' hm'
          unfold dviAt at e2
          split at e2
          · simp at e2
          · rename_i u hu
            obtain ⟨b, q, e, d, c, h1, h2, h3, h4⟩ := lastTail_some e2
            refine ⟨a, b, q, e, d, c, h1, h2, h3, ?_⟩
            rw [e1, after_some hu, h4]
            simp [List.append_assoc]

example : checkDone 2 [] (lit "Output written on texput.dvi (2 pages, 220 bytes).") = .ok () ∧
    checkDone 3 [] (lit "Output written on texput.dvi (2 pages, 220 bytes).") = .error .texResult ∧
    checkDone 0 [] (lit "No pages of output.") = .ok () := by decide +kernel

/-! ## Errors are not overlooked -/

theorem removed_mem {t a b : Str} {c : Char} (h : Removed t a b) (ht : c ∉ t) (ha : c ∈ a) : c ∈ b := by
  obtain ⟨x, y, rfl, rfl⟩ := h
  simp only [List.mem_append] at ha ⊢
  tauto

theorem parseAll_mem {ps : List Parser} {c : Char} (hp : ∀ t ∈ ps, ∀ s r, t s = .ok r → c ∈ s → c ∈ r) {s r : Str}
    (h : parseAll ps s = .ok r) (hs : c ∈ s) : c ∈ r := by
  induction ps generalizing s with
  | nil => rw [parseAll] at h; simp only [Except.ok.injEq] at h; rwa [← h]
  | cons t ps ih =>
    rw [parseAll] at h
    split at h
    · simp at h
    · rename_i u hu
      exact ih (fun t' ht' => hp t' (by simp [ht'])) h (hp t (by simp) _ _ hu hs)

theorem replaceAll_mem {p s : Str} {c : Char} (hc : c ∉ p) (hp : p ≠ []) (h : c ∈ s) : c ∈ replaceAll p s := by
  have key : ∀ (s : Str) (k : ℕ), c ∈ s.drop k → c ∈ replaceAllFrom p k s := by
    intro s
    induction s with
    | nil => intro k hk; simp at hk
    | cons x s ih =>
      intro k hk
      cases k with
      | succ k => rw [replaceAllFrom]; exact ih k (by simpa using hk)
      | zero =>
        rw [replaceAllFrom]
        simp only [List.drop_zero, List.mem_cons] at hk
        split
        · rename_i h1
          obtain ⟨u, hu⟩ := List.isPrefixOf_iff_prefix.mp h1
          apply ih
          cases p with
          | nil => exact absurd rfl hp
          | cons y p =>
            simp only [List.cons_append, List.cons.injEq] at hu
            obtain ⟨rfl, rfl⟩ := hu
            simp only [List.mem_cons, not_or] at hc
            simp only [List.mem_append] at hk
            simp only [List.length_cons, Nat.add_sub_cancel, List.drop_left]
            tauto
        · simp only [List.mem_cons]
          rcases hk with hk | hk
          · exact Or.inl hk
          · exact Or.inr (ih 0 (by simpa using hk))
  exact key s 0 (by simpa using h)

theorem blank_bang {s : Str} (h : Blank s) : '!' ∉ s := by
  intro hs
  obtain ⟨ps, h1, h2⟩ := h
  have h3 : '!' ∈ (replaceAll prompt s).filter (· ≠ ' ') := by
    simp only [List.mem_filter]
    exact ⟨replaceAll_mem (by decide +kernel) (by decide +kernel) hs, by decide⟩
  rw [h2, List.mem_flatten] at h3
  obtain ⟨p, hp, h4⟩ := h3
  rcases h1 p hp with rfl | rfl
  · revert h4; decide
  · revert h4; decide

theorem bang_digit : ¬ ('!').isDigit := by decide

theorem number_bang {s : Str} (h : IsNumber s) : '!' ∉ s := by
  obtain ⟨sg, a, b, hs, ha, hb, -, h | h⟩ := h <;> subst h <;> intro hm <;>
    simp only [List.mem_append, List.mem_cons] at hm
  · rcases hm with (hm | hm) | hm | hm
    · rcases hs with rfl | rfl <;> revert hm <;> decide
    · exact bang_digit (ha _ hm)
    · revert hm; decide
    · exact bang_digit (hb _ hm)
  · rcases hm with (hm | hm) | hm
    · rcases hs with rfl | rfl <;> revert hm <;> decide
    · exact bang_digit (ha _ hm)
    · exact bang_digit (hb _ hm)

theorem str_bang (n : ℕ) : '!' ∉ str n := fun h => bang_digit (str_digits h)

theorem marker_bang (n : ℕ) : '!' ∉ marker n := by
  simp only [marker, List.mem_append, not_or]
  exact ⟨⟨by decide +kernel, str_bang n⟩, by decide⟩

theorem pageOut_bang (n : ℕ) : '!' ∉ pageOut n := by
  simp only [pageOut, List.mem_append, not_or]
  exact ⟨⟨by decide +kernel, str_bang n⟩, by decide⟩

theorem boxText_bang {m : BoxMsg} {page : ℕ} (h : m.page = str page) (h1 : IsNumber m.lt) (h2 : IsNumber m.rt) (h3 : IsNumber m.ht)
    (h4 : IsNumber m.dp) : '!' ∉ boxText m := by
  simp only [boxText, List.mem_append, not_or, h]
  exact ⟨⟨⟨⟨⟨⟨⟨⟨⟨⟨by decide +kernel, str_bang page⟩, by decide +kernel⟩, number_bang h1⟩, by decide +kernel⟩, number_bang h2⟩,
    by decide +kernel⟩, number_bang h3⟩, by decide +kernel⟩, number_bang h4⟩, by decide +kernel⟩

/-- **C130.**  A message with an exclamation mark (the begin of the error messages of TeX) makes a text or a preamble fail, unless one of the message parsers removes it. -/
theorem error_raised (ps : List Parser) (hp : ∀ t ∈ ps, ∀ s r, t s = .ok r → '!' ∈ s → '!' ∈ r) (id page : ℕ) (out : Str)
    (h : '!' ∈ out) : (∀ ext, checkText id page ps out ≠ .ok ext) ∧ checkRun id ps out ≠ .ok () := by
  constructor
  · intro ext he
    obtain ⟨s₁, s₂, s₃, r, m, r1, r2, hm, r3, hr, hb, n1, n2, n3, n4, -⟩ := text_accepted id page ps out ext he
    exact blank_bang hb (parseAll_mem hp hr (removed_mem r3 (pageOut_bang page) (removed_mem r2 (boxText_bang hm n1 n2 n3 n4)
      (removed_mem r1 (marker_bang id) h))))
  · intro he
    rw [checkRun] at he
    split at he
    · rename_i h1
      have r1 := removeString_true (p := marker id) (by simp [marker]) (Prod.ext rfl h1)
      obtain ⟨r, h4, h5⟩ := finishParse_ok he
      exact blank_bang h5 (parseAll_mem hp h4 (removed_mem r1 (marker_bang id) h))
    · simp at he

end PyX.TexEngine
