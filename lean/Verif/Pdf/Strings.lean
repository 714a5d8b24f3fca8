import Mathlib.Data.List.Basic
import Mathlib.Tactic.Linarith

/-!
# C163: the strings of form fields (`pyx/pdfextra.py:263-275, 315-321, 480-487, 686-703`)

Names, values, options and default texts are written between parentheses as they are.
-/

set_option linter.unusedSectionVars false
set_option linter.unusedSimpArgs false

namespace PyX.Pdf.Strings

/-! ## How strings are read (ISO 32000-1, 7.3.4.2) -/

def octal? (c : Char) : Option ℕ := if '0' ≤ c ∧ c ≤ '7' then some (c.toNat - 48) else none

/-- Up to two more octal digits. -/
def moreDigits (v : ℕ) : List Char → ℕ × List Char
  | a :: b :: l =>
    match octal? a, octal? b with
    | some x, some y => (64 * v + 8 * x + y, l)
    | some x, none => (8 * v + x, b :: l)
    | none, _ => (v, a :: b :: l)
  | [a] =>
    match octal? a with
    | some x => (8 * v + x, [])
    | none => (v, [a])
  | [] => (v, [])

/-- What is behind a backslash: the characters it stands for, and the rest. -/
def escaped : List Char → List Char × List Char
  | [] => ([], [])
  | c :: l =>
    if c = 'n' then (['\n'], l)
    else if c = 'r' then (['\r'], l)
    else if c = 't' then (['\t'], l)
    else if c = 'b' then ([Char.ofNat 8], l)
    else if c = 'f' then ([Char.ofNat 12], l)
    else if c = '\n' then ([], l)
    else if c = '\r' then ([], if l.head? = some '\n' then l.tail else l)
    else
      match octal? c with
      | some v => ([Char.ofNat ((moreDigits v l).1 % 256)], (moreDigits v l).2)
      | none => ([c], l)

theorem moreDigits_length (v : ℕ) (l : List Char) : (moreDigits v l).2.length ≤ l.length := by
  unfold moreDigits
  split
  · split <;> simp only [List.length_cons] <;> omega
  · split <;> simp
  · simp

theorem escaped_length (c : Char) (l : List Char) : (escaped (c :: l)).2.length ≤ l.length ∧ (escaped (c :: l)).1.length ≤ 1 := by
  unfold escaped
  dsimp only
  split; · simp
  split; · simp
  split; · simp
  split; · simp
  split; · simp
  split; · simp
  split
  · constructor
    · dsimp only
      split
      · rw [List.length_tail]; omega
      · exact le_rfl
    · simp
  split
  · exact ⟨moreDigits_length _ _, by simp⟩
  · simp

theorem escaped_lt (l : List Char) : (escaped l).2.length < ('\\' :: l).length := by
  cases l with
  | nil => simp [escaped]
  | cons c l =>
    have := (escaped_length c l).1
    simp only [List.length_cons]
    omega

/-- Reading a string after its opening parenthesis, with `d` parentheses open inside of it: the string, and the rest. An end of line is a line feed. -/
def lit (d : ℕ) : List Char → Option (List Char × List Char)
  | [] => none
  | c :: l =>
    if c = ')' then (if d = 0 then some ([], l) else (lit (d - 1) l).map fun r => (')' :: r.1, r.2))
    else if c = '(' then (lit (d + 1) l).map fun r => ('(' :: r.1, r.2)
    else if c = '\\' then (lit d (escaped l).2).map fun r => ((escaped l).1 ++ r.1, r.2)
    else if c = '\r' then (lit d (if l.head? = some '\n' then l.tail else l)).map fun r => ('\n' :: r.1, r.2)
    else (lit d l).map fun r => (c :: r.1, r.2)
termination_by l => l.length
decreasing_by
  · simp
  · simp
  · exact escaped_lt _
  · split
    · simp only [List.length_tail, List.length_cons]; omega
    · simp
  · simp

/-- The parentheses are in balance, when `d` are open. -/
def Balanced (d : ℕ) : List Char → Prop
  | [] => d = 0
  | c :: l => if c = ')' then 0 < d ∧ Balanced (d - 1) l else if c = '(' then Balanced (d + 1) l else Balanced d l

instance (d : ℕ) (l : List Char) : Decidable (Balanced d l) := by
  induction l generalizing d with
  | nil => unfold Balanced; exact inferInstance
  | cons c l ih =>
    unfold Balanced
    split
    · exact @instDecidableAnd _ _ inferInstance (ih _)
    · split
      · exact ih _
      · exact ih _

/-- Strings which may be written as they are. -/
def Safe (s : List Char) : Prop := Balanced 0 s ∧ '\\' ∉ s ∧ '\r' ∉ s

theorem lit_safe (d : ℕ) (s rest : List Char) (hb : Balanced d s) (h1 : '\\' ∉ s) (h2 : '\r' ∉ s) : lit d (s ++ ')' :: rest) = some (s, rest) := by
  induction s generalizing d with
  | nil =>
    rw [List.nil_append, lit, if_pos rfl]
    unfold Balanced at hb
    rw [if_pos hb]
  | cons c s ih =>
    rw [List.mem_cons, not_or] at h1 h2
    rw [List.cons_append, lit]
    unfold Balanced at hb
    by_cases hc : c = ')'
    · rw [if_pos hc] at hb ⊢
      rw [if_neg (by omega), ih _ hb.2 h1.2 h2.2, hc]
      rfl
    · rw [if_neg hc] at hb ⊢
      by_cases ho : c = '('
      · rw [if_pos ho] at hb ⊢
        rw [ih _ hb h1.2 h2.2, ho]
        rfl
      · rw [if_neg ho] at hb ⊢
        rw [if_neg (Ne.symm h1.1), if_neg (Ne.symm h2.1), ih _ hb h1.2 h2.2]
        rfl

/-- A string which is read is not longer than what is written. -/
theorem lit_length (n d : ℕ) (l : List Char) (hn : l.length ≤ n) (out rest : List Char) (h : lit d l = some (out, rest)) : out.length + rest.length + 1 ≤ l.length := by
  induction n generalizing d l out rest with
  | zero =>
    have : l = [] := List.eq_nil_of_length_eq_zero (by omega)
    subst this
    rw [lit] at h
    cases h
  | succ n ih =>
    cases l with
    | nil => rw [lit] at h; cases h
    | cons c l =>
      rw [lit] at h
      simp only [List.length_cons] at hn ⊢
      have step : ∀ (d' : ℕ) (l' p : List Char), l'.length + p.length ≤ l.length + 1 → l'.length ≤ n → ((lit d' l').map fun r => (p ++ r.1, r.2)) = some (out, rest) →
          out.length + rest.length + 1 ≤ l.length + 1 := by
        intro d' l' p hl hl' hm
        cases hr : lit d' l' with
        | none => rw [hr] at hm; cases hm
        | some r =>
          obtain ⟨o, r⟩ := r
          rw [hr] at hm
          simp only [Option.map_some, Option.some.injEq, Prod.mk.injEq] at hm
          have := ih d' l' hl' o r hr
          rw [← hm.1, ← hm.2, List.length_append]
          omega
      split at h
      · split at h
        · simp only [Option.some.injEq, Prod.mk.injEq] at h
          rw [← h.1, ← h.2]
          simp
        · exact step _ l [')'] (by simp) (by omega) h
      split at h
      · exact step _ l ['('] (by simp) (by omega) h
      split at h
      · cases l with
        | nil => exact step _ _ (escaped []).1 (by simp [escaped]) (by simp [escaped]) h
        | cons a l =>
          have := escaped_length a l
          simp only [List.length_cons] at hn ⊢
          exact step _ _ (escaped (a :: l)).1 (by simp only [List.length_cons]; omega) (by omega) h
      split at h
      · have hl : (if l.head? = some '\n' then l.tail else l).length ≤ l.length := by
          split
          · rw [List.length_tail]; omega
          · exact le_rfl
        exact step _ _ ['\n'] (by simp only [List.length_singleton]; omega) (by omega) h
      · exact step _ l [c] (by simp) (by omega) h

theorem map_cons_inj {c c' : Char} {x : Option (List Char × List Char)} {s rest : List Char} (h : (x.map fun r => (c :: r.1, r.2)) = some (c' :: s, rest)) : c = c' ∧ x = some (s, rest) := by
  cases x with
  | none => cases h
  | some r =>
    obtain ⟨o, r⟩ := r
    simp only [Option.map_some, Option.some.injEq, Prod.mk.injEq, List.cons.injEq] at h
    exact ⟨h.1.1, by rw [h.1.2, h.2]⟩

theorem lit_only (d : ℕ) (s rest : List Char) (h : lit d (s ++ ')' :: rest) = some (s, rest)) : Balanced d s ∧ '\\' ∉ s ∧ '\r' ∉ s := by
  induction s generalizing d with
  | nil =>
    rw [List.nil_append, lit, if_pos rfl] at h
    by_cases hd : d = 0
    · exact ⟨hd, by simp, by simp⟩
    · rw [if_neg hd] at h
      cases hr : lit (d - 1) rest with
      | none => rw [hr] at h; cases h
      | some r => rw [hr] at h; simp at h
  | cons c s ih =>
    rw [List.cons_append, lit] at h
    unfold Balanced
    by_cases hc : c = ')'
    · rw [if_pos hc] at h ⊢
      by_cases hd : d = 0
      · rw [if_pos hd] at h; simp at h
      · rw [if_neg hd] at h
        obtain ⟨_, g⟩ := map_cons_inj h
        obtain ⟨g1, g2, g3⟩ := ih _ g
        refine ⟨⟨by omega, g1⟩, ?_, ?_⟩
        · rw [hc]; simpa using g2
        · rw [hc]; simpa using g3
    · rw [if_neg hc] at h ⊢
      by_cases ho : c = '('
      · rw [if_pos ho] at h ⊢
        obtain ⟨_, g⟩ := map_cons_inj h
        obtain ⟨g1, g2, g3⟩ := ih _ g
        refine ⟨g1, ?_, ?_⟩
        · rw [ho]; simpa using g2
        · rw [ho]; simpa using g3
      · rw [if_neg ho] at h ⊢
        by_cases hb : c = '\\'
        · exfalso
          rw [if_pos hb] at h
          cases hr : lit d (escaped (s ++ ')' :: rest)).2 with
          | none => rw [hr] at h; cases h
          | some r =>
            obtain ⟨o, r⟩ := r
            rw [hr] at h
            simp only [Option.map_some, Option.some.injEq, Prod.mk.injEq] at h
            have h1 := lit_length _ _ _ le_rfl _ _ hr
            have h2 := congrArg List.length h.1
            rw [List.length_append, List.length_cons] at h2
            rw [h.2] at h1
            have h3 : (escaped (s ++ ')' :: rest)).2.length + 1 ≤ (s ++ ')' :: rest).length ∧ (escaped (s ++ ')' :: rest)).1.length ≤ 1 := by
              cases s with
              | nil =>
                have := escaped_length ')' rest
                rw [List.nil_append]
                simp only [List.length_cons]
                exact ⟨by omega, this.2⟩
              | cons a s =>
                have := escaped_length a (s ++ ')' :: rest)
                rw [List.cons_append]
                simp only [List.length_cons]
                exact ⟨by omega, this.2⟩
            simp only [List.length_append, List.length_cons] at h3
            omega
        · rw [if_neg hb] at h
          by_cases hr : c = '\r'
          · exfalso
            rw [if_pos hr] at h
            obtain ⟨g, _⟩ := map_cons_inj h
            rw [hr] at g
            exact absurd g (by decide)
          · rw [if_neg hr] at h
            obtain ⟨_, g⟩ := map_cons_inj h
            obtain ⟨g1, g2, g3⟩ := ih _ g
            refine ⟨g1, ?_, ?_⟩
            · rw [List.mem_cons, not_or]; exact ⟨Ne.symm hb, g2⟩
            · rw [List.mem_cons, not_or]; exact ⟨Ne.symm hr, g3⟩

/-- **C163.** A string which is written as it is between parentheses, is read as it is, with the rest of the file intact, exactly if its parentheses are in balance, and there is no backslash and no carriage return in it. -/
theorem written_iff_safe (s rest : List Char) : lit 0 (s ++ ')' :: rest) = some (s, rest) ↔ Safe s :=
  ⟨lit_only 0 s rest, fun h => lit_safe 0 s rest h.1 h.2.1 h.2.2⟩

/-! ## Entries of dictionaries -/

/-- Entries with strings (`pdfextra.py:267-271, 482-484, 689-693`). -/
def entries : List (List Char × List Char) → List Char
  | [] => []
  | (k, s) :: l => '/' :: k ++ " (".toList ++ s ++ ")\n".toList ++ entries l

/-- The strings of a text field (`pdfextra.py:267-271`). -/
def textEntries (name value : List Char) : List (List Char × List Char) :=
  [("T".toList, name), ("TU".toList, name), ("TM".toList, name), ("V".toList, value), ("DV".toList, value)]

/-- Those of a choice field (`pdfextra.py:689-693`). -/
def choiceEntries (name : List Char) (default : Option (List Char)) (values : List (List Char)) : List (List Char × List Char) :=
  [("T".toList, name), ("TU".toList, name), ("TM".toList, name)] ++
    match default with
    | some v => if v ∈ values then [("V".toList, v)] else []
    | none => []

/-- Reading `n` entries: a name, a space, a string, and the end of the line. -/
def readEntries : ℕ → List Char → Option (List (List Char × List Char) × List Char)
  | 0, l => some ([], l)
  | n + 1, '/' :: l =>
    match l.dropWhile (· ≠ ' ') with
    | ' ' :: '(' :: m =>
      match lit 0 m with
      | some (s, '\n' :: m') => (readEntries n m').map fun r => ((l.takeWhile (· ≠ ' '), s) :: r.1, r.2)
      | _ => none
    | _ => none
  | _ + 1, _ => none

theorem takeWhile_key (k rest : List Char) (hk : ' ' ∉ k) : (k ++ ' ' :: rest).takeWhile (· ≠ ' ') = k ∧ (k ++ ' ' :: rest).dropWhile (· ≠ ' ') = ' ' :: rest := by
  induction k with
  | nil => simp
  | cons c k ih =>
    rw [List.mem_cons, not_or] at hk
    obtain ⟨h1, h2⟩ := ih hk.2
    have hc : (decide (c ≠ ' ')) = true := by simpa using Ne.symm hk.1
    rw [List.cons_append, List.takeWhile_cons, List.dropWhile_cons, if_pos hc, if_pos hc, h1, h2]
    exact ⟨rfl, rfl⟩

/-- **C163.** The entries are read as they are given, if their strings are safe. -/
theorem entries_read (l : List (List Char × List Char)) (hk : ∀ x ∈ l, ' ' ∉ x.1) (hs : ∀ x ∈ l, Safe x.2) (rest : List Char) :
    readEntries l.length (entries l ++ rest) = some (l, rest) := by
  induction l with
  | nil => rfl
  | cons x l ih =>
    obtain ⟨k, s⟩ := x
    have e : entries ((k, s) :: l) ++ rest = '/' :: (k ++ ' ' :: ('(' :: (s ++ ')' :: ('\n' :: (entries l ++ rest))))) := by
      rw [entries, show " (".toList = [' ', '('] from rfl, show ")\n".toList = [')', '\n'] from rfl]
      simp
    obtain ⟨h1, h2⟩ := takeWhile_key k ('(' :: (s ++ ')' :: ('\n' :: (entries l ++ rest)))) (hk (k, s) (by simp))
    rw [e, List.length_cons, readEntries, h2]
    change (match lit 0 (s ++ ')' :: ('\n' :: (entries l ++ rest))) with
      | some (s, '\n' :: m') => (readEntries l.length m').map fun r : List (List Char × List Char) × List Char => ((_, s) :: r.1, r.2)
      | _ => none) = _
    rw [(written_iff_safe s _).2 (hs (k, s) (by simp))]
    change ((readEntries l.length (entries l ++ rest)).map fun r : List (List Char × List Char) × List Char => ((_, s) :: r.1, r.2)) = _
    rw [ih (fun y hy => hk y (by simp [hy])) (fun y hy => hs y (by simp [hy])), h1]
    rfl

/-- **C163.** Text fields: name and value. -/
theorem text_read (name value : List Char) (h1 : Safe name) (h2 : Safe value) (rest : List Char) :
    readEntries 5 (entries (textEntries name value) ++ rest) = some (textEntries name value, rest) := by
  refine entries_read (textEntries name value) ?_ ?_ rest
  · intro x hx
    simp only [textEntries, List.mem_cons, List.not_mem_nil, or_false] at hx
    rcases hx with rfl | rfl | rfl | rfl | rfl <;> (dsimp only; decide)
  · intro x hx
    simp only [textEntries, List.mem_cons, List.not_mem_nil, or_false] at hx
    rcases hx with rfl | rfl | rfl | rfl | rfl <;> assumption

/-- **C163.** Choice fields: the name, and the default value if it is one of the options. -/
theorem choice_read (name : List Char) (default : Option (List Char)) (values : List (List Char)) (h1 : Safe name) (h2 : ∀ v ∈ values, Safe v) (rest : List Char) :
    readEntries (choiceEntries name default values).length (entries (choiceEntries name default values) ++ rest) = some (choiceEntries name default values, rest) := by
  have hm : ∀ x ∈ choiceEntries name default values, (x = ("T".toList, name) ∨ x = ("TU".toList, name) ∨ x = ("TM".toList, name)) ∨ (x.1 = "V".toList ∧ x.2 ∈ values) := by
    intro x hx
    unfold choiceEntries at hx
    rw [List.mem_append] at hx
    rcases hx with hx | hx
    · left; simpa using hx
    · right
      cases default with
      | none => simp at hx
      | some v =>
        dsimp only at hx
        by_cases hv : v ∈ values
        · rw [if_pos hv, List.mem_singleton] at hx
          rw [hx]
          exact ⟨rfl, hv⟩
        · rw [if_neg hv] at hx; simp at hx
  refine entries_read _ (fun x hx => ?_) (fun x hx => ?_) rest
  · rcases hm x hx with (rfl | rfl | rfl) | ⟨h, _⟩
    · dsimp only; decide
    · dsimp only; decide
    · dsimp only; decide
    · rw [h]; decide
  · rcases hm x hx with (rfl | rfl | rfl) | ⟨_, h⟩
    · exact h1
    · exact h1
    · exact h1
    · exact h2 _ h

/-! ## Options -/

/-- `/Opt` (`pdfextra.py:699-702`), behind the bracket. -/
def options : List (List Char) → List Char
  | [] => " ]\n".toList
  | v :: l => " (".toList ++ v ++ ')' :: options l

/-- Reading an array of strings; the number bounds the repetitions. -/
def readArray : ℕ → List Char → Option (List (List Char) × List Char)
  | 0, _ => none
  | n + 1, ' ' :: l => readArray n l
  | _ + 1, ']' :: l => some ([], l)
  | n + 1, '(' :: l =>
    match lit 0 l with
    | some (s, m) => (readArray n m).map fun r => (s :: r.1, r.2)
    | none => none
  | _ + 1, _ => none

/-- **C163.** The options of a choice field are read as they are given, in their order. -/
theorem options_read (l : List (List Char)) (hs : ∀ v ∈ l, Safe v) (rest : List Char) (n : ℕ) (hn : 2 * l.length + 2 ≤ n) :
    readArray n (options l ++ rest) = some (l, '\n' :: rest) := by
  induction l generalizing n with
  | nil =>
    obtain ⟨m, rfl⟩ : ∃ m, n = m + 2 := ⟨n - 2, by simp at hn; omega⟩
    rfl
  | cons v l ih =>
    obtain ⟨m, rfl⟩ : ∃ m, n = m + 2 := ⟨n - 2, by simp at hn; omega⟩
    have e : options (v :: l) ++ rest = ' ' :: '(' :: (v ++ ')' :: (options l ++ rest)) := by
      rw [options, show " (".toList = [' ', '('] from rfl]
      simp
    rw [e, readArray, readArray, (written_iff_safe v _).2 (hs v (by simp))]
    dsimp only
    rw [ih (fun w hw => hs w (by simp [hw])) m (by simp at hn; omega)]
    rfl

/-! ## Default texts -/

/-- The strings shown by `PDFdefaulttext.write` (`pdfextra.py:317-320`), behind `Td `. -/
def shows : List (List Char) → List Char
  | [] => []
  | t :: l => '(' :: t ++ ") Tj".toList ++ l.flatMap (fun t => " (".toList ++ t ++ ")'".toList) ++ " ET Q EMC\n".toList

/-- What is shown on which line: `Tj` shows on the current line, `'` on the next one. -/
def readShows : ℕ → ℕ → List Char → Option (List (ℕ × List Char))
  | 0, _, _ => none
  | n + 1, line, ' ' :: l => readShows n line l
  | n + 1, line, '(' :: l =>
    match lit 0 l with
    | some (s, ' ' :: 'T' :: 'j' :: m) => (readShows n line m).map ((line, s) :: ·)
    | some (s, '\'' :: m) => (readShows n (line + 1) m).map ((line + 1, s) :: ·)
    | _ => none
  | _ + 1, _, 'E' :: 'T' :: _ => some []
  | _ + 1, _, _ => none

theorem shows_tail (l : List (List Char)) (hs : ∀ v ∈ l, Safe v) (line n : ℕ) (hn : 2 * l.length + 2 ≤ n) :
    readShows n line (l.flatMap (fun t => " (".toList ++ t ++ ")'".toList) ++ " ET Q EMC\n".toList) = some ((l.zipIdx (line + 1)).map fun x => (x.2, x.1)) := by
  induction l generalizing n line with
  | nil =>
    obtain ⟨m, rfl⟩ : ∃ m, n = m + 2 := ⟨n - 2, by simp at hn; omega⟩
    rfl
  | cons v l ih =>
    obtain ⟨m, rfl⟩ : ∃ m, n = m + 2 := ⟨n - 2, by simp at hn; omega⟩
    have e : ((v :: l).flatMap (fun t => " (".toList ++ t ++ ")'".toList)) ++ " ET Q EMC\n".toList =
        ' ' :: '(' :: (v ++ ')' :: ('\'' :: (l.flatMap (fun t => " (".toList ++ t ++ ")'".toList) ++ " ET Q EMC\n".toList))) := by
      rw [List.flatMap_cons, show " (".toList = [' ', '('] from rfl, show ")'".toList = [')', '\''] from rfl]
      simp
    rw [e, readShows, readShows, (written_iff_safe v _).2 (hs v (by simp))]
    change ((readShows m (line + 1) (l.flatMap (fun t => " (".toList ++ t ++ ")'".toList) ++ " ET Q EMC\n".toList)).map ((line + 1, v) :: ·)) = _
    rw [ih (fun w hw => hs w (by simp [hw])) (line + 1) m (by simp at hn; omega), List.zipIdx_cons]
    rfl

/-- **C163.** The lines of a default text are shown as they are given, one below the other. -/
theorem shows_read (t : List Char) (l : List (List Char)) (hs : ∀ v ∈ t :: l, Safe v) (n : ℕ) (hn : 2 * l.length + 3 ≤ n) :
    readShows n 0 (shows (t :: l)) = some (((t :: l).zipIdx 0).map fun x => (x.2, x.1)) := by
  obtain ⟨m, rfl⟩ : ∃ m, n = m + 1 := ⟨n - 1, by omega⟩
  have e : shows (t :: l) = '(' :: (t ++ ')' :: (' ' :: 'T' :: 'j' :: (l.flatMap (fun t => " (".toList ++ t ++ ")'".toList) ++ " ET Q EMC\n".toList))) := by
    rw [shows, show ") Tj".toList = [')', ' ', 'T', 'j'] from rfl]
    simp
  rw [e, readShows, (written_iff_safe t _).2 (hs t (by simp))]
  change ((readShows m 0 (l.flatMap (fun t => " (".toList ++ t ++ ")'".toList) ++ " ET Q EMC\n".toList)).map ((0, t) :: ·)) = _
  rw [shows_tail l (fun w hw => hs w (by simp [hw])) 0 m (by omega), List.zipIdx_cons]
  rfl

/-! ## Violations and examples -/

/-- **C163, violated.** The option `1) first` ends too early, so that the list cannot be read. -/
theorem options_fail : readArray 100 (options ["1) first".toList, "2) second".toList]) = none := by decide +kernel

/-- **C163, violated.** The name `f(x` takes the following entries with it; a name with a backslash looses it. -/
theorem name_fails : readEntries 5 (entries (textEntries "f(x".toList "1".toList)) = none ∧
    (readEntries 5 (entries (textEntries "C:\\data".toList "1".toList))).map (fun r => r.1.map Prod.snd) =
      some ["C:data".toList, "C:data".toList, "C:data".toList, "1".toList, "1".toList] := by
  decide +kernel

theorem ex_safe : Safe "f(x) = (a (b)) + 1".toList ∧ ¬ Safe "1) first".toList ∧ ¬ Safe "f(x".toList ∧ ¬ Safe "C:\\data".toList := by
  unfold Safe
  decide +kernel

theorem ex_read : readEntries 4 (entries (choiceEntries "size".toList (some "A4 (210 mm)".toList) ["A4 (210 mm)".toList, "A5".toList])) =
      some ([("T".toList, "size".toList), ("TU".toList, "size".toList), ("TM".toList, "size".toList), ("V".toList, "A4 (210 mm)".toList)], []) ∧
    readArray 10 (options ["A4 (210 mm)".toList, "A5".toList]) = some (["A4 (210 mm)".toList, "A5".toList], ['\n']) ∧
    readShows 10 0 (shows ["first".toList, "second".toList]) = some [(0, "first".toList), (1, "second".toList)] := by
  decide +kernel

end PyX.Pdf.Strings
