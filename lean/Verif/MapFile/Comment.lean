import Verif.MapFile.Props
import Mathlib.Data.List.TakeWhile

set_option linter.unusedSectionVars false

/-!
# Which lines of font map files are comments: `dvi/mapfile.py:175-178`
-/

namespace PyX.MapFile

variable {F : Type} (sp : Char → Bool) (parseFloat : Str → Option F)

theorem rstrip_begins (c : Char) (t : Str) : rstrip sp (c :: t) = [] ∨ ∃ t', rstrip sp (c :: t) = c :: t' := by
  unfold rstrip
  rw [List.reverse_cons]
  induction t.reverse with
  | nil =>
    by_cases h : sp c = true
    · left; simp [h]
    · right; exact ⟨[], by simp [h]⟩
  | cons x l ih =>
    rw [List.cons_append, List.dropWhile_cons]
    split
    · exact ih
    · right; exact ⟨(x :: l).reverse, by simp⟩

/-- **C56 (comments).**  Lines which begin with a space, `%`, `*`, `;` or `#` are not looked at, whatever follows. -/
theorem comment_ignored (c : Char) (t : Str) (ls : List Str) (fm : FontMap F) (h : c = ' ' ∨ c = '%' ∨ c = '*' ∨ c = ';' ∨ c = '#') :
    readLines sp parseFloat ((c :: t) :: ls) fm = readLines sp parseFloat ls fm := by
  have hs : skipped (rstrip sp (c :: t)) = true := by
    rcases rstrip_begins sp c t with e | ⟨t', e⟩
    · rw [e]; rfl
    · rw [e, skipped]
      rcases h with rfl | rfl | rfl | rfl | rfl <;> decide
  rw [readLines]
  simp only [hs, if_true]

/-- **C56 (blank lines).**  Lines with nothing but whitespace are not looked at. -/
theorem blank_ignored (l : Str) (ls : List Str) (fm : FontMap F) (h : ∀ c ∈ l, sp c = true) :
    readLines sp parseFloat (l :: ls) fm = readLines sp parseFloat ls fm := by
  have e : rstrip sp l = [] := by
    unfold rstrip
    rw [List.dropWhile_eq_nil_iff.2 (by simpa using h)]; rfl
  rw [readLines]
  simp only [e, skipped, if_true]

/-- **C56 (other lines).**  A line which begins with another character, not whitespace, defines what it is parsed to, without whitespace at its end. -/
theorem other_defines (c : Char) (t : Str) (m : MAPline F) (hc : sp c = false) (h : c ≠ ' ' ∧ c ≠ '%' ∧ c ≠ '*' ∧ c ≠ ';' ∧ c ≠ '#') :
    Defines sp parseFloat (c :: t) m ↔ parse sp parseFloat (rstrip sp (c :: t)) = .ok m := by
  have hn : rstrip sp (c :: t) ≠ [] := by
    unfold rstrip
    intro k
    have := List.dropWhile_eq_nil_iff.1 (List.reverse_eq_nil_iff.1 k) c (by simp)
    rw [hc] at this
    cases this
  have hs : skipped (rstrip sp (c :: t)) = false := by
    rcases rstrip_begins sp c t with e | ⟨t', e⟩
    · exact absurd e hn
    · rw [e, skipped]
      simp [h.1, h.2.1, h.2.2.1, h.2.2.2.1, h.2.2.2.2]
  unfold Defines
  simp only [hs, true_and]

example (fm : FontMap F) : readLines (fun c => c == ' ') parseFloat [[' ', 'c', 'm', 'r'], ['%', '"']] fm = .ok fm := by
  rw [comment_ignored _ _ _ _ _ _ (Or.inl rfl), comment_ignored _ _ _ _ _ _ (Or.inr (Or.inl rfl)), readLines]

end PyX.MapFile
