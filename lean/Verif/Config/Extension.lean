import Verif.Config.Props
import Mathlib.Data.List.TakeWhile

set_option linter.unusedSectionVars false

/-!
# The directory of internal data (`config.py:95-105`)
-/

namespace PyX.Config

open PyX.MapFile (Str)

theorem takeWhile_stop {α : Type} (p : α → Bool) (l : List α) (x : α) (r : List α) (hl : ∀ y ∈ l, p y = true) (hx : p x = false) : (l ++ x :: r).takeWhile p = l := by
  induction l with
  | nil => simp [hx]
  | cons a l ih =>
    rw [List.cons_append, List.takeWhile_cons, hl a (by simp)]
    simp [ih fun y hy => hl y (by simp [hy])]

/-- What follows the last slash. -/
theorem basename_after (d b : Str) (hb : '/' ∉ b) : basename (d ++ '/' :: b) = b := by
  unfold basename
  rw [show (d ++ '/' :: b).reverse = b.reverse ++ '/' :: d.reverse by simp, takeWhile_stop _ _ _ _ ?_ (by decide), List.reverse_reverse]
  intro y hy
  have : y ≠ '/' := by rintro rfl; exact hb (List.mem_reverse.mp hy)
  simpa using this

theorem basename_plain (b : Str) (hb : '/' ∉ b) : basename b = b := by
  unfold basename
  rw [List.takeWhile_eq_self_iff.mpr, List.reverse_reverse]
  intro y hy
  have : y ≠ '/' := by rintro rfl; exact hb (List.mem_reverse.mp hy)
  simpa using this

/-- **C55 (directories of internal data)** The directory is named like what follows the last dot of the name, if there is something else than dots before it (`stem` is that, beginning with another
character `c` after some dots). -/
theorem extension_last (k : ℕ) (c : Char) (stem e : Str) (hc : c ≠ '.') (he : '.' ∉ e) (hs : '/' ∉ List.replicate k '.' ++ c :: stem ++ '.' :: e) :
    extension (List.replicate k '.' ++ c :: stem ++ '.' :: e) = e := by
  unfold extension
  rw [basename_plain _ hs]
  have hd : (List.replicate k '.' ++ c :: stem ++ '.' :: e).dropWhile (· = '.') = c :: stem ++ '.' :: e := by
    clear hs
    induction k with
    | zero => simp [hc]
    | succ k ih => simpa [List.replicate_succ] using ih
  simp only [hd]
  rw [if_pos (by simp), show (c :: stem ++ '.' :: e).reverse = e.reverse ++ '.' :: (c :: stem).reverse by simp, takeWhile_stop _ _ _ _ ?_ (by decide), List.reverse_reverse]
  intro y hy
  have : y ≠ '.' := by rintro rfl; exact he (List.mem_reverse.mp hy)
  simpa using this

/-- **C55 (directories of internal data)** Names without a dot after other characters have none. -/
theorem extension_none (k : ℕ) (stem : Str) (h : '.' ∉ stem) (hs : '/' ∉ stem) : extension (List.replicate k '.' ++ stem) = [] := by
  unfold extension
  rw [basename_plain _ (by simp [hs])]
  have hd : (List.replicate k '.' ++ stem).dropWhile (· = '.') = stem := by
    induction k with
    | zero =>
      cases stem with
      | nil => rfl
      | cons a l =>
        have : a ≠ '.' := by rintro rfl; simp at h
        simp [this]
    | succ k ih => simpa [List.replicate_succ] using ih
  simp only [hd, if_neg h]

/-- **C55 (directories of internal data)** Directories of the name do not matter. -/
theorem extension_dir (d b : Str) (hb : '/' ∉ b) : extension (d ++ '/' :: b) = extension b := by
  unfold extension
  rw [basename_after d b hb, basename_plain b hb]

/-- The metric of a font with two dots in its name. -/
example : dataPath "cm.mi10.tfm".toList = "data/tfm/cm.mi10.tfm".toList := by decide +kernel

example : extension (List.replicate 0 '.' ++ 'c' :: "m.mi10".toList ++ '.' :: "tfm".toList) = "tfm".toList :=
  extension_last 0 'c' _ _ (by decide) (by decide +kernel) (by decide +kernel)

example : dataPath "texps".toList = "data//texps".toList := by decide +kernel

end PyX.Config
