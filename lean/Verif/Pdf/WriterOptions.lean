import Mathlib.Logic.Basic
import Mathlib.Data.Option.Basic

/-!
# C152: options of the PDF and SVG writers
-/

namespace PyX.Pdf.WriterOptions

/-- Options, for any type of resolutions. -/
structure Options (K : Type) where
  stripfonts : Bool
  textaspath : Bool
  meshasbitmap : Bool
  resolution : K
deriving DecidableEq

/-- Options under their old names. -/
structure Old (K : Type) where
  strip_fonts : Option Bool
  text_as_path : Option Bool
  mesh_as_bitmap : Option Bool
  mesh_as_bitmap_resolution : Option K

/-- `PDFwriter.__init__` (`pdfwriter.py:354-369`); `none` is `NameError`: `mash_as_bitmap` and `mash_as_bitmap_resolution` are not defined. -/
def pdfInit {K : Type} (new : Options K) (old : Old K) : Option (Options K) :=
  let strip := old.strip_fonts.getD new.stripfonts
  let path := old.text_as_path.getD new.textaspath
  match old.mesh_as_bitmap with
  | some _ => none
  | none => match old.mesh_as_bitmap_resolution with
    | some _ => none
    | none => some ⟨strip, path, new.meshasbitmap, new.resolution⟩

/-- `SVGwriter.__init__` (`svgwriter.py:177-187`): text as path and resolution; `logger` is not defined in the module. -/
def svgInit {K : Type} (path : Bool) (resolution : K) (text_as_path : Option Bool) (mesh_as_bitmap_resolution : Option K) : Option (Bool × K) :=
  match text_as_path with
  | some _ => none
  | none => match mesh_as_bitmap_resolution with
    | some _ => none
    | none => some (path, resolution)

/-- **C152, partial.** Options under their present names are honoured, and so are the old names of two of them. -/
theorem writer_options_partial {K : Type} (new : Options K) (old : Old K) (path : Bool) (r : K) :
    (old.mesh_as_bitmap = none → old.mesh_as_bitmap_resolution = none → ∃ w, pdfInit new old = some w ∧ w.meshasbitmap = new.meshasbitmap ∧ w.resolution = new.resolution ∧
      (∀ b, old.strip_fonts = some b → w.stripfonts = b) ∧ (old.strip_fonts = none → w.stripfonts = new.stripfonts) ∧
      (∀ b, old.text_as_path = some b → w.textaspath = b) ∧ (old.text_as_path = none → w.textaspath = new.textaspath)) ∧
    svgInit path r none none = some (path, r) := by
  obtain ⟨s, t, m, n⟩ := old
  refine ⟨fun h1 h2 => ?_, rfl⟩
  simp only at h1 h2
  subst h1 h2
  cases s <;> cases t <;> simp [pdfInit]

/-- **C152, violation.** The other old names raise `NameError`: those for meshes in PDF files, and all of them in SVG files. -/
theorem writer_options_fail {K : Type} (new : Options K) (old : Old K) (path : Bool) (r : K) (a : Option Bool) (b : Option K) :
    (pdfInit new old = none ↔ old.mesh_as_bitmap ≠ none ∨ old.mesh_as_bitmap_resolution ≠ none) ∧ (svgInit path r a b = none ↔ a ≠ none ∨ b ≠ none) := by
  obtain ⟨s, t, m, n⟩ := old
  cases m <;> cases n <;> cases a <;> cases b <;> simp [pdfInit, svgInit]

example : pdfInit ⟨true, false, false, 300⟩ ⟨some false, none, none, none⟩ = some (⟨false, false, false, 300⟩ : Options Nat) := rfl

end PyX.Pdf.WriterOptions
