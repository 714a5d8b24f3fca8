import Verif.T1.PfbProps
import Mathlib.Analysis.SpecialFunctions.Complex.Arg
import Mathlib.Tactic.Linarith
import Mathlib.Tactic.NormNum

/-!
# Fonts in PDF files (C172)

`T1File.outputPDF` (`pyx/font/t1file.py:1135-1160`) writes the three parts of a font as one stream with three lengths,
`T1File.writePDFfontinfo` (`pyx/font/t1file.py:1048-1080`) guesses the entries of the font descriptor from six glyphs.

The dictionary of the stream is a list of names and numbers, not their text.  `zlib` is a parameter.
-/

set_option linter.unusedSectionVars false

namespace PyX.T1.Embed

open PyX.Pfb

/-! ## The stream of a font -/

/-- Without blanks, tabs and ends of lines (`pyx/font/t1file.py:1139-1142`). -/
def squeeze (s : List Nat) : List Nat := s.filter fun c => c ≠ 10 ∧ c ≠ 13 ∧ c ≠ 9 ∧ c ≠ 32

/-- `"0"*512 + "cleartomark"`. -/
def trailer : List Nat := List.replicate 512 48 ++ [99, 108, 101, 97, 114, 116, 111, 109, 97, 114, 107]

/-- `data3`, possibly skipped (`pyx/font/t1file.py:1137-1143`). -/
def third (data3 : List Nat) : List Nat := if squeeze data3 = trailer then [] else data3

/-- A stream object: the lengths of its dictionary, whether there is a filter, and the bytes behind `stream`. -/
structure Stream where
  length : Nat
  length1 : Nat
  length2 : Nat
  length3 : Nat
  flate : Bool
  bytes : List Nat
deriving DecidableEq, Repr

/-- `"\nendstream\n"`. -/
def endstream : List Nat := [10, 101, 110, 100, 115, 116, 114, 101, 97, 109, 10]

/-- `T1File.outputPDF` (`pyx/font/t1file.py:1135-1160`); `none`: `UnicodeEncodeError`. -/
def outputPDF (deflate : List Nat → List Nat) (compress : Bool) (data1 data2eexec data3 : List Nat) : Option Stream := do
  let data3 := third data3
  let e1 ← sencode data1
  let e3 ← sencode data3
  let data := e1 ++ data2eexec ++ e3
  let data := if compress then deflate data else data
  pure ⟨data.length, data1.length, data2eexec.length, data3.length, compress, data ++ endstream⟩

/-- How a PDF reader takes the stream apart: `Length` bytes, decoded by the filter, are cut at the three lengths. -/
def readStream (inflate : List Nat → Option (List Nat)) (s : Stream) : Option (List Nat × List Nat × List Nat) := do
  let raw := s.bytes.take s.length
  let data ← if s.flate then inflate raw else some raw
  if data.length = s.length1 + s.length2 + s.length3 then
    pure (data.take s.length1, (data.drop s.length1).take s.length2, data.drop (s.length1 + s.length2))
  else none

theorem sdecode_length (bs : List Nat) : (sdecode bs).length = bs.length := by simp [sdecode]

theorem sdecode_squeeze (bs : List Nat) (h : ∀ b ∈ bs, b < 256) : squeeze (sdecode bs) = sdecode (squeeze bs) := by
  induction bs with
  | nil => rfl
  | cons b bs ih =>
    have ih := ih (fun x hx => h x (List.mem_cons_of_mem _ hx))
    unfold squeeze sdecode at *
    rw [List.map_cons]
    by_cases hb : b < 128
    · rw [if_pos hb]
      by_cases hw : b ≠ 10 ∧ b ≠ 13 ∧ b ≠ 9 ∧ b ≠ 32
      · rw [List.filter_cons_of_pos (by simpa using hw), List.filter_cons_of_pos (by simpa using hw), List.map_cons, if_pos hb, ih]
      · rw [List.filter_cons_of_neg (by simpa using hw), List.filter_cons_of_neg (by simpa using hw), ih]
    · rw [if_neg hb]
      rw [List.filter_cons_of_pos (by simp; omega), List.filter_cons_of_pos (by simp; omega), List.map_cons, if_neg hb, ih]

theorem sdecode_inj {a b : List Nat} (ha : ∀ x ∈ a, x < 256) (hb : ∀ x ∈ b, x < 256) (h : sdecode a = sdecode b) : a = b := by
  have h1 := sencode_sdecode a ha
  rw [h, sencode_sdecode b hb] at h1
  exact (Option.some.inj h1).symm

theorem trailer_bytes : (∀ x ∈ trailer, x < 256) ∧ sdecode trailer = trailer := by
  constructor <;> decide +kernel

/-- The third part is skipped exactly if the bytes of the file are 512 zeros and `cleartomark` up to blanks and ends of
lines. -/
theorem skipped_iff (d3 : List Nat) (h3 : ∀ b ∈ d3, b < 256) :
    third (sdecode d3) = (if squeeze d3 = trailer then [] else sdecode d3) := by
  unfold third
  rw [sdecode_squeeze d3 h3]
  by_cases h : squeeze d3 = trailer
  · rw [if_pos h, h, trailer_bytes.2, if_pos rfl]
  · rw [if_neg h, if_neg]
    intro hc
    apply h
    refine sdecode_inj (fun x hx => h3 x (List.mem_of_mem_filter hx)) trailer_bytes.1 ?_
    rw [hc, trailer_bytes.2]

/-- **C172, embedding.** A PDF reader gets the parts of the font file back byte by byte, whatever bytes they contain, with
and without compression; the third part may be missing if it is nothing but the usual trailer. -/
theorem embed (deflate : List Nat → List Nat) (inflate : List Nat → Option (List Nat)) (hz : ∀ l, inflate (deflate l) = some l)
    (compress : Bool) (d1 d2 d3 : List Nat) (h1 : ∀ b ∈ d1, b < 256) (h3 : ∀ b ∈ d3, b < 256) :
    ∃ s, outputPDF deflate compress (sdecode d1) d2 (sdecode d3) = some s ∧
      readStream inflate s = some (d1, d2, if squeeze d3 = trailer then [] else d3) := by
  have e3 : sencode (third (sdecode d3)) = some (if squeeze d3 = trailer then [] else d3) := by
    rw [skipped_iff d3 h3]
    by_cases h : squeeze d3 = trailer
    · rw [if_pos h, if_pos h]; rfl
    · rw [if_neg h, if_neg h]; exact sencode_sdecode d3 h3
  have l3 : (third (sdecode d3)).length = (if squeeze d3 = trailer then [] else d3).length := by
    rw [skipped_iff d3 h3]
    by_cases h : squeeze d3 = trailer
    · rw [if_pos h, if_pos h]
    · rw [if_neg h, if_neg h, sdecode_length]
  generalize hd : (if squeeze d3 = trailer then [] else d3) = d3' at *
  refine ⟨⟨(if compress then deflate (d1 ++ d2 ++ d3') else d1 ++ d2 ++ d3').length, (sdecode d1).length, d2.length,
    (third (sdecode d3)).length, compress, (if compress then deflate (d1 ++ d2 ++ d3') else d1 ++ d2 ++ d3') ++ endstream⟩, ?_, ?_⟩
  · unfold outputPDF
    simp only [sencode_sdecode d1 h1, e3]
    rfl
  · have key : readStream inflate ⟨(if compress then deflate (d1 ++ d2 ++ d3') else d1 ++ d2 ++ d3').length, (sdecode d1).length,
        d2.length, (third (sdecode d3)).length, compress, (if compress then deflate (d1 ++ d2 ++ d3') else d1 ++ d2 ++ d3') ++ endstream⟩ =
        (do
          let data ← some (d1 ++ d2 ++ d3')
          if data.length = (sdecode d1).length + d2.length + (third (sdecode d3)).length then
            pure (data.take (sdecode d1).length, (data.drop (sdecode d1).length).take d2.length, data.drop ((sdecode d1).length + d2.length))
          else none) := by
      unfold readStream
      simp only [List.take_left']
      cases compress
      · rfl
      · simp only [if_true, hz]
    rw [key, sdecode_length, l3]
    show (if (d1 ++ d2 ++ d3').length = d1.length + d2.length + d3'.length then _ else _) = _
    rw [if_pos (by simp only [List.length_append])]
    show some _ = _
    congr 2
    · rw [List.append_assoc, List.take_left]
    · congr 1
      · rw [List.append_assoc, List.drop_left, List.take_left]
      · rw [← List.length_append, List.drop_left]

/-- A font with bytes above 127 in all parts, not compressed. -/
example : outputPDF id false (sdecode [37, 200]) [255, 0] (sdecode [48, 10]) =
    some ⟨6, 2, 2, 2, false, [37, 200, 255, 0, 48, 10] ++ endstream⟩ := by decide +kernel

/-- The usual trailer in lines is skipped. -/
example : outputPDF id false [37] [255] ((List.replicate 8 (List.replicate 64 48 ++ [10])).flatten ++ [99, 108, 101, 97, 114, 116, 111, 109, 97, 114, 107, 10]) =
    some ⟨2, 1, 1, 0, false, [37, 255] ++ endstream⟩ := by decide +kernel

/-! ## Reading fonts of unknown format -/

/-- Results of reading a font. -/
inductive ReadErr
  /-- `FontFormatError` or `ValueError` -/
  | format
  /-- `TypeError` -/
  | typeError
deriving DecidableEq, Repr

/-- `from_PFA_bytes` (`pyx/font/t1file.py:1163-1174`): `bytes.index("eexec")` with a string instead of bytes is a
`TypeError` for all contents, which the `except ValueError` does not catch. -/
def fromPFA (_ : List Nat) : Except ReadErr (List Nat × List Nat × List Nat) := .error .typeError

/-- `from_PF_bytes` (`pyx/font/t1file.py:1234-1239`) for contents that do not begin with the mark of a PFB file: the
other way to a `FontFormatError` is the same; a truncated block is a `ValueError` and passed on, see `fromPFB`. -/
def fromPF (s : List Nat) : Except ReadErr (List Nat × List Nat × List Nat) :=
  match fromPFB s with
  | some r => .ok r
  | none => if (consume 2 s).1 ≠ [128, 1] then fromPFA s else .error .format

/-- Fonts in ASCII form (which begin with `%!`) cannot be read. -/
theorem pfa_unreadable (rest : List Nat) : fromPF (37 :: 33 :: rest) = .error .typeError := by
  unfold fromPF
  have : fromPFB (37 :: 33 :: rest) = none := by unfold fromPFB consume; simp
  rw [this]
  simp [consume, fromPFA]

/-! ## The font descriptor -/

noncomputable section

/-- A bounding box; empty for glyphs without an outline. -/
structure Box where
  llx : ℝ
  lly : ℝ
  urx : ℝ
  ury : ℝ

/-- `getglyphinfo` (`pyx/font/t1file.py:1082-1088`): width and box; `none`: an exception, e.g. for a missing glyph. -/
abbrev Info := String → Option (ℝ × Option Box)

/-- `"%d" % x`. -/
def truncate (x : ℝ) : ℤ := if 0 ≤ x then ⌊x⌋ else ⌈x⌉

/-- The entries written to the font descriptor, in order. -/
inductive Item
  | flags (n : ℕ)
  | fontBBox (a b c d : ℤ)
  | italicAngle (n : ℤ)
  | ascent (n : ℤ)
  | descent (n : ℤ)
  | capHeight (n : ℤ)
  | stemV (n : ℤ)

/-- The stub data (`pyx/font/t1file.py:1057-1064`). -/
def stub : List Item :=
  [.flags 4, .fontBBox 0 (-100) 1000 1000, .italicAngle 0, .ascent 1000, .descent (-100), .capHeight 700, .stemV 100]

/-- `math.degrees(math.atan2(y, x))`. -/
def angle (y x : ℝ) : ℝ := Complex.arg ⟨x, y⟩ * 180 / Real.pi

/-- The guessed entries (`pyx/font/t1file.py:1066-1080`). -/
def guess (standard : Bool) (y : Box) (wW : ℝ) (H h period colon : Box) : List Item :=
  [.flags (if standard then 32 else 4), .fontBBox 0 (truncate y.lly) (truncate wW) (truncate H.ury),
   .italicAngle (truncate (angle (period.urx - colon.urx) (colon.ury - period.ury))),
   .ascent (truncate H.ury), .descent (truncate y.lly), .capHeight (truncate h.ury), .stemV (truncate (period.urx - period.llx))]

/-- `writePDFfontinfo` (`pyx/font/t1file.py:1048-1080`). `none`: a `TypeError`, when a glyph has no outline and its box no
coordinates. -/
def fontinfo (standard : Bool) (info : Info) : Option (List Item) :=
  match info "y", info "W", info "H", info "h", info "period", info "colon" with
  | some y, some W, some H, some h, some p, some c =>
    match y.2, H.2, h.2, p.2, c.2 with
    | some y, some H, some h, some p, some c => some (guess standard y W.1 H h p c)
    | _, _, _, _, _ => none
  | _, _, _, _, _, _ => some stub

/-- The name of an entry. -/
def Item.name : Item → String
  | .flags _ => "Flags"
  | .fontBBox _ _ _ _ => "FontBBox"
  | .italicAngle _ => "ItalicAngle"
  | .ascent _ => "Ascent"
  | .descent _ => "Descent"
  | .capHeight _ => "CapHeight"
  | .stemV _ => "StemV"

/-- **C172, the descriptor.** Whenever something is written, all seven entries PDF asks for are written once, and the font
is either symbolic (4) or not (32). -/
theorem info_complete (standard : Bool) (info : Info) (l : List Item) (h : fontinfo standard info = some l) :
    l.map Item.name = ["Flags", "FontBBox", "ItalicAngle", "Ascent", "Descent", "CapHeight", "StemV"] ∧
    (l.head? = some (.flags 4) ∨ l.head? = some (.flags 32) ∧ standard = true) := by
  unfold fontinfo at h
  split at h
  · split at h
    · cases h
      cases standard
      · exact ⟨rfl, Or.inl rfl⟩
      · exact ⟨rfl, Or.inr ⟨rfl, rfl⟩⟩
    · cases h
  · cases h
    exact ⟨rfl, Or.inl rfl⟩

/-- A missing glyph: stub data. -/
theorem info_missing (standard : Bool) (info : Info) (g : String) (hg : g ∈ ["y", "W", "H", "h", "period", "colon"])
    (h : info g = none) : fontinfo standard info = some stub := by
  unfold fontinfo
  simp only [List.mem_cons, List.not_mem_nil, or_false] at hg
  rcases hg with rfl | rfl | rfl | rfl | rfl | rfl
  · rw [h]
  · rw [h]; cases info "y" <;> rfl
  · rw [h]; cases info "y" <;> cases info "W" <;> rfl
  · rw [h]; cases info "y" <;> cases info "W" <;> cases info "H" <;> rfl
  · rw [h]; cases info "y" <;> cases info "W" <;> cases info "H" <;> cases info "h" <;> rfl
  · rw [h]; cases info "y" <;> cases info "W" <;> cases info "H" <;> cases info "h" <;> cases info "period" <;> rfl

/-- A glyph without an outline is not caught: the exception ends the writing of the file. -/
theorem info_raises : fontinfo true (fun g => if g = "colon" then some (0, none) else some (500, some ⟨0, -200, 400, 700⟩)) = none := by
  simp [fontinfo]

theorem truncate_near (x : ℝ) : |(truncate x : ℝ) - x| < 1 := by
  unfold truncate
  by_cases h : 0 ≤ x
  · rw [if_pos h]
    have h1 := Int.floor_le x
    have h2 := Int.lt_floor_add_one x
    rw [abs_lt]; constructor <;> linarith
  · rw [if_neg h]
    have h1 := Int.le_ceil x
    have h2 := Int.ceil_lt_add_one x
    rw [abs_lt]; constructor <;> linarith

/-- The numbers are those of the glyphs up to one unit: depth of `y`, width of `W`, heights of `H` and `h`, width of the
period. -/
theorem info_partial (standard : Bool) (y H h p c : Box) (wW : ℝ) (a b w t i as de ca st : ℤ) (f : ℕ)
    (hg : guess standard y wW H h p c = [.flags f, .fontBBox a b w t, .italicAngle i, .ascent as, .descent de, .capHeight ca, .stemV st]) :
    |(b : ℝ) - y.lly| < 1 ∧ |(w : ℝ) - wW| < 1 ∧ |(t : ℝ) - H.ury| < 1 ∧ |(as : ℝ) - H.ury| < 1 ∧ |(de : ℝ) - y.lly| < 1 ∧
    |(ca : ℝ) - h.ury| < 1 ∧ |(st : ℝ) - (p.urx - p.llx)| < 1 := by
  unfold guess at hg
  simp only [List.cons.injEq, Item.fontBBox.injEq, Item.italicAngle.injEq, Item.ascent.injEq, Item.descent.injEq,
    Item.capHeight.injEq, Item.stemV.injEq, and_true] at hg
  obtain ⟨-, ⟨-, rfl, rfl, rfl⟩, -, rfl, rfl, rfl, rfl⟩ := hg
  exact ⟨truncate_near _, truncate_near _, truncate_near _, truncate_near _, truncate_near _, truncate_near _, truncate_near _⟩

/-- The font box may cut glyphs: the depth of `y` is rounded towards zero. -/
theorem bbox_cuts : truncate (-(433 / 2 : ℝ)) = -216 ∧ (-(433 / 2 : ℝ)) < ((-216 : ℤ) : ℝ) := by
  constructor
  · unfold truncate
    rw [if_neg (by norm_num), Int.ceil_eq_iff]
    constructor <;> norm_num
  · norm_num

/-- **C172, the angle.** If the upper dot of the colon is the period, moved up by `r cos φ` and sideways by `r sin φ` (a font
leaning to the right by `φ`), the angle is `-φ`, as PDF counts it. -/
theorem italic (p c : Box) (r phi : ℝ) (hr : 0 < r) (h1 : -(Real.pi / 2) < phi) (h2 : phi < Real.pi / 2)
    (hx : c.urx = p.urx + r * Real.sin phi) (hy : c.ury = p.ury + r * Real.cos phi) :
    angle (p.urx - c.urx) (c.ury - p.ury) = -(phi * 180 / Real.pi) := by
  have e : (⟨c.ury - p.ury, p.urx - c.urx⟩ : ℂ) = (r : ℂ) * (Complex.cos ((-phi : ℝ) : ℂ) + Complex.sin ((-phi : ℝ) : ℂ) * Complex.I) := by
    rw [hx, hy]
    rw [← Complex.ofReal_cos, ← Complex.ofReal_sin, Real.cos_neg, Real.sin_neg]
    apply Complex.ext
    · simp
      exact Or.inl (Complex.cos_ofReal_re phi).symm
    · simp
      exact Or.inl (Complex.sin_ofReal_re phi).symm
  unfold angle
  rw [e, Complex.arg_mul_cos_add_sin_mul_I hr ⟨by linarith [Real.pi_pos], by linarith [Real.pi_pos]⟩]
  ring

/-- An upright font has angle zero. -/
example : truncate (angle (200 - 200) (400 - 100)) = 0 := by
  have := italic ⟨100, 0, 200, 100⟩ ⟨100, 0, 200, 400⟩ 300 0 (by norm_num) (by linarith [Real.pi_pos]) (by linarith [Real.pi_pos])
    (by simp) (by simp; norm_num)
  rw [this]
  unfold truncate
  norm_num

end

end PyX.T1.Embed
