import Mathlib.Data.List.Basic
import Mathlib.Tactic.Ring
import Mathlib.Tactic.Linarith
import Mathlib.Tactic.Push
import Mathlib.Tactic.SplitIfs
import Verif.Bitmap.Output

/-!
# C74: PNG output decodes to the image

A small reader for PNG files, written after the PNG specification (8 bit per sample, no interlacing, filter type 0).
-/

set_option linter.unusedSectionVars false

namespace PyX.Bitmap

/-- A big-endian 32 bit number. -/
def readI : List ℕ → Option (ℕ × List ℕ)
  | a :: b :: c :: d :: r => some (2 ^ 24 * a + 2 ^ 16 * b + 2 ^ 8 * c + d, r)
  | _ => none

/-- The chunks of a file: length, four bytes of name, data, checksum of name and data. -/
def readChunks (crc : List ℕ → ℕ) : ℕ → List ℕ → Option (List (List ℕ × List ℕ))
  | _, [] => some []
  | 0, _ => none
  | n + 1, bs =>
    match readI bs with
    | none => none
    | some (l, r) =>
      if r.length < 4 + l then none
      else
        match readI (r.drop (4 + l)) with
        | none => none
        | some (c, r') =>
          if c ≠ crc (r.take 4 ++ (r.drop 4).take l) then none
          else (readChunks crc n r').map ((r.take 4, (r.drop 4).take l) :: ·)

/-- Samples per pixel of the colour types. -/
def samples : ℕ → Option ℕ
  | 0 => some 1
  | 2 => some 3
  | 3 => some 1
  | 4 => some 2
  | 6 => some 4
  | _ => none

/-- The rows of `k` bytes, each behind a filter byte of type "none"; nothing may be left. -/
def unfilter (k : ℕ) : ℕ → List ℕ → Option (List (List ℕ))
  | 0, [] => some []
  | n + 1, 0 :: r => if r.length < k then none else (unfilter k n (r.drop k)).map (r.take k :: ·)
  | _, _ => none

/-- A decoded picture. -/
structure Picture where
  width : ℕ
  height : ℕ
  type : ℕ
  palette : Option (List ℕ)
  rows : List (List ℕ)
deriving DecidableEq, Repr

/-- The header: width, height and colour type. -/
def header (h : List ℕ) : Option (ℕ × ℕ × ℕ) :=
  match readI h with
  | none => none
  | some (w, r) =>
    match readI r with
    | some (h, [8, t, 0, 0, 0]) => some (w, h, t)
    | _ => none

/-- The order of the chunks: header, palette (exactly for colour type 3), data, end. -/
def ordered (chunks : List (List ℕ × List ℕ)) : Option (List ℕ × Option (List ℕ) × List ℕ) :=
  match chunks with
  | [(n1, h), (n2, d), (n3, [])] =>
    if n1 = ascii "IHDR" ∧ n2 = ascii "IDAT" ∧ n3 = ascii "IEND" then some (h, none, d) else none
  | [(n1, h), (n2, p), (n3, d), (n4, [])] =>
    if n1 = ascii "IHDR" ∧ n2 = ascii "PLTE" ∧ n3 = ascii "IDAT" ∧ n4 = ascii "IEND" then some (h, some p, d) else none
  | _ => none

/-- A PNG reader. -/
def decodePng (crc : List ℕ → ℕ) (inflate : List ℕ → Option (List ℕ)) (file : List ℕ) : Option Picture :=
  if file.take 8 ≠ [137, 80, 78, 71, 13, 10, 26, 10] then none
  else do
    let chunks ← readChunks crc file.length (file.drop 8)
    let (h, p, d) ← ordered chunks
    let (width, height, t) ← header h
    if (t = 3) ≠ (p.isSome = true) then none
    else do
      let k ← samples t
      let raw ← inflate d
      let rows ← unfilter (k * width) height raw
      return ⟨width, height, t, p, rows⟩

theorem readI_packI (n : ℕ) (l r : List ℕ) (h : packI n = some l) : readI (l ++ r) = some (n, r) ∧ l.length = 4 ∧ n < 2 ^ 32 := by
  unfold packI at h
  split_ifs at h with hn
  cases h
  refine ⟨?_, rfl, hn⟩
  simp only [List.cons_append, List.nil_append, readI, Option.some.injEq, Prod.mk.injEq, and_true]
  omega

theorem readChunks_cons (crc : List ℕ → ℕ) (hcrc : ∀ l, crc l < 2 ^ 32) (n : ℕ) (name data bs rest : List ℕ) (hname : name.length = 4)
    (h : chunk crc name data = some bs) :
    readChunks crc (n + 1) (bs ++ rest) = (readChunks crc n rest).map ((name, data) :: ·) ∧ bs.length = data.length + 12 := by
  unfold chunk at h
  cases h1 : packI data.length with
  | none => simp [h1] at h
  | some l =>
    cases h2 : packI (crc (name ++ data) % 2 ^ 32) with
    | none => simp only [h1, h2] at h; exact absurd h (by simp)
    | some c =>
      simp only [h1, h2, Option.some.injEq] at h
      subst h
      have hl := readI_packI _ _ (name ++ data ++ c ++ rest) h1
      have hc := readI_packI _ _ rest h2
      constructor
      · have hne : l ++ name ++ data ++ c ++ rest ≠ [] := by
          intro e
          have := congrArg List.length e
          simp [hl.2.1] at this
        have hass : l ++ name ++ data ++ c ++ rest = l ++ (name ++ data ++ c ++ rest) := by simp
        obtain ⟨x, xs, hx⟩ := List.exists_cons_of_ne_nil hne
        rw [hx, readChunks]
        · rw [← hx, hass, hl.1]
          simp only
          have e1 : (name ++ data ++ c ++ rest).take 4 = name := by
            rw [← hname]; simp
          have e2 : ((name ++ data ++ c ++ rest).drop 4).take data.length = data := by
            rw [← hname]; simp
          have e3 : (name ++ data ++ c ++ rest).drop (4 + data.length) = c ++ rest := by
            rw [← hname]; simp [List.drop_append]
          rw [e1, e2, e3, hc.1, if_neg (by simp [hname])]
          simp only
          rw [if_neg (by rw [Nat.mod_eq_of_lt (hcrc _)]; simp)]
        · simp
      · simp [hl.2.1, hc.2.1, hname]
        omega

theorem unfilter_scanlines (k width : ℕ) : ∀ (height : ℕ) (data : List ℕ), data.length = k * width * height →
    ∃ rows, unfilter (k * width) height (scanlines k width height data) = some rows ∧ rows.flatten = data ∧ rows.length = height ∧
      ∀ r ∈ rows, r.length = k * width := by
  intro height
  induction height with
  | zero =>
    intro data h
    have : data = [] := List.eq_nil_of_length_eq_zero (by simpa using h)
    subst this
    exact ⟨[], rfl, rfl, rfl, by simp⟩
  | succ n ih =>
    intro data h
    have hl : k * width ≤ data.length := by rw [h]; exact Nat.le_mul_of_pos_right _ (Nat.succ_pos _)
    have hscan : scanlines k width (n + 1) data = 0 :: (data.take (k * width) ++ scanlines k width n (data.drop (k * width))) := by
      unfold scanlines
      rw [List.range_succ_eq_map, List.flatMap_cons, List.flatMap_map]
      simp only [Nat.zero_add, Nat.mul_one, Nat.mul_zero, List.drop_zero, List.cons_append]
      congr 2
      apply List.flatMap_congr
      intro pos _
      congr 1
      rw [List.take_drop, List.drop_drop]
      congr 1
      · rw [Nat.succ_eq_add_one]; ring
      · rw [show k * width * (pos.succ + 1) = k * width + k * width * (pos + 1) from by rw [Nat.succ_eq_add_one]; ring]
    rw [hscan]
    obtain ⟨rows, h1, h2, h3, h4⟩ := ih (data.drop (k * width)) (by
      rw [List.length_drop, h, Nat.mul_succ]
      omega)
    have hlen : (data.take (k * width)).length = k * width := by simp [hl]
    refine ⟨data.take (k * width) :: rows, ?_, ?_, by simp [h3], ?_⟩
    · rw [unfilter, if_neg (by simp; omega)]
      have e1 : (data.take (k * width) ++ scanlines k width n (data.drop (k * width))).take (k * width) = data.take (k * width) := by
        rw [List.take_append_of_le_length hlen.ge, List.take_of_length_le hlen.le]
      have e2 : (data.take (k * width) ++ scanlines k width n (data.drop (k * width))).drop (k * width) =
          scanlines k width n (data.drop (k * width)) := by
        rw [List.drop_append_of_le_length hlen.ge, List.drop_of_length_le hlen.le, List.nil_append]
      rw [e1, e2, h1]
      rfl
    · rw [List.flatten_cons, h2, List.take_append_drop]
    · intro r hr
      rcases List.mem_cons.mp hr with rfl | hr
      · exact hlen
      · exact h4 r hr

theorem pngMode_cases {mode : List Char} {t k : ℕ} (h : pngMode mode = some (t, k)) :
    samples t = some k ∧ (t = 3 ↔ mode = "P".toList) ∧ k = mode.length := by
  unfold pngMode at h
  split_ifs at h with h1 h2 h3 h4 h5 <;> simp only [Option.some.injEq, Prod.mk.injEq] at h <;> obtain ⟨rfl, rfl⟩ := h <;>
    subst_vars <;> decide

/-- **C74** Reading a written PNG file gives back the image: the chunks are in order with right lengths and checksums, width, height and
colour type are those of the image, the palette is that of the image as RGB values (exactly for mode "P"), and the rows of pixels are the data of the image in order. -/
theorem png_roundtrip (crc : List ℕ → ℕ) (compress : List ℕ → List ℕ) (inflate : List ℕ → Option (List ℕ))
    (hcrc : ∀ l, crc l < 2 ^ 32) (hz : ∀ l, inflate (compress l) = some l) (i : Image ℕ) (palette : Option (List Char × List ℕ))
    (file : List ℕ) (h : save crc compress i palette = some file) :
    ∃ p, decodePng crc inflate file = some p ∧ p.width = i.width ∧ p.height = i.height ∧ samples p.type = some i.mode.length ∧
      (p.type = 3 ↔ i.mode = "P".toList) ∧
      p.palette = (if i.mode = "P".toList then palette.bind fun q => rgbPalette q.1 q.2 else none) ∧
      p.rows.length = i.height ∧ (∀ r ∈ p.rows, r.length = i.mode.length * i.width) ∧ p.rows.flatten = i.data := by
  unfold save at h
  cases hm : pngMode i.mode with
  | none => simp [hm] at h
  | some tk =>
    obtain ⟨t, k⟩ := tk
    simp only [hm, Option.bind_eq_bind, Option.bind_some] at h
    split_ifs at h with hlen hP
    all_goals (obtain ⟨hs, ht, hk⟩ := pngMode_cases hm)
    · push Not at hlen
      cases hw : packI i.width with
      | none => simp [hw] at h
      | some w =>
      cases hh : packI i.height with
      | none => simp [hw, hh] at h
      | some hgt =>
      simp only [hw, hh, Option.bind_some] at h
      cases hi : chunk crc (ascii "IHDR") (w ++ hgt ++ [8, t, 0, 0, 0]) with
      | none => rw [hi] at h; simp at h
      | some ihdr =>
      simp only [hi, Option.bind_some] at h
      cases palette with
      | none => simp at h
      | some q =>
      obtain ⟨pm, pd⟩ := q
      simp only at h
      cases hr : rgbPalette pm pd with
      | none => simp [hr] at h
      | some rgb =>
      simp only [hr, Option.bind_some] at h
      cases hp : chunk crc (ascii "PLTE") rgb with
      | none => simp [hp] at h
      | some plte =>
      simp only [hp, Option.bind_some] at h
      cases hd : chunk crc (ascii "IDAT") (compress (scanlines k i.width i.height i.data)) with
      | none => simp [hd] at h
      | some idat =>
      simp only [hd, Option.bind_some] at h
      cases he : chunk crc (ascii "IEND") [] with
      | none => simp [he] at h
      | some iend =>
      simp only [he, Option.bind_some, Option.some.injEq] at h
      obtain ⟨rows, r1, r2, r3, r4⟩ := unfilter_scanlines k i.width i.height i.data (by rw [hlen]; ring)
      have hfile : file = signature ++ (ihdr ++ (plte ++ (idat ++ (iend ++ [])))) := by rw [← h]; simp
      have c4 := fun n => (readChunks_cons crc hcrc n (ascii "IEND") [] iend [] (by decide) he)
      have c3 := fun n => (readChunks_cons crc hcrc n (ascii "IDAT") _ idat (iend ++ []) (by decide) hd)
      have c2 := fun n => (readChunks_cons crc hcrc n (ascii "PLTE") _ plte (idat ++ (iend ++ [])) (by decide) hp)
      have c1 := fun n => (readChunks_cons crc hcrc n (ascii "IHDR") _ ihdr (plte ++ (idat ++ (iend ++ []))) (by decide) hi)
      have hn : ∃ n, file.length = n + 4 := ⟨file.length - 4, by
        rw [hfile]; simp only [List.length_append, signature, List.length_cons, List.length_nil, (c1 0).2]; omega⟩
      obtain ⟨n, hn⟩ := hn
      refine ⟨⟨i.width, i.height, t, some rgb, rows⟩, ?_, rfl, rfl, by rw [hs, hk], ht, ?_, r3, by rw [← hk]; exact r4, r2⟩
      · have htake : file.take 8 = [137, 80, 78, 71, 13, 10, 26, 10] := by rw [hfile]; rfl
        have hdrop : file.drop 8 = ihdr ++ (plte ++ (idat ++ (iend ++ []))) := by rw [hfile]; rfl
        have hch : readChunks crc file.length (file.drop 8) = some [(ascii "IHDR", w ++ hgt ++ [8, t, 0, 0, 0]), (ascii "PLTE", rgb),
            (ascii "IDAT", compress (scanlines k i.width i.height i.data)), (ascii "IEND", [])] := by
          rw [hdrop, hn, (c1 _).1, (c2 _).1, (c3 _).1, (c4 _).1]
          cases n <;> simp [readChunks]
        have hhead : header (w ++ hgt ++ [8, t, 0, 0, 0]) = some (i.width, i.height, t) := by
          unfold header
          rw [List.append_assoc, (readI_packI _ _ _ hw).1]
          simp only
          simp only [(readI_packI _ _ _ hh).1]
        unfold decodePng
        rw [if_neg (by rw [htake]; simp), hch]
        simp only [Option.bind_eq_bind, Option.bind_some, ordered, and_self, if_true]
        rw [hhead]
        have h3 : t = 3 := ht.mpr hP
        simp only [Option.bind_some, Option.isSome_some, hz, h3, ne_eq, not_true_eq_false, if_false]
        rw [h3] at hs
        rw [hs]
        simp only [Option.bind_some, r1]
        rfl
      · simp only [hP, if_true, Option.bind_some, hr]
    · push Not at hlen
      cases hw : packI i.width with
      | none => simp [hw] at h
      | some w =>
      cases hh : packI i.height with
      | none => simp [hw, hh] at h
      | some hgt =>
      simp only [hw, hh, Option.bind_some] at h
      cases hi : chunk crc (ascii "IHDR") (w ++ hgt ++ [8, t, 0, 0, 0]) with
      | none => rw [hi] at h; simp at h
      | some ihdr =>
      simp only [hi, Option.bind_some] at h
      cases hd : chunk crc (ascii "IDAT") (compress (scanlines k i.width i.height i.data)) with
      | none => simp [hd] at h
      | some idat =>
      simp only [hd, Option.bind_some] at h
      cases he : chunk crc (ascii "IEND") [] with
      | none => simp [he] at h
      | some iend =>
      simp only [he, Option.bind_some, Option.some.injEq] at h
      obtain ⟨rows, r1, r2, r3, r4⟩ := unfilter_scanlines k i.width i.height i.data (by rw [hlen]; ring)
      have hfile : file = signature ++ (ihdr ++ (idat ++ (iend ++ []))) := by rw [← h]; simp
      have c4 := fun n => (readChunks_cons crc hcrc n (ascii "IEND") [] iend [] (by decide) he)
      have c3 := fun n => (readChunks_cons crc hcrc n (ascii "IDAT") _ idat (iend ++ []) (by decide) hd)
      have c1 := fun n => (readChunks_cons crc hcrc n (ascii "IHDR") _ ihdr (idat ++ (iend ++ [])) (by decide) hi)
      have hn : ∃ n, file.length = n + 3 := ⟨file.length - 3, by
        rw [hfile]; simp only [List.length_append, signature, List.length_cons, List.length_nil, (c1 0).2]; omega⟩
      obtain ⟨n, hn⟩ := hn
      refine ⟨⟨i.width, i.height, t, none, rows⟩, ?_, rfl, rfl, by rw [hs, hk], ht, by rw [if_neg hP], r3, by rw [← hk]; exact r4, r2⟩
      have htake : file.take 8 = [137, 80, 78, 71, 13, 10, 26, 10] := by rw [hfile]; rfl
      have hdrop : file.drop 8 = ihdr ++ (idat ++ (iend ++ [])) := by rw [hfile]; rfl
      have hch : readChunks crc file.length (file.drop 8) = some [(ascii "IHDR", w ++ hgt ++ [8, t, 0, 0, 0]),
          (ascii "IDAT", compress (scanlines k i.width i.height i.data)), (ascii "IEND", [])] := by
        rw [hdrop, hn, (c1 _).1, (c3 _).1, (c4 _).1]
        cases n <;> simp [readChunks]
      have hhead : header (w ++ hgt ++ [8, t, 0, 0, 0]) = some (i.width, i.height, t) := by
        unfold header
        rw [List.append_assoc, (readI_packI _ _ _ hw).1]
        simp only
        simp only [(readI_packI _ _ _ hh).1]
      unfold decodePng
      rw [if_neg (by rw [htake]; simp), hch]
      simp only [Option.bind_eq_bind, Option.bind_some, ordered, and_self, if_true]
      rw [hhead]
      have h3 : t ≠ 3 := fun e => hP (ht.mp e)
      simp only [Option.bind_some, hs, hz, r1, h3, ne_eq, Option.isSome_none, Bool.false_eq_true, not_true_eq_false, if_false]
      rfl

/-- **C74 (success)** Saving succeeds for every image of a supported mode with data of the right size below the size limits, with a palette in gray or RGB for mode "P". -/
theorem png_total (crc : List ℕ → ℕ) (compress : List ℕ → List ℕ) (i : Image ℕ) (palette : Option (List Char × List ℕ))
    (hmode : i.mode ∈ ["L".toList, "LA".toList, "RGB".toList, "RGBA".toList, "P".toList])
    (hdata : i.data.length = i.mode.length * i.width * i.height) (hw : i.width < 2 ^ 32) (hh : i.height < 2 ^ 32)
    (hc : (compress (scanlines i.mode.length i.width i.height i.data)).length < 2 ^ 32)
    (hp : i.mode = "P".toList → ∃ m d, palette = some (m, d) ∧ (m = "L".toList ∨ m = "RGB".toList) ∧ 3 * d.length < 2 ^ 32) :
    (save crc compress i palette).isSome := by
  have hpack : ∀ n < 2 ^ 32, ∃ l, packI n = some l ∧ l.length = 4 := by
    intro n hn
    exact ⟨_, if_pos hn, rfl⟩
  have hchunk : ∀ name data, data.length < 2 ^ 32 → ∃ bs, chunk crc name data = some bs := by
    intro name data hd
    obtain ⟨l, hl, -⟩ := hpack _ hd
    obtain ⟨c, hc, -⟩ := hpack (crc (name ++ data) % 2 ^ 32) (Nat.mod_lt _ (by norm_num))
    unfold chunk
    rw [hl, hc]
    exact ⟨_, rfl⟩
  have hm : ∃ t, pngMode i.mode = some (t, i.mode.length) := by
    simp only [List.mem_cons, List.not_mem_nil, or_false] at hmode
    rcases hmode with e | e | e | e | e <;> rw [e] <;> exact ⟨_, rfl⟩
  obtain ⟨t, hm⟩ := hm
  obtain ⟨w, hw, hw4⟩ := hpack _ hw
  obtain ⟨h, hh, hh4⟩ := hpack _ hh
  obtain ⟨ihdr, hi⟩ := hchunk (ascii "IHDR") (w ++ h ++ [8, t, 0, 0, 0]) (by simp [hw4, hh4])
  obtain ⟨idat, hd⟩ := hchunk (ascii "IDAT") _ hc
  obtain ⟨iend, he⟩ := hchunk (ascii "IEND") [] (by simp)
  unfold save
  simp only [hm, Option.bind_eq_bind, Option.bind_some]
  rw [if_neg (by rw [hdata]; push Not; ring), hw, hh]
  simp only [Option.bind_some, hi, hd, he]
  split_ifs with hP
  · obtain ⟨m, d, rfl, hmm, hl⟩ := hp hP
    have : ∃ rgb, rgbPalette m d = some rgb ∧ rgb.length < 2 ^ 32 := by
      unfold rgbPalette
      rcases hmm with rfl | rfl
      · refine ⟨_, if_pos rfl, ?_⟩
        have : (d.flatMap fun x => [x, x, x]).length = 3 * d.length := by
          clear hl hp
          induction d with
          | nil => rfl
          | cons a d ih => rw [List.flatMap_cons, List.length_append, ih, List.length_cons]; simp; ring
        omega
      · refine ⟨d, by rw [if_neg (by decide), if_pos rfl], by omega⟩
    obtain ⟨rgb, h1, h2⟩ := this
    obtain ⟨plte, h3⟩ := hchunk (ascii "PLTE") rgb h2
    simp [h1, h3]
  · simp

/-- A 2x1 RGB image, with a stand-in for the compression and the checksum. -/
example : (save (fun l => l.sum) id ⟨2, 1, "RGB".toList, [1, 2, 3, 4, 5, 6]⟩ none).bind (decodePng (fun l => l.sum) some) =
    some ⟨2, 1, 2, none, [[1, 2, 3, 4, 5, 6]]⟩ := by decide +kernel

example : (save (fun l => l.sum) id ⟨1, 2, "P".toList, [0, 1]⟩ (some ("L".toList, [7, 9]))).bind (decodePng (fun l => l.sum) some) =
    some ⟨1, 2, 3, some [7, 7, 7, 9, 9, 9], [[0], [1]]⟩ := by decide +kernel

end PyX.Bitmap
