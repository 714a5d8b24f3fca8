import Mathlib.Tactic.IntervalCases
import Verif.Reader.Props
import Verif.TeXFont.TfmProps
import Verif.TeXFont.TfmFile

/-!
# C155: TFM files

`Contents` is a TFM file as the format describes it, `encode` its bytes.
-/

set_option linter.unusedSimpArgs false

namespace PyX.Tfm

open PyX.Reader (Rd readS readU readstring put putS)

/-- A string in a field of fixed size: its characters and what fills the field. -/
structure Str where
  chars : List Nat
  pad : List Nat

def Str.bytes (s : Str) : List Nat := s.chars.length :: s.chars ++ s.pad

/-- The parts of a header after the first two words: nothing, or a coding scheme, and after this nothing or a family, and so on. -/
inductive Tail
  | none
  | coding (c : Str)
  | family (c f : Str)
  | face (c f : Str) (safe : Nat) (unused : Int) (face : Nat) (more : List Int)

/-- A TFM file: words as signed numbers. -/
structure Contents where
  checksum : Int
  designsize : Int
  tail : Tail
  bc : Nat
  infos : List Nat
  width : List Int
  height : List Int
  depth : List Int
  italic : List Int
  ligKern : List Int
  kern : List Int
  exten : List Int
  param : List Int

def words (l : List Int) : List Nat := l.flatMap (putS 4)

/-- The number of words. -/
def Tail.size : Tail → Nat
  | .none => 0
  | .coding _ => 10
  | .family _ _ => 15
  | .face _ _ _ _ _ more => 16 + more.length

def Tail.bytes : Tail → List Nat
  | .none => []
  | .coding c => c.bytes
  | .family c f => c.bytes ++ f.bytes
  | .face c f s u b more => c.bytes ++ (f.bytes ++ (put 1 s ++ (putS 2 u ++ (put 1 b ++ words more))))

/-- The length of the file in words. -/
def Contents.size (T : Contents) : Nat :=
  6 + (2 + T.tail.size) + T.infos.length + T.width.length + T.height.length + T.depth.length + T.italic.length + T.ligKern.length + T.kern.length + T.exten.length + T.param.length

/-- The numbers at the beginning. -/
def Contents.numbers (T : Contents) : List Nat :=
  [T.size, 2 + T.tail.size, T.bc, T.bc + T.infos.length - 1, T.width.length, T.height.length, T.depth.length, T.italic.length, T.ligKern.length, T.kern.length, T.exten.length,
    T.param.length]

/-- The bytes of the tables. -/
def Contents.tableBytes (T : Contents) : List Nat :=
  words (T.infos.map signed) ++ (words T.width ++ (words T.height ++ (words T.depth ++ (words T.italic ++ (words T.ligKern ++ (words T.kern ++ (words T.exten ++ words T.param)))))))

/-- The bytes of the header. -/
def Contents.headerBytes (T : Contents) : List Nat := putS 4 T.checksum ++ (putS 4 T.designsize ++ T.tail.bytes)

def Contents.preBytes (T : Contents) : List Nat := T.numbers.flatMap fun n : Nat => putS 2 (n : Int)

/-- The bytes of the file. -/
def encode (T : Contents) : List Nat := T.preBytes ++ (T.headerBytes ++ T.tableBytes)

def Word (x : Int) : Prop := -2 ^ 31 ≤ x ∧ x < 2 ^ 31

def Str.OK (n : Nat) (s : Str) : Prop := s.chars.length + s.pad.length + 1 = n

def Tail.OK : Tail → Prop
  | .none => True
  | .coding c => c.OK 40
  | .family c f => c.OK 40 ∧ f.OK 20
  | .face c f s u b more => c.OK 40 ∧ f.OK 20 ∧ s < 256 ∧ (-2 ^ 15 ≤ u ∧ u < 2 ^ 15) ∧ b < 256 ∧ ∀ x ∈ more, Word x

/-- What the format demands (as far as sizes are concerned). -/
structure Contents.OK (T : Contents) : Prop where
  size : T.size < 2 ^ 15
  checksum : Word T.checksum
  designsize : Word T.designsize
  positive : 0 < T.designsize
  tail : T.tail.OK
  first : 0 < T.bc + T.infos.length
  last : T.bc + T.infos.length ≤ 256
  infos : ∀ u ∈ T.infos, u < 2 ^ 32
  width : ∀ x ∈ T.width, Word x
  height : ∀ x ∈ T.height, Word x
  depth : ∀ x ∈ T.depth, Word x
  italic : ∀ x ∈ T.italic, Word x
  ligKern : ∀ x ∈ T.ligKern, Word x
  kern : ∀ x ∈ T.kern, Word x
  exten : ∀ x ∈ T.exten, Word x
  param : ∀ x ∈ T.param, Word x
  extens : T.exten.length ≤ 256

/-! ## What is expected -/

/-- The face as `TFtoPL` prints it: weight, slope, expansion. -/
def faceName (f : Nat) : Option (List Char) :=
  if f < 18 then some ["MBL".toList[f / 2 % 3]!, "RI".toList[f % 2]!, "RCE".toList[f / 6]!] else Option.none

def Tail.coding? : Tail → Option (List Nat)
  | .none => Option.none
  | .coding c | .family c _ | .face c _ _ _ _ _ => some c.chars

def Tail.family? : Tail → Option (List Nat)
  | .none | .coding _ => Option.none
  | .family _ f | .face _ f _ _ _ _ => some f.chars

def Tail.safe? : Tail → Option Nat
  | .face _ _ s _ _ _ => some s
  | _ => Option.none

def Tail.face? : Tail → Option (List Char)
  | .face _ _ _ _ b _ => faceName b
  | _ => Option.none

/-- What is printed. -/
def Tail.printed? : Tail → Option (List Nat)
  | .face _ _ _ _ _ more => if more = [] then Option.none else some (words more)
  | _ => Option.none

def Contents.header (T : Contents) : Header :=
  ⟨T.checksum, T.designsize, T.tail.coding?, T.tail.family?, T.tail.safe?, T.tail.face?, T.tail.printed?⟩

/-- The character with code `c`: the fields of its word, if there is one with a width. -/
def Contents.char (T : Contents) (c : Nat) : Option CharInfo :=
  if T.bc ≤ c then
    match T.infos[c - T.bc]? with
    | some u => if byte u 0 = 0 then Option.none else some (fields u)
    | Option.none => Option.none
  else Option.none

/-! ## Readers -/

theorem andThen_some {α β : Type} {r : Rd α} {k : α → Rd β} {s s' : List Nat} {v : α} (h : r s = some (v, s')) : andThen r k s = k v s' := by
  unfold andThen; rw [h]

theorem many_flatMap {α β : Type} (r : Rd β) (f : α → List Nat) (g : α → β) (l : List α) (h : ∀ x ∈ l, ∀ rest, r (f x ++ rest) = some (g x, rest)) (rest : List Nat) :
    many r l.length (l.flatMap f ++ rest) = some (l.map g, rest) := by
  induction l with
  | nil => rfl
  | cons x l ih =>
    rw [List.length_cons, many, List.flatMap_cons, List.append_assoc, andThen_some (h x (by simp) _), andThen_some (ih fun y hy => h y (by simp [hy]))]
    rfl

theorem many_words (l : List Int) (h : ∀ x ∈ l, Word x) (rest : List Nat) : many (readS 4) l.length (words l ++ rest) = some (l, rest) := by
  have := many_flatMap (readS 4) (putS 4) id l (fun x hx rest => Reader.readS_putS 4 (by decide) x (h x hx).1 (h x hx).2 rest) rest
  rwa [List.map_id] at this

theorem signed_word {u : Nat} (h : u < 2 ^ 32) : Word (signed u) := by
  unfold signed Word
  split <;> omega

/-! ## The parts -/

theorem pre_numbers {T : Contents} (h : T.OK) (rest : List Nat) :
    pre (T.preBytes ++ rest) =
      some (⟨T.size, 2 + T.tail.size, T.bc, T.bc + T.infos.length - 1, T.width.length, T.height.length, T.depth.length, T.italic.length, T.ligKern.length, T.kern.length,
        T.exten.length, T.param.length⟩, rest) := by
  have hs := h.size
  have h1 := h.first
  have h2 := h.last
  have h3 := h.extens
  have hn : ∀ n ∈ T.numbers, n < 2 ^ 15 := by
    intro n hn
    simp only [Contents.size] at hs
    simp only [Contents.numbers, Contents.size, List.mem_cons, List.not_mem_nil, or_false] at hn
    omega
  have hm := many_flatMap (readS 2) (fun n : Nat => putS 2 (n : Int)) (fun n => (n : Int)) T.numbers (fun n hn' rest =>
    Reader.readS_putS 2 (by decide) n (by omega) (by have := hn n hn'; omega) rest) rest
  replace hm : many (readS 2) 12 (T.preBytes ++ rest) = some (T.numbers.map fun n : Nat => (n : Int), rest) := hm
  unfold pre
  rw [andThen_some (v := T.numbers.map fun n : Nat => (n : Int)) (s' := rest) hm]
  rw [if_pos (by simp [List.all_eq_true])]
  rw [List.map_map, show (Int.toNat ∘ fun n : Nat => (n : Int)) = id from rfl, List.map_id]
  unfold Contents.numbers
  dsimp only
  rw [if_pos]
  · rfl
  · simp only [Pre.ok, Bool.and_eq_true, decide_eq_true_eq]
    refine ⟨⟨⟨?_, ?_⟩, ?_⟩, ?_⟩
    · omega
    · omega
    · exact h3
    · unfold Contents.size; omega

theorem readstring_str {n : Nat} {s : Str} (h : s.OK n) (hn : n ≤ 256) (rest : List Nat) : readstring n (s.bytes ++ rest) = some (s.chars, rest) := by
  unfold Str.OK at h
  exact Reader.readstring_field n s.chars s.pad rest (by omega) (by omega)

theorem face_name (f : Nat) : face f = faceName f := by
  by_cases h : f < 18
  · interval_cases f <;> rfl
  · unfold face faceName
    rw [if_neg h, if_neg h]

theorem words_length (l : List Int) : (words l).length = l.length * 4 := by
  induction l with
  | nil => rfl
  | cons x l ih =>
    unfold words at ih ⊢
    rw [List.flatMap_cons, List.length_append, ih, List.length_cons, putS, Reader.put_length]; omega

theorem header_tail {T : Contents} (h : T.OK) (rest : List Nat) : header (2 + T.tail.size) (T.headerBytes ++ rest) = some (T.header, rest) := by
  have ht := h.tail
  unfold header Contents.headerBytes Contents.header
  rw [List.append_assoc, List.append_assoc, andThen_some (Reader.readS_putS 4 (by decide) _ h.checksum.1 h.checksum.2 _),
    andThen_some (Reader.readS_putS 4 (by decide) _ h.designsize.1 h.designsize.2 _)]
  simp only [h.positive, gt_iff_lt, if_true]
  cases hT : T.tail with
  | none => rfl
  | coding c =>
    rw [hT] at ht
    have e1 : field (2 + (Tail.coding c).size) 2 11 40 = andThen (readstring 40) fun v => ret (some v) := rfl
    rw [e1, Tail.bytes, andThen_some (v := some c.chars) (s' := rest)]
    · rfl
    · rw [andThen_some (readstring_str (s := c) ht (by decide) rest)]; rfl
  | family c f =>
    rw [hT] at ht
    have e1 : field (2 + (Tail.family c f).size) 2 11 40 = andThen (readstring 40) fun v => ret (some v) := rfl
    have e2 : field (2 + (Tail.family c f).size) 12 16 20 = andThen (readstring 20) fun v => ret (some v) := rfl
    rw [e1, e2, Tail.bytes, List.append_assoc, andThen_some (v := some c.chars) (s' := f.bytes ++ rest), andThen_some (v := some f.chars) (s' := rest)]
    · rfl
    · rw [andThen_some (readstring_str (s := f) ht.2 (by decide) rest)]; rfl
    · rw [andThen_some (readstring_str (s := c) ht.1 (by decide) _)]; rfl
  | face c f s u b m =>
    rw [hT] at ht
    obtain ⟨h1, h2, h3, h4, h5, h6⟩ := ht
    have e1 : field (2 + (Tail.face c f s u b m).size) 2 11 40 = andThen (readstring 40) fun v => ret (some v) := by
      unfold field; rw [if_pos (by simp only [Tail.size]; omega), if_pos (by simp only [Tail.size]; omega)]
    have e2 : field (2 + (Tail.face c f s u b m).size) 12 16 20 = andThen (readstring 20) fun v => ret (some v) := by
      unfold field; rw [if_pos (by simp only [Tail.size]; omega), if_pos (by simp only [Tail.size]; omega)]
    rw [e1, e2]
    simp only [Tail.bytes, List.append_assoc]
    rw [andThen_some (v := some c.chars) (s' := f.bytes ++ (put 1 s ++ (putS 2 u ++ (put 1 b ++ (words m ++ rest))))),
      andThen_some (v := some f.chars) (s' := put 1 s ++ (putS 2 u ++ (put 1 b ++ (words m ++ rest)))), andThen_some (v := (some s, face b)) (s' := words m ++ rest)]
    · unfold more
      by_cases hm : m = []
      · subst hm
        rw [if_neg (by simp [Tail.size]), andThen_some (v := Option.none) (s' := rest) rfl]
        simp only [Tail.coding?, Tail.family?, Tail.safe?, Tail.face?, Tail.printed?, face_name, if_true, ret]
      · have hl : 0 < m.length := List.length_pos_iff.mpr hm
        have hlen : (2 + (Tail.face c f s u b m).size - 18) * 4 = (words m).length := by
          rw [words_length, Tail.size]; congr 1; omega
        rw [if_pos (by simp only [Tail.size]; omega)]
        rw [andThen_some (v := some (words m)) (s' := rest) (by
          simp only [Reader.read]
          rw [hlen, List.take_left, List.drop_left])]
        simp only [Tail.coding?, Tail.family?, Tail.safe?, Tail.face?, Tail.printed?, face_name, if_neg hm, ret]
    · unfold faceWord
      rw [if_pos (by simp only [Tail.size]; omega), andThen_some (Reader.readU_put 1 s (by omega) _), andThen_some (Reader.readS_putS 2 (by decide) u (by omega) (by omega) _),
        andThen_some (Reader.readU_put 1 b (by omega) _)]
      rfl
    · rw [andThen_some (readstring_str (s := f) h2 (by decide) _)]; rfl
    · rw [andThen_some (readstring_str (s := c) h1 (by decide) _)]; rfl

theorem tables_read {T : Contents} (h : T.OK) {p : Pre} (hp : p = ⟨T.size, 2 + T.tail.size, T.bc, T.bc + T.infos.length - 1, T.width.length, T.height.length, T.depth.length, T.italic.length,
      T.ligKern.length, T.kern.length, T.exten.length, T.param.length⟩) (hd : Header) (rest : List Nat) :
    tables p hd (T.tableBytes ++ rest) =
      some (⟨p, hd, List.replicate T.bc Option.none ++ (T.infos.map signed).map enabled, T.width, T.height, T.depth, T.italic, T.ligKern, T.kern, T.exten, T.param⟩, rest) := by
  subst hp
  have h1 := h.first
  unfold tables Contents.tableBytes
  simp only [List.append_assoc]
  have hl : T.bc + T.infos.length - 1 + 1 - T.bc = (T.infos.map signed).length := by rw [List.length_map]; omega
  rw [hl, andThen_some (many_words _ (by
      intro x hx
      obtain ⟨u, hu, rfl⟩ := List.mem_map.mp hx
      exact signed_word (h.infos u hu)) _), andThen_some (many_words _ h.width _), andThen_some (many_words _ h.height _), andThen_some (many_words _ h.depth _),
    andThen_some (many_words _ h.italic _), andThen_some (many_words _ h.ligKern _), andThen_some (many_words _ h.kern _), andThen_some (many_words _ h.exten _),
    andThen_some (many_words _ h.param _)]
  rfl

/-! ## The file -/

/-- The characters of a file as they are read. -/
def Contents.chars (T : Contents) : List (Option CharInfo) := List.replicate T.bc Option.none ++ (T.infos.map signed).map enabled

/-- **C155.** Every TFM file is read completely: the header and all tables are those of the file. -/
theorem tfm_read {T : Contents} (h : T.OK) (rest : List Nat) : ∃ p, tfmfile (encode T ++ rest) =
    some (⟨p, T.header, T.chars, T.width, T.height, T.depth, T.italic, T.ligKern, T.kern, T.exten, T.param⟩, rest) := by
  refine ⟨⟨T.size, 2 + T.tail.size, T.bc, T.bc + T.infos.length - 1, T.width.length, T.height.length, T.depth.length, T.italic.length, T.ligKern.length, T.kern.length,
    T.exten.length, T.param.length⟩, ?_⟩
  unfold tfmfile encode
  rw [List.append_assoc, List.append_assoc, andThen_some (pre_numbers h _)]
  dsimp only
  rw [andThen_some (header_tail h _), tables_read h rfl]
  rfl

theorem enabled_signed {u : Nat} (h : u < 2 ^ 32) : enabled (signed u) = if byte u 0 = 0 then Option.none else some (fields u) := by
  unfold enabled
  rw [charInfo_fields u h]
  have : (fields u).width = (byte u 0 : Int) := rfl
  rw [this]
  by_cases hb : byte u 0 = 0
  · rw [if_pos (by omega), if_pos hb]
  · rw [if_neg (by omega), if_neg hb]

/-- The characters. -/
theorem chars_get {T : Contents} (h : T.OK) (c : Nat) : (T.chars[c]?).getD Option.none = T.char c := by
  unfold Contents.chars Contents.char
  by_cases hc : T.bc ≤ c
  · rw [if_pos hc, List.getElem?_append_right (by simpa using hc), List.length_replicate, List.getElem?_map, List.getElem?_map]
    cases hi : T.infos[c - T.bc]? with
    | none => rfl
    | some u =>
      simp only [Option.map_some, Option.getD_some]
      exact enabled_signed (h.infos u (List.mem_of_getElem? hi))
  · rw [if_neg hc, List.getElem?_append_left (by simp; omega), List.getElem?_replicate]
    split <;> rfl

/-- **C155.** The dimensions of a character are the entries of the tables to which its word points; characters which are not in the font are errors. -/
theorem tfm_dims {T : Contents} (h : T.OK) {t : TFM} {rest r : List Nat} (ht : tfmfile (encode T ++ rest) = some (t, r)) (c : Nat) :
    match T.char c with
    | some i => dim t TFM.width CharInfo.width c = T.width[i.width.toNat]? ∧ dim t TFM.height CharInfo.height c = T.height[i.height.toNat]? ∧
        dim t TFM.depth CharInfo.depth c = T.depth[i.depth.toNat]? ∧ dim t TFM.italic CharInfo.italic c = T.italic[i.italic.toNat]?
    | Option.none => dim t TFM.width CharInfo.width c = Option.none ∧ dim t TFM.height CharInfo.height c = Option.none ∧
        dim t TFM.depth CharInfo.depth c = Option.none ∧ dim t TFM.italic CharInfo.italic c = Option.none := by
  obtain ⟨p, hp⟩ := tfm_read h rest
  rw [hp] at ht
  cases ht
  have hc := chars_get h c
  unfold dim
  dsimp only
  cases hg : T.chars[c]? with
  | none => rw [hg] at hc; rw [← hc]; exact ⟨rfl, rfl, rfl, rfl⟩
  | some o =>
    rw [hg] at hc
    rw [← hc]
    cases o with
    | none => exact ⟨rfl, rfl, rfl, rfl⟩
    | some i => exact ⟨rfl, rfl, rfl, rfl⟩

/-- **C155, violated.** Headers with more words than named ones are printed to the standard output while the font is loaded. -/
theorem tfm_prints {T : Contents} (h : T.OK) {t : TFM} {rest r : List Nat} (ht : tfmfile (encode T ++ rest) = some (t, r)) :
    t.header.printed.isSome ↔ 16 < T.tail.size := by
  obtain ⟨p, hp⟩ := tfm_read h rest
  rw [hp] at ht
  cases ht
  unfold Contents.header
  dsimp only
  cases T.tail with
  | none => simp [Tail.printed?, Tail.size]
  | coding c => simp [Tail.printed?, Tail.size]
  | family c f => simp [Tail.printed?, Tail.size]
  | face c f s u b m =>
    cases m with
    | nil => simp [Tail.printed?, Tail.size]
    | cons x m => simp [Tail.printed?, Tail.size]

/-- **C155, violated.** The format allows headers of any length from two words on; those of 3 to 11 and of 13 to 16 words are refused. -/
theorem tfm_header_refused (lh : Nat) (h : (2 < lh ∧ lh ≤ 11) ∨ (12 < lh ∧ lh ≤ 16)) (s : List Nat) : header lh s = none := by
  have hf : ∀ s, field lh 2 11 40 s = none ∨ ∀ s, field lh 12 16 20 s = none := by
    intro s
    unfold field
    rw [if_pos (by omega)]
    by_cases h1 : lh > 11
    · right; intro s; rw [if_pos (by omega), if_neg (by omega)]; rfl
    · left; rw [if_neg h1]; rfl
  unfold header andThen
  cases readS 4 s with
  | none => rfl
  | some v =>
    dsimp only
    cases readS 4 v.2 with
    | none => rfl
    | some w =>
      dsimp only
      by_cases hw : w.1 > 0
      · rw [if_pos hw]
        rcases hf w.2 with h1 | h1
        · simp only [h1]
        · cases field lh 2 11 40 w.2 with
          | none => rfl
          | some x => simp only [h1]
      · rw [if_neg hw]; rfl

/-! ## Fonts -/

/-- The check sum as the format sees it: four bytes. -/
def unsigned (x : Int) : Int := x % 2 ^ 32

/-- **C155.** Fonts are accepted if check sum and design size agree. -/
theorem font_accepted (t : TFM) (d : Int) (hd : t.header.designsize = d) (h0 : 0 < d) (h1 : d ≤ 2 ^ 27) : agrees t t.header.checksum d = true := by
  unfold agrees
  simp only [hd]
  simp
  omega

/-- Fonts with different check sums, both less than 2^31 and not zero, are refused. -/
theorem font_refused (t : TFM) (c d : Int) (h : t.header.checksum ≠ c) (h0 : 0 < t.header.checksum) (h1 : 0 < c) : agrees t c d = false := by
  unfold agrees
  simp [h, h0, h1]

/-- **C155, violated.** If the first bit of one of the check sums is set, they are not compared. -/
theorem checksum_ignored (t : TFM) (c d : Int) (hd : t.header.designsize = d) (h0 : 0 < d) (h1 : d ≤ 2 ^ 27) (h : t.header.checksum < 0 ∨ c < 0) : agrees t c d = true := by
  unfold agrees
  simp only [hd]
  simp
  omega

/-! ## Truncated files -/

/-- More bytes make no difference. -/
def Exact {α : Type} (r : Rd α) : Prop := ∀ s v t u, r s = some (v, t) → r (s ++ u) = some (v, t ++ u)

/-- The same, unless the end of the file was reached. -/
def Almost {α : Type} (r : Rd α) : Prop := ∀ s v t u, r s = some (v, t) → t = [] ∨ r (s ++ u) = some (v, t ++ u)

/-- At the end of the file there is nothing. -/
def Ended {α : Type} (r : Rd α) : Prop := ∀ v t, r [] = some (v, t) → t = []

theorem Exact.almost {α : Type} {r : Rd α} (h : Exact r) : Almost r := fun s v t u hs => Or.inr (h s v t u hs)

theorem exact_ret {α : Type} (v : α) : Exact (ret v) := by
  intro s w t u h
  cases h
  rfl

theorem exact_fail {α : Type} : Exact (fail : Rd α) := by
  intro s w t u h
  cases h

theorem ended_ret {α : Type} (v : α) : Ended (ret v) := by
  intro w t h
  cases h
  rfl

theorem ended_fail {α : Type} : Ended (fail : Rd α) := by
  intro w t h
  cases h

theorem Exact.andThen {α β : Type} {r : Rd α} {k : α → Rd β} (hr : Exact r) (hk : ∀ v, Exact (k v)) : Exact (andThen r k) := by
  intro s v t u h
  unfold Tfm.andThen at h ⊢
  cases hs : r s with
  | none => rw [hs] at h; cases h
  | some x =>
    rw [hs] at h
    rw [hr s x.1 x.2 u hs]
    exact hk _ _ _ _ _ h

theorem Almost.andThen {α β : Type} {r : Rd α} {k : α → Rd β} (hr : Almost r) (hk : ∀ v, Almost (k v)) (he : ∀ v, Ended (k v)) : Almost (andThen r k) := by
  intro s v t u h
  unfold Tfm.andThen at h ⊢
  cases hs : r s with
  | none => rw [hs] at h; cases h
  | some x =>
    rw [hs] at h
    dsimp only at h
    rcases hr s x.1 x.2 u hs with h1 | h1
    · rw [h1] at h
      exact Or.inl (he _ _ _ h)
    · rw [h1]
      exact hk _ _ _ _ _ h

theorem Ended.andThen {α β : Type} {r : Rd α} {k : α → Rd β} (hr : Ended r) (hk : ∀ v, Ended (k v)) : Ended (andThen r k) := by
  intro v t h
  unfold Tfm.andThen at h
  cases hs : r [] with
  | none => rw [hs] at h; cases h
  | some x =>
    rw [hs] at h
    dsimp only at h
    rw [hr x.1 x.2 hs] at h
    exact hk _ _ _ h

theorem exact_readS (k : Nat) : Exact (readS k) := by
  intro s v t u h
  unfold readS Reader.read at h ⊢
  dsimp only at h ⊢
  by_cases hl : (s.take k).length = k
  · rw [if_pos hl] at h
    cases h
    have hk : k ≤ s.length := by rw [List.length_take] at hl; omega
    rw [List.take_append_of_le_length hk, List.drop_append_of_le_length hk, if_pos hl]
  · rw [if_neg hl] at h; cases h

theorem exact_readU (k : Nat) : Exact (readU k) := by
  intro s v t u h
  unfold readU Reader.read at h ⊢
  dsimp only at h ⊢
  by_cases hl : (s.take k).length = k
  · rw [if_pos hl] at h
    cases h
    have hk : k ≤ s.length := by rw [List.length_take] at hl; omega
    rw [List.take_append_of_le_length hk, List.drop_append_of_le_length hk, if_pos hl]
  · rw [if_neg hl] at h; cases h

theorem none_readS {k : Nat} (hk : 0 < k) : readS k [] = none := by
  unfold readS Reader.read
  simp
  omega

theorem none_readU {k : Nat} (hk : 0 < k) : readU k [] = none := by
  unfold readU Reader.read
  simp
  omega

theorem ended_readS {k : Nat} (hk : 0 < k) : Ended (readS k) := by
  intro v t h
  rw [none_readS hk] at h; cases h

theorem ended_readU {k : Nat} (hk : 0 < k) : Ended (readU k) := by
  intro v t h
  rw [none_readU hk] at h; cases h

theorem almost_readstring (n : Nat) : Almost (readstring n) := by
  intro s v t u h
  unfold readstring at h ⊢
  cases hs : readU 1 s with
  | none => rw [hs] at h; cases h
  | some x =>
    rw [hs] at h
    rw [exact_readU 1 s x.1 x.2 u hs]
    dsimp only at h ⊢
    by_cases hl : x.1 ≤ n - 1
    · rw [if_pos hl] at h ⊢
      simp only [Reader.read] at h ⊢
      cases h
      by_cases hk : n - 1 ≤ x.2.length
      · right
        rw [List.take_append_of_le_length hk, List.drop_append_of_le_length hk]
      · left
        rw [List.drop_eq_nil_iff]; omega
    · rw [if_neg hl] at h; cases h

theorem ended_readstring (n : Nat) : Ended (readstring n) := by
  intro v t h
  unfold readstring at h
  rw [none_readU (by decide)] at h
  cases h

theorem exact_many {α : Type} {r : Rd α} (h : Exact r) : ∀ n, Exact (many r n)
  | 0 => exact_ret _
  | n + 1 => h.andThen fun _ => (exact_many h n).andThen fun _ => exact_ret _

theorem almost_field (lh a b n : Nat) : Almost (field lh a b n) := by
  unfold field
  split
  · split
    · exact (almost_readstring n).andThen (fun _ => (exact_ret _).almost) (fun _ => ended_ret _)
    · exact exact_fail.almost
  · exact (exact_ret _).almost

theorem ended_field (lh a b n : Nat) : Ended (field lh a b n) := by
  unfold field
  split
  · split
    · exact (ended_readstring n).andThen (fun _ => ended_ret _)
    · exact ended_fail
  · exact ended_ret _

theorem exact_faceWord (lh : Nat) : Exact (faceWord lh) := by
  unfold faceWord
  split
  · exact (exact_readU 1).andThen fun _ => (exact_readS 2).andThen fun _ => (exact_readU 1).andThen fun _ => exact_ret _
  · exact exact_ret _

theorem ended_faceWord (lh : Nat) : Ended (faceWord lh) := by
  unfold faceWord
  split
  · exact (ended_readU (by decide)).andThen fun _ => (ended_readS (by decide)).andThen fun _ => (ended_readU (by decide)).andThen fun _ => ended_ret _
  · exact ended_ret _

theorem almost_more (lh : Nat) : Almost (more lh) := by
  unfold more
  split
  · intro s v t u h
    simp only [Reader.read] at h ⊢
    cases h
    by_cases hk : (lh - 18) * 4 ≤ s.length
    · right
      rw [List.take_append_of_le_length hk, List.drop_append_of_le_length hk]
    · left
      rw [List.drop_eq_nil_iff]; omega
  · exact (exact_ret _).almost

theorem ended_more (lh : Nat) : Ended (more lh) := by
  unfold more
  split
  · intro v t h
    simp only [Reader.read] at h
    cases h
    rw [List.drop_nil]
  · exact ended_ret _

theorem almost_header (lh : Nat) : Almost (header lh) := by
  have hm : ∀ a b c d (e : Option Nat × Option (List Char)), Ended (andThen (more lh) fun m => ret (⟨a, b, c, d, e.1, e.2, m⟩ : Header)) := fun a b c d e => (ended_more lh).andThen fun _ => ended_ret _
  have h1 : ∀ a b c d, Ended (andThen (faceWord lh) fun e => andThen (more lh) fun m => ret (⟨a, b, c, d, e.1, e.2, m⟩ : Header)) :=
    fun a b c d => (ended_faceWord lh).andThen fun e => hm a b c d e
  have h2 : ∀ a b c, Ended (andThen (field lh 12 16 20) fun d => andThen (faceWord lh) fun e => andThen (more lh) fun m => ret (⟨a, b, c, d, e.1, e.2, m⟩ : Header)) :=
    fun a b c => (ended_field lh 12 16 20).andThen fun d => h1 a b c d
  have h3 : ∀ a b, Ended (andThen (field lh 2 11 40) fun c => andThen (field lh 12 16 20) fun d => andThen (faceWord lh) fun e => andThen (more lh) fun m => ret (⟨a, b, c, d, e.1, e.2, m⟩ : Header)) :=
    fun a b => (ended_field lh 2 11 40).andThen fun c => h2 a b c
  have h4 : ∀ a, Ended (andThen (readS 4) fun b => if b > 0 then andThen (field lh 2 11 40) fun c => andThen (field lh 12 16 20) fun d => andThen (faceWord lh) fun e => andThen (more lh)
      fun m => ret (⟨a, b, c, d, e.1, e.2, m⟩ : Header) else fail) := by
    intro a
    refine (ended_readS (by decide)).andThen fun b => ?_
    split
    · exact h3 a b
    · exact ended_fail
  unfold header
  refine (exact_readS 4).almost.andThen (fun a => ?_) h4
  refine (exact_readS 4).almost.andThen (fun b => ?_) (fun b => ?_)
  · split
    · refine (almost_field lh 2 11 40).andThen (fun c => ?_) (fun c => h2 a b c)
      refine (almost_field lh 12 16 20).andThen (fun d => ?_) (fun d => h1 a b c d)
      refine (exact_faceWord lh).almost.andThen (fun e => ?_) (fun e => hm a b c d e)
      exact (almost_more lh).andThen (fun m => (exact_ret _).almost) (fun m => ended_ret _)
    · exact exact_fail.almost
  · split
    · exact h3 a b
    · exact ended_fail

theorem exact_pre : Exact pre := by
  unfold pre
  refine (exact_many (exact_readS 2) 12).andThen fun l => ?_
  split
  · split
    · dsimp only
      split
      · exact exact_ret _
      · exact exact_fail
    · exact exact_fail
  · exact exact_fail

theorem exact_tables (p : Pre) (h : Header) : Exact (tables p h) := by
  unfold tables
  have hm : ∀ n, Exact (many (readS 4) n) := exact_many (exact_readS 4)
  exact (hm _).andThen fun _ => (hm _).andThen fun _ => (hm _).andThen fun _ => (hm _).andThen fun _ => (hm _).andThen fun _ => (hm _).andThen fun _ =>
    (hm _).andThen fun _ => (hm _).andThen fun _ => (hm _).andThen fun _ => exact_ret _

theorem many_nil {n : Nat} (h : 0 < n) : many (readS 4) n [] = none := by
  match n, h with
  | n + 1, _ =>
    rw [many]; unfold andThen
    rw [none_readS (by decide)]

theorem tables_nil (p : Pre) (h : Header) (hw : 0 < p.nw) : tables p h [] = none := by
  unfold tables andThen
  by_cases hc : 0 < p.ec + 1 - p.bc
  · rw [many_nil hc]
  · have : p.ec + 1 - p.bc = 0 := by omega
    rw [this, many]
    simp only [ret]
    rw [many_nil hw]

/-- **C155.** A truncated file is an error, wherever it ends. -/
theorem tfm_truncated {T : Contents} (h : T.OK) (hw : T.width ≠ []) (n : Nat) (hn : n < (encode T).length) : tfmfile ((encode T).take n) = none := by
  rw [Option.eq_none_iff_forall_not_mem]
  rintro ⟨t, r⟩ ht
  replace ht : tfmfile ((encode T).take n) = some (t, r) := ht
  have hd : (encode T).take n ++ (encode T).drop n = encode T := List.take_append_drop _ _
  have h0 : (encode T).drop n ≠ [] := by
    intro h; rw [List.drop_eq_nil_iff] at h; omega
  have hfull : ∃ p, tfmfile (encode T) = some (⟨p, T.header, T.chars, T.width, T.height, T.depth, T.italic, T.ligKern, T.kern, T.exten, T.param⟩, []) := by
    have := tfm_read h []
    rwa [List.append_nil] at this
  obtain ⟨q, hq⟩ := hfull
  suffices hx : tfmfile (encode T) = some (t, r ++ (encode T).drop n) by
    rw [hq] at hx
    injection hx with hx
    have := congrArg Prod.snd hx
    simp only at this
    exact h0 (List.append_eq_nil_iff.mp this.symm).2
  unfold tfmfile andThen at ht
  cases hp : pre ((encode T).take n) with
  | none => rw [hp] at ht; cases ht
  | some p =>
    rw [hp] at ht
    dsimp only at ht
    have hp' := exact_pre _ _ _ ((encode T).drop n) hp
    rw [hd] at hp'
    have hpre : p.1.nw = T.width.length := by
      have := pre_numbers h (T.headerBytes ++ T.tableBytes)
      rw [show T.preBytes ++ (T.headerBytes ++ T.tableBytes) = encode T from rfl, hp'] at this
      injection this with this
      rw [congrArg Prod.fst this]
    cases hh : header p.1.lh p.2 with
    | none => rw [hh] at ht; cases ht
    | some x =>
      rw [hh] at ht
      dsimp only at ht
      rcases almost_header _ _ _ _ ((encode T).drop n) hh with h1 | h1
      · rw [h1, tables_nil _ _ (by rw [hpre]; exact List.length_pos_iff.mpr hw)] at ht
        cases ht
      · unfold tfmfile andThen
        rw [hp']
        dsimp only
        rw [h1]
        exact exact_tables _ _ _ _ _ _ ht

/-! ## An example -/

/-- A font with one character. -/
def exFont : Contents where
  checksum := -5
  designsize := 10485760
  tail := .face ⟨[84, 88], List.replicate 37 0⟩ ⟨[67], List.replicate 18 0⟩ 0 0 3 [7]
  bc := 65
  infos := [0x01100000]
  width := [0, 524288]
  height := [0, 700000]
  depth := [0]
  italic := [0]
  ligKern := []
  kern := []
  exten := []
  param := [-1]

theorem ex_font : exFont.OK ∧ (encode exFont).length = 4 * 33 ∧ exFont.char 65 = some ⟨1, 1, 0, 0, 0, 0⟩ ∧ exFont.char 66 = Option.none ∧
    exFont.header = ⟨-5, 10485760, some [84, 88], some [67], some 0, some "BIR".toList, some [0, 0, 0, 7]⟩ := by
  refine ⟨?_, by decide +kernel, by decide +kernel, by decide +kernel, by decide +kernel⟩
  constructor
  all_goals first
    | decide +kernel
    | (simp only [exFont, Word, Tail.OK, Str.OK, List.mem_cons, List.not_mem_nil, or_false, forall_eq_or_imp, forall_eq, List.length_replicate, List.length_cons, List.length_nil]; norm_num)

end PyX.Tfm
