import Verif.Dvi.Decode
import Verif.Dvi.Props
import Verif.Reader.Props

/-!
# Property C29: every legal DVI command is accepted
-/

namespace PyX.Dvi
open PyX.Reader

/-- A signed number fits in `k` bytes. -/
def FitsS (k : Nat) (v : Int) : Prop := 1 ≤ k ∧ k ≤ 4 ∧ -2 ^ (8 * k - 1) ≤ v ∧ v < 2 ^ (8 * k - 1)

/-- A natural number fits in `k` bytes. -/
def FitsU (k : Nat) (v : Nat) : Prop := 1 ≤ k ∧ k ≤ 4 ∧ v < 2 ^ (8 * k)

/-- Font numbers: unsigned in up to three bytes, signed in four. -/
def FitsF (k : Nat) (v : Int) : Prop := (FitsU k v.toNat ∧ 0 ≤ v ∧ k ≤ 3) ∨ (FitsS k v ∧ k = 4)

/-- Storage of a font number. -/
def putF (k : Nat) (v : Int) : List Nat := putS k v

/-- The encodings of commands given by the DVI standard (opcode table of `DVItype`). -/
inductive Encodes : Cmd → List Nat → Prop
  | setCharN (c : Nat) : c ≤ 127 → Encodes (.setChar c) [c]
  | set (k c : Nat) : FitsU k c → Encodes (.setChar c) ((127 + k) :: put k c)
  | setRule (a b : Int) : FitsS 4 a → FitsS 4 b → Encodes (.setRule a b) (132 :: (putS 4 a ++ putS 4 b))
  | put (k c : Nat) : FitsU k c → Encodes (.putChar c) ((132 + k) :: Reader.put k c)
  | putRule (a b : Int) : FitsS 4 a → FitsS 4 b → Encodes (.putRule a b) (137 :: (putS 4 a ++ putS 4 b))
  | nop : Encodes .nop [138]
  | push : Encodes .push [141]
  | pop : Encodes .pop [142]
  | right (k : Nat) (b : Int) : FitsS k b → Encodes (.right b) ((142 + k) :: putS k b)
  | w0 : Encodes .w0 [147]
  | w (k : Nat) (b : Int) : FitsS k b → Encodes (.w b) ((147 + k) :: putS k b)
  | x0 : Encodes .x0 [152]
  | x (k : Nat) (b : Int) : FitsS k b → Encodes (.x b) ((152 + k) :: putS k b)
  | down (k : Nat) (b : Int) : FitsS k b → Encodes (.down b) ((156 + k) :: putS k b)
  | y0 : Encodes .y0 [161]
  | y (k : Nat) (b : Int) : FitsS k b → Encodes (.y b) ((161 + k) :: putS k b)
  | z0 : Encodes .z0 [166]
  | z (k : Nat) (b : Int) : FitsS k b → Encodes (.z b) ((166 + k) :: putS k b)
  | fntNum (n : Nat) : n ≤ 63 → Encodes (.fnt n) [171 + n]
  | fnt (k : Nat) (n : Int) : FitsF k n → Encodes (.fnt n) ((234 + k) :: putF k n)
  | special (k : Nat) (s : List Nat) : FitsU k s.length → Encodes (.special s) ((238 + k) :: (Reader.put k s.length ++ s))
  | fntdef (k : Nat) (n c q d : Int) (area name : List Nat) : FitsF k n → FitsS 4 c → FitsS 4 q → FitsS 4 d →
      area.length < 256 → name.length < 256 →
      Encodes (.fntdef n c q d (area ++ name))
        ((242 + k) :: (putF k n ++ putS 4 c ++ putS 4 q ++ putS 4 d ++ [area.length, name.length] ++ area ++ name))

/-- All strings of the command are ASCII. -/
def AsciiCmd : Cmd → Prop
  | .special s => ∀ b ∈ s, b < 128
  | .fntdef _ _ _ _ s => ∀ b ∈ s, b < 128
  | _ => True

theorem readint_fitsS {k : Nat} {v : Int} (h : FitsS k v) (rest : List Nat) :
    readint k true (putS k v ++ rest) = some (v, rest) := readint_putS k h.1 v h.2.2.1 h.2.2.2 rest

theorem readint_fitsU {k v : Nat} (h : FitsU k v) (rest : List Nat) :
    readint k false (put k v ++ rest) = some ((v : Int), rest) := readint_put k h.1 v h.2.2 rest

theorem readS4 {v : Int} (h : FitsS 4 v) (rest : List Nat) : readS 4 (putS 4 v ++ rest) = some (v, rest) :=
  readS_putS 4 h.1 v h.2.2.1 h.2.2.2 rest

theorem putS_nonneg {k : Nat} {v : Int} (h0 : 0 ≤ v) (h : v.toNat < 2 ^ (8 * k)) : putS k v = put k v.toNat := by
  unfold putS
  congr 2
  apply Int.emod_eq_of_lt h0
  have : ((2 ^ (8 * k) : Nat) : Int) = 2 ^ (8 * k) := by simp
  rw [← this]; omega

theorem readint_fnt {k : Nat} {v : Int} (h : FitsF k v) (rest : List Nat) :
    readint k (decide (k = 4)) (putF k v ++ rest) = some (v, rest) := by
  rcases h with ⟨h, h0, h3⟩ | ⟨h, rfl⟩
  · unfold putF
    rw [putS_nonneg h0 h.2.2, show decide (k = 4) = false by simp; omega, readint_fitsU h, Int.toNat_of_nonneg h0]
  · exact readint_fitsS h rest

theorem readFntNum_fits {k : Nat} {v : Int} (h : FitsF k v) (rest : List Nat) :
    readFntNum k (putF k v ++ rest) = some (v, rest) := by
  rcases h with ⟨h, h0, h3⟩ | ⟨h, rfl⟩
  · unfold putF readFntNum
    rw [putS_nonneg h0 h.2.2, if_neg (by omega), readU_put k _ h.2.2]
    simp [Int.toNat_of_nonneg h0]
  · exact readS4 h rest

theorem readAscii_append (s rest : List Nat) (h : ∀ b ∈ s, b < 128) :
    readAscii s.length (s ++ rest) = some (s, rest) := by
  simp [readAscii, Reader.read, ascii]
  exact h

theorem readU_byte (b : Nat) (rest : List Nat) : readU 1 (b :: rest) = some (b, rest) := by
  simp [readU, Reader.read, unpackU]

/-- C29 (decoding): from any encoding of a command of the DVI standard whose strings are ASCII, the decoder gets
exactly this command and leaves exactly the following bytes. -/
theorem decode_encodes {c : Cmd} {bs : List Nat} (h : Encodes c bs) (ha : AsciiCmd c) (rest : List Nat) :
    decode (bs ++ rest) = some (.cmd c, rest) := by
  cases h with
  | setCharN _ h => simp only [List.cons_append, List.nil_append, decode, decodeOp]; rw [if_neg (by omega), if_pos h]
  | set k _ h =>
    have h' := h; obtain ⟨h1, h2, -⟩ := h'
    have : k = 1 ∨ k = 2 ∨ k = 3 ∨ k = 4 := by omega
    rcases this with rfl | rfl | rfl | rfl <;>
      simp [decode, decodeOp, readint_fitsU h, rmap]
  | put k _ h =>
    have h' := h; obtain ⟨h1, h2, -⟩ := h'
    have : k = 1 ∨ k = 2 ∨ k = 3 ∨ k = 4 := by omega
    rcases this with rfl | rfl | rfl | rfl <;>
      simp [decode, decodeOp, readint_fitsU h, rmap]
  | setRule a b h1 h2 => simp [decode, decodeOp, read2, readS4 h1, readS4 h2]
  | putRule a b h1 h2 => simp [decode, decodeOp, read2, readS4 h1, readS4 h2]
  | nop | push | pop | w0 | x0 | y0 | z0 => simp [decode, decodeOp]
  | right k _ h | w k _ h | x k _ h | down k _ h | y k _ h | z k _ h =>
    have h' := h; obtain ⟨h1, h2, -⟩ := h'
    have : k = 1 ∨ k = 2 ∨ k = 3 ∨ k = 4 := by omega
    rcases this with rfl | rfl | rfl | rfl <;>
      simp [decode, decodeOp, readint_fitsS h, rmap]
  | fntNum n h =>
    simp only [List.cons_append, List.nil_append, decode, decodeOp]
    rw [if_neg (by omega), if_neg (by omega), if_neg (by omega), if_neg (by omega), if_neg (by omega),
      if_neg (by omega), if_neg (by omega), if_neg (by omega), if_neg (by omega), if_neg (by omega),
      if_neg (by omega), if_neg (by omega), if_neg (by omega), if_neg (by omega), if_neg (by omega),
      if_neg (by omega), if_neg (by omega), if_neg (by omega), if_neg (by omega), if_pos (by omega)]
    simp
  | fnt k _ h =>
    have h' : 1 ≤ k ∧ k ≤ 4 := by rcases h with ⟨h, -⟩ | ⟨h, -⟩ <;> exact ⟨h.1, h.2.1⟩
    have e := readint_fnt h rest
    have : k = 1 ∨ k = 2 ∨ k = 3 ∨ k = 4 := by omega
    rcases this with rfl | rfl | rfl | rfl <;> simp at e <;>
      simp [decode, decodeOp, e, rmap]
  | special k s h =>
    have h' := h; obtain ⟨h1, h2, -⟩ := h'
    have : k = 1 ∨ k = 2 ∨ k = 3 ∨ k = 4 := by omega
    rcases this with rfl | rfl | rfl | rfl <;>
      simp [decode, decodeOp, readSpecial, readint_fitsU h, readAscii_append s rest ha]
  | fntdef k n c q d area name h hc hq hd hl1 hl2 =>
    have h' : 1 ≤ k ∧ k ≤ 4 := by rcases h with ⟨h, -⟩ | ⟨h, -⟩ <;> exact ⟨h.1, h.2.1⟩
    have e := fun r => readFntNum_fits h r
    have ea := readAscii_append (area ++ name) rest ha
    simp only [List.length_append, List.append_assoc] at ea
    have : k = 1 ∨ k = 2 ∨ k = 3 ∨ k = 4 := by omega
    rcases this with rfl | rfl | rfl | rfl <;>
      simp [decode, decodeOp, readFntDef, e, readS4 hc, readS4 hq, readS4 hd, readU_byte, ea]

/-- Encoding of a sequence of commands. -/
inductive EncodesAll : List Cmd → List Nat → Prop
  | nil : EncodesAll [] []
  | cons {c cs b bs} : Encodes c b → EncodesAll cs bs → EncodesAll (c :: cs) (b ++ bs)

theorem encodes_ne {c : Cmd} {b : List Nat} (h : Encodes c b) : 0 < b.length := by cases h <;> simp

theorem decodeLoop_encodes {cs : List Cmd} {bs : List Nat} (h : EncodesAll cs bs) (ha : ∀ c ∈ cs, AsciiCmd c)
    (rest : List Nat) (fuel : Nat) (hf : bs.length < fuel) :
    decodeLoop fuel (bs ++ 140 :: rest) = some (cs, rest) := by
  induction h generalizing fuel with
  | nil =>
    obtain ⟨f, rfl⟩ : ∃ f, fuel = f + 1 := ⟨fuel - 1, by simp at hf; omega⟩
    simp [decodeLoop, decode, decodeOp]
  | cons hc hcs ih =>
    rename_i c cs b bs
    obtain ⟨f, rfl⟩ : ∃ f, fuel = f + 1 := ⟨fuel - 1, by omega⟩
    have hb := encodes_ne hc
    simp only [List.length_append] at hf
    rw [decodeLoop, List.append_assoc, decode_encodes hc (ha _ (by simp))]
    simp [ih (fun c hc => ha c (by simp [hc])) f (by omega), rmap]

/-- C29 (decoding of a page): the bytes of any sequence of commands, followed by `eop`. -/
theorem decodePage_encodes {cs : List Cmd} {bs : List Nat} (h : EncodesAll cs bs) (ha : ∀ c ∈ cs, AsciiCmd c)
    (rest : List Nat) : decodePage (bs ++ 140 :: rest) = some (cs, rest) :=
  decodeLoop_encodes h ha rest _ (by simp)

theorem decodeAll_encodes {cs : List Cmd} {bs : List Nat} (h : EncodesAll cs bs) (ha : ∀ c ∈ cs, AsciiCmd c) :
    decodeAll bs = some cs := by
  suffices ∀ fuel, bs.length ≤ fuel → decodeAllLoop fuel bs = some cs from this _ (Nat.le_refl _)
  induction h with
  | nil => intro fuel _; cases fuel <;> rfl
  | cons hc hcs ih =>
    rename_i c cs b bs
    intro fuel hf
    have hd := decode_encodes hc (ha _ (by simp)) bs
    cases b with
    | nil => exact absurd (encodes_ne hc) (by simp)
    | cons x b =>
      simp only [List.cons_append, List.length_cons, List.length_append] at hf hd ⊢
      obtain ⟨f, rfl⟩ : ∃ f, fuel = f + 1 := ⟨fuel - 1, by omega⟩
      simp only [decode] at hd
      simp only [decodeAllLoop, hd, ih (fun c hc => ha c (by simp [hc])) f (by omega), Option.map_some]

set_option linter.unusedSectionVars false
variable {K : Type} [Field K] [LinearOrder K] [IsStrictOrderedRing K]

/-- Reading a page from bytes. -/
def readpageBytes (env : Env K) (fonts : Int → Font K) (s : List Nat) : Option (List (Out K)) :=
  (decodePage s).bind fun p => readpage env fonts p.1

/-- Full claim C29: bytes of every page on which the DVI machine succeeds are accepted. -/
def AllAccepted (K : Type) [Field K] [LinearOrder K] [IsStrictOrderedRing K] : Prop :=
  ∀ (env : Env K) (fonts : Int → Font K) (cs : List Cmd) (bs rest : List Nat) (m : List (Mark K)),
    EncodesAll cs bs → spage env (some 0) fonts cs = some m →
    (readpageBytes env fonts (bs ++ 140 :: rest)).isSome

/-- C28/C29, partial: the bytes of every page that uses only ordinary fonts, contains no `nop` and only ASCII strings are
accepted, and the marks are those of the DVI machine. -/
theorem readpageBytes_partial (env : Env K) (fonts : Int → Font K)
    (hv : ∀ n, fonts n = .missing ∨ ∃ id, fonts n = .real id) (cs : List Cmd) (bs rest : List Nat)
    (hb : EncodesAll cs bs) (ha : ∀ c ∈ cs, AsciiCmd c) (hn : ∀ x ∈ cs, isNop x = false) (m : List (Mark K))
    (h : spage env (some 0) fonts cs = some m) :
    ∃ o, readpageBytes env fonts (bs ++ 140 :: rest) = some o ∧ expandAll env o = m := by
  obtain ⟨o, ho, hm⟩ := readpage_refines_novirt env fonts hv cs hn m h
  exact ⟨o, by simp [readpageBytes, decodePage_encodes hb ha, ho], hm⟩

/-- Finding: `nop` on a page raises `DVIError`, whatever the rest of the page. -/
theorem nop_rejected (env : Env K) (fonts : Int → Font K) (cs ds : List Cmd) :
    readpage env fonts (cs ++ .nop :: ds) = none := by
  unfold readpage
  rw [List.foldlM_append]
  cases h : List.foldlM (m := Option) (step env fonts 1 fun n => putchar env (fonts n))
    { pos := ⟨0, 0, 0, 0, 0, 0⟩, stack := [], active := none, font := none, fontid := none, out := [] } cs <;>
    simp [step]

/-- Finding: a special with a byte above 127 raises `UnicodeDecodeError`. -/
theorem special_nonascii_rejected (k : Nat) (s rest : List Nat) (h : FitsU k s.length) (hs : ∃ b ∈ s, 128 ≤ b) :
    decode ((238 + k) :: (put k s.length ++ s ++ rest)) = none := by
  have h' := h; obtain ⟨h1, h2, -⟩ := h'
  have e : readAscii s.length (s ++ rest) = none := by
    obtain ⟨b, hb, hb'⟩ := hs
    simp only [readAscii, Reader.read, ascii, List.take_left, Option.map_eq_none_iff]
    rw [if_neg]
    simp only [List.all_eq_true, decide_eq_true_eq]
    intro hh; have := hh b hb; omega
  have : k = 1 ∨ k = 2 ∨ k = 3 ∨ k = 4 := by omega
  rcases this with rfl | rfl | rfl | rfl <;>
    simp [decode, decodeOp, readSpecial, readint_fitsU h, e]

theorem all_accepted_fails : ¬ AllAccepted ℚ := by
  intro h
  have := h exEnv (fun _ => .missing) [.nop] [138] [] [] (.cons .nop .nil) (by decide +kernel)
  revert this; decide +kernel

/-- Concrete page: `fnt_num_3`, `set_char_65`, `right2 -300`, `special "PyX:x"`, `eop`. -/
example : EncodesAll [.fnt 3, .setChar 65, .right (-300), .special [80, 121, 88, 58, 120]]
    ([174] ++ ([65] ++ ((144 :: putS 2 (-300)) ++ ((239 :: (put 1 5 ++ [80, 121, 88, 58, 120])) ++ [])))) :=
  .cons (.fntNum 3 (by decide)) (.cons (.setCharN 65 (by decide)) (.cons (.right 2 _ (by unfold FitsS; decide))
    (.cons (.special 1 [80, 121, 88, 58, 120] (by unfold FitsU; decide)) .nil)))

example : (readpageBytes exEnv (fun n => if n = 3 then .real 9 else .missing)
    [174, 65, 144, 254, 212, 239, 5, 80, 121, 88, 58, 120, 140]) =
      some [.text 9 0 0 [65], .special [80, 121, 88, 58, 120] (-297) 0] := by decide +kernel

end PyX.Dvi
