import Mathlib.Tactic.Common
import Verif.T1.Pfb

/-!
# Property C24: PFB container (and C65: hexadecimal PFA body)
-/

namespace PyX.Pfb

/-! ## Specification of the PFB format -/

/-- Little-endian four byte length. -/
def le4 (n : Nat) : List Nat := [n % 256, n / 256 % 256, n / 65536 % 256, n / 16777216 % 256]

/-- A segment: marker 128, type, length, data. -/
def seg (kind : Nat) (d : List Nat) : List Nat := 128 :: kind :: le4 d.length ++ d

/-- A PFB file: clear text, binary segments, trailer text, end mark. -/
def pfb (d1 : List Nat) (bins : List (List Nat)) (d3 : List Nat) : List Nat :=
  seg 1 d1 ++ (bins.map (seg 2)).flatten ++ seg 1 d3 ++ [128, 3]

/-! ## Lemmas -/

theorem pfblength_le4 (n : Nat) (h : n < 2 ^ 32) : pfblength (le4 n) = some n := by
  simp only [pfblength, le4, Option.some.injEq]; omega

theorem block_append (d rest : List Nat) (h : d.length < 2 ^ 32) :
    block (le4 d.length ++ (d ++ rest)) = some (d, rest) := by
  have e : consume 4 (le4 d.length ++ (d ++ rest)) = (le4 d.length, d ++ rest) := by
    simp [consume, le4]
  simp only [block, e, pfblength_le4 _ h]
  simp [consume]

theorem block_sound {s d r : List Nat} (hb : ∀ b ∈ s, b < 256) (h : block s = some (d, r)) (hr : r ≠ []) :
    s = le4 d.length ++ d ++ r ∧ d.length < 2 ^ 32 := by
  match s, h with
  | a :: b :: c :: e :: s, h =>
    simp only [block, consume, List.take, List.drop, pfblength, Option.some.injEq, Prod.mk.injEq] at h
    have ha := hb a (by simp); have hbb := hb b (by simp); have hc := hb c (by simp); have he := hb e (by simp)
    generalize hn : a + b * 256 + c * 256 * 256 + e * 256 * 256 * 256 = n at h
    obtain ⟨h1, h2⟩ := h
    have hlen : n ≤ s.length := by
      apply Nat.le_of_not_lt
      intro hlt
      apply hr
      rw [← h2, List.drop_eq_nil_of_le (by omega)]
    have hd : d.length = n := by rw [← h1, List.length_take]; omega
    constructor
    · rw [hd]
      simp only [le4, List.cons_append, List.nil_append]
      rw [← h1, ← h2, List.take_append_drop]
      simp only [List.cons.injEq, and_true]
      omega
    · omega
  | [], h => simp [block, consume, pfblength] at h
  | [_], h => simp [block, consume, pfblength] at h
  | [_, _], h => simp [block, consume, pfblength] at h
  | [_, _, _], h => simp [block, consume, pfblength] at h

theorem binLoop_complete (acc : List Nat) (d : List Nat) (bins : List (List Nat)) (k : Nat) (hk : k ≠ 2)
    (rest : List Nat) (h : ∀ b ∈ d :: bins, b.length < 2 ^ 32) :
    binLoop acc (le4 d.length ++ (d ++ ((bins.map (seg 2)).flatten ++ (128 :: k :: rest))))
      = some (acc ++ d ++ bins.flatten, [128, k], rest) := by
  induction bins generalizing acc d with
  | nil =>
    rw [binLoop]
    split
    · rename_i hn
      rw [block_append _ _ (h d (by simp))] at hn; cases hn
    · rename_i d' r hn
      rw [block_append _ _ (h d (by simp))] at hn
      simp only [Option.some.injEq, Prod.mk.injEq] at hn
      obtain ⟨rfl, rfl⟩ := hn
      simp [consume, hk]
  | cons b bins ih =>
    rw [binLoop]
    split
    · rename_i hn
      rw [block_append _ _ (h d (by simp))] at hn; cases hn
    · rename_i d' r hn
      rw [block_append _ _ (h d (by simp))] at hn
      simp only [Option.some.injEq, Prod.mk.injEq] at hn
      obtain ⟨rfl, rfl⟩ := hn
      have := ih (acc ++ d) b (fun x hx => h x (by simp at hx ⊢; right; exact hx))
      simp only [List.map_cons, List.flatten_cons, seg, List.cons_append, List.append_assoc, consume, List.take,
        List.drop, if_true] at this ⊢
      exact this

theorem binLoop_sound {acc s d2 mark r : List Nat} (hb : ∀ b ∈ s, b < 256)
    (h : binLoop acc s = some (d2, mark, r)) (hm : mark = [128, 1]) :
    ∃ d bins, d2 = acc ++ d ++ bins.flatten ∧
      s = le4 d.length ++ d ++ (bins.map (seg 2)).flatten ++ [128, 1] ++ r ∧ 
      ∀ x ∈ d :: bins, x.length < 2 ^ 32 := by
  fun_induction binLoop acc s with
  | case1 => cases h
  | case2 acc s d r1 hblk hmk ih =>
    simp only [consume] at hmk ih h
    have hr1 : r1 = 128 :: 2 :: r1.drop 2 := by
      conv => lhs; rw [← List.take_append_drop 2 r1, hmk]
      rfl
    generalize r1.drop 2 = r' at ih h hr1
    obtain ⟨e1, e2⟩ := block_sound hb hblk (by rw [hr1]; simp)
    have hb' : ∀ b ∈ r', b < 256 := by
      intro b hbm; apply hb; rw [e1, hr1]; simp [hbm]
    obtain ⟨d', bins, h1, h2, h3⟩ := ih hb' h
    refine ⟨d, d' :: bins, by rw [h1]; simp, ?_, ?_⟩
    · rw [e1, hr1, h2]; simp [seg]
    · intro x hx
      rcases List.mem_cons.1 hx with rfl | hx
      · exact e2
      · exact h3 x hx
  | case3 acc s d r1 hblk hmk =>
    simp only [consume, Option.some.injEq, Prod.mk.injEq] at h
    obtain ⟨rfl, rfl, rfl⟩ := h
    have hr1 : r1 = 128 :: 1 :: r1.drop 2 := by
      conv => lhs; rw [← List.take_append_drop 2 r1, hm]
      rfl
    obtain ⟨e1, e2⟩ := block_sound hb hblk (by rw [hr1]; simp)
    refine ⟨d, [], by simp, ?_, ?_⟩
    · rw [e1, hr1]; simp
    · intro x hx; simp at hx; rw [hx]; exact e2

/-! ## Property theorems -/

/-- C24: a well-formed PFB file with any number (at least one) of binary segments parses into its parts. -/
theorem fromPFB_complete (d1 d3 : List Nat) (bins : List (List Nat)) (hne : bins ≠ [])
    (h1 : d1.length < 2 ^ 32) (h3 : d3.length < 2 ^ 32) (h2 : ∀ b ∈ bins, b.length < 2 ^ 32) :
    fromPFB (pfb d1 bins d3) = some (sdecode d1, bins.flatten, sdecode d3) := by
  cases bins with
  | nil => exact absurd rfl hne
  | cons b bins =>
    have e1 := block_append d1 (128 :: 2 :: (le4 b.length ++ (b ++ ((bins.map (seg 2)).flatten ++
      (128 :: 1 :: (le4 d3.length ++ (d3 ++ [128, 3]))))))) h1
    have e2 := binLoop_complete [] b bins 1 (by omega) (le4 d3.length ++ (d3 ++ [128, 3])) h2
    have e3 := block_append d3 [128, 3] h3
    simp only [fromPFB, pfb, seg, List.map_cons, List.flatten_cons, List.cons_append, List.append_assoc, consume,
      List.take, List.drop, ne_eq, not_true, if_false, List.nil_append] at *
    simp only [e1, e2, e3, List.take, List.drop, not_true, if_false]

theorem consume_split (n : Nat) (s : List Nat) : (consume n s).1 ++ (consume n s).2 = s :=
  List.take_append_drop n s

/-- C24: conversely everything accepted is a well-formed PFB file, i.e. wrong markers, truncated segments and
trailing garbage are rejected. -/
theorem fromPFB_sound (s : List Nat) (hb : ∀ b ∈ s, b < 256) (c1 d2 c3 : List Nat)
    (h : fromPFB s = some (c1, d2, c3)) :
    ∃ d1 bins d3, bins ≠ [] ∧ s = pfb d1 bins d3 ∧ c1 = sdecode d1 ∧ d2 = bins.flatten ∧ c3 = sdecode d3 := by
  simp only [fromPFB] at h
  by_cases hm1 : (consume 2 s).1 = [128, 1]
  swap; · rw [if_pos hm1] at h; cases h
  rw [if_neg (not_not_intro hm1)] at h
  have hs : s = [128, 1] ++ (consume 2 s).2 := by rw [← hm1, consume_split]
  generalize (consume 2 s).2 = s1 at h hs
  cases hb1 : block s1 with
  | none => rw [hb1] at h; cases h
  | some p1 =>
  obtain ⟨d1, r1⟩ := p1
  simp only [hb1] at h
  by_cases hm2 : (consume 2 r1).1 = [128, 2]
  swap; · rw [if_pos hm2] at h; cases h
  rw [if_neg (not_not_intro hm2)] at h
  have hr1 : r1 = [128, 2] ++ (consume 2 r1).2 := by rw [← hm2, consume_split]
  generalize (consume 2 r1).2 = s2 at h hr1
  cases hb2 : binLoop [] s2 with
  | none => rw [hb2] at h; cases h
  | some p2 =>
  obtain ⟨d2', mark, r2⟩ := p2
  simp only [hb2] at h
  by_cases hm3 : mark = [128, 1]
  swap; · rw [if_pos hm3] at h; cases h
  rw [if_neg (not_not_intro hm3)] at h
  cases hb3 : block r2 with
  | none => rw [hb3] at h; cases h
  | some p3 =>
  obtain ⟨d3, r3⟩ := p3
  simp only [hb3] at h
  by_cases hm4 : (consume 2 r3).1 = [128, 3]
  swap; · rw [if_pos hm4] at h; cases h
  rw [if_neg (not_not_intro hm4)] at h
  have hr3 : r3 = [128, 3] ++ (consume 2 r3).2 := by rw [← hm4, consume_split]
  generalize (consume 2 r3).2 = s4 at h hr3
  by_cases hm5 : (consume 1 s4).1 = []
  swap; · rw [if_pos hm5] at h; cases h
  rw [if_neg (not_not_intro hm5)] at h
  have hs4 : s4 = [] := by cases s4 <;> simp [consume] at hm5 ⊢
  simp only [Option.some.injEq, Prod.mk.injEq] at h
  obtain ⟨rfl, rfl, rfl⟩ := h
  have hbs1 : ∀ b ∈ s1, b < 256 := fun b hm => hb b (by rw [hs]; simp [hm])
  obtain ⟨e1, l1⟩ := block_sound hbs1 hb1 (by rw [hr1]; simp)
  have hbs2 : ∀ b ∈ s2, b < 256 := fun b hm => hbs1 b (by rw [e1, hr1]; simp [hm])
  obtain ⟨d, bins, f1, f2, f3⟩ := binLoop_sound hbs2 hb2 hm3
  have hbs3 : ∀ b ∈ r2, b < 256 := fun b hm => hbs2 b (by rw [f2]; simp [hm])
  obtain ⟨e3, l3⟩ := block_sound hbs3 hb3 (by rw [hr3]; simp)
  refine ⟨d1, d :: bins, d3, by simp, ?_, rfl, by simpa using f1, rfl⟩
  rw [hs, e1, hr1, f2, e3, hr3, hs4]
  simp [pfb, seg]

/-- C24: the character strings kept in the font object encode back to the original bytes when written. -/
theorem sencode_sdecode (bs : List Nat) (h : ∀ b ∈ bs, b < 256) : sencode (sdecode bs) = some bs := by
  induction bs with
  | nil => rfl
  | cons b bs ih =>
    have hb := h b (by simp)
    have ih := ih (fun x hx => h x (by simp [hx]))
    unfold sencode sdecode at *
    simp only [List.map_cons, List.mapM_cons, ih]
    by_cases h1 : b < 128
    · simp [h1, sencode1]
    · have h2 : ¬ (0xDC00 + b < 128) := by omega
      have h3 : 0xDC80 ≤ 0xDC00 + b ∧ 0xDC00 + b ≤ 0xDCFF := by omega
      simp only [if_neg h1, sencode1, if_neg h2, if_pos h3]
      simp

/-- Full claim: writing a font in PFB form and reading it back gives the same font parts, for one of the file objects
of the program. -/
def OutputPFBRoundtrips (w : Wr → Option (List Nat)) : Prop :=
  ∀ d1 d2 d3 : List Nat, (∀ b ∈ d1, b < 256) → (∀ b ∈ d3, b < 256) →
    (runWrites w (outputPFB (sdecode d1) d2 (sdecode d3))).bind fromPFB = some (sdecode d1, d2, sdecode d3)

/-- C24, finding: `outputPFB` never succeeds, neither on the writer class of PyX nor on a binary file. -/
theorem outputPFB_fails (d1 d2 d3 : List Nat) :
    runWrites writerWrite (outputPFB d1 d2 d3) = none ∧ runWrites binaryWrite (outputPFB d1 d2 d3) = none := by
  constructor
  · have : sencode [128, 1] = none := by decide
    simp [runWrites, outputPFB, writerWrite, this]
  · simp [runWrites, outputPFB, binaryWrite]

theorem outputPFB_not_roundtrip : ¬ OutputPFBRoundtrips writerWrite ∧ ¬ OutputPFBRoundtrips binaryWrite := by
  constructor
  · intro h
    have := h [] [] [] (by simp) (by simp)
    rw [(outputPFB_fails _ _ _).1] at this; cases this
  · intro h
    have := h [] [] [] (by simp) (by simp)
    rw [(outputPFB_fails _ _ _).2] at this; cases this

/-! ## C65: the hexadecimal body of a PFA file -/

/-- Specification: hexadecimal reading of an encrypted section; newlines are skipped. -/
def hexVal (c : Nat) : Option Nat :=
  if 48 ≤ c ∧ c ≤ 57 then some (c - 48)
  else if 97 ≤ c ∧ c ≤ 102 then some (c - 87)
  else if 65 ≤ c ∧ c ≤ 70 then some (c - 55) else none

/-- Pairs of hexadecimal digits to bytes. -/
def unhex : List Nat → Option (List Nat)
  | [] => some []
  | [_] => none
  | a :: b :: r =>
    match hexVal a, hexVal b, unhex r with
    | some x, some y, some l => some ((16 * x + y) :: l)
    | _, _, _ => none

theorem hexVal_digit (n : Nat) (h : n < 16) : hexVal (hexDigit n) = some n := by
  unfold hexVal hexDigit
  split
  · rw [if_pos (by omega)]; simp
  · rw [if_neg (by omega), if_pos (by omega)]; simp

theorem unhex_b2aHex (bs : List Nat) (h : ∀ b ∈ bs, b < 256) : unhex (b2aHex bs) = some bs := by
  induction bs with
  | nil => rfl
  | cons b bs ih =>
    have hb := h b (by simp)
    rw [b2aHex, unhex, hexVal_digit _ (by omega), hexVal_digit _ (by omega), ih (fun x hx => h x (by simp [hx]))]
    simp; omega

theorem b2aHex_ne10 (bs : List Nat) : ∀ c ∈ b2aHex bs, c ≠ 10 := by
  induction bs with
  | nil => simp [b2aHex]
  | cons b bs ih =>
    intro c hc
    simp only [b2aHex, List.mem_cons] at hc
    have hd : ∀ n, hexDigit n ≠ 10 := by intro n; unfold hexDigit; split <;> omega
    rcases hc with rfl | rfl | hc
    · exact hd _
    · exact hd _
    · exact ih c hc

theorem filter_hexLines (n : Nat) (s : List Nat) (h : s.length ≤ 64 * n) (h10 : ∀ c ∈ s, c ≠ 10) :
    (hexLines n s).filter (· ≠ 10) = s := by
  induction n generalizing s with
  | zero =>
    have : s = [] := List.eq_nil_of_length_eq_zero (by omega)
    subst this; rfl
  | succ n ih =>
    have hf : (s.take 64).filter (· ≠ 10) = s.take 64 := by
      rw [List.filter_eq_self]
      intro a ha
      simpa using h10 a (List.mem_of_mem_take ha)
    rw [hexLines, List.filter_append, List.filter_append, hf,
      ih _ (by rw [List.length_drop]; omega) (fun c hc => h10 c (List.mem_of_mem_drop hc))]
    simp

theorem nLines_enough (n : Nat) : n ≤ 64 * nLines n := by
  unfold nLines; omega

/-- C65: the body of a PFA file, with line breaks ignored, is the hexadecimal form of exactly the encrypted data. -/
theorem pfaBody_roundtrip (d : List Nat) (h : ∀ b ∈ d, b < 256) :
    unhex ((pfaBody d).filter (· ≠ 10)) = some d := by
  unfold pfaBody
  rw [filter_hexLines _ _ (nLines_enough _) (b2aHex_ne10 d), unhex_b2aHex d h]

/-- C65: lines have at most 64 digits, and no line is empty. -/
theorem hexLines_line (n : Nat) (s : List Nat) (h : 64 * n < s.length + 64) :
    ∃ ls : List (List Nat), hexLines n s = (ls.map (· ++ [10])).flatten ∧ ls.length = n ∧
      ∀ l ∈ ls, 0 < l.length ∧ l.length ≤ 64 := by
  induction n generalizing s with
  | zero => exact ⟨[], rfl, rfl, by simp⟩
  | succ n ih =>
    by_cases h0 : n = 0
    · subst h0
      refine ⟨[s.take 64], by simp [hexLines], rfl, ?_⟩
      intro l hl
      simp at hl; subst hl; simp; omega
    · obtain ⟨ls, e1, e2, e3⟩ := ih (s.drop 64) (by rw [List.length_drop]; omega)
      refine ⟨s.take 64 :: ls, by simp [hexLines, e1], by simp [e2], ?_⟩
      intro l hl
      rcases List.mem_cons.1 hl with rfl | hl
      · simp; omega
      · exact e3 l hl

theorem pfaBody_lines (d : List Nat) :
    ∃ ls : List (List Nat), pfaBody d = (ls.map (· ++ [10])).flatten ∧ ∀ l ∈ ls, 0 < l.length ∧ l.length ≤ 64 := by
  obtain ⟨ls, e1, _, e3⟩ := hexLines_line (nLines (b2aHex d).length) (b2aHex d) (by unfold nLines; omega)
  exact ⟨ls, e1, e3⟩

example : fromPFB (pfb [37, 33, 200] [[1, 2], [], [3]] [48]) = some ([37, 33, 0xDC00 + 200], [1, 2, 3], [48]) := by
  rw [fromPFB_complete _ _ _ (by simp) (by decide) (by decide) (by decide)]; rfl
example : fromPFB ([128, 1, 1, 0, 0, 0, 37, 128, 1] : List Nat) = none := by decide
example : pfaBody [0, 255, 16] = [48, 48, 102, 102, 49, 48, 10] := by decide

end PyX.Pfb
