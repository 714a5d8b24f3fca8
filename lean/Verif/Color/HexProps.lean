import Verif.Color.Props

/-!
# C38: hex colour strings round-trip at 8 bit
-/

set_option linter.unusedSectionVars false

namespace PyX.Color

variable {K : Type*} [Field K] [LinearOrder K] [IsStrictOrderedRing K] [FloorRing K]

theorem digit_ok : ∀ n : Fin 16, digitVal (digit n) = some n.val ∧ isWs (digit n) = false ∧ digit n ≠ '#' := by
  decide +kernel

theorem digit_inj : ∀ n m : Fin 16, digit n = digit m → n = m := by decide +kernel

theorem digitVal_lt {c : Char} {n : ℕ} (h : digitVal c = some n) : n < 16 := by
  unfold digitVal at h
  split_ifs at h <;> simp at h <;> omega

theorem byte_lt {a b : Char} {n : ℕ} (h : byte a b = some n) : n < 256 := by
  unfold byte at h
  cases ha : digitVal a with
  | none => rw [ha] at h; simp at h
  | some x =>
    cases hb : digitVal b with
    | none => rw [ha, hb] at h; simp at h
    | some y =>
      rw [ha, hb] at h
      simp at h
      have := digitVal_lt ha
      have := digitVal_lt hb
      omega

theorem byte_digit {n : ℕ} (h : n < 256) : byte (digit (n / 16)) (digit (n % 16)) = some n := by
  unfold byte
  have h1 := (digit_ok ⟨n / 16, by omega⟩).1
  have h2 := (digit_ok ⟨n % 16, by omega⟩).1
  simp only at h1 h2
  rw [h1, h2]
  show some (16 * (n / 16) + n % 16) = some n
  rw [Nat.div_add_mod]

theorem bytes3_lt {a b c d e f : Char} {v : ℕ × ℕ × ℕ} (h : bytes3 a b c d e f = some v) :
    v.1 < 256 ∧ v.2.1 < 256 ∧ v.2.2 < 256 := by
  unfold bytes3 at h
  cases h1 : byte a b with
  | none => rw [h1] at h; simp at h
  | some x =>
    cases h2 : byte c d with
    | none => rw [h1, h2] at h; simp at h
    | some y =>
      cases h3 : byte e f with
      | none => rw [h1, h2, h3] at h; simp at h
      | some z =>
        rw [h1, h2, h3] at h
        simp at h
        subst h
        exact ⟨byte_lt h1, byte_lt h2, byte_lt h3⟩

theorem hexBytes_lt {s : List Char} {v : ℕ × ℕ × ℕ} (h : hexBytes s = some v) :
    v.1 < 256 ∧ v.2.1 < 256 ∧ v.2.2 < 256 := by
  unfold hexBytes at h
  split at h
  · exact bytes3_lt h
  · exact bytes3_lt h
  · simp at h

theorem dropWhile_head {p : Char → Bool} {l : List Char} (h : ∀ c ∈ l, p c = false) : l.dropWhile p = l := by
  cases l with
  | nil => rfl
  | cons a l => rw [List.dropWhile_cons_of_neg (by simp [h a (by simp)])]

theorem clean_digits {l : List Char} (h : ∀ c ∈ l, isWs c = false ∧ c ≠ '#') : clean l = l ∧ clean ('#' :: l) = l := by
  have h1 : ∀ c ∈ l, isWs c = false := fun c hc => (h c hc).1
  have h2 : ∀ c ∈ l, (c == '#') = false := fun c hc => by simpa using (h c hc).2
  have h1r : ∀ c ∈ l.reverse, isWs c = false := fun c hc => h1 c (List.mem_reverse.mp hc)
  have h1' : ∀ c ∈ '#' :: l, isWs c = false := by
    intro c hc
    rcases List.mem_cons.mp hc with rfl | hc
    · decide +kernel
    · exact h1 c hc
  have h1r' : ∀ c ∈ ('#' :: l).reverse, isWs c = false := fun c hc => h1' c (List.mem_reverse.mp hc)
  constructor
  · unfold clean
    rw [dropWhile_head h1, dropWhile_head h1r, List.reverse_reverse, dropWhile_head h2]
  · unfold clean
    rw [dropWhile_head h1', dropWhile_head h1r', List.reverse_reverse, List.dropWhile_cons_of_pos (by simp),
      dropWhile_head h2]

theorem digit_good {n : ℕ} (h : n < 16) : isWs (digit n) = false ∧ digit n ≠ '#' :=
  (digit_ok ⟨n, h⟩).2

/-- The string written for three bytes. -/
def written (v : ℕ × ℕ × ℕ) (cssstrip addhash : Bool) : List Char :=
  let s := if cssstrip then cssStrip (hex6 v) else hex6 v
  if addhash then '#' :: s else s

theorem digit_eq {n m : ℕ} (hn : n < 16) (hm : m < 16) (h : digit n = digit m) : n = m := by
  have := digit_inj ⟨n, hn⟩ ⟨m, hm⟩ h
  simpa using this

/-- The written string is read as the same bytes. -/
theorem hexBytes_written {v : ℕ × ℕ × ℕ} (hv : v.1 < 256 ∧ v.2.1 < 256 ∧ v.2.2 < 256) (cssstrip addhash : Bool) :
    hexBytes (written v cssstrip addhash) = some v := by
  obtain ⟨x, y, z⟩ := v
  obtain ⟨hx, hy, hz⟩ := hv
  simp only at hx hy hz
  have good6 : ∀ c ∈ hex6 (x, y, z), isWs c = false ∧ c ≠ '#' := by
    intro c hc
    simp only [hex6, List.mem_cons, List.not_mem_nil, or_false] at hc
    rcases hc with rfl | rfl | rfl | rfl | rfl | rfl <;> exact digit_good (by omega)
  have h6 : bytes3 (digit (x / 16)) (digit (x % 16)) (digit (y / 16)) (digit (y % 16)) (digit (z / 16)) (digit (z % 16)) =
      some (x, y, z) := by
    unfold bytes3
    rw [byte_digit hx, byte_digit hy, byte_digit hz]
    rfl
  -- the string without hash
  have key : ∀ s, (s = hex6 (x, y, z) ∨ s = cssStrip (hex6 (x, y, z))) →
      (∀ c ∈ s, isWs c = false ∧ c ≠ '#') ∧ (∀ s', clean s' = s → hexBytes s' = some (x, y, z)) := by
    have full : (∀ c ∈ hex6 (x, y, z), isWs c = false ∧ c ≠ '#') ∧
        (∀ s', clean s' = hex6 (x, y, z) → hexBytes s' = some (x, y, z)) := by
      refine ⟨good6, fun s' hs' => ?_⟩
      unfold hexBytes
      rw [hs']
      exact h6
    rintro s (rfl | rfl)
    · exact full
    · by_cases he : digit (x / 16) = digit (x % 16) ∧ digit (y / 16) = digit (y % 16) ∧ digit (z / 16) = digit (z % 16)
      · have e : cssStrip (hex6 (x, y, z)) = [digit (x / 16), digit (y / 16), digit (z / 16)] := by
          simp only [hex6, cssStrip]
          rw [if_pos he]
        rw [e]
        refine ⟨?_, fun s' hs' => ?_⟩
        · intro c hc
          simp only [List.mem_cons, List.not_mem_nil, or_false] at hc
          rcases hc with rfl | rfl | rfl <;> exact digit_good (by omega)
        · unfold hexBytes
          rw [hs']
          obtain ⟨e1, e2, e3⟩ := he
          rw [← e1, ← e2, ← e3] at h6
          exact h6
      · have e : cssStrip (hex6 (x, y, z)) = hex6 (x, y, z) := by
          simp only [hex6, cssStrip]
          rw [if_neg he]
        rw [e]
        exact full
  unfold written
  obtain ⟨k1, k2⟩ := key (if cssstrip then cssStrip (hex6 (x, y, z)) else hex6 (x, y, z)) (by
    cases cssstrip
    · left; rfl
    · right; rfl)
  cases addhash with
  | true => exact k2 _ (clean_digits k1).2
  | false => exact k2 _ (clean_digits k1).1

theorem floor_byte {x : K} (h : Legal x) :
    ⌊x * 255⌋.toNat < 256 ∧ ((⌊x * 255⌋.toNat : ℕ) : K) ≤ x * 255 ∧ x * 255 < ((⌊x * 255⌋.toNat : ℕ) : K) + 1 := by
  have h0 : 0 ≤ ⌊x * 255⌋ := Int.floor_nonneg.mpr (mul_nonneg h.1 (by norm_num))
  have e : ((⌊x * 255⌋.toNat : ℕ) : ℤ) = ⌊x * 255⌋ := Int.toNat_of_nonneg h0
  have e' : ((⌊x * 255⌋.toNat : ℕ) : K) = ((⌊x * 255⌋ : ℤ) : K) := by
    rw [← e]; push_cast; rfl
  refine ⟨?_, ?_, ?_⟩
  · have : ⌊x * 255⌋ < 256 := by
      rw [Int.floor_lt]
      push_cast
      linarith [h.2]
    omega
  · rw [e']; exact Int.floor_le _
  · rw [e']; exact Int.lt_floor_add_one _

theorem to8bit_legal (x : Rgb K) (h : x.Legal) : ∃ v, x.to8bitbytes = some v ∧ (v.1 < 256 ∧ v.2.1 < 256 ∧ v.2.2 < 256) ∧
    v = (⌊x.r * 255⌋.toNat, ⌊x.g * 255⌋.toNat, ⌊x.b * 255⌋.toNat) := by
  have h1 := floor_byte h.1
  have h2 := floor_byte h.2.1
  have h3 := floor_byte h.2.2
  refine ⟨_, ?_, ⟨h1.1, h2.1, h3.1⟩, rfl⟩
  unfold Rgb.to8bitbytes
  exact if_pos ⟨h1.1, h2.1, h3.1⟩

theorem tohexstring_eq (x : Rgb K) (v : ℕ × ℕ × ℕ) (h : x.to8bitbytes = some v) (cssstrip addhash : Bool) :
    x.tohexstring cssstrip addhash = some (written v cssstrip addhash) := by
  unfold Rgb.tohexstring
  rw [h]
  rfl

theorem byte_legal {n : ℕ} (h : n < 256) : Legal ((n : K) / 255) := by
  constructor
  · exact div_nonneg (Nat.cast_nonneg n) (by norm_num)
  · rw [div_le_one (by norm_num)]
    have : n ≤ 255 := by omega
    exact_mod_cast this

theorem fromhex_eq {s : List Char} {v : ℕ × ℕ × ℕ} (h : hexBytes s = some v) :
    rgbfromhexstring (K := K) s = some ⟨(v.1 : K) / 255, (v.2.1 : K) / 255, (v.2.2 : K) / 255⟩ := by
  obtain ⟨h1, h2, h3⟩ := hexBytes_lt h
  unfold rgbfromhexstring
  rw [h]
  exact mkRgb_ok ⟨byte_legal h1, byte_legal h2, byte_legal h3⟩

/-- **C38.**  The hex string of a colour, in any format, is read as a colour whose components are at most those of
the original and differ by less than 1/255. -/
theorem hex_close (x : Rgb K) (h : x.Legal) (cssstrip addhash : Bool) :
    ∃ s y, x.tohexstring cssstrip addhash = some s ∧ rgbfromhexstring s = some y ∧
      (0 ≤ x.r - y.r ∧ x.r - y.r < 1 / 255) ∧ (0 ≤ x.g - y.g ∧ x.g - y.g < 1 / 255) ∧
      (0 ≤ x.b - y.b ∧ x.b - y.b < 1 / 255) := by
  obtain ⟨v, hv, hlt, e⟩ := to8bit_legal x h
  refine ⟨_, _, tohexstring_eq x v hv _ _, fromhex_eq (hexBytes_written hlt _ _), ?_⟩
  subst e
  have key : ∀ a : K, Legal a → 0 ≤ a - ((⌊a * 255⌋.toNat : ℕ) : K) / 255 ∧
      a - ((⌊a * 255⌋.toNat : ℕ) : K) / 255 < 1 / 255 := by
    intro a ha
    obtain ⟨-, h1, h2⟩ := floor_byte ha
    constructor
    · rw [sub_nonneg, div_le_iff₀ (by norm_num)]; exact h1
    · rw [sub_lt_iff_lt_add, ← add_div, lt_div_iff₀ (by norm_num)]; linarith
  exact ⟨key _ h.1, key _ h.2.1, key _ h.2.2⟩

theorem floor_div_byte {n : ℕ} : ⌊(n : K) / 255 * 255⌋.toNat = n := by
  have : (n : K) / 255 * 255 = ((n : ℤ) : K) := by push_cast; field_simp
  rw [this, Int.floor_intCast]
  simp

theorem to8bit_fromhex {s : List Char} {x : Rgb K} (h : rgbfromhexstring s = some x) :
    ∃ v, hexBytes s = some v ∧ x.to8bitbytes = some v ∧ x.Legal := by
  cases hv : hexBytes s with
  | none => unfold rgbfromhexstring at h; rw [hv] at h; simp at h
  | some v =>
    rw [fromhex_eq hv] at h
    obtain ⟨h1, h2, h3⟩ := hexBytes_lt hv
    simp only [Option.some.injEq] at h
    subst h
    refine ⟨v, rfl, ?_, byte_legal h1, byte_legal h2, byte_legal h3⟩
    unfold Rgb.to8bitbytes
    simp only [floor_div_byte, h1, h2, h3, and_self, if_true]

/-- **C38.**  Colours that came from a hex string are reproduced exactly. -/
theorem hex_exact {s : List Char} {x : Rgb K} (h : rgbfromhexstring s = some x) (cssstrip addhash : Bool) :
    ∃ s', x.tohexstring cssstrip addhash = some s' ∧ rgbfromhexstring s' = some x := by
  obtain ⟨v, hv, h8, -⟩ := to8bit_fromhex h
  refine ⟨_, tohexstring_eq x v h8 _ _, ?_⟩
  rw [← h]
  unfold rgbfromhexstring
  rw [hexBytes_written (hexBytes_lt hv), hv]

/-- **C38.**  Every string of six lower case digits is the string of the colour read from it. -/
theorem hex_string (d : Fin 6 → Fin 16) :
    ∃ x : Rgb K, rgbfromhexstring (List.ofFn fun i => digit (d i)) = some x ∧
      x.tohexstring false false = some (List.ofFn fun i => digit (d i)) := by
  have e : (List.ofFn fun i => digit (d i)) = hex6 (16 * d 0 + d 1, 16 * d 2 + d 3, 16 * d 4 + d 5) := by
    have h := fun i => (d i).isLt
    simp only [hex6, List.ofFn_succ, List.ofFn_zero]
    have q : ∀ a b : Fin 16, (16 * a.val + b.val) / 16 = a.val ∧ (16 * a.val + b.val) % 16 = b.val := fun a b => by omega
    rw [(q _ _).1, (q _ _).2, (q _ _).1, (q _ _).2, (q _ _).1, (q _ _).2]
    rfl
  have hlt : (16 * d 0 + d 1 : ℕ) < 256 ∧ (16 * d 2 + d 3 : ℕ) < 256 ∧ (16 * d 4 + d 5 : ℕ) < 256 := by omega
  rw [e]
  have hb : hexBytes (hex6 (16 * (d 0).val + d 1, 16 * (d 2).val + d 3, 16 * (d 4).val + d 5)) = some _ :=
    hexBytes_written (v := (_, _, _)) hlt false false
  refine ⟨_, fromhex_eq hb, ?_⟩
  obtain ⟨v, hv, h8, -⟩ := to8bit_fromhex (fromhex_eq (K := K) hb)
  rw [hb] at hv
  simp only [Option.some.injEq] at hv
  subst hv
  exact tohexstring_eq _ _ h8 false false

/-! ## Examples -/

example : (⟨1 / 3, 1 / 2, 1⟩ : Rgb ℚ).tohexstring true true = some "#557fff".toList := by decide +kernel
example : (⟨1 / 3, 0, 1⟩ : Rgb ℚ).tohexstring true true = some "#50f".toList := by decide +kernel
example : rgbfromhexstring (K := ℚ) " #50F\n".toList = some ⟨1 / 3, 0, 1⟩ := by decide +kernel
example : rgbfromhexstring (K := ℚ) "#50g".toList = none := by decide +kernel

end PyX.Color
