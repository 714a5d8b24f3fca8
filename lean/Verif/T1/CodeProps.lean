import Verif.T1.Code

/-!
# Properties C20 and C21: Type 1 encryption and charstring coding
-/

namespace PyX.T1

theorem and_mask (n : Nat) : n &&& 0xff = n % 256 ∧ n &&& 0xffff = n % 65536 := by
  constructor
  · exact Nat.and_two_pow_sub_one_eq_mod n 8
  · exact Nat.and_two_pow_sub_one_eq_mod n 16

/-- C20: the key update is the one of the Type 1 specification, `(x + r) * c1 + c2 mod 2^16`
(also the formula of the C implementation `pyx/font/_t1code.c`). -/
theorem nextKey_eq (x r : Nat) : nextKey x r = ((x + r) * 52845 + 22719) % 65536 := by
  unfold nextKey
  rw [(and_mask _).1, (and_mask _).2]
  omega

theorem decodeLoop_encodeLoop (l : List Nat) (r : Nat) : decodeLoop (encodeLoop l r) r = l := by
  induction l generalizing r with
  | nil => rfl
  | cons x l ih => simp [encodeLoop, decodeLoop, ih, Nat.xor_assoc]

theorem encodeLoop_decodeLoop (l : List Nat) (r : Nat) : encodeLoop (decodeLoop l r) r = l := by
  induction l generalizing r with
  | nil => rfl
  | cons x l ih => simp [encodeLoop, decodeLoop, ih, Nat.xor_assoc]

theorem encodeLoop_length (l : List Nat) (r : Nat) : (encodeLoop l r).length = l.length := by
  induction l generalizing r with
  | nil => rfl
  | cons x l ih => simp [encodeLoop, ih]

/-- C20: decrypting (dropping the random prefix) what was encrypted gives the data, for every key, every
prefix and all data. -/
theorem decoder_encoder (data random : List Nat) (r : Nat) :
    decoder (encoder data r random) r random.length = data := by
  simp [decoder, encoder, decodeLoop_encodeLoop]

/-- C20: encrypting what was decrypted gives the ciphertext (so nothing else encrypts to the data). -/
theorem encoder_decoder (code : List Nat) (r : Nat) (n : Nat) :
    encoder (decoder code r n) r ((decoder code r 0).take n) = code := by
  simp [decoder, encoder, encodeLoop_decodeLoop]

/-- C20: the ciphertext has the length of prefix plus data. -/
theorem encoder_length (data random : List Nat) (r : Nat) :
    (encoder data r random).length = random.length + data.length := by
  simp [encoder, encodeLoop_length]

theorem shift_lt (r : Nat) (h : r < 65536) : r >>> 8 < 256 := by
  rw [Nat.shiftRight_eq_div_pow]; omega

/-- C20: with a 16 bit key the ciphertext consists of bytes. -/
theorem encoder_bytes (data random : List Nat) (r : Nat) (hr : r < 65536) (hd : Bytes data)
    (hp : Bytes random) : Bytes (encoder data r random) := by
  unfold encoder
  have : Bytes (random ++ data) := by
    intro b hb; rcases List.mem_append.1 hb with h | h
    · exact hp b h
    · exact hd b h
  generalize random ++ data = l at this
  induction l generalizing r with
  | nil => intro b hb; cases hb
  | cons x l ih =>
    intro b hb
    have hx : x < 256 := this x (by simp)
    simp only [encodeLoop, List.mem_cons] at hb
    rcases hb with rfl | hb
    · exact Nat.xor_lt_two_pow (n := 8) hx (shift_lt r hr)
    · refine ih _ ?_ (fun b hb => this b (by simp [hb])) b hb
      rw [nextKey_eq]; omega

/-- C20: eexec encryption of a font part round-trips. -/
theorem eexec_roundtrip (data : List Nat) : eexecDecode (eexecEncode data) = data :=
  decoder_encoder data prefixBytes 55665

/-- C20: charstring encryption round-trips for every charstring exactly if the font's `lenIV` is at most
four (the length of the fixed prefix). -/
theorem charstring_roundtrip_iff (lenIV : Nat) :
    (∀ data, charstringDecode lenIV (charstringEncode lenIV data) = data) ↔ lenIV ≤ 4 := by
  constructor
  · intro h
    apply Nat.le_of_not_lt
    intro hl
    have h1 := congrArg List.length (h [0])
    have h2 : prefixBytes.take lenIV = prefixBytes := List.take_of_length_le (by simp [prefixBytes]; omega)
    simp [charstringDecode, charstringEncode, decoder, encoder, decodeLoop_encodeLoop, prefixBytes] at h1
    omega
  · intro hl data
    have h2 : (prefixBytes.take lenIV).length = lenIV := by simp [prefixBytes]; omega
    have := decoder_encoder data (prefixBytes.take lenIV) 4330
    rw [h2] at this
    exact this

example : eexecEncode [1, 2, 3] = [137, 45, 176, 196, 3, 61, 170] := by decide
example : charstringDecode 5 (charstringEncode 5 [1, 2, 3]) = [2, 3] := by decide

/-! ## C21 -/

/-- Entries that occur in a command list: known commands, and integers of 32 bit two's complement. -/
def Legal : Tok → Prop
  | .num n => -2 ^ 31 ≤ n ∧ n < 2 ^ 31
  | .cmd c => c ∈ t1cmds
  | .esc c => c ∈ t1subcmds

/-- The full claim C21. -/
def CharstringRoundtrip : Prop :=
  ∀ ts : List Tok, (∀ t ∈ ts, Legal t) → ∃ c, code ts = some c ∧ Bytes c ∧ cmds c = some ts

theorem code1_num (n : Int) (h1 : -2 ^ 31 < n) (h2 : n < 2 ^ 31) :
    ∃ c, code1 (.num n) = some c ∧ Bytes c ∧
      ∀ rest, cmds (c ++ rest) = (cmds rest).map (Tok.num n :: ·) := by
  unfold code1
  by_cases g1 : -107 ≤ n ∧ n ≤ 107
  · refine ⟨[(n + 139).toNat], by simp [g1], ?_, ?_⟩
    · intro b hb; simp at hb; omega
    · intro rest
      have e1 : ¬ (n + 139).toNat = 12 := by omega
      have e2 : ¬ (n + 139).toNat < 32 := by omega
      have e3 : (n + 139).toNat ≤ 246 := by omega
      have e4 : (((n + 139).toNat : Nat) : Int) - 139 = n := by omega
      rw [List.singleton_append, cmds.eq_def]
      simp only [e1, e2, e3, e4, if_false, if_true]
  · by_cases g2 : 108 ≤ n ∧ n ≤ 1131
    · refine ⟨[((n - 108) / 256 + 247).toNat, ((n - 108) % 256).toNat], by simp [g1, g2], ?_, ?_⟩
      · intro b hb; simp at hb; omega
      · intro rest
        have e1 : ¬ ((n - 108) / 256 + 247).toNat = 12 := by omega
        have e2 : ¬ ((n - 108) / 256 + 247).toNat < 32 := by omega
        have e3 : ¬ ((n - 108) / 256 + 247).toNat ≤ 246 := by omega
        have e4 : ((n - 108) / 256 + 247).toNat ≤ 250 := by omega
        have e5 : ((((n - 108) / 256 + 247).toNat : Nat) : Int) = (n - 108) / 256 + 247 := by omega
        have e6 : ((((n - 108) % 256).toNat : Nat) : Int) = (n - 108) % 256 := by omega
        have e7 : ((n - 108) / 256 + 247 - 247) * 256 + (n - 108) % 256 + 108 = n := by omega
        rw [List.cons_append, List.cons_append, List.nil_append, cmds]
        simp only [e1, e2, e3, e4, if_false, if_true, e5, e6, e7]
    · by_cases g3 : -1131 ≤ n ∧ n ≤ -108
      · refine ⟨[((-n - 108) / 256 + 251).toNat, ((-n - 108) % 256).toNat], by simp [g1, g2, g3], ?_, ?_⟩
        · intro b hb; simp at hb; omega
        · intro rest
          have e1 : ¬ ((-n - 108) / 256 + 251).toNat = 12 := by omega
          have e2 : ¬ ((-n - 108) / 256 + 251).toNat < 32 := by omega
          have e3 : ¬ ((-n - 108) / 256 + 251).toNat ≤ 246 := by omega
          have e4 : ¬ ((-n - 108) / 256 + 251).toNat ≤ 250 := by omega
          have e4' : ((-n - 108) / 256 + 251).toNat ≤ 254 := by omega
          have e5 : ((((-n - 108) / 256 + 251).toNat : Nat) : Int) = (-n - 108) / 256 + 251 := by omega
          have e6 : ((((-n - 108) % 256).toNat : Nat) : Int) = (-n - 108) % 256 := by omega
          have e7 : -(((-n - 108) / 256 + 251 - 251) * 256) - (-n - 108) % 256 - 108 = n := by omega
          rw [List.cons_append, List.cons_append, List.nil_append, cmds]
          simp only [e1, e2, e3, e4, e4', if_false, if_true, e5, e6, e7]
      · simp only [g1, g2, g3, if_false]
        generalize hm : (if n < 0 then n + 2 ^ 32 else n) = m
        have hm1 : 0 ≤ m ∧ m < 2 ^ 32 := by split at hm <;> omega
        have hx : 0 ≤ m / 256 / 256 / 256 ∧ m / 256 / 256 / 256 < 256 := by omega
        rw [if_pos hx]
        refine ⟨_, rfl, ?_, ?_⟩
        · intro b hb; simp at hb; omega
        · intro rest
          have e1 : (((m / 256 / 256 / 256).toNat : Nat) : Int) = m / 256 / 256 / 256 := by omega
          have e2 : (((m / 256 / 256 % 256).toNat : Nat) : Int) = m / 256 / 256 % 256 := by omega
          have e3 : (((m / 256 % 256).toNat : Nat) : Int) = m / 256 % 256 := by omega
          have e4 : (((m % 256).toNat : Nat) : Int) = m % 256 := by omega
          have e5 : ((m / 256 / 256 / 256 * 256 + m / 256 / 256 % 256) * 256 + m / 256 % 256) * 256
              + m % 256 = m := by omega
          simp only [List.cons_append, List.nil_append]
          rw [cmds]
          simp only [show ¬ (255 = 12) by decide, show ¬ (255 < 32) by decide, show ¬ (255 ≤ 246) by decide,
            show ¬ (255 ≤ 250) by decide, show ¬ (255 ≤ 254) by decide, if_false, e1, e2, e3, e4, e5]
          by_cases hn : n < 0
          · rw [if_pos hn] at hm
            rw [if_pos (by omega), show m - 2 ^ 32 = n by omega]
          · rw [if_neg hn] at hm
            rw [if_neg (by omega), hm]

theorem code1_cmd (c : Nat) (h : c ∈ t1cmds) :
    code1 (.cmd c) = some [c] ∧ c < 256 ∧ ∀ rest, cmds (c :: rest) = (cmds rest).map (Tok.cmd c :: ·) := by
  have h' := h
  simp only [t1cmds, List.mem_cons, List.not_mem_nil, or_false] at h'
  have h1 : c < 32 := by omega
  have h2 : c ≠ 12 := by omega
  refine ⟨by simp [code1]; omega, by omega, ?_⟩
  intro rest
  rw [cmds.eq_def]
  simp only [h1, h2, h, if_true, if_false]

theorem code1_esc (c : Nat) (h : c ∈ t1subcmds) :
    code1 (.esc c) = some [12, c] ∧ c < 256 ∧
      ∀ rest, cmds (12 :: c :: rest) = (cmds rest).map (Tok.esc c :: ·) := by
  have h' := h
  simp only [t1subcmds, List.mem_cons, List.not_mem_nil, or_false] at h'
  refine ⟨by simp [code1]; omega, by omega, ?_⟩
  intro rest
  rw [cmds]
  simp only [h, if_true]

/-- C21 (all 32 bit integers except `-2^31`): encoding succeeds, gives bytes, and decoding returns the
same command list. -/
theorem charstring_roundtrip_partial (ts : List Tok) (h : ∀ t ∈ ts, Legal t)
    (hn : Tok.num (-2 ^ 31) ∉ ts) : ∃ c, code ts = some c ∧ Bytes c ∧ cmds c = some ts := by
  induction ts with
  | nil => exact ⟨[], rfl, (by intro b hb; cases hb), by simp [cmds]⟩
  | cons t ts ih =>
    obtain ⟨c, hc, hb, hd⟩ := ih (fun t ht => h t (by simp [ht])) (fun hm => hn (List.mem_cons_of_mem _ hm))
    have ht := h t (by simp)
    have app : ∀ a : List Nat, Bytes a → Bytes (a ++ c) := by
      intro a ha b hb'
      rcases List.mem_append.1 hb' with h | h
      · exact ha b h
      · exact hb b h
    cases t with
    | num n =>
      have hne : n ≠ -2 ^ 31 := fun e => hn (by simp [e])
      obtain ⟨a, ha, hab, had⟩ := code1_num n (by unfold Legal at ht; omega) ht.2
      exact ⟨a ++ c, by simp [code, ha, hc], app a hab, by rw [had, hd]; rfl⟩
    | cmd n =>
      obtain ⟨ha, hl, had⟩ := code1_cmd n ht
      exact ⟨[n] ++ c, by simp [code, ha, hc], app _ (by intro b hb; simp at hb; omega),
        by rw [List.singleton_append, had, hd]; rfl⟩
    | esc n =>
      obtain ⟨ha, hl, had⟩ := code1_esc n ht
      exact ⟨[12, n] ++ c, by simp [code, ha, hc], app _ (by intro b hb; simp at hb; omega),
        by rw [List.cons_append, List.singleton_append, had, hd]; rfl⟩

/-- C21, finding: `-2^31` is encoded, but decoded as `+2^31` (`>` instead of `>=` in l. 812). -/
theorem charstring_roundtrip_false : ¬ CharstringRoundtrip := by
  intro h
  obtain ⟨c, h1, -, h3⟩ := h [.num (-2 ^ 31)] (by intro t ht; simp at ht; subst ht; simp [Legal])
  have : c = [255, 128, 0, 0, 0] := by
    have e : code [.num (-2 ^ 31)] = some [255, 128, 0, 0, 0] := by decide
    rw [e] at h1; simpa using h1.symm
  subst this
  have e : cmds [255, 128, 0, 0, 0] = some [.num (2 ^ 31)] := by decide
  rw [e] at h3
  revert h3; decide

/-- C21: integers outside the 32 bit range are refused instead of being written wrongly. -/
theorem code_overflow (n : Int) (h : n ≥ 2 ^ 32 ∨ n < -2 ^ 32) : code1 (.num n) = none := by
  simp only [code1]
  rw [if_neg (by omega), if_neg (by omega), if_neg (by omega)]
  split
  · rename_i h'
    rw [if_neg (by omega)]
  · rw [if_neg (by omega)]

/-- C21: writing commands into a font and reading them back (with encryption, `lenIV ≤ 4`). -/
theorem setGet_roundtrip_partial (lenIV : Nat) (hl : lenIV ≤ 4) (ts : List Tok) (h : ∀ t ∈ ts, Legal t)
    (hn : Tok.num (-2 ^ 31) ∉ ts) : setGet lenIV ts = some ts := by
  obtain ⟨c, h1, -, h3⟩ := charstring_roundtrip_partial ts h hn
  simp [setGet, h1, (charstring_roundtrip_iff lenIV).2 hl, h3]

example : setGet 4 [.num 50, .num (-1131), .num 1132, .num (-70000), .cmd 13, .esc 17, .cmd 14] =
    some [.num 50, .num (-1131), .num 1132, .num (-70000), .cmd 13, .esc 17, .cmd 14] := by decide +kernel

end PyX.T1
