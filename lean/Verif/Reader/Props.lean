import Verif.Reader.Model

/-!
# Property C23: reading back stored integers
-/

namespace PyX.Reader

/-- Specification: `k` byte big-endian storage of a natural number (most significant byte first). -/
def put : (k : Nat) → (v : Nat) → List Nat
  | 0, _ => []
  | k + 1, v => put k (v / 256) ++ [v % 256]

/-- Specification: two's complement storage. -/
def putS (k : Nat) (v : Int) : List Nat := put k (v % 2 ^ (8 * k)).toNat

theorem put_length (k v : Nat) : (put k v).length = k := by
  induction k generalizing v with
  | zero => rfl
  | succ k ih => simp [put, ih]

theorem put_bytes (k v : Nat) : ∀ b ∈ put k v, b < 256 := by
  induction k generalizing v with
  | zero => intro b hb; cases hb
  | succ k ih =>
    intro b hb
    simp only [put, List.mem_append, List.mem_singleton] at hb
    rcases hb with hb | hb
    · exact ih _ b hb
    · omega

theorem pow8_succ (k : Nat) : 2 ^ (8 * (k + 1)) = 256 * 2 ^ (8 * k) := by
  rw [show 8 * (k + 1) = 8 + 8 * k by omega, Nat.pow_add]

theorem unpackU_put (k v : Nat) (h : v < 2 ^ (8 * k)) : unpackU (put k v) = v := by
  induction k generalizing v with
  | zero => simp at h; simp [put, unpackU, h]
  | succ k ih =>
    have h' : v / 256 < 2 ^ (8 * k) := by
      rw [pow8_succ] at h
      exact Nat.div_lt_of_lt_mul h
    have := ih _ h'
    unfold unpackU at this ⊢
    simp only [put, List.foldl_append, this, List.foldl_cons, List.foldl_nil]
    omega

theorem read_put (k v : Nat) (rest : List Nat) : read k (put k v ++ rest) = (put k v, rest) := by
  unfold read
  rw [List.take_left' (put_length k v), List.drop_left' (put_length k v)]

/-- C23: `readuchar`/`readuint16`/`readuint24`/`readuint32` return what was stored and consume exactly its
bytes. -/
theorem readU_put (k v : Nat) (h : v < 2 ^ (8 * k)) (rest : List Nat) :
    readU k (put k v ++ rest) = some (v, rest) := by
  simp [readU, read_put, put_length, unpackU_put k v h]

theorem unpackS_eq (k : Nat) (hk : 0 < k) (v : Int) (h1 : -2 ^ (8 * k - 1) ≤ v) (h2 : v < 2 ^ (8 * k - 1)) :
    unpackS k (putS k v) = v := by
  have hp : (2 : Int) ^ (8 * k) = 2 * 2 ^ (8 * k - 1) := by
    rw [show 8 * k = (8 * k - 1) + 1 by omega, Int.pow_succ]; simp; omega
  have hn : (2 : Nat) ^ (8 * k) = 2 * 2 ^ (8 * k - 1) := by
    rw [show 8 * k = (8 * k - 1) + 1 by omega, Nat.pow_succ]; simp; omega
  have hpos : (0 : Int) < 2 ^ (8 * k - 1) := by exact Int.pow_pos (by decide)
  have hc : ((2 ^ (8 * k - 1) : Nat) : Int) = 2 ^ (8 * k - 1) := by simp
  have hc2 : ((2 ^ (8 * k) : Nat) : Int) = 2 ^ (8 * k) := by simp
  generalize ha : (2 : Int) ^ (8 * k - 1) = a at *
  generalize hb : (2 : Int) ^ (8 * k) = b at *
  generalize hA : (2 : Nat) ^ (8 * k - 1) = A at *
  generalize hB : (2 : Nat) ^ (8 * k) = B at *
  have hm0 : 0 ≤ v % b := Int.emod_nonneg _ (by omega)
  have hm1 : v % b < b := Int.emod_lt_of_pos _ (by omega)
  have hu : unpackU (putS k v) = (v % b).toNat := by
    unfold putS; rw [hb, unpackU_put]; rw [hB]; omega
  have hmod : v % b = if 0 ≤ v then v else v + b := by
    split
    · exact Int.emod_eq_of_lt (by omega) (by omega)
    · rw [← Int.add_emod_right]; exact Int.emod_eq_of_lt (by omega) (by omega)
  unfold unpackS
  simp only [hu, hA, hb]
  split at hmod <;> split <;> omega

/-- C23: `readchar`/`readint16`/`readint32` return the stored signed number. -/
theorem readS_putS (k : Nat) (hk : 0 < k) (v : Int) (h1 : -2 ^ (8 * k - 1) ≤ v) (h2 : v < 2 ^ (8 * k - 1))
    (rest : List Nat) : readS k (putS k v ++ rest) = some (v, rest) := by
  have := unpackS_eq k hk v h1 h2
  unfold putS at *
  simp [readS, read_put, put_length, this]

theorem loop_append (sg : Bool) (bs : List Nat) (r : Int) (rest : List Nat) :
    readintLoop sg bs.length false r (bs ++ rest) =
      some (bs.foldl (fun (a : Int) (b : Nat) => 256 * a + b) r, rest) := by
  induction bs generalizing r with
  | nil => rfl
  | cons b bs ih => simp [readintLoop, ih]

theorem foldl_int (bs : List Nat) (n : Nat) (c : Int) :
    bs.foldl (fun (a : Int) (b : Nat) => 256 * a + b) ((n : Int) + c)
      = (bs.foldl (fun a b => 256 * a + b) n : Nat) + 256 ^ bs.length * c := by
  induction bs generalizing n c with
  | nil => simp
  | cons b bs ih =>
    simp only [List.foldl_cons, List.length_cons]
    have e : 256 * ((n : Int) + c) + b = ((256 * n + b : Nat) : Int) + 256 * c := by
      omega
    rw [e, ih, Int.pow_succ, Int.mul_assoc]

/-- The general `readint` loop computes the same values as the `struct` based methods. -/
theorem readint_eq (k : Nat) (hk : 0 < k) (sg : Bool) (bs rest : List Nat) (hl : bs.length = k)
    (hb : ∀ b ∈ bs, b < 256) :
    readint k sg (bs ++ rest) = some (if sg then unpackS k bs else (unpackU bs : Int), rest) := by
  cases bs with
  | nil => simp at hl; omega
  | cons b bs =>
    subst hl
    have hb0 : b < 256 := hb b (by simp)
    have hlen : (b :: bs).length = bs.length + 1 := rfl
    rw [readint, hlen, List.cons_append, readintLoop]
    simp only [Bool.true_and]
    have p1 : (2 : Nat) ^ (8 * (bs.length + 1) - 1) = 128 * 256 ^ bs.length := by
      rw [show (256 : Nat) = 2 ^ 8 by decide, ← Nat.pow_mul,
        show 8 * (bs.length + 1) - 1 = 7 + 8 * bs.length by omega, Nat.pow_add]
    have p2 : (2 : Int) ^ (8 * (bs.length + 1)) = 256 * 256 ^ bs.length := by
      rw [Int.pow_mul, Int.pow_succ, Int.mul_comm]; rfl
    have hU : ∀ (l : List Nat), (∀ b ∈ l, b < 256) → ∀ n : Nat, 
        n * 256 ^ l.length ≤ l.foldl (fun a b => 256 * a + b) n ∧ 
        l.foldl (fun a b => 256 * a + b) n < (n + 1) * 256 ^ l.length := by
      intro l hl
      induction l with
      | nil => intro n; simp
      | cons c l ih =>
        intro n
        have hc := hl c (by simp)
        have := ih (fun b hb => hl b (by simp [hb])) (256 * n + c)
        simp only [List.foldl_cons, List.length_cons, Nat.pow_succ]
        generalize 256 ^ l.length = q at *
        constructor
        · calc n * (q * 256) ≤ (256 * n + c) * q := by
                rw [Nat.add_mul]; 
                calc n * (q * 256) = 256 * n * q := by rw [Nat.mul_comm q, ← Nat.mul_assoc, Nat.mul_comm n]
                  _ ≤ _ := Nat.le_add_right _ _
            _ ≤ _ := this.1
        · calc _ < (256 * n + c + 1) * q := this.2
            _ ≤ (256 * (n + 1)) * q := Nat.mul_le_mul_right _ (by omega)
            _ = (n + 1) * (q * 256) := by rw [Nat.mul_comm q, ← Nat.mul_assoc, Nat.mul_comm 256]
    obtain ⟨u1, u2⟩ := hU bs (fun b hb' => hb b (by simp [hb'])) b
    have hunp : unpackU (b :: bs) = bs.foldl (fun a b => 256 * a + b) b := by simp [unpackU]
    have hq : 0 < 256 ^ bs.length := Nat.pow_pos (by decide)
    cases sg with
    | false =>
      simp only [Bool.false_and, Bool.false_eq_true, if_false]
      rw [loop_append]
      have := foldl_int bs b 0
      simp at this
      simp [hunp, this]
    | true =>
      simp only [Bool.true_and, decide_eq_true_eq, if_true]
      rw [loop_append]
      by_cases hb1 : b > 127
      · rw [if_pos hb1]
        have := foldl_int bs b (-256)
        rw [show 256 * (0 : Int) + ((b : Int) - 256) = (b : Int) + -256 by omega, this]
        unfold unpackS
        have hge : ¬ (unpackU (b :: bs) < 2 ^ (8 * (bs.length + 1) - 1)) := by
          rw [p1, hunp]
          have : 128 * 256 ^ bs.length ≤ b * 256 ^ bs.length := Nat.mul_le_mul_right _ (by omega)
          omega
        simp only [hunp] at hge
        simp only [hunp, p2, if_neg hge]
        congr 2
        generalize (256 : Int) ^ bs.length = q
        omega
      · rw [if_neg hb1]
        have := foldl_int bs b 0
        simp at this
        unfold unpackS
        have hlt : unpackU (b :: bs) < 2 ^ (8 * (bs.length + 1) - 1) := by
          rw [p1, hunp]
          have : (b + 1) * 256 ^ bs.length ≤ 128 * 256 ^ bs.length := Nat.mul_le_mul_right _ (by omega)
          omega
        simp only [hunp] at hlt
        simp only [hunp, if_pos hlt]
        simp [this]

/-- C23: `readint` (unsigned and signed) returns the stored number. -/
theorem readint_put (k : Nat) (hk : 0 < k) (v : Nat) (h : v < 2 ^ (8 * k)) (rest : List Nat) :
    readint k false (put k v ++ rest) = some ((v : Int), rest) := by
  rw [readint_eq k hk false _ rest (put_length k v) (put_bytes k v)]
  simp [unpackU_put k v h]

theorem readint_putS (k : Nat) (hk : 0 < k) (v : Int) (h1 : -2 ^ (8 * k - 1) ≤ v)
    (h2 : v < 2 ^ (8 * k - 1)) (rest : List Nat) :
    readint k true (putS k v ++ rest) = some (v, rest) := by
  have := unpackS_eq k hk v h1 h2
  unfold putS at *
  rw [readint_eq k hk true _ rest (put_length k _) (put_bytes k _)]
  simp [this]

/-- C23: a read past the end of the file is an error, never a wrong number. -/
theorem readU_short (k : Nat) (s : List Nat) (h : s.length < k) : readU k s = none ∧ readS k s = none := by
  have : ¬ (min k s.length = k) := by omega
  simp [readU, readS, read, this]

/-- Full claim for 24 bit signed numbers. -/
def Readint24Correct : Prop :=
  ∀ (v : Int) (rest : List Nat), -2 ^ 23 ≤ v → v < 2 ^ 23 → readint24 (putS 3 v ++ rest) = some (v, rest)

/-- C23, partial: `readint24` is right for non-negative numbers. -/
theorem readint24_nonneg_partial (v : Int) (h0 : 0 ≤ v) (h1 : v < 2 ^ 23) (rest : List Nat) :
    readint24 (putS 3 v ++ rest) = some (v, rest) := by
  have e : (v % 2 ^ (8 * 3)).toNat = v.toNat := by
    rw [Int.emod_eq_of_lt h0 (by omega)]
  have hu := unpackU_put 3 v.toNat (by omega)
  have hu' : unpackU (0 :: put 3 v.toNat) = v.toNat := by
    unfold unpackU at hu ⊢; simpa using hu
  simp only [readint24, putS, e, read_put, put_length, if_true, unpackS, hu']
  rw [if_pos (by omega), Int.toNat_of_nonneg h0]

/-- C23, finding: `readint24` never returns a negative number, so it is wrong for all negative ones. -/
theorem readint24_wrong : ¬ Readint24Correct := by
  intro h
  have := h (-1) [] (by decide) (by decide)
  revert this; decide

/-- C23: `readstring` returns a length-prefixed string from a field of fixed size and skips the rest of the
field. -/
theorem readstring_field (n : Nat) (str pad rest : List Nat) (hs : str.length < 256)
    (hn : str.length + pad.length + 1 = n) :
    readstring n (str.length :: str ++ pad ++ rest) = some (str, rest) := by
  have h1 : readU 1 (str.length :: (str ++ (pad ++ rest))) = some (str.length, str ++ (pad ++ rest)) := by
    simp [readU, read, unpackU]
  simp only [List.cons_append, List.append_assoc]
  unfold readstring
  rw [h1]
  have h2 : str.length ≤ n - 1 := by omega
  have h3 : n - 1 = (str ++ pad).length := by simp; omega
  simp only [h2, if_true, read]
  rw [h3, ← List.append_assoc, List.take_left, List.drop_left, List.take_left]

example : readS 2 (putS 2 (-300) ++ [7]) = some (-300, [7]) := by decide
example : readint 3 true (putS 3 (-70000) ++ [7]) = some (-70000, [7]) := by decide
example : readint24 (putS 3 (-70000) ++ [7]) = some (16707216, [7]) := by decide
example : readstring 6 [2, 65, 66, 0, 0, 0, 9] = some ([65, 66], [9]) := by decide

end PyX.Reader
