import Verif.Texter.Model
import Verif.Tick.Props
import Mathlib.Data.List.Basic
import Mathlib.Data.List.Nodup
import Mathlib.Tactic.Linarith
import Mathlib.Tactic.Ring
import Mathlib.Tactic.LinearCombination
import Mathlib.Tactic.FieldSimp
import Mathlib.Tactic.NormNum
import Mathlib.Tactic.Positivity
import Mathlib.Algebra.Order.Ring.Abs

/-!
# Property C18: decimal labels denote the tick value
-/

namespace PyX.Texter
open PyX.Tick

/-! ## Specification: how a decimal label is read -/

/-- Value of a text behind the decimal point: digits, then possibly an overlined group of digits that is repeated forever. -/
def readFrac (s : List Char) : Option ℚ :=
  let a := s.takeWhile isDigit
  let r := s.dropWhile isDigit
  if r = [] then some ((toInt a : ℚ) / 10 ^ a.length)
  else
    let p := "\\overline{".toList
    let r' := r.drop p.length
    let b := r'.takeWhile isDigit
    if p <+: r ∧ r'.dropWhile isDigit = ['}'] ∧ b ≠ [] then
      some (((toInt a : ℚ) + (toInt b : ℚ) / (10 ^ b.length - 1)) / 10 ^ a.length)
    else none

/-- Value of a non-negative decimal number: digits, possibly a point and a fractional part. -/
def readBody (s : List Char) : Option ℚ :=
  let i := s.takeWhile isDigit
  if i = [] then none else
  match s.dropWhile isDigit with
  | [] => some ((toInt i : ℕ) : ℚ)
  | '.' :: r => (readFrac r).map ((toInt i : ℚ) + ·)
  | _ => none

/-- Value of a number with sign. -/
def readDecimal : List Char → Option ℚ
  | '-' :: s => (readBody s).map (- ·)
  | s => readBody s

example : readDecimal "-12.3\\overline{45}".toList = some (-(12 + (3 + 45 / 99) / 10)) := by decide +kernel

/-! ## Digits -/

def AllDigits (s : List Char) : Prop := ∀ c ∈ s, isDigit c = true

theorem isDigit_iff (c : Char) : isDigit c = c.isDigit := by
  simp [isDigit, Char.isDigit, Char.le_def]

theorem str_digits (n : Nat) : AllDigits (str n) := fun c hc => by
  rw [isDigit_iff]; exact Nat.isDigit_of_mem_toDigits (by decide) (by decide) hc

theorem str_ne (n : Nat) : str n ≠ [] := Nat.toDigits_ne_nil

theorem toInt_str (n : Nat) : toInt (str n) = n := Nat.ofDigitChars_ten_toDigits

theorem str_small (n : Nat) (h : n < 10) : (str n).length = 1 := by
  unfold str; rw [Nat.toDigits_of_lt_base h]; rfl

theorem toInt_append (a b : List Char) : toInt (a ++ b) = toInt a * 10 ^ b.length + toInt b := by
  have h1 : toInt (a ++ b) = Nat.ofDigitChars 10 (a ++ b) 0 := rfl
  rw [h1, Nat.ofDigitChars_append, Nat.ofDigitChars_eq_ofDigitChars_zero]
  have h2 : Nat.ofDigitChars 10 b 0 = toInt b := rfl
  have h3 : Nat.ofDigitChars 10 a 0 = toInt a := rfl
  rw [h2, h3, mul_comm]

theorem toInt_zeros (k : Nat) : toInt (List.replicate k '0') = 0 := by
  have h1 : toInt (List.replicate k '0') = Nat.ofDigitChars 10 (List.replicate k '0') 0 := rfl
  rw [h1, Nat.ofDigitChars_replicate_zero, mul_zero]

theorem allDigits_append {a b : List Char} (ha : AllDigits a) (hb : AllDigits b) : AllDigits (a ++ b) := by
  intro c hc
  rcases List.mem_append.1 hc with h | h
  · exact ha c h
  · exact hb c h

theorem allDigits_zeros (k : Nat) : AllDigits (List.replicate k '0') := by
  intro c hc; rw [List.eq_of_mem_replicate hc]; decide

theorem takeWhile_digits (a r : List Char) (ha : AllDigits a) (hr : ∀ c ∈ r.head?, isDigit c = false) :
    (a ++ r).takeWhile isDigit = a ∧ (a ++ r).dropWhile isDigit = r := by
  induction a with
  | nil =>
    cases r with
    | nil => simp
    | cons c r => have := hr c (by simp); simp [this]
  | cons x a ih =>
    have hx := ha x (by simp)
    have := ih fun c hc => ha c (by simp [hc])
    simp [hx, this]

/-! ## The loop -/

/-- What the loop finds for the remainder `r0` over `n`. -/
inductive Expansion (n r0 : Nat) : List Char → List Char → Prop
  | finite {a} : AllDigits a → r0 * 10 ^ a.length = toInt a * n → Expansion n r0 a []
  | recurring {a b r} : AllDigits a → AllDigits b → b ≠ [] → r0 * 10 ^ a.length = toInt a * n + r →
      r * 10 ^ b.length = toInt b * n + r → Expansion n r0 a b

theorem decLoop_spec (c : Decimal) (hsep : c.thousandthpartsep = []) (n : Nat) (hn : 0 < n) (r0 : Nat) (base : List Char)
    (fuel rem : Nat) (olds : List Nat) (ds : List Char) (hrem : rem < n) (hds : AllDigits ds) (hlen : ds.length = olds.length)
    (hr0 : (olds ++ [rem])[0]? = some r0)
    (inv : ∀ (i r : Nat), (olds ++ [rem])[i]? = some r → r * 10 ^ (olds.length - i) = toInt (ds.drop i) * n + rem)
    (hnd : olds.Nodup) (hlt : ∀ r ∈ olds, r < n) (hfuel : fuel + olds.length = n + 1) :
    (∃ a, decLoop c n fuel rem olds (base ++ ds) olds.length = some (base ++ a, some a.length) ∧ Expansion n r0 a []) ∨
    (∃ a b, decLoop c n fuel rem olds (base ++ ds) olds.length = some (base ++ a ++ (c.period.1 ++ b ++ c.period.2), none) ∧
      b ≠ [] ∧ Expansion n r0 a b) := by
  induction fuel generalizing rem olds ds with
  | zero =>
    exfalso
    have : olds.length ≤ (List.range n).length :=
      (List.Nodup.subperm hnd fun r hr => List.mem_range.2 (hlt r hr)).length_le
    rw [List.length_range] at this
    omega
  | succ fuel ih =>
    have i0 := inv 0 r0 hr0
    simp only [Nat.sub_zero, List.drop_zero] at i0
    by_cases h0 : rem = 0
    · left
      refine ⟨ds, ?_, .finite hds ?_⟩
      · simp [decLoop, h0, hlen]
      · rw [hlen, i0, h0, add_zero]
    · by_cases hm : rem ∈ olds
      · right
        have hi : olds.idxOf rem < olds.length := List.idxOf_lt_length_iff.2 hm
        have hget : (olds ++ [rem])[olds.idxOf rem]? = some rem := by
          rw [List.getElem?_append_left hi, List.getElem?_eq_getElem hi, List.getElem_idxOf hi]
        have i1 := inv _ _ hget
        set k := olds.idxOf rem with hk
        have hps : (base ++ ds).length - (olds.length - k) = base.length + k := by
          rw [List.length_append]; omega
        refine ⟨ds.take k, ds.drop k, ?_, ?_, .recurring (r := rem) ?_ ?_ ?_ ?_ ?_⟩
        · simp only [decLoop, if_neg h0, if_pos hm, ← hk]
          rw [hps]
          congr 2
          rw [List.take_length_add_append, List.drop_length_add_append]
        · intro h
          have := congrArg List.length h
          simp at this; omega
        · exact fun x hx => hds x (List.mem_of_mem_take hx)
        · exact fun x hx => hds x (List.mem_of_mem_drop hx)
        · intro h
          have := congrArg List.length h
          simp at this; omega
        · have e1 : toInt ds = toInt (ds.take k) * 10 ^ (olds.length - k) + toInt (ds.drop k) := by
            conv_lhs => rw [← List.take_append_drop k ds]
            rw [toInt_append, List.length_drop, hlen]
          have e2 : (ds.take k).length = k := by rw [List.length_take]; omega
          rw [e2]
          have e3 : 10 ^ olds.length = 10 ^ k * 10 ^ (olds.length - k) := by rw [← pow_add]; congr 1; omega
          rw [e1, e3] at i0
          have hp : 0 < 10 ^ (olds.length - k) := by positivity
          apply Nat.eq_of_mul_eq_mul_right hp
          rw [add_mul, i1]
          rw [mul_assoc, i0]; ring
        · rw [List.length_drop, hlen, i1]
      · -- one more digit
        have hstep : decLoop c n (fuel + 1) rem olds (base ++ ds) olds.length =
            decLoop c n fuel (rem * 10 % n) (olds ++ [rem]) (base ++ (ds ++ str (rem * 10 / n))) (olds ++ [rem]).length := by
          simp only [decLoop, if_neg h0, if_neg hm, hsep, ite_self, List.append_nil, List.append_assoc, List.length_append,
            List.length_cons, List.length_nil, Nat.zero_add]
        rw [hstep]
        have hq : rem * 10 / n < 10 := by rw [Nat.div_lt_iff_lt_mul hn]; nlinarith
        apply ih
        · exact Nat.mod_lt _ hn
        · exact allDigits_append hds (str_digits _)
        · simp [hlen, str_small _ hq]
        · cases olds with
          | nil => simpa using hr0
          | cons x l => simpa using hr0
        · intro i r hi
          have hdm := Nat.div_add_mod (rem * 10) n
          by_cases hlast : i = olds.length + 1
          · subst hlast
            have : r = rem * 10 % n := by
              have := hi; rw [List.getElem?_append_right (by simp)] at this; simpa using this.symm
            have hd : (ds ++ str (rem * 10 / n)).drop (olds.length + 1) = [] := by
              rw [List.drop_eq_nil_iff]; simp [hlen, str_small _ hq]
            rw [hd, this]
            simp [toInt]
          · have hil : i < (olds ++ [rem]).length := by
              have := (List.getElem?_eq_some_iff.1 hi).1; simp at this ⊢; omega
            rw [List.getElem?_append_left hil] at hi
            have hile : i ≤ ds.length := by simp at hil; omega
            have i2 := inv i r hi
            rw [List.drop_append_of_le_length hile, toInt_append, str_small _ hq, toInt_str]
            have e : (olds ++ [rem]).length - i = (olds.length - i) + 1 := by simp at hil ⊢; omega
            rw [e, pow_succ, ← mul_assoc, i2]
            calc (toInt (ds.drop i) * n + rem) * 10 = toInt (ds.drop i) * 10 * n + rem * 10 := by ring
              _ = _ := by rw [pow_one, add_mul, add_assoc, mul_comm (rem * 10 / n) n, hdm]
        · rw [List.nodup_append]
          refine ⟨hnd, by simp, ?_⟩
          intro a ha b hb
          simp at hb
          subst hb
          intro hab; subst hab; exact hm ha
        · intro r hr
          rcases List.mem_append.1 hr with h | h
          · exact hlt r h
          · simp at h; omega
        · simp; omega

/-! ## Labels of single ticks -/

theorem intPart_plain (c : Decimal) (h : c.thousandsep = []) (q : Nat) : intPart c q = str q := by simp [intPart, h]

/-- The separators between groups of three digits do not change the digits of the integer part. -/
theorem intPart_filter (c : Decimal) (h : ∀ ch ∈ c.thousandsep, isDigit ch = false) (q : Nat) :
    (intPart c q).filter isDigit = str q := by
  have hd := str_digits q
  have fs : c.thousandsep.filter isDigit = [] := by
    rw [List.filter_eq_nil_iff]; intro x hx; simp [h x hx]
  unfold intPart
  dsimp only
  split
  · generalize str q = s at hd
    have gen : ∀ (s : List Char) (f : Nat → Char → List Char), AllDigits s → (∀ i x, f i x = x :: c.thousandsep ∨ f i x = [x]) →
        (s.mapIdx f).flatten.filter isDigit = s := by
      intro s
      induction s with
      | nil => intro f _ _; rfl
      | cons x s ih =>
        intro f hs hf
        have hx := hs x (by simp)
        rw [List.mapIdx_cons, List.flatten_cons, List.filter_append,
          ih (fun i x => f (i + 1) x) (fun y hy => hs y (by simp [hy])) (fun i x => hf (i + 1) x)]
        rcases hf 0 x with e | e <;> simp [e, hx, fs]
    exact gen s _ hd fun i x => by
      by_cases hc : (s.length - i - 1) % 3 = 0 ∧ s.length > i + 1
      · left; rw [if_pos hc]
      · right; rw [if_neg hc]
  · rw [List.filter_eq_self.2 hd]

/-- Parameters with which labels are read as ordinary decimal numbers. -/
structure Plain (c : Decimal) : Prop where
  sep : c.decimalsep = ['.']
  thousand : c.thousandsep = []
  thousandth : c.thousandthpartsep = []
  period : c.period = ("\\overline{".toList, "}".toList)

/-- The raw label: integer digits, then possibly point and digits, possibly with period. -/
theorem rawLabel_spec (c : Decimal) (hc : Plain c) (t : Frac) (ht : t.denom ≠ 0) :
    (∃ q a, rawLabel c t = some (str q ++ (if a = [] then [] else '.' :: a), some a.length) ∧
      AllDigits a ∧ |t.val| = q + (toInt a : ℚ) / 10 ^ a.length) ∨
    (∃ q a b, rawLabel c t = some (str q ++ '.' :: (a ++ ("\\overline{".toList ++ b ++ "}".toList)), none) ∧
      AllDigits a ∧ AllDigits b ∧ b ≠ [] ∧
      |t.val| = q + ((toInt a : ℚ) + (toInt b : ℚ) / (10 ^ b.length - 1)) / 10 ^ a.length) := by
  set m := t.num.natAbs with hm
  set n := t.denom.natAbs with hn
  have hn0 : 0 < n := by omega
  have hnq : (n : ℚ) ≠ 0 := by exact_mod_cast hn0.ne'
  have hval : |t.val| = (m / n : ℕ) + ((m % n : ℕ) : ℚ) / n := by
    have h1 : |t.val| = (m : ℚ) / n := by
      rw [Frac.val, abs_div, hm, hn]
      rw [Nat.cast_natAbs, Nat.cast_natAbs, Int.cast_abs, Int.cast_abs]
    rw [h1]
    have h2 := Nat.div_add_mod m n
    have h3 : (m : ℚ) = n * (m / n : ℕ) + (m % n : ℕ) := by exact_mod_cast h2.symm
    field_simp
    linarith
  by_cases h0 : m % n = 0
  · left
    refine ⟨m / n, [], ?_, by simp [AllDigits], ?_⟩
    · simp [rawLabel, ← hm, ← hn, h0, decLoop, intPart_plain c hc.thousand]
    · rw [hval, h0]; simp [toInt]
  · have hraw : rawLabel c t = decLoop c n (n + 1) (m % n) [] (str (m / n) ++ ['.'] ++ []) ([] : List Nat).length := by
      simp [rawLabel, ← hm, ← hn, h0, intPart_plain c hc.thousand, hc.sep]
    have := decLoop_spec c hc.thousandth n hn0 (m % n) (str (m / n) ++ ['.']) (n + 1) (m % n) [] [] (Nat.mod_lt _ hn0)
      (by simp [AllDigits]) rfl rfl (by
        intro i r hi
        cases i with
        | zero => simp at hi; subst hi; simp [toInt]
        | succ i => simp at hi) List.nodup_nil (by simp) (by simp)
    rw [← hraw] at this
    rcases this with ⟨a, e, hx⟩ | ⟨a, b, e, hb, hx⟩
    · left
      cases hx with
      | finite hd heq =>
        have hane : a ≠ [] := by
          rintro rfl
          simp [toInt] at heq
          exact h0 heq
        refine ⟨m / n, a, by rw [e]; simp [hane], hd, ?_⟩
        rw [hval]
        congr 1
        rw [div_eq_div_iff hnq (by positivity)]
        exact_mod_cast heq
      | recurring _ _ hne => exact absurd rfl hne
    · right
      cases hx with
      | finite => exact absurd rfl hb
      | recurring ha hbd hbne h1 h2 =>
        rename_i r
        refine ⟨m / n, a, b, by rw [e, hc.period]; simp, ha, hbd, hb, ?_⟩
        rw [hval]
        congr 1
        have hl : 0 < b.length := List.length_pos_iff.2 hb
        have h10 : (10 : ℚ) ^ b.length - 1 ≠ 0 := by
          have : (1 : ℚ) < 10 ^ b.length := one_lt_pow₀ (by norm_num) hl.ne'
          linarith
        have q1 : ((m % n : ℕ) : ℚ) * 10 ^ a.length = toInt a * n + r := by exact_mod_cast h1
        have q2 : (r : ℚ) * 10 ^ b.length = toInt b * n + r := by exact_mod_cast h2
        have q3 : (r : ℚ) / n = toInt b / (10 ^ b.length - 1) := by
          rw [div_eq_div_iff hnq h10]; linear_combination q2
        rw [← q3, div_eq_div_iff hnq (by positivity), q1]
        field_simp

/-! ## Reading the labels -/

theorem readBody_int (q : Nat) : readBody (str q) = some (q : ℚ) := by
  have := takeWhile_digits (str q) [] (str_digits q) (by simp)
  simp only [List.append_nil] at this
  unfold readBody
  simp only [this.1, this.2, str_ne, if_false, toInt_str]

theorem readBody_point (q : Nat) (r : List Char) : readBody (str q ++ '.' :: r) = (readFrac r).map ((q : ℚ) + ·) := by
  have := takeWhile_digits (str q) ('.' :: r) (str_digits q) (by simp; decide)
  unfold readBody
  simp only [this.1, this.2, str_ne, if_false, toInt_str]

theorem readFrac_finite (a : List Char) (ha : AllDigits a) : readFrac a = some ((toInt a : ℚ) / 10 ^ a.length) := by
  have := takeWhile_digits a [] ha (by simp)
  simp only [List.append_nil] at this
  unfold readFrac
  simp only [this.1, this.2, if_true]

theorem readFrac_recurring (a b : List Char) (ha : AllDigits a) (hb : AllDigits b) (hne : b ≠ []) :
    readFrac (a ++ ("\\overline{".toList ++ b ++ "}".toList)) =
      some (((toInt a : ℚ) + (toInt b : ℚ) / (10 ^ b.length - 1)) / 10 ^ a.length) := by
  have h1 := takeWhile_digits a ("\\overline{".toList ++ b ++ "}".toList) ha (by simp; decide)
  have h2 := takeWhile_digits b "}".toList hb (by simp; decide)
  have h3 : ("\\overline{".toList ++ b ++ "}".toList).drop "\\overline{".toList.length = b ++ "}".toList := by
    rw [List.append_assoc, List.drop_left]
  unfold readFrac
  simp only [h1.1, h1.2, h3, h2.1, h2.2]
  rw [if_neg (by simp), if_pos]
  refine ⟨?_, rfl, hne⟩
  rw [List.append_assoc]; exact List.prefix_append _ _

theorem foldl_zeros (l : List Char) (is : List Nat) :
    is.foldl (fun label (_ : Nat) => label ++ ['0']) l = l ++ List.replicate is.length '0' := by
  induction is generalizing l with
  | nil => simp
  | cons i is ih =>
    rw [List.foldl_cons, ih, List.append_assoc, List.length_cons, List.replicate_succ]; rfl

/-- The body of a label (after padding) denotes the absolute value. -/
theorem padded_spec (c : Decimal) (hc : Plain c) (t : Frac) (ht : t.denom ≠ 0) (maxdec : Nat) :
    ∃ raw, rawLabel c t = some raw ∧ readBody (padded c maxdec raw) = some |t.val| ∧
      (c.equalprecision = true → (∀ p, raw.2 = some p → p ≤ maxdec) → raw.2 = none ∨
        ∃ q f, AllDigits f ∧ f.length = maxdec ∧ padded c maxdec raw = str q ++ if maxdec = 0 then [] else '.' :: f) := by
  rcases rawLabel_spec c hc t ht with ⟨q, a, e, ha, hv⟩ | ⟨q, a, b, e, ha, hb, hne, hv⟩
  · refine ⟨_, e, ?_⟩
    have shape : c.equalprecision = true → padded c maxdec (str q ++ (if a = [] then [] else '.' :: a), some a.length) =
        str q ++ if a ++ List.replicate (maxdec - a.length) '0' = [] then [] else '.' :: (a ++ List.replicate (maxdec - a.length) '0') := by
      intro hep
      unfold padded
      simp only [hep, if_true, hc.thousandth, ite_self, List.append_nil]
      rw [foldl_zeros, List.length_range', hc.sep]
      by_cases han : a = []
      · subst han
        by_cases hm : maxdec = 0
        · subst hm; simp
        · have : 0 < maxdec := by omega
          simp [hm, this]
      · have : a.length ≠ 0 := by simpa using han
        simp [han]
    constructor
    · by_cases hep : c.equalprecision = true
      · rw [shape hep, hv]
        by_cases hnil : a ++ List.replicate (maxdec - a.length) '0' = []
        · rw [if_pos hnil, List.append_nil, readBody_int]
          rw [List.append_eq_nil_iff] at hnil
          rw [hnil.1]; simp [toInt]
        · rw [if_neg hnil, readBody_point, readFrac_finite _ (allDigits_append ha (allDigits_zeros _)), toInt_append, toInt_zeros,
            List.length_append, pow_add]
          simp only [Option.map_some, List.length_replicate, add_zero]
          congr 2
          push_cast
          rw [mul_div_mul_right _ _ (by positivity)]
      · have : padded c maxdec (str q ++ (if a = [] then [] else '.' :: a), some a.length) = str q ++ (if a = [] then [] else '.' :: a) := by
          simp [padded, hep]
        rw [this, hv]
        by_cases han : a = []
        · subst han; simp [readBody_int, toInt]
        · rw [if_neg han, readBody_point, readFrac_finite _ ha]; rfl
    · intro hep hle
      right
      refine ⟨q, a ++ List.replicate (maxdec - a.length) '0', allDigits_append ha (allDigits_zeros _), ?_, ?_⟩
      · have := hle _ rfl; simp; omega
      · rw [shape hep]
        have hl := hle _ rfl
        congr 1
        by_cases hm : maxdec = 0
        · have : a = [] := by simpa [hm] using hl
          simp [hm, this]
        · rw [if_neg hm, if_neg]
          intro h
          rw [List.append_eq_nil_iff] at h
          rw [h.1] at h
          simp at h
          exact hm h
  · refine ⟨_, e, ?_, fun _ _ => .inl rfl⟩
    have : padded c maxdec (str q ++ '.' :: (a ++ ("\\overline{".toList ++ b ++ "}".toList)), none) =
        str q ++ '.' :: (a ++ ("\\overline{".toList ++ b ++ "}".toList)) := by
      unfold padded; split <;> rfl
    rw [this, readBody_point, readFrac_recurring a b ha hb hne, hv]; rfl

theorem mapM_some {α β : Type} (f : α → Option β) (g : α → β) (l : List α) (h : ∀ a ∈ l, f a = some (g a)) : l.mapM f = some (l.map g) := by
  induction l with
  | nil => rfl
  | cons a l ih =>
    rw [List.mapM_cons, h a (by simp), ih fun b hb => h b (by simp [hb])]; rfl

theorem le_maxPrec (ls : List (List Char × Option Nat)) : ∀ l ∈ ls, ∀ p, l.2 = some p → p ≤ maxPrec ls := by
  have gen : ∀ (ls : List (List Char × Option Nat)) (m : Nat), m ≤ ls.foldl (fun m l => max m (l.2.getD 0)) m ∧
      ∀ l ∈ ls, ∀ p, l.2 = some p → p ≤ ls.foldl (fun m l => max m (l.2.getD 0)) m := by
    intro ls
    induction ls with
    | nil => intro m; exact ⟨le_rfl, by simp⟩
    | cons x ls ih =>
      intro m
      rw [List.foldl_cons]
      obtain ⟨h1, h2⟩ := ih (max m (x.2.getD 0))
      refine ⟨(le_max_left _ _).trans h1, ?_⟩
      intro l hl p hp
      rcases List.mem_cons.1 hl with rfl | hl
      · refine (le_trans ?_ (le_max_right _ _)).trans h1
        simp [hp]
      · exact h2 l hl p hp
  exact (gen ls 0).2

/-- C18: each label is the decorated text of a decimal number that is exactly the absolute value of the tick, with
the sign of the tick; with `equalprecision` all labels without period have the same number of digits after the point. -/
theorem decimal_exact (c : Decimal) (hc : Plain c) (ts : List Frac) (hts : ∀ t ∈ ts, t.denom ≠ 0) :
    ∃ ls, decimalTexts c ts = some ls ∧ ls.length = ts.length ∧
      ∀ (i : ℕ) (t : Frac), ts[i]? = some t → ∃ body,
        ls[i]? = some (c.pre ++ (if t.val < 0 then c.minus else c.plus) ++ c.inf ++ body ++ c.suf) ∧
        readBody body = some |t.val| := by
  have hraw : ∀ t ∈ ts, rawLabel c t = some ((rawLabel c t).getD ([], none)) := by
    intro t ht
    obtain ⟨raw, h, -⟩ := padded_spec c hc t (hts t ht) 0
    rw [h]; rfl
  set g : Frac → List Char × Option Nat := fun t => (rawLabel c t).getD ([], none) with hg
  have hm := mapM_some (rawLabel c) g ts hraw
  refine ⟨_, by unfold decimalTexts; rw [hm]; rfl, by simp, ?_⟩
  intro i t hi
  have htm : t ∈ ts := List.mem_of_getElem? hi
  obtain ⟨raw, h1, h2, -⟩ := padded_spec c hc t (hts t htm) (maxPrec (ts.map g))
  refine ⟨padded c (maxPrec (ts.map g)) raw, ?_, h2⟩
  have hgt : g t = raw := by simp [hg, h1]
  rw [List.getElem?_zipWith, hi, List.getElem?_map, hi]
  simp only [Option.map_some, hgt, Option.some.injEq, decorate]
  have hsign : (t.num * t.denom < 0) ↔ t.val < 0 := by
    have hd : (t.denom : ℚ) ≠ 0 := by exact_mod_cast hts t htm
    rw [Frac.val, div_neg_iff, mul_neg_iff]
    norm_cast
  simp only [hsign]

/-- C18: with `equalprecision`, the labels without period have a common number of digits after the point. -/
theorem equalprecision_spec (c : Decimal) (hc : Plain c) (hep : c.equalprecision = true) (ts : List Frac) (hts : ∀ t ∈ ts, t.denom ≠ 0) :
    ∃ k : ℕ, ∀ t ∈ ts, ∃ raw, rawLabel c t = some raw ∧ (raw.2 = none ∨
      ∃ q f, AllDigits f ∧ f.length = k ∧ padded c k raw = str q ++ if k = 0 then [] else '.' :: f) := by
  set g : Frac → List Char × Option Nat := fun t => (rawLabel c t).getD ([], none) with hg
  refine ⟨maxPrec (ts.map g), ?_⟩
  intro t ht
  obtain ⟨raw, h1, -, h3⟩ := padded_spec c hc t (hts t ht) (maxPrec (ts.map g))
  refine ⟨raw, h1, h3 hep ?_⟩
  have hgt : g t = raw := by simp [hg, h1]
  exact le_maxPrec _ raw (List.mem_map.2 ⟨t, ht, hgt⟩)

/-- C18 for the predefined parameters: the label reads as the tick value. -/
theorem decimal_default (eq : Bool) (ts : List Frac) (hts : ∀ t ∈ ts, t.denom ≠ 0) :
    ∃ ls, decimalTexts { equalprecision := eq } ts = some ls ∧ ls.length = ts.length ∧
      ∀ (i : ℕ) (t : Frac), ts[i]? = some t → ∃ l, ls[i]? = some l ∧ readDecimal l = some t.val := by
  obtain ⟨ls, h1, h2, h3⟩ := decimal_exact { equalprecision := eq } ⟨rfl, rfl, rfl, rfl⟩ ts hts
  refine ⟨ls, h1, h2, ?_⟩
  intro i t hi
  obtain ⟨body, e, hr⟩ := h3 i t hi
  refine ⟨_, e, ?_⟩
  by_cases hneg : t.val < 0
  · simp only [hneg, if_true, List.nil_append, List.append_nil, List.cons_append, readDecimal, hr, Option.map_some]
    rw [abs_of_neg hneg, neg_neg]
  · simp only [hneg, if_false, List.nil_append, List.append_nil]
    rw [abs_of_nonneg (not_lt.1 hneg)] at hr
    rw [← hr]
    unfold readDecimal
    split
    · rename_i s
      rw [readBody] at hr
      have : ('-' :: s).takeWhile isDigit = [] := by rw [List.takeWhile_cons, if_neg (by decide)]
      rw [this] at hr
      simp at hr
    · rfl

theorem store_no (t : T) (ts : List T) (ls : List (List Char)) (h : wants t = false) : store (t :: ts) ls = t :: store ts ls := by
  cases ls <;> simp [store, h]

/-- The labels go to the ticks that want one; other ticks are kept. -/
theorem store_spec (ticks : List T) (ls : List (List Char)) (h : ls.length = (ticks.filter wants).length) :
    (store ticks ls).length = ticks.length ∧
    (∀ (i : ℕ) (t : T), ticks[i]? = some t → wants t = false → (store ticks ls)[i]? = some t) ∧
    (∀ (i : ℕ) (t : T), ticks[i]? = some t → wants t = true → ∃ l, ls[((ticks.take i).filter wants).length]? = some l ∧
      (store ticks ls)[i]? = some { t with label := some (String.ofList l) }) := by
  induction ticks generalizing ls with
  | nil => simp [store]
  | cons t ticks ih =>
    by_cases hw : wants t = true
    · cases ls with
      | nil => simp [hw] at h
      | cons l ls =>
        have h' : ls.length = (ticks.filter wants).length := by simpa [hw] using h
        obtain ⟨i1, i2, i3⟩ := ih ls h'
        rw [store, if_pos hw]
        refine ⟨by simp [i1], ?_, ?_⟩
        · intro i t' hi hn
          cases i with
          | zero => simp at hi; subst hi; rw [hw] at hn; cases hn
          | succ i => simpa using i2 i t' (by simpa using hi) hn
        · intro i t' hi hy
          cases i with
          | zero => simp at hi; subst hi; exact ⟨l, by simp, by simp⟩
          | succ i =>
            obtain ⟨l', h1, h2⟩ := i3 i t' (by simpa using hi) hy
            exact ⟨l', by simpa [hw] using h1, by simpa using h2⟩
    · have hw' : wants t = false := by simpa using hw
      have h' : ls.length = (ticks.filter wants).length := by simpa [hw'] using h
      obtain ⟨i1, i2, i3⟩ := ih ls h'
      rw [store_no t ticks ls hw']
      refine ⟨by simp [i1], ?_, ?_⟩
      · intro i t' hi hn
        cases i with
        | zero => simpa using hi
        | succ i => simpa using i2 i t' (by simpa using hi) hn
      · intro i t' hi hy
        cases i with
        | zero => simp at hi; subst hi; rw [hw'] at hy; cases hy
        | succ i =>
          obtain ⟨l', h1, h2⟩ := i3 i t' (by simpa using hi) hy
          exact ⟨l', by simpa [hw'] using h1, by simpa using h2⟩

example : decimalTexts {} [⟨1, 3⟩, ⟨-5, 4⟩, ⟨7, 12⟩, ⟨3, 1⟩] =
    some ["0.\\overline{3}".toList, "-1.25".toList, "0.58\\overline{3}".toList, "3".toList] := by decide +kernel
example : decimalTexts { equalprecision := true } [⟨1, 2⟩, ⟨-5, 4⟩, ⟨3, 1⟩] =
    some ["0.50".toList, "-1.25".toList, "3.00".toList] := by decide +kernel
example : decimalTexts { thousandsep := [','] } [⟨1234567, 1⟩, ⟨100, 1⟩] =
    some ["1,234,567".toList, "100".toList] := by decide +kernel

/-- With a separator between the digits after the point the period is put at the wrong place: 1/7 is written 0.1 with
period 42857 (the start of the period is computed from the number of digits, but the label has separators as well, l. 111). -/
theorem period_misplaced : decimalTexts { thousandthpartsep := [','] } [⟨1, 7⟩] = some ["0.1\\overline{42,857}".toList] ∧
    readDecimal "0.1\\overline{42857}".toList ≠ some (1 / 7) := by decide +kernel

/-- Padding zeros get the separators one digit later than computed digits (l. 117 and l. 129). -/
theorem padding_separators : decimalTexts { equalprecision := true, thousandthpartsep := [','] } [⟨1, 1000000⟩, ⟨1, 2⟩] =
    some ["0.000,001".toList, "0.5000,00".toList] := by decide +kernel

end PyX.Texter
