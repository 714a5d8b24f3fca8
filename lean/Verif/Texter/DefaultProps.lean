import Verif.Texter.DecimalProps
import Mathlib.Algebra.Order.Archimedean.Basic
import Mathlib.Tactic.Push
import Mathlib.Data.Rat.Lemmas
import Mathlib.Data.Nat.Cast.Field
import Mathlib.Algebra.BigOperators.Ring.List
import Mathlib.Algebra.GCDMonoid.Nat

/-!
# Properties C71 (labels of the default texter) and C19 (labels of the rational texter)
-/

namespace PyX.Texter
open PyX.Tick

/-! ## Mantissa and exponent -/

theorem downLoop_spec (b : ℚ) (hb : 1 < b) (m : ℚ) (hm : 0 < m) (e : ℤ) :
    ∃ m' e', DownLoop b m e m' e' ∧ (∀ m2 e2, DownLoop b m e m2 e2 → m2 = m' ∧ e2 = e') ∧ 0 < m' ∧ m' < b ∧
      m' * b ^ e' = m * b ^ e := by
  obtain ⟨n, hn⟩ := pow_unbounded_of_one_lt m hb
  have hb0 : b ≠ 0 := by linarith
  induction n generalizing m e with
  | zero =>
    have h : ¬ m ≥ b := by simp at hn; exact not_le.2 (by linarith)
    refine ⟨m, e, .stop h, ?_, hm, not_le.1 h, rfl⟩
    intro m2 e2 h2
    cases h2 with
    | stop => exact ⟨rfl, rfl⟩
    | next h' => exact absurd h' h
  | succ n ih =>
    by_cases h : m ≥ b
    · obtain ⟨m', e', h1, h2, h3, h4, h5⟩ := ih (m / b) (div_pos hm (by linarith)) (e + 1)
        (by rw [div_lt_iff₀ (by linarith), ← pow_succ]; exact hn)
      refine ⟨m', e', .next h h1, ?_, h3, h4, ?_⟩
      · intro m2 e2 hx
        cases hx with
        | stop h' => exact absurd h h'
        | next _ h' => exact h2 m2 e2 h'
      · rw [h5, zpow_add_one₀ hb0]; field_simp
    · refine ⟨m, e, .stop h, ?_, hm, not_le.1 h, rfl⟩
      intro m2 e2 h2
      cases h2 with
      | stop => exact ⟨rfl, rfl⟩
      | next h' => exact absurd h' h

theorem upLoop_spec (b : ℚ) (hb : 1 < b) (m : ℚ) (hm : 0 < m) (hmb : m < b) (e : ℤ) :
    ∃ m' e', UpLoop b m e m' e' ∧ (∀ m2 e2, UpLoop b m e m2 e2 → m2 = m' ∧ e2 = e') ∧ 1 ≤ m' ∧ m' < b ∧
      m' * b ^ e' = m * b ^ e := by
  obtain ⟨n, hn⟩ := pow_unbounded_of_one_lt (1 / m) hb
  have hb0 : b ≠ 0 := by linarith
  induction n generalizing m e with
  | zero =>
    have h : ¬ m < 1 := by
      rw [pow_zero, div_lt_one hm] at hn
      exact not_lt.2 hn.le
    refine ⟨m, e, .stop h, ?_, not_lt.1 h, hmb, rfl⟩
    intro m2 e2 h2
    cases h2 with
    | stop => exact ⟨rfl, rfl⟩
    | next h' => exact absurd h' h
  | succ n ih =>
    by_cases h : m < 1
    · obtain ⟨m', e', h1, h2, h3, h4, h5⟩ := ih (m * b) (mul_pos hm (by linarith)) (by nlinarith) (e - 1)
        (by rw [div_lt_iff₀ (mul_pos hm (by linarith))]
            rw [div_lt_iff₀ hm, pow_succ] at hn
            linarith)
      refine ⟨m', e', .next h h1, ?_, h3, h4, ?_⟩
      · intro m2 e2 hx
        cases hx with
        | stop h' => exact absurd h h'
        | next _ h' => exact h2 m2 e2 h'
      · rw [h5, zpow_sub_one₀ hb0]; field_simp
    · refine ⟨m, e, .stop h, ?_, not_lt.1 h, hmb, rfl⟩
      intro m2 e2 h2
      cases h2 with
      | stop => exact ⟨rfl, rfl⟩
      | next h' => exact absurd h' h

/-- C71: the analysis of a tick ends with exactly one result: the value is sign times mantissa times the power of the base,
and the mantissa is at least 1 and less than the base (but 0 for the value 0). -/
theorem analyse_spec (b : ℚ) (hb : 1 < b) (t : Frac) (ht : 0 < t.denom) :
    ∃ d, Analyse b t d ∧ (∀ d', Analyse b t d' → d' = d) ∧ d.pos = t ∧ (d.sign = 1 ∨ d.sign = -1) ∧
      t.val = d.sign * d.mant * b ^ d.exp ∧ (t.val ≠ 0 → 1 ≤ d.mant ∧ d.mant < b) := by
  by_cases h0 : t.num = 0
  · refine ⟨_, .zero h0, ?_, rfl, .inl rfl, ?_, ?_⟩
    · intro d' h
      cases h with
      | zero => rfl
      | nonzero h => exact absurd h0 h
    · simp [Frac.val, h0]
    · intro h; simp [Frac.val, h0] at h
  · have hd : (0 : ℚ) < t.denom := by exact_mod_cast ht
    have hx : 0 < |(t.num : ℚ) / t.denom| := abs_pos.2 (div_ne_zero (by exact_mod_cast h0) hd.ne')
    obtain ⟨m, e, h1, h2, h3, h4, h5⟩ := downLoop_spec b hb _ hx 0
    obtain ⟨m', e', g1, g2, g3, g4, g5⟩ := upLoop_spec b hb m h3 h4 e
    refine ⟨_, .nonzero h0 h1 g1, ?_, rfl, ?_, ?_, fun _ => ⟨g3, g4⟩⟩
    · intro d' h
      cases h with
      | zero h => exact absurd h h0
      | nonzero _ k1 k2 =>
        obtain ⟨rfl, rfl⟩ := h2 _ _ k1
        obtain ⟨rfl, rfl⟩ := g2 _ _ k2
        rfl
    · dsimp only; split <;> simp
    · have hge : ge t ⟨0, 1⟩ = true ↔ 0 ≤ t.num := by simp [ge, Tick.lt]
      have hv : t.val = (t.num : ℚ) / t.denom := rfl
      simp only [zpow_zero, mul_one] at h5
      dsimp only
      rw [mul_assoc, g5, h5, hv]
      by_cases hn : 0 ≤ t.num
      · rw [if_pos (hge.2 hn), abs_of_nonneg (div_nonneg (by exact_mod_cast hn) hd.le)]; simp
      · rw [if_neg (fun h => hn (hge.1 h)), abs_of_neg (div_neg_of_neg_of_pos (by exact_mod_cast not_le.1 hn) hd)]; simp

theorem analyse_pos {b : ℚ} {t : Frac} {d : Dt} (h : Analyse b t d) : d.pos = t := by cases h <;> rfl

/-- For a negative denominator (which the constructor of ticks admits, e.g. 1 over -2) the sign gets lost. -/
theorem analyse_neg_denom : ∃ d, Analyse 10 ⟨1, -2⟩ d ∧ (⟨1, -2⟩ : Frac).val ≠ d.sign * d.mant * 10 ^ d.exp := by
  refine ⟨⟨⟨1, -2⟩, 1, 5, -1⟩, ?_, by norm_num [Frac.val]⟩
  have h1 : DownLoop 10 |((1 : ℤ) : ℚ) / ((-2 : ℤ) : ℚ)| 0 (1 / 2) 0 := by
    have : |((1 : ℤ) : ℚ) / ((-2 : ℤ) : ℚ)| = 1 / 2 := by norm_num [abs_div]
    rw [this]; exact .stop (by norm_num)
  have h2 : UpLoop 10 (1 / 2) 0 5 (-1) := .next (by norm_num) (by norm_num; exact .stop (by norm_num))
  exact .nonzero (t := ⟨1, -2⟩) (by decide) h1 h2

/-! ## Texts -/

/-- The texts of the predefined decimal texter as a function of the tick. -/
theorem decimal_map (eq : Bool) (ts : List Frac) (hts : ∀ t ∈ ts, t.denom ≠ 0) :
    ∃ F : Frac → List Char, decimalTexts { equalprecision := eq } ts = some (ts.map F) ∧
      ∀ t ∈ ts, readDecimal (F t) = some t.val := by
  obtain ⟨ls, h1, h2, h3⟩ := decimal_default eq ts hts
  obtain ⟨raws, hr⟩ : ∃ raws, ts.mapM (rawLabel { equalprecision := eq }) = some raws := by
    unfold decimalTexts at h1
    cases h : ts.mapM (rawLabel { equalprecision := eq }) with
    | none => rw [h] at h1; cases h1
    | some r => exact ⟨r, rfl⟩
  have hg := mapM_some (rawLabel { equalprecision := eq }) (fun t => (rawLabel { equalprecision := eq } t).getD ([], none)) ts (by
    intro t ht
    obtain ⟨raw, h, -⟩ := padded_spec { equalprecision := eq } ⟨rfl, rfl, rfl, rfl⟩ t (hts t ht) 0
    rw [h]; rfl)
  set g : Frac → List Char × Option Nat := fun t => (rawLabel { equalprecision := eq } t).getD ([], none)
  have e : decimalTexts { equalprecision := eq } ts = some (ts.map fun t => decorate { equalprecision := eq } t
      (padded { equalprecision := eq } (maxPrec (ts.map g)) (g t))) := by
    unfold decimalTexts
    rw [hg]
    simp only [Option.bind_eq_bind, Option.bind_some]
    congr 1
    rw [List.zipWith_map_right, List.zipWith_self]
  refine ⟨_, e, ?_⟩
  rw [e] at h1
  cases h1
  intro t ht
  obtain ⟨i, hi⟩ := List.mem_iff_getElem?.1 ht
  obtain ⟨l, hl, hv⟩ := h3 i t hi
  rw [List.getElem?_map, hi] at hl
  simp only [Option.map_some, Option.some.injEq] at hl
  rw [hl]; exact hv

/-- Specification: what a label of the default texter denotes. -/
inductive Denotes (c : Default) (l : List Char) (v : ℚ) : Prop
  | plain : readDecimal l = some v → Denotes c l v
  | exponential (m b x : List Char) (mv bv : ℚ) (k : ℤ) : readDecimal m = some mv → readDecimal b = some bv → readDecimal x = some (k : ℚ) →
      l = m ++ c.multiplicationtex ++ b ++ "^{".toList ++ x ++ "}".toList → v = mv * bv ^ k → Denotes c l v
  | power (b x : List Char) (bv : ℚ) (k : ℤ) : readDecimal b = some bv → readDecimal x = some (k : ℚ) →
      l = b ++ "^{".toList ++ x ++ "}".toList → v = bv ^ k → Denotes c l v
  | negPower (b x : List Char) (bv : ℚ) (k : ℤ) : readDecimal b = some bv → readDecimal x = some (k : ℚ) →
      l = c.minusunity ++ b ++ "^{".toList ++ x ++ "}".toList → v = - bv ^ k → Denotes c l v

theorem skipped_mant (c : Default) (ds : List Dt) (d : Dt) (hd : d ∈ ds) (h : skipped c ds d = true) : want c ds d = true ∧ d.mant = 1 := by
  unfold skipped at h
  cases hs : c.skip with
  | never => rw [hs] at h; cases h
  | each => rw [hs] at h; simpa using h
  | all =>
    rw [hs] at h
    simp only [Bool.and_eq_true, List.all_eq_true, List.mem_filter, decide_eq_true_eq, and_imp] at h
    exact ⟨h.1, h.2 d hd h.1⟩

theorem assemble_map (c : Default) (ds : List Dt) (base : List Char) (M : Frac → List Char) (E : Frac → List Char) (rest : List Dt)
    (hr : ∀ d ∈ rest, d ∈ ds) :
    assemble c ds base rest (((rest.filter fun d => !skipped c ds d).map (mantTick c ds)).map M)
      (((rest.filter (want c ds)).map fun d => (⟨d.exp, 1⟩ : Frac)).map E) =
    rest.map fun d =>
      if want c ds d then
        if skipped c ds d then (if d.sign = -1 then c.minusunity else []) ++ base ++ "^{".toList ++ E ⟨d.exp, 1⟩ ++ "}".toList
        else M (mantTick c ds d) ++ c.multiplicationtex ++ base ++ "^{".toList ++ E ⟨d.exp, 1⟩ ++ "}".toList
      else M (mantTick c ds d) := by
  induction rest with
  | nil => rfl
  | cons d rest ih =>
    have ih := ih fun d' hd' => hr d' (by simp [hd'])
    by_cases hw : want c ds d = true
    · by_cases hs : skipped c ds d = true
      · rw [assemble, if_pos hw, if_pos hs, List.map_cons, if_pos hw, if_pos hs]
        congr 1
        · simp [hw]
        · rw [← ih]; simp [hw, hs]
      · rw [assemble, if_pos hw, if_neg hs, List.map_cons, if_pos hw, if_neg hs]
        congr 1
        · simp [hw, hs]
        · rw [← ih]; simp [hw, hs]
    · have hs : skipped c ds d = false := by
        by_contra h
        exact hw (skipped_mant c ds d (hr d (by simp)) (by simpa using h)).1
      rw [assemble, if_neg hw, List.map_cons, if_neg hw]
      congr 1
      · simp [hs]
      · rw [← ih]; simp [hw, hs]

theorem ofRat_val (q : ℚ) : (ofRat q).val = q := by
  unfold ofRat Frac.val
  push_cast
  exact Rat.num_div_den q

/-- C71: every label of the default texter denotes the value of its tick (any notation limits, any rule for skipping
unity mantissas, any base greater than one). -/
theorem default_exact (c : Default) (hm : ∃ e, c.mantissatexter = { equalprecision := e }) (hbt : ∃ e, c.basetexter = { equalprecision := e })
    (he : ∃ e, c.exponenttexter = { equalprecision := e }) (hb : 1 < c.base) (ts : List Frac) (hts : ∀ t ∈ ts, 0 < t.denom)
    (ds : List Dt) (han : List.Forall₂ (Analyse c.base) ts ds) :
    ∃ ls, defaultTexts c ds = some ls ∧ ls.length = ts.length ∧
      ∀ (i : ℕ) (t : Frac), ts[i]? = some t → ∃ l, ls[i]? = some l ∧ Denotes c l t.val := by
  obtain ⟨em, hm⟩ := hm
  obtain ⟨eb, hbt⟩ := hbt
  obtain ⟨ee, he⟩ := he
  -- facts about the analysed ticks
  have hds : ∀ d ∈ ds, 0 < d.pos.denom ∧ (d.sign = 1 ∨ d.sign = -1) ∧ d.pos.val = d.sign * d.mant * c.base ^ d.exp := by
    intro d hd
    obtain ⟨i, hi⟩ := List.mem_iff_getElem?.1 hd
    have hlen := han.length_eq
    have hlt : i < ts.length := by have := (List.getElem?_eq_some_iff.1 hi).1; omega
    have := han.get hlt (by omega)
    have e2 : ds.get ⟨i, by omega⟩ = d := by
      rw [List.getElem?_eq_some_iff] at hi; exact hi.2
    rw [e2] at this
    have ht := hts _ (List.get_mem ts ⟨i, hlt⟩)
    obtain ⟨d', h1, h2, h3, h4, h5, -⟩ := analyse_spec c.base hb _ ht
    have := h2 _ this
    subst this
    rw [h3]
    exact ⟨ht, h4, h5⟩
  obtain ⟨B, b1, b2⟩ := decimal_map eb [ofRat c.base] (by simp [ofRat])
  obtain ⟨M, m1, m2⟩ := decimal_map em ((ds.filter fun d => !skipped c ds d).map (mantTick c ds)) (by
    intro t ht
    obtain ⟨d, hd, rfl⟩ := List.mem_map.1 ht
    have := (hds d (List.mem_filter.1 hd).1).1
    unfold mantTick; split
    · simp [ofRat]
    · omega)
  obtain ⟨E, e1, e2⟩ := decimal_map ee ((ds.filter (want c ds)).map fun d => (⟨d.exp, 1⟩ : Frac)) (by
    intro t ht
    obtain ⟨d, hd, rfl⟩ := List.mem_map.1 ht
    simp)
  have hB := b2 _ (List.mem_singleton.2 rfl)
  rw [ofRat_val] at hB
  have hM : ∀ d ∈ ds, skipped c ds d = false → readDecimal (M (mantTick c ds d)) = some (mantTick c ds d).val := by
    intro d hd hs
    exact m2 _ (List.mem_map.2 ⟨d, List.mem_filter.2 ⟨hd, by simp [hs]⟩, rfl⟩)
  have hE : ∀ d ∈ ds, want c ds d = true → readDecimal (E ⟨d.exp, 1⟩) = some (d.exp : ℚ) := by
    intro d hd hw
    have := e2 _ (List.mem_map.2 ⟨d, List.mem_filter.2 ⟨hd, hw⟩, rfl⟩)
    rw [this]; simp [Frac.val]
  refine ⟨_, by
    unfold defaultTexts
    rw [hm, hbt, he, b1, m1, e1]
    rfl, ?_, ?_⟩
  · rw [assemble_map c ds _ M E ds fun _ h => h]; simp [han.length_eq]
  · intro i t hi
    rw [assemble_map c ds _ M E ds fun _ h => h]
    have hlt : i < ts.length := (List.getElem?_eq_some_iff.1 hi).1
    have hlen := han.length_eq
    have hlt' : i < ds.length := by omega
    set d := ds[i] with hd
    have hmem : d ∈ ds := List.getElem_mem hlt'
    have hrel : Analyse c.base t d := by
      have := han.get hlt hlt'
      rw [List.getElem?_eq_some_iff] at hi
      have e3 : ts.get ⟨i, hlt⟩ = t := hi.2
      rw [e3] at this
      exact this
    have hpos : d.pos = t := analyse_pos hrel
    obtain ⟨-, hsign, hval⟩ := hds d hmem
    rw [hpos] at hval
    refine ⟨_, by rw [List.getElem?_map, List.getElem?_eq_getElem hlt']; rfl, ?_⟩
    rw [← hd]
    beta_reduce
    by_cases hw : want c ds d = true
    · rw [if_pos hw]
      by_cases hs : skipped c ds d = true
      · rw [if_pos hs]
        have h1 := (skipped_mant c ds d hmem hs).2
        rcases hsign with h | h
        · refine .power _ _ _ d.exp hB (hE d hmem hw) (by rw [if_neg (by omega)]; rfl) ?_
          rw [hval, h, h1]; simp
        · refine .negPower _ _ _ d.exp hB (hE d hmem hw) (by rw [if_pos h]; rfl) ?_
          rw [hval, h, h1]; simp
      · rw [if_neg hs]
        refine .exponential _ _ _ _ _ d.exp (hM d hmem (by simpa using hs)) hB (hE d hmem hw) rfl ?_
        rw [mantTick, if_pos hw, ofRat_val, hval]
    · rw [if_neg hw]
      have hs : skipped c ds d = false := by
        by_contra h
        exact hw (skipped_mant c ds d hmem (by simpa using h)).1
      have := hM d hmem hs
      rw [mantTick, if_neg hw, hpos] at this
      rw [mantTick, if_neg hw, hpos]
      exact .plain this

/-- C71: with `uniformexponent` all non-zero ticks are written in the same notation. -/
theorem uniform_spec (c : Default) (hu : c.uniformexponent = true) (ds : List Dt) (d1 d2 : Dt) (h1 : d1 ∈ ds) (h2 : d2 ∈ ds)
    (n1 : d1.pos.num ≠ 0) (n2 : d2.pos.num ≠ 0) : want c ds d1 = want c ds d2 := by
  unfold want
  by_cases h : ds.any (want0 c) = true
  · simp [hu, h, n1, n2]
  · have := List.any_eq_false.1 (by simpa using h : ds.any (want0 c) = false)
    have e1 := this d1 h1
    have e2 := this d2 h2
    simp [hu, h, e1, e2]

/-- C71: exponential notation is used exactly if the exponent (of the tick, or for uniform notation of any tick) reaches a limit. -/
theorem want_spec (c : Default) (ds : List Dt) (d : Dt) (hd : d ∈ ds) (h0 : d.pos.num ≠ 0) :
    want c ds d = true ↔ ∃ d' ∈ ds, (c.uniformexponent = false → d' = d) ∧ (c.minexponent ≤ d'.exp ∨ d'.exp ≤ -c.minnegexponent) := by
  have w0 : ∀ d, want0 c d = true ↔ (c.minexponent ≤ d.exp ∨ d.exp ≤ -c.minnegexponent) := by
    intro d
    unfold want0
    rw [Bool.not_eq_true', Bool.and_eq_false_iff, decide_eq_false_iff_not, decide_eq_false_iff_not]
    push Not
    tauto
  unfold want
  rw [Bool.or_eq_true, Bool.and_eq_true, Bool.and_eq_true, List.any_eq_true, w0]
  constructor
  · rintro (h | ⟨⟨h1, d', hd', hw⟩, h2⟩)
    · exact ⟨d, hd, fun _ => rfl, h⟩
    · exact ⟨d', hd', (fun h => by rw [h] at h1; cases h1), (w0 d').1 hw⟩
  · rintro ⟨d', hd', h1, h2⟩
    cases hu : c.uniformexponent with
    | true => exact .inr ⟨⟨rfl, d', hd', (w0 d').2 h2⟩, by simpa using h0⟩
    | false => rw [h1 hu] at h2; exact .inl h2

/-- Concrete case. -/
example : defaultTexts {} [⟨⟨20000, 1⟩, 1, 2, 4⟩, ⟨⟨0, 1⟩, 1, 0, 0⟩, ⟨⟨-500, 1⟩, -1, 5, 2⟩] =
    some ["2\\cdot{}10^{4}".toList, "0".toList, "-5\\cdot{}10^{2}".toList] := by decide +kernel
example : defaultTexts {} [⟨⟨1, 100000⟩, 1, 1, -5⟩, ⟨⟨-1, 1⟩, -1, 1, 0⟩] =
    some ["10^{-5}".toList, "-10^{0}".toList] := by decide +kernel

/-! ## C19 -/

theorem gcdLoop_eq (i j : Nat) : gcdLoop i j = Nat.gcd i j := by
  induction j using Nat.strong_induction_on generalizing i with
  | _ j ih =>
    rw [gcdLoop]
    split
    · rename_i h; simp [h]
    · rename_i h
      rw [ih (i % j) (Nat.mod_lt _ (Nat.pos_of_ne_zero h)) j, Nat.gcd_comm j, Nat.gcd_comm i, Nat.gcd_rec j i]

/-- C19: `gcd` is the greatest common divisor. -/
theorem gcd_eq (i j : Nat) : gcd i j = Nat.gcd i j := by
  unfold gcd; split
  · rw [gcdLoop_eq, Nat.gcd_comm]
  · exact gcdLoop_eq i j

/-- The value of a fraction shown. -/
def Red.val (r : Red) : ℚ := (if r.neg then -1 else 1) * ((r.num : ℚ) / r.denom)

/-- C19: numerator and denominator shown have no common factor, and the fraction with sign is the tick value. -/
theorem reduce_spec (t : Frac) (ht : t.denom ≠ 0) :
    Nat.Coprime (reduce t).num (reduce t).denom ∧ 0 < (reduce t).denom ∧ (reduce t).val = t.val := by
  have hd : 0 < t.denom.natAbs := by omega
  have hg : 0 < Nat.gcd t.num.natAbs t.denom.natAbs := Nat.gcd_pos_of_pos_right _ hd
  have hdq : (t.denom : ℚ) ≠ 0 := by exact_mod_cast ht
  refine ⟨?_, ?_, ?_⟩
  · simp only [reduce, gcd_eq]; exact Nat.coprime_div_gcd_div_gcd hg
  · simp only [reduce, gcd_eq]; exact Nat.div_pos (Nat.gcd_le_right _ hd) hg
  · have hgq : ((Nat.gcd t.num.natAbs t.denom.natAbs : ℕ) : ℚ) ≠ 0 := by exact_mod_cast hg.ne'
    simp only [reduce, gcd_eq, Red.val]
    rw [Nat.cast_div (Nat.gcd_dvd_left _ _) hgq, Nat.cast_div (Nat.gcd_dvd_right _ _) hgq, div_div_div_cancel_right₀ hgq]
    rw [Nat.cast_natAbs, Nat.cast_natAbs, Int.cast_abs, Int.cast_abs, Frac.val]
    rcases lt_or_ge t.num 0 with h1 | h1 <;> rcases lt_or_ge t.denom 0 with h2 | h2
    · have q1 : (t.num : ℚ) < 0 := by exact_mod_cast h1
      have q2 : (t.denom : ℚ) < 0 := by exact_mod_cast h2
      simp [h1, h2, abs_of_neg q1, abs_of_neg q2]
    · have q1 : (t.num : ℚ) < 0 := by exact_mod_cast h1
      have q2 : (0 : ℚ) ≤ t.denom := by exact_mod_cast h2
      simp [h1, not_lt.2 h2, abs_of_neg q1, abs_of_nonneg q2, neg_div]
    · have q1 : (0 : ℚ) ≤ t.num := by exact_mod_cast h1
      have q2 : (t.denom : ℚ) < 0 := by exact_mod_cast h2
      simp [not_lt.2 h1, h2, abs_of_nonneg q1, abs_of_neg q2, div_neg]
    · have q1 : (0 : ℚ) ≤ t.num := by exact_mod_cast h1
      have q2 : (0 : ℚ) ≤ t.denom := by exact_mod_cast h2
      simp [not_lt.2 h1, not_lt.2 h2, abs_of_nonneg q1, abs_of_nonneg q2]

theorem foldl_lcm (n : Nat) (ns : List Nat) :
    n ∣ ns.foldl (fun res i => res * i / gcd res i) n ∧ (∀ m ∈ ns, m ∣ ns.foldl (fun res i => res * i / gcd res i) n) ∧
    ∀ k, n ∣ k → (∀ m ∈ ns, m ∣ k) → ns.foldl (fun res i => res * i / gcd res i) n ∣ k := by
  induction ns generalizing n with
  | nil => simp
  | cons m ns ih =>
    rw [List.foldl_cons, gcd_eq]
    have e : n * m / Nat.gcd n m = Nat.lcm n m := rfl
    rw [e]
    obtain ⟨h1, h2, h3⟩ := ih (Nat.lcm n m)
    refine ⟨(Nat.dvd_lcm_left n m).trans h1, ?_, ?_⟩
    · intro x hx
      rcases List.mem_cons.1 hx with rfl | hx
      · exact (Nat.dvd_lcm_right n _).trans h1
      · exact h2 x hx
    · intro k hk hall
      exact h3 k (Nat.lcm_dvd hk (hall m (by simp))) fun x hx => hall x (by simp [hx])

theorem expand_val (l : Nat) (r : Red) (hr : 0 < r.denom) (h : r.denom ∣ l) (hl : 0 < l) :
    (expand l r).denom = l ∧ (expand l r).val = r.val := by
  have h1 : l / r.denom * r.denom = l := Nat.div_mul_cancel h
  refine ⟨h1, ?_⟩
  unfold Red.val
  simp only [expand]
  rw [h1]
  congr 1
  have hq : (r.denom : ℚ) ≠ 0 := by exact_mod_cast hr.ne'
  have hlq : (l : ℚ) ≠ 0 := by exact_mod_cast hl.ne'
  rw [Nat.cast_mul, Nat.cast_div h hq]
  field_simp

/-- C19: the fractions shown have the tick values; without `equaldenom` they are in lowest terms, with `equaldenom` they
have the least possible common denominator. -/
theorem shown_spec (c : Rational) (ts : List Frac) (hts : ∀ t ∈ ts, t.denom ≠ 0) :
    (shown c ts).length = ts.length ∧
    (∀ (i : ℕ) (t : Frac), ts[i]? = some t → ∃ r, (shown c ts)[i]? = some r ∧ 0 < r.denom ∧ r.val = t.val ∧
      (c.equaldenom = false → Nat.Coprime r.num r.denom)) ∧
    (c.equaldenom = true → ∃ l, (∀ r ∈ shown c ts, r.denom = l) ∧
      ∀ k, (∀ t ∈ ts, (reduce t).denom ∣ k) → ts = [] ∨ l ∣ k) := by
  unfold shown
  cases he : c.equaldenom with
  | false =>
    simp only [Bool.false_eq_true, if_false]
    refine ⟨by simp, ?_, by simp⟩
    intro i t hi
    obtain ⟨h1, h2, h3⟩ := reduce_spec t (hts t (List.mem_of_getElem? hi))
    exact ⟨reduce t, by simp [hi], h2, h3, fun _ => h1⟩
  | true =>
    simp only [if_true]
    cases ts with
    | nil => simp [lcm]
    | cons t0 ts =>
      simp only [List.map_cons, lcm]
      obtain ⟨h1, h2, h3⟩ := foldl_lcm (reduce t0).denom ((ts.map reduce).map Red.denom)
      set l := ((ts.map reduce).map Red.denom).foldl (fun res i => res * i / gcd res i) (reduce t0).denom with hl
      have hdvd : ∀ t ∈ t0 :: ts, (reduce t).denom ∣ l := by
        intro t ht
        rcases List.mem_cons.1 ht with rfl | ht
        · exact h1
        · exact h2 _ (List.mem_map.2 ⟨_, List.mem_map.2 ⟨t, ht, rfl⟩, rfl⟩)
      have hpos : 0 < l := by
        rcases Nat.eq_zero_or_pos l with h | h
        · exfalso
          have hprod := h3 (((t0 :: ts).map fun t => (reduce t).denom).prod)
            (List.dvd_prod (by simp))
            (by
              intro m hm
              simp only [List.map_map, List.mem_map, Function.comp] at hm
              obtain ⟨t, ht, rfl⟩ := hm
              exact List.dvd_prod (List.mem_map.2 ⟨t, by simp [ht], rfl⟩))
          rw [h, Nat.zero_dvd, List.prod_eq_zero_iff] at hprod
          obtain ⟨t, ht, h0⟩ := List.mem_map.1 hprod
          have := (reduce_spec t (hts t ht)).2.1
          omega
        · exact h
      refine ⟨by simp, ?_, ?_⟩
      · intro i t hi
        have htm := List.mem_of_getElem? hi
        obtain ⟨g1, g2, g3⟩ := reduce_spec t (hts t htm)
        obtain ⟨e1, e2⟩ := expand_val l (reduce t) g2 (hdvd t htm) hpos
        refine ⟨expand l (reduce t), ?_, by omega, by rw [e2, g3], by simp⟩
        have : (expand l (reduce t0) :: (ts.map reduce).map (expand l)) = (t0 :: ts).map fun t => expand l (reduce t) := by simp
        rw [this, List.getElem?_map, hi]; rfl
      · intro _
        refine ⟨l, ?_, ?_⟩
        · intro r hr
          have : (expand l (reduce t0) :: (ts.map reduce).map (expand l)) = (t0 :: ts).map fun t => expand l (reduce t) := by simp
          rw [this] at hr
          obtain ⟨t, ht, rfl⟩ := List.mem_map.1 hr
          exact (expand_val l (reduce t) (reduce_spec t (hts t ht)).2.1 (hdvd t ht) hpos).1
        · intro k hk
          right
          apply h3 k (hk t0 (by simp))
          intro m hm
          simp only [List.map_map, List.mem_map, Function.comp] at hm
          obtain ⟨t, ht, rfl⟩ := hm
          exact hk t (by simp [ht])

/-- Parameters with nothing attached to numerator and denominator and the usual rules for leaving out ones. -/
structure Usual (c : Rational) : Prop where
  numpre : c.numpre = []
  numinf : c.numinf = []
  numsuf : c.numsuf = []
  denompre : c.denompre = []
  denominf : c.denominf = []
  denomsuf : c.denomsuf = []
  minuspos : c.minuspos = none
  skip1 : c.skip1 = true
  skipnum0 : c.skipnum0 = true
  skipdenom1 : c.skipdenom1 = true

/-- C19: the text for a fraction: `0`; or prefix, sign, infix, number, suffix, where the number is the fraction with bar, or the
numerator alone if the denominator is 1, or nothing if it is a one and something else is there. -/
theorem rationalText_spec (c : Rational) (hc : Usual c) (r : Red) :
    rationalText c r = if r.num = 0 then ['0'] else
      c.pre ++ (if r.neg then c.minus else c.plus) ++ c.inf ++
        (if r.denom = 1 then (if r.num = 1 ∧ (c.pre ≠ [] ∨ c.inf ≠ [] ∨ c.suf ≠ []) then [] else str r.num)
          else c.over.1 ++ str r.num ++ c.over.2.1 ++ str r.denom ++ c.over.2.2) ++ c.suf := by
  obtain ⟨h1, h2, h3, h4, h5, h6, h7, h8, h9, h10⟩ := hc
  unfold rationalText
  simp only [h1, h2, h3, h4, h5, h6, h7, h8, h9, h10, if_true, reduceCtorEq, if_false, true_and, List.append_nil, and_true, ne_eq,
    not_true, or_false, and_false, List.nil_append]
  by_cases a : r.num = 0
  · simp [a]
  · by_cases b : r.num = 1
    · by_cases d : r.denom = 1
      · by_cases e : c.pre = [] ∧ c.inf = [] ∧ c.suf = []
        · simp [b, d, e.1, e.2.1, e.2.2]
        · have : (¬c.pre = [] ∨ ¬c.inf = [] ∨ ¬c.suf = []) := by tauto
          simp [b, d, this]
      · simp [b, d]
    · by_cases d : r.denom = 1
      · simp [a, b, d]
      · simp [a, b, d]

/-- C19 for the predefined parameters: the text is `0`, an integer, or a fraction in lowest terms, and denotes the tick value. -/
theorem rational_default (t : Frac) (ht : t.denom ≠ 0) :
    ∃ n d : ℕ, Nat.Coprime n d ∧ |t.val| = (n : ℚ) / d ∧
      rationalText {} (reduce t) = if t.val = 0 then ['0'] else (if t.val < 0 then ['-'] else []) ++
        (if d = 1 then str n else "{{".toList ++ str n ++ "}\\over{".toList ++ str d ++ "}}".toList) := by
  obtain ⟨h1, h2, h3⟩ := reduce_spec t ht
  have hd : (0 : ℚ) < (reduce t).denom := by exact_mod_cast h2
  have habs : |t.val| = ((reduce t).num : ℚ) / (reduce t).denom := by
    rw [← h3, Red.val, abs_mul, abs_of_nonneg (div_nonneg (Nat.cast_nonneg _) hd.le)]
    split <;> simp
  refine ⟨_, _, h1, habs, ?_⟩
  rw [rationalText_spec {} ⟨rfl, rfl, rfl, rfl, rfl, rfl, rfl, rfl, rfl, rfl⟩]
  have h0 : t.val = 0 ↔ (reduce t).num = 0 := by
    rw [← abs_eq_zero, habs, div_eq_zero_iff]
    constructor
    · rintro (h | h)
      · exact_mod_cast h
      · exact absurd h hd.ne'
    · intro h; left; exact_mod_cast h
  by_cases hz : t.val = 0
  · rw [if_pos hz, if_pos (h0.1 hz)]
  · rw [if_neg hz, if_neg (mt h0.2 hz)]
    have hn : (0 : ℚ) < ((reduce t).num : ℚ) / (reduce t).denom := by rw [← habs]; exact abs_pos.2 hz
    have hneg : (reduce t).neg = true ↔ t.val < 0 := by
      rw [← h3, Red.val]
      cases (reduce t).neg with
      | true => simp [hn]
      | false => simp [hn.le]
    by_cases hlt : t.val < 0
    · simp [hlt, hneg.2 hlt]
    · have : (reduce t).neg = false := by simpa using mt hneg.1 hlt
      simp [hlt, this]

example : rationalText { suf := "\\pi".toList } ⟨1, 1, true⟩ = "-\\pi".toList ∧
    rationalText { suf := "\\pi".toList } ⟨3, 4, false⟩ = "{{3}\\over{4}}\\pi".toList := by decide +kernel

/-- With `equaldenom` a tick without label level (a sub-tick) makes the labelling fail. -/
theorem equaldenom_subtick (c : Rational) (hc : c.equaldenom = true) (a b : T) (hb : b.label = none) (hb' : b.labellevel = none) :
    rationalLabels c [a, b] = none := by
  simp [rationalLabels, hc, hb, hb']

end PyX.Texter
