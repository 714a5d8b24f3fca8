import Verif.Font.EncodingProps
import Mathlib.Data.List.Induction

set_option linter.unusedSectionVars false

/-!
# Encodings inside Type 1 fonts, and in stripped fonts
-/

namespace PyX.Encoding

/-! ### Specification -/

/-- An entry `dup code /name put` of an encoding, as written: the token for the code, the code, and the
token for the name. -/
structure Entry where
  /-- the token of the code -/
  tok : List Char
  /-- the code -/
  code : ℤ
  /-- the token of the name -/
  glyph : List Char

/-- The tokens of an entry. -/
def Entry.tokens (e : Entry) : List (List Char) := [lit "dup", e.tok, e.glyph, lit "put"]

/-- The name the entries give to a code: the last one counts. -/
def lastName (es : List Entry) (i : ℕ) : Option (List Char) :=
  (es.reverse.find? fun e => decide (e.code = (i : ℤ))).map fun e => e.glyph.tail

/-- `s` is what follows the first occurrence of `w`. -/
def FirstAfter (w data s : List Char) : Prop :=
  ∃ p, data = p ++ w ++ s ∧ ∀ p' q, data = p' ++ w ++ q → p.length ≤ p'.length

/-- An encoding in a font: behind the first `/Encoding` there are two tokens which are not
`StandardEncoding def`, others which are not `dup`, then (from the character `k` on) the entries, the
text `r` behind these, and `readonly` or `def`. -/
def HasEncoding (data : List Char) (es : List Entry) (k : ℕ) (r : List Char) : Prop :=
  es ≠ [] ∧ (∀ e ∈ es, int e.tok = some e.code) ∧
  ∃ d s t1 t2 mid st fin r', FirstAfter (lit "/Encoding") data d ∧ Begin d s ∧
    ¬(t1 = lit "StandardEncoding" ∧ t2 = lit "def") ∧ lit "dup" ∉ mid ∧ Read s ([t1, t2] ++ mid) st ∧
    data = data.take k ++ st ∧ k + st.length = data.length ∧
    Read st (es.flatMap Entry.tokens) r ∧ (fin = lit "readonly" ∨ fin = lit "def") ∧ Read r [fin] r'

/-! ### Reading -/

theorem gettoken_suffix {s t r : List Char} (h : gettoken s = .ok (t, r)) : ∃ p, s = p ++ r ∧ p ≠ [] := by
  obtain ⟨g, hg, ⟨c, cs, rfl, _⟩, ⟨d, hd, rfl⟩ | ⟨d, r', hd, rfl, rfl⟩⟩ := gettoken_iff.mp h
  · exact ⟨g ++ (c :: cs) ++ [d], by simp, by simp⟩
  · exact ⟨g ++ (c :: cs), rfl, by simp⟩

theorem read_suffix {s : List Char} {ts : List (List Char)} {r : List Char} (h : Read s ts r) :
    ∃ p, s = p ++ r ∧ ts.length ≤ p.length := by
  induction ts generalizing s with
  | nil => rw [read_nil] at h; exact ⟨[], by rw [h]; rfl, by simp⟩
  | cons t ts ih =>
    obtain ⟨s', h1, h2⟩ := read_cons.mp h
    obtain ⟨p, rfl, hp⟩ := gettoken_suffix h1
    obtain ⟨q, rfl, hq⟩ := ih h2
    refine ⟨p ++ q, by simp, ?_⟩
    have := List.length_pos_of_ne_nil hp
    simp only [List.length_cons, List.length_append]; omega

theorem read_length {s : List Char} {ts : List (List Char)} {r : List Char} (h : Read s ts r) :
    ts.length + r.length ≤ s.length := by
  obtain ⟨p, rfl, hp⟩ := read_suffix h
  simp only [List.length_append]; omega

theorem after_iff {w data s : List Char} : after w data = .ok s ↔ FirstAfter w data s := by
  induction data with
  | nil =>
    rw [after]
    constructor
    · intro h
      by_cases hw : w = []
      · rw [if_pos hw] at h
        simp only [Except.ok.injEq] at h
        exact ⟨[], by rw [hw, ← h]; rfl, by simp⟩
      · rw [if_neg hw] at h; simp at h
    · rintro ⟨p, h, _⟩
      have h' := congrArg List.length h
      simp only [List.length_nil, List.length_append] at h'
      have hw : w = [] := List.length_eq_zero_iff.mp (by omega)
      have hs : s = [] := List.length_eq_zero_iff.mp (by omega)
      rw [if_pos hw, hs]
  | cons c cs ih =>
    rw [after]
    by_cases hw : w <+: c :: cs
    · rw [if_pos hw]
      obtain ⟨q, hq⟩ := hw
      have hd : (c :: cs).drop w.length = q := by rw [← hq]; simp
      rw [hd]
      constructor
      · intro h
        simp only [Except.ok.injEq] at h
        exact ⟨[], by rw [← h, ← hq]; rfl, by simp⟩
      · rintro ⟨p, h, hmin⟩
        have := hmin [] q (by rw [← hq]; rfl)
        have hp : p = [] := List.length_eq_zero_iff.mp (by simpa using this)
        subst hp
        rw [← hq] at h
        simp only [List.nil_append, List.append_cancel_left_eq] at h
        rw [h]
    · rw [if_neg hw, ih]
      constructor
      · rintro ⟨p, h, hmin⟩
        refine ⟨c :: p, by rw [h]; rfl, ?_⟩
        intro p' q e
        cases p' with
        | nil => exact absurd ⟨q, e.symm⟩ hw
        | cons x p' =>
          simp only [List.cons_append, List.cons.injEq] at e
          have := hmin p' q e.2
          simpa using this
      · rintro ⟨p, h, hmin⟩
        cases p with
        | nil => exact absurd ⟨s, h.symm⟩ hw
        | cons x p =>
          simp only [List.cons_append, List.cons.injEq] at h
          refine ⟨p, h.2, ?_⟩
          intro p' q e
          have := hmin (c :: p') q (by rw [e]; rfl)
          simpa using this

theorem findDup_iff {n : ℕ} {s st s' : List Char} : findDup n s = .ok (st, s') ↔
    ∃ mid : List (List Char), mid.length < n ∧ lit "dup" ∉ mid ∧ Read s mid st ∧ gettoken st = .ok (lit "dup", s') := by
  induction n generalizing s with
  | zero => simp [findDup]
  | succ n ih =>
    rw [findDup]
    constructor
    · intro h
      cases e : gettoken s with
      | error => simp only [e] at h; simp at h
      | ok p =>
        obtain ⟨t, s1⟩ := p
        simp only [e] at h
        by_cases ht : t = lit "dup"
        · rw [if_pos ht] at h
          simp only [Except.ok.injEq, Prod.mk.injEq] at h
          obtain ⟨rfl, rfl⟩ := h
          exact ⟨[], by simp, by simp, .nil, by rw [e, ht]⟩
        · rw [if_neg ht] at h
          obtain ⟨mid, h1, h2, h3, h4⟩ := ih.mp h
          refine ⟨t :: mid, by simpa using h1, ?_, read_cons.mpr ⟨s1, e, h3⟩, h4⟩
          intro hm
          rcases List.mem_cons.mp hm with h5 | h5
          · exact ht h5.symm
          · exact h2 h5
    · rintro ⟨mid, h1, h2, h3, h4⟩
      cases mid with
      | nil =>
        rw [read_nil] at h3
        subst h3
        simp only [h4, if_true]
      | cons t mid =>
        obtain ⟨s1, h5, h6⟩ := read_cons.mp h3
        have ht : t ≠ lit "dup" := fun h => h2 (by rw [h]; simp)
        simp only [h5, ht, if_false]
        exact ih.mpr ⟨mid, by simpa using h1, fun hm => h2 (List.mem_cons_of_mem _ hm), h6, h4⟩

/-- All assignments. -/
def assigns (v : List (Option (List Char))) (es : List Entry) : List (Option (List Char)) :=
  es.foldl (fun v e => assign v e.code e.glyph) v

theorem assigns_length (v : List (Option (List Char))) (es : List Entry) : (assigns v es).length = v.length := by
  induction es generalizing v with
  | nil => rfl
  | cons e es ih =>
    rw [assigns, List.foldl_cons, ← assigns, ih, assign]
    split <;> simp

theorem assigns_spec (v : List (Option (List Char))) (hv : v.length = 256) (es : List Entry) (i : ℕ) (hi : i < 256) :
    (assigns v es)[i]? = match lastName es i with
      | some g => some (some g)
      | none => v[i]? := by
  induction es using List.reverseRecOn with
  | nil => simp [assigns, lastName]
  | append_singleton es e ih =>
    have e1 : assigns v (es ++ [e]) = assign (assigns v es) e.code e.glyph := by simp [assigns]
    have hlen : (assigns v es).length = 256 := by rw [assigns_length, hv]
    rw [e1, assign]
    by_cases hc : e.code = (i : ℤ)
    · have : lastName (es ++ [e]) i = some e.glyph.tail := by simp [lastName, hc]
      rw [this, if_pos ⟨by omega, by omega⟩]
      have h2 : e.code.toNat = i := by omega
      rw [h2, List.getElem?_set_self (by omega)]
    · have : lastName (es ++ [e]) i = lastName es i := by simp [lastName, hc]
      rw [this, ← ih]
      split
      · rename_i h
        rw [List.getElem?_set_ne]
        omega
      · rfl

/-- The tokens behind the first `dup`. -/
def bodyTokens (e : Entry) (es : List Entry) : List (List Char) :=
  [e.tok, e.glyph, lit "put"] ++ es.flatMap Entry.tokens

theorem puts_iff {n : ℕ} {v v' : List (Option (List Char))} {s r : List Char} : puts n v s = .ok (v', r) ↔
    ∃ e es fin r', es.length < n ∧ int e.tok = some e.code ∧ (∀ x ∈ es, int x.tok = some x.code) ∧
      Read s (bodyTokens e es) r ∧ (fin = lit "readonly" ∨ fin = lit "def") ∧ gettoken r = .ok (fin, r') ∧
      v' = assigns v (e :: es) := by
  induction n generalizing v s with
  | zero => simp [puts]
  | succ n ih =>
    rw [puts]
    constructor
    · intro h
      cases e1 : gettoken s with
      | error => simp only [e1] at h; simp at h
      | ok p =>
        obtain ⟨ti, s1⟩ := p
        simp only [e1] at h
        cases hi : int ti with
        | none => simp only [hi] at h; simp at h
        | some i =>
        simp only [hi] at h
        cases e2 : gettoken s1 with
        | error => simp only [e2] at h; simp at h
        | ok p =>
        obtain ⟨g, s2⟩ := p
        simp only [e2] at h
        cases e3 : gettoken s2 with
        | error => simp only [e3] at h; simp at h
        | ok p =>
        obtain ⟨tp, s3⟩ := p
        simp only [e3] at h
        by_cases hp : tp = lit "put"
        swap
        · rw [if_pos hp] at h; simp at h
        rw [if_neg (not_not_intro hp)] at h
        subst hp
        cases e4 : gettoken s3 with
        | error => simp only [e4] at h; simp at h
        | ok p =>
        obtain ⟨t, s4⟩ := p
        simp only [e4] at h
        by_cases hf : t = lit "readonly" ∨ t = lit "def"
        · rw [if_pos hf] at h
          simp only [Except.ok.injEq, Prod.mk.injEq] at h
          obtain ⟨rfl, rfl⟩ := h
          refine ⟨⟨ti, i, g⟩, [], t, s4, by simp, hi, by simp, ?_, hf, e4, rfl⟩
          simp only [bodyTokens, List.flatMap_nil, List.append_nil]
          exact read_cons.mpr ⟨_, e1, read_cons.mpr ⟨_, e2, read_cons.mpr ⟨_, e3, .nil⟩⟩⟩
        · rw [if_neg hf] at h
          by_cases hd : t = lit "dup"
          swap
          · rw [if_pos hd] at h; simp at h
          rw [if_neg (not_not_intro hd)] at h
          subst hd
          obtain ⟨e, es, fin, r', h1, h2, h3, h4, h5, h6, h7⟩ := ih.mp h
          refine ⟨⟨ti, i, g⟩, e :: es, fin, r', by simpa using h1, hi, ?_, ?_, h5, h6, ?_⟩
          · intro x hx
            rcases List.mem_cons.mp hx with rfl | hx
            · exact h2
            · exact h3 x hx
          · simp only [bodyTokens, List.flatMap_cons, Entry.tokens, List.cons_append, List.nil_append]
            exact read_cons.mpr ⟨_, e1, read_cons.mpr ⟨_, e2, read_cons.mpr ⟨_, e3, read_cons.mpr ⟨_, e4, by
              simpa only [bodyTokens, List.cons_append, List.nil_append] using h4⟩⟩⟩⟩
          · rw [h7]; simp [assigns]
    · rintro ⟨e, es, fin, r', h1, h2, h3, h4, h5, h6, rfl⟩
      simp only [bodyTokens, List.cons_append, List.nil_append] at h4
      obtain ⟨s1, e1, h4⟩ := read_cons.mp h4
      obtain ⟨s2, e2, h4⟩ := read_cons.mp h4
      obtain ⟨s3, e3, h4⟩ := read_cons.mp h4
      simp only [e1, h2, e2, e3, ne_eq, not_true, if_false]
      cases es with
      | nil =>
        simp only [List.flatMap_nil] at h4
        rw [read_nil] at h4
        subst h4
        simp only [h6, h5, if_true]
        rfl
      | cons x es =>
        simp only [List.flatMap_cons, Entry.tokens, List.cons_append, List.nil_append] at h4
        obtain ⟨s4, e4, h4⟩ := read_cons.mp h4
        have hf : ¬(lit "dup" = lit "readonly" ∨ lit "dup" = lit "def") := by decide
        simp only [e4, hf, if_false, not_true]
        rw [ih.mpr ⟨x, es, fin, r', by simpa using h1, h3 x (by simp), fun y hy => h3 y (List.mem_cons_of_mem _ hy), by
          simpa only [bodyTokens, List.cons_append, List.nil_append] using h4, h5, h6, rfl⟩]

theorem tokenizer_iff {w data s : List Char} : tokenizer w data = .ok s ↔ ∃ d, FirstAfter w data d ∧ Begin d s := by
  rw [tokenizer]
  constructor
  · intro h
    cases e : after w data with
    | error => simp only [e] at h; simp at h
    | ok d =>
      simp only [e] at h
      exact ⟨d, after_iff.mp e, eatSep_iff.mp h⟩
  · rintro ⟨d, h1, h2⟩
    simp only [after_iff.mpr h1]
    exact eatSep_iff.mpr h2

theorem begin_length {d s : List Char} (h : Begin d s) : ∃ p, d = p ++ s := by
  rcases h with ⟨c, cs, e, h1, rfl⟩ | ⟨c, h1, e⟩
  · exact ⟨[], rfl⟩
  · exact ⟨[c], e⟩

/-- **Encodings in fonts are read**: `_encoding` gives a vector exactly if the text is laid out as
`HasEncoding` says, and the vector is then made from the entries, of which the last one for a code
counts.  The positions are those of the entries. -/
theorem encoding_iff {data : List Char} {v : List (Option (List Char))} {k : ℕ} {r : List Char} :
    encoding data = .ok (.own v k r) ↔
      ∃ es, HasEncoding data es k r ∧ v.length = 256 ∧ ∀ i < 256, v[i]? = some (lastName es i) := by
  have veq : ∀ es, (v.length = 256 ∧ ∀ i < 256, v[i]? = some (lastName es i)) ↔ v = assigns (List.replicate 256 none) es := by
    intro es
    have spec : ∀ i < 256, (assigns (List.replicate 256 none) es)[i]? = some (lastName es i) := by
      intro i hi
      rw [assigns_spec _ List.length_replicate _ _ hi]
      cases lastName es i with
      | none => simp only [List.getElem?_replicate, hi, if_true]
      | some g => rfl
    constructor
    · rintro ⟨h1, h2⟩
      apply List.ext_getElem?
      intro i
      rcases Nat.lt_or_ge i 256 with hi | hi
      · rw [h2 i hi, spec i hi]
      · rw [List.getElem?_eq_none (by omega), List.getElem?_eq_none (by rw [assigns_length, List.length_replicate]; exact hi)]
    · rintro rfl
      exact ⟨by rw [assigns_length, List.length_replicate], spec⟩
  simp only [veq]
  unfold encoding
  simp only [bind_ok]
  constructor
  · rintro ⟨s0, h0, ⟨t1, s1⟩, h1, ⟨t2, s2⟩, h2, h⟩
    dsimp only at h1 h2 h
    by_cases hs : t1 = lit "StandardEncoding" ∧ t2 = lit "def"
    · rw [if_pos hs] at h; simp [pure, Except.pure] at h
    rw [if_neg hs] at h
    simp only [bind_ok] at h
    obtain ⟨⟨st, s3⟩, h3, ⟨v', r'⟩, h4, h5⟩ := h
    dsimp only at h3 h4 h5
    simp only [pure, Except.pure, Except.ok.injEq, Enc.own.injEq] at h5
    obtain ⟨rfl, rfl, rfl⟩ := h5
    obtain ⟨d, hd, hb⟩ := tokenizer_iff.mp h0
    obtain ⟨mid, m1, m2, m3, m4⟩ := findDup_iff.mp h3
    obtain ⟨e, es, fin, r2, q1, q2, q3, q4, q5, q6, q7⟩ := puts_iff.mp h4
    have hr : Read s0 ([t1, t2] ++ mid) st := read_cons.mpr ⟨_, h1, read_cons.mpr ⟨_, h2, m3⟩⟩
    obtain ⟨p1, hp1, _⟩ := read_suffix hr
    obtain ⟨p2, hp2⟩ := begin_length hb
    obtain ⟨p3, hp3, _⟩ := id hd
    have hsuf : data = (p3 ++ lit "/Encoding" ++ p2 ++ p1) ++ st := by rw [hp3, hp2, hp1]; simp
    refine ⟨e :: es, ⟨by simp, ?_, d, s0, t1, t2, mid, st, fin, r2, hd, hb, hs, m2, hr, ?_, ?_, ?_, q5, read_cons.mpr ⟨_, q6, .nil⟩⟩, q7⟩
    · intro x hx
      rcases List.mem_cons.mp hx with rfl | hx
      · exact q2
      · exact q3 x hx
    · have hl : data.length - st.length = (p3 ++ lit "/Encoding" ++ p2 ++ p1).length := by
        rw [hsuf, List.length_append]; omega
      rw [hl]
      conv_rhs => rw [hsuf]
      rw [List.take_left']
      · exact hsuf
      · rfl
    · have := congrArg List.length hsuf
      simp only [List.length_append] at this
      omega
    · simp only [List.flatMap_cons, Entry.tokens, List.cons_append, List.nil_append]
      exact read_cons.mpr ⟨_, m4, by simpa only [bodyTokens, List.cons_append, List.nil_append] using q4⟩
  · rintro ⟨es, ⟨hne, hint, d, s, t1, t2, mid, st, fin, r', hd, hb, hs, hmid, hr, hk, hk2, hes, hfin, hfr⟩, rfl⟩
    cases es with
    | nil => simp at hne
    | cons e es =>
    have hr' := hr
    simp only [List.cons_append, List.nil_append] at hr
    obtain ⟨s1, h1, hr⟩ := read_cons.mp hr
    obtain ⟨s2, h2, hr⟩ := read_cons.mp hr
    simp only [List.flatMap_cons, Entry.tokens, List.cons_append, List.nil_append] at hes
    obtain ⟨s3, h3, hes⟩ := read_cons.mp hes
    obtain ⟨r2, h4, _⟩ := read_cons.mp hfr
    obtain ⟨p2, hp2⟩ := begin_length hb
    obtain ⟨p3, hp3, _⟩ := id hd
    have l1 := read_length hr'
    have l2 := congrArg List.length hp3
    have l3 := congrArg List.length hp2
    have l4 := read_length hes
    obtain ⟨p5, hp5, hp5'⟩ := gettoken_suffix h3
    have l5 := congrArg List.length hp5
    have l6 := List.length_pos_of_ne_nil hp5'
    have l7 : (lit "/Encoding").length = 9 := by decide
    have l8 : (es.flatMap Entry.tokens).length = 4 * es.length := by
      clear * -
      induction es with
      | nil => rfl
      | cons e es ih => simp only [List.flatMap_cons, List.length_append, ih, Entry.tokens, List.length_cons, List.length_nil]; omega
    simp only [List.length_append, List.length_cons, List.length_nil] at l1 l2 l3 l4 l5
    have l9 : (List.flatMap (fun e => [lit "dup", e.tok, e.glyph, lit "put"]) es).length = 4 * es.length := l8
    refine ⟨s, tokenizer_iff.mpr ⟨d, hd, hb⟩, (t1, s1), h1, (t2, s2), h2, ?_⟩
    dsimp only
    rw [if_neg hs]
    simp only [bind_ok]
    refine ⟨(st, s3), findDup_iff.mpr ⟨mid, by omega, hmid, hr, h3⟩, (assigns (List.replicate 256 none) (e :: es), r),
      puts_iff.mpr ⟨e, es, fin, r2, by omega, hint e (by simp), fun x hx => hint x (List.mem_cons_of_mem _ hx), by
        simpa only [bodyTokens, List.cons_append, List.nil_append] using hes, hfin, h4, rfl⟩, ?_⟩
    simp only [pure, Except.pure, Except.ok.injEq, Enc.own.injEq, true_and, and_true]
    omega

/-- **The standard encoding** is taken exactly for `/Encoding StandardEncoding def`. -/
theorem standard_iff {data : List Char} : encoding data = .ok .standard ↔
    ∃ d s r, FirstAfter (lit "/Encoding") data d ∧ Begin d s ∧ Read s [lit "StandardEncoding", lit "def"] r := by
  unfold encoding
  simp only [bind_ok]
  constructor
  · rintro ⟨s0, h0, ⟨t1, s1⟩, h1, ⟨t2, s2⟩, h2, h⟩
    dsimp only at h1 h2 h
    by_cases hs : t1 = lit "StandardEncoding" ∧ t2 = lit "def"
    · obtain ⟨d, hd, hb⟩ := tokenizer_iff.mp h0
      obtain ⟨rfl, rfl⟩ := hs
      exact ⟨d, s0, s2, hd, hb, read_cons.mpr ⟨_, h1, read_cons.mpr ⟨_, h2, .nil⟩⟩⟩
    · rw [if_neg hs] at h
      simp only [bind_ok] at h
      obtain ⟨_, _, _, _, h⟩ := h
      simp [pure, Except.pure] at h
  · rintro ⟨d, s, r, hd, hb, h⟩
    obtain ⟨s1, h1, h⟩ := read_cons.mp h
    obtain ⟨s2, h2, h⟩ := read_cons.mp h
    refine ⟨s, tokenizer_iff.mpr ⟨d, hd, hb⟩, _, h1, _, h2, ?_⟩
    simp [pure, Except.pure]

/-! ### Stripped fonts -/

theorem read_tokens {s : List Char} {ts : List (List Char)} {r : List Char} (h : Read s ts r) : ∀ t ∈ ts, Token t := by
  induction h with
  | nil => simp
  | sep _ ht _ _ ih =>
    intro t h
    rcases List.mem_cons.mp h with rfl | h
    · exact ht
    · exact ih t h
  | start _ ht _ _ ih =>
    intro t h
    rcases List.mem_cons.mp h with rfl | h
    · exact ht
    · exact ih t h

/-- What is read does not depend on what is behind it, if a newline is put there. -/
theorem read_newline {s : List Char} {ts : List (List Char)} {st : List Char} (h : Read s ts st) (hne : ts ≠ []) (y : List Char) :
    ∃ p, s = p ++ st ∧ p ≠ [] ∧ (Read (p ++ '\n' :: y) ts ('\n' :: y) ∨ Read (p ++ '\n' :: y) ts y) := by
  have hn : isSep '\n' = true := by decide
  induction h with
  | nil => simp at hne
  | @sep g t c s ts r hg ht hc h ih =>
    by_cases e : ts = []
    · subst e
      rw [read_nil] at h
      subst h
      refine ⟨g ++ t ++ [c], by simp, by simp, .inl ?_⟩
      rw [show g ++ t ++ [c] ++ '\n' :: y = g ++ t ++ c :: ('\n' :: y) by simp]
      exact .sep hg ht hc .nil
    · obtain ⟨p, rfl, hp, h1⟩ := ih e
      refine ⟨g ++ t ++ c :: p, by simp, by simp, ?_⟩
      rw [show g ++ t ++ c :: p ++ '\n' :: y = g ++ t ++ c :: (p ++ '\n' :: y) by simp]
      rcases h1 with h1 | h1
      · exact .inl (.sep hg ht hc h1)
      · exact .inr (.sep hg ht hc h1)
  | @start g t c s ts r hg ht hc h ih =>
    by_cases e : ts = []
    · subst e
      rw [read_nil] at h
      subst h
      obtain ⟨c', cs', rfl, _⟩ := id ht
      exact ⟨g ++ (c' :: cs'), rfl, by simp, .inr (.sep hg ht hn .nil)⟩
    · obtain ⟨p, e1, hp, h1⟩ := ih e
      cases p with
      | nil => simp at hp
      | cons x p =>
        simp only [List.cons_append, List.cons.injEq] at e1
        obtain ⟨rfl, rfl⟩ := e1
        refine ⟨g ++ t ++ c :: p, by simp, by simp, ?_⟩
        rw [show g ++ t ++ c :: p ++ '\n' :: y = g ++ t ++ c :: (p ++ '\n' :: y) by simp]
        rcases h1 with h1 | h1
        · exact .inl (.start hg ht hc h1)
        · exact .inr (.start hg ht hc h1)

/-- The entries which are written. -/
def kept (wanted : List Char → Bool) : ℕ → List (Option (List Char)) → List Entry
  | _, [] => []
  | i, none :: v => kept wanted (i + 1) v
  | i, some g :: v =>
    if wanted g then ⟨Nat.toDigits 10 i, i, '/' :: g⟩ :: kept wanted (i + 1) v else kept wanted (i + 1) v

theorem digit_ok {c : Char} (h : c.isDigit = true) : isSep c = false ∧ isStart c = false := by
  constructor
  · rcases hs : isSep c with _ | _
    · rfl
    · simp only [isSep, Bool.or_eq_true, beq_iff_eq] at hs
      rcases hs with ((rfl | rfl) | rfl) | rfl <;> revert h <;> decide
  · rcases hs : isStart c with _ | _
    · rfl
    · simp only [isStart, List.contains_iff_mem] at hs
      have : lit "()<>[]{}/%" = ['(', ')', '<', '>', '[', ']', '{', '}', '/', '%'] := by decide
      rw [this] at hs
      simp only [List.mem_cons, List.not_mem_nil, or_false] at hs
      rcases hs with rfl | rfl | rfl | rfl | rfl | rfl | rfl | rfl | rfl | rfl <;> revert h <;> decide

theorem toDigits_digit {i : ℕ} {c : Char} (h : c ∈ Nat.toDigits 10 i) : c.isDigit = true :=
  Nat.isDigit_of_mem_toDigits (by decide) (by decide) h

theorem token_digits (i : ℕ) : Token (Nat.toDigits 10 i) := by
  apply token_lit
  · rw [List.any_eq_false]
    intro c hc
    have := digit_ok (toDigits_digit hc)
    simp [this]
  · exact Nat.toDigits_ne_nil

theorem int_digits (i : ℕ) : int (Nat.toDigits 10 i) = some (i : ℤ) := by
  have hd : digits (Nat.toDigits 10 i) = some i := by
    rw [digits, if_pos ⟨Nat.toDigits_ne_nil, by rw [List.all_eq_true]; exact fun c hc => toDigits_digit hc⟩,
      Nat.ofDigitChars_ten_toDigits]
  have hall : ∀ c ∈ Nat.toDigits 10 i, c.isDigit = true := fun c hc => toDigits_digit hc
  rw [int.eq_def]
  split
  · rename_i s h
    have := hall '-' (by rw [h]; simp)
    exact absurd this (by decide)
  · rename_i s h
    have := hall '+' (by rw [h]; simp)
    exact absurd this (by decide)
  · rw [hd]; rfl

theorem kept_int (wanted : List Char → Bool) (i : ℕ) (v : List (Option (List Char))) :
    ∀ e ∈ kept wanted i v, int e.tok = some e.code := by
  induction v generalizing i with
  | nil => simp [kept]
  | cons x v ih =>
    cases x with
    | none => rw [kept]; exact ih _
    | some g =>
      rw [kept]
      split
      · intro e he
        rcases List.mem_cons.mp he with rfl | he
        · exact int_digits i
        · exact ih _ e he
      · exact ih _

theorem dupLines_read (wanted : List Char → Bool) (i : ℕ) (v : List (Option (List Char))) (r : List Char)
    (hv : ∀ g, some g ∈ v → ∀ x ∈ g, isSep x = false ∧ isStart x = false) :
    Read (dupLines wanted i v ++ r) ((kept wanted i v).flatMap Entry.tokens) r := by
  induction v generalizing i with
  | nil => exact .nil
  | cons x v ih =>
    have ih := ih (i + 1) fun g hg => hv g (List.mem_cons_of_mem _ hg)
    cases x with
    | none => rw [dupLines, kept]; exact ih
    | some g =>
      rw [dupLines, kept]
      split
      · have hg := hv g (by simp)
        have hn : isSep '\n' = true := by decide
        have hb : isSep ' ' = true := by decide
        have ht : Token ('/' :: g) := ⟨'/', g, rfl, by decide, by decide, hg⟩
        simp only [List.flatMap_cons, Entry.tokens, List.cons_append, List.nil_append]
        have e : dupLine i g ++ dupLines wanted (i + 1) v ++ r =
            [] ++ lit "dup" ++ ' ' :: ([] ++ Nat.toDigits 10 i ++ ' ' :: ([] ++ ('/' :: g) ++ ' ' :: ([] ++ lit "put" ++ '\n' ::
              (dupLines wanted (i + 1) v ++ r)))) := by
          simp [dupLine, lit]
        rw [e]
        exact .sep .nil (token_lit (by decide) (by decide)) hb (.sep .nil (token_digits i) hb (.sep .nil ht hb
          (.sep .nil (token_lit (by decide) (by decide)) hn ih)))
      · exact ih

theorem lastName_cons (e : Entry) (es : List Entry) (i : ℕ) : lastName (e :: es) i =
    (lastName es i).or (if e.code = (i : ℤ) then some e.glyph.tail else none) := by
  unfold lastName
  rw [List.reverse_cons, List.find?_append]
  cases h : es.reverse.find? fun e => decide (e.code = (i : ℤ)) with
  | some x => simp
  | none =>
    by_cases hc : e.code = (i : ℤ)
    · simp [hc]
    · simp [hc]

theorem lastName_kept (wanted : List Char → Bool) (j : ℕ) (v : List (Option (List Char))) (i : ℕ) :
    lastName (kept wanted j v) i = if i < j then none else (v[i - j]?.join).filter wanted := by
  induction v generalizing j with
  | nil => simp [kept, lastName]
  | cons x v ih =>
    have hlt : ¬ i < j → i ≠ j → i - j = (i - (j + 1)) + 1 := by omega
    have step : (if i < j + 1 then none else (v[i - (j + 1)]?.join).filter wanted) =
        if i < j then none else if i = j then none else ((x :: v)[i - j]?.join).filter wanted := by
      by_cases h1 : i < j
      · rw [if_pos (by omega), if_pos h1]
      · rw [if_neg h1]
        by_cases h2 : i = j
        · rw [if_pos (by omega), if_pos h2]
        · rw [if_neg (by omega), if_neg h2, hlt h1 h2, List.getElem?_cons_succ]
    cases x with
    | none =>
      rw [kept, ih, step]
      by_cases h2 : i = j
      · subst h2; simp
      · rw [if_neg h2]
    | some g =>
      rw [kept]
      by_cases hw : wanted g = true
      · rw [if_pos hw, lastName_cons, ih, step]
        by_cases h2 : i = j
        · subst h2; simp [hw, Option.filter]
        · rw [if_neg h2]
          have : ¬ (j : ℤ) = (i : ℤ) := by omega
          simp only [this, if_false, Option.or_none]
      · rw [if_neg hw, ih, step]
        by_cases h2 : i = j
        · subst h2; simp [hw, Option.filter]
        · rw [if_neg h2]

theorem read_start_gap {s : List Char} {ts : List (List Char)} {r g : List Char} (hg : Gap g) (hne : ts ≠ [])
    (h : Read s ts r) : Read (g ++ s) ts r := by
  have app : ∀ a b : List Char, Gap a → Gap b → Gap (a ++ b) := by
    intro a b ha hb
    induction ha with
    | nil => exact hb
    | sep hc _ ih => exact .sep hc ih
    | comment ht hc _ ih => 
      rw [List.cons_append, List.append_assoc, List.cons_append]
      exact .comment ht hc ih
  cases h with
  | nil => simp at hne
  | sep hg' ht hc h =>
    rw [← List.append_assoc, ← List.append_assoc]
    exact .sep (app _ _ hg hg') ht hc h
  | start hg' ht hc h =>
    rw [← List.append_assoc, ← List.append_assoc]
    exact .start (app _ _ hg hg') ht hc h

/-- **A stripped font has the encoding of the wanted glyphs**: what `getstrippedfont` writes for the
entries of an encoding is an encoding again, in which each code has the name it had if that glyph is
wanted, and none otherwise.  The text in front of and behind the entries stays. -/
theorem strip_spec {data : List Char} {v : List (Option (List Char))} {k : ℕ} {r : List Char} (wanted : List Char → Bool)
    (h : encoding data = .ok (.own v k r)) (hw : ∃ g, some g ∈ v ∧ wanted g = true) :
    ∃ v' k', encoding (stripEncoding wanted data (.own v k r)) = .ok (.own v' k' r) ∧ v'.length = 256 ∧
      ∀ i < 256, v'[i]? = some ((v[i]?.join).filter wanted) := by
  obtain ⟨es, ⟨hne, hint, d, s, t1, t2, mid, st, fin, r', ⟨p, hd, hmin⟩, hb, hs, hmid, hr, hk, hk2, hes, hfin, hfr⟩, hvl, hv⟩ :=
    encoding_iff.mp h
  have hes' := read_tokens hes
  -- the names are names
  have hname : ∀ g, some g ∈ v → ∀ x ∈ g, isSep x = false ∧ isStart x = false := by
    intro g hg
    obtain ⟨i, hi⟩ := List.mem_iff_getElem?.mp hg
    have hi2 : i < 256 := by
      rw [← hvl]
      exact (List.getElem?_eq_some_iff.mp hi).1
    rw [hv i hi2] at hi
    simp only [Option.some.injEq] at hi
    unfold lastName at hi
    rw [Option.map_eq_some_iff] at hi
    obtain ⟨e, he, rfl⟩ := hi
    have hm := List.mem_of_find?_eq_some he
    rw [List.mem_reverse] at hm
    obtain ⟨c, cs, hc, _, _, hcs⟩ := hes' e.glyph (List.mem_flatMap.mpr ⟨e, hm, by simp [Entry.tokens]⟩)
    rw [hc]
    exact hcs
  have hkept : kept wanted 0 v ≠ [] := by
    obtain ⟨g, hg, hg2⟩ := hw
    obtain ⟨i, hi⟩ := List.mem_iff_getElem?.mp hg
    intro e
    have := lastName_kept wanted 0 v i
    rw [e] at this
    simp [lastName, hi, hg2, Option.filter] at this
  have hlen256 : ∀ es : List Entry, ∃ v' : List (Option (List Char)), v'.length = 256 ∧ ∀ i < 256, v'[i]? = some (lastName es i) := by
    intro es
    refine ⟨(List.range 256).map (lastName es), by rw [List.length_map, List.length_range], ?_⟩
    intro i hi
    rw [List.getElem?_map, List.getElem?_range hi]
    rfl
  obtain ⟨v', hv1, hv2⟩ := hlen256 (kept wanted 0 v)
  have hres : ∀ i < 256, v'[i]? = some ((v[i]?.join).filter wanted) := by
    intro i hi
    rw [hv2 i hi, lastName_kept]
    simp
  have hread := dupLines_read wanted 0 v r hname
  have htne : (kept wanted 0 v).flatMap Entry.tokens ≠ [] := by
    cases hh : kept wanted 0 v with
    | nil => exact absurd hh hkept
    | cons a b => simp [Entry.tokens]
  generalize hy : dupLines wanted 0 v ++ r = y at hread
  obtain ⟨p1, hs1, hp1, hnew⟩ := read_newline hr (by simp) y
  obtain ⟨p2, hp2⟩ := begin_length hb
  have hfull : data = (p ++ lit "/Encoding" ++ p2 ++ p1) ++ st := by rw [hd, hp2, hs1]; simp
  have htake : data.take k = p ++ lit "/Encoding" ++ p2 ++ p1 := by
    have : k = (p ++ lit "/Encoding" ++ p2 ++ p1).length := by
      have := congrArg List.length hfull
      rw [List.length_append] at this
      omega
    rw [this]
    conv_lhs => rw [hfull]
    exact List.take_left' rfl
  have hstrip : stripEncoding wanted data (.own v k r) = p ++ lit "/Encoding" ++ (p2 ++ p1 ++ '\n' :: y) := by
    rw [stripEncoding, htake, ← hy]; simp
  have hfirst : FirstAfter (lit "/Encoding") (p ++ lit "/Encoding" ++ (p2 ++ p1 ++ '\n' :: y)) (p2 ++ p1 ++ '\n' :: y) := by
    refine ⟨p, rfl, ?_⟩
    intro p' q e
    by_contra hlt
    have hpre : p' ++ lit "/Encoding" <+: p ++ lit "/Encoding" := by
      refine List.prefix_of_prefix_length_le (l₃ := p ++ lit "/Encoding" ++ (p2 ++ p1 ++ '\n' :: y)) ⟨q, e.symm⟩ ⟨_, rfl⟩ ?_
      simp only [List.length_append]; omega
    obtain ⟨z, hz⟩ := hpre
    have := hmin p' (z ++ d) (by rw [hd, ← hz]; simp)
    omega
  have hbegin : Begin (p2 ++ p1 ++ '\n' :: y) (p1 ++ '\n' :: y) := by
    rcases hb with ⟨c, cs, e, h1, e2⟩ | ⟨c, h1, e⟩
    · have hp2' : p2 = [] := by
        have := congrArg List.length hp2
        rw [List.length_append, e2] at this
        exact List.length_eq_zero_iff.mp (by omega)
      subst hp2'
      cases p1 with
      | nil => simp at hp1
      | cons x p1 =>
        rw [← e2, hs1] at e
        simp only [List.cons_append, List.cons.injEq] at e
        exact .inl ⟨c, p1 ++ '\n' :: y, by rw [← e.1]; rfl, h1, rfl⟩
    · have : p2 = [c] := by
        rw [e, show c :: s = [c] ++ s from rfl] at hp2
        exact (List.append_cancel_right hp2).symm
      rw [this]
      exact .inr ⟨c, h1, by simp⟩
  rw [hstrip]
  have hn : Gap ['\n'] := .sep (by decide) .nil
  have finish : ∀ st' : List Char, Read (p1 ++ '\n' :: y) ([t1, t2] ++ mid) st' →
      Read st' ((kept wanted 0 v).flatMap Entry.tokens) r →
      HasEncoding (p ++ lit "/Encoding" ++ (p2 ++ p1 ++ '\n' :: y)) (kept wanted 0 v)
        ((p ++ lit "/Encoding" ++ (p2 ++ p1 ++ '\n' :: y)).length - st'.length) r := by
    intro st' hst hst2
    obtain ⟨q, hq, _⟩ := read_suffix hst
    have hsuf : p ++ lit "/Encoding" ++ (p2 ++ p1 ++ '\n' :: y) = (p ++ lit "/Encoding" ++ p2 ++ q) ++ st' := by
      rw [List.append_assoc p2, hq]; simp
    refine ⟨hkept, kept_int wanted 0 v, _, _, t1, t2, mid, st', fin, r', hfirst, hbegin, hs, hmid, hst, ?_, ?_, hst2, hfin, hfr⟩
    · rw [hsuf, show ((p ++ lit "/Encoding" ++ p2 ++ q) ++ st').length - st'.length = (p ++ lit "/Encoding" ++ p2 ++ q).length by
        rw [List.length_append]; omega, List.take_left' rfl]
    · rw [hsuf, List.length_append]; omega
  rcases hnew with hnew | hnew
  · exact ⟨v', _, encoding_iff.mpr ⟨_, finish _ hnew (read_start_gap hn htne hread), hv1, hv2⟩, hv1, hres⟩
  · exact ⟨v', _, encoding_iff.mpr ⟨_, finish _ hnew hread, hv1, hv2⟩, hv1, hres⟩

/-- A font with three entries, the second of which is outside of the vector, and two of which are for
the same code. -/
def sampleFont : List Char :=
  lit "/FontName /X def\n/Encoding 256 array\n0 1 255 {1 index exch/.notdef put}for % fill\ndup 65/A put\ndup 300 /no put dup 66 /b put dup 66 /B put\nreadonly def\ncurrentfile eexec\n"

/-- What is read from it. -/
def sampleRead : Enc := match encoding sampleFont with
  | .ok e => e
  | .error _ => .standard

/-- The vector. -/
def Enc.vector : Enc → List (Option (List Char))
  | .standard => []
  | .own v _ _ => v

/-- The text behind the entries. -/
def Enc.rest : Enc → List Char
  | .standard => []
  | .own _ _ r => r

example : sampleRead.vector[65]? = some (some (lit "A")) ∧ sampleRead.vector[66]? = some (some (lit "B")) ∧
    sampleRead.vector[67]? = some none := by decide +kernel

example : sampleRead.vector.length = 256 ∧ sampleRead.rest = lit "readonly def\ncurrentfile eexec\n" := by decide +kernel

example : stripEncoding (fun g => g == lit "B") sampleFont sampleRead =
    lit "/FontName /X def\n/Encoding 256 array\n0 1 255 {1 index exch/.notdef put}for \ndup 66 /B put\nreadonly def\ncurrentfile eexec\n" := by
  decide +kernel

/-- A code in another base, as PostScript has it, is not understood. -/
theorem radix_fails : encoding (lit "/Encoding 256 array\ndup 8#101 /A put\nreadonly def\n") = .error .value ∧
    encoding (lit "/Encoding StandardEncoding def\n") = .ok .standard := by decide +kernel

/-- If none of the glyphs in the encoding is wanted, the encoding of the stripped font cannot be read. -/
theorem strip_none : encoding (stripEncoding (fun _ => false) sampleFont sampleRead) = .error .index := by decide +kernel

end PyX.Encoding
