import Verif.Font.Encoding
import Mathlib.Tactic.Ring

set_option linter.unusedSectionVars false

/-!
# What is read from encoding vectors

The specification (`Gap`, `Token`, `Read`) says how tokens are laid out in a text: in front of a token
there may be whitespace and comments, behind it there is a whitespace character or a character which
starts a token.  `encfile_iff` characterises the `.enc` files which are read, `encoding_iff` the
encodings inside fonts, `strip_spec` what is left of the latter in a stripped font.
-/

namespace PyX.Encoding

/-! ### Specification -/

/-- Whitespace and comments; a comment ends at the end of the line. -/
inductive Gap : List Char → Prop
  | nil : Gap []
  | sep {c g} : isSep c = true → Gap g → Gap (c :: g)
  | comment {t c g} : (∀ x ∈ t, isNl x = false) → isNl c = true → Gap g → Gap ('%' :: (t ++ c :: g))

/-- A token: what may start one, and then neither whitespace nor the start of another one. -/
def Token (t : List Char) : Prop :=
  ∃ c cs, t = c :: cs ∧ isSep c = false ∧ c ≠ '%' ∧ ∀ x ∈ cs, isSep x = false ∧ isStart x = false

/-- `Read s ts r`: the text `s` consists of the tokens `ts`, followed by `r`. -/
inductive Read : List Char → List (List Char) → List Char → Prop
  | nil {s} : Read s [] s
  | sep {g t c s ts r} : Gap g → Token t → isSep c = true → Read s ts r → Read (g ++ t ++ c :: s) (t :: ts) r
  | start {g t c s ts r} : Gap g → Token t → isStart c = true → Read (c :: s) ts r →
      Read (g ++ t ++ c :: s) (t :: ts) r

/-! ### The tokenizer -/

theorem start_not_sep {c : Char} (h : isStart c = true) : isSep c = false := by
  rcases hs : isSep c with _ | _
  · rfl
  · simp only [isSep, Bool.or_eq_true, beq_iff_eq] at hs
    rcases hs with ((rfl | rfl) | rfl) | rfl <;> revert h <;> decide

theorem nl_sep {c : Char} (h : isNl c = true) : isSep c = true := by
  simp only [isNl, Bool.or_eq_true, beq_iff_eq] at h
  rcases h with rfl | rfl <;> decide

theorem lead_true (t : List Char) (c : Char) (s : List Char) (ht : ∀ x ∈ t, isNl x = false) (hc : isNl c = true) :
    lead true (t ++ c :: s) = lead false s := by
  induction t with
  | nil => simp [lead, hc]
  | cons x t ih =>
    have hx := ht x (by simp)
    simp only [List.cons_append, lead, hx, Bool.false_eq_true, if_false]
    exact ih fun y hy => ht y (List.mem_cons_of_mem _ hy)

theorem lead_gap {g : List Char} (hg : Gap g) (s : List Char) : lead false (g ++ s) = lead false s := by
  induction hg with
  | nil => rfl
  | sep hc _ ih => simp only [List.cons_append, lead, hc, if_true]; exact ih
  | @comment t c g ht hc _ ih =>
    have : isSep '%' = false := by decide
    simp only [List.cons_append, List.append_assoc, lead, this, Bool.false_eq_true, if_false, if_true]
    rw [lead_true _ _ _ ht hc, ih]

/-- What is skipped is a gap, or up to the end of a comment. -/
theorem lead_inv (s : List Char) :
    (∀ c cs, lead false s = c :: cs → ∃ g, Gap g ∧ s = g ++ c :: cs ∧ isSep c = false ∧ c ≠ '%') ∧
    (∀ c cs, lead true s = c :: cs → ∃ t n g, (∀ x ∈ t, isNl x = false) ∧ isNl n = true ∧ Gap g ∧
      s = t ++ n :: (g ++ c :: cs) ∧ isSep c = false ∧ c ≠ '%') := by
  induction s with
  | nil => constructor <;> intro c cs h <;> simp [lead] at h
  | cons x s ih =>
    constructor
    · intro c cs h
      rw [lead] at h
      by_cases hx : isSep x = true
      · rw [if_pos hx] at h
        obtain ⟨g, hg, e, h1, h2⟩ := ih.1 c cs h
        exact ⟨x :: g, .sep hx hg, by rw [e]; rfl, h1, h2⟩
      · rw [if_neg hx] at h
        by_cases hp : x = '%'
        · rw [if_pos hp] at h
          obtain ⟨t, n, g, ht, hn, hg, e, h1, h2⟩ := ih.2 c cs h
          exact ⟨'%' :: (t ++ n :: g), .comment ht hn hg, by rw [e, hp]; simp, h1, h2⟩
        · rw [if_neg hp] at h
          simp only [List.cons.injEq] at h
          exact ⟨[], .nil, by rw [← h.1, ← h.2]; rfl, by rw [← h.1]; simpa using hx, by rw [← h.1]; exact hp⟩
    · intro c cs h
      rw [lead] at h
      by_cases hx : isNl x = true
      · rw [if_pos hx] at h
        obtain ⟨g, hg, e, h1, h2⟩ := ih.1 c cs h
        exact ⟨[], x, g, by simp, hx, hg, by rw [e]; rfl, h1, h2⟩
      · rw [if_neg hx] at h
        obtain ⟨t, n, g, ht, hn, hg, e, h1, h2⟩ := ih.2 c cs h
        refine ⟨x :: t, n, g, ?_, hn, hg, by rw [e]; rfl, h1, h2⟩
        intro y hy
        rcases List.mem_cons.mp hy with rfl | hy
        · simpa using hx
        · exact ht y hy

theorem tokRest_sep {cs : List Char} (h : ∀ x ∈ cs, isSep x = false ∧ isStart x = false) {c : Char} (hc : isSep c = true)
    (s : List Char) : tokRest (cs ++ c :: s) = .ok (cs, s) := by
  induction cs with
  | nil => simp [tokRest, hc]
  | cons x cs ih =>
    have hx := h x (by simp)
    simp only [List.cons_append, tokRest, hx.1, hx.2, Bool.false_eq_true, if_false]
    rw [ih fun y hy => h y (List.mem_cons_of_mem _ hy)]

theorem tokRest_start {cs : List Char} (h : ∀ x ∈ cs, isSep x = false ∧ isStart x = false) {c : Char}
    (hc : isStart c = true) (s : List Char) : tokRest (cs ++ c :: s) = .ok (cs, c :: s) := by
  induction cs with
  | nil => simp [tokRest, hc, start_not_sep hc]
  | cons x cs ih =>
    have hx := h x (by simp)
    simp only [List.cons_append, tokRest, hx.1, hx.2, Bool.false_eq_true, if_false]
    rw [ih fun y hy => h y (List.mem_cons_of_mem _ hy)]

theorem tokRest_inv {s t r : List Char} (h : tokRest s = .ok (t, r)) :
    (∀ x ∈ t, isSep x = false ∧ isStart x = false) ∧
      ((∃ c, isSep c = true ∧ s = t ++ c :: r) ∨ ∃ c r', isStart c = true ∧ r = c :: r' ∧ s = t ++ r) := by
  induction s generalizing t r with
  | nil => simp [tokRest] at h
  | cons x s ih =>
    rw [tokRest] at h
    by_cases hx : isSep x = true
    · rw [if_pos hx] at h
      simp only [Except.ok.injEq, Prod.mk.injEq] at h
      obtain ⟨rfl, rfl⟩ := h
      exact ⟨by simp, .inl ⟨x, hx, rfl⟩⟩
    · rw [if_neg hx] at h
      by_cases hy : isStart x = true
      · rw [if_pos hy] at h
        simp only [Except.ok.injEq, Prod.mk.injEq] at h
        obtain ⟨rfl, rfl⟩ := h
        exact ⟨by simp, .inr ⟨x, s, hy, rfl, rfl⟩⟩
      · rw [if_neg hy] at h
        cases e : tokRest s with
        | error => rw [e] at h; simp at h
        | ok p =>
          rw [e] at h
          simp only [Except.ok.injEq, Prod.mk.injEq] at h
          obtain ⟨rfl, rfl⟩ := h
          obtain ⟨h1, h2⟩ := ih e
          refine ⟨?_, ?_⟩
          · intro y hy'
            rcases List.mem_cons.mp hy' with rfl | hy'
            · exact ⟨by simpa using hx, by simpa using hy⟩
            · exact h1 y hy'
          · rcases h2 with ⟨c, hc, e2⟩ | ⟨c, r', hc, e1, e2⟩
            · exact .inl ⟨c, hc, by rw [e2]; rfl⟩
            · exact .inr ⟨c, r', hc, e1, by rw [List.cons_append]; exact congrArg _ e2⟩

/-- **The next token**: `gettoken` gives `t` and leaves `r` exactly if the data is a gap, the token, and
behind it a whitespace character, which is consumed, or the start of the next token, which is not. -/
theorem gettoken_iff {s t r : List Char} : gettoken s = .ok (t, r) ↔
    ∃ g, Gap g ∧ Token t ∧ ((∃ c, isSep c = true ∧ s = g ++ t ++ c :: r) ∨
      ∃ c r', isStart c = true ∧ r = c :: r' ∧ s = g ++ t ++ r) := by
  constructor
  · intro h
    rw [gettoken] at h
    cases e : lead false s with
    | nil => rw [e] at h; simp at h
    | cons c cs =>
      rw [e] at h
      obtain ⟨g, hg, es, h1, h2⟩ := (lead_inv s).1 c cs e
      cases e2 : tokRest cs with
      | error => simp only [e2] at h; simp at h
      | ok p =>
        simp only [e2, Except.ok.injEq, Prod.mk.injEq] at h
        obtain ⟨rfl, rfl⟩ := h
        obtain ⟨h3, h4⟩ := tokRest_inv e2
        refine ⟨g, hg, ⟨c, p.1, rfl, h1, h2, h3⟩, ?_⟩
        rcases h4 with ⟨d, hd, e3⟩ | ⟨d, r', hd, e3, e4⟩
        · exact .inl ⟨d, hd, by rw [es, e3]; simp⟩
        · exact .inr ⟨d, r', hd, e3, by rw [es, e4]; simp⟩
  · rintro ⟨g, hg, ⟨c, cs, rfl, h1, h2, h3⟩, h4⟩
    have hl : ∀ q, lead false (g ++ (c :: cs) ++ q) = c :: (cs ++ q) := by
      intro q
      rw [List.append_assoc, lead_gap hg, List.cons_append, lead, h1]
      simp [h2]
    rcases h4 with ⟨d, hd, rfl⟩ | ⟨d, r', hd, rfl, rfl⟩
    · simp only [gettoken, hl, tokRest_sep h3 hd]
    · simp only [gettoken, hl, tokRest_start h3 hd]

theorem read_cons {s : List Char} {t : List Char} {ts : List (List Char)} {r : List Char} :
    Read s (t :: ts) r ↔ ∃ s', gettoken s = .ok (t, s') ∧ Read s' ts r := by
  constructor
  · intro h
    cases h with
    | sep hg ht hc h => exact ⟨_, gettoken_iff.mpr ⟨_, hg, ht, .inl ⟨_, hc, rfl⟩⟩, h⟩
    | start hg ht hc h => exact ⟨_, gettoken_iff.mpr ⟨_, hg, ht, .inr ⟨_, _, hc, rfl, rfl⟩⟩, h⟩
  · rintro ⟨s', h, h'⟩
    obtain ⟨g, hg, ht, ⟨c, hc, rfl⟩ | ⟨c, r', hc, rfl, rfl⟩⟩ := gettoken_iff.mp h
    · exact .sep hg ht hc h'
    · exact .start hg ht hc h'

theorem read_nil {s r : List Char} : Read s [] r ↔ r = s := by
  constructor
  · intro h; cases h; rfl
  · rintro rfl; exact .nil

/-- How a text is cut into tokens is determined. -/
theorem read_det {s : List Char} {ts : List (List Char)} {r r' : List Char} (h : Read s ts r) (h' : Read s ts r') : r = r' := by
  induction ts generalizing s with
  | nil => rw [read_nil] at h h'; rw [h, h']
  | cons t ts ih =>
    rw [read_cons] at h h'
    obtain ⟨s1, h1, h2⟩ := h
    obtain ⟨s2, h3, h4⟩ := h'
    rw [h1] at h3
    simp only [Except.ok.injEq, Prod.mk.injEq, true_and] at h3
    exact ih h2 (h3 ▸ h4)

theorem read_append {s : List Char} {ts us : List (List Char)} {r : List Char} :
    Read s (ts ++ us) r ↔ ∃ s', Read s ts s' ∧ Read s' us r := by
  induction ts generalizing s with
  | nil => simp [read_nil]
  | cons t ts ih =>
    simp only [List.cons_append, read_cons, ih]
    constructor
    · rintro ⟨s1, h1, s2, h2, h3⟩; exact ⟨s2, ⟨s1, h1, h2⟩, h3⟩
    · rintro ⟨s2, ⟨s1, h1, h2⟩, h3⟩; exact ⟨s1, h1, s2, h2, h3⟩

/-! ### `.enc` files -/

/-- Where the tokens of a file begin: a file has to begin with a separator, or with what starts a token. -/
def Begin (data s : List Char) : Prop :=
  (∃ c cs, data = c :: cs ∧ isStart c = true ∧ s = data) ∨ ∃ c, isSep c = true ∧ data = c :: s

theorem eatSep_iff {d s : List Char} : eatSep d = .ok s ↔ Begin d s := by
  cases d with
  | nil => simp [eatSep, Begin]
  | cons c cs =>
    rw [eatSep]
    constructor
    · intro h
      by_cases h1 : isStart c = true
      · rw [if_pos h1] at h
        simp only [Except.ok.injEq] at h
        exact .inl ⟨c, cs, rfl, h1, h.symm⟩
      · rw [if_neg h1] at h
        by_cases h2 : isSep c = true
        · rw [if_pos h2] at h
          simp only [Except.ok.injEq] at h
          exact .inr ⟨c, h2, by rw [h]⟩
        · rw [if_neg h2] at h; simp at h
    · rintro (⟨c', cs', e, h1, rfl⟩ | ⟨c', h1, e⟩)
      · simp only [List.cons.injEq] at e
        rw [← e.1] at h1
        rw [if_pos h1]
      · simp only [List.cons.injEq] at e
        rw [← e.1] at h1
        have : isStart c ≠ true := fun hc => by rw [start_not_sep hc] at h1; simp at h1
        rw [if_neg this, if_pos h1, e.2]

theorem after_nil (d : List Char) : after [] d = .ok d := by
  cases d <;> simp [after]

theorem entries_iff {n : ℕ} {s : List Char} {v : List (List Char)} {r : List Char} :
    entries n s = .ok (v, r) ↔ v.length = n ∧ Read s (v.map ('/' :: ·)) r := by
  induction n generalizing s v with
  | zero =>
    rw [entries]
    constructor
    · intro h
      simp only [Except.ok.injEq, Prod.mk.injEq] at h
      rw [← h.1, ← h.2]
      exact ⟨rfl, .nil⟩
    · rintro ⟨h1, h2⟩
      rw [List.length_eq_zero_iff] at h1
      subst h1
      rw [List.map_nil, read_nil] at h2
      rw [h2]
  | succ n ih =>
    rw [entries]
    constructor
    · intro h
      cases e : gettoken s with
      | error => simp only [e] at h; simp at h
      | ok p =>
        obtain ⟨t, s'⟩ := p
        simp only [e] at h
        by_cases h1 : t = lit "]"
        · rw [if_pos h1] at h; simp at h
        rw [if_neg h1] at h
        by_cases h2 : t.head? ≠ some '/'
        · rw [if_pos h2] at h; simp at h
        rw [if_neg h2] at h
        cases e2 : entries n s' with
        | error => simp only [e2] at h; simp at h
        | ok q =>
          obtain ⟨w, r'⟩ := q
          simp only [e2, Except.ok.injEq, Prod.mk.injEq] at h
          obtain ⟨rfl, rfl⟩ := h
          obtain ⟨h3, h4⟩ := ih.mp e2
          refine ⟨by simp [h3], ?_⟩
          rw [List.map_cons, read_cons]
          refine ⟨s', ?_, h4⟩
          rw [e]
          cases t with
          | nil => simp at h2
          | cons c cs => simp only [List.head?_cons, ne_eq, Option.some.injEq, not_not] at h2; rw [h2]; rfl
    · rintro ⟨h1, h2⟩
      cases v with
      | nil => simp at h1
      | cons w v =>
        rw [List.map_cons, read_cons] at h2
        obtain ⟨s', e, h3⟩ := h2
        have h4 := ih.mpr ⟨by simpa using h1, h3⟩
        have h5 : ('/' :: w) ≠ lit "]" := by
          intro h
          have := congrArg List.head? h
          simp [lit] at this
        simp only [e, h4, h5, if_false, List.head?_cons, ne_eq, not_true, List.tail_cons]

theorem expect_iff {w s r : List Char} : expect w s = .ok r ↔ Read s [w] r := by
  rw [expect, read_cons]
  cases e : gettoken s with
  | error => simp
  | ok p =>
    obtain ⟨t, s'⟩ := p
    simp only [Except.ok.injEq, Prod.mk.injEq, read_nil]
    by_cases h : t = w
    · simp only [h, ne_eq, not_true, if_false, Except.ok.injEq]
      constructor
      · rintro rfl; exact ⟨_, ⟨trivial, rfl⟩, rfl⟩
      · rintro ⟨_, ⟨_, rfl⟩, rfl⟩; rfl
    · simp only [ne_eq, h, not_false_eq_true, if_true, reduceCtorEq, false_and, exists_false]

theorem bind_ok {α β : Type} {x : Except Err α} {f : α → Except Err β} {b : β} :
    (x >>= f) = .ok b ↔ ∃ a, x = .ok a ∧ f a = .ok b := by
  cases x <;> simp [bind, Except.bind]

/-- **Encoding files are read**, whatever whitespace and comments there are, and exactly those: the name
and the vector are `name` and `v` if and only if the file is the name, `[`, the 256 names in the
given order, each with a slash, `]` and `def`, with something behind it. -/
theorem encfile_iff {data name : List Char} {v : List (List Char)} : encfile data = .ok (name, v) ↔
    v.length = 256 ∧ ∃ s r, Begin data s ∧
      Read s ([name, lit "["] ++ v.map ('/' :: ·) ++ [lit "]", lit "def"]) r := by
  have key : encfile data = .ok (name, v) ↔ ∃ s0 s1 s2 s3 s4 s5, eatSep data = .ok s0 ∧ gettoken s0 = .ok (name, s1) ∧
      expect (lit "[") s1 = .ok s2 ∧ entries 256 s2 = .ok (v, s3) ∧ expect (lit "]") s3 = .ok s4 ∧
      expect (lit "def") s4 = .ok s5 := by
    unfold encfile
    rw [show tokenizer [] data = eatSep data by rw [tokenizer, after_nil]]
    simp only [bind_ok, pure, Except.pure, Except.ok.injEq, Prod.mk.injEq]
    constructor
    · rintro ⟨s0, h0, ⟨t, s1⟩, h1, s2, h2, ⟨w, s3⟩, h3, s4, h4, s5, h5, e1, e2⟩
      dsimp only at e1 e2
      subst e1 e2
      exact ⟨s0, s1, s2, s3, s4, s5, h0, h1, h2, h3, h4, h5⟩
    · rintro ⟨s0, s1, s2, s3, s4, s5, h0, h1, h2, h3, h4, h5⟩
      exact ⟨s0, h0, (name, s1), h1, s2, h2, (v, s3), h3, s4, h4, s5, h5, rfl, rfl⟩
  rw [key]
  simp only [eatSep_iff, expect_iff, entries_iff]
  have hr : ∀ s r, Read s ([name, lit "["] ++ v.map ('/' :: ·) ++ [lit "]", lit "def"]) r ↔ ∃ s1 s2 s3 s4,
      gettoken s = .ok (name, s1) ∧ Read s1 [lit "["] s2 ∧ Read s2 (v.map ('/' :: ·)) s3 ∧ Read s3 [lit "]"] s4 ∧
      Read s4 [lit "def"] r := by
    intro s r
    rw [List.append_assoc, read_append]
    constructor
    · rintro ⟨s2, h1, h2⟩
      rw [read_cons] at h1
      obtain ⟨s1, h1, h3⟩ := h1
      rw [read_append] at h2
      obtain ⟨s3, h4, h5⟩ := h2
      rw [show [lit "]", lit "def"] = [lit "]"] ++ [lit "def"] from rfl, read_append] at h5
      obtain ⟨s4, h5, h6⟩ := h5
      exact ⟨s1, s2, s3, s4, h1, h3, h4, h5, h6⟩
    · rintro ⟨s1, s2, s3, s4, h1, h3, h4, h5, h6⟩
      refine ⟨s2, read_cons.mpr ⟨s1, h1, h3⟩, read_append.mpr ⟨s3, h4, ?_⟩⟩
      rw [show [lit "]", lit "def"] = [lit "]"] ++ [lit "def"] from rfl, read_append]
      exact ⟨s4, h5, h6⟩
  simp only [hr]
  constructor
  · rintro ⟨s0, s1, s2, s3, s4, s5, h0, h1, h2, ⟨h3, h3'⟩, h4, h5⟩
    exact ⟨h3, s0, s5, h0, s1, s2, s3, s4, h1, h2, h3', h4, h5⟩
  · rintro ⟨h3, s0, s5, h0, s1, s2, s3, s4, h1, h2, h3', h4, h5⟩
    exact ⟨s0, s1, s2, s3, s4, s5, h0, h1, h2, ⟨h3, h3'⟩, h4, h5⟩

/-- What is read up to the vector. -/
theorem encfile_entries {data s name s2 : List Char} (hb : Begin data s) (h : Read s [name, lit "["] s2) {e : Err}
    (he : entries 256 s2 = .error e) : encfile data = .error e := by
  obtain ⟨s1, h1, h2⟩ := read_cons.mp h
  unfold encfile
  rw [show tokenizer [] data = eatSep data by rw [tokenizer, after_nil], eatSep_iff.mpr hb]
  simp only [bind, Except.bind, h1, expect_iff.mpr h2, he]

theorem encfile_close {data s name s2 s3 : List Char} {v : List (List Char)} (hb : Begin data s)
    (h : Read s [name, lit "["] s2) (hl : v.length = 256) (hv : Read s2 (v.map ('/' :: ·)) s3) {e : Err}
    (he : expect (lit "]") s3 = .error e) : encfile data = .error e := by
  obtain ⟨s1, h1, h2⟩ := read_cons.mp h
  unfold encfile
  rw [show tokenizer [] data = eatSep data by rw [tokenizer, after_nil], eatSep_iff.mpr hb]
  simp only [bind, Except.bind, h1, expect_iff.mpr h2, entries_iff.mpr ⟨hl, hv⟩, he]

theorem encfile_def {data s name s2 s3 s4 : List Char} {v : List (List Char)} (hb : Begin data s)
    (h : Read s [name, lit "["] s2) (hl : v.length = 256) (hv : Read s2 (v.map ('/' :: ·)) s3)
    (h4 : Read s3 [lit "]"] s4) {e : Err}
    (he : expect (lit "def") s4 = .error e) : encfile data = .error e := by
  obtain ⟨s1, h1, h2⟩ := read_cons.mp h
  unfold encfile
  rw [show tokenizer [] data = eatSep data by rw [tokenizer, after_nil], eatSep_iff.mpr hb]
  simp only [bind, Except.bind, h1, expect_iff.mpr h2, entries_iff.mpr ⟨hl, hv⟩, expect_iff.mpr h4, he]

theorem entries_short {n : ℕ} {s r : List Char} {v : List (List Char)} (hl : v.length < n)
    (h : Read s (v.map ('/' :: ·) ++ [lit "]"]) r) : entries n s = .error .name := by
  induction v generalizing n s with
  | nil =>
    obtain ⟨m, rfl⟩ : ∃ m, n = m + 1 := ⟨n - 1, by simp at hl; omega⟩
    simp only [List.map_nil, List.nil_append] at h
    obtain ⟨s', h1, _⟩ := read_cons.mp h
    simp only [entries, h1, if_true]
  | cons w v ih =>
    obtain ⟨m, rfl⟩ : ∃ m, n = m + 1 := ⟨n - 1, by simp at hl; omega⟩
    simp only [List.map_cons, List.cons_append] at h
    obtain ⟨s', h1, h2⟩ := read_cons.mp h
    have h5 : ('/' :: w) ≠ lit "]" := by
      intro h
      have := congrArg List.head? h
      simp [lit] at this
    simp only [entries, h1, h5, if_false, List.head?_cons, ne_eq, not_true,
      ih (by simpa using hl) h2]

/-- **Short and long vectors are refused**, but not with the exception meant for it: a vector of fewer
or more than 256 names is a `NameError`. -/
theorem wrong_length {data s name r : List Char} {v : List (List Char)} (hb : Begin data s) (hl : v.length ≠ 256)
    (h : Read s ([name, lit "["] ++ v.map ('/' :: ·) ++ [lit "]"]) r) : encfile data = .error .name := by
  rw [List.append_assoc, read_append] at h
  obtain ⟨s2, h1, h2⟩ := h
  rcases Nat.lt_or_ge v.length 256 with h3 | h3
  · exact encfile_entries hb h1 (entries_short h3 h2)
  · obtain ⟨w, u, rfl, hw⟩ : ∃ w u, v = w ++ u ∧ w.length = 256 :=
      ⟨v.take 256, v.drop 256, (List.take_append_drop _ _).symm, by simp [h3]⟩
    cases u with
    | nil => simp [hw] at hl
    | cons x u =>
      rw [List.map_append, List.append_assoc, read_append] at h2
      obtain ⟨s3, h4, h5⟩ := h2
      refine encfile_close hb h1 hw h4 ?_
      simp only [List.map_cons, List.cons_append] at h5
      obtain ⟨s4, h6, _⟩ := read_cons.mp h5
      have h7 : ('/' :: x) ≠ lit "]" := by
        intro h
        have := congrArg List.head? h
        simp [lit] at this
      simp only [expect, h6, ne_eq, h7, not_false_eq_true, if_true]

theorem lead_only {g : List Char} (hg : Gap g) {t : List Char} (ht : Token t) : gettoken (g ++ t) = .error .index := by
  obtain ⟨c, cs, rfl, h1, h2, h3⟩ := ht
  have e : tokRest cs = .error .index := by
    clear h1 h2
    induction cs with
    | nil => rfl
    | cons x cs ih =>
      have hx := h3 x (by simp)
      simp only [tokRest, hx.1, hx.2, Bool.false_eq_true, if_false, ih fun y hy => h3 y (List.mem_cons_of_mem _ hy)]
  have hl : lead false (g ++ (c :: cs)) = c :: cs := by
    rw [lead_gap hg, lead, h1]
    simp [h2]
  simp only [gettoken, hl, e]

theorem token_lit {w : List Char} (h : w.any (fun c => isSep c || isStart c) = false) (hw : w ≠ []) : Token w := by
  cases w with
  | nil => simp at hw
  | cons c cs =>
    simp only [List.any_cons, Bool.or_eq_false_iff, List.any_eq_false, Bool.or_eq_true, not_or] at h
    refine ⟨c, cs, rfl, h.1.1, ?_, fun x hx => by simpa using h.2 x hx⟩
    rintro rfl
    have : isStart '%' = true := by decide
    rw [this] at h
    simp at h

/-- **An encoding file has to go on behind `def`**: without a newline at its end, it is not read. -/
theorem no_newline {data s name g : List Char} {v : List (List Char)} (hb : Begin data s) (hl : v.length = 256)
    (h : Read s ([name, lit "["] ++ v.map ('/' :: ·) ++ [lit "]"]) (g ++ lit "def")) (hg : Gap g) :
    encfile data = .error .index := by
  rw [List.append_assoc, read_append] at h
  obtain ⟨s2, h1, h2⟩ := h
  rw [read_append] at h2
  obtain ⟨s3, h3, h4⟩ := h2
  refine encfile_def hb h1 hl h3 h4 ?_
  rw [expect, lead_only hg (token_lit (by decide) (by decide))]

/-- **A bracket does not end a token**: `]def`, which are two PostScript tokens, is read as one, and
the file refused. -/
theorem bracket_def {data s name r : List Char} {v : List (List Char)} (hb : Begin data s) (hl : v.length = 256)
    (h : Read s ([name, lit "["] ++ v.map ('/' :: ·) ++ [lit "]def"]) r) : encfile data = .error .name := by
  rw [List.append_assoc, read_append] at h
  obtain ⟨s2, h1, h2⟩ := h
  rw [read_append] at h2
  obtain ⟨s3, h3, h4⟩ := h2
  refine encfile_close hb h1 hl h3 ?_
  obtain ⟨s4, h6, _⟩ := read_cons.mp h4
  have h7 : lit "]def" ≠ lit "]" := by decide
  simp only [expect, h6, ne_eq, h7, not_false_eq_true, if_true]

/-- `]def` is one token. -/
example : gettoken (lit "]def ") = .ok (lit "]def", []) ∧ gettoken (lit " %x\n ] def\n") = .ok (lit "]", lit "def\n") := by
  decide +kernel

/-- Which characters start a token. -/
theorem isStart_iff (c : Char) : isStart c = true ↔ c = '(' ∨ c = ')' ∨ c = '<' ∨ c = '>' ∨ c = '[' ∨ c = ']' ∨
    c = '{' ∨ c = '}' ∨ c = '/' ∨ c = '%' := by
  simp [isStart, lit]

/-- The sign of a number. -/
theorem int_sign (s : List Char) (n : ℕ) (h : digits s = some n) :
    int ('-' :: s) = some (-(n : ℤ)) ∧ int ('+' :: s) = some (n : ℤ) := by
  rw [int, int, h]
  exact ⟨rfl, rfl⟩

example : int (lit "-12") = some (-12) := by decide +kernel

/-- A file of 256 entries. -/
def sampleEnc (close : String) : List Char :=
  lit "% sample\n/Enc[ % first\n" ++ (List.replicate 255 (lit "/.notdef")).flatten ++ lit " /a" ++ lit close

example : encfile (sampleEnc "] def\n") = .ok (lit "/Enc", List.replicate 255 (lit ".notdef") ++ [lit "a"]) := by
  decide +kernel

example : encfile (sampleEnc "] def") = .error .index ∧ encfile (sampleEnc "]def\n") = .error .name ∧
    encfile (sampleEnc "/b] def\n") = .error .name := by
  decide +kernel

end PyX.Encoding
