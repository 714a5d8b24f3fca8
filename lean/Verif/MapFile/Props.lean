import Verif.MapFile.Model
import Mathlib.Data.List.Induction
import Mathlib.Tactic.Basic
import Mathlib.Tactic.Linarith

/-!
# C56: font maps
-/

set_option linter.unusedSectionVars false

namespace PyX.MapFile

variable {F : Type} (sp : Char → Bool) (parseFloat : Str → Option F)

/-! ## Specification -/

/-- The line defines a font: it is not empty or a comment, and it can be parsed. -/
def Defines (l : Str) (m : MAPline F) : Prop := skipped (rstrip sp l) = false ∧ parse sp parseFloat (rstrip sp l) = .ok m

/-- The line has a slant that is not a number. -/
def BadNumber (l : Str) : Prop := skipped (rstrip sp l) = false ∧ parse sp parseFloat (rstrip sp l) = .error .valueError

/-- `m` is the entry for the font `n` in the lines: that of the last line defining it. -/
def LastEntry (lines : List Str) (n : Option Str) (m : MAPline F) : Prop :=
  ∃ pre l post, lines = pre ++ l :: post ∧ Defines sp parseFloat l m ∧ m.texname = n ∧
    ∀ l' ∈ post, ∀ m', Defines sp parseFloat l' m' → m'.texname ≠ n

/-! ## The map -/

/-- One line of a file. -/
theorem readLines_cons (l : Str) (ls : List Str) (fm : FontMap F) :
    (BadNumber sp parseFloat l ∧ readLines sp parseFloat (l :: ls) fm = .error .valueError) ∨
    (∃ m, Defines sp parseFloat l m ∧ readLines sp parseFloat (l :: ls) fm = readLines sp parseFloat ls (assign fm m.texname m)) ∨
    ((∀ m, ¬ Defines sp parseFloat l m) ∧ ¬ BadNumber sp parseFloat l ∧
      readLines sp parseFloat (l :: ls) fm = readLines sp parseFloat ls fm) := by
  unfold Defines BadNumber
  rcases hs : skipped (rstrip sp l) with _ | _
  · rcases hp : parse sp parseFloat (rstrip sp l) with e | m
    · rcases e with _ | _ | _
      · right; right
        exact ⟨(by simp), (by simp), by simp [readLines, hs, hp]⟩
      · right; right
        exact ⟨(by simp), (by simp), by simp [readLines, hs, hp]⟩
      · left
        exact ⟨(by simp), by simp [readLines, hs, hp]⟩
    · right; left
      exact ⟨m, (by simp), by simp [readLines, hs, hp]⟩
  · right; right
    exact ⟨(by simp), (by simp), by simp [readLines, hs]⟩

theorem readLines_spec (ls : List Str) (fm : FontMap F) :
    (∀ l ∈ ls, ¬ BadNumber sp parseFloat l) ∧ (∃ r, readLines sp parseFloat ls fm = .ok r ∧
      ∀ n m, r n = some m ↔ LastEntry sp parseFloat ls n m ∨
        (fm n = some m ∧ ∀ l' ∈ ls, ∀ m', Defines sp parseFloat l' m' → m'.texname ≠ n)) ∨
    (∃ l ∈ ls, BadNumber sp parseFloat l) ∧ readLines sp parseFloat ls fm = .error .valueError := by
  induction ls generalizing fm with
  | nil =>
    left
    refine ⟨by simp, fm, rfl, ?_⟩
    intro n m
    unfold LastEntry
    simp
  | cons l ls ih =>
    rcases readLines_cons sp parseFloat l ls fm with ⟨h1, h2⟩ | ⟨m0, h1, h2⟩ | ⟨h1, h1', h2⟩
    · right
      exact ⟨⟨l, List.mem_cons_self, h1⟩, h2⟩
    · have hnb : ¬ BadNumber sp parseFloat l := by
        intro hb
        have := hb.2
        rw [h1.2] at this
        cases this
      rcases ih (assign fm m0.texname m0) with ⟨h3, r, h4, h5⟩ | ⟨⟨l', h3, h4⟩, h5⟩
      · left
        refine ⟨?_, r, by rw [h2, h4], ?_⟩
        · intro l' hl'
          rcases List.mem_cons.mp hl' with rfl | hl'
          · exact hnb
          · exact h3 l' hl'
        · intro n m
          rw [h5]
          constructor
          · rintro (⟨pre, l', post, e, h6, h7, h8⟩ | ⟨h6, h7⟩)
            · left
              exact ⟨l :: pre, l', post, by rw [e]; rfl, h6, h7, h8⟩
            · unfold assign at h6
              by_cases hn : n = m0.texname
              · rw [if_pos hn] at h6
                cases h6
                left
                exact ⟨[], l, ls, rfl, h1, hn.symm, h7⟩
              · rw [if_neg hn] at h6
                right
                refine ⟨h6, ?_⟩
                intro l' hl' m' hm'
                rcases List.mem_cons.mp hl' with rfl | hl'
                · have := h1.2.symm.trans hm'.2
                  cases this
                  exact fun e => hn e.symm
                · exact h7 l' hl' m' hm'
          · rintro (⟨pre, l', post, e, h6, h7, h8⟩ | ⟨h6, h7⟩)
            · rcases pre with _ | ⟨q, pre⟩
              · cases e
                right
                have := h1.2.symm.trans h6.2
                cases this
                exact ⟨by unfold assign; rw [if_pos h7.symm], h8⟩
              · cases e
                left
                exact ⟨pre, l', post, rfl, h6, h7, h8⟩
            · right
              have := h7 l List.mem_cons_self m0 h1
              refine ⟨by unfold assign; rw [if_neg fun e => this e.symm]; exact h6, ?_⟩
              intro l' hl'
              exact h7 l' (List.mem_cons_of_mem _ hl')
      · right
        exact ⟨⟨l', List.mem_cons_of_mem _ h3, h4⟩, by rw [h2, h5]⟩
    · rcases ih fm with ⟨h3, r, h4, h5⟩ | ⟨⟨l', h3, h4⟩, h5⟩
      · left
        refine ⟨?_, r, by rw [h2, h4], ?_⟩
        · intro l' hl'
          rcases List.mem_cons.mp hl' with rfl | hl'
          · exact h1'
          · exact h3 l' hl'
        · intro n m
          rw [h5]
          constructor
          · rintro (⟨pre, l', post, e, h6, h7, h8⟩ | ⟨h6, h7⟩)
            · left
              exact ⟨l :: pre, l', post, by rw [e]; rfl, h6, h7, h8⟩
            · right
              refine ⟨h6, ?_⟩
              intro l' hl' m' hm'
              rcases List.mem_cons.mp hl' with rfl | hl'
              · exact absurd hm' (h1 m')
              · exact h7 l' hl' m' hm'
          · rintro (⟨pre, l', post, e, h6, h7, h8⟩ | ⟨h6, h7⟩)
            · rcases pre with _ | ⟨q, pre⟩
              · cases e
                exact absurd h6 (h1 m)
              · cases e
                left
                exact ⟨pre, l', post, rfl, h6, h7, h8⟩
            · right
              exact ⟨h6, fun l' hl' => h7 l' (List.mem_cons_of_mem _ hl')⟩
      · right
        exact ⟨⟨l', List.mem_cons_of_mem _ h3, h4⟩, by rw [h2, h5]⟩

theorem readLines_append (a b : List Str) (fm : FontMap F) :
    readLines sp parseFloat (a ++ b) fm = (readLines sp parseFloat a fm).bind fun fm => readLines sp parseFloat b fm := by
  induction a generalizing fm with
  | nil => rfl
  | cons l ls ih =>
    rcases readLines_cons sp parseFloat l (ls ++ b) fm with ⟨h1, h2⟩ | ⟨m0, h1, h2⟩ | ⟨h1, h1', h2⟩ <;>
    rcases readLines_cons sp parseFloat l ls fm with ⟨k1, k2⟩ | ⟨m1, k1, k2⟩ | ⟨k1, k1', k2⟩
    · rw [List.cons_append, h2, k2]
      rfl
    · have := h1.2.symm.trans k1.2
      cases this
    · exact absurd h1 k1'
    · have := k1.2.symm.trans h1.2
      cases this
    · have := k1.2.symm.trans h1.2
      cases this
      rw [List.cons_append, h2, k2, ih]
    · exact absurd h1 (k1 _)
    · exact absurd k1 h1'
    · exact absurd k1 (h1 _)
    · rw [List.cons_append, h2, k2, ih]

theorem readFiles_eq (files : List (List Str)) (fm : FontMap F) :
    readFiles sp parseFloat files fm = readLines sp parseFloat files.flatten fm := by
  induction files generalizing fm with
  | nil => rfl
  | cons f fs ih =>
    rw [List.flatten_cons, readLines_append, readFiles]
    rcases readLines sp parseFloat f fm with e | r
    · rfl
    · exact ih r

/-- **C56.**  Reading font maps gives for each font name the entry of the last line defining it, in the order of the files and lines; it
succeeds if no line has a slant that is not a number. -/
theorem last_entry_wins (files : List (List Str)) (h : ∀ f ∈ files, ∀ l ∈ f, ¬ BadNumber sp parseFloat l) :
    ∃ r, readfontmap sp parseFloat files = .ok r ∧ ∀ n m, r n = some m ↔ LastEntry sp parseFloat files.flatten n m := by
  unfold readfontmap
  rw [readFiles_eq]
  rcases readLines_spec sp parseFloat files.flatten (fun _ => none) with ⟨_, r, h4, h5⟩ | ⟨⟨l, h3, h4⟩, _⟩
  · refine ⟨r, h4, ?_⟩
    intro n m
    rw [h5]
    simp
  · obtain ⟨f, hf, hl⟩ := List.mem_flatten.mp h3
    exact absurd h4 (h f hf l hl)

/-- **C56.**  A line with a slant that is not a number makes the reading of all maps fail. -/
theorem bad_number_fails (files : List (List Str)) :
    readfontmap sp parseFloat files = .error .valueError ↔ ∃ f ∈ files, ∃ l ∈ f, BadNumber sp parseFloat l := by
  unfold readfontmap
  rw [readFiles_eq]
  constructor
  · intro h
    rcases readLines_spec sp parseFloat files.flatten (fun _ => none) with ⟨_, r, h4, _⟩ | ⟨⟨l, h3, h4⟩, _⟩
    · rw [h] at h4
      cases h4
    · obtain ⟨f, hf, hl⟩ := List.mem_flatten.mp h3
      exact ⟨f, hf, l, hl, h4⟩
  · rintro ⟨f, hf, l, hl, hb⟩
    rcases readLines_spec sp parseFloat files.flatten (fun _ => none) with ⟨h3, _⟩ | ⟨_, h5⟩
    · exact absurd hb (h3 l (List.mem_flatten.mpr ⟨f, hf, hl⟩))
    · exact h5

/-- **C56.**  Lines that cannot be parsed for another reason, comments and empty lines may be inserted anywhere without changing the map. -/
theorem malformed_ignored (a b : List (List Str)) (l1 l2 : List Str) (l : Str) (hd : ∀ m, ¬ Defines sp parseFloat l m)
    (hb : ¬ BadNumber sp parseFloat l) :
    readfontmap sp parseFloat (a ++ (l1 ++ l :: l2) :: b) = readfontmap sp parseFloat (a ++ (l1 ++ l2) :: b) := by
  unfold readfontmap
  rw [readFiles_eq, readFiles_eq]
  simp only [List.flatten_append, List.flatten_cons, List.append_assoc]
  rw [readLines_append, readLines_append _ _ a.flatten]
  rcases readLines sp parseFloat a.flatten (fun _ => none) with e | r
  · rfl
  · show readLines _ _ _ _ = readLines _ _ _ _
    rw [readLines_append, readLines_append _ _ l1]
    rcases readLines sp parseFloat l1 r with e | r
    · rfl
    · show readLines _ _ _ _ = readLines _ _ _ _
      rcases readLines_cons sp parseFloat l (l2 ++ b.flatten) r with ⟨h1, _⟩ | ⟨m, h1, _⟩ | ⟨_, _, h2⟩
      · exact absurd h1 hb
      · exact absurd h1 (hd m)
      · exact h2

/-! ## The tokens of a line -/

/-- A token of a map line. -/
inductive Tok where
  | word (w : Str)
  | quoted (q : Str)

/-- The text of a token. -/
def Tok.text : Tok → Str
  | .word w => w
  | .quoted q => '"' :: q ++ ['"']

/-- Words are not empty, have no white space and do not begin with a quote; there are no quotes inside of quotes. -/
def Tok.Valid : Tok → Prop
  | .word w => w ≠ [] ∧ (∀ c ∈ w, sp c = false) ∧ w.head? ≠ some '"'
  | .quoted q => '"' ∉ q

/-- The line with these tokens and the white space between them. -/
def line : Tok → List (Str × Tok) → Str
  | t, [] => t.text
  | t, (s, t') :: rest => t.text ++ s ++ line t' rest

theorem length_dropWhile_le (p : Char → Bool) (s : Str) : (s.dropWhile p).length ≤ s.length :=
  (List.dropWhile_sublist p).length_le

theorem scanQuoted_text (q rest : Str) (hq : '"' ∉ q) (hr : (rest.head?.map sp).getD true = true) :
    scanQuoted sp (q ++ '"' :: rest) = (q, rest.dropWhile sp) := by
  induction q with
  | nil => simp [scanQuoted, hr]
  | cons c q ih =>
    have hc : c ≠ '"' := fun h => hq (by rw [h]; exact List.mem_cons_self)
    have := ih (fun h => hq (List.mem_cons_of_mem _ h))
    rw [List.cons_append, scanQuoted, if_neg (by simp [hc]), this]

theorem scanWord_text (w rest : Str) (hw : ∀ c ∈ w, sp c = false) (hr : (rest.head?.map sp).getD true = true) :
    scanWord sp (w ++ rest) = (w, rest.dropWhile sp) := by
  unfold scanWord
  have h1 : ∀ c ∈ w, (!sp c) = true := fun c hc => by simp [hw c hc]
  have h2 : (rest.takeWhile fun c => !sp c) = [] ∧ (rest.dropWhile fun c => !sp c) = rest := by
    rcases rest with _ | ⟨c, rest⟩
    · simp
    · simp at hr
      simp [hr]
  rw [List.takeWhile_append_of_pos h1, List.dropWhile_append_of_pos h1, h2.1, h2.2, List.append_nil]

theorem scanQuoted_length (s : Str) : (scanQuoted sp s).2.length ≤ s.length := by
  induction s with
  | nil => simp [scanQuoted]
  | cons c s ih =>
    rw [scanQuoted]
    split_ifs
    · have := length_dropWhile_le sp s
      simp
      omega
    · simp
      omega

/-- More fuel than characters does not matter. -/
theorem tokensF_fuel (n : ℕ) (s : Str) (h : s.length ≤ n) : tokensF sp n s = tokensF sp s.length s := by
  induction n using Nat.strong_induction_on generalizing s with
  | _ n ih =>
    rcases s with _ | ⟨c, s⟩
    · rcases n with _ | n <;> rfl
    · rcases n with _ | n
      · simp at h
      · simp only [List.length_cons, tokensF] at h ⊢
        split_ifs with hc
        · have h1 := scanQuoted_length sp s
          congr 1
          rw [ih n (by omega) _ (by omega), ih s.length (by omega) _ h1]
        · have h1 : (scanWord sp (c :: s)).2.length ≤ s.length := by
            unfold scanWord
            simp only
            by_cases hs : sp c = true
            · rw [List.dropWhile_cons_of_neg (by simp [hs]), List.dropWhile_cons_of_pos hs]
              exact length_dropWhile_le _ _
            · rw [List.dropWhile_cons_of_pos (by simp [hs])]
              exact (length_dropWhile_le _ _).trans (length_dropWhile_le _ _)
          congr 1
          rw [ih n (by omega) _ (by omega), ih s.length (by omega) _ h1]

theorem tokens_text (t : Tok) (ht : t.Valid sp) (rest : Str) (hr : (rest.head?.map sp).getD true = true) :
    tokens sp (t.text ++ rest) = t.text :: tokens sp (rest.dropWhile sp) := by
  unfold tokens
  rcases t with w | q
  · obtain ⟨h1, h2, h3⟩ := ht
    rcases w with _ | ⟨c, w⟩
    · exact absurd rfl h1
    · have hc : c ≠ '"' := fun h => h3 (by rw [h]; rfl)
      have hs := scanWord_text sp (c :: w) rest h2 hr
      show tokensF sp ((c :: w) ++ rest).length ((c :: w) ++ rest) = _
      rw [show ((c :: w) ++ rest).length = (w ++ rest).length + 1 by simp, List.cons_append, tokensF, if_neg hc, ← List.cons_append, hs]
      have := length_dropWhile_le sp rest
      rw [tokensF_fuel _ _ _ (by simp; omega)]
      rfl
  · have hs := scanQuoted_text sp q rest ht hr
    show tokensF sp ('"' :: q ++ ['"'] ++ rest).length ('"' :: q ++ ['"'] ++ rest) = _
    rw [show '"' :: q ++ ['"'] ++ rest = '"' :: (q ++ '"' :: rest) by simp,
      show ('"' :: (q ++ '"' :: rest)).length = (q ++ '"' :: rest).length + 1 by simp, tokensF, if_pos rfl, hs]
    have := length_dropWhile_le sp rest
    rw [tokensF_fuel _ _ _ (by simp; omega)]
    rfl

/-- **C56.**  A line of words and quoted texts separated by white space is split into exactly these. -/
theorem tokens_line (hq : sp '"' = false) (t : Tok) (rest : List (Str × Tok)) (ht : t.Valid sp)
    (hrest : ∀ p ∈ rest, p.1 ≠ [] ∧ (∀ c ∈ p.1, sp c = true) ∧ p.2.Valid sp) :
    tokens sp (line t rest) = t.text :: rest.map fun p => p.2.text := by
  induction rest generalizing t with
  | nil =>
    have := tokens_text sp t ht [] rfl
    rw [List.append_nil] at this
    rw [line, this]
    rfl
  | cons p rest ih =>
    obtain ⟨s, t'⟩ := p
    obtain ⟨h1, h2, h3⟩ := hrest _ List.mem_cons_self
    rw [line, List.append_assoc, tokens_text sp t ht]
    · have hd : (s ++ line t' rest).dropWhile sp = line t' rest := by
        rw [List.dropWhile_append_of_pos h2]
        have hh : ∃ c cs, line t' rest = c :: cs ∧ sp c = false := by
          have hh' : ∃ c cs, t'.text = c :: cs ∧ sp c = false := by
            rcases t' with w | q
            · obtain ⟨g1, g2, _⟩ := h3
              rcases w with _ | ⟨c, w⟩
              · exact absurd rfl g1
              · exact ⟨c, w, rfl, g2 c List.mem_cons_self⟩
            · exact ⟨'"', q ++ ['"'], rfl, hq⟩
          obtain ⟨c, cs, e, hc⟩ := hh'
          rcases rest with _ | ⟨⟨s2, t2⟩, rest⟩
          · exact ⟨c, cs, by rw [line, e], hc⟩
          · exact ⟨c, cs ++ s2 ++ line t2 rest, by rw [line, e]; simp, hc⟩
        obtain ⟨c, cs, e, hc⟩ := hh
        rw [e, List.dropWhile_cons_of_neg (by simp [hc])]
      rw [hd, ih t' h3 fun p hp => hrest p (List.mem_cons_of_mem _ hp)]
      rfl
    · rcases s with _ | ⟨c, s⟩
      · exact absurd rfl h1
      · simpa using h2 c List.mem_cons_self

/-! ## The meaning of the tokens -/

/-- A token naming a font file. -/
def FontTok (t f : Str) : Prop :=
  t = '<' :: '<' :: f ∨
  (t = '<' :: f ∧ f ≠ [] ∧ f.head? ≠ some '<' ∧ f.head? ≠ some '[' ∧ endsWith t ".enc" = false ∧ endsWith t ".ttf" = false ∧
    endsWith t ".t42" = false)

/-- A token naming an encoding file. -/
def EncTok (t f : Str) : Prop :=
  t = '<' :: '[' :: f ∨ (t = '<' :: f ∧ f ≠ [] ∧ f.head? ≠ some '<' ∧ f.head? ≠ some '[' ∧ endsWith t ".enc" = true)

/-- A token naming a font. -/
def NameTok (t : Str) : Prop := t.head? ≠ some '<' ∧ t.head? ≠ some '"'

/-- `x` belongs to the last token for which `P` holds. -/
def LastTok (P : Str → Str → Prop) (ts : List Str) (x : Str) : Prop :=
  ∃ pre t post, ts = pre ++ t :: post ∧ P t x ∧ ∀ t' ∈ post, ∀ y, ¬ P t' y

/-- The first name. -/
def FirstName (ts : List Str) (x : Str) : Prop :=
  ∃ pre post, ts = pre ++ x :: post ∧ NameTok x ∧ ∀ t' ∈ pre, ¬ NameTok t'

theorem psLoop_keeps {ps : List Str} {m m' : MAPline F} (h : psLoop parseFloat ps m = .ok m') :
    m'.texname = m.texname ∧ m'.basepsname = m.basepsname ∧ m'.fontfilename = m.fontfilename ∧
      m'.encodingfilename = m.encodingfilename := by
  induction ps using List.twoStepInduction generalizing m with
  | nil => cases h; exact ⟨rfl, rfl, rfl, rfl⟩
  | singleton x => cases h
  | cons_cons arg cmd rest ih _ =>
    rw [psLoop] at h
    split_ifs at h
    · have := ih h
      exact this
    · have := ih h
      exact this
    · rcases hp : parseFloat arg with _ | x
      · rw [hp] at h; cases h
      · rw [hp] at h
        have := ih h
        exact this

theorem endsWith_iff (t : Str) (e : String) : endsWith t e = true ↔ ∃ a, t = a ++ e.toList := by
  unfold endsWith
  rw [List.isSuffixOf_iff_suffix]
  exact ⟨fun ⟨a, h⟩ => ⟨a, h.symm⟩, fun ⟨a, h⟩ => ⟨a, h.symm⟩⟩

theorem endsWith_unique {t : Str} {e e' : String} (hl : e.toList.length = e'.toList.length) (h : endsWith t e = true)
    (h' : endsWith t e' = true) : e.toList = e'.toList := by
  obtain ⟨a, ha⟩ := (endsWith_iff t e).mp h
  obtain ⟨b, hb⟩ := (endsWith_iff t e').mp h'
  exact (List.append_inj' (ha.symm.trans hb) hl).2

theorem not_endsWith {t : Str} {e e' : String} (hl : e.toList.length = e'.toList.length) (hne : e.toList ≠ e'.toList)
    (h : endsWith t e = true) : endsWith t e' = false := by
  rcases h' : endsWith t e' with _ | _
  · rfl
  · exact absurd (endsWith_unique hl h h') hne

/-- The effect of one token other than a single `<`. -/
theorem step_spec {m : MAPline F} {t : Str} {st : MAPline F × Bool} (ht : t ≠ ['<']) (h : step sp parseFloat (m, false) t = .ok st) :
    st.2 = false ∧
    ((∃ f, FontTok t f ∧ st.1 = { m with fontfilename := some f }) ∨
     (∃ f, EncTok t f ∧ st.1 = { m with encodingfilename := some f }) ∨
     (t.head? = some '"' ∧ st.1.texname = m.texname ∧ st.1.basepsname = m.basepsname ∧ st.1.fontfilename = m.fontfilename ∧
        st.1.encodingfilename = m.encodingfilename) ∨
     (NameTok t ∧ m.texname = none ∧ st.1 = { m with texname := some t }) ∨
     (NameTok t ∧ m.texname ≠ none ∧ st.1 = { m with basepsname := some t })) := by
  unfold step at h
  simp only [Bool.false_eq_true, if_false, if_neg ht] at h
  rcases t with _ | ⟨c, t⟩
  · simp only [startsWith] at h
    simp at h
    split_ifs at h with h1
    · cases h
      exact ⟨rfl, Or.inr (Or.inr (Or.inr (Or.inl ⟨⟨by simp, by simp⟩, h1, rfl⟩)))⟩
    · cases h
      exact ⟨rfl, Or.inr (Or.inr (Or.inr (Or.inr ⟨⟨by simp, by simp⟩, h1, rfl⟩)))⟩
  · by_cases hc : c = '<'
    · subst hc
      rcases t with _ | ⟨d, t⟩
      · exact absurd rfl ht
      · have e1 : startsWith ('<' :: d :: t) "<" = true := by simp [startsWith]
        rw [if_pos e1] at h
        by_cases hd : d = '<'
        · subst hd
          have e2 : startsWith ('<' :: '<' :: t) "<<" = true := by simp [startsWith]
          rw [if_pos e2] at h
          cases h
          exact ⟨rfl, Or.inl ⟨t, Or.inl rfl, rfl⟩⟩
        · have e2 : startsWith ('<' :: d :: t) "<<" = false := by simp [startsWith, List.isPrefixOf, Ne.symm hd]
          rw [if_neg (by rw [e2]; simp)] at h
          by_cases hd' : d = '['
          · subst hd'
            have e3 : startsWith ('<' :: '[' :: t) "<[" = true := by simp [startsWith]
            rw [if_pos e3] at h
            cases h
            exact ⟨rfl, Or.inr (Or.inl ⟨t, Or.inl rfl, rfl⟩)⟩
          · have e3 : startsWith ('<' :: d :: t) "<[" = false := by simp [startsWith, List.isPrefixOf, Ne.symm hd']
            rw [if_neg (by rw [e3]; simp)] at h
            have n1 : (d :: t).head? ≠ some '<' := by simp [hd]
            have n2 : (d :: t).head? ≠ some '[' := by simp [hd']
            split_ifs at h with h1 h2 h3 h4
            · cases h
              refine ⟨rfl, Or.inl ⟨d :: t, Or.inr ⟨rfl, by simp, n1, n2, ?_, ?_, ?_⟩, rfl⟩⟩
              · rcases Bool.or_eq_true _ _ ▸ h1 with h1 | h1
                · exact not_endsWith (by decide) (by decide) h1
                · exact not_endsWith (by decide) (by decide) h1
              · rcases Bool.or_eq_true _ _ ▸ h1 with h1 | h1
                · exact not_endsWith (by decide) (by decide) h1
                · exact not_endsWith (by decide) (by decide) h1
              · rcases Bool.or_eq_true _ _ ▸ h1 with h1 | h1
                · exact not_endsWith (by decide) (by decide) h1
                · exact not_endsWith (by decide) (by decide) h1
            · cases h
              exact ⟨rfl, Or.inr (Or.inl ⟨d :: t, Or.inr ⟨rfl, by simp, n1, n2, h2⟩, rfl⟩)⟩
            · cases h
              exact ⟨rfl, Or.inl ⟨d :: t, Or.inr ⟨rfl, by simp, n1, n2, by simpa using h2, by simpa using h3, by simpa using h4⟩, rfl⟩⟩
    · have e1 : startsWith (c :: t) "<" = false := by simp [startsWith, List.isPrefixOf, Ne.symm hc]
      rw [if_neg (by rw [e1]; simp)] at h
      by_cases hc' : c = '"'
      · subst hc'
        have e2 : startsWith ('"' :: t) "\"" = true := by simp [startsWith]
        rw [if_pos e2] at h
        rcases hp : psLoop parseFloat (split sp ((('"' :: t).drop 1).dropLast)) m with e | m'
        · rw [hp] at h; cases h
        · rw [hp] at h
          cases h
          exact ⟨rfl, Or.inr (Or.inr (Or.inl ⟨rfl, psLoop_keeps parseFloat hp⟩))⟩
      · have e2 : startsWith (c :: t) "\"" = false := by simp [startsWith, List.isPrefixOf, Ne.symm hc']
        rw [if_neg (by rw [e2]; simp)] at h
        have hn : NameTok (c :: t) := ⟨by simp [hc], by simp [hc']⟩
        split_ifs at h with h1
        · cases h
          exact ⟨rfl, Or.inr (Or.inr (Or.inr (Or.inl ⟨hn, h1, rfl⟩)))⟩
        · cases h
          exact ⟨rfl, Or.inr (Or.inr (Or.inr (Or.inr ⟨hn, h1, rfl⟩)))⟩

theorem FontTok.head {t f : Str} (h : FontTok t f) : t.head? = some '<' := by
  rcases h with rfl | ⟨rfl, _⟩ <;> rfl

theorem EncTok.head {t f : Str} (h : EncTok t f) : t.head? = some '<' := by
  rcases h with rfl | ⟨rfl, _⟩ <;> rfl

theorem FontTok.unique {t f g : Str} (h : FontTok t f) (h' : FontTok t g) : f = g := by
  rcases h with rfl | ⟨rfl, _, h1, _⟩ <;> rcases h' with h' | ⟨h', _, h2, _⟩
  · simpa using h'
  · simp at h'
    subst h'
    simp at h2
  · simp at h'
    subst h'
    simp at h1
  · simpa using h'

theorem EncTok.unique {t f g : Str} (h : EncTok t f) (h' : EncTok t g) : f = g := by
  rcases h with rfl | ⟨rfl, _, _, h1, _⟩ <;> rcases h' with h' | ⟨h', _, _, h2, _⟩
  · simpa using h'
  · simp at h'
    subst h'
    simp at h2
  · simp at h'
    subst h'
    simp at h1
  · simpa using h'

theorem FontTok.not_enc {t f g : Str} (h : FontTok t f) (h' : EncTok t g) : False := by
  rcases h with rfl | ⟨rfl, _, h1, h1', h2, _⟩ <;> rcases h' with h' | ⟨h', _, h3, _, h4⟩
  · simp at h'
  · simp at h'
    subst h'
    simp at h3
  · simp at h'
    subst h'
    simp at h1'
  · rw [h2] at h4
    cases h4

theorem lastTok_cons (P : Str → Str → Prop) (t : Str) (ts : List Str) (x : Str) :
    LastTok P (t :: ts) x ↔ LastTok P ts x ∨ (P t x ∧ ∀ t' ∈ ts, ∀ y, ¬ P t' y) := by
  constructor
  · rintro ⟨pre, t0, post, e, h1, h2⟩
    rcases pre with _ | ⟨q, pre⟩
    · cases e
      exact Or.inr ⟨h1, h2⟩
    · cases e
      exact Or.inl ⟨pre, t0, post, rfl, h1, h2⟩
  · rintro (⟨pre, t0, post, rfl, h1, h2⟩ | ⟨h1, h2⟩)
    · exact ⟨t :: pre, t0, post, rfl, h1, h2⟩
    · exact ⟨[], t, ts, rfl, h1, h2⟩

theorem exists_last (P : Str → Str → Prop) (ts : List Str) (h : ∃ t ∈ ts, ∃ y, P t y) : ∃ y, LastTok P ts y := by
  induction ts with
  | nil => obtain ⟨t, h, _⟩ := h; cases h
  | cons t ts ih =>
    by_cases h' : ∃ t ∈ ts, ∃ y, P t y
    · obtain ⟨y, hy⟩ := ih h'
      exact ⟨y, (lastTok_cons P t ts y).mpr (Or.inl hy)⟩
    · obtain ⟨t0, h0, y, hy⟩ := h
      rcases List.mem_cons.mp h0 with rfl | h0
      · refine ⟨y, (lastTok_cons P t0 ts y).mpr (Or.inr ⟨hy, ?_⟩)⟩
        intro t' ht' z hz
        exact h' ⟨t', ht', z, hz⟩
      · exact absurd ⟨t0, h0, y, hy⟩ h'

theorem firstName_cons (t : Str) (ts : List Str) (x : Str) :
    FirstName (t :: ts) x ↔ (NameTok t ∧ t = x) ∨ (¬ NameTok t ∧ FirstName ts x) := by
  constructor
  · rintro ⟨pre, post, e, h1, h2⟩
    rcases pre with _ | ⟨q, pre⟩
    · cases e
      exact Or.inl ⟨h1, rfl⟩
    · cases e
      exact Or.inr ⟨h2 _ List.mem_cons_self, pre, post, rfl, h1, fun t' ht' => h2 t' (List.mem_cons_of_mem _ ht')⟩
  · rintro (⟨h1, rfl⟩ | ⟨h0, pre, post, rfl, h1, h2⟩)
    · exact ⟨[], ts, rfl, h1, by simp⟩
    · refine ⟨t :: pre, post, rfl, h1, ?_⟩
      intro t' ht'
      rcases List.mem_cons.mp ht' with rfl | ht'
      · exact h0
      · exact h2 t' ht'

/-- An attribute that is set by every token with `P`. -/
theorem last_field (P : Str → Str → Prop) (hP : ∀ t f g, P t f → P t g → f = g) (t : Str) (ts : List Str) (v v' : Option Str)
    (R : Str → Prop) (hstep : (∃ f, P t f ∧ v' = some f) ∨ ((∀ g, ¬ P t g) ∧ v' = v))
    (h : ∀ f, R f ↔ LastTok P ts f ∨ (v' = some f ∧ ∀ t' ∈ ts, ∀ g, ¬ P t' g)) (f : Str) :
    R f ↔ LastTok P (t :: ts) f ∨ (v = some f ∧ ∀ t' ∈ t :: ts, ∀ g, ¬ P t' g) := by
  rw [h, lastTok_cons]
  rcases hstep with ⟨f0, h1, rfl⟩ | ⟨h1, rfl⟩
  · constructor
    · rintro (h2 | ⟨h2, h3⟩)
      · exact Or.inl (Or.inl h2)
      · cases h2
        exact Or.inl (Or.inr ⟨h1, h3⟩)
    · rintro ((h2 | ⟨h2, h3⟩) | ⟨h2, h3⟩)
      · exact Or.inl h2
      · exact Or.inr ⟨by rw [hP _ _ _ h1 h2], h3⟩
      · exact absurd h1 (h3 t List.mem_cons_self f0)
  · constructor
    · rintro (h2 | ⟨h2, h3⟩)
      · exact Or.inl (Or.inl h2)
      · refine Or.inr ⟨h2, ?_⟩
        intro t' ht'
        rcases List.mem_cons.mp ht' with rfl | ht'
        · exact h1
        · exact h3 t' ht'
    · rintro ((h2 | ⟨h2, h3⟩) | ⟨h2, h3⟩)
      · exact Or.inl h2
      · exact absurd h2 (h1 f)
      · exact Or.inr ⟨h2, fun t' ht' => h3 t' (List.mem_cons_of_mem _ ht')⟩

/-- The names as pairs of token and text. -/
def IsName (t x : Str) : Prop := NameTok t ∧ t = x

/-- The file names after reading the tokens. -/
theorem loop_spec (ts : List Str) (hts : ['<'] ∉ ts) (m : MAPline F) (st : MAPline F × Bool)
    (h : loop sp parseFloat ts (m, false) = .ok st) :
    (∀ f, st.1.fontfilename = some f ↔ LastTok FontTok ts f ∨ (m.fontfilename = some f ∧ ∀ t ∈ ts, ∀ g, ¬ FontTok t g)) ∧
    (∀ f, st.1.encodingfilename = some f ↔ LastTok EncTok ts f ∨ (m.encodingfilename = some f ∧ ∀ t ∈ ts, ∀ g, ¬ EncTok t g)) ∧
    (m.texname = none → ∀ x, st.1.texname = some x ↔ FirstName ts x) ∧
    (m.texname ≠ none → st.1.texname = m.texname) ∧
    (m.texname ≠ none → ∀ x, st.1.basepsname = some x ↔
      LastTok IsName ts x ∨ (m.basepsname = some x ∧ ∀ t ∈ ts, ∀ y, ¬ IsName t y)) ∧
    (m.texname = none → m.basepsname = none → ∀ x, (finish st.1).basepsname = some x ↔ LastTok IsName ts x) := by
  induction ts generalizing m with
  | nil =>
    cases h
    have hl : ∀ (P : Str → Str → Prop) x, ¬ LastTok P [] x := by
      rintro P x ⟨pre, t, post, e, _⟩
      simp at e
    refine ⟨fun f => by simp [hl], fun f => by simp [hl], fun h x => ?_, fun _ => rfl, fun _ x => by simp [hl], fun h h' x => ?_⟩
    · rw [h]
      constructor
      · intro h; cases h
      · rintro ⟨pre, post, e, _⟩
        simp at e
    · unfold finish
      rw [if_pos h', h]
      simp [hl]
  | cons t ts ih =>
    rw [loop] at h
    rcases hs : step sp parseFloat (m, false) t with e | ⟨m', b⟩
    · rw [hs] at h; cases h
    · rw [hs] at h
      have ht : t ≠ ['<'] := fun e => hts (by rw [e]; exact List.mem_cons_self)
      obtain ⟨hb, hcase⟩ := step_spec sp parseFloat ht hs
      simp only at hb hcase
      subst hb
      obtain ⟨i1, i2, i3, i4, i5, i6⟩ := ih (fun h => hts (List.mem_cons_of_mem _ h)) m' h
      have hname : ∀ {c : Char}, (c = '<' ∨ c = '"') → t.head? = some c → ¬ NameTok t := by
        rintro c (rfl | rfl) h1 h2
        · exact h2.1 h1
        · exact h2.2 h1
      have hquote : t.head? = some '"' → (∀ f, ¬ FontTok t f) ∧ ∀ f, ¬ EncTok t f := by
        intro h1
        refine ⟨fun f h2 => ?_, fun f h2 => ?_⟩
        · rw [h2.head] at h1; cases h1
        · rw [h2.head] at h1; cases h1
      have hnm : NameTok t → (∀ f, ¬ FontTok t f) ∧ ∀ f, ¬ EncTok t f :=
        fun h1 => ⟨fun f h2 => h1.1 h2.head, fun f h2 => h1.1 h2.head⟩
      have hfont : (∃ f, FontTok t f ∧ m'.fontfilename = some f) ∨ ((∀ g, ¬ FontTok t g) ∧ m'.fontfilename = m.fontfilename) := by
        rcases hcase with ⟨f, h1, rfl⟩ | ⟨f, h1, rfl⟩ | ⟨h1, _, _, h2, _⟩ | ⟨h1, _, rfl⟩ | ⟨h1, _, rfl⟩
        · exact Or.inl ⟨f, h1, rfl⟩
        · exact Or.inr ⟨fun g hg => hg.not_enc h1, rfl⟩
        · exact Or.inr ⟨(hquote h1).1, h2⟩
        · exact Or.inr ⟨(hnm h1).1, rfl⟩
        · exact Or.inr ⟨(hnm h1).1, rfl⟩
      have henc : (∃ f, EncTok t f ∧ m'.encodingfilename = some f) ∨ ((∀ g, ¬ EncTok t g) ∧ m'.encodingfilename = m.encodingfilename) := by
        rcases hcase with ⟨f, h1, rfl⟩ | ⟨f, h1, rfl⟩ | ⟨h1, _, _, _, h2⟩ | ⟨h1, _, rfl⟩ | ⟨h1, _, rfl⟩
        · exact Or.inr ⟨fun g hg => h1.not_enc hg, rfl⟩
        · exact Or.inl ⟨f, h1, rfl⟩
        · exact Or.inr ⟨(hquote h1).2, h2⟩
        · exact Or.inr ⟨(hnm h1).2, rfl⟩
        · exact Or.inr ⟨(hnm h1).2, rfl⟩
      have htex : (¬ NameTok t ∧ m'.texname = m.texname ∧ m'.basepsname = m.basepsname) ∨
          (NameTok t ∧ m.texname = none ∧ m'.texname = some t ∧ m'.basepsname = m.basepsname) ∨
          (NameTok t ∧ m.texname ≠ none ∧ m'.texname = m.texname ∧ m'.basepsname = some t) := by
        rcases hcase with ⟨f, h1, rfl⟩ | ⟨f, h1, rfl⟩ | ⟨h1, h2, h3, _, _⟩ | ⟨h1, h2, rfl⟩ | ⟨h1, h2, rfl⟩
        · exact Or.inl ⟨hname (Or.inl rfl) h1.head, rfl, rfl⟩
        · exact Or.inl ⟨hname (Or.inl rfl) h1.head, rfl, rfl⟩
        · exact Or.inl ⟨hname (Or.inr rfl) h1, h2, h3⟩
        · exact Or.inr (Or.inl ⟨h1, h2, rfl, rfl⟩)
        · exact Or.inr (Or.inr ⟨h1, h2, rfl, rfl⟩)
      have hfun : ∀ t f g, IsName t f → IsName t g → f = g := fun t f g h1 h2 => h1.2.symm.trans h2.2
      refine ⟨last_field FontTok (fun _ _ _ => FontTok.unique) t ts _ _ _ hfont i1, last_field EncTok (fun _ _ _ => EncTok.unique) t ts _ _ _ henc i2,
        ?_, ?_, ?_, ?_⟩
      · intro hn x
        rw [firstName_cons]
        rcases htex with ⟨h1, h2, _⟩ | ⟨h1, h2, h3, _⟩ | ⟨h1, h2, _⟩
        · rw [i3 (h2.trans hn)]
          simp [h1]
        · rw [i4 (by rw [h3]; simp), h3]
          simp [h1]
        · exact absurd hn h2
      · intro hn
        rcases htex with ⟨h1, h2, _⟩ | ⟨h1, h2, h3, _⟩ | ⟨h1, h2, h3, _⟩
        · rw [i4 (by rw [h2]; exact hn), h2]
        · exact absurd h2 hn
        · rw [i4 (by rw [h3]; exact hn), h3]
      · intro hn
        have hn' : m'.texname ≠ none := by
          rcases htex with ⟨h1, h2, _⟩ | ⟨h1, h2, h3, _⟩ | ⟨h1, h2, h3, _⟩
          · rw [h2]; exact hn
          · exact absurd h2 hn
          · rw [h3]; exact hn
        refine last_field IsName hfun t ts _ _ _ ?_ (i5 hn')
        rcases htex with ⟨h1, _, h2⟩ | ⟨h1, h2, h3, _⟩ | ⟨h1, h2, _, h3⟩
        · exact Or.inr ⟨fun g hg => h1 hg.1, h2⟩
        · exact absurd h2 hn
        · exact Or.inl ⟨t, ⟨h1, rfl⟩, h3⟩
      · intro hn hbn x
        rw [lastTok_cons]
        rcases htex with ⟨h1, h2, h3⟩ | ⟨h1, h2, h3, h4⟩ | ⟨h1, h2, _⟩
        · rw [i6 (h2.trans hn) (h3.trans hbn)]
          have : ¬ IsName t x := fun h => h1 h.1
          simp [this]
        · have hn' : m'.texname ≠ none := by rw [h3]; simp
          have k5 := i5 hn'
          have k4 := i4 hn'
          rw [h4, hbn] at k5
          unfold finish
          split_ifs with hb
          · show st.1.texname = some x ↔ _
            rw [k4, h3]
            have hno : ∀ y, ¬ LastTok IsName ts y := by
              intro y hy
              have := (k5 y).mpr (Or.inl hy)
              rw [hb] at this
              cases this
            have hnone : ∀ t' ∈ ts, ∀ y, ¬ IsName t' y := by
              -- the last name would be in the list
              by_contra hcon
              push Not at hcon
              obtain ⟨y, hy⟩ := exists_last IsName ts hcon
              exact hno y hy
            constructor
            · intro e
              cases e
              exact Or.inr ⟨⟨h1, rfl⟩, hnone⟩
            · rintro (h | ⟨h, _⟩)
              · exact absurd h (hno x)
              · rw [h.2]
          · rw [k5]
            constructor
            · rintro (h | ⟨h, _⟩)
              · exact Or.inl h
              · cases h
            · rintro (h | ⟨h, h'⟩)
              · exact Or.inl h
              · exfalso
                apply hb
                rcases hbb : st.1.basepsname with _ | y
                · rfl
                · rcases (k5 y).mp hbb with ⟨pre, t0, post, e, h5, _⟩ | ⟨h5, _⟩
                  · exact absurd h5 (h' t0 (by rw [e]; simp) y)
                  · cases h5
        · exact absurd hn h2

/-- **C56.**  The meaning of a map line without a single `<` whose tokens are `ts`: the first name is the TeX name and the last one the
PostScript name (the same if there is only one), the last token for a font file and the last token for an encoding give the files. -/
theorem line_meaning (s : Str) (m : MAPline F) (ts : List Str) (hts : tokens sp s = ts) (hno : ['<'] ∉ ts)
    (h : parse sp parseFloat s = .ok m) :
    (∀ x, m.texname = some x ↔ FirstName ts x) ∧ (∀ x, m.basepsname = some x ↔ LastTok IsName ts x) ∧
    (∀ f, m.fontfilename = some f ↔ LastTok FontTok ts f) ∧ (∀ f, m.encodingfilename = some f ↔ LastTok EncTok ts f) := by
  unfold parse at h
  rw [hts] at h
  rcases hl : loop sp parseFloat ts ({}, false) with e | st
  · rw [hl] at h; cases h
  · rw [hl] at h
    have hm : finish st.1 = m := by cases h; rfl
    obtain ⟨h1, h2, h3, _, _, h6⟩ := loop_spec sp parseFloat ts hno {} st hl
    have hf : (finish st.1).texname = st.1.texname ∧ (finish st.1).fontfilename = st.1.fontfilename ∧
        (finish st.1).encodingfilename = st.1.encodingfilename := by
      unfold finish
      split_ifs <;> exact ⟨rfl, rfl, rfl⟩
    rw [← hm, hf.1, hf.2.1, hf.2.2]
    refine ⟨h3 rfl, h6 rfl rfl, ?_, ?_⟩
    · intro f
      rw [h1]
      simp
    · intro f
      rw [h2]
      simp

theorem filter_other {a b x : Str} (h : a ≠ b) (ps : List (Str × Str)) :
    List.filter (fun p => decide (p.2 = b)) ((x, a) :: ps) =
      List.filter (fun p => decide (p.2 = b)) ps :=
  List.filter_cons_of_neg (by simpa using h)

/-- **C56.**  PostScript fragments: each of the three known commands sets its attribute to its last argument, the others are untouched. -/
theorem fragments (ps : List (Str × Str)) (m m' : MAPline F)
    (h : psLoop parseFloat (ps.flatMap fun p => [p.1, p.2]) m = .ok m') :
    (∀ p ∈ ps, p.2 = "ReEncodeFont".toList ∨ p.2 = "ExtendFont".toList ∨ p.2 = "SlantFont".toList) ∧
    m'.reencodefont = ((ps.filter fun p => p.2 = "ReEncodeFont".toList).map (·.1)).getLast?.or m.reencodefont ∧
    m'.extendfont = ((ps.filter fun p => p.2 = "ExtendFont".toList).map (·.1)).getLast?.or m.extendfont ∧
    (∀ x, ((ps.filter fun p => p.2 = "SlantFont".toList).map (·.1)).getLast? = some x → m'.slant = parseFloat x ∧ m'.slant ≠ none) ∧
    (((ps.filter fun p => p.2 = "SlantFont".toList).map (·.1)).getLast? = none → m'.slant = m.slant) := by
  induction ps generalizing m with
  | nil =>
    cases h
    simp
  | cons p ps ih =>
    obtain ⟨arg, cmd⟩ := p
    rw [List.flatMap_cons, List.cons_append, List.cons_append, List.nil_append, psLoop] at h
    have hor : ∀ (l : List Str) (o : Option Str), (arg :: l).getLast?.or o = l.getLast?.or (some arg) := by
      intro l o
      rcases l with _ | ⟨y, l⟩
      · rfl
      · rw [List.getLast?_cons_cons]
        rcases hl : (y :: l).getLast? with _ | z
        · simp at hl
        · rfl
    have n12 : "ReEncodeFont".toList ≠ "ExtendFont".toList := by decide
    have n13 : "ReEncodeFont".toList ≠ "SlantFont".toList := by decide
    have n23 : "ExtendFont".toList ≠ "SlantFont".toList := by decide
    have n21 := n12.symm
    have n31 := n13.symm
    have n32 := n23.symm
    split_ifs at h with h1 h2 h3
    · obtain ⟨i1, i2, i3, i4, i5⟩ := ih _ h
      subst h1
      refine ⟨?_, ?_, ?_, ?_, ?_⟩
      · intro p hp
        rcases List.mem_cons.mp hp with rfl | hp
        · exact Or.inl rfl
        · exact i1 p hp
      · rw [List.filter_cons_of_pos (by simp), List.map_cons, hor, i2]
      · rw [filter_other n12, i3]
      · rw [filter_other n13]
        exact i4
      · rw [filter_other n13]
        exact i5
    · obtain ⟨i1, i2, i3, i4, i5⟩ := ih _ h
      subst h2
      refine ⟨?_, ?_, ?_, ?_, ?_⟩
      · intro p hp
        rcases List.mem_cons.mp hp with rfl | hp
        · exact Or.inr (Or.inl rfl)
        · exact i1 p hp
      · rw [filter_other n21, i2]
      · rw [List.filter_cons_of_pos (by simp), List.map_cons, hor, i3]
      · rw [filter_other n23]
        exact i4
      · rw [filter_other n23]
        exact i5
    · rcases hp : parseFloat arg with _ | x
      · rw [hp] at h; cases h
      · rw [hp] at h
        obtain ⟨i1, i2, i3, i4, i5⟩ := ih _ h
        subst h3
        refine ⟨?_, ?_, ?_, ?_, ?_⟩
        · intro p hp
          rcases List.mem_cons.mp hp with rfl | hp
          · exact Or.inr (Or.inr rfl)
          · exact i1 p hp
        · rw [filter_other n31, i2]
        · rw [filter_other n32, i3]
        · rw [List.filter_cons_of_pos (by simp), List.map_cons]
          intro y hy
          rcases hl : ((ps.filter fun p => p.2 = "SlantFont".toList).map (·.1)) with _ | ⟨z, l⟩
          · rw [hl] at hy i5
            simp at hy
            subst hy
            have := i5 rfl
            rw [this, hp]
            simp
          · rw [hl, List.getLast?_cons_cons, ← hl] at hy
            exact i4 y hy
        · rw [List.filter_cons_of_pos (by simp), List.map_cons]
          intro hy
          simp at hy

/-- A `ValueError` of the fragments comes from the argument of a `SlantFont`. -/
theorem psLoop_value {ps : List Str} {m : MAPline F} (h : psLoop parseFloat ps m = .error .valueError) :
    ∃ pre arg post, ps = pre ++ arg :: "SlantFont".toList :: post ∧ parseFloat arg = none := by
  induction ps using List.twoStepInduction generalizing m with
  | nil => cases h
  | singleton x => cases h
  | cons_cons arg cmd rest ih _ =>
    rw [psLoop] at h
    have key : ∀ {m : MAPline F}, psLoop parseFloat rest m = .error .valueError →
        ∃ pre a post, arg :: cmd :: rest = pre ++ a :: "SlantFont".toList :: post ∧ parseFloat a = none := by
      intro m h
      obtain ⟨pre, a, post, e, h'⟩ := ih h
      exact ⟨arg :: cmd :: pre, a, post, by rw [e]; rfl, h'⟩
    split_ifs at h with h1 h2 h3
    · exact key h
    · exact key h
    · rcases hp : parseFloat arg with _ | x
      · exact ⟨[], arg, rest, by rw [h3]; rfl, hp⟩
      · rw [hp] at h
        exact key h
    · cases h

/-- **C56.**  Only a `SlantFont` whose argument is not a number makes the reading fail. -/
theorem bad_number (l : Str) (h : BadNumber sp parseFloat l) :
    ∃ t ∈ tokens sp (rstrip sp l), ∃ pre arg post, split sp ((t.drop 1).dropLast) = pre ++ arg :: "SlantFont".toList :: post ∧
      parseFloat arg = none := by
  have h := h.2
  unfold parse at h
  have hloop : ∀ (ts : List Str) (st : MAPline F × Bool), loop sp parseFloat ts st = .error .valueError →
      ∃ t ∈ ts, ∃ pre arg post, split sp ((t.drop 1).dropLast) = pre ++ arg :: "SlantFont".toList :: post ∧ parseFloat arg = none := by
    intro ts
    induction ts with
    | nil => intro st h; cases h
    | cons t ts ih =>
      intro st h
      rw [loop] at h
      rcases hs : step sp parseFloat st t with e | st'
      · rw [hs] at h
        cases h
        refine ⟨t, List.mem_cons_self, ?_⟩
        unfold step at hs
        simp only at hs
        split_ifs at hs <;> try (cases hs)
        rcases hp : psLoop parseFloat (split sp ((t.drop 1).dropLast)) st.1 with e | m
        · rw [hp] at hs
          cases hs
          exact psLoop_value parseFloat hp
        · rw [hp] at hs
          cases hs
      · rw [hs] at h
        obtain ⟨t', h1, h2⟩ := ih st' h
        exact ⟨t', List.mem_cons_of_mem _ h1, h2⟩
  rcases hl : loop sp parseFloat (tokens sp (rstrip sp l)) ({}, false) with e | st
  · rw [hl] at h
    cases h
    exact hloop _ _ hl
  · rw [hl] at h
    cases h

/-! ## Examples and violations -/

/-- Blank and tabulator. -/
def blank (c : Char) : Bool := c = ' ' || c = '\t'

/-- Digits and a point. -/
def number (s : Str) : Option Str := if s ≠ [] ∧ ∀ c ∈ s, c.isDigit ∨ c = '.' then some s else none

/-- The line of a map as it is found in `psfonts.map`. -/
example : parse blank number "ptmro8r Times-Roman \".167 SlantFont TeXBase1Encoding ReEncodeFont\" <8r.enc <foo.pfb".toList =
    .ok ⟨some "ptmro8r".toList, some "Times-Roman".toList, some "foo.pfb".toList, some "8r.enc".toList, some "TeXBase1Encoding".toList,
      none, some ".167".toList⟩ := by decide +kernel

/-- Two lines for the same font, and an unknown fragment between them: the last one counts. -/
example : (readfontmap blank number [["cmr10 CMR10 <a.pfb".toList, "cmr10 \"1 Foo\"".toList], ["% comment".toList, "cmr10 <b.pfb".toList]]).toOption.map
    (fun r => (r (some "cmr10".toList)).map (·.fontfilename)) = some (some (some "b.pfb".toList)) := by decide +kernel

/-- A slant that is not a number is not ignored: it makes all entries, also those of the other lines, unavailable. -/
theorem malformed_not_ignored :
    readfontmap blank number [["cmr10 CMR10 <cmr10.pfb".toList, "foo \"x SlantFont\"".toList]] = .error .valueError ∧
    ∃ m, Defines blank number "cmr10 CMR10 <cmr10.pfb".toList m := by
  refine ⟨?_, ?_⟩
  · rw [bad_number_fails]
    exact ⟨_, List.mem_singleton.mpr rfl, _, List.mem_cons_of_mem _ (List.mem_singleton.mpr rfl), by decide +kernel, by decide +kernel⟩
  · exact ⟨⟨some "cmr10".toList, some "CMR10".toList, some "cmr10.pfb".toList, none, none, none, none⟩, by decide +kernel, by decide +kernel⟩

/-- A font file after a single `<` is taken for an encoding. -/
theorem separate_font_file_wrong : parse blank number "cmr10 CMR10 < cmr10.pfb".toList =
    .ok ⟨some "cmr10".toList, some "CMR10".toList, none, some "cmr10.pfb".toList, none, none, none⟩ := by decide +kernel

end PyX.MapFile
