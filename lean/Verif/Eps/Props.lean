import Verif.Eps.Model
import Mathlib.Tactic.FieldSimp
import Mathlib.Tactic.Ring
import Mathlib.Tactic.Linarith
import Mathlib.Tactic.NormNum

/-!
# C94, C95: EPS files

* C94: lines are those between the line ends of the three kinds, whatever the size of the parts in which the file is read; the box is the one of the
  first `%%BoundingBox` comment.
* C95: placement.
-/

set_option linter.unusedSectionVars false

namespace PyX.Eps

/-! ## Specification: lines -/

/-- The first line, with its line end (`\n`, `\r` or `\r\n`), and the rest. -/
def firstLine : Bytes → Bytes × Bytes
  | [] => ([], [])
  | c :: cs =>
    if c = '\n' then ([c], cs)
    else if c = '\r' then
      match cs with
      | d :: ds => if d = '\n' then ([c, d], ds) else ([c], cs)
      | [] => ([c], [])
    else (c :: (firstLine cs).1, (firstLine cs).2)

/-! ## Lines -/

theorem find_nil (c : Char) : find c [] = none := rfl

theorem find_cons (c x : Char) (l : Bytes) : find c (x :: l) = if x = c then some 0 else (find c l).map (· + 1) := by
  unfold find
  rw [List.findIdx?_cons]
  by_cases h : x = c <;> simp [h]

theorem eol_nl (l : Bytes) : eol ('\n' :: l) = 1 := by
  unfold eol
  rw [find_cons, find_cons, if_pos rfl, if_neg (by decide)]
  cases find '\r' l <;> simp

theorem eol_other (x : Char) (l : Bytes) (h1 : x ≠ '\n') (h2 : x ≠ '\r') : eol (x :: l) = eol l + 1 := by
  unfold eol
  rw [find_cons, find_cons, if_neg h1, if_neg h2]
  cases find '\r' l <;> cases find '\n' l <;> simp
  split_ifs <;> omega

theorem eol_cr_cons (d : Char) (ds : Bytes) : eol ('\r' :: d :: ds) = if d = '\n' then 2 else 1 := by
  unfold eol
  have e : find '\n' ('\r' :: d :: ds) = if d = '\n' then some 1 else (find '\n' ds).map (· + 2) := by
    rw [find_cons, if_neg (by decide), find_cons]
    by_cases h : d = '\n'
    · simp [h]
    · rw [if_neg h, if_neg h]; cases find '\n' ds <;> rfl
  rw [find_cons, if_pos rfl, e]
  by_cases h : d = '\n'
  · simp [h]
  · rw [if_neg h, if_neg h]
    cases find '\n' ds <;> simp

theorem eol_cr_nil : eol ['\r'] = 1 := by decide

/-- The line in the buffer is the first line of the buffer. -/
theorem eol_spec (b : Bytes) : (b.take (eol b), b.drop (eol b)) = firstLine b := by
  induction b with
  | nil => rfl
  | cons x l ih =>
    unfold firstLine
    by_cases h1 : x = '\n'
    · subst h1; rw [eol_nl, if_pos rfl]; rfl
    · rw [if_neg h1]
      by_cases h2 : x = '\r'
      · subst h2
        rw [if_pos rfl]
        cases l with
        | nil => rw [eol_cr_nil]; rfl
        | cons d ds =>
          rw [eol_cr_cons]
          by_cases h : d = '\n'
          · rw [if_pos h]; simp [h]
          · rw [if_neg h]; simp [h]
      · rw [if_neg h2, eol_other x l h1 h2, ← ih]
        rfl

theorem wantsMore_other (x : Char) (l : Bytes) (h1 : x ≠ '\n') (h2 : x ≠ '\r') : wantsMore (x :: l) = wantsMore l := by
  unfold wantsMore
  rw [find_cons, find_cons, if_neg h1, if_neg h2]
  cases find '\r' l <;> cases find '\n' l <;> simp

/-- Once nothing more has to be read, the first line does not depend on the rest of the file. -/
theorem firstLine_buffer (b f : Bytes) (h : wantsMore b = false) : firstLine (b ++ f) = ((firstLine b).1, (firstLine b).2 ++ f) := by
  induction b with
  | nil => simp [wantsMore, find] at h
  | cons x l ih =>
    rw [List.cons_append]
    unfold firstLine
    by_cases h1 : x = '\n'
    · simp [h1]
    · rw [if_neg h1, if_neg h1]
      by_cases h2 : x = '\r'
      · subst h2
        cases l with
        | nil => exact absurd h (by decide)
        | cons d ds => by_cases h : d = '\n' <;> simp [h]
      · rw [if_neg h2, if_neg h2]
        rw [wantsMore_other x l h1 h2] at h
        rw [ih h]

/-- **C94.** `readline` returns the next line with its line end and leaves the rest, whatever the size of the parts in which the file is read. -/
theorem readline_line (t : ℕ) (ht : 0 < t) (r : Rd) :
    (readlineLoop t r).1 = (firstLine r.left).1 ∧ (readlineLoop t r).2.left = (firstLine r.left).2 := by
  induction r using readlineLoop.induct t with
  | case1 r h1 h2 =>
    rw [readlineLoop, if_pos h1, dif_pos h2]
    have hf : r.file = [] := by
      rcases List.take_eq_nil_iff.1 h2 with h | h
      · omega
      · exact h
    have := eol_spec r.buffer
    simp only [Rd.left, hf, List.append_nil]
    rw [← this]; exact ⟨rfl, rfl⟩
  | case2 r h1 h2 ih =>
    rw [readlineLoop, if_pos h1, dif_neg h2]
    have : Rd.left ⟨r.buffer ++ r.file.take t, r.file.drop t⟩ = r.left := by simp [Rd.left]
    rw [this] at ih
    exact ih
  | case3 r h1 =>
    rw [readlineLoop, if_neg h1]
    have := eol_spec r.buffer
    rw [Rd.left, firstLine_buffer _ _ (by simpa using h1), ← this]
    exact ⟨rfl, rfl⟩

theorem firstLine_append (l : Bytes) : (firstLine l).1 ++ (firstLine l).2 = l := by
  induction l with
  | nil => rfl
  | cons c cs ih =>
    unfold firstLine
    split_ifs with h1 h2
    · rfl
    · cases cs with
      | nil => rfl
      | cons d ds => by_cases h : d = '\n' <;> simp [h]
    · simp [ih]

theorem firstLine_nil (l : Bytes) : (firstLine l).1 = [] ↔ l = [] := by
  cases l with
  | nil => simp [firstLine]
  | cons c cs =>
    unfold firstLine
    split_ifs with h1 h2
    · simp
    · cases cs with
      | nil => simp
      | cons d ds => by_cases h : d = '\n' <;> simp [h]
    · simp

/-- **C94.** `readline` raises exactly at the end of the file. -/
theorem readline_ok (t : ℕ) (ht : 0 < t) (r : Rd) (h : r.left ≠ []) :
    ∃ s, readline t r = .ok s ∧ s.1 = (firstLine r.left).1 ∧ s.2.left = (firstLine r.left).2 := by
  have := readline_line t ht r
  refine ⟨readlineLoop t r, ?_, this⟩
  unfold readline
  rw [if_neg]
  rw [this.1, firstLine_nil]; exact h

theorem readline_eof (t : ℕ) (ht : 0 < t) (r : Rd) (h : r.left = []) : readline t r = .error .eof := by
  unfold readline
  rw [if_pos]
  rw [(readline_line t ht r).1, h]; rfl

/-- **C94.** `read` returns the next bytes, also those of which a part has been read for a line already. -/
theorem read_spec (count : ℕ) (r : Rd) : if r.left.length < count then read count r = .error .eof
    else ∃ s, read count r = .ok s ∧ s.1 = r.left.take count ∧ s.2.left = r.left.drop count := by
  unfold read Rd.left
  by_cases hc : count > r.buffer.length
  · simp only [hc, if_true]
    by_cases hl : (r.buffer ++ r.file).length < count
    · rw [if_pos hl, if_pos]
      simp only [List.length_append, List.length_take] at hl ⊢
      omega
    · rw [if_neg hl, if_neg]
      · refine ⟨_, rfl, ?_, ?_⟩
        · rw [List.take_append, List.take_append, List.take_take, min_self]
        · rw [List.drop_append, List.drop_append, List.drop_take, Nat.sub_self, List.take_zero, List.append_nil]
      · simp only [List.length_append, List.length_take] at hl ⊢
        omega
  · simp only [hc, if_false]
    by_cases hl : (r.buffer ++ r.file).length < count
    · exfalso; simp only [List.length_append] at hl; omega
    · rw [if_neg hl]
      refine ⟨_, rfl, ?_, ?_⟩
      · rw [List.take_append, Nat.sub_eq_zero_of_le (by omega)]; simp
      · rw [List.drop_append, Nat.sub_eq_zero_of_le (by omega)]; simp

/-- Two lines with line ends of different kinds, read one byte at a time. -/
example : (readlineLoop 1 ⟨[], "ab\r\nc\rd".toList⟩).1 = "ab\r\n".toList ∧
    (readlineLoop 3 ⟨"c\r".toList, "d".toList⟩).1 = "c\r".toList := by
  have h1 := (readline_line 1 (by decide) ⟨[], "ab\r\nc\rd".toList⟩).1
  have h2 := (readline_line 3 (by decide) ⟨"c\r".toList, "d".toList⟩).1
  exact ⟨h1.trans (by decide), h2.trans (by decide)⟩

/-! ## The bounding box -/

/-- All lines. -/
def linesOf (l : Bytes) : List Bytes :=
  if _h : l = [] then [] else (firstLine l).1 :: linesOf (firstLine l).2
termination_by l.length
decreasing_by
  have h1 := congrArg List.length (firstLine_append l)
  have h2 := List.length_pos_iff.2 (fun h => _h ((firstLine_nil l).1 h))
  simp only [List.length_append] at h1
  omega

theorem linesOf_cons {l : Bytes} {x : Bytes} {xs : List Bytes} (h : linesOf l = x :: xs) :
    l ≠ [] ∧ (firstLine l).1 = x ∧ linesOf (firstLine l).2 = xs := by
  rw [linesOf] at h
  split_ifs at h with h0
  injection h with h1 h2
  exact ⟨h0, h1, h2⟩

/-- A comment in the header which is neither the bounding box nor the end of the header. -/
def Comment (l : Bytes) : Prop := l.head? = some '%' ∧ ¬ bboxKey <+: l ∧ ∀ s : Bytes, l = "%%EndComments".toList ++ s → ∃ c ∈ s, ws c = false

theorem rstrip_eq (l w : Bytes) (h : rstrip l = w) : ∃ s, l = w ++ s ∧ ∀ c ∈ s, ws c = true := by
  refine ⟨(l.reverse.takeWhile ws).reverse, ?_, ?_⟩
  · have := List.takeWhile_append_dropWhile (p := ws) (l := l.reverse)
    have h2 := congrArg List.reverse this
    rw [List.reverse_append, List.reverse_reverse] at h2
    rw [← h, rstrip, h2]
  · intro c hc
    exact (List.all_eq_true.1 (List.all_takeWhile (p := ws) (l := l.reverse))) c (List.mem_reverse.1 hc)

theorem comment_key {l : Bytes} (h : Comment l) : bboxKey.isPrefixOf l = false := by
  cases e : bboxKey.isPrefixOf l with
  | false => rfl
  | true => exact absurd (List.isPrefixOf_iff_prefix.1 e) h.2.1

theorem comment_goes_on {l : Bytes} (h : Comment l) : endsHeader l = false := by
  unfold endsHeader
  rw [Bool.or_eq_false_iff]
  constructor
  · rw [beq_eq_false_iff_ne]
    intro e
    obtain ⟨s, h1, h2⟩ := rstrip_eq l _ e
    obtain ⟨c, hc, hw⟩ := h.2.2 s h1
    rw [h2 c hc] at hw
    exact absurd hw (by decide)
  · match l, h.1 with
    | [a], h1 => rfl
    | a :: b :: l, h1 =>
      simp only [List.head?_cons, Option.some.injEq] at h1
      simp [h1]

/-- The header is read up to the first bounding box comment. -/
theorem header_scan (t : ℕ) (ht : 0 < t) (cs : List Bytes) (l : Bytes) (rest : List Bytes) (hc : ∀ c ∈ cs, Comment c) (hl : bboxKey <+: l) :
    ∀ r : Rd, linesOf r.left = cs ++ l :: rest → headerLoop t r = bboxOf l := by
  induction cs with
  | nil =>
    intro r hr
    obtain ⟨h0, h1, h2⟩ := linesOf_cons hr
    obtain ⟨s, e1, e2, e3⟩ := readline_ok t ht r h0
    rw [headerLoop]
    split
    · rename_i e he; rw [e1] at he; simp at he
    · rename_i s' he
      rw [e1] at he
      injection he with he
      subst he
      rw [e2, h1, if_pos (List.isPrefixOf_iff_prefix.2 hl)]
  | cons c cs ih =>
    intro r hr
    obtain ⟨h0, h1, h2⟩ := linesOf_cons hr
    obtain ⟨s, e1, e2, e3⟩ := readline_ok t ht r h0
    rw [headerLoop]
    split
    · rename_i e he; rw [e1] at he; simp at he
    · rename_i s' he
      rw [e1] at he
      injection he with he
      subst he
      have hcc := hc c (by simp)
      rw [e2, h1, if_neg (by rw [comment_key hcc]; decide), if_neg (by rw [comment_goes_on hcc]; decide)]
      exact ih (fun c h => hc c (by simp [h])) _ (by rw [e3]; exact h2)

/-- A decimal number without or with a sign, and its value. -/
inductive Numeral : Bytes → ℤ → Prop
  | plain (ds : Bytes) : ds ≠ [] → (∀ c ∈ ds, c.isDigit = true) → Numeral ds (ds.foldl (fun a c => 10 * a + (c.toNat - 48)) 0 : ℕ)
  | plus (ds : Bytes) : ds ≠ [] → (∀ c ∈ ds, c.isDigit = true) → Numeral ('+' :: ds) (ds.foldl (fun a c => 10 * a + (c.toNat - 48)) 0 : ℕ)
  | minus (ds : Bytes) : ds ≠ [] → (∀ c ∈ ds, c.isDigit = true) → Numeral ('-' :: ds) (-(ds.foldl (fun a c => 10 * a + (c.toNat - 48)) 0 : ℕ))

theorem intDigits_spec (ds : Bytes) (hd : ∀ c ∈ ds, c.isDigit = true) (acc : ℕ) :
    intDigits acc ds = some (ds.foldl (fun a c => 10 * a + (c.toNat - 48)) acc) := by
  induction ds generalizing acc with
  | nil => rfl
  | cons c cs ih =>
    have hc := hd c (by simp)
    cases cs with
    | nil => simp [intDigits, hc]
    | cons d ds =>
      rw [intDigits, if_pos hc, ih (fun c h => hd c (by simp [h]))]
      rfl

theorem intBody_spec (ds : Bytes) (h0 : ds ≠ []) (hd : ∀ c ∈ ds, c.isDigit = true) :
    intBody ds = some (ds.foldl (fun a c => 10 * a + (c.toNat - 48)) 0) := by
  obtain ⟨c, cs, rfl⟩ := List.exists_cons_of_ne_nil h0
  rw [intBody, if_pos (hd c (by simp)), intDigits_spec _ hd]

theorem digit_cases {c : Char} (h : c.isDigit = true) : c ≠ '-' ∧ c ≠ '+' ∧ ws c = false := by
  refine ⟨?_, ?_, ?_⟩
  · rintro rfl; exact absurd h (by decide)
  · rintro rfl; exact absurd h (by decide)
  · cases e : ws c with
    | false => rfl
    | true =>
      exfalso
      simp only [ws, Bool.or_eq_true, beq_iff_eq] at e
      rcases e with ((((e | e) | e) | e) | e) | e <;> subst e <;> exact absurd h (by decide)

theorem pyInt_spec (w : Bytes) (z : ℤ) (h : Numeral w z) : pyInt w = some z := by
  cases h with
  | plain ds h0 hd =>
    have := intBody_spec w h0 hd
    obtain ⟨c, cs, rfl⟩ := List.exists_cons_of_ne_nil h0
    have hc := digit_cases (hd c (by simp))
    unfold pyInt
    split
    · rename_i e; simp only [List.cons.injEq] at e; exact absurd e.1 hc.1
    · rename_i e; simp only [List.cons.injEq] at e; exact absurd e.1 hc.2.1
    · rw [this]; rfl
  | plus ds h0 hd => rw [pyInt, intBody_spec ds h0 hd]; rfl
  | minus ds h0 hd => rw [pyInt, intBody_spec ds h0 hd]; rfl

theorem numeral_word {w : Bytes} {z : ℤ} (h : Numeral w z) : w ≠ [] ∧ ∀ c ∈ w, ws c = false := by
  cases h with
  | plain _ h0 hd => exact ⟨h0, fun c hc => (digit_cases (hd c hc)).2.2⟩
  | plus ds h0 hd =>
    refine ⟨by simp, fun c hc => ?_⟩
    rcases List.mem_cons.1 hc with rfl | hc
    · decide
    · exact (digit_cases (hd c hc)).2.2
  | minus ds h0 hd =>
    refine ⟨by simp, fun c hc => ?_⟩
    rcases List.mem_cons.1 hc with rfl | hc
    · decide
    · exact (digit_cases (hd c hc)).2.2

/-- Text made of words, each one preceded by white space; `s` is the white space at the end. -/
def spaced : List (Bytes × Bytes) → Bytes → Bytes
  | [], s => s
  | p :: ps, s => p.1 ++ p.2 ++ spaced ps s

theorem dropWhile_ws (s l : Bytes) (hs : ∀ c ∈ s, ws c = true) : (s ++ l).dropWhile ws = l.dropWhile ws := by
  induction s with
  | nil => rfl
  | cons c s ih => rw [List.cons_append, List.dropWhile_cons_of_pos (hs c (by simp)), ih fun c h => hs c (by simp [h])]

theorem split_skip (s l : Bytes) (hs : ∀ c ∈ s, ws c = true) : Data.split ws (s ++ l) = Data.split ws l := by
  rw [Data.split_spaces, dropWhile_ws s l hs, ← Data.split_spaces]

theorem split_all_ws (s : Bytes) (hs : ∀ c ∈ s, ws c = true) : Data.split ws s = [] := by
  have := split_skip s [] hs
  rw [List.append_nil] at this
  rw [this]; rfl

/-- The words of spaced text: white space may be missing before the first word only. -/
theorem split_spaced (ps : List (Bytes × Bytes)) (s : Bytes) (hs : ∀ c ∈ s, ws c = true)
    (hp : ∀ p ∈ ps, (∀ c ∈ p.1, ws c = true) ∧ p.2 ≠ [] ∧ ∀ c ∈ p.2, ws c = false)
    (hn : ∀ p ∈ ps.drop 1, p.1 ≠ []) : Data.split ws (spaced ps s) = ps.map (·.2) := by
  induction ps with
  | nil => exact split_all_ws s hs
  | cons p ps ih =>
    obtain ⟨h1, h2, h3⟩ := hp p (by simp)
    obtain ⟨a, w⟩ := p
    simp only [spaced, List.append_assoc] at *
    rw [split_skip _ _ h1]
    have hstart : spaced ps s = [] ∨ ∃ c l, spaced ps s = c :: l ∧ ws c = true := by
      cases ps with
      | nil =>
        cases s with
        | nil => left; rfl
        | cons c s => right; exact ⟨c, s, rfl, hs c (by simp)⟩
      | cons p ps =>
        right
        have h4 := hn p (by simp)
        obtain ⟨c, l, e⟩ := List.exists_cons_of_ne_nil h4
        refine ⟨c, l ++ p.2 ++ spaced ps s, ?_, (hp p (by simp)).1 c (by rw [e]; simp)⟩
        simp [spaced, e]
    have ih' := ih (fun p h => hp p (by simp [h])) (fun p h => hn p (by
      cases ps with
      | nil => simp at h
      | cons q ps => simp only [List.drop_succ_cons, List.drop_zero] at h ⊢; simp [h]))
    rw [List.map_cons, ← ih']
    unfold Data.split
    rw [Data.splitGo_word ws [] w _ h3, List.append_nil]
    have hw : w.reverse ≠ [] := by simpa using h2
    rcases hstart with e | ⟨c, l, e, hc⟩
    · rw [e]; simp [Data.splitGo, h2]
    · rw [e, Data.splitGo, if_pos hc, if_neg hw, Data.splitGo, if_pos hc, if_pos rfl, List.reverse_reverse]

/-- The text of the comment with four numbers. -/
theorem bboxOf_numbers (p1 p2 p3 p4 : Bytes × Bytes) (s : Bytes) (z1 z2 z3 z4 : ℤ) (hs : ∀ c ∈ s, ws c = true)
    (w1 : ∀ c ∈ p1.1, ws c = true) (w2 : p2.1 ≠ [] ∧ ∀ c ∈ p2.1, ws c = true) (w3 : p3.1 ≠ [] ∧ ∀ c ∈ p3.1, ws c = true)
    (w4 : p4.1 ≠ [] ∧ ∀ c ∈ p4.1, ws c = true)
    (n1 : Numeral p1.2 z1) (n2 : Numeral p2.2 z2) (n3 : Numeral p3.2 z3) (n4 : Numeral p4.2 z4) :
    bboxOf (bboxKey ++ spaced [p1, p2, p3, p4] s) = .ok (z1, z2, z3, z4) := by
  have e : afterColon (bboxKey ++ spaced [p1, p2, p3, p4] s) = spaced [p1, p2, p3, p4] s := rfl
  have h := split_spaced [p1, p2, p3, p4] s hs (by
    intro p hp
    simp only [List.mem_cons, List.not_mem_nil, or_false] at hp
    rcases hp with rfl | rfl | rfl | rfl
    · exact ⟨w1, numeral_word n1⟩
    · exact ⟨w2.2, numeral_word n2⟩
    · exact ⟨w3.2, numeral_word n3⟩
    · exact ⟨w4.2, numeral_word n4⟩) (by
    intro p hp
    simp only [List.drop_succ_cons, List.drop_zero, List.mem_cons, List.not_mem_nil, or_false] at hp
    rcases hp with rfl | rfl | rfl
    exacts [w2.1, w3.1, w4.1])
  unfold bboxOf
  rw [e, h]
  simp only [List.map_cons, List.map_nil, pyInt_spec _ _ n1, pyInt_spec _ _ n2, pyInt_spec _ _ n3, pyInt_spec _ _ n4]

/-- A file beginning with `%!`, then comments, then the line `l`, then anything. -/
structure Header (content l : Bytes) : Prop where
  lines : ∃ first cs rest, linesOf content = first :: (cs ++ l :: rest) ∧ "%!".toList <+: first ∧ ∀ c ∈ cs, Comment c

theorem readbbox_header (t : ℕ) (ht : 0 < t) (content l : Bytes) (h : Header content l) (hl : bboxKey <+: l) :
    readbbox t content = bboxOf l := by
  obtain ⟨first, cs, rest, h1, h2, h3⟩ := h.lines
  obtain ⟨e0, e1, e2⟩ := linesOf_cons h1
  obtain ⟨s, r1, r2, r3⟩ := readline_ok t ht ⟨[], content⟩ (by simpa [Rd.left] using e0)
  have hle : Rd.left ⟨[], content⟩ = content := rfl
  rw [hle] at r2 r3
  unfold readbbox
  rw [r1]
  simp only
  rw [r2, e1, if_pos (List.isPrefixOf_iff_prefix.2 h2)]
  exact header_scan t ht cs l rest h3 hl _ (by rw [r3]; exact e2)

/-- **C94.** The bounding box of an EPS file is given by the four numbers of the first bounding box comment of its header, whatever the line ends, the
white space, the size of the parts in which the file is read and the rest of the file. -/
theorem bbox_header_partial (t : ℕ) (ht : 0 < t) (content : Bytes) (p1 p2 p3 p4 : Bytes × Bytes) (s : Bytes) (z1 z2 z3 z4 : ℤ)
    (h : Header content (bboxKey ++ spaced [p1, p2, p3, p4] s)) (hs : ∀ c ∈ s, ws c = true)
    (w1 : ∀ c ∈ p1.1, ws c = true) (w2 : p2.1 ≠ [] ∧ ∀ c ∈ p2.1, ws c = true) (w3 : p3.1 ≠ [] ∧ ∀ c ∈ p3.1, ws c = true)
    (w4 : p4.1 ≠ [] ∧ ∀ c ∈ p4.1, ws c = true)
    (n1 : Numeral p1.2 z1) (n2 : Numeral p2.2 z2) (n3 : Numeral p3.2 z3) (n4 : Numeral p4.2 z4) :
    readbbox t content = .ok (z1, z2, z3, z4) := by
  rw [readbbox_header t ht content _ h (List.prefix_append _ _), bboxOf_numbers p1 p2 p3 p4 s z1 z2 z3 z4 hs w1 w2 w3 w4 n1 n2 n3 n4]

/-- **C94, violation.** A file whose header defers the bounding box to the trailer, as the document structuring conventions allow, is never accepted, whatever
its trailer: the word `(atend)` is compared as bytes with a string. -/
theorem bbox_atend_fails (t : ℕ) (ht : 0 < t) (content : Bytes) (s s' : Bytes) (h : Header content (bboxKey ++ s ++ "(atend)".toList ++ s'))
    (hs : ∀ c ∈ s, ws c = true) (hs' : ∀ c ∈ s', ws c = true) : readbbox t content = .error .count := by
  rw [readbbox_header t ht content _ h (by rw [List.append_assoc, List.append_assoc]; exact List.prefix_append _ _)]
  have e : afterColon (bboxKey ++ s ++ "(atend)".toList ++ s') = s ++ "(atend)".toList ++ s' := rfl
  have h := split_spaced [(s, "(atend)".toList)] s' hs' (by
    intro p hp
    simp only [List.mem_cons, List.not_mem_nil, or_false] at hp
    subst hp
    exact ⟨hs, show "(atend)".toList ≠ [] by decide, show ∀ c ∈ "(atend)".toList, ws c = false by decide⟩) (by simp)
  unfold bboxOf
  rw [e, show s ++ "(atend)".toList ++ s' = spaced [(s, "(atend)".toList)] s' from rfl, h]
  rfl

/-- A file with all three kinds of line ends. -/
def sample : Bytes := "%!PS-Adobe-3.0 EPSF-3.0\r\n%%Title: a\r%%BoundingBox:  -3 4\t105 +200\nshowpage".toList

theorem sample_lines : linesOf sample = "%!PS-Adobe-3.0 EPSF-3.0\r\n".toList :: (["%%Title: a\r".toList] ++
    (bboxKey ++ spaced [("  ".toList, "-3".toList), (" ".toList, "4".toList), ("\t".toList, "105".toList), (" ".toList, "+200".toList)] "\n".toList) ::
    ["showpage".toList]) := by
  decide +kernel

example : readbbox 257 sample = .ok (-3, 4, 105, 200) := by
  refine bbox_header_partial 257 (by decide) sample ("  ".toList, "-3".toList) (" ".toList, "4".toList) ("\t".toList, "105".toList)
    (" ".toList, "+200".toList) "\n".toList (-3) 4 105 200 ⟨_, _, _, sample_lines, by decide, ?_⟩ (by decide) (by decide) (by decide) (by decide) (by decide)
    (Numeral.minus "3".toList (by decide) (by decide)) (Numeral.plain "4".toList (by decide) (by decide))
    (Numeral.plain "105".toList (by decide) (by decide)) (Numeral.plus "200".toList (by decide) (by decide))
  intro c hc
  simp only [List.mem_cons, List.not_mem_nil, or_false] at hc
  subst hc
  refine ⟨rfl, by decide, fun s e => ?_⟩
  exfalso
  have := congrArg (fun l => l.take 3) e
  simp at this

/-- The same with the box at the end. -/
def deferred : Bytes := "%!PS-Adobe-3.0\n%%BoundingBox: (atend)\n%%EndComments\n%%Trailer\n%%BoundingBox: 0 0 10 10\n%%EOF\n".toList

example : readbbox 257 deferred = .error .count := by
  refine bbox_atend_fails 257 (by decide) deferred " ".toList "\n".toList ⟨"%!PS-Adobe-3.0\n".toList, [],
    ["%%EndComments\n".toList, "%%Trailer\n".toList, "%%BoundingBox: 0 0 10 10\n".toList, "%%EOF\n".toList], by decide +kernel, by decide, by simp⟩
    (by decide) (by decide)

/-! ## Placement -/

section Place

variable {K : Type*} [Field K] [LinearOrder K] [IsStrictOrderedRing K]

/-- The box at the end of the placement has the size `w`, `h` and lies at `(x, y)` as asked for by the alignment: its left, middle or right is at `x` and its
bottom, middle or top at `y`. -/
structure AlignedAt (a : Args K) (b : Quad K) (w h : K) : Prop where
  width : b.urx - b.llx = w
  height : b.ury - b.lly = h
  left : a.halign = .l → b.llx = a.x
  middle : a.halign = .c → b.llx + b.urx = 2 * a.x
  right : a.halign = .r → b.urx = a.x
  bottom : a.valign = .b → b.lly = a.y
  centre : a.valign = .c → b.lly + b.ury = 2 * a.y
  top : a.valign = .t → b.ury = a.y

/-- The factors in both directions. -/
def factor : Option K → K
  | none => 1
  | some s => s

theorem sized_pos (size : K) (s : Option K) (h : 0 < factor s) : sized size s = factor s * size := by
  cases s with
  | none => simp [sized, factor]
  | some s => simp only [factor] at h ⊢; rw [sized, if_neg h.ne']; ring

theorem scales_none (a : Args K) (q : Quad K) (s : Option K × Option K) (h : scales a q = .ok s) : s.1 = none ↔ s.2 = none := by
  unfold scales at h
  split_ifs at h with h1
  · injection h with h
    subst h
    cases hw : a.width <;> cases hh : a.height <;> simp_all
  · injection h with h
    subst h
    rfl

/-- What the transformation does to a point. -/
theorem place_apply (a : Args K) (q : Quad K) (p : Placed K) (h : place a q = .ok p) (ht : a.translatebbox = true) :
    ∃ s, scales a q = .ok s ∧ p.width = sized (q.urx - q.llx) s.1 ∧ p.height = sized (q.ury - q.lly) s.2 ∧
      p.x = a.x - hshift p.width a.halign ∧ p.y = a.y - vshift p.height a.valign ∧
      ∀ z : K × K, p.trafo.apply z = (p.x + factor s.1 * (z.1 - q.llx), p.y + factor s.2 * (z.2 - q.lly)) := by
  unfold place at h
  cases hs : scales a q with
  | error e => rw [hs] at h; simp [Except.map] at h
  | ok s =>
    rw [hs] at h
    simp only [Except.map, Except.ok.injEq] at h
    have hn := scales_none a q s hs
    subst h
    refine ⟨s, rfl, rfl, rfl, rfl, rfl, fun z => ?_⟩
    obtain ⟨s1, s2⟩ := s
    cases s1 with
    | none =>
      have : s2 = none := hn.1 rfl
      subst this
      simp only [ht, if_true, Trafo.apply, Trafo.mul, Trafo.translate, scaleTrafo, Trafo.one, factor]
      ext <;> simp <;> ring
    | some s1 =>
      cases s2 with
      | none => exact absurd (hn.2 rfl) (by simp)
      | some s2 =>
        simp only [ht, if_true, Trafo.apply, Trafo.mul, Trafo.translate, scaleTrafo, factor]
        ext <;> simp <;> ring

/-- **C95.** The EPS file fills a box aligned at the given position as asked for, which is the bounding box scaled by the factors, and its points keep their relative
position in it. -/
theorem placed_box (a : Args K) (q : Quad K) (p : Placed K) (h : place a q = .ok p) (ht : a.translatebbox = true) (s : Option K × Option K)
    (hs : scales a q = .ok s) (hx : 0 < factor s.1) (hy : 0 < factor s.2) (qx : q.llx ≤ q.urx) (qy : q.lly ≤ q.ury) :
    ∃ b, p.bbox q = some b ∧ AlignedAt a b (factor s.1 * (q.urx - q.llx)) (factor s.2 * (q.ury - q.lly)) ∧
      ∀ z : K × K, p.trafo.apply z = (b.llx + factor s.1 * (z.1 - q.llx), b.lly + factor s.2 * (z.2 - q.lly)) := by
  obtain ⟨s', hs', e1, e2, e3, e4, e5⟩ := place_apply a q p h ht
  rw [hs] at hs'
  injection hs' with hs'
  subst hs'
  rw [sized_pos _ _ hx] at e1
  rw [sized_pos _ _ hy] at e2
  have w0 : 0 ≤ factor s.1 * (q.urx - q.llx) := mul_nonneg hx.le (by linarith)
  have h0 : 0 ≤ factor s.2 * (q.ury - q.lly) := mul_nonneg hy.le (by linarith)
  refine ⟨⟨p.x, p.y, p.x + factor s.1 * (q.urx - q.llx), p.y + factor s.2 * (q.ury - q.lly)⟩, ?_, ?_, e5⟩
  · unfold Placed.bbox BBox.transformed
    simp only [e5, sub_self, mul_zero, add_zero]
    congr 1
    ext
    · simp [w0]
    · simp [h0]
    · simp [w0]
    · simp [h0]
  · constructor
    · simp
    · simp
    · intro e; simp [e3, e, hshift]
    · intro e; simp only [e3, e, hshift, e1]; ring
    · intro e; simp only [e3, e, hshift, e1]; ring
    · intro e; simp [e4, e, vshift]
    · intro e; simp only [e4, e, vshift, e2]; ring
    · intro e; simp only [e4, e, vshift, e2]; ring

/-- **C95.** The size asked for is the size of the box; with only one of width and height the other one follows from the aspect ratio; without both the box is
scaled by the given factor in both directions. -/
theorem placed_size (a : Args K) (q : Quad K) (s : Option K × Option K) (hs : scales a q = .ok s) :
    (∀ w, a.width = some w → factor s.1 * (q.urx - q.llx) = w) ∧
    (∀ h, a.height = some h → factor s.2 * (q.ury - q.lly) = h) ∧
    (a.width = none ∨ a.height = none → factor s.1 = factor s.2) ∧
    (a.width = none → a.height = none → factor s.1 = a.scale.getD 1) := by
  unfold scales at hs
  split_ifs at hs with h1 h2 h3 h4
  · injection hs with hs
    subst hs
    cases hw : a.width with
    | none =>
      cases hh : a.height with
      | none => simp [hw, hh] at h1
      | some h =>
        simp only [hh, Option.isSome_some, Bool.true_and, decide_eq_true_eq] at h3
        refine ⟨by simp, ?_, by simp [factor], by simp⟩
        intro h' e
        simp only [Option.some.injEq] at e
        subst e
        simp only [Option.map_some, Option.orElse, factor]
        field_simp
    | some w =>
      simp only [hw, Option.isSome_some, Bool.true_and, decide_eq_true_eq] at h4
      cases hh : a.height with
      | none =>
        refine ⟨?_, by simp, by simp [factor], by simp⟩
        intro w' e
        simp only [Option.some.injEq] at e
        subst e
        simp only [Option.map_some, Option.orElse, factor]
        field_simp
      | some h =>
        simp only [hh, Option.isSome_some, Bool.true_and, decide_eq_true_eq] at h3
        refine ⟨?_, ?_, by simp, by simp⟩
        · intro w' e
          simp only [Option.some.injEq] at e
          subst e
          simp only [Option.map_some, Option.orElse, factor]
          field_simp
        · intro w' e
          simp only [Option.some.injEq] at e
          subst e
          simp only [Option.map_some, Option.orElse, factor]
          field_simp
  · injection hs with hs
    subst hs
    simp only [Bool.or_eq_true, not_or, Option.not_isSome_iff_eq_none] at h1
    refine ⟨by simp [h1.1], by simp [h1.2], by simp, fun _ _ => ?_⟩
    cases a.scale <;> rfl

/-- **C95.** In PostScript the file is clipped to exactly its box. -/
theorem clip_box (p : Placed K) (q b : Quad K) (h : p.bbox q = some b) : p.rectclip q = some (b.llx, b.lly, b.urx - b.llx, b.ury - b.lly) := by
  rw [Placed.rectclip, h]; rfl

/-- A file with the box from (10, 20) to (30, 60), five points wide, with its right centre at (100, 100). -/
example : ∃ p : Placed ℚ, place ⟨100, 100, some 5, none, none, .c, .r, true⟩ ⟨10, 20, 30, 60⟩ = .ok p ∧ p.bbox ⟨10, 20, 30, 60⟩ = some ⟨95, 95, 100, 105⟩ :=
  ⟨⟨5, 10, 95, 95, ⟨1 / 4, 0, 0, 1 / 4, 185 / 2, 90⟩⟩, by decide +kernel, by decide +kernel⟩

/-- **C95, limit.** With `translatebbox=0` the alignment still moves the file by its size, so that the top of the box, e.g., is not at the position asked for. -/
theorem untranslated_not_aligned : ∃ (a : Args ℚ) (q : Quad ℚ) (p : Placed ℚ), a.valign = .t ∧ a.translatebbox = false ∧ place a q = .ok p ∧
    ∀ b, p.bbox q = some b → b.ury ≠ a.y :=
  ⟨⟨0, 0, none, none, none, .t, .l, false⟩, ⟨10, 20, 30, 60⟩, ⟨20, 40, 0, -40, ⟨1, 0, 0, 1, 0, -40⟩⟩, rfl, rfl, by decide +kernel, by
    intro b hb
    have : (⟨20, 40, 0, -40, ⟨1, 0, 0, 1, 0, -40⟩⟩ : Placed ℚ).bbox ⟨10, 20, 30, 60⟩ = some ⟨10, -20, 30, 20⟩ := by decide +kernel
    rw [this] at hb
    simp only [Option.some.injEq] at hb
    subst hb
    decide +kernel⟩

end Place

end PyX.Eps
