import Verif.Font.EncodingStrip

set_option linter.unusedSectionVars false

/-!
# The clear text of stripped fonts as a whole: `t1file.py:1024-1035, 1044`

`written` is the clear text `getstrippedfont` passes to the new font: the entries for the wanted glyphs, whitespace unified, `UniqueID` removed, whitespace at the end replaced by a newline.
`written_encoding` says that the encoding of the new font is that of the wanted glyphs, for fonts with at most one `UniqueID`, which begins a line in front of the encoding.
-/

namespace PyX.Encoding

/-- `str.rstrip` for ASCII whitespace. -/
def rstrip (s : List Char) : List Char := (s.reverse.dropWhile isWs).reverse

/-- The clear text of the new font (`t1file.py:1024-1035, 1044`). -/
def written (wanted : List Char → Bool) (data : List Char) (e : Enc) : List Char :=
  let t := unify [] (stripEncoding wanted data e)
  rstrip (dropUid t.length t) ++ ['\n']

/-! ### Text in front -/

/-- Empty, or whitespace at the end. -/
def Closed (a : List Char) : Prop := ∀ c, a.getLast? = some c → isWs c = true

theorem closed_tail {c : Char} {a : List Char} (h : Closed (c :: a)) : Closed a := by
  intro d hd
  cases a with
  | nil => simp at hd
  | cons x a => exact h d (by rw [List.getLast?_cons_cons]; exact hd)

/-- A word without whitespace does not begin in a closed text unless it is in it. -/
theorem not_prefix {w a b : List Char} (hw : ∀ c ∈ w, isWs c = false) (ha : a ≠ []) (hc : Closed a) (hn : ¬ w <:+: a) : ¬ w <+: a ++ b := by
  intro h
  rcases List.prefix_or_prefix_of_prefix h (List.prefix_append a b) with h' | ⟨q, rfl⟩
  · exact hn h'.isInfix
  · have hm := List.getLast?_eq_some_getLast ha
    have h1 := hc _ hm
    rw [hw _ (List.mem_append_left _ (List.getLast_mem ha))] at h1
    cases h1

theorem not_infix_tail {w a : List Char} {c : Char} (h : ¬ w <:+: c :: a) : ¬ w <:+: a := fun k => h (List.infix_cons k)

/-- The first occurrence of a word is not in a closed text without it. -/
theorem after_skip {w a b : List Char} (hw : ∀ c ∈ w, isWs c = false) (hc : Closed a) (hn : ¬ w <:+: a) : after w (a ++ b) = after w b := by
  induction a with
  | nil => rfl
  | cons x a ih =>
    rw [List.cons_append, after, if_neg (by rw [← List.cons_append]; exact not_prefix hw (by simp) hc hn)]
    exact ih (closed_tail hc) (not_infix_tail hn)

theorem uidWord : ∀ c ∈ lit "/UniqueID", isWs c = false := by decide
theorem encWord : ∀ c ∈ lit "/Encoding", isWs c = false := by decide

theorem uid0_none {s : List Char} (h : ¬ lit "/UniqueID" <+: s) : uid0 s = none := by
  unfold uid0 pre
  rw [if_neg h]; rfl

/-- Nothing is removed without `UniqueID`. -/
theorem dropUid_id (n : ℕ) (s : List Char) (h : ¬ lit "/UniqueID" <:+: s) : dropUid n s = s := by
  induction n generalizing s with
  | zero => rfl
  | succ n ih =>
    cases s with
    | nil => rfl
    | cons c cs =>
      have hm : uidMatch (c :: cs) = none := by
        rw [uidMatch.eq_def]
        split
        · rename_i s' e
          simp only [List.cons.injEq] at e
          rw [← e.2]
          exact uid0_none fun k => h (List.infix_cons k.isInfix)
        · exact uid0_none fun k => h k.isInfix
      rw [dropUid, hm]
      simp only
      rw [ih cs (not_infix_tail h)]

/-- Closed text without `UniqueID` stays. -/
theorem dropUid_skip {n : ℕ} {a b : List Char} (hc : Closed a) (hn : ¬ lit "/UniqueID" <:+: a) : dropUid (a.length + n) (a ++ b) = a ++ dropUid n b := by
  induction a with
  | nil => simp
  | cons c a ih =>
    have hm : uidMatch (c :: (a ++ b)) = none := by
      rw [uidMatch.eq_def]
      split
      · rename_i s' e
        simp only [List.cons.injEq] at e
        obtain ⟨rfl, rfl⟩ := e
        cases a with
        | nil => exact absurd (hc '%' rfl) (by decide)
        | cons x a => exact uid0_none (not_prefix uidWord (by simp) (closed_tail hc) (not_infix_tail hn))
      · exact uid0_none (by rw [← List.cons_append]; exact not_prefix uidWord (by simp) hc hn)
    have e : (c :: a).length + n = (a.length + n) + 1 := by simp only [List.length_cons]; omega
    rw [e, List.cons_append, dropUid, hm]
    simp only [List.cons_append]
    rw [ih (closed_tail hc) (not_infix_tail hn)]

/-! ### The `UniqueID` -/

/-- A `UniqueID` with its value, maybe commented out: what is removed. -/
structure IsUid (m : List Char) : Prop where
  parts : ∃ (pc : Bool) (w1 ds w2 w3 : List Char), (w1 ≠ [] ∧ ∀ c ∈ w1, isWs c = true) ∧ (ds ≠ [] ∧ ∀ c ∈ ds, c.isDigit = true) ∧
    (w2 ≠ [] ∧ ∀ c ∈ w2, isWs c = true) ∧ (w3 ≠ [] ∧ ∀ c ∈ w3, isWs c = true) ∧ m = (if pc then ['%'] else []) ++ uidText w1 ds w2 w3

theorem after_noslash {a b : List Char} (ha : '/' ∉ a) : after (lit "/Encoding") (a ++ b) = after (lit "/Encoding") b := by
  induction a with
  | nil => rfl
  | cons x a ih =>
    have hx : ¬ lit "/Encoding" <+: x :: (a ++ b) := by
      rintro ⟨q, hq⟩
      have e : lit "/Encoding" = '/' :: lit "Encoding" := by decide
      rw [e, List.cons_append] at hq
      simp only [List.cons.injEq] at hq
      exact ha (by rw [hq.1]; simp)
    rw [List.cons_append, after, if_neg hx]
    exact ih fun h => ha (List.mem_cons_of_mem _ h)

theorem after_uid {m b : List Char} (hm : IsUid m) : after (lit "/Encoding") (m ++ b) = after (lit "/Encoding") b := by
  obtain ⟨pc, w1, ds, w2, w3, h1, hd, h2, h3, rfl⟩ := hm.parts
  rw [List.append_assoc, after_noslash (by cases pc <;> decide)]
  have e : uidText w1 ds w2 w3 ++ b = '/' :: 'U' :: ((lit "niqueID" ++ (w1 ++ (ds ++ (w2 ++ (lit "def" ++ w3))))) ++ b) := by simp [uidText, lit]
  have np : ¬ lit "/Encoding" <+: '/' :: 'U' :: ((lit "niqueID" ++ (w1 ++ (ds ++ (w2 ++ (lit "def" ++ w3))))) ++ b) := by
    rintro ⟨q, hq⟩
    have e2 : lit "/Encoding" = '/' :: 'E' :: lit "ncoding" := by decide
    rw [e2, List.cons_append, List.cons_append] at hq
    simp only [List.cons.injEq] at hq
    exact absurd hq.2.1 (by decide)
  rw [e, after, if_neg np, ← List.cons_append]
  apply after_noslash
  have nw : ∀ w : List Char, (∀ c ∈ w, isWs c = true) → '/' ∉ w := fun w h k => absurd (h _ k) (by decide)
  simp only [List.mem_cons, List.mem_append, not_or]
  exact ⟨by decide, by decide, nw _ h1.2, fun k => absurd (hd.2 _ k) (by decide), nw _ h2.2, by decide, nw _ h3.2⟩

theorem uid_ne_nil {m : List Char} (hm : IsUid m) : m ≠ [] := by
  obtain ⟨pc, w1, ds, w2, w3, -, -, -, -, rfl⟩ := hm.parts
  cases pc <;> simp [uidText, lit]

/-- **C137 (removal).**  A `UniqueID` at the beginning of a line is removed, and nothing else. -/
theorem uid_removed {a m rest : List Char} (hc : Closed a) (ha : ¬ lit "/UniqueID" <:+: a) (hm : IsUid m) (hr : ∀ c, rest.head? = some c → isWs c = false)
    (hn : ¬ lit "/UniqueID" <:+: rest) : dropUid (a ++ (m ++ rest)).length (a ++ (m ++ rest)) = a ++ rest := by
  obtain ⟨k, hk⟩ : ∃ k, (m ++ rest).length = k + 1 := Nat.exists_eq_succ_of_ne_zero (by simp [uid_ne_nil hm])
  rw [List.length_append, dropUid_skip hc ha, hk]
  obtain ⟨pc, w1, ds, w2, w3, h1, hd, h2, h3, rfl⟩ := hm.parts
  have := uid_spec (a := []) pc (by simp) (by simp) h1 hd h2 h3 hr k
  simp only [List.length_nil, Nat.zero_add, List.nil_append] at this
  rw [List.append_assoc, this, dropUid_id _ _ hn]

/-! ### Reading -/

/-- The encoding depends on the text behind the first `/Encoding` only. -/
theorem encoding_moved {data data' : List Char} (ha : after (lit "/Encoding") data = after (lit "/Encoding") data') {v : List (Option (List Char))} {k : ℕ}
    {r : List Char} (h : encoding data = .ok (.own v k r)) : ∃ k', encoding data' = .ok (.own v k' r) := by
  obtain ⟨es, ⟨hne, hint, d, s, t1, t2, mid, st, fin, r', hd, hb, hs, hmid, hr, hk, hk2, hes, hfin, hfr⟩, hv⟩ := encoding_iff.mp h
  have hd' : FirstAfter (lit "/Encoding") data' d := after_iff.mp (ha ▸ after_iff.mpr hd)
  obtain ⟨p, hp, -⟩ := id hd'
  obtain ⟨q, hq, -⟩ := read_suffix hr
  obtain ⟨y, hy⟩ : ∃ y, d = y ++ s := by
    rcases hb with ⟨c, cs, e, h1, e2⟩ | ⟨c, h1, e⟩
    · exact ⟨[], by rw [e2]; rfl⟩
    · exact ⟨[c], e⟩
  have hx : data' = (p ++ lit "/Encoding" ++ (y ++ q)) ++ st := by rw [hp, hy, hq]; simp
  refine ⟨(p ++ lit "/Encoding" ++ (y ++ q)).length, encoding_iff.mpr ⟨es, ⟨hne, hint, d, s, t1, t2, mid, st, fin, r', hd', hb, hs, hmid, hr, ?_, ?_, hes, hfin, hfr⟩, hv⟩⟩
  · conv_lhs => rw [hx]
    rw [hx, List.take_left]
  · rw [hx]; exact List.length_append.symm

theorem rstrip_line (u : List Char) (c : Char) (hc : isWs c = false) : rstrip (u ++ [c, '\n']) ++ ['\n'] = u ++ [c, '\n'] := by
  have h : isWs '\n' = true := by decide
  unfold rstrip
  simp [h, hc]

/-- **C137 (the font written).**  The encoding of the new font is that of the wanted glyphs: for fonts with one `UniqueID`, at the beginning of a line in front of the encoding, which end with a newline. -/
theorem written_encoding {data : List Char} {v : List (Option (List Char))} {k : ℕ} {r : List Char} (wanted : List Char → Bool)
    (hp : Plain (stripEncoding wanted data (.own v k r))) (h : encoding data = .ok (.own v k r)) (hw : ∃ g, some g ∈ v ∧ wanted g = true)
    {a m u : List Char} {c : Char} (ht : unify [] (stripEncoding wanted data (.own v k r)) = a ++ (m ++ (u ++ [c, '\n']))) (hc : isWs c = false)
    (hcl : Closed a) (hua : ¬ lit "/UniqueID" <:+: a) (hea : ¬ lit "/Encoding" <:+: a) (hm : IsUid m)
    (hr : ∀ x, (u ++ [c, '\n']).head? = some x → isWs x = false) (hn : ¬ lit "/UniqueID" <:+: u ++ [c, '\n']) :
    written wanted data (.own v k r) = a ++ (u ++ [c, '\n']) ∧
    ∃ v' k' r', encoding (written wanted data (.own v k r)) = .ok (.own v' k' r') ∧ v'.length = 256 ∧ ∀ i < 256, v'[i]? = some ((v[i]?.join).filter wanted) := by
  have hwr : written wanted data (.own v k r) = a ++ (u ++ [c, '\n']) := by
    unfold written
    simp only [ht]
    rw [uid_removed hcl hua hm hr hn, ← List.append_assoc]
    exact rstrip_line _ _ hc
  obtain ⟨v', k', r', h1, h2, h3⟩ := strip_unify wanted hp h hw
  refine ⟨hwr, ?_⟩
  rw [hwr]
  rw [ht] at h1
  obtain ⟨k2, h4⟩ := encoding_moved (data' := a ++ (u ++ [c, '\n']))
    (by rw [after_skip encWord hcl hea, after_uid hm, after_skip encWord hcl hea]) h1
  exact ⟨v', k2, r', h4, h2, h3⟩

/-- **C137 (without `UniqueID`).** -/
theorem written_encoding_plain {data : List Char} {v : List (Option (List Char))} {k : ℕ} {r : List Char} (wanted : List Char → Bool)
    (hp : Plain (stripEncoding wanted data (.own v k r))) (h : encoding data = .ok (.own v k r)) (hw : ∃ g, some g ∈ v ∧ wanted g = true)
    {u : List Char} {c : Char} (ht : unify [] (stripEncoding wanted data (.own v k r)) = u ++ [c, '\n']) (hc : isWs c = false) (hn : ¬ lit "/UniqueID" <:+: u ++ [c, '\n']) :
    written wanted data (.own v k r) = u ++ [c, '\n'] ∧
    ∃ v' k' r', encoding (written wanted data (.own v k r)) = .ok (.own v' k' r') ∧ v'.length = 256 ∧ ∀ i < 256, v'[i]? = some ((v[i]?.join).filter wanted) := by
  have hwr : written wanted data (.own v k r) = u ++ [c, '\n'] := by
    unfold written
    simp only [ht]
    rw [dropUid_id _ _ hn]
    exact rstrip_line _ _ hc
  obtain ⟨v', k', r', h1, h2, h3⟩ := strip_unify wanted hp h hw
  refine ⟨hwr, ?_⟩
  rw [hwr, ← ht]
  exact ⟨v', k', r', h1, h2, h3⟩

/-! ### Examples -/

def uidFont : List Char := lit "%!PS\n%/UniqueID 5020933 def\n" ++ sampleFont

/-- What is read from it. -/
def uidRead : Enc := match encoding uidFont with
  | .ok e => e
  | .error _ => .standard

/-- The hypotheses of `written_encoding` for this font. -/
example : encoding uidFont = .ok uidRead ∧ unify [] (stripEncoding (fun g => g == lit "B") uidFont uidRead) = lit "%!PS\n" ++ (lit "%/UniqueID 5020933 def\n" ++
      (lit "/FontName /X def\n/Encoding 256 array\n0 1 255 {1 index exch/.notdef put}for\ndup 66 /B put\nreadonly def\ncurrentfile eexe" ++ ['c', '\n'])) ∧
    some (lit "B") ∈ uidRead.vector ∧ (stripEncoding (fun g => g == lit "B") uidFont uidRead).all (fun c => isWs c == isSep c) = true := by decide +kernel

example : ¬ lit "/UniqueID" <:+: lit "%!PS\n" ∧ ¬ lit "/Encoding" <:+: lit "%!PS\n" := by decide

example : written (fun g => g == lit "B") uidFont uidRead =
    lit "%!PS\n/FontName /X def\n/Encoding 256 array\n0 1 255 {1 index exch/.notdef put}for\ndup 66 /B put\nreadonly def\ncurrentfile eexec\n" := by decide +kernel

example : written (fun g => g == lit "B") sampleFont sampleRead =
    lit "/FontName /X def\n/Encoding 256 array\n0 1 255 {1 index exch/.notdef put}for\ndup 66 /B put\nreadonly def\ncurrentfile eexec\n" := by decide +kernel

example : IsUid (lit "%/UniqueID 5020933 def\n") :=
  ⟨true, [' '], lit "5020933", [' '], ['\n'], by decide, by decide, by decide, by decide, by decide⟩

end PyX.Encoding
