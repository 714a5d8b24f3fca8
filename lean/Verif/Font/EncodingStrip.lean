import Verif.Font.EncodingT1

set_option linter.unusedSectionVars false

/-!
# The clear text of stripped fonts: whitespace and `UniqueID`

`unify_read` and `unify_encoding`: putting whitespace with a newline in it together to one newline
changes neither the tokens of a text nor the encoding; `strip_unify` is `strip_spec` for the text after
that.  `uid_spec` says what the removal of `UniqueID` does; `uid_comment` shows that it may turn the
line behind a comment into a part of the comment.
-/

namespace PyX.Encoding

/-- All whitespace in the text is what separates tokens, i.e. there are no vertical tabs and form feeds. -/
def Plain (s : List Char) : Prop := ∀ c ∈ s, isWs c = isSep c

theorem flush_sep {run : List Char} (h : ∀ c ∈ run, isSep c = true) : ∀ c ∈ flush run, isSep c = true := by
  unfold flush
  split
  · intro c hc
    simp only [List.mem_singleton] at hc
    rw [hc]; decide
  · exact h

theorem lead_seps {run : List Char} (h : ∀ c ∈ run, isSep c = true) (s : List Char) : lead false (run ++ s) = lead false s := by
  induction run with
  | nil => rfl
  | cons c run ih =>
    rw [List.cons_append, lead, if_pos (h c (by simp))]
    exact ih fun x hx => h x (List.mem_cons_of_mem _ hx)

theorem lead_true_none {run : List Char} (h : run.any isNl = false) (s : List Char) : lead true (run ++ s) = lead true s := by
  induction run with
  | nil => rfl
  | cons c run ih =>
    simp only [List.any_cons, Bool.or_eq_false_iff] at h
    rw [List.cons_append, lead, h.1]
    exact ih h.2

theorem lead_unify (s : List Char) (hs : Plain s) :
    (∀ run, (∀ c ∈ run, isSep c = true) → lead false (unify run s) = unify [] (lead false s)) ∧
    (∀ run, (∀ c ∈ run, isSep c = true) → lead true (unify run s) =
      if run.any isNl then unify [] (lead false s) else unify [] (lead true s)) := by
  induction s with
  | nil =>
    refine ⟨?_, ?_⟩
    · intro run h
      rw [unify]
      have := lead_seps (flush_sep h) []
      rw [List.append_nil] at this
      rw [this]; rfl
    · intro run h
      rw [unify, flush]
      by_cases hn : run.any isNl = true
      · rw [if_pos hn, if_pos hn]; decide
      · rw [if_neg hn, if_neg hn]
        have := lead_true_none (by simpa using hn) []
        rw [List.append_nil] at this
        rw [this]; rfl
  | cons c s ih =>
    have hc : isWs c = isSep c := hs c (by simp)
    obtain ⟨ihA, ihB⟩ := ih fun x hx => hs x (List.mem_cons_of_mem _ hx)
    have hA : ∀ run, (∀ c ∈ run, isSep c = true) → lead false (unify run (c :: s)) = unify [] (lead false (c :: s)) := by
      intro run h
      rw [unify]
      by_cases hw : isSep c = true
      · rw [if_pos (hc.trans hw), lead, if_pos hw]
        refine ihA _ ?_
        intro x hx
        rcases List.mem_append.mp hx with hx | hx
        · exact h x hx
        · simp only [List.mem_singleton] at hx; rw [hx]; exact hw
      · rw [if_neg (by rw [hc]; exact hw), lead_seps (flush_sep h), lead, if_neg hw, lead, if_neg hw]
        by_cases hp : c = '%'
        · rw [if_pos hp, if_pos hp, ihB [] (by simp)]; simp
        · rw [if_neg hp, if_neg hp, unify, if_neg (by rw [hc]; exact hw)]; rfl
    refine ⟨hA, ?_⟩
    intro run h
    rw [unify]
    by_cases hw : isSep c = true
    · have hrun : ∀ x ∈ run ++ [c], isSep x = true := by
        intro x hx
        rcases List.mem_append.mp hx with hx | hx
        · exact h x hx
        · simp only [List.mem_singleton] at hx; rw [hx]; exact hw
      rw [if_pos (hc.trans hw), ihB _ hrun]
      by_cases hn : run.any isNl = true
      · have e : (run ++ [c]).any isNl = true := by simp [List.any_append, hn]
        rw [if_pos hn, if_pos e, lead, if_pos hw]
      · rw [if_neg hn, lead]
        by_cases hcn : isNl c = true
        · have e : (run ++ [c]).any isNl = true := by simp [List.any_append, hcn]
          rw [if_pos e, if_pos hcn]
        · have e : ¬ (run ++ [c]).any isNl = true := by
            simp only [List.any_append, List.any_cons, List.any_nil, Bool.or_false, Bool.or_eq_true, not_or]
            exact ⟨hn, hcn⟩
          rw [if_neg e, if_neg hcn]
    · have hcn : ¬ isNl c = true := fun e => hw (nl_sep e)
      rw [if_neg (by rw [hc]; exact hw)]
      by_cases hn : run.any isNl = true
      · have hf : flush run = ['\n'] := by rw [flush, if_pos hn]
        have hl : ∀ q, lead true ('\n' :: q) = lead false q := fun q => by
          rw [lead, if_pos (by decide)]
        rw [if_pos hn, hf, List.singleton_append, hl]
        have := hA [] (by simp)
        rw [unify, if_neg (by rw [hc]; exact hw)] at this
        exact this
      · have hf : flush run = run := by rw [flush, if_neg hn]
        rw [if_neg hn, hf, lead_true_none (by simpa using hn), lead, if_neg hcn, lead, if_neg hcn]
        rw [ihB [] (by simp)]; simp

/-- Two texts from which the same tokens are read: behind the leading whitespace and comments, the
second is the first with its whitespace put together. -/
def Same (s s' : List Char) : Prop := Plain s ∧ lead false s' = unify [] (lead false s)

theorem same_unify {s : List Char} (h : Plain s) : Same s (unify [] s) := ⟨h, (lead_unify s h).1 [] (by simp)⟩

theorem unify_first (c : Char) (s : List Char) (hc : isSep c = true) (hs : Plain s) :
    ∃ d s', unify [c] s = d :: s' ∧ isSep d = true ∧ Same s s' := by
  have hA := (lead_unify s hs).1 [c] (by simpa using hc)
  have gen : ∀ s : List Char, ∀ run, run ≠ [] → (∀ c ∈ run, isSep c = true) → Plain s →
      ∃ d s', unify run s = d :: s' ∧ isSep d = true := by
    intro s
    induction s with
    | nil =>
      intro run hne h _
      rw [unify]
      have hf := flush_sep h
      have hne' : flush run ≠ [] := by unfold flush; split <;> simp_all
      cases hh : flush run with
      | nil => exact absurd hh hne'
      | cons d q => exact ⟨d, q, rfl, hf d (by rw [hh]; simp)⟩
    | cons x s ih =>
      intro run hne h hp
      rw [unify]
      have hx : isWs x = isSep x := hp x (by simp)
      by_cases hw : isSep x = true
      · rw [if_pos (hx.trans hw)]
        refine ih _ (by simp) ?_ fun y hy => hp y (List.mem_cons_of_mem _ hy)
        intro y hy
        rcases List.mem_append.mp hy with hy | hy
        · exact h y hy
        · simp only [List.mem_singleton] at hy; rw [hy]; exact hw
      · rw [if_neg (by rw [hx]; exact hw)]
        have hf := flush_sep h
        have hne' : flush run ≠ [] := by unfold flush; split <;> simp_all
        cases hh : flush run with
        | nil => exact absurd hh hne'
        | cons d q => exact ⟨d, q ++ x :: unify [] s, rfl, hf d (by rw [hh]; simp)⟩
  obtain ⟨d, s', e, hd⟩ := gen s [c] (by simp) (by simpa using hc) hs
  refine ⟨d, s', e, hd, hs, ?_⟩
  rw [e, lead, if_pos hd] at hA
  exact hA

theorem tokRest_unify {s t r : List Char} (hs : Plain s) (h : tokRest s = .ok (t, r)) :
    ∃ r', tokRest (unify [] s) = .ok (t, r') ∧ Same r r' := by
  induction s generalizing t r with
  | nil => simp [tokRest] at h
  | cons c s ih =>
    have hc : isWs c = isSep c := hs c (by simp)
    have hs' : Plain s := fun x hx => hs x (List.mem_cons_of_mem _ hx)
    rw [tokRest] at h
    by_cases hw : isSep c = true
    · rw [if_pos hw] at h
      simp only [Except.ok.injEq, Prod.mk.injEq] at h
      obtain ⟨rfl, rfl⟩ := h
      obtain ⟨d, s', e, hd, hsame⟩ := unify_first c s hw hs'
      refine ⟨s', ?_, hsame⟩
      rw [unify, if_pos (hc.trans hw), List.nil_append, e, tokRest, if_pos hd]
    · have hu : unify [] (c :: s) = c :: unify [] s := by
        rw [unify, if_neg (by rw [hc]; exact hw)]; rfl
      rw [if_neg hw] at h
      by_cases hst : isStart c = true
      · rw [if_pos hst] at h
        simp only [Except.ok.injEq, Prod.mk.injEq] at h
        obtain ⟨rfl, rfl⟩ := h
        refine ⟨c :: unify [] s, ?_, ?_⟩
        · rw [hu, tokRest, if_neg hw, if_pos hst]
        · rw [← hu]; exact same_unify hs
      · rw [if_neg hst] at h
        cases e : tokRest s with
        | error => simp only [e] at h; simp at h
        | ok p =>
          simp only [e, Except.ok.injEq, Prod.mk.injEq] at h
          obtain ⟨rfl, rfl⟩ := h
          obtain ⟨r', h1, h2⟩ := ih hs' e
          exact ⟨r', by rw [hu, tokRest, if_neg hw, if_neg hst, h1], h2⟩

theorem lead_plain {s : List Char} (h : Plain s) (b : Bool) : Plain (lead b s) := by
  induction s generalizing b with
  | nil => rw [lead.eq_def]; exact h
  | cons c s ih =>
    have ih := fun b => ih (fun x hx => h x (List.mem_cons_of_mem _ hx)) b
    cases b
    · rw [lead]; split
      · exact ih _
      · split
        · exact ih _
        · exact h
    · rw [lead]; split <;> exact ih _

theorem gettoken_same {s s' t r : List Char} (hs : Same s s') (h : gettoken s = .ok (t, r)) :
    ∃ r', gettoken s' = .ok (t, r') ∧ Same r r' := by
  rw [gettoken] at h
  obtain ⟨hp, he⟩ := hs
  have hpl := lead_plain hp false
  cases e : lead false s with
  | nil => simp only [e] at h; simp at h
  | cons c cs =>
    rw [e] at h he hpl
    obtain ⟨g, _, _, h1, h2⟩ := (lead_inv s).1 c cs e
    have hc : isWs c = isSep c := hpl c (by simp)
    have hu : unify [] (c :: cs) = c :: unify [] cs := by
      rw [unify, if_neg (by rw [hc, h1]; simp)]; rfl
    cases e2 : tokRest cs with
    | error => simp only [e2] at h; simp at h
    | ok p =>
      simp only [e2, Except.ok.injEq, Prod.mk.injEq] at h
      obtain ⟨rfl, rfl⟩ := h
      obtain ⟨r', h3, h4⟩ := tokRest_unify (fun x hx => hpl x (List.mem_cons_of_mem _ hx)) e2
      refine ⟨r', ?_, h4⟩
      simp only [gettoken, he, hu, h3]

theorem read_same {s s' : List Char} {ts : List (List Char)} {r : List Char} (hs : Same s s') (h : Read s ts r) :
    ∃ r', Read s' ts r' ∧ Same r r' := by
  induction ts generalizing s s' with
  | nil => rw [read_nil] at h; subst h; exact ⟨s', .nil, hs⟩
  | cons t ts ih =>
    obtain ⟨s1, h1, h2⟩ := read_cons.mp h
    obtain ⟨s1', h3, h4⟩ := gettoken_same hs h1
    obtain ⟨r', h5, h6⟩ := ih h4 h2
    exact ⟨r', read_cons.mpr ⟨s1', h3, h5⟩, h6⟩

/-- **Unified whitespace does not change the tokens** of a text. -/
theorem unify_read {s : List Char} {ts : List (List Char)} {r : List Char} (hs : Plain s) (h : Read s ts r) :
    ∃ r', Read (unify [] s) ts r' := by
  obtain ⟨r', h1, _⟩ := read_same (same_unify hs) h
  exact ⟨r', h1⟩

theorem unify_prefix {w : List Char} (hw : ∀ c ∈ w, isWs c = false) (s : List Char) : w <+: s →
    unify [] s = w ++ unify [] (s.drop w.length) := by
  induction w generalizing s with
  | nil => intro _; rfl
  | cons x w ih =>
    rintro ⟨q, rfl⟩
    have hx := hw x (by simp)
    rw [List.cons_append, unify, if_neg (by rw [hx]; simp)]
    have := ih (fun c hc => hw c (List.mem_cons_of_mem _ hc)) (w ++ q) ⟨q, rfl⟩
    simp only [flush, List.any_nil, Bool.false_eq_true, if_false, List.nil_append, this, List.length_cons, List.drop_succ_cons,
      List.cons_append]

theorem unify_prefix_inv {w : List Char} (hw : ∀ c ∈ w, isWs c = false) (s : List Char) : w <+: unify [] s → w <+: s := by
  induction w generalizing s with
  | nil => intro _; exact List.nil_prefix
  | cons x w ih =>
    intro h
    have hx := hw x (by simp)
    cases s with
    | nil => obtain ⟨q, hq⟩ := h; simp [unify, flush] at hq
    | cons c s =>
      by_cases hc : isWs c = true
      · have gen : ∀ s : List Char, ∀ run, run ≠ [] → (∀ c ∈ run, isWs c = true) → ∃ d s', unify run s = d :: s' ∧ isWs d = true := by
          have flw : ∀ run : List Char, run ≠ [] → (∀ c ∈ run, isWs c = true) → ∃ d q, flush run = d :: q ∧ isWs d = true := by
            intro run hne h
            unfold flush
            split
            · exact ⟨'\n', [], rfl, by decide⟩
            · cases run with
              | nil => simp at hne
              | cons d q => exact ⟨d, q, rfl, h d (by simp)⟩
          intro s
          induction s with
          | nil => intro run hne h; rw [unify]; exact flw run hne h
          | cons y s ih =>
            intro run hne h
            rw [unify]
            split
            · rename_i hy
              refine ih _ (by simp) ?_
              intro z hz
              rcases List.mem_append.mp hz with hz | hz
              · exact h z hz
              · simp only [List.mem_singleton] at hz; rw [hz]; exact hy
            · obtain ⟨d, q, e, hd⟩ := flw run hne h
              exact ⟨d, q ++ y :: unify [] s, by rw [e]; rfl, hd⟩
        obtain ⟨d, s', e, hd⟩ := gen s [c] (by simp) (by simpa using hc)
        rw [unify, if_pos hc, List.nil_append, e] at h
        obtain ⟨q, hq⟩ := h
        simp only [List.cons_append, List.cons.injEq] at hq
        rw [← hq.1, hx] at hd
        simp at hd
      · rw [unify, if_neg hc] at h
        obtain ⟨q, hq⟩ := h
        simp only [flush, List.any_nil, Bool.false_eq_true, if_false, List.nil_append, List.cons_append, List.cons.injEq] at hq
        obtain ⟨q', hq'⟩ := ih (fun c hc => hw c (List.mem_cons_of_mem _ hc)) s ⟨q, hq.2⟩
        exact ⟨q', by rw [hq.1, ← hq']; rfl⟩

theorem after_unify {w : List Char} (hne : w ≠ []) (hw : ∀ c ∈ w, isWs c = false) (s : List Char) (run : List Char)
    (hrun : ∀ c ∈ run, isWs c = true) {d : List Char} (h : after w s = .ok d) : after w (unify run s) = .ok (unify [] d) := by
  -- whitespace in front is passed over
  have skip : ∀ q run, (∀ c ∈ run, isWs c = true) → after w (run ++ q) = after w q := by
    intro q run hr
    induction run with
    | nil => rfl
    | cons c run ih =>
      have hc := hr c (by simp)
      have : ¬ w <+: c :: (run ++ q) := by
        rintro ⟨z, hz⟩
        cases w with
        | nil => exact hne rfl
        | cons x w =>
          simp only [List.cons_append, List.cons.injEq] at hz
          have := hw x (by simp)
          rw [hz.1, hc] at this
          simp at this
      rw [List.cons_append, after, if_neg this]
      exact ih fun x hx => hr x (List.mem_cons_of_mem _ hx)
  have hflush : ∀ run : List Char, (∀ c ∈ run, isWs c = true) → ∀ c ∈ flush run, isWs c = true := by
    intro run hr
    unfold flush
    split
    · intro c hc
      simp only [List.mem_singleton] at hc
      rw [hc]; decide
    · exact hr
  induction s generalizing run with
  | nil => rw [after, if_neg hne] at h; simp at h
  | cons c s ih =>
    by_cases hc : isWs c = true
    · have : ¬ w <+: c :: s := by
        rintro ⟨z, hz⟩
        cases w with
        | nil => exact hne rfl
        | cons x w =>
          simp only [List.cons_append, List.cons.injEq] at hz
          have := hw x (by simp)
          rw [hz.1, hc] at this
          simp at this
      rw [after, if_neg this] at h
      rw [unify, if_pos hc]
      refine ih _ ?_ h
      intro x hx
      rcases List.mem_append.mp hx with hx | hx
      · exact hrun x hx
      · simp only [List.mem_singleton] at hx; rw [hx]; exact hc
    · have hu : unify [] (c :: s) = c :: unify [] s := by rw [unify, if_neg hc]; rfl
      rw [unify, if_neg hc, skip _ _ (hflush run hrun), after, ← hu]
      rw [after] at h
      by_cases hp : w <+: c :: s
      · rw [if_pos hp] at h
        simp only [Except.ok.injEq] at h
        have e := unify_prefix hw _ hp
        rw [if_pos ⟨_, e.symm⟩, e, List.drop_left, h]
      · rw [if_neg hp] at h
        rw [if_neg fun hq => hp (unify_prefix_inv hw _ hq)]
        exact ih [] (by simp) h

/-- **Unified whitespace does not change the encoding.** -/
theorem unify_encoding {data : List Char} {v : List (Option (List Char))} {k : ℕ} {r : List Char} (hp : Plain data)
    (h : encoding data = .ok (.own v k r)) : ∃ k' r', encoding (unify [] data) = .ok (.own v k' r') := by
  obtain ⟨es, ⟨hne, hint, d, s, t1, t2, mid, st, fin, r', hd, hb, hs, hmid, hr, hk, hk2, hes, hfin, hfr⟩, hv⟩ :=
    encoding_iff.mp h
  have hd' := after_iff.mpr hd
  have hu : after (lit "/Encoding") (unify [] data) = .ok (unify [] d) :=
    after_unify (by decide) (by decide) data [] (by simp) hd'
  obtain ⟨p, hpd, _⟩ := id hd
  have hpl : Plain d := fun c hc => hp c (by rw [hpd]; exact List.mem_append_right _ hc)
  obtain ⟨s', hb', hsame⟩ : ∃ s', Begin (unify [] d) s' ∧ Same s s' := by
    rcases hb with ⟨c, cs, e, h1, e2⟩ | ⟨c, h1, e⟩
    · refine ⟨unify [] d, .inl ⟨c, unify [] cs, ?_, h1, rfl⟩, by rw [e2]; exact same_unify hpl⟩
      have hc : isWs c = false := by rw [hpl c (by rw [e]; simp)]; exact start_not_sep h1
      rw [e, unify, if_neg (by rw [hc]; simp)]; rfl
    · have hc : isWs c = true := by rw [hpl c (by rw [e]; simp)]; exact h1
      obtain ⟨x, s', e1, hx, hsm⟩ := unify_first c s h1 fun y hy => hpl y (by rw [e]; exact List.mem_cons_of_mem _ hy)
      exact ⟨s', .inr ⟨x, hx, by rw [e, unify, if_pos hc]; exact e1⟩, hsm⟩
  obtain ⟨st', hst, hsame2⟩ := read_same hsame hr
  obtain ⟨r2, hr2, hsame3⟩ := read_same hsame2 hes
  obtain ⟨r3, hr3, _⟩ := read_same hsame3 hfr
  obtain ⟨q1, hq1, _⟩ := read_suffix hst
  obtain ⟨q2, hq2⟩ := begin_length hb'
  obtain ⟨q3, hq3, _⟩ := id (after_iff.mp hu)
  have hsuf : unify [] data = (q3 ++ lit "/Encoding" ++ q2 ++ q1) ++ st' := by rw [hq3, hq2, hq1]; simp
  refine ⟨(q3 ++ lit "/Encoding" ++ q2 ++ q1).length, r2, encoding_iff.mpr ⟨es, ⟨hne, hint, _, s', t1, t2, mid, st', fin, r3,
    after_iff.mp hu, hb', hs, hmid, hst, ?_, ?_, hr2, hfin, hr3⟩, hv⟩⟩
  · rw [hsuf, List.take_left' rfl]
  · rw [hsuf]; simp only [List.length_append]

theorem plain_append {a b : List Char} : Plain (a ++ b) ↔ Plain a ∧ Plain b := by
  constructor
  · intro h
    exact ⟨fun c hc => h c (List.mem_append_left _ hc), fun c hc => h c (List.mem_append_right _ hc)⟩
  · rintro ⟨h1, h2⟩ c hc
    rcases List.mem_append.mp hc with hc | hc
    · exact h1 c hc
    · exact h2 c hc

/-- **The clear text of a stripped font**, with its whitespace unified as it is when written, has the
encoding of the wanted glyphs. -/
theorem strip_unify {data : List Char} {v : List (Option (List Char))} {k : ℕ} {r : List Char} (wanted : List Char → Bool)
    (hp : Plain (stripEncoding wanted data (.own v k r))) (h : encoding data = .ok (.own v k r))
    (hw : ∃ g, some g ∈ v ∧ wanted g = true) :
    ∃ v' k' r', encoding (unify [] (stripEncoding wanted data (.own v k r))) = .ok (.own v' k' r') ∧ v'.length = 256 ∧
      ∀ i < 256, v'[i]? = some ((v[i]?.join).filter wanted) := by
  obtain ⟨v', k', h1, h2, h3⟩ := strip_spec wanted h hw
  obtain ⟨k2, r2, h4⟩ := unify_encoding hp h1
  exact ⟨v', k2, r2, h4, h2, h3⟩

example : unify [] (stripEncoding (fun g => g == lit "B") sampleFont sampleRead) =
    lit "/FontName /X def\n/Encoding 256 array\n0 1 255 {1 index exch/.notdef put}for\ndup 66 /B put\nreadonly def\ncurrentfile eexec\n" := by
  decide +kernel

/-! ### `UniqueID` -/

theorem pre_append (w s : List Char) : pre w (w ++ s) = some s := by
  rw [pre, if_pos ⟨s, rfl⟩, List.drop_left]

theorem some1_append {f : Char → Bool} {a b : List Char} (hne : a ≠ []) (ha : ∀ c ∈ a, f c = true)
    (hb : ∀ c, b.head? = some c → f c = false) : some1 f (a ++ b) = some b := by
  cases a with
  | nil => simp at hne
  | cons x a =>
    rw [List.cons_append, some1, if_pos (ha x (by simp))]
    congr 1
    rw [List.dropWhile_append_of_pos fun c hc => ha c (List.mem_cons_of_mem _ hc)]
    cases b with
    | nil => rfl
    | cons y b => rw [List.dropWhile_cons, if_neg (by rw [hb y rfl]; simp)]

/-- A `UniqueID` with its value: what the pattern matches. -/
def uidText (w1 ds w2 w3 : List Char) : List Char := lit "/UniqueID" ++ (w1 ++ (ds ++ (w2 ++ (lit "def" ++ w3))))

theorem uid0_spec {w1 ds w2 w3 rest : List Char} (h1 : w1 ≠ [] ∧ ∀ c ∈ w1, isWs c = true)
    (hd : ds ≠ [] ∧ ∀ c ∈ ds, c.isDigit = true) (h2 : w2 ≠ [] ∧ ∀ c ∈ w2, isWs c = true)
    (h3 : w3 ≠ [] ∧ ∀ c ∈ w3, isWs c = true) (hr : ∀ c, rest.head? = some c → isWs c = false) :
    uid0 (uidText w1 ds w2 w3 ++ rest) = some rest := by
  have dw : ∀ c : Char, c.isDigit = true → isWs c = false := by
    intro c hc
    have h := (digit_ok hc).1
    rw [isWs, h]
    have hb : c ≠ '\x0b' := by rintro rfl; revert hc; decide
    have hf : c ≠ '\x0c' := by rintro rfl; revert hc; decide
    simp [hb, hf]
  have wd : ∀ c : Char, isWs c = true → c.isDigit = false := by
    intro c hc
    rcases e : c.isDigit with _ | _
    · rfl
    · rw [dw c e] at hc; simp at hc
  have hh : ∀ (l q : List Char) (f : Char → Bool), l ≠ [] → (∀ c ∈ l, f c = false) → ∀ c, (l ++ q).head? = some c → f c = false := by
    intro l q f hne hl c hc
    cases l with
    | nil => simp at hne
    | cons x l =>
      simp only [List.cons_append, List.head?_cons, Option.some.injEq] at hc
      rw [← hc]; exact hl x (by simp)
  unfold uid0 uidText
  simp only [List.append_assoc]
  rw [pre_append, Option.bind_some, some1_append h1.1 h1.2 (hh _ _ _ hd.1 fun c hc => dw c (hd.2 c hc)), Option.bind_some,
    some1_append hd.1 hd.2 (hh _ _ _ h2.1 fun c hc => wd c (h2.2 c hc)), Option.bind_some,
    some1_append h2.1 h2.2 (hh _ _ _ (by decide) (by decide)), Option.bind_some, pre_append, Option.bind_some,
    some1_append h3.1 h3.2 hr]

/-- Without a slash there is no match. -/
theorem dropUid_plain {n : ℕ} {a b : List Char} (ha : '/' ∉ a) (hl : a.getLast? ≠ some '%') :
    dropUid (a.length + n) (a ++ b) = a ++ dropUid n b := by
  have nomat : ∀ c s, c ≠ '/' → uid0 (c :: s) = none := by
    intro c s hc
    unfold uid0 pre
    have : ¬ lit "/UniqueID" <+: c :: s := by
      rintro ⟨q, hq⟩
      have e : lit "/UniqueID" = '/' :: lit "UniqueID" := by decide
      rw [e, List.cons_append] at hq
      simp only [List.cons.injEq] at hq
      exact hc hq.1.symm
    rw [if_neg this]; rfl
  induction a with
  | nil => simp
  | cons c a ih =>
    have hc : c ≠ '/' := fun e => ha (by rw [e]; simp)
    have hm : uidMatch (c :: (a ++ b)) = none := by
      rw [uidMatch.eq_def]
      split
      · rename_i s h
        simp only [List.cons.injEq] at h
        obtain ⟨rfl, rfl⟩ := h
        cases a with
        | nil => simp at hl
        | cons x a => exact nomat x _ fun e => ha (by rw [e]; simp)
      · exact nomat c _ hc
    have e : (c :: a).length + n = (a.length + n) + 1 := by simp only [List.length_cons]; omega
    rw [e, List.cons_append, dropUid, hm]
    simp only [List.cons_append]
    congr 1
    apply ih
    · exact fun h => ha (List.mem_cons_of_mem _ h)
    · cases a with
      | nil => simp
      | cons x a => simpa [List.getLast?_cons_cons] using hl

/-- **The `UniqueID` is removed**, with the whitespace behind it, and a comment character directly in
front of it; the text around it stays. -/
theorem uid_spec {a w1 ds w2 w3 rest : List Char} (pc : Bool) (ha : '/' ∉ a) (hl : a.getLast? ≠ some '%')
    (h1 : w1 ≠ [] ∧ ∀ c ∈ w1, isWs c = true)
    (hd : ds ≠ [] ∧ ∀ c ∈ ds, c.isDigit = true) (h2 : w2 ≠ [] ∧ ∀ c ∈ w2, isWs c = true)
    (h3 : w3 ≠ [] ∧ ∀ c ∈ w3, isWs c = true) (hr : ∀ c, rest.head? = some c → isWs c = false) (n : ℕ) :
    dropUid (a.length + (n + 1)) (a ++ ((if pc then ['%'] else []) ++ (uidText w1 ds w2 w3 ++ rest))) = a ++ dropUid n rest := by
  rw [dropUid_plain ha hl]
  have h0 := uid0_spec h1 hd h2 h3 hr
  have e : uidText w1 ds w2 w3 ++ rest = '/' :: (lit "UniqueID" ++ (w1 ++ (ds ++ (w2 ++ (lit "def" ++ w3)))) ++ rest) := by
    simp [uidText, lit]
  cases pc
  · simp only [Bool.false_eq_true, if_false, List.nil_append]
    rw [e] at h0 ⊢
    rw [dropUid]
    have : ∀ q, uidMatch ('/' :: q) = uid0 ('/' :: q) := fun q => rfl
    rw [this, h0]
  · simp only [if_true, List.singleton_append]
    rw [dropUid]
    have : ∀ q, uidMatch ('%' :: q) = uid0 q := fun q => rfl
    rw [this, h0]

/-- **A removed `UniqueID` may take a line with it**: behind other text in a comment, the newline which
ends the comment is removed too, so that the next definition becomes part of the comment. -/
theorem uid_comment : gettoken (lit "% was: /UniqueID 5020933 def\n/FontName /X def\n") = .ok (lit "/FontName", lit "/X def\n") ∧
    dropUid 100 (lit "% was: /UniqueID 5020933 def\n/FontName /X def\n") = lit "% was: /FontName /X def\n" ∧
    gettoken (dropUid 100 (lit "% was: /UniqueID 5020933 def\n/FontName /X def\n")) = .error .index := by
  decide +kernel

example : dropUid 100 (lit "a %/UniqueID 12 def\n/b") = lit "a /b" := by decide +kernel

end PyX.Encoding
