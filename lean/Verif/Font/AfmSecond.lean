import Verif.Font.AfmProps

/-!
# C135: kerning pairs of the second direction

`pairLine` (`afmfile.py:1253-1307`) with `direction = 1`, and the section `StartKernPairs1` ... `EndKernPairs` as a whole.
-/

set_option linter.unusedSectionVars false

namespace PyX.Afm

variable {K : Type} [Zero K]

theorem pair_second {n : Num K} (p : Printer n) (x : Pair K) (s : List Char) (h : PairLine p x s) (a : Afm K) (i : ℕ) (c : List (Pair K)) (hc : a.pairs1 = some c) :
    pairLine n a true i s = some ({ a with pairs1 := some (c ++ [x]), pdict1 := Function.update a.pdict1 (x.name1, x.name2) (some x) }, .pairs true (i + 1)) := by
  obtain ⟨m₁, m₂, x₀, y₀⟩ := x
  obtain ⟨u, v, sep, hu, hv, hs, hs0, rfl, rfl, h⟩ := h
  have key : ∀ (k : List Char) (l : List (List Char)), Tok k → l ≠ [] → (∀ t ∈ l, Tok t) → keyArgs (join sep (k :: l)) = (k, some (join sep l)) := by
    intro k l hk hl ht
    rw [join_cons sep k l hl]
    exact keyArgs_spec k sep _ hk hs hs0 (join_trim sep l hl ht)
  have done : ∀ (k : List Char) (l : List (List Char)), Tok k → l ≠ [] → (∀ t ∈ l, Tok t) → k ≠ lit "Comment" → k ≠ lit "EndKernPairs" → pairOf n k (join sep l) = some ⟨.name u, .name v, x₀, y₀⟩ →
      pairLine n a true i (join sep (k :: l)) = some ({ a with pairs1 := some (c ++ [⟨.name u, .name v, x₀, y₀⟩]), pdict1 := Function.update a.pdict1 (.name u, .name v) (some ⟨.name u, .name v, x₀, y₀⟩) }, .pairs true (i + 1)) := by
    intro k l hk hl ht h1 h2 hp
    unfold pairLine
    simp only [key k l hk hl ht, if_neg h1, if_neg h2, Option.bind_some, hp, Option.map_some, if_true, hc]
  rcases h with ⟨hy, rfl⟩ | ⟨hx, rfl⟩ | rfl
  · simp only at hy
    subst hy
    have ht : ∀ t ∈ [u, v, p.flt x₀], Tok t := by
      intro t ht
      simp only [List.mem_cons, List.not_mem_nil, or_false] at ht
      rcases ht with rfl | rfl | rfl
      exacts [hu, hv, p.flt_tok _]
    apply done _ _ (tok_lit _ (by decide +kernel)) (by simp) ht (by decide +kernel) (by decide +kernel)
    simp only [pairOf, words_join sep hs hs0 _ ht, if_true, parseFloat_print, Option.map_some]
  · simp only at hx
    subst hx
    have ht : ∀ t ∈ [u, v, p.flt y₀], Tok t := by
      intro t ht
      simp only [List.mem_cons, List.not_mem_nil, or_false] at ht
      rcases ht with rfl | rfl | rfl
      exacts [hu, hv, p.flt_tok _]
    apply done _ _ (tok_lit _ (by decide +kernel)) (by simp) ht (by decide +kernel) (by decide +kernel)
    have hk : lit "KPY" ≠ lit "KPX" := by decide +kernel
    simp only [pairOf, words_join sep hs hs0 _ ht, if_neg hk, if_true, parseFloat_print, Option.map_some]
  · have ht : ∀ t ∈ [u, v, p.flt x₀, p.flt y₀], Tok t := by
      intro t ht
      simp only [List.mem_cons, List.not_mem_nil, or_false] at ht
      rcases ht with rfl | rfl | rfl | rfl
      exacts [hu, hv, p.flt_tok _, p.flt_tok _]
    apply done _ _ (tok_lit _ (by decide +kernel)) (by simp) ht (by decide +kernel) (by decide +kernel)
    simp only [pairOf, words_join sep hs hs0 _ ht, if_true, parseFloat_print, Option.map_some, Option.bind_some]

/-- **C135**: the lines of kerning pairs of the second direction give the pairs; two names stand for the last pair which has them. -/
theorem pairs_second {n : Num K} (p : Printer n) (xs : List (Pair K)) (ls : List (List Char))
    (h : Sec (PairLine p) Skipped xs ls) (a : Afm K) (c : List (Pair K)) (hc : a.pairs1 = some c) (i : ℕ) :
    run n ls (a, .pairs true i) = some ({ a with
      pairs1 := some (c ++ xs)
      pdict1 := fun nm => (lastOf (fun x : Pair K => some (x.name1, x.name2)) xs nm).or (a.pdict1 nm) }, .pairs true (i + xs.length)) := by
  induction h generalizing a c i with
  | nil =>
    simp only [run, List.append_nil, lastOf, List.reverse_nil, List.find?_nil, Option.none_or, List.length_nil, Nat.add_zero, ← hc]
  | skip s raw hq hr _ ih =>
    by_cases h0 : s = []
    · subst h0
      rw [run_raw n _ raw hr (Or.inl rfl), empty_line n _ (by simp)]
      exact ih a c hc i
    · obtain ⟨hk, ht⟩ := keyArgs_comment s hq h0
      rw [run_raw n _ raw hr (Or.inr ht)]
      have : line n (a, .pairs true i) s = some (a, .pairs true i) := by
        simp only [line, if_neg h0, pairLine, hk, if_true]
      rw [this]
      exact ih a c hc i
  | cons x s raw hx hs hr hl ih =>
    rw [run_raw n s raw hr (Or.inr hs)]
    have hline : line n (a, .pairs true i) s = pairLine n a true i s := by simp only [line, if_neg hs.1]
    rw [hline, pair_second p x s hx a i c hc, Option.bind_some, ih _ (c ++ [x]) rfl]
    simp only [List.length_cons, List.append_assoc, List.singleton_append, Option.some.injEq, Prod.mk.injEq, Afm.mk.injEq, true_and, and_true, Mode.pairs.injEq]
    refine ⟨?_, by omega⟩
    funext nm
    rw [lastOf_cons, Option.or_assoc]
    by_cases hm : (x.name1, x.name2) = nm
    · subst hm; simp
    · have : nm ≠ (x.name1, x.name2) := fun e => hm e.symm
      simp [Function.update_of_ne this, hm]
/-- **C135**: a section of kerning pairs of the second direction adds exactly these pairs: the font has them in the order of the lines, two names stand for the
last pair which has them, and everything else (the pairs of the first direction among it) is left alone. -/
theorem section_second {n : Num K} (p : Printer n) (xs : List (Pair K)) (l₁ l₂ l₃ : List (List Char)) (s : List Char)
    (hs : Start p (lit "StartKernPairs1") s) (m₁ : Mark s l₁) (h : Sec (PairLine p) Skipped xs l₂) (m₃ : Mark (lit "EndKernPairs") l₃)
    (a : Afm K) (ha : a.pairs1 = none) :
    ∃ e, run n (l₁ ++ (l₂ ++ l₃)) (a, .kern) = some ({ a with
      expected := e
      pairs1 := some xs
      pdict1 := fun nm => (lastOf (fun x : Pair K => some (x.name1, x.name2)) xs nm).or (a.pdict1 nm) }, .kern) := by
  obtain ⟨sep, i, hb, hb0, rfl⟩ := hs
  have t : Tok (lit "StartKernPairs1") := tok_lit _ (by decide +kernel)
  have e1 : run n l₁ (a, .kern) = some ({ a with expected := some i, pairs1 := some [] }, .pairs true 0) := by
    have hka := keyArgs_spec _ sep _ t hb hb0 (tok_trim _ (p.int_tok i))
    have h1 : lit "StartKernPairs1" ≠ lit "Comment" := by decide +kernel
    have h2 : lit "StartKernPairs1" ≠ lit "StartTrackKern" := by decide +kernel
    have h3 : ¬ (lit "StartKernPairs1" = lit "StartKernPairs" ∨ lit "StartKernPairs1" = lit "StartKernPairs0") := by decide +kernel
    have h0 : lit "StartKernPairs1" ++ sep ++ p.int i ≠ [] := by simp [t.1]
    rw [run_mark n _ l₁ m₁]
    simp only [line, if_neg h0, kernLine, hka, if_neg h1, if_neg h2, if_neg h3, if_true, ha, Option.isSome_none, Bool.false_eq_true, if_false, optInt, Option.bind_some, p.int_read, Option.map_some]
  have e3 : ∀ (a : Afm K) (i : ℕ), run n l₃ (a, .pairs true i) = some (a, .kern) := by
    intro a i
    have hka := keyArgs_tok (lit "EndKernPairs") (tok_lit _ (by decide +kernel))
    have h0 : lit "EndKernPairs" ≠ [] := by decide +kernel
    have h1 : lit "EndKernPairs" ≠ lit "Comment" := by decide +kernel
    rw [run_mark n _ l₃ m₃]
    simp only [line, if_neg h0, pairLine, hka, if_neg h1, if_true]
  refine ⟨some i, ?_⟩
  rw [run_append, e1, Option.bind_some, run_append, pairs_second p xs l₂ h _ [] rfl 0, Option.bind_some, e3]
  simp only [List.nil_append]

/-- **C135**: a second section of kerning pairs of the second direction is an error. -/
theorem section_second_twice {n : Num K} (p : Printer n) (l : List (List Char)) (s : List Char)
    (hs : Start p (lit "StartKernPairs1") s) (m : Mark s l) (a : Afm K) (c : List (Pair K)) (ha : a.pairs1 = some c) : run n l (a, .kern) = none := by
  obtain ⟨sep, i, hb, hb0, rfl⟩ := hs
  have t : Tok (lit "StartKernPairs1") := tok_lit _ (by decide +kernel)
  have hka := keyArgs_spec _ sep _ t hb hb0 (tok_trim _ (p.int_tok i))
  have h1 : lit "StartKernPairs1" ≠ lit "Comment" := by decide +kernel
  have h2 : lit "StartKernPairs1" ≠ lit "StartTrackKern" := by decide +kernel
  have h3 : ¬ (lit "StartKernPairs1" = lit "StartKernPairs" ∨ lit "StartKernPairs1" = lit "StartKernPairs0") := by decide +kernel
  have h0 : lit "StartKernPairs1" ++ sep ++ p.int i ≠ [] := by simp [t.1]
  rw [run_mark n _ l m]
  simp only [line, if_neg h0, kernLine, hka, if_neg h1, if_neg h2, if_neg h3, if_true, ha, Option.isSome_some]

/-- A font with pairs of both directions. -/
example : (parse nums (["StartFontMetrics 4.1\n", "StartKernData\n", "StartKernPairs 1\n", "KPX A V -40\n", "EndKernPairs\n", "StartKernPairs1 2\n", "KPY A V -7\n",
    "KP A W 3 4\n", "EndKernPairs\n", "EndKernData\n", "EndFontMetrics\n"].map lit)).map (fun a => (a.pairs0, a.pairs1)) =
    some (some [⟨.name (lit "A"), .name (lit "V"), -40, 0⟩], some [⟨.name (lit "A"), .name (lit "V"), 0, -7⟩, ⟨.name (lit "A"), .name (lit "W"), 3, 4⟩]) := by
  decide +kernel

/-- The hypotheses can be met. -/
example : ∃ e, run unary (["StartKernPairs1 pi\n", "KPX A V mii\n", "EndKernPairs\n"].map lit) (({} : Afm ℤ), .kern) = some ({ ({} : Afm ℤ) with
      expected := e
      pairs1 := some [⟨.name (lit "A"), .name (lit "V"), -2, 0⟩]
      pdict1 := fun nm => (lastOf (fun x : Pair ℤ => some (x.name1, x.name2)) [⟨.name (lit "A"), .name (lit "V"), -2, 0⟩] nm).or (({} : Afm ℤ).pdict1 nm) }, .kern) := by
  have mk : ∀ s, Trim s → Mark s [s ++ ['\n']] := fun s hs => ⟨hs, _, ex_raw s, rfl⟩
  have := section_second unaryPrinter [⟨.name (lit "A"), .name (lit "V"), -2, 0⟩] [lit "StartKernPairs1 pi" ++ ['\n']] [lit "KPX A V mii" ++ ['\n']] [lit "EndKernPairs" ++ ['\n']]
    (lit "StartKernPairs1 pi") ⟨[' '], 1, blank_space, by simp, by decide +kernel⟩ (mk _ (trim_of _ (by decide +kernel)))
    (.cons _ (lit "KPX A V mii") _ ⟨lit "A", lit "V", [' '], tok_lit _ (by decide +kernel), tok_lit _ (by decide +kernel), blank_space, by simp, rfl, rfl, Or.inl ⟨rfl, by decide +kernel⟩⟩
      (trim_of _ (by decide +kernel)) (ex_raw _) .nil) (mk _ (trim_of _ (by decide +kernel))) {} rfl
  exact this

end PyX.Afm
