import Verif.Ascii85.Model

/-!
# Property C22: ASCII85 output
-/

namespace PyX.Ascii85

/-! ## Specification: the ASCII85Decode filter (PostScript language reference) -/

/-- Value of up to five base-85 digits. -/
def value85 (ds : List Nat) : Nat := ds.foldl (fun a d => 85 * a + d) 0

/-- The four bytes of a 32 bit number. -/
def bytes4 (v : Nat) : List Nat := [v / 2 ^ 24, v / 2 ^ 16 % 256, v / 2 ^ 8 % 256, v % 256]

/-- Whitespace is skipped, `z` between groups stands for four zero bytes, five characters `!`..`u`
form a group, a final group of 2 to 4 characters is filled up with `u` and gives one byte less than
characters. Everything else is an error. -/
def decode (acc : List Nat) : List Nat → Option (List Nat)
  | [] =>
    if acc = [] then some []
    else if acc.length = 1 then none
    else
      let v := value85 (acc ++ List.replicate (5 - acc.length) 84)
      if v < 2 ^ 32 then some ((bytes4 v).take (acc.length - 1)) else none
  | c :: cs =>
    if c = 10 ∨ c = 32 ∨ c = 9 ∨ c = 13 ∨ c = 12 ∨ c = 0 then decode acc cs
    else if c = 122 ∧ acc = [] then (decode [] cs).map ([0, 0, 0, 0] ++ ·)
    else if 33 ≤ c ∧ c ≤ 117 then
      let acc' := acc ++ [c - 33]
      if acc'.length = 5 then
        let v := value85 acc'
        if v < 2 ^ 32 then (decode [] cs).map (bytes4 v ++ ·) else none
      else decode acc' cs
    else none

/-! ## Lemmas -/

theorem digits_spec (a b c d : Nat) (ha : a < 256) (hb : b < 256) (hc : c < 256) (hd : d < 256) :
    ∃ c1 c2 c3 c4 c5, digits a b c d = (c1, c2, c3, c4, c5) ∧ c1 < 85 ∧ c2 < 85 ∧ c3 < 85 ∧ c4 < 85 ∧ c5 < 85
      ∧ 85 * (85 * (85 * (85 * c1 + c2) + c3) + c4) + c5 = 2 ^ 24 * a + 2 ^ 16 * b + 2 ^ 8 * c + d := by
  refine ⟨_, _, _, _, _, rfl, ?_⟩
  omega

theorem decode_char (acc cs : List Nat) (d : Nat) (hd : d < 85) (hl : acc.length < 4) :
    decode acc ((d + 33) :: cs) = decode (acc ++ [d]) cs := by
  rw [decode]
  have h1 : ¬ (d + 33 = 10 ∨ d + 33 = 32 ∨ d + 33 = 9 ∨ d + 33 = 13 ∨ d + 33 = 12 ∨ d + 33 = 0) := by omega
  have h2 : ¬ (d + 33 = 122 ∧ acc = []) := by omega
  have h3 : 33 ≤ d + 33 ∧ d + 33 ≤ 117 := by omega
  have h4 : ¬ (acc ++ [d + 33 - 33]).length = 5 := by simp; omega
  rw [if_neg h1, if_neg h2, if_pos h3, if_neg h4]
  simp

theorem decode_last (acc cs : List Nat) (d : Nat) (hd : d < 85) (hl : acc.length = 4)
    (hv : value85 (acc ++ [d]) < 2 ^ 32) :
    decode acc ((d + 33) :: cs) = (decode [] cs).map (bytes4 (value85 (acc ++ [d])) ++ ·) := by
  rw [decode]
  have h1 : ¬ (d + 33 = 10 ∨ d + 33 = 32 ∨ d + 33 = 9 ∨ d + 33 = 13 ∨ d + 33 = 12 ∨ d + 33 = 0) := by omega
  have h2 : ¬ (d + 33 = 122 ∧ acc = []) := by omega
  have h3 : 33 ≤ d + 33 ∧ d + 33 ≤ 117 := by omega
  have h4 : (acc ++ [d + 33 - 33]).length = 5 := by simp; omega
  rw [if_neg h1, if_neg h2, if_pos h3, if_pos h4]
  simp only [Nat.add_sub_cancel, if_pos hv]

theorem decode_newline (acc cs : List Nat) : decode acc (10 :: cs) = decode acc cs := by
  rw [decode]; simp

theorem bytes4_eq (a b c d : Nat) (hb : b < 256) (hc : c < 256) (hd : d < 256) :
    bytes4 (2 ^ 24 * a + 2 ^ 16 * b + 2 ^ 8 * c + d) = [a, b, c, d] := by
  simp only [bytes4, List.cons.injEq, and_true]
  omega

theorem decode_group (a b c d : Nat) (rest : List Nat) (ha : a < 256) (hb : b < 256) (hc : c < 256)
    (hd : d < 256) :
    decode [] ([(digits a b c d).1 + 33, (digits a b c d).2.1 + 33, (digits a b c d).2.2.1 + 33,
      (digits a b c d).2.2.2.1 + 33, (digits a b c d).2.2.2.2 + 33] ++ rest)
      = (decode [] rest).map ([a, b, c, d] ++ ·) := by
  obtain ⟨c1, c2, c3, c4, c5, e, h1, h2, h3, h4, h5, hv⟩ := digits_spec a b c d ha hb hc hd
  have hval : value85 [c1, c2, c3, c4, c5] = 2 ^ 24 * a + 2 ^ 16 * b + 2 ^ 8 * c + d := by
    rw [← hv]; simp [value85]
  simp only [e, List.cons_append, List.nil_append]
  rw [decode_char _ _ _ h1 (by simp), decode_char _ _ _ h2 (by simp), decode_char _ _ _ h3 (by simp),
    decode_char _ _ _ h4 (by simp), decode_last _ _ _ h5 (by simp)]
  · simp only [List.cons_append, List.nil_append, hval, bytes4_eq a b c d hb hc hd]
  · simp only [List.cons_append, List.nil_append, hval]; omega

theorem decode_stream (i : Nat) (data : List Nat) (h : ∀ b ∈ data, b < 256) :
    decode [] (stream i data) = some data := by
  fun_induction stream i data with
  | case1 i a b c d rest j nl c1 c2 c3 c4 c5 e ih =>
    have hr := ih (fun x hx => h x (by simp [hx]))
    have ha := h a (by simp); have hb := h b (by simp); have hc := h c (by simp); have hd := h d (by simp)
    have hg := decode_group a b c d (stream (i + 4) rest) ha hb hc hd
    rw [e] at hg
    simp only [hr, Option.map_some] at hg
    have hnl : ∀ cs, decode [] (nl ++ cs) = decode [] cs := by
      intro cs
      by_cases hj : j % 60 = 3 ∧ j ≠ 3
      · simp only [nl, if_pos hj, List.cons_append, List.nil_append]; rw [decode_newline]
      · simp only [nl, if_neg hj, List.nil_append]
    rw [List.append_assoc, hnl]
    exact hg
  | case2 => rfl
  | case3 i a =>
    have ha := h a (by simp)
    obtain ⟨c1, c2, c3, c4, c5, e, h1, h2, h3, h4, h5, hv⟩ := digits_spec a 0 0 0 ha (by omega) (by omega) (by omega)
    simp only [stream.tail, e, List.length_cons, List.length_nil, List.take]
    rw [decode_char _ _ _ h1 (by simp), decode_char _ _ _ h2 (by simp)]
    simp only [List.nil_append, List.cons_append, decode, List.length_cons, List.length_nil, bytes4, value85,
      List.replicate, List.foldl_cons, List.foldl_nil, reduceCtorEq, if_false, List.take]
    rw [if_neg (by omega), if_pos (by omega)]
    simp only [Option.some.injEq, List.cons.injEq, and_true]
    omega
  | case4 i a b =>
    have ha := h a (by simp); have hb := h b (by simp)
    obtain ⟨c1, c2, c3, c4, c5, e, h1, h2, h3, h4, h5, hv⟩ := digits_spec a b 0 0 ha hb (by omega) (by omega)
    simp only [stream.tail, e, List.length_cons, List.length_nil, List.take]
    rw [decode_char _ _ _ h1 (by simp), decode_char _ _ _ h2 (by simp), decode_char _ _ _ h3 (by simp)]
    simp only [List.nil_append, List.cons_append, decode, List.length_cons, List.length_nil, bytes4, value85,
      List.replicate, List.foldl_cons, List.foldl_nil, reduceCtorEq, if_false, List.take]
    rw [if_neg (by omega), if_pos (by omega)]
    simp only [Option.some.injEq, List.cons.injEq, and_true]
    generalize hV : 85 * (85 * (85 * (85 * (85 * 0 + c1) + c2) + c3) + 84) + 84 = V
    have hV1 : 65536 * (256 * a + b) ≤ V ∧ V < 65536 * (256 * a + b) + 65536 := by omega
    clear hV hv
    omega
  | case5 i a b c =>
    have ha := h a (by simp); have hb := h b (by simp); have hc := h c (by simp)
    obtain ⟨c1, c2, c3, c4, c5, e, h1, h2, h3, h4, h5, hv⟩ := digits_spec a b c 0 ha hb hc (by omega)
    simp only [stream.tail, e, List.length_cons, List.length_nil, List.take]
    rw [decode_char _ _ _ h1 (by simp), decode_char _ _ _ h2 (by simp), decode_char _ _ _ h3 (by simp),
      decode_char _ _ _ h4 (by simp)]
    simp only [List.nil_append, List.cons_append, decode, List.length_cons, List.length_nil, bytes4, value85,
      List.replicate, List.foldl_cons, List.foldl_nil, reduceCtorEq, if_false, List.take]
    rw [if_neg (by omega), if_pos (by omega)]
    simp only [Option.some.injEq, List.cons.injEq, and_true]
    generalize hV : 85 * (85 * (85 * (85 * (85 * 0 + c1) + c2) + c3) + c4) + 84 = V
    have hV1 : 256 * (65536 * a + 256 * b + c) ≤ V ∧ V < 256 * (65536 * a + 256 * b + c) + 256 := by omega
    clear hV hv
    omega

/-! ## The property theorems -/

/-- C22: what is written decodes to the data, for every byte string. -/
theorem ascii85_roundtrip (data : List Nat) (h : ∀ b ∈ data, b < 256) :
    decode [] (ascii85stream data) = some data := decode_stream 0 data h

theorem stream_legal (i : Nat) (data : List Nat) (h : ∀ b ∈ data, b < 256) :
    ∀ c ∈ stream i data, c = 10 ∨ (33 ≤ c ∧ c ≤ 117) := by
  fun_induction stream i data with
  | case1 i a b c d rest j nl c1 c2 c3 c4 c5 e ih =>
    have ha := h a (by simp); have hb := h b (by simp); have hc := h c (by simp); have hd := h d (by simp)
    obtain ⟨e1, e2, e3, e4, e5, e', h1, h2, h3, h4, h5, _⟩ := digits_spec a b c d ha hb hc hd
    rw [e] at e'
    simp only [Prod.mk.injEq] at e'
    intro x hx
    simp only [List.mem_append, List.mem_cons, List.not_mem_nil, or_false] at hx
    rcases hx with (hx | hx) | hx
    · left
      by_cases hj : j % 60 = 3 ∧ j ≠ 3
      · simpa [nl, hj] using hx
      · simp [nl, hj] at hx
    · right; omega
    · exact ih (fun y hy => h y (by simp [hy])) x hx
  | case2 => simp
  | case3 i a =>
    have ha := h a (by simp)
    obtain ⟨e1, e2, e3, e4, e5, e', h1, h2, h3, h4, h5, _⟩ := digits_spec a 0 0 0 ha (by omega) (by omega) (by omega)
    simp only [stream.tail, e', List.length_cons, List.length_nil, List.take, List.mem_cons, List.not_mem_nil, or_false]
    intro x hx
    omega
  | case4 i a b =>
    have ha := h a (by simp); have hb := h b (by simp)
    obtain ⟨e1, e2, e3, e4, e5, e', h1, h2, h3, h4, h5, _⟩ := digits_spec a b 0 0 ha hb (by omega) (by omega)
    simp only [stream.tail, e', List.length_cons, List.length_nil, List.take, List.mem_cons, List.not_mem_nil, or_false]
    intro x hx
    omega
  | case5 i a b c =>
    have ha := h a (by simp); have hb := h b (by simp); have hc := h c (by simp)
    obtain ⟨e1, e2, e3, e4, e5, e', h1, h2, h3, h4, h5, _⟩ := digits_spec a b c 0 ha hb hc (by omega)
    simp only [stream.tail, e', List.length_cons, List.length_nil, List.take, List.mem_cons, List.not_mem_nil, or_false]
    intro x hx
    omega

/-- C22: only the characters `!`..`u` and newlines are written; in particular never `~` (the end mark). -/
theorem ascii85_legal (data : List Nat) (h : ∀ b ∈ data, b < 256) :
    ∀ c ∈ ascii85stream data, c = 10 ∨ (33 ≤ c ∧ c ≤ 117) := stream_legal 0 data h

theorem count_stream (i : Nat) (data : List Nat) :
    i % 4 = 0 → (stream i data).count 10 + (i - 4) / 60 = (i + data.length / 4 * 4 - 4) / 60 := by
  fun_induction stream i data with
  | case1 i a b c d rest j nl c1 c2 c3 c4 c5 e ih =>
    intro hi
    have ih := ih (by omega)
    have hc : ∀ x : Nat, ¬ (x + 33 = 10) := by omega
    have hn : nl.count 10 = if j % 60 = 3 ∧ j ≠ 3 then 1 else 0 := by
      simp only [nl]; split <;> simp
    simp only [List.count_append, hn, List.count_cons, List.count_nil, beq_iff_eq, hc, if_false, List.length_cons]
    simp only [j]
    split <;> omega
  | case2 => intro hi; simp
  | case3 i a =>
    intro hi
    have hc : ∀ x : Nat, ¬ (x + 33 = 10) := by omega
    simp [stream.tail, hc]
  | case4 i a b =>
    intro hi
    have hc : ∀ x : Nat, ¬ (x + 33 = 10) := by omega
    simp [stream.tail, hc]
  | case5 i a b c =>
    intro hi
    have hc : ∀ x : Nat, ¬ (x + 33 = 10) := by omega
    simp [stream.tail, hc]

theorem count_ascii85 (data : List Nat) : (ascii85stream data).count 10 + 1 = announcedSingle data.length := by
  have := count_stream 0 data rfl
  unfold ascii85stream announcedSingle linesNum60
  split <;> omega

/-- C22: for an image stored as a single string, the announced number of lines is the number of lines written. -/
theorem lines_single (data : List Nat) : (outputSingle data).count 10 = announcedSingle data.length := by
  rw [← count_ascii85]
  simp [outputSingle]

theorem count_chunks (m : Nat) (hm : 0 < m) (n : Nat) (data : List Nat) (h : data.length / m = n) :
    (chunks m n data).count 10 + 1 = n * announcedSingle m + announcedSingle (data.length - n * m) := by
  induction n generalizing data with
  | zero =>
    by_cases hd : data = []
    · subst hd; simp [chunks, announcedSingle, linesNum60]
    · rw [chunks, if_neg hd]
      simp only [List.count_append, List.count_cons, List.count_nil, beq_iff_eq]
      have := count_ascii85 data
      simp; omega
  | succ n ih =>
    have hlen : m ≤ data.length := by
      apply Nat.le_of_not_lt
      intro hlt
      rw [Nat.div_eq_of_lt hlt] at h; omega
    have h' : (data.drop m).length / m = n := by
      rw [List.length_drop]
      have := Nat.div_eq_sub_div hm hlen
      omega
    have ih := ih _ h'
    have hc := count_ascii85 (data.take m)
    rw [List.length_take, Nat.min_eq_left hlen] at hc
    rw [List.length_drop] at ih
    have e : data.length - m - n * m = data.length - (n + 1) * m := by rw [Nat.add_mul]; omega
    rw [e] at ih
    simp only [chunks, List.count_append, List.count_cons, List.count_nil, beq_iff_eq]
    rw [Nat.add_mul]
    simp; omega

/-- Number of lines really written for an image stored in several strings. -/
theorem lines_chunked_actual (m : Nat) (hm : 0 < m) (data : List Nat) :
    (outputChunked m data).count 10 =
      (data.length / m) * announcedSingle m + announcedSingle (data.length % m) := by
  have := count_chunks m hm _ data rfl
  have e : data.length - data.length / m * m = data.length % m := by
    have := Nat.div_add_mod data.length m; rw [Nat.mul_comm] at this; omega
  rw [e] at this
  rw [← this]
  simp [outputChunked]

/-- Full claim for chunked images. -/
def ChunkedLinesCorrect : Prop :=
  ∀ (m : Nat) (data : List Nat), 0 < m → announcedChunked data.length m = (outputChunked m data).count 10

/-- C22, partial: with at most one string (data not longer than `maxstrlen`, exclusively) or when the chunk length
plus 56 is divisible by 60, the announced number is right. -/
theorem lines_chunked_partial (m : Nat) (hm : 4 ≤ m) (data : List Nat)
    (h : data.length < m ∨ (m + 56) % 60 = 0) :
    announcedChunked data.length m = (outputChunked m data).count 10 := by
  rw [lines_chunked_actual m (by omega)]
  have e : data.length - (data.length - data.length % m) = data.length % m := by
    have := Nat.mod_le data.length m; omega
  have e2 : (data.length - data.length % m) / m = data.length / m := by
    have := Nat.div_add_mod data.length m
    rw [show data.length - data.length % m = m * (data.length / m) by omega]
    exact Nat.mul_div_cancel_left _ (by omega)
  unfold announcedChunked
  simp only [e, e2]
  rcases h with h | h
  · rw [Nat.div_eq_of_lt h]; simp [announcedSingle]
  · unfold announcedSingle
    have h60 : linesNum60 m = 60 * ((m + 56) / 60) := by
      unfold linesNum60; rw [if_neg (by omega)]; omega
    rw [h60, ← Nat.mul_assoc, Nat.mul_comm _ 60, Nat.mul_assoc, Nat.mul_add_div (by omega),
      Nat.mul_div_cancel_left _ (by omega)]

/-- C22, finding: with the default `PSmaxstrlen=4093` seven full strings are announced with one line too many,
because the fractions are added before truncation. -/
theorem lines_chunked_wrong : ¬ ChunkedLinesCorrect := by
  intro h
  have := h 4093 (List.replicate 28651 0) (by omega)
  rw [lines_chunked_actual _ (by omega), List.length_replicate] at this
  revert this; decide

example : ascii85stream [77, 97, 110, 32, 0] = [57, 106, 113, 111, 94, 33, 33] := by decide
example : decode [] [57, 106, 113, 111, 94, 33, 33] = some [77, 97, 110, 32, 0] := by decide
example : announcedSingle 130 = 3 := by decide
example : announcedChunked 28651 4093 = 485 := by decide

end PyX.Ascii85
