import Verif.Eps.Props

/-!
# Any sequence of calls of `linefilereader` (`epsfile.py:57-138`)

The calls of the reader with and without a message for the end of the file.  The buffer is kept as in the code: after `read()` it is the text `""` and no
longer bytes (`epsfile.py:105`).  Counts are not negative.
-/

set_option linter.unusedSectionVars false

namespace PyX.Eps.Calls

open PyX.Eps

/-! ## Model -/

/-- The buffer: bytes, or the text `""`. -/
inductive Buf
  | bytes (b : Bytes)
  | text
deriving DecidableEq

/-- The reader: its buffer and the rest of the file. -/
structure St where
  buf : Buf
  file : Bytes
deriving DecidableEq

/-- A call; the flag says whether `EOFmsg` is not `None`. -/
inductive Call
  | line (msg : Bool) -- readline()
  | count (n : ℕ) (msg : Bool) -- read(n)
  | rest (msg : Bool) -- read()
deriving DecidableEq

/-- What a call returns or raises. -/
inductive Out
  | bytes (b : Bytes)
  | text -- ""
  | ioError
  | typeError
deriving DecidableEq

/-- `readline(EOFmsg)` on a buffer of bytes (`epsfile.py:119-138`). -/
def lineCall (t : ℕ) (msg : Bool) (r : Rd) : Out × St :=
  let s := readlineLoop t r
  if s.1 = [] ∧ msg = true then (.ioError, ⟨.bytes s.2.buffer, s.2.file⟩) else (.bytes s.1, ⟨.bytes s.2.buffer, s.2.file⟩)

/-- The buffer filled for `read(n)` (`epsfile.py:94-95`). -/
def fill (n : ℕ) (r : Rd) : Rd :=
  if n > r.buffer.length then ⟨r.buffer ++ r.file.take (n - r.buffer.length), r.file.drop (n - r.buffer.length)⟩ else r

/-- `read(n, EOFmsg)` on a buffer of bytes (`epsfile.py:93-100`). -/
def countCall (n : ℕ) (msg : Bool) (r : Rd) : Out × St :=
  let r' := fill n r
  if msg = true ∧ r'.buffer.length < n then (.ioError, ⟨.bytes r'.buffer, r'.file⟩)
  else (.bytes (r'.buffer.take n), ⟨.bytes (r'.buffer.drop n), r'.file⟩)

/-- `read(None, EOFmsg)` on a buffer of bytes (`epsfile.py:101-106`). -/
def restCall (msg : Bool) (r : Rd) : Out × St :=
  if msg = true ∧ r.buffer ++ r.file = [] then (.ioError, ⟨.bytes (r.buffer ++ r.file), []⟩) else (.bytes (r.buffer ++ r.file), ⟨.text, []⟩)

/-- A call.  With the text `""` as the buffer, `find` of bytes and adding bytes are `TypeError`s; `read(0)` does neither.  What `file.read` has returned
by then is lost. -/
def call (t : ℕ) (c : Call) (s : St) : Out × St :=
  match s.buf with
  | .bytes b =>
    match c with
    | .line msg => lineCall t msg ⟨b, s.file⟩
    | .count n msg => countCall n msg ⟨b, s.file⟩
    | .rest msg => restCall msg ⟨b, s.file⟩
  | .text =>
    match c with
    | .line _ => (.typeError, s)
    | .count 0 _ => (.text, s)
    | .count (n + 1) _ => (.typeError, ⟨.text, s.file.drop (n + 1)⟩)
    | .rest _ => (.typeError, ⟨.text, []⟩)

/-- Several calls: what each of them gives. -/
def calls (t : ℕ) : List Call → St → List Out
  | [], _ => []
  | c :: cs, s => (call t c s).1 :: calls t cs (call t c s).2

/-- The reader of a file not read yet (`epsfile.py:80-82`). -/
def start (content : Bytes) : St := ⟨.bytes [], content⟩

/-! ## Specification, by the documentation of the methods -/

/-- What a call returns of the part of the file which is left. -/
def piece : Call → Bytes → Bytes
  | .line _, l => (firstLine l).1
  | .count n _, l => l.take n
  | .rest _, l => l

/-- The call has to raise an `IOError`: there is a message, and there is no line, not enough, or nothing left. -/
def Refused : Call → Bytes → Prop
  | .line msg, l => msg = true ∧ l = []
  | .count n msg, l => msg = true ∧ l.length < n
  | .rest msg, l => msg = true ∧ l = []

instance (c : Call) (l : Bytes) : Decidable (Refused c l) := by
  cases c <;> unfold Refused <;> infer_instance

/-- What the calls give for a file of which `l` is left. -/
def expected : List Call → Bytes → List Out
  | [], _ => []
  | c :: cs, l => if Refused c l then .ioError :: expected cs l else .bytes (piece c l) :: expected cs (l.drop (piece c l).length)

/-- `read()` has been called with success: it is a call not refused. -/
def RestRead : List Call → Bytes → Prop
  | [], _ => False
  | c :: cs, l => if Refused c l then RestRead cs l else (∃ msg, c = .rest msg) ∨ RestRead cs (l.drop (piece c l).length)

/-! ## Proofs -/

/-- What is left of the file in a state with bytes as the buffer. -/
def Left (s : St) (l : Bytes) : Prop := ∃ b, s.buf = .bytes b ∧ b ++ s.file = l

theorem firstLine_drop (l : Bytes) : l.drop (firstLine l).1.length = (firstLine l).2 := by
  have h := firstLine_append l
  have : ((firstLine l).1 ++ (firstLine l).2).drop (firstLine l).1.length = (firstLine l).2 := List.drop_left
  rwa [h] at this

theorem fill_left (n : ℕ) (r : Rd) : (fill n r).left = r.left := by
  unfold fill
  split_ifs with h
  · simp [Rd.left]
  · rfl

theorem fill_enough (n : ℕ) (r : Rd) : (fill n r).buffer.length < n ↔ r.left.length < n := by
  unfold fill Rd.left
  split_ifs with h
  · simp only [List.length_append, List.length_take]; omega
  · simp only [List.length_append]; omega

/-- If the buffer is shorter than the count, then the file has been read to its end. -/
theorem fill_take (n : ℕ) (r : Rd) : (fill n r).buffer.take n = r.left.take n ∧ (fill n r).buffer.drop n ++ (fill n r).file = r.left.drop n := by
  unfold fill Rd.left
  split_ifs with h
  · constructor
    · rw [List.take_append, List.take_append, List.take_take, min_self]
    · dsimp only
      rw [List.drop_append, List.drop_append, List.drop_take, Nat.sub_self, List.take_zero, List.append_nil]
  · constructor
    · rw [List.take_append, Nat.sub_eq_zero_of_le (by omega)]; simp
    · rw [List.drop_append, Nat.sub_eq_zero_of_le (by omega)]; simp

theorem take_drop_len (n : ℕ) (l : Bytes) : l.drop (l.take n).length = l.drop n := by
  rw [List.length_take]
  rcases le_total n l.length with h | h
  · rw [min_eq_left h]
  · rw [min_eq_right h, List.drop_length, List.drop_of_length_le h]

/-- **C174.** One call: it is refused exactly as documented and then loses nothing; else it returns the piece asked for and leaves what follows. -/
theorem call_spec (t : ℕ) (ht : 0 < t) (c : Call) (s : St) (l : Bytes) (h : Left s l) :
    if Refused c l then (call t c s).1 = .ioError ∧ Left (call t c s).2 l
    else (call t c s).1 = .bytes (piece c l) ∧ ((¬ ∃ msg, c = .rest msg) → Left (call t c s).2 (l.drop (piece c l).length)) := by
  obtain ⟨b, hb, hl⟩ := h
  cases c with
  | line msg =>
    have hr := readline_line t ht ⟨b, s.file⟩
    have e : Rd.left ⟨b, s.file⟩ = l := hl
    rw [e] at hr
    have hc : call t (.line msg) s = lineCall t msg ⟨b, s.file⟩ := by unfold call; rw [hb]
    rw [hc]
    unfold lineCall
    by_cases hR : Refused (.line msg) l
    · rw [if_pos hR]
      dsimp only
      rw [if_pos ⟨hr.1.trans ((firstLine_nil l).2 hR.2), hR.1⟩]
      refine ⟨rfl, _, rfl, ?_⟩
      refine hr.2.trans ?_
      rw [hR.2]; rfl
    · rw [if_neg hR]
      dsimp only
      rw [if_neg (fun g => hR ⟨g.2, (firstLine_nil l).1 (hr.1.symm.trans g.1)⟩)]
      refine ⟨by rw [hr.1]; rfl, fun _ => ⟨_, rfl, ?_⟩⟩
      exact hr.2.trans (firstLine_drop l).symm
  | count n msg =>
    have e : Rd.left ⟨b, s.file⟩ = l := hl
    have hn := fill_enough n ⟨b, s.file⟩
    have hv := fill_left n ⟨b, s.file⟩
    have hk := fill_take n ⟨b, s.file⟩
    rw [e] at hn hv hk
    have hc : call t (.count n msg) s = countCall n msg ⟨b, s.file⟩ := by unfold call; rw [hb]
    rw [hc]
    unfold countCall
    by_cases hR : Refused (.count n msg) l
    · rw [if_pos hR]
      dsimp only
      rw [if_pos ⟨hR.1, hn.2 hR.2⟩]
      exact ⟨rfl, _, rfl, hv⟩
    · rw [if_neg hR]
      dsimp only
      rw [if_neg (fun g => hR ⟨g.1, hn.1 g.2⟩)]
      refine ⟨by rw [hk.1]; rfl, fun _ => ⟨_, rfl, ?_⟩⟩
      refine hk.2.trans ?_
      exact (take_drop_len n l).symm
  | rest msg =>
    have hc : call t (.rest msg) s = restCall msg ⟨b, s.file⟩ := by unfold call; rw [hb]
    rw [hc]
    unfold restCall
    dsimp only
    rw [hl]
    by_cases hR : Refused (.rest msg) l
    · rw [if_pos hR, if_pos (show msg = true ∧ l = [] from hR)]
      exact ⟨rfl, _, rfl, by simp⟩
    · rw [if_neg hR, if_neg (show ¬ (msg = true ∧ l = []) from hR)]
      exact ⟨rfl, fun g => absurd ⟨msg, rfl⟩ g⟩

/-- **C174.** All calls up to and including the first successful `read()` give the consecutive pieces of the file as documented, whatever the size of the
parts in which the file is read. -/
theorem calls_partial (t : ℕ) (ht : 0 < t) (cs : List Call) (c : Call) (content : Bytes) (h : ¬ RestRead cs content) :
    calls t (cs ++ [c]) (start content) = expected (cs ++ [c]) content := by
  have key : ∀ (cs : List Call) (s : St) (l : Bytes), Left s l → ¬ RestRead cs l → calls t (cs ++ [c]) s = expected (cs ++ [c]) l := by
    intro cs
    induction cs with
    | nil =>
      intro s l hs _
      have h1 := call_spec t ht c s l hs
      change [(call t c s).1] = expected [c] l
      unfold expected
      split_ifs at h1 ⊢ with hR
      · rw [h1.1]; rfl
      · rw [h1.1]; rfl
    | cons d ds ih =>
      intro s l hs hn
      have h1 := call_spec t ht d s l hs
      change (call t d s).1 :: calls t (ds ++ [c]) (call t d s).2 = expected (d :: (ds ++ [c])) l
      unfold expected
      unfold RestRead at hn
      split_ifs at h1 hn ⊢ with hR
      · rw [h1.1, ih _ _ h1.2 hn]
      · rw [h1.1, ih _ _ (h1.2 fun g => hn (Or.inl g)) fun g => hn (Or.inr g)]
  exact key cs _ _ ⟨[], rfl, rfl⟩ h

/-- The bytes returned by some calls. -/
def given : List Out → Bytes
  | [] => []
  | .bytes b :: os => b ++ given os
  | _ :: os => given os

theorem piece_append (c : Call) (l : Bytes) : piece c l ++ l.drop (piece c l).length = l := by
  cases c with
  | line msg => change (firstLine l).1 ++ l.drop (firstLine l).1.length = l; rw [firstLine_drop, firstLine_append]
  | count n msg => change l.take n ++ l.drop (l.take n).length = l; rw [take_drop_len, List.take_append_drop]
  | rest msg => change l ++ l.drop l.length = l; simp

theorem expected_prefix (cs : List Call) (l : Bytes) : given (expected cs l) <+: l := by
  induction cs generalizing l with
  | nil => exact List.nil_prefix
  | cons c cs ih =>
    unfold expected
    split_ifs
    · exact ih l
    · obtain ⟨v, hv⟩ := ih (l.drop (piece c l).length)
      refine ⟨v, ?_⟩
      change piece c l ++ given _ ++ v = l
      rw [List.append_assoc, hv, piece_append]

/-- **C174.** What is returned, put together, is the begin of the file: no byte is lost, given twice or moved. -/
theorem consecutive (t : ℕ) (ht : 0 < t) (cs : List Call) (c : Call) (content : Bytes) (h : ¬ RestRead cs content) :
    given (calls t (cs ++ [c]) (start content)) <+: content := by
  rw [calls_partial t ht cs c content h]
  exact expected_prefix _ _

/-- **C174.** Read to the end by `read()`, all of the file has been returned. -/
theorem whole (t : ℕ) (ht : 0 < t) (cs : List Call) (content : Bytes) (h : ¬ RestRead cs content) :
    given (calls t (cs ++ [.rest false]) (start content)) = content := by
  rw [calls_partial t ht cs _ content h]
  clear h
  induction cs generalizing content with
  | nil =>
    change given (expected [.rest false] content) = content
    unfold expected
    rw [if_neg (fun g => absurd g.1 (by decide))]
    change content ++ [] = content
    simp
  | cons c cs ih =>
    change given (expected (c :: (cs ++ [.rest false])) content) = content
    unfold expected
    split_ifs
    · exact ih content
    · change piece c content ++ given _ = content
      rw [ih, piece_append]

/-- **C174, negation.** After a successful `read()` each call but `read(0)` raises a `TypeError`, also if there is no message for the end of the file. -/
theorem broken_after_rest (t : ℕ) (msg : Bool) (content : Bytes) (hc : content ≠ []) (c : Call) (hn : ∀ m, c ≠ .count 0 m) :
    calls t [.rest msg, c] (start content) = [.bytes content, .typeError] := by
  have h1 : call t (.rest msg) (start content) = (.bytes content, ⟨.text, []⟩) := by
    change restCall msg ⟨[], content⟩ = _
    unfold restCall
    rw [if_neg (fun g => hc g.2)]; rfl
  have h2 : (call t c ⟨.text, []⟩).1 = .typeError := by
    cases c with
    | line m => rfl
    | count n m => cases n with
      | zero => exact absurd rfl (hn m)
      | succ n => rfl
    | rest m => rfl
  change [(call t (.rest msg) (start content)).1, (call t c (call t (.rest msg) (start content)).2).1] = _
  rw [h1, h2]

/-- The documentation promises an empty result here. -/
theorem line_after_rest_fails : ∃ (content : Bytes) (cs : List Call), calls 257 cs (start content) ≠ expected cs content := by
  refine ⟨"a".toList, [.rest true, .line false], ?_⟩
  rw [broken_after_rest 257 true _ (by decide) _ (by intro m h; cases h)]
  decide

/-- A mixture of calls, with a line which ends within a part and a count which is too large. -/
example : calls 2 [.line true, .count 2 true, .count 9 true, .line false, .rest true] (start "a\r\nbcd\rxyz".toList) =
    [.bytes "a\r\n".toList, .bytes "bc".toList, .ioError, .bytes "d\r".toList, .bytes "xyz".toList] := by
  have h := calls_partial 2 (by decide) [.line true, .count 2 true, .count 9 true, .line false] (.rest true) "a\r\nbcd\rxyz".toList
    (by simp [RestRead, Refused, piece, firstLine])
  exact h.trans (by decide)

end PyX.Eps.Calls
