import Verif.Text.MonitorEnd

/-!
# C138: the output of TeX is read completely and in time, in all executions
-/

set_option linter.unusedSectionVars false

namespace PyX.Monitor

variable {L : Type}

/-- The states which can be reached without a timeout. -/
inductive Reach (has : L → ℕ → Bool) (icap cap : ℕ) (replies : List (List (List L))) (final : List L) : State L → Prop
  | start : Reach has icap cap replies final (initial replies final)
  | next {a s s'} (h : Reach has icap cap replies final s) (ha : a ≠ .timeout) (hs : act has icap cap a s = some s') :
      Reach has icap cap replies final s'

variable {has : L → ℕ → Bool} {icap cap : ℕ} {replies : List (List (List L))} {final : List L} {s : State L}

/-- All the invariants. -/
theorem reach_inv (mk : Marked has replies) (h : Reach has icap cap replies final s) :
    InvA replies final s ∧ InvT s ∧ InvE has s ∧ InvR has replies s := by
  induction h with
  | start => exact ⟨invA_initial _ _, invT_initial _ _, invE_initial _ _ _, invR_initial _ _ _⟩
  | next _ ha hs ih =>
    obtain ⟨h1, h2, h3, h4⟩ := ih
    have hst := step_of_act hs ha
    exact ⟨invA_step hst h1 h2, invT_step hst h2, invE_step mk hst h1 h2 h3, invR_step hst h1 h3 h4⟩

/-- **C138 (no exception).** In no execution without timeouts does `expect` raise `queue.Full`, and in none
does the thread raise a `ValueError`. -/
theorem never_fails (mk : Marked has replies) (h : Reach has icap cap replies final s) :
    s.mpc ≠ .full ∧ s.rpc ≠ .raised :=
  ⟨(reach_inv mk h).2.2.1.nf, (reach_inv mk h).2.2.1.nr⟩

/-- **C138 (nothing is lost).** In every state, what has been read, what can be read and what is on the way
is exactly what TeX answers to the expressions so far, in the order of TeX. -/
theorem all_lines (mk : Marked has replies) (h : Reach has icap cap replies final s) :
    flow s = out replies s.k ∨ (executing s.mpc = true ∧ flow s = out replies (s.k + 1)) ∨
    (ending s.mpc = true ∧ flow s = out replies replies.length ++ final) := by
  obtain ⟨h1, _, h3, _⟩ := reach_inv mk h
  have hm := h3.nf
  cases hc : s.mpc with
  | expect => exact .inl (h1.a0 hc).2
  | expectEnd => exact .inl (h1.a2 hc).2
  | full => exact absurd hc hm
  | write => exact .inr (.inl ⟨rfl, (h1.a1 (by simp [hc, executing])).2⟩)
  | wait => exact .inr (.inl ⟨rfl, (h1.a1 (by simp [hc, executing])).2⟩)
  | read => exact .inr (.inl ⟨rfl, (h1.a1 (by simp [hc, executing])).2⟩)
  | writeEnd => have := h1.a3 (by simp [hc, ending]); exact .inr (.inr ⟨rfl, this.1 ▸ this.2⟩)
  | join => have := h1.a3 (by simp [hc, ending]); exact .inr (.inr ⟨rfl, this.1 ▸ this.2⟩)
  | readEnd => have := h1.a3 (by simp [hc, ending]); exact .inr (.inr ⟨rfl, this.1 ▸ this.2⟩)
  | finished => have := h1.a3 (by simp [hc, ending]); exact .inr (.inr ⟨rfl, this.1 ▸ this.2⟩)

/-- **C138 (the marker is read).** In every execution, what has been read after expression `i` is all what
TeX answered to the expressions before, and the answer to expression `i` up to its marker at least; what has
not been read then is a final part of the answer to expression `i`. -/
theorem read_marker (mk : Marked has replies) (h : Reach has icap cap replies final s) (i : ℕ)
    (hi : i < replies.length) (hr : i < s.reads.length) :
    ∃ a b, (s.reads.take (i + 1)).flatten = out replies i ++ a ∧ answer replies i = a ++ b ∧
      ∃ l ∈ a, has l i = true := by
  obtain ⟨_, _, _, h4⟩ := reach_inv mk h
  obtain ⟨⟨t, ht⟩, l, hl, hh⟩ := h4.pre i hi hr
  rw [out_succ _ _ hi] at ht
  rcases List.append_eq_append_iff.mp ht with ⟨a, ha, hb⟩ | ⟨a, ha, hb⟩
  · have : l ∈ out replies i := by rw [ha]; exact List.mem_append_left _ hl
    obtain ⟨j, hj, hl'⟩ := mem_out _ _ _ this
    rw [mk.later j i hj hi l hl'] at hh
    cases hh
  · refine ⟨a, t, ha, hb, l, ?_, hh⟩
    rw [ha, List.mem_append] at hl
    rcases hl with hl | hl
    · obtain ⟨j, hj, hl'⟩ := mem_out _ _ _ hl
      rw [mk.later j i hj hi l hl'] at hh
      cases hh
    · exact hl

/-- **C138 (all is read).** When the main thread has finished, it has read once per expression and once at
the end, and altogether everything TeX has written, in its order. -/
theorem read_all (mk : Marked has replies) (h : Reach has icap cap replies final s) (hm : s.mpc = .finished) :
    s.reads.flatten ++ s.buf ++ s.outq = out replies replies.length ++ final ∧ s.rpc = .closed := by
  obtain ⟨h1, h2, h3, _⟩ := reach_inv mk h
  obtain ⟨hk, hf⟩ := h1.a3 (by simp [hm, ending])
  have hr : s.rpc = .closed := by
    rcases h2.re (.inr hm) with hr | hr
    · exact hr
    · exact absurd hr h3.nr
  obtain ⟨hd, hp⟩ := h2.rp (.inr (.inr (.inl hr)))
  obtain ⟨ht, hpe⟩ := h2.td hd
  refine ⟨?_, hr⟩
  rw [hk] at hf
  rw [← hf]
  rcases h2.t3 (by simp [hm, ending]) with ⟨h5, _⟩ | ⟨_, h5, h6⟩
  · rw [ht] at h5; cases h5
  · simp [flow, got, coming, hr, inflight, hp, hpe, h5, h6]

/-! ## No deadlock -/

theorem reader_or_tex (hc : 0 < cap) (hn : s.rpc ≠ .raised) (hcl : s.rpc ≠ .closed)
    (h : s.pipe ≠ [] ∨ s.pending ≠ [] ∨ s.texin ≠ [] ∨ (∃ l, l ∈ current s.rpc) ∨ s.tend = true) :
    ∃ a s', a ≠ .timeout ∧ act has icap cap a s = some s' := by
  cases hr : s.rpc with
  | closed => exact absurd hr hcl
  | raised => exact absurd hr hn
  | fetch l => exact ⟨.fetch, _, by simp, by simp only [act, readerAct, hr]; rfl⟩
  | put l =>
    cases l with
    | none => exact ⟨.put, _, by simp, by simp only [act, readerAct, hr]; rfl⟩
    | some l => exact ⟨.put, _, by simp, by simp only [act, readerAct, hr]; rfl⟩
  | check l => exact ⟨.check, _, by simp, by simp only [act, readerAct, hr]; rfl⟩
  | reading =>
    cases hp : s.pipe with
    | cons l p => exact ⟨.line, _, by simp, by simp only [act, readerAct, hr, hp]; rfl⟩
    | nil =>
      cases hpe : s.pending with
      | cons l p =>
        exact ⟨.emit, _, by simp, by simp only [act, texAct, hpe, hp]; rw [if_pos (by simpa using hc)]⟩
      | nil =>
        cases htt : s.tend with
        | false =>
          cases hi : s.texin with
          | cons c w => exact ⟨.take, _, by simp, by simp only [act, texAct, hpe, htt, hi]; rw [if_pos (by simp)]⟩
          | nil => exfalso; simp [hp, hpe, hi, hr, current, htt] at h
        | true =>
          cases hd : s.texdone with
          | false => exact ⟨.close, _, by simp, by simp only [act, texAct, hpe, htt, hd]; rw [if_pos (by simp)]⟩
          | true => exact ⟨.eof, _, by simp, by simp only [act, readerAct, hr, hp, hd]; rw [if_pos (by simp)]⟩

/-- **C138 (no deadlock).** As long as the main thread has not finished, one of the three can act, however
small the pipes are and however long the answers. -/
theorem no_deadlock (mk : Marked has replies) (hi : 0 < icap) (hc : 0 < cap)
    (h : Reach has icap cap replies final s) (hm : s.mpc ≠ .finished) :
    ∃ a s', a ≠ .timeout ∧ act has icap cap a s = some s' := by
  obtain ⟨h1, h2, h3, _⟩ := reach_inv mk h
  have closedEnd : s.rpc = .closed → ending s.mpc = true := by
    intro hr
    by_contra he
    have := (h2.t0 (by simpa using he) h3.nf).1
    rw [(h2.td (h2.rp (.inr (.inr (.inl hr)))).1).1] at this
    cases this
  have writing : s.mpc = .write ∨ s.mpc = .writeEnd → ∃ a s', a ≠ .timeout ∧ act has icap cap a s = some s' := by
    intro hm
    cases hw : s.towrite with
    | nil =>
      rcases hm with hm | hm
      · exact ⟨.flush, _, by simp, by simp only [act, mainAct, hm, hw]; rw [if_pos trivial]⟩
      · exact ⟨.flush, _, by simp, by simp only [act, mainAct, hm, hw]; rw [if_pos trivial]⟩
    | cons c w =>
      by_cases hl : s.texin.length < icap
      · rcases hm with hm | hm
        · exact ⟨.write, _, by simp, by simp only [act, mainAct, hm, writeChunk, hw]; rw [if_pos hl]⟩
        · exact ⟨.write, _, by simp, by simp only [act, mainAct, hm, writeChunk, hw]; rw [if_pos hl]⟩
      · have hne : s.texin ≠ [] := by
          intro h0
          rw [h0] at hl
          exact hl (by simpa using hi)
        have hcl : s.rpc ≠ .closed := by
          intro hr
          rcases h2.t3 (closedEnd hr) with ⟨h5, _⟩ | ⟨_, h5, _⟩
          · rw [(h2.td (h2.rp (.inr (.inr (.inl hr)))).1).1] at h5; cases h5
          · exact hne h5
        exact reader_or_tex hc h3.nr hcl (.inr (.inr (.inl hne)))
  cases hmm : s.mpc with
  | full => exact absurd hmm h3.nf
  | finished => exact absurd hmm hm
  | expect => exact ⟨.expect, _, by simp, by simp only [act, mainAct, hmm]; rfl⟩
  | expectEnd => exact ⟨.expect, _, by simp, by simp only [act, mainAct, hmm]; rfl⟩
  | write => exact writing (.inl hmm)
  | writeEnd => exact writing (.inr hmm)
  | wait =>
    rcases h3.e1 (.inr hmm) with ⟨_, _, l, hl, _⟩ | ⟨hr, _⟩
    · refine reader_or_tex hc h3.nr ?_ ?_
      · intro hr
        have := closedEnd hr
        simp [hmm, ending] at this
      · have hw := h2.tw (by simp [hmm]) (by simp [hmm]) (by simp [hmm])
        by_contra hcon
        push Not at hcon
        obtain ⟨g1, g2, g3, g4, _⟩ := hcon
        simp only [coming, g1, g2, g3, hw, List.mem_append] at hl
        rcases hl with hl | hl
        · exact g4 l hl
        · simp at hl
    · exact ⟨.wait, _, by simp, by simp only [act, mainAct, hmm, hr]; rfl⟩
  | join =>
    by_cases hr : s.rpc = .closed
    · exact ⟨.join, _, by simp, by simp only [act, mainAct, hmm, hr]; rfl⟩
    · refine reader_or_tex hc h3.nr hr ?_
      have hw := h2.tw (by simp [hmm]) (by simp [hmm]) (by simp [hmm])
      rcases h2.t3 (by simp [hmm, ending]) with ⟨_, pre, r, h5, _⟩ | ⟨h5, _⟩
      · refine .inr (.inr (.inl ?_))
        intro h0
        simp [h0, hw] at h5
      · exact .inr (.inr (.inr (.inr h5)))
  | read =>
    cases ho : s.outq with
    | nil => exact ⟨.readEnd, _, by simp, by simp only [act, mainAct, hmm, ho]; rw [if_pos trivial]⟩
    | cons l q => exact ⟨.get, _, by simp, by simp only [act, mainAct, hmm, ho]; rfl⟩
  | readEnd =>
    cases ho : s.outq with
    | nil => exact ⟨.readEnd, _, by simp, by simp only [act, mainAct, hmm, ho]; rw [if_pos trivial]⟩
    | cons l q => exact ⟨.get, _, by simp, by simp only [act, mainAct, hmm, ho]; rfl⟩

/-! ## All executions end -/

/-- The work for some chunks. -/
def chunkWork (c : List (List L)) : ℕ := (c.map fun r => 2 + 7 * r.length).sum

/-- The work for the following expressions. -/
def futureWork (e : List (List (List L))) : ℕ := (e.map fun c => 6 + chunkWork c).sum

/-- The work which is left for the main thread. -/
def mainWork (s : State L) : ℕ :=
  match s.mpc with
  | .expect => 6 + chunkWork (s.rest.headD []) + futureWork s.rest.tail + (9 + 7 * s.final.length)
  | .write => 3 + futureWork s.rest.tail + (9 + 7 * s.final.length)
  | .wait => 2 + futureWork s.rest.tail + (9 + 7 * s.final.length)
  | .read => 1 + futureWork s.rest.tail + (9 + 7 * s.final.length)
  | .expectEnd => 9 + 7 * s.final.length
  | .writeEnd => 4
  | .join => 3
  | .readEnd => 2
  | .finished => 1
  | .full => 0

/-- The work which is left for the thread. -/
def readerWork : ReadPc L → ℕ
  | .reading => 3
  | .fetch none => 2
  | .put none => 1
  | .closed => 0
  | .raised => 0
  | .fetch (some _) => 8
  | .put (some _) => 7
  | .check _ => 5

/-- The work which is left. -/
def work (s : State L) : ℕ :=
  mainWork s + readerWork s.rpc + s.outq.length + 6 * s.pipe.length + 7 * s.pending.length +
    (s.texin.map fun c => 1 + 7 * c.2.length).sum + (s.towrite.map fun c => 2 + 7 * c.2.length).sum +
    (if s.texdone then 0 else 1)

/-- The work decreases with each action. -/
theorem work_decreases {s s' : State L} (h : Step has icap cap s s') (hw : s.mpc = .expect ∨ s.mpc = .expectEnd → s.towrite = []) :
    work s' < work s := by
  cases h
  case expect hm hq =>
    simp only [work, mainWork, hm, hw (.inl hm), List.map_map, Function.comp_def, chunkWork, List.map_nil, List.sum_nil]
    omega
  case expectEnd hm hq =>
    simp only [work, mainWork, hm, hw (.inr hm), List.map_nil, List.sum_nil, List.map_cons, List.sum_cons]
    omega
  case full hm hq =>
    rcases hm with hm | hm
    · simp only [work, mainWork, hm]; omega
    · simp only [work, mainWork, hm]; omega
  case write c w hm hwr hi =>
    have : mainWork { s with texin := s.texin ++ [c], towrite := w } = mainWork s := rfl
    simp only [work, this, hwr, List.map_append, List.sum_append, List.map_cons, List.sum_cons, List.map_nil, List.sum_nil]
    omega
  case flush hm hwr => simp only [work, mainWork, hm]; omega
  case flushEnd hm hwr => simp only [work, mainWork, hm]; omega
  case wait hm hr => simp only [work, mainWork, hm]; omega
  case join hm hr => simp only [work, mainWork, hm]; omega
  case get l q hm ho =>
    have : mainWork { s with outq := q, buf := s.buf ++ [l] } = mainWork s := rfl
    simp only [work, this, ho, List.length_cons]
    omega
  case readEnd hm ho =>
    have : mainWork (nextExpr s) < mainWork s := by
      simp only [mainWork, nextExpr, hm]
      cases hr : s.rest.tail with
      | nil => simp [futureWork]
      | cons e t =>
        simp only [reduceCtorEq, if_false, List.headD_cons, List.tail_cons, futureWork, List.map_cons, List.sum_cons]
        omega
    have h2 : work (nextExpr s) + mainWork s = work s + mainWork (nextExpr s) := by
      cases hd : s.texdone <;> simp only [work, nextExpr, hd, reduceIte, Bool.false_eq_true] <;> omega
    omega
  case finish hm ho => simp only [work, mainWork, hm]; omega
  case line l p hr hp =>
    have : mainWork { s with pipe := p, rpc := .fetch (some l) } = mainWork s := rfl
    simp only [work, this, hr, hp, readerWork, List.length_cons]
    omega
  case eof hr hp hd =>
    have : mainWork { s with rpc := .fetch none } = mainWork s := rfl
    simp only [work, this, hr, readerWork]
    omega
  case fetch l e hr he hq =>
    have : mainWork { s with rexp := e, queue := none, rpc := .put l } = mainWork s := rfl
    cases l <;> simp only [work, this, hr, readerWork] <;> omega
  case nofetch l hr he =>
    have : mainWork { s with rpc := .put l } = mainWork s := rfl
    cases l <;> simp only [work, this, hr, readerWork] <;> omega
  case put l hr =>
    have : mainWork { s with outq := s.outq ++ [l], rpc := .check l } = mainWork s := rfl
    simp only [work, this, hr, readerWork, List.length_append, List.length_singleton]
    omega
  case closed hr he =>
    have : mainWork { s with rpc := .closed } = mainWork s := rfl
    simp only [work, this, hr, readerWork]
    omega
  case raised hr he =>
    have : mainWork { s with rpc := .raised } = mainWork s := rfl
    simp only [work, this, hr, readerWork]
    omega
  case found l n hr he hl =>
    have : mainWork { s with received := true, rexp := none, rpc := .reading } = mainWork s := rfl
    simp only [work, this, hr, readerWork]
    omega
  case notfound l hr hl =>
    have : mainWork { s with rpc := .reading } = mainWork s := rfl
    simp only [work, this, hr, readerWork]
    omega
  case take e r c hp ht hi =>
    have : mainWork { s with texin := c, pending := r, tend := e } = mainWork s := rfl
    simp only [work, this, hp, hi, List.map_cons, List.sum_cons, List.length_nil]
    omega
  case emit l p hp hc =>
    have : mainWork { s with pending := p, pipe := s.pipe ++ [l] } = mainWork s := rfl
    simp only [work, this, hp, List.length_append, List.length_cons, List.length_nil]
    omega
  case close ht hp hd =>
    have : mainWork { s with texdone := true } = mainWork s := rfl
    simp only [work, this, hd]
    simp

/-- **C138 (all executions end).** There is no infinite execution without timeouts. -/
theorem no_infinite (mk : Marked has replies) (f : ℕ → State L) (h0 : f 0 = initial replies final) :
    ¬ ∀ n, ∃ a, a ≠ .timeout ∧ act has icap cap a (f n) = some (f (n + 1)) := by
  intro h
  have hr : ∀ n, Reach has icap cap replies final (f n) := by
    intro n
    induction n with
    | zero => rw [h0]; exact .start
    | succ n ih =>
      obtain ⟨a, ha, hs⟩ := h n
      exact .next ih ha hs
  have hd : ∀ n, work (f n) + n ≤ work (f 0) := by
    intro n
    induction n with
    | zero => simp
    | succ n ih =>
      obtain ⟨a, ha, hs⟩ := h n
      have hti := (reach_inv mk (hr n)).2.1
      have := work_decreases (step_of_act hs ha) (fun hm => hti.tw (by rcases hm with hm | hm <;> simp [hm])
        (by rcases hm with hm | hm <;> simp [hm]) (by rcases hm with hm | hm <;> simp [hm]))
      omega
  have := hd (work (f 0) + 1)
  omega

/-- **C138 (success).** An execution without timeouts which cannot be continued has finished, and has read
everything TeX has written. -/
theorem maximal (mk : Marked has replies) (hi : 0 < icap) (hc : 0 < cap) (h : Reach has icap cap replies final s)
    (hmax : ∀ a s', a ≠ .timeout → act has icap cap a s ≠ some s') :
    s.mpc = .finished ∧ got s = out replies replies.length ++ final := by
  by_cases hm : s.mpc = .finished
  · exact ⟨hm, (read_all mk h hm).1⟩
  · obtain ⟨a, s', ha, hs⟩ := no_deadlock mk hi hc h hm
    exact absurd hs (hmax a s' ha)

end PyX.Monitor
