import Verif.Text.MonitorProps

/-!
# C138: timeouts, and why there is a thread
-/

set_option linter.unusedSectionVars false

namespace PyX.Monitor

variable {L : Type}

/-! ## Executions with timeouts -/

/-- The states which can be reached with timeouts. -/
inductive ReachT (has : L → ℕ → Bool) (icap cap : ℕ) (replies : List (List (List L))) (final : List L) : State L → Prop
  | start : ReachT has icap cap replies final (initial replies final)
  | next {a s s'} (h : ReachT has icap cap replies final s) (hs : act has icap cap a s = some s') :
      ReachT has icap cap replies final s'

variable {has : L → ℕ → Bool} {icap cap : ℕ} {replies : List (List (List L))} {final : List L} {s : State L}

theorem reachT_inv (h : ReachT has icap cap replies final s) : InvA replies final s ∧ InvT s := by
  induction h with
  | start => exact ⟨invA_initial _ _, invT_initial _ _⟩
  | @next a s s' _ hs ih =>
    obtain ⟨h1, h2⟩ := ih
    by_cases ha : a = .timeout
    · subst ha
      simp only [act, mainAct] at hs
      split at hs
      case h_8 hm =>
        split at hs
        · cases hs
        · cases hs
          obtain ⟨hk, hf⟩ := h1.a1 (by simp [hm, executing])
          exact ⟨⟨h1.fin, h1.rest, by simp, fun _ => ⟨hk, hf⟩, by simp, by simp [ending]⟩,
            ⟨fun _ _ => h2.t0 (by simp [hm, ending]) (by simp [hm]), by simp [ending],
              fun _ _ _ => h2.tw (by simp [hm]) (by simp [hm]) (by simp [hm]), h2.td, h2.rp, by simp⟩⟩
      all_goals simp_all
    · have hst := step_of_act hs ha
      exact ⟨invA_step hst h1 h2, invT_step hst h2⟩

/-- **C138 (nothing is lost by timeouts).** Whatever TeX answers, whether it writes the markers or not, and
whether there are timeouts or not: when the main thread gets to its end, it has read everything TeX has
written, once and in its order. -/
theorem read_all_timeout (h : ReachT has icap cap replies final s) (hm : s.mpc = .finished) :
    got s = out replies replies.length ++ final := by
  obtain ⟨h1, h2⟩ := reachT_inv h
  obtain ⟨hk, hf⟩ := h1.a3 (by simp [hm, ending])
  obtain ⟨hd, hp⟩ := h2.rp (.inr (.inr (h2.re (.inr hm))))
  obtain ⟨ht, hpe⟩ := h2.td hd
  rw [hk] at hf
  rw [← hf]
  have hr : inflight s.rpc = [] := by rcases h2.re (.inr hm) with hr | hr <;> simp [hr, inflight]
  rcases h2.t3 (by simp [hm, ending]) with ⟨h5, _⟩ | ⟨_, h5, h6⟩
  · rw [ht] at h5; cases h5
  · simp [flow, coming, hr, hp, hpe, h5, h6]

theorem reachT_acts (l : List Act) {t : State L} (h : ReachT has icap cap replies final s)
    (hs : acts has icap cap l s = some t) : ReachT has icap cap replies final t := by
  induction l generalizing s with
  | nil => cases hs; exact h
  | cons a l ih =>
    rw [acts, Option.bind_eq_some_iff] at hs
    obtain ⟨u, hu, hs⟩ := hs
    exact ih (.next h hu) hs

theorem reach_acts (l : List Act) {t : State L} (hl : ∀ a ∈ l, a ≠ .timeout) (h : Reach has icap cap replies final s)
    (hs : acts has icap cap l s = some t) : Reach has icap cap replies final t := by
  induction l generalizing s with
  | nil => cases hs; exact h
  | cons a l ih =>
    rw [acts, Option.bind_eq_some_iff] at hs
    obtain ⟨u, hu, hs⟩ := hs
    exact ih (fun b hb => hl b (List.mem_cons_of_mem _ hb)) (.next h (hl a List.mem_cons_self) hu) hs

/-! ## Concrete executions

The lines are numbers, `100 + k` contains the marker of expression `k`. -/

/-- The marker in the examples. -/
def mark (l k : ℕ) : Bool := l == 100 + k

/-- Two expressions of one chunk each, and the end. -/
def two : List (List (List ℕ)) := [[[1, 100, 5]], [[2, 101]]]

theorem two_marked : Marked mark two := by
  constructor
  · intro k hk
    have : k = 0 ∨ k = 1 := by simp [two] at hk; omega
    rcases this with rfl | rfl <;> decide
  · intro j k hj hk
    have : k = 1 := by simp [two] at hk; omega
    subst this
    have : j = 0 := by omega
    subst this
    decide

/-- The thread reads a line. -/
def oneLine : List Act := [.emit, .line, .fetch, .put, .check]

/-- An execution without timeouts in which line 5, which TeX writes after the marker, is read with the next
expression. -/
def good : List Act :=
  [.expect, .write, .flush, .take] ++ oneLine ++ oneLine ++ [.wait, .get, .get, .readEnd, .expect, .write] ++ oneLine ++
  [.flush, .take] ++ oneLine ++ oneLine ++ [.wait, .get, .get, .get, .readEnd, .expect, .write, .take, .flush] ++ oneLine ++
  [.close, .eof, .fetch, .put, .join, .get, .readEnd]

example : ((acts mark 1 1 good (initial two [3])).map fun s => (s.mpc, s.reads, s.rpc)) =
    some (.finished, [[1, 100], [5, 2, 101], [3]], .closed) := by decide +kernel

/-- The hypotheses of `read_all` and `read_marker` can be met. -/
example : ∃ s, Reach mark 1 1 two [3] s ∧ s.mpc = .finished ∧ s.reads = [[1, 100], [5, 2, 101], [3]] := by
  have h : ((acts mark 1 1 good (initial two [3])).map fun s => (s.mpc, s.reads)) =
    some (.finished, [[1, 100], [5, 2, 101], [3]]) := by decide +kernel
  obtain ⟨s, hs, he⟩ := Option.map_eq_some_iff.mp h
  simp only [Prod.mk.injEq] at he
  exact ⟨s, reach_acts good (by decide) .start hs, he.1, he.2⟩

/-- An execution with a timeout: the marker of expression 0 comes while expression 1 is executed. -/
def late : List Act :=
  [.expect, .write, .flush, .take] ++ oneLine ++ [.timeout, .get, .readEnd, .expect, .write, .flush] ++ oneLine ++
  [.wait, .get, .readEnd]

/-- **C138 (stale marker).** After a timeout, the late marker of the old expression ends the `wait` of the
next expression: `wait` returns `True`, and what is read does not contain the marker of that expression. -/
theorem stale_marker : ∃ s, ReachT mark 1 1 two [3] s ∧ s.reads = [[1], [100]] ∧
    (∀ l ∈ s.reads.flatten, mark l 1 = false) ∧ s.mpc = .expectEnd := by
  have h : ((acts mark 1 1 late (initial two [3])).map fun s => (s.reads, s.mpc)) =
    some ([[1], [100]], .expectEnd) := by decide +kernel
  obtain ⟨s, hs, he⟩ := Option.map_eq_some_iff.mp h
  simp only [Prod.mk.injEq] at he
  refine ⟨s, reachT_acts late .start hs, he.1, ?_, he.2⟩
  rw [he.1]
  decide

/-- **C138 (`queue.Full`).** If TeX writes nothing until the timeout, `expect` of the next expression raises
`queue.Full`. -/
theorem full_after_timeout : ∃ s, ReachT mark 1 1 two [3] s ∧ s.mpc = .full := by
  have h : ((acts mark 1 1 [.expect, .write, .flush, .timeout, .readEnd, .expect] (initial two [3])).map fun s => s.mpc) =
    some .full := by decide +kernel
  obtain ⟨s, hs, he⟩ := Option.map_eq_some_iff.mp h
  exact ⟨s, reachT_acts _ .start hs, he⟩

/-- Three chunks. -/
def chunks : List (List (List ℕ)) := [[[1, 2], [3], [4, 100]]]

/-- **C138 (the thread is needed).** Without the thread, the main thread and TeX can block each other: TeX
cannot write to a full pipe, and the main thread cannot write to TeX. -/
theorem thread_needed : ∃ s, Reach mark 1 1 chunks [] s ∧ s.mpc = .write ∧
    ∀ a ∈ [Act.expect, .write, .flush, .wait, .get, .readEnd, .join, .take, .emit, .close], act mark 1 1 a s = none := by
  have h : ((acts mark 1 1 [.expect, .write, .take, .emit, .write] (initial chunks [])).map fun s =>
      (s.mpc, [Act.expect, .write, .flush, .wait, .get, .readEnd, .join, .take, .emit, .close].all
        fun a => (act mark 1 1 a s).isNone)) = some (.write, true) := by decide +kernel
  obtain ⟨s, hs, he⟩ := Option.map_eq_some_iff.mp h
  simp only [Prod.mk.injEq] at he
  refine ⟨s, reach_acts _ (by decide) .start hs, he.1, ?_⟩
  intro a ha
  have := List.all_eq_true.mp he.2 a ha
  simpa using this

/-! ## `_wait` -/

theorem waitLoop_sum (event : ℕ → Bool) (wait showwait : ℕ) (n waited : ℕ) (hs : Bool) (hw : waited ≤ wait) :
    waited + (waitLoop event wait showwait n waited hs).1.sum ≤ wait := by
  induction n generalizing waited hs with
  | zero => simpa [waitLoop] using hw
  | succ n ih =>
    rw [waitLoop]
    split
    · simp only [List.sum_cons]
      have := ih (waited + if wait - waited > showwait then showwait else wait - waited)
        (event (waited + if wait - waited > showwait then showwait else wait - waited)) (by split <;> omega)
      omega
    · simpa using hw

theorem waitLoop_res (event : ℕ → Bool) (wait showwait : ℕ) (hsw : 0 < showwait) (n waited : ℕ) (hs : Bool)
    (hw : waited ≤ wait) (hn : wait < n + waited) (he : hs = false ∨ hs = event waited) :
    ((waitLoop event wait showwait n waited hs).2 = false → waited + (waitLoop event wait showwait n waited hs).1.sum = wait) ∧
    ((waitLoop event wait showwait n waited hs).2 = true →
      event (waited + (waitLoop event wait showwait n waited hs).1.sum) = true) ∧
    (∀ t ∈ (waitLoop event wait showwait n waited hs).1, 0 < t ∧ t ≤ showwait) := by
  induction n generalizing waited hs with
  | zero => omega
  | succ n ih =>
    rw [waitLoop]
    split
    case isTrue h =>
      obtain ⟨i1, i2, i3⟩ := ih (waited + if wait - waited > showwait then showwait else wait - waited)
        (event (waited + if wait - waited > showwait then showwait else wait - waited)) (by split <;> omega)
        (by split <;> omega) (.inr rfl)
      simp only [List.sum_cons, ← Nat.add_assoc]
      refine ⟨i1, i2, ?_⟩
      intro t ht
      rcases List.mem_cons.mp ht with rfl | ht
      · split <;> omega
      · exact i3 t ht
    case isFalse h =>
      refine ⟨?_, ?_, by simp⟩
      · intro hf
        simp only at hf
        have : ¬ waited < wait := fun hc => h ⟨hc, hf⟩
        simp; omega
      · intro ht
        simp only at ht
        rcases he with he | he
        · rw [he] at ht; cases ht
        · simpa [← he] using ht

/-- **C138 (`_wait`).** `_wait` never waits longer than `wait` seconds altogether, and with `showwait` never
longer than `showwait` seconds without a message; it gives up after exactly `wait` seconds, and it succeeds
only if there is the event. -/
theorem waiting_spec (event : ℕ → Bool) (wait showwait : ℕ) :
    (waiting event wait showwait).1.sum ≤ wait ∧
    (showwait ≠ 0 → ∀ t ∈ (waiting event wait showwait).1, 0 < t ∧ t ≤ showwait) ∧
    ((waiting event wait showwait).2 = false → (waiting event wait showwait).1.sum = wait) ∧
    ((waiting event wait showwait).2 = true → event (waiting event wait showwait).1.sum = true) := by
  by_cases hs : showwait ≠ 0
  · have h : waiting event wait showwait = waitLoop event wait showwait (wait + 1) 0 false := by
      rw [waiting, if_pos hs]
    rw [h]
    have h1 := waitLoop_sum event wait showwait (wait + 1) 0 false (by omega)
    obtain ⟨h2, h3, h4⟩ := waitLoop_res event wait showwait (by omega) (wait + 1) 0 false (by omega) (by omega) (.inl rfl)
    simp only [Nat.zero_add] at h1 h2 h3
    exact ⟨h1, fun _ => h4, h2, h3⟩
  · have h : waiting event wait showwait = ([wait], event wait) := by rw [waiting, if_neg hs]
    rw [h]
    refine ⟨by simp, fun h => absurd h hs, by simp, fun h => by simpa using h⟩

theorem waitLoop_false (event : ℕ → Bool) (wait showwait : ℕ) (hsw : 0 < showwait) (n waited : ℕ) (hs : Bool)
    (hw : waited ≤ wait) (hn : wait < n + waited) (he : waited = wait → hs = event wait)
    (hf : (waitLoop event wait showwait n waited hs).2 = false) : event wait = false := by
  induction n generalizing waited hs with
  | zero => omega
  | succ n ih =>
    rw [waitLoop] at hf
    split at hf
    case isTrue h =>
      refine ih _ _ (by split <;> omega) (by split <;> omega) ?_ hf
      intro hc
      rw [hc]
    case isFalse h =>
      have : waited = wait := by
        by_contra hc
        exact h ⟨by omega, hf⟩
      rw [← he this]; exact hf

/-- **C138 (`_wait` is successful).** If there is the event after `wait` seconds (or at an earlier check),
`_wait` is successful; without `showwait`, and with it if `wait` is not 0. -/
theorem waiting_true (event : ℕ → Bool) (wait showwait : ℕ) (hw : showwait ≠ 0 → 0 < wait) (he : event wait = true) :
    (waiting event wait showwait).2 = true := by
  rw [waiting]
  split
  case isTrue h =>
    by_contra hc
    have := waitLoop_false event wait showwait (by omega) (wait + 1) 0 false (by omega) (by omega)
      (fun h0 => by have := hw h; omega) (by simpa using hc)
    rw [he] at this; cases this
  case isFalse h => exact he

/-- **C138 (`wait` 0).** With `wait` 0 and `showwait` not 0, `_wait` is never successful, not even if there
is the event already. -/
theorem wait_zero (event : ℕ → Bool) (showwait : ℕ) (hs : showwait ≠ 0) : waiting event 0 showwait = ([], false) := by
  rw [waiting, if_pos hs]
  simp [waitLoop]

example : waiting (fun t => decide (12 ≤ t)) 60 5 = ([5, 5, 5], true) := by decide
example : waiting (fun _ => false) 12 5 = ([5, 5, 2], false) := by decide

end PyX.Monitor
