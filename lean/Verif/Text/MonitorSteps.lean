import Verif.Text.Monitor
import Mathlib.Tactic.Cases
import Mathlib.Tactic.Common

/-!
# C138: the actions as a relation, and invariants
-/

set_option linter.unusedSectionVars false

namespace PyX.Monitor

variable {L : Type}

/-- What one action which is no timeout does. -/
inductive Step (has : L → ℕ → Bool) (icap cap : ℕ) : State L → State L → Prop
  | expect (s) (hm : s.mpc = .expect) (hq : s.queue = none) :
      Step has icap cap s { s with queue := some (some s.k),
                                   towrite := (s.rest.headD []).map fun r => (false, r), mpc := .write }
  | expectEnd (s) (hm : s.mpc = .expectEnd) (hq : s.queue = none) :
      Step has icap cap s { s with queue := some none, towrite := [(true, s.final)], mpc := .writeEnd }
  | full (s) (hm : s.mpc = .expect ∨ s.mpc = .expectEnd) (hq : s.queue ≠ none) :
      Step has icap cap s { s with mpc := .full }
  | write (s) (c w) (hm : s.mpc = .write ∨ s.mpc = .writeEnd) (hw : s.towrite = c :: w) (hi : s.texin.length < icap) :
      Step has icap cap s { s with texin := s.texin ++ [c], towrite := w }
  | flush (s) (hm : s.mpc = .write) (hw : s.towrite = []) : Step has icap cap s { s with mpc := .wait }
  | flushEnd (s) (hm : s.mpc = .writeEnd) (hw : s.towrite = []) : Step has icap cap s { s with mpc := .join }
  | wait (s) (hm : s.mpc = .wait) (hr : s.received = true) :
      Step has icap cap s { s with received := false, mpc := .read }
  | join (s) (hm : s.mpc = .join) (hr : s.rpc = .closed ∨ s.rpc = .raised) : Step has icap cap s { s with mpc := .readEnd }
  | get (s) (l q) (hm : s.mpc = .read ∨ s.mpc = .readEnd) (ho : s.outq = l :: q) :
      Step has icap cap s { s with outq := q, buf := s.buf ++ [l] }
  | readEnd (s) (hm : s.mpc = .read) (ho : s.outq = []) : Step has icap cap s (nextExpr s)
  | finish (s) (hm : s.mpc = .readEnd) (ho : s.outq = []) :
      Step has icap cap s { s with reads := s.reads ++ [s.buf], buf := [], mpc := .finished }
  | line (s) (l p) (hr : s.rpc = .reading) (hp : s.pipe = l :: p) :
      Step has icap cap s { s with pipe := p, rpc := .fetch (some l) }
  | eof (s) (hr : s.rpc = .reading) (hp : s.pipe = []) (hd : s.texdone = true) :
      Step has icap cap s { s with rpc := .fetch none }
  | fetch (s) (l e) (hr : s.rpc = .fetch l) (he : s.rexp = none) (hq : s.queue = some e) :
      Step has icap cap s { s with rexp := e, queue := none, rpc := .put l }
  | nofetch (s) (l) (hr : s.rpc = .fetch l) (he : s.rexp ≠ none ∨ s.queue = none) :
      Step has icap cap s { s with rpc := .put l }
  | put (s) (l) (hr : s.rpc = .put (some l)) :
      Step has icap cap s { s with outq := s.outq ++ [l], rpc := .check l }
  | closed (s) (hr : s.rpc = .put none) (he : s.rexp = none) : Step has icap cap s { s with rpc := .closed }
  | raised (s) (hr : s.rpc = .put none) (he : s.rexp ≠ none) : Step has icap cap s { s with rpc := .raised }
  | found (s) (l n) (hr : s.rpc = .check l) (he : s.rexp = some n) (hl : has l n = true) :
      Step has icap cap s { s with received := true, rexp := none, rpc := .reading }
  | notfound (s) (l) (hr : s.rpc = .check l) (hl : ∀ n, s.rexp = some n → has l n = false) :
      Step has icap cap s { s with rpc := .reading }
  | take (s) (e r c) (hp : s.pending = []) (ht : s.tend = false) (hi : s.texin = (e, r) :: c) :
      Step has icap cap s { s with texin := c, pending := r, tend := e }
  | emit (s) (l p) (hp : s.pending = l :: p) (hc : s.pipe.length < cap) :
      Step has icap cap s { s with pending := p, pipe := s.pipe ++ [l] }
  | close (s) (ht : s.tend = true) (hp : s.pending = []) (hd : s.texdone = false) :
      Step has icap cap s { s with texdone := true }

/-- Every action which is no timeout is a step. -/
theorem step_of_act {has : L → ℕ → Bool} {icap cap : ℕ} {a : Act} {s s' : State L}
    (h : act has icap cap a s = some s') (ha : a ≠ .timeout) : Step has icap cap s s' := by
  cases a <;> simp only [act, mainAct, readerAct, texAct] at h
  case timeout => exact absurd rfl ha
  case expect =>
    split at h
    case h_1 hm =>
      cases h
      rw [putExpect]; split
      · exact .expect s hm ‹_›
      · exact .full s (.inl hm) (by simp_all)
    case h_2 hm =>
      cases h
      rw [putExpect]; split
      · exact .expectEnd s hm ‹_›
      · exact .full s (.inr hm) (by simp_all)
    all_goals simp_all
  case write =>
    split at h
    case h_3 hm =>
      rw [writeChunk] at h
      split at h <;> try cases h
      split at h <;> cases h
      exact .write s _ _ (.inl hm) ‹_› ‹_›
    case h_4 hm =>
      rw [writeChunk] at h
      split at h <;> try cases h
      split at h <;> cases h
      exact .write s _ _ (.inr hm) ‹_› ‹_›
    all_goals simp_all
  case flush =>
    split at h <;> simp_all
    · obtain ⟨h1, rfl⟩ := h; simpa [h1] using Step.flush (has := has) (icap := icap) (cap := cap) s ‹_› h1
    · obtain ⟨h1, rfl⟩ := h; simpa [h1] using Step.flushEnd (has := has) (icap := icap) (cap := cap) s ‹_› h1
  case wait =>
    split at h <;> simp_all
    obtain ⟨h1, rfl⟩ := h; exact .wait s ‹_› h1
  case get =>
    split at h
    case h_10 hm =>
      split at h <;> cases h
      exact .get s _ _ (.inl hm) ‹_›
    case h_11 hm =>
      split at h <;> cases h
      exact .get s _ _ (.inr hm) ‹_›
    all_goals simp_all
  case readEnd =>
    split at h <;> simp_all
    · obtain ⟨h1, rfl⟩ := h; exact .readEnd s ‹_› h1
    · obtain ⟨h1, rfl⟩ := h; simpa [h1] using Step.finish (has := has) (icap := icap) (cap := cap) s ‹_› h1
  case join =>
    split at h <;> simp_all
    split at h <;> simp_all
    · subst h; simpa [*] using Step.join (has := has) (icap := icap) (cap := cap) s ‹_› (.inl ‹_›)
    · subst h; simpa [*] using Step.join (has := has) (icap := icap) (cap := cap) s ‹_› (.inr ‹_›)
  case line =>
    split at h <;> simp_all
    split at h <;> simp_all
    subst h; exact .line s _ _ ‹_› ‹_›
  case eof =>
    split at h <;> simp_all
    obtain ⟨h1, rfl⟩ := h
    simpa [h1] using Step.eof (has := has) (icap := icap) (cap := cap) s ‹_› h1.1 h1.2
  case fetch =>
    split at h <;> simp_all
    subst h
    rw [fetchExpect]; split
    · exact .fetch s _ _ ‹_› ‹_› ‹_›
    · refine .nofetch s _ ‹_› ?_
      rcases hx : s.rexp with _ | x
      · rcases hq : s.queue with _ | q
        · exact .inr rfl
        · exfalso; simp_all
      · exact .inl (by simp)
  case put =>
    split at h <;> simp_all
    · subst h; exact .put s _ ‹_›
    · subst h; split
      · exact .closed s ‹_› ‹_›
      · exact .raised s ‹_› ‹_›
  case check =>
    split at h <;> simp_all
    subst h
    rw [search]; split
    · split
      · exact .found s _ _ ‹_› ‹_› ‹_›
      · exact .notfound s _ ‹_› (by simp_all)
    · exact .notfound s _ ‹_› (by simp_all)
  case take =>
    split at h <;> simp_all
    split at h <;> simp_all
    subst h; exact .take s _ _ _ (by simp_all) (by simp_all) ‹_›
  case emit =>
    split at h <;> simp_all
    obtain ⟨h1, rfl⟩ := h; exact .emit s _ _ ‹_› h1
  case close =>
    split at h <;> simp_all
    subst h
    rename_i hh
    simpa [hh] using Step.close (has := has) (icap := icap) (cap := cap) s hh.1 hh.2.1 hh.2.2

end PyX.Monitor
