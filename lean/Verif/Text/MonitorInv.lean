import Verif.Text.MonitorSteps

/-!
# C138: invariants of all executions without timeouts
-/

set_option linter.unusedSectionVars false

namespace PyX.Monitor

variable {L : Type}

/-- What TeX answers to expression `k`. -/
def answer (replies : List (List (List L))) (k : ℕ) : List L := (replies.getD k []).flatten

/-- What TeX answers to the first `k` expressions. -/
def out (replies : List (List (List L))) (k : ℕ) : List L := ((replies.take k).map List.flatten).flatten

theorem out_succ (replies : List (List (List L))) (k : ℕ) (h : k < replies.length) :
    out replies (k + 1) = out replies k ++ answer replies k := by
  rw [out, out, answer, List.take_add_one, List.map_append, List.flatten_append, List.getD_eq_getElem?_getD]
  rw [List.getElem?_eq_getElem h]
  simp

theorem mem_out (replies : List (List (List L))) (k : ℕ) (l : L) (h : l ∈ out replies k) :
    ∃ j < k, l ∈ answer replies j := by
  induction k with
  | zero => simp [out] at h
  | succ k ih =>
    by_cases hk : k < replies.length
    · rw [out_succ _ _ hk, List.mem_append] at h
      rcases h with h | h
      · obtain ⟨j, hj, h⟩ := ih h
        exact ⟨j, by omega, h⟩
      · exact ⟨k, by omega, h⟩
    · have : out replies (k + 1) = out replies k := by
        rw [out, out, List.take_of_length_le (by omega), List.take_of_length_le (by omega)]
      rw [this] at h
      obtain ⟨j, hj, h⟩ := ih h
      exact ⟨j, by omega, h⟩

/-- The line the thread has read and not yet put. -/
def inflight : ReadPc L → List L
  | .fetch (some l) => [l]
  | .put (some l) => [l]
  | _ => []

/-- The line the thread has read and not yet searched. -/
def current : ReadPc L → List L
  | .fetch (some l) => [l]
  | .put (some l) => [l]
  | .check l => [l]
  | _ => []

/-- What the main thread has or can get. -/
def got (s : State L) : List L := s.reads.flatten ++ s.buf ++ s.outq

/-- What is still to come from TeX. -/
def coming (s : State L) : List L :=
  s.pipe ++ s.pending ++ (s.texin.map (·.2)).flatten ++ (s.towrite.map (·.2)).flatten

/-- All lines, in their order. -/
def flow (s : State L) : List L := got s ++ (inflight s.rpc ++ coming s)

/-- The phases of the main thread: an expression being executed. -/
def executing (m : MainPc) : Bool := m == .write || m == .wait || m == .read

/-- … the end being executed -/
def ending (m : MainPc) : Bool := m == .writeEnd || m == .join || m == .readEnd || m == .finished

/-- The flow of lines. -/
structure InvA (replies : List (List (List L))) (final : List L) (s : State L) : Prop where
  fin : s.final = final
  rest : s.rest = replies.drop s.k
  a0 : s.mpc = .expect → s.k < replies.length ∧ flow s = out replies s.k
  a1 : executing s.mpc = true → s.k < replies.length ∧ flow s = out replies (s.k + 1)
  a2 : s.mpc = .expectEnd → s.k = replies.length ∧ flow s = out replies s.k
  a3 : ending s.mpc = true → s.k = replies.length ∧ flow s = out replies s.k ++ final

/-- The end of TeX. -/
structure InvT (s : State L) : Prop where
  t0 : ending s.mpc = false → s.mpc ≠ .full → s.tend = false ∧ ∀ c ∈ s.texin ++ s.towrite, c.1 = false
  t3 : ending s.mpc = true → (s.tend = false ∧ ∃ pre r, s.texin ++ s.towrite = pre ++ [(true, r)] ∧
        ∀ c ∈ pre, c.1 = false) ∨ (s.tend = true ∧ s.texin = [] ∧ s.towrite = [])
  tw : s.mpc ≠ .write → s.mpc ≠ .writeEnd → s.mpc ≠ .full → s.towrite = []
  td : s.texdone = true → s.tend = true ∧ s.pending = []
  rp : s.rpc = .fetch none ∨ s.rpc = .put none ∨ s.rpc = .closed ∨ s.rpc = .raised → s.texdone = true ∧ s.pipe = []
  re : s.mpc = .readEnd ∨ s.mpc = .finished → s.rpc = .closed ∨ s.rpc = .raised

theorem invA_initial (replies : List (List (List L))) (final : List L) : InvA replies final (initial replies final) := by
  constructor <;> by_cases h : replies = [] <;>
    simp [initial, h, executing, ending, flow, got, coming, inflight, out, List.length_pos_iff]

theorem invT_initial (replies : List (List (List L))) (final : List L) : InvT (initial replies final) := by
  constructor <;> by_cases h : replies = [] <;> simp [initial, h, ending]

theorem invA_step {has : L → ℕ → Bool} {icap cap : ℕ} {replies : List (List (List L))} {final : List L} {s s' : State L}
    (h : Step has icap cap s s') (ha : InvA replies final s) (ht : InvT s) : InvA replies final s' := by
  obtain ⟨fin, rest, a0, a1, a2, a3⟩ := ha
  obtain ⟨t0, t3, tw, td, rp, re⟩ := ht
  cases h
  case expect hm hq =>
    obtain ⟨hk, hf⟩ := a0 hm
    have h1 : s.towrite = [] := tw (by simp [hm]) (by simp [hm]) (by simp [hm])
    have h2 : s.rest.headD [] = replies.getD s.k [] := by
      rw [rest, List.headD_eq_head?_getD, List.head?_drop, List.getD_eq_getElem?_getD]
    refine ⟨fin, rest, by simp, fun _ => ⟨hk, ?_⟩, by simp, by simp [ending]⟩
    rw [out_succ _ _ hk, ← hf, answer, ← h2]
    simp [flow, got, coming, h1, Function.comp_def]
  case expectEnd hm hq =>
    obtain ⟨hk, hf⟩ := a2 hm
    have h1 : s.towrite = [] := tw (by simp [hm]) (by simp [hm]) (by simp [hm])
    refine ⟨fin, rest, by simp, by simp [executing], by simp, fun _ => ⟨hk, ?_⟩⟩
    simp only [← hf]
    simp [flow, got, coming, h1, fin]
  case full => exact ⟨fin, rest, by simp, by simp [executing], by simp, by simp [ending]⟩
  case write c w hm hw hi =>
    have hf : flow { s with texin := s.texin ++ [c], towrite := w } = flow s := by simp [flow, got, coming, hw]
    exact ⟨fin, rest, by simpa only [hf] using a0, by simpa only [hf] using a1, by simpa only [hf] using a2,
      by simpa only [hf] using a3⟩
  case flush hm hw =>
    obtain ⟨hk, hf⟩ := a1 (by simp [hm, executing])
    exact ⟨fin, rest, by simp, fun _ => ⟨hk, hf⟩, by simp, by simp [ending]⟩
  case flushEnd hm hw =>
    obtain ⟨hk, hf⟩ := a3 (by simp [hm, ending])
    exact ⟨fin, rest, by simp, by simp [executing], by simp, fun _ => ⟨hk, hf⟩⟩
  case wait hm hr =>
    obtain ⟨hk, hf⟩ := a1 (by simp [hm, executing])
    exact ⟨fin, rest, by simp, fun _ => ⟨hk, hf⟩, by simp, by simp [ending]⟩
  case join hm hr =>
    obtain ⟨hk, hf⟩ := a3 (by simp [hm, ending])
    exact ⟨fin, rest, by simp, by simp [executing], by simp, fun _ => ⟨hk, hf⟩⟩
  case get l q hm ho =>
    have hf : flow { s with outq := q, buf := s.buf ++ [l] } = flow s := by simp [flow, got, coming, ho]
    exact ⟨fin, rest, by simpa only [hf] using a0, by simpa only [hf] using a1, by simpa only [hf] using a2,
      by simpa only [hf] using a3⟩
  case readEnd hm ho =>
    obtain ⟨hk, hf⟩ := a1 (by simp [hm, executing])
    have hf' : flow (nextExpr s) = flow s := by simp [flow, got, coming, nextExpr, ho]
    have hr : s.rest.tail = replies.drop (s.k + 1) := by rw [rest, List.tail_drop]
    refine ⟨fin, hr, ?_, ?_, ?_, ?_⟩
    · intro hm'
      refine ⟨?_, by rw [hf', hf]; rfl⟩
      by_contra hc
      have hc' : replies.drop (s.k + 1) = [] := List.drop_eq_nil_of_le (by simpa [nextExpr] using hc)
      simp [nextExpr, hr, hc'] at hm'
    · intro hm'
      simp only [nextExpr] at hm'
      split at hm' <;> simp [executing] at hm'
    · intro hm'
      refine ⟨?_, by rw [hf', hf]; rfl⟩
      have hc : replies.drop (s.k + 1) = [] := by
        by_contra hc
        simp [nextExpr, hr, hc] at hm'
      have := List.drop_eq_nil_iff.mp hc
      show s.k + 1 = _
      omega
    · intro hm'
      simp only [nextExpr] at hm'
      split at hm' <;> simp [ending] at hm'
  case finish hm ho =>
    obtain ⟨hk, hf⟩ := a3 (by simp [hm, ending])
    refine ⟨fin, rest, by simp, by simp [executing], by simp, fun _ => ⟨hk, ?_⟩⟩
    rw [← hf]
    simp [flow, got, coming, ho]
  case line l p hr hp =>
    have hf : flow { s with pipe := p, rpc := .fetch (some l) } = flow s := by
      simp [flow, got, coming, hr, hp, inflight]
    exact ⟨fin, rest, by simpa only [hf] using a0, by simpa only [hf] using a1, by simpa only [hf] using a2,
      by simpa only [hf] using a3⟩
  case eof hr hp hd =>
    have hf : flow { s with rpc := .fetch none } = flow s := by simp [flow, got, coming, hr, inflight]
    exact ⟨fin, rest, by simpa only [hf] using a0, by simpa only [hf] using a1, by simpa only [hf] using a2,
      by simpa only [hf] using a3⟩
  case fetch l e hr he hq =>
    have hf : flow { s with rexp := e, queue := none, rpc := .put l } = flow s := by
      cases l <;> simp [flow, got, coming, hr, inflight]
    exact ⟨fin, rest, by simpa only [hf] using a0, by simpa only [hf] using a1, by simpa only [hf] using a2,
      by simpa only [hf] using a3⟩
  case nofetch l hr he =>
    have hf : flow { s with rpc := .put l } = flow s := by
      cases l <;> simp [flow, got, coming, hr, inflight]
    exact ⟨fin, rest, by simpa only [hf] using a0, by simpa only [hf] using a1, by simpa only [hf] using a2,
      by simpa only [hf] using a3⟩
  case put l hr =>
    have hf : flow { s with outq := s.outq ++ [l], rpc := .check l } = flow s := by
      simp [flow, got, coming, hr, inflight]
    exact ⟨fin, rest, by simpa only [hf] using a0, by simpa only [hf] using a1, by simpa only [hf] using a2,
      by simpa only [hf] using a3⟩
  case closed hr he =>
    have hf : flow { s with rpc := .closed } = flow s := by simp [flow, got, coming, hr, inflight]
    exact ⟨fin, rest, by simpa only [hf] using a0, by simpa only [hf] using a1, by simpa only [hf] using a2,
      by simpa only [hf] using a3⟩
  case raised hr he =>
    have hf : flow { s with rpc := .raised } = flow s := by simp [flow, got, coming, hr, inflight]
    exact ⟨fin, rest, by simpa only [hf] using a0, by simpa only [hf] using a1, by simpa only [hf] using a2,
      by simpa only [hf] using a3⟩
  case found l n hr he hl =>
    have hf : flow { s with received := true, rexp := none, rpc := .reading } = flow s := by
      simp [flow, got, coming, hr, inflight]
    exact ⟨fin, rest, by simpa only [hf] using a0, by simpa only [hf] using a1, by simpa only [hf] using a2,
      by simpa only [hf] using a3⟩
  case notfound l hr hl =>
    have hf : flow { s with rpc := .reading } = flow s := by simp [flow, got, coming, hr, inflight]
    exact ⟨fin, rest, by simpa only [hf] using a0, by simpa only [hf] using a1, by simpa only [hf] using a2,
      by simpa only [hf] using a3⟩
  case take e r c hp htt hi =>
    have hf : flow { s with texin := c, pending := r, tend := e } = flow s := by
      simp [flow, got, coming, hp, hi]
    exact ⟨fin, rest, by simpa only [hf] using a0, by simpa only [hf] using a1, by simpa only [hf] using a2,
      by simpa only [hf] using a3⟩
  case emit l p hp hc =>
    have hf : flow { s with pending := p, pipe := s.pipe ++ [l] } = flow s := by
      simp [flow, got, coming, hp]
    exact ⟨fin, rest, by simpa only [hf] using a0, by simpa only [hf] using a1, by simpa only [hf] using a2,
      by simpa only [hf] using a3⟩
  case close hd hp htt =>
    have hf : flow { s with texdone := true } = flow s := by simp [flow, got, coming]
    exact ⟨fin, rest, by simpa only [hf] using a0, by simpa only [hf] using a1, by simpa only [hf] using a2,
      by simpa only [hf] using a3⟩

end PyX.Monitor
