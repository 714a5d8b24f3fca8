import Verif.Text.MonitorInv

/-!
# C138: invariants about the end of TeX and about the marker
-/

set_option linter.unusedSectionVars false

namespace PyX.Monitor

variable {L : Type}

theorem invT_step {has : L → ℕ → Bool} {icap cap : ℕ} {s s' : State L}
    (h : Step has icap cap s s') (ht : InvT s) : InvT s' := by
  obtain ⟨t0, t3, tw, td, rp, re⟩ := ht
  cases h
  case expect hm hq =>
    obtain ⟨h1, h2⟩ := t0 (by simp [hm, ending]) (by simp [hm])
    have h3 : s.towrite = [] := tw (by simp [hm]) (by simp [hm]) (by simp [hm])
    refine ⟨fun _ _ => ⟨h1, ?_⟩, by simp [ending], by simp, td, rp, by simp⟩
    intro c hc
    simp only [List.mem_append, List.mem_map] at hc
    rcases hc with hc | ⟨r, _, rfl⟩
    · exact h2 c (by simp [hc])
    · rfl
  case expectEnd hm hq =>
    obtain ⟨h1, h2⟩ := t0 (by simp [hm, ending]) (by simp [hm])
    refine ⟨by simp [ending], fun _ => .inl ⟨h1, s.texin, s.final, rfl, ?_⟩, by simp, td, rp, by simp⟩
    exact fun c hc => h2 c (by simp [hc])
  case full hm hq => exact ⟨by simp, by simp [ending], by simp, td, rp, by simp⟩
  case write c w hm hw hi =>
    have hx : s.texin ++ [c] ++ w = s.texin ++ s.towrite := by simp [hw]
    refine ⟨?_, ?_, ?_, td, rp, re⟩
    · simpa only [hx] using t0
    · intro he
      rcases t3 he with ⟨h1, h2⟩ | ⟨h1, h2, h3⟩
      · exact .inl ⟨h1, by simpa only [hx] using h2⟩
      · simp [hw] at h3
    · intro h1 h2
      rcases hm with hm | hm
      · exact absurd hm h1
      · exact absurd hm h2
  case flush hm hw =>
    exact ⟨fun _ _ => t0 (by simp [hm, ending]) (by simp [hm]), by simp [ending], fun _ _ _ => hw, td, rp, by simp⟩
  case flushEnd hm hw =>
    exact ⟨by simp [ending], fun _ => t3 (by simp [hm, ending]), fun _ _ _ => hw, td, rp, by simp⟩
  case wait hm hr =>
    exact ⟨fun _ _ => t0 (by simp [hm, ending]) (by simp [hm]), by simp [ending],
      fun _ _ _ => tw (by simp [hm]) (by simp [hm]) (by simp [hm]), td, rp, by simp⟩
  case join hm hr =>
    exact ⟨by simp [ending], fun _ => t3 (by simp [hm, ending]),
      fun _ _ _ => tw (by simp [hm]) (by simp [hm]) (by simp [hm]), td, rp, fun _ => hr⟩
  case get l q hm ho => exact ⟨t0, t3, tw, td, rp, re⟩
  case readEnd hm ho =>
    have h0 := t0 (by simp [hm, ending]) (by simp [hm])
    have hw := tw (by simp [hm]) (by simp [hm]) (by simp [hm])
    refine ⟨fun _ _ => h0, ?_, fun _ _ _ => hw, td, rp, ?_⟩
    · intro he
      simp only [nextExpr] at he
      split at he <;> simp [ending] at he
    · intro he
      simp only [nextExpr] at he
      split at he <;> simp at he
  case finish hm ho =>
    exact ⟨by simp [ending], fun _ => t3 (by simp [hm, ending]),
      fun _ _ _ => tw (by simp [hm]) (by simp [hm]) (by simp [hm]), td, rp, fun _ => re (.inl hm)⟩
  case line l p hr hp =>
    exact ⟨t0, t3, tw, td, by simp, fun he => by have := re he; simp [hr] at this⟩
  case eof hr hp hd =>
    exact ⟨t0, t3, tw, td, fun _ => ⟨hd, hp⟩, fun he => by have := re he; simp [hr] at this⟩
  case fetch l e hr he hq =>
    refine ⟨t0, t3, tw, td, fun h1 => rp (.inl ?_), fun he => by have := re he; simp [hr] at this⟩
    simpa [hr] using h1
  case nofetch l hr he =>
    refine ⟨t0, t3, tw, td, fun h1 => rp (.inl ?_), fun he => by have := re he; simp [hr] at this⟩
    simpa [hr] using h1
  case put l hr =>
    exact ⟨t0, t3, tw, td, by simp, fun he => by have := re he; simp [hr] at this⟩
  case closed hr he =>
    exact ⟨t0, t3, tw, td, fun _ => rp (.inr (.inl hr)), fun _ => .inl rfl⟩
  case raised hr he =>
    exact ⟨t0, t3, tw, td, fun _ => rp (.inr (.inl hr)), fun _ => .inr rfl⟩
  case found l n hr he hl =>
    exact ⟨t0, t3, tw, td, by simp, fun he => by have := re he; simp [hr] at this⟩
  case notfound l hr hl =>
    exact ⟨t0, t3, tw, td, by simp, fun he => by have := re he; simp [hr] at this⟩
  case take e r c hp htt hi =>
    refine ⟨?_, ?_, tw, ?_, ?_, re⟩
    · intro h1 h2
      obtain ⟨_, h4⟩ := t0 h1 h2
      have he : e = false := h4 (e, r) (by simp [hi])
      exact ⟨he, fun x hx => h4 x (by simp only [hi, List.cons_append, List.mem_cons]; exact .inr hx)⟩
    · intro h1
      rcases t3 h1 with ⟨_, pre, r', h2, h3⟩ | ⟨h2, h3, _⟩
      · rw [hi] at h2
        cases pre with
        | nil =>
          simp only [List.cons_append, List.nil_append, List.cons.injEq, Prod.mk.injEq, List.append_eq_nil_iff] at h2
          exact .inr ⟨h2.1.1, h2.2⟩
        | cons x pre =>
          simp only [List.cons_append, List.cons.injEq] at h2
          refine .inl ⟨?_, pre, r', h2.2, fun y hy => h3 y (by simp [hy])⟩
          have := h3 x (by simp)
          rw [← h2.1] at this
          exact this
      · rw [hi] at h3; cases h3
    · intro hd
      have := td hd
      rw [htt] at this
      cases this.1
    · intro h1
      have := td (rp h1).1
      rw [htt] at this
      cases this.1
  case emit l p hp hc =>
    refine ⟨t0, t3, tw, ?_, ?_, re⟩
    · intro hd
      have := td hd
      rw [hp] at this
      cases this.2
    · intro h1
      have := td (rp h1).1
      rw [hp] at this
      cases this.2
  case close htt hp hd => exact ⟨t0, t3, tw, fun _ => ⟨htt, hp⟩, fun h1 => ⟨rfl, (rp h1).2⟩, re⟩

/-- The marker of expression `k` is expected and still to come. -/
def Awaiting (has : L → ℕ → Bool) (s : State L) : Prop :=
  ((s.queue = some (some s.k) ∧ s.rexp = none ∧ ∀ l, s.rpc = .put (some l) ∨ s.rpc = .check l → has l s.k = false) ∨
    (s.queue = none ∧ s.rexp = some s.k)) ∧
  ∃ l ∈ current s.rpc ++ coming s, has l s.k = true

/-- The marker of expression `k` has been found. -/
def Found (has : L → ℕ → Bool) (s : State L) : Prop :=
  s.queue = none ∧ s.rexp = none ∧ ∃ l ∈ got s, has l s.k = true

/-- What is known about the marker. -/
structure InvE (has : L → ℕ → Bool) (s : State L) : Prop where
  c : ∀ l, s.rpc = .check l → l ∈ got s
  e0 : s.mpc = .expect ∨ s.mpc = .expectEnd → s.queue = none ∧ s.rexp = none ∧ s.received = false
  e1 : s.mpc = .write ∨ s.mpc = .wait → (s.received = false ∧ Awaiting has s) ∨ (s.received = true ∧ Found has s)
  e2 : s.mpc = .read → s.received = false ∧ Found has s
  e3 : ending s.mpc = true → (s.queue = none ∨ s.queue = some none) ∧ s.rexp = none ∧ s.received = false
  nf : s.mpc ≠ .full
  nr : s.rpc ≠ .raised

/-- What is assumed about the answers: the answer to an expression contains its marker, and no answer
contains the marker of a later expression. -/
structure Marked (has : L → ℕ → Bool) (replies : List (List (List L))) : Prop where
  own : ∀ k < replies.length, ∃ l ∈ answer replies k, has l k = true
  later : ∀ j k, j < k → k < replies.length → ∀ l ∈ answer replies j, has l k = false

theorem invE_initial (has : L → ℕ → Bool) (replies : List (List (List L))) (final : List L) :
    InvE has (initial replies final) := by
  constructor <;> by_cases h : replies = [] <;> simp [initial, h, ending]

theorem invE_step {has : L → ℕ → Bool} {icap cap : ℕ} {replies : List (List (List L))} {final : List L} {s s' : State L}
    (mk : Marked has replies)
    (h : Step has icap cap s s') (ha : InvA replies final s) (ht : InvT s) (he : InvE has s) : InvE has s' := by
  obtain ⟨c, e0, e1, e2, e3, nf, nr⟩ := he
  cases h
  case expect hm hq =>
    obtain ⟨h1, h2, h3⟩ := e0 (.inl hm)
    obtain ⟨hk, hf⟩ := ha.a0 hm
    have hrest : s.rest.headD [] = replies.getD s.k [] := by
      rw [ha.rest, List.headD_eq_head?_getD, List.head?_drop, List.getD_eq_getElem?_getD]
    refine ⟨c, by simp, fun _ => .inl ⟨h3, .inl ⟨rfl, h2, ?_⟩, ?_⟩, by simp, by simp [ending], by simp, nr⟩
    · intro l hl
      have hmem : l ∈ out replies s.k := by
        rw [← hf]
        rcases hl with hl | hl
        · have hl' : s.rpc = .put (some l) := hl
          simp [flow, inflight, hl']
        · have := c l hl
          simp [flow, this]
      obtain ⟨j, hj, hl'⟩ := mem_out _ _ _ hmem
      exact mk.later j s.k hj hk l hl'
    · obtain ⟨l, hl, hh⟩ := mk.own s.k hk
      refine ⟨l, ?_, hh⟩
      rw [answer, ← hrest] at hl
      simp only [coming, List.mem_append, List.map_map, Function.comp_def, List.map_id']
      exact .inr (.inr hl)
  case expectEnd hm hq =>
    obtain ⟨h1, h2, h3⟩ := e0 (.inr hm)
    exact ⟨c, by simp, by simp, by simp, fun _ => ⟨.inr rfl, h2, h3⟩, by simp, nr⟩
  case full hm hq =>
    exact absurd (e0 hm).1 hq
  case write x w hm hw hi =>
    have hc : coming { s with texin := s.texin ++ [x], towrite := w } = coming s := by simp [coming, hw]
    refine ⟨c, e0, ?_, e2, e3, nf, nr⟩
    intro h1
    rcases e1 h1 with ⟨h2, h3, h4⟩ | h2
    · exact .inl ⟨h2, h3, by rw [hc]; exact h4⟩
    · exact .inr h2
  case flush hm hw => exact ⟨c, by simp, fun _ => e1 (.inl hm), by simp, by simp [ending], by simp, nr⟩
  case flushEnd hm hw => exact ⟨c, by simp, by simp, by simp, fun _ => e3 (by simp [hm, ending]), by simp, nr⟩
  case wait hm hr =>
    refine ⟨c, by simp, by simp, fun _ => ⟨rfl, ?_⟩, by simp [ending], by simp, nr⟩
    rcases e1 (.inr hm) with ⟨h2, _⟩ | ⟨_, h2⟩
    · rw [hr] at h2; cases h2
    · exact h2
  case join hm hr => exact ⟨c, by simp, by simp, by simp, fun _ => e3 (by simp [hm, ending]), by simp, nr⟩
  case get l q hm ho =>
    have hg : got { s with outq := q, buf := s.buf ++ [l] } = got s := by simp [got, ho]
    refine ⟨by simpa only [hg] using c, e0, ?_, ?_, e3, nf, nr⟩
    · intro h1
      exfalso
      rcases hm with hm | hm <;> simp [hm] at h1
    · intro h1
      obtain ⟨h2, h3, h4, h5⟩ := e2 h1
      exact ⟨h2, h3, h4, by rw [hg]; exact h5⟩
  case readEnd hm ho =>
    have hg : got (nextExpr s) = got s := by simp [got, nextExpr, ho]
    obtain ⟨h2, h3, h4, _⟩ := e2 hm
    refine ⟨fun l hl => by rw [hg]; exact c l hl, fun _ => ⟨h3, h4, h2⟩, ?_, ?_, ?_, ?_, nr⟩
    all_goals
      simp only [nextExpr]
      split <;> simp [ending]
  case finish hm ho =>
    have hg : got { s with reads := s.reads ++ [s.buf], buf := [], mpc := MainPc.finished } = got s := by simp [got, ho]
    exact ⟨by simpa only [hg] using c, by simp, by simp, by simp, fun _ => e3 (by simp [hm, ending]), by simp, nr⟩
  case line l p hr hp =>
    refine ⟨by simp, e0, ?_, e2, e3, nf, by simp⟩
    intro h1
    rcases e1 h1 with ⟨h2, h3, x, hx, h4⟩ | h2
    · refine .inl ⟨h2, ?_, x, ?_, h4⟩
      · rcases h3 with ⟨h5, h6, _⟩ | h3
        · exact .inl ⟨h5, h6, by simp⟩
        · exact .inr h3
      · simpa [current, coming, hr, hp] using hx
    · exact .inr h2
  case eof hr hp hd =>
    refine ⟨by simp, e0, ?_, e2, e3, nf, by simp⟩
    intro h1
    rcases e1 h1 with ⟨h2, h3, x, hx, h4⟩ | h2
    · refine .inl ⟨h2, ?_, x, ?_, h4⟩
      · rcases h3 with ⟨h5, h6, _⟩ | h3
        · exact .inl ⟨h5, h6, by simp⟩
        · exact .inr h3
      · simpa [current, coming, hr, hp] using hx
    · exact .inr h2
  case fetch l e hr he hq =>
    refine ⟨by simp, ?_, ?_, ?_, ?_, nf, by simp⟩
    · intro h1
      have := (e0 h1).1
      rw [hq] at this; cases this
    · intro h1
      rcases e1 h1 with ⟨h2, h3, x, hx, h4⟩ | ⟨_, h2, _⟩
      · rcases h3 with ⟨h5, h6, _⟩ | ⟨h5, _⟩
        · rw [hq] at h5
          cases h5
          refine .inl ⟨h2, .inr ⟨rfl, rfl⟩, x, ?_, h4⟩
          cases l <;> simpa [current, coming, hr] using hx
        · rw [hq] at h5; cases h5
      · rw [hq] at h2; cases h2
    · intro h1
      have := (e2 h1).2.1
      rw [hq] at this; cases this
    · intro h1
      obtain ⟨h2, h3, h4⟩ := e3 h1
      rw [hq] at h2
      rcases h2 with h2 | h2
      · cases h2
      · cases h2
        exact ⟨.inl rfl, rfl, h4⟩
  case nofetch l hr he =>
    refine ⟨by simp, e0, ?_, e2, e3, nf, by simp⟩
    intro h1
    rcases e1 h1 with ⟨h2, h3, x, hx, h4⟩ | h2
    · refine .inl ⟨h2, ?_, x, ?_, h4⟩
      · rcases h3 with ⟨h5, h6, _⟩ | h3
        · exfalso; simp [h5, h6] at he
        · exact .inr h3
      · cases l <;> simpa [current, coming, hr] using hx
    · exact .inr h2
  case put l hr =>
    have hg : got { s with outq := s.outq ++ [l], rpc := .check l } = got s ++ [l] := by simp [got]
    refine ⟨?_, e0, ?_, ?_, e3, nf, by simp⟩
    · intro l' hl'
      cases hl'
      simp [got]
    · intro h1
      rcases e1 h1 with ⟨h2, h3, x, hx, h4⟩ | ⟨h2, h3, h4, x, hx, h5⟩
      · refine .inl ⟨h2, ?_, x, ?_, h4⟩
        · rcases h3 with ⟨h5, h6, h7⟩ | h3
          · refine .inl ⟨h5, h6, ?_⟩
            intro l' hl'
            simp only [reduceCtorEq, ReadPc.check.injEq, false_or] at hl'
            subst hl'
            exact h7 _ (.inl hr)
          · exact .inr h3
        · simpa [current, coming, hr] using hx
      · refine .inr ⟨h2, h3, h4, x, ?_, h5⟩
        rw [hg]
        exact List.mem_append_left _ hx
    · intro h1
      obtain ⟨h2, h3, h4, x, hx, h5⟩ := e2 h1
      refine ⟨h2, h3, h4, x, ?_, h5⟩
      rw [hg]
      exact List.mem_append_left _ hx
  case closed hr he =>
    refine ⟨by simp, e0, ?_, e2, e3, nf, by simp⟩
    intro h1
    rcases e1 h1 with ⟨h2, h3, x, hx, h4⟩ | h2
    · refine .inl ⟨h2, ?_, x, ?_, h4⟩
      · rcases h3 with ⟨h5, h6, _⟩ | h3
        · exact .inl ⟨h5, h6, by simp⟩
        · exact .inr h3
      · simpa [current, coming, hr] using hx
    · exact .inr h2
  case raised hr hx =>
    exfalso
    have h1 := ht.rp (.inr (.inl hr))
    have h2 := (ht.td h1.1).1
    by_cases he : ending s.mpc = true
    · exact hx (e3 he).2.1
    · have := (ht.t0 (by simpa using he) nf).1
      rw [h2] at this; cases this
  case found l n hr he hl =>
    refine ⟨by simp, ?_, ?_, ?_, ?_, nf, by simp⟩
    · intro h1
      have := (e0 h1).2.1
      rw [he] at this; cases this
    · intro h1
      rcases e1 h1 with ⟨h2, h3, _⟩ | ⟨_, _, h2, _⟩
      · rcases h3 with ⟨_, h5, _⟩ | ⟨h5, h6⟩
        · rw [he] at h5; cases h5
        · rw [he] at h6; cases h6
          exact .inr ⟨rfl, h5, rfl, l, c l hr, hl⟩
      · rw [he] at h2; cases h2
    · intro h1
      have := (e2 h1).2.2.1
      rw [he] at this; cases this
    · intro h1
      have := (e3 h1).2.1
      rw [he] at this; cases this
  case notfound l hr hl =>
    refine ⟨by simp, e0, ?_, e2, e3, nf, by simp⟩
    intro h1
    rcases e1 h1 with ⟨h2, h3, x, hx, h4⟩ | h2
    · refine .inl ⟨h2, ?_, x, ?_, h4⟩
      · rcases h3 with ⟨h5, h6, _⟩ | h3
        · exact .inl ⟨h5, h6, by simp⟩
        · exact .inr h3
      · have hlk : has l s.k = false := by
          rcases h3 with ⟨_, _, h7⟩ | ⟨_, h6⟩
          · exact h7 l (.inr hr)
          · exact hl _ h6
        simp only [hr, current, List.cons_append, List.nil_append, List.mem_cons] at hx
        rcases hx with rfl | hx
        · rw [hlk] at h4; cases h4
        · simpa [current, coming] using hx
    · exact .inr h2
  case take e r x hp htt hi =>
    have hc : coming { s with texin := x, pending := r, tend := e } = coming s := by simp [coming, hp, hi]
    refine ⟨c, e0, ?_, e2, e3, nf, nr⟩
    intro h1
    rcases e1 h1 with ⟨h2, h3, h4⟩ | h2
    · exact .inl ⟨h2, h3, by rw [hc]; exact h4⟩
    · exact .inr h2
  case emit l p hp hcc =>
    have hc : coming { s with pending := p, pipe := s.pipe ++ [l] } = coming s := by simp [coming, hp]
    refine ⟨c, e0, ?_, e2, e3, nf, nr⟩
    intro h1
    rcases e1 h1 with ⟨h2, h3, h4⟩ | h2
    · exact .inl ⟨h2, h3, by rw [hc]; exact h4⟩
    · exact .inr h2
  case close => exact ⟨c, e0, e1, e2, e3, nf, nr⟩

/-- The results of `read`. -/
structure InvR (has : L → ℕ → Bool) (replies : List (List (List L))) (s : State L) : Prop where
  len : s.mpc ≠ .finished → s.reads.length = s.k
  pre : ∀ i, i < replies.length → i < s.reads.length → (s.reads.take (i + 1)).flatten <+: out replies (i + 1) ∧
    ∃ l ∈ (s.reads.take (i + 1)).flatten, has l i = true

theorem invR_initial (has : L → ℕ → Bool) (replies : List (List (List L))) (final : List L) :
    InvR has replies (initial replies final) := ⟨by simp [initial], by simp [initial]⟩

theorem invR_step {has : L → ℕ → Bool} {icap cap : ℕ} {replies : List (List (List L))} {final : List L} {s s' : State L}
    (h : Step has icap cap s s') (ha : InvA replies final s) (he : InvE has s) (hr : InvR has replies s) :
    InvR has replies s' := by
  obtain ⟨len, pre⟩ := hr
  cases h
  case readEnd hm ho =>
    have hl := len (by simp [hm])
    obtain ⟨hk, hf⟩ := ha.a1 (by simp [hm, executing])
    refine ⟨fun _ => by simp [nextExpr, hl], ?_⟩
    intro i hi hlen
    simp only [nextExpr, List.length_append, List.length_singleton] at hlen
    by_cases hik : i < s.reads.length
    · simp only [nextExpr]
      rw [List.take_append_of_le_length (by omega)]
      exact pre i hi hik
    · have hik' : i = s.k := by omega
      subst hik'
      have htake : ((nextExpr s).reads.take (s.k + 1)) = s.reads ++ [s.buf] := by
        simp only [nextExpr]
        rw [List.take_of_length_le (by simp; omega)]
      rw [htake]
      obtain ⟨_, _, _, x, hx, hh⟩ := he.e2 hm
      constructor
      · rw [← hf]
        simp only [flow, got, ho, List.flatten_append, List.flatten_singleton, List.append_nil]
        exact List.prefix_append _ _
      · exact ⟨x, by simpa [got, ho] using hx, hh⟩
  case finish hm ho =>
    have hl := len (by simp [hm])
    obtain ⟨hk, _⟩ := ha.a3 (by simp [hm, ending])
    refine ⟨by simp, ?_⟩
    intro i hi hlen
    rw [List.take_append_of_le_length (by omega)]
    exact pre i hi (by omega)
  case full hm hq => exact ⟨fun _ => len (by rcases hm with hm | hm <;> simp [hm]), pre⟩
  all_goals exact ⟨fun _ => len (by simp_all), pre⟩

end PyX.Monitor
