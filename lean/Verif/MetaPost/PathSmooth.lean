import Verif.MetaPost.PathProps
import Verif.MetaPost.CurveProps

/-!
# C61, C93: the tangents of a MetaPost-like path

The path as it is drawn, with the control points of `Curve` over the real numbers.
-/

set_option linter.unusedSectionVars false

namespace PyX.MetaPost

open Real

/-- The run handed to the solver. -/
def Stretch.run (S : Stretch ℝ) : Run := ⟨S.n, S.x, S.y, S.rt, S.lt, S.start, S.stop⟩

/-- The parameters of the real code (`pyx/metapost/mp_path.py:168-380`). -/
noncomputable def realEnv (eps : ℝ) : Env ℝ := ⟨nArg, fun S => S.run.segment, eps⟩

/-! ## The run handed to the solver -/

theorem direction_typ (E : Env ℝ) (dx dy : ℝ) : (direction E dx dy).1 = .curl ∨ (direction E dx dy).1 = .given := by
  unfold direction
  split_ifs <;> simp

theorem closeEnd_typ {E : Env ℝ} {ks ks' : Table ℝ} {q : ℕ} (h : closeEnd E ks q = some ks') :
    (ks' q).lt = (ks q).lt ∨ (ks' q).lt = .curl ∨ (ks' q).lt = .given := by
  unfold closeEnd at h
  split_ifs at h with ho
  · simp only [Option.bind_eq_some_iff, Option.map_eq_some_iff] at h
    obtain ⟨rx, hrx, ry, hry, h⟩ := h
    right
    rw [← h, mod_same]
    exact direction_typ _ _ _
  · simp only [Option.some.injEq] at h
    rw [h]; exact Or.inl rfl

/-- The run that is solved, in terms of the table before. -/
theorem solved_stretch {E : Env ℝ} {m : ℕ} {ks ks' : Table ℝ} {p n : ℕ} (h : Solved E m ks p n ks') :
    ∃ S : Stretch ℝ, S.n = n ∧ (∀ k, (S.x k, S.y k) = (ks ((p + k) % m)).P) ∧
      (∀ k, S.rt k = (ks ((p + k) % m)).ry.getD 1) ∧ (∀ k, S.lt k = (ks ((p + k) % m)).ly.getD 1) ∧
      (∀ v, (ks p).rt = .given → (ks p).rx = some v → S.start = .given v) ∧
      (∀ v, (ks ((p + n) % m)).lt = .given → (ks ((p + n) % m)).lx = some v → S.stop = .given v) ∧
      ((ks p).rt = .opn → (ks p).lt = .endCycle → S.start = .cycle) ∧
      (S.stop = .cycle ↔ (ks ((p + n) % m)).lt = .endCycle) ∧
      ∀ k < n, ∃ c, E.solve S k = some c ∧
        (ks' ((p + k) % m)).R = (.explicit, some c.1.1, some c.1.2) ∧
        (ks' ((p + k + 1) % m)).L = (.explicit, some c.2.1, some c.2.2) := by
  obtain ⟨ks1, ks2, S, h1, h2, h3, h4⟩ := h.run
  have t1 := closeEnd_typ h1
  obtain ⟨a1, a2⟩ := closeEnd_spec h1
  obtain ⟨b1, b2⟩ := closeStart_spec h2
  unfold stretch at h3
  simp only [Option.bind_eq_some_iff] at h3
  obtain ⟨start, e1, stop, e2, h3⟩ := h3
  split_ifs at h3 with hc
  simp only [Option.some.injEq] at h3
  have hL : (ks2 ((p + n) % m)).L = (ks1 ((p + n) % m)).L := (b1 _).2.1
  refine ⟨S, by rw [← h3], fun k => ?_, fun k => ?_, fun k => ?_, fun v hg hv => ?_, fun v hg hv => ?_, fun ho hl => ?_, ?_, h4⟩
  · rw [← h3]
    have := ((b1 ((p + k) % m)).1).trans (a1 ((p + k) % m)).1
    exact this
  · rw [← h3]
    simp only
    rw [(b1 _).2.2.1, (R_eq (a1 _).2.1).2.2]
  · rw [← h3]
    simp only
    rw [(L_eq (b1 _).2.1).2.2, (a1 _).2.2.1]
  · have r1 : (ks1 p).rt ≠ .opn := by rw [(R_eq (a1 p).2.1).1, hg]; simp
    have r2 := b2 r1
    rw [r2] at e1
    unfold startOf at e1
    rw [(R_eq (a1 p).2.1).1, hg] at e1
    simp only at e1
    rw [(R_eq (a1 p).2.1).2.1, hv] at e1
    simp only [Option.map_some, Option.some.injEq] at e1
    rw [← h3, ← e1]
  · have r2 := a2 (by rw [hg]; simp)
    rw [r2] at hL
    unfold stopOf at e2
    rw [(L_eq hL).1, hg] at e2
    simp only at e2
    rw [(L_eq hL).2.1, hv] at e2
    simp only [Option.map_some, Option.some.injEq] at e2
    rw [← h3, ← e2]
  · have l1 : (ks1 p).lt ≠ .explicit := by
      by_cases e : p = (p + n) % m
      · rw [← e] at t1
        rcases t1 with t | t | t <;> rw [t]
        · rw [hl]; simp
        · simp
        · simp
      · rw [(L_eq ((a1 p).2.2.2 e)).1, hl]; simp
    have r2 : ks2 = ks1 := by
      unfold closeStart at h2
      rw [if_neg (fun hh => l1 hh.2), Option.some.injEq] at h2
      exact h2.symm
    rw [r2] at e1
    unfold startOf at e1
    rw [(R_eq (a1 p).2.1).1, ho] at e1
    simp only [Option.some.injEq] at e1
    rw [← h3, ← e1]
  · have : S.stop = stop := by rw [← h3]
    rw [this]
    constructor
    · intro hs
      rw [hs] at e2
      have : (ks1 ((p + n) % m)).lt = .endCycle := by
        unfold stopOf at e2
        rw [(L_eq hL).1] at e2
        rcases e : (ks1 ((p + n) % m)).lt <;> rw [e] at e2 <;> simp_all
      rcases t1 with t | t | t
      · rw [← t]; exact this
      · rw [this] at t; simp at t
      · rw [this] at t; simp at t
    · intro hl
      have r2 := a2 (by rw [hl]; simp)
      rw [r2] at hL
      unfold stopOf at e2
      rw [(L_eq hL).1, hl] at e2
      simp only [Option.some.injEq] at e2
      exact e2.symm

/-! ## Knots that are not joined -/

/-- The knots are not closer than `epsilon`. -/
def Far (E : Env ℝ) (p q : ℝ × ℝ) : Prop := E.eps ^ 2 ≤ (p.1 - q.1) ^ 2 + (p.2 - q.2) ^ 2

theorem far_apart {E : Env ℝ} {k k' : Knot ℝ} (h : Far E k.P k'.P) : Apart E k k' := Or.inr h

theorem far_ne {E : Env ℝ} (he : 0 < E.eps) {p q : ℝ × ℝ} (h : Far E p q) : p ≠ q := by
  rintro rfl
  unfold Far at h
  simp only [sub_self] at h
  nlinarith

theorem joined_free {E : Env ℝ} {m : ℕ} {ks : Table ℝ} {j : ℕ} (hj : Far E (ks j).P (ks ((j + 1) % m)).P)
    (h : (ks j).rt.fixed = false) : (joined E m ks m j).rt.fixed = false := by
  refine (joined_inv (E := E) (m := m) (fun ks' => (∀ a, (ks' a).P = (ks a).P) ∧ (ks' j).rt.fixed = false) m
    ⟨fun _ => rfl, h⟩ ?_).2
  intro t ht ks' hq
  refine ⟨fun a => by rw [joinStep_P]; exact hq.1 a, ?_⟩
  have hA : j ≠ t ∨ Apart E (ks' t) (ks' ((t + 1) % m)) := by
    by_cases e : j = t
    · subst e
      exact Or.inr (far_apart (by rw [hq.1, hq.1]; exact hj))
    · exact Or.inl e
  rcases joinStep_R E ks' t ((t + 1) % m) j hA with e | ⟨-, -, e⟩
  · rw [(R_eq e).1]; exact hq.2
  · have : (joinStep E ks' t ((t + 1) % m) j).rt = .curl := congrArg Prod.fst e
    rw [this]; rfl

/-- The right side of a knot that is joined to none of its neighbours, or only to the one before and is not open. -/
theorem joined_R {E : Env ℝ} {m : ℕ} {ks : Table ℝ} {i : ℕ} (hi : Far E (ks i).P (ks ((i + 1) % m)).P)
    (h : (ks i).rt ≠ .opn ∨ ∀ t < m, (t + 1) % m = i → Far E (ks t).P (ks i).P) : (joined E m ks m i).R = (ks i).R := by
  refine (joined_inv (E := E) (m := m) (fun ks' => (∀ a, (ks' a).P = (ks a).P) ∧ (ks' i).R = (ks i).R) m
    ⟨fun _ => rfl, rfl⟩ ?_).2
  intro t ht ks' hq
  refine ⟨fun a => by rw [joinStep_P]; exact hq.1 a, ?_⟩
  have hA : i ≠ t ∨ Apart E (ks' t) (ks' ((t + 1) % m)) := by
    by_cases e : i = t
    · subst e
      exact Or.inr (far_apart (by rw [hq.1, hq.1]; exact hi))
    · exact Or.inl e
  rcases h with h | h
  · rcases joinStep_R E ks' t ((t + 1) % m) i hA with e | ⟨-, e, -⟩
    · rw [e]; exact hq.2
    · rw [(R_eq hq.2).1] at e; exact absurd e h
  · by_cases e : (t + 1) % m = i
    · rw [joinStep_apart (far_apart (by rw [hq.1, hq.1, e]; exact h t ht e))]; exact hq.2
    · rcases joinStep_R E ks' t ((t + 1) % m) i hA with e' | ⟨e', -, -⟩
      · rw [e']; exact hq.2
      · exact absurd e'.symm e

theorem joined_L {E : Env ℝ} {m : ℕ} {ks : Table ℝ} {j : ℕ} (hjm : j < m) (hj : Far E (ks j).P (ks ((j + 1) % m)).P)
    (h : (ks ((j + 1) % m)).lt ≠ .opn ∨ Far E (ks ((j + 1) % m)).P (ks (((j + 1) % m + 1) % m)).P) :
    (joined E m ks m ((j + 1) % m)).L = (ks ((j + 1) % m)).L := by
  refine (joined_inv (E := E) (m := m) (fun ks' => (∀ a, (ks' a).P = (ks a).P) ∧
    (ks' ((j + 1) % m)).L = (ks ((j + 1) % m)).L) m ⟨fun _ => rfl, rfl⟩ ?_).2
  intro t ht ks' hq
  refine ⟨fun a => by rw [joinStep_P]; exact hq.1 a, ?_⟩
  have hA : (j + 1) % m ≠ (t + 1) % m ∨ Apart E (ks' t) (ks' ((t + 1) % m)) := by
    by_cases e : (j + 1) % m = (t + 1) % m
    · have := succ_mod_inj hjm ht e
      subst this
      exact Or.inr (far_apart (by rw [hq.1, hq.1]; exact hj))
    · exact Or.inl e
  rcases h with h | h
  · rcases joinStep_L E ks' t ((t + 1) % m) _ hA with e | ⟨-, e, -⟩
    · rw [e]; exact hq.2
    · rw [(L_eq hq.2).1] at e; exact absurd e h
  · by_cases e : (j + 1) % m = t
    · rw [joinStep_apart (far_apart (by rw [hq.1, hq.1, ← e]; exact h))]; exact hq.2
    · rcases joinStep_L E ks' t ((t + 1) % m) _ hA with e' | ⟨e', -, -⟩
      · rw [e']; exact hq.2
      · exact absurd e' e

/-! ## Tensions -/

/-- Open sides have a sensible tension; no knot is the end of a cycle yet. -/
def Good (k : Knot ℝ) : Prop :=
  (k.rt = .opn → 3 / 4 ≤ |k.ry.getD 1|) ∧ (k.lt = .opn → 3 / 4 ≤ |k.ly.getD 1|) ∧ k.lt ≠ .endCycle

/-- Links made by the constructors. -/
def Sound : Link ℝ → Prop
  | .tension l r => 3 / 4 ≤ |l| ∧ 3 / 4 ≤ |r|
  | _ => True

theorem good_mod {ks : Table ℝ} {i : ℕ} {f : Knot ℝ → Knot ℝ} (h : ∀ a, Good (ks a)) (hf : Good (ks i) → Good (f (ks i))) :
    ∀ a, Good (mod ks i f a) := by
  intro a
  by_cases e : a = i
  · subst e; rw [mod_same]; exact hf (h a)
  · rw [mod_ne _ _ e]; exact h a

theorem setKnots_good {E : Env ℝ} {ks ks' : Table ℝ} {i j : ℕ} {l : Link ℝ} (hl : Sound l)
    (h : setKnots E ks i j l = some ks') (hg : ∀ a, Good (ks a)) : ∀ a, Good (ks' a) := by
  cases l with
  | line keep =>
    simp only [setKnots] at h
    have h0 : ∀ a, Good (mod (mod ks i (·.setR .endpoint none none)) j (·.setL .endpoint none none) a) :=
      good_mod (good_mod hg fun hk => ⟨by simp [Knot.setR], hk.2⟩) fun hk => ⟨hk.1, by simp [Knot.setL], by simp [Knot.setL]⟩
    split_ifs at h with hk
    · simp only [Option.some.injEq] at h
      rw [← h]
      exact good_mod (good_mod h0 fun hk => ⟨hk.1, by simp [Knot.setL], by simp [Knot.setL]⟩)
        fun hk => ⟨by simp [Knot.setR], hk.2⟩
    · simp only [Option.some.injEq] at h
      rw [← h]; exact h0
  | control a b =>
    simp only [setKnots, Option.some.injEq] at h
    rw [← h]
    exact good_mod (good_mod hg fun hk => ⟨by simp [Knot.setR], hk.2⟩) fun hk => ⟨hk.1, by simp [Knot.setL], by simp [Knot.setL]⟩
  | tension a b =>
    simp only [setKnots] at h
    split_ifs at h with hc
    simp only [Option.some.injEq] at h
    rw [← h]
    exact good_mod (good_mod hg fun hk => ⟨fun _ => hl.1, hk.2⟩) fun hk => ⟨hk.1, fun _ => hl.2, hk.2.2⟩

theorem linked_good {E : Env ℝ} {es : Elems ℝ} {n : ℕ} {ks : Table ℝ} (h : linked E es n = some ks)
    (hk : ∀ i, Good (initial es i)) (hl : ∀ i l, link es i = some l → Sound l) : ∀ a, Good (ks a) := by
  refine linked_inv (fun ks => ∀ a, Good (ks a)) (Nat.zero_le n) (rfl : linked E es 0 = some (initial es)) h hk ?_
  intro t _ _ ks ks' hq hs
  cases e : link es t with
  | none =>
    rw [e] at hs
    simp only [linkStep, Option.some.injEq] at hs
    rw [← hs]; exact hq
  | some l =>
    rw [e] at hs
    exact setKnots_good (hl t l e) hs hq

theorem joined_good {E : Env ℝ} {m : ℕ} {ks : Table ℝ} (n : ℕ) (h : ∀ a, Good (ks a)) : ∀ a, Good (joined E m ks n a) := by
  induction n with
  | zero => exact h
  | succ n ih =>
    change ∀ a, Good (joinStep E (joined E m ks n) n ((n + 1) % m) a)
    generalize joined E m ks n = ks at ih
    intro a
    by_cases hA : Apart E (ks n) (ks ((n + 1) % m))
    · rw [joinStep_apart hA]; exact ih a
    obtain ⟨s1, s2⟩ := joinStep_self hA
    have hR : (joinStep E ks n ((n + 1) % m) a).rt = .opn → 3 / 4 ≤ |(joinStep E ks n ((n + 1) % m) a).ry.getD 1| := by
      intro ho
      by_cases e : a = n
      · rw [e, s1] at ho; simp at ho
      · rcases joinStep_R E ks n ((n + 1) % m) a (Or.inl e) with r | ⟨-, -, r⟩
        · rw [(R_eq r).1] at ho
          rw [(R_eq r).2.2]; exact (ih a).1 ho
        · rw [show (joinStep E ks n ((n + 1) % m) a).rt = .curl from congrArg Prod.fst r] at ho; simp at ho
    refine ⟨hR, ?_⟩
    by_cases e : a = (n + 1) % m
    · rw [e, s2]; simp
    · rcases joinStep_L E ks n ((n + 1) % m) a (Or.inl e) with r | ⟨-, -, r⟩
      · rw [(L_eq r).1, (L_eq r).2.2]; exact (ih a).2
      · rw [show (joinStep E ks n ((n + 1) % m) a).lt = .curl from congrArg Prod.fst r]; simp

/-- Open right sides in the end belong to knots that are not joined to the next one. -/
theorem joined_open {E : Env ℝ} {m : ℕ} {ks : Table ℝ} {t : ℕ} (ht : t < m) (h : (joined E m ks m t).rt = .opn) :
    Far E (ks t).P (ks ((t + 1) % m)).P := by
  by_contra hF
  have : (joined E m ks m t).rt.fixed = true := by
    have hmain : ∀ n, t < n → n ≤ m → (joined E m ks n t).rt.fixed = true := by
      intro n h1 h2
      induction n with
      | zero => omega
      | succ n ih =>
        change (joinStep E (joined E m ks n) n ((n + 1) % m) t).rt.fixed = true
        by_cases e : t = n
        · subst e
          by_cases hA : Apart E (joined E m ks t t) (joined E m ks t ((t + 1) % m))
          · rw [joinStep_apart hA]
            rcases hA with hA | hA
            · exact hA
            · have e1 := P_eq (joined_P E m ks t t)
              have e2 := P_eq (joined_P E m ks t ((t + 1) % m))
              rw [e1.1, e1.2, e2.1, e2.2] at hA
              exact absurd hA hF
          · rw [(joinStep_self hA).1]; rfl
        · have hi := ih (by omega) (by omega)
          rcases joinStep_R E (joined E m ks n) n ((n + 1) % m) t (Or.inl e) with r | ⟨-, r, -⟩
          · rw [(R_eq r).1]; exact hi
          · rw [r] at hi; simp [Typ.fixed] at hi
    exact hmain m ht le_rfl
  rw [h] at this
  simp [Typ.fixed] at this

/-! ## The pass that deals with a curve -/

/-- The run of `n` curves from offset `off` from the first breakpoint `h`: the data are those of the table `r` the walk
starts with, the control points are those of the final table `f`. -/
structure Pass (E : Env ℝ) (m h : ℕ) (r f : Table ℝ) (off n : ℕ) (S : Stretch ℝ) : Prop where
  n1 : 1 ≤ n
  nm : off + n ≤ m
  len : S.n = n
  pos : ∀ k, (S.x k, S.y k) = (r ((h + (off + k)) % m)).P
  rt : ∀ k < n, S.rt k = (r ((h + (off + k)) % m)).ry.getD 1
  lt : ∀ k < n, S.lt (k + 1) = (r ((h + (off + (k + 1))) % m)).ly.getD 1
  round : off = 0 → ∀ k, S.rt k = (r ((h + k) % m)).ry.getD 1 ∧ S.lt k = (r ((h + k) % m)).ly.getD 1
  given : ∀ v, (r ((h + off) % m)).rt = .given → (r ((h + off) % m)).rx = some v → S.start = .given v
  given' : ∀ v, (r ((h + (off + n)) % m)).lt = .given → (r ((h + (off + n)) % m)).lx = some v → S.stop = .given v
  cycle : off = 0 → (r (h % m)).rt = .opn → (r (h % m)).lt = .endCycle → S.start = .cycle
  cycle' : S.stop = .cycle ↔ (r ((h + (off + n)) % m)).lt = .endCycle
  inner : ∀ k, 1 ≤ k → k < n → (r ((h + (off + k)) % m)).lt = .opn ∧ (r ((h + (off + k)) % m)).rt = .opn
  brk : off + n < m → (r ((h + (off + n)) % m)).brk = true
  seg : ∀ k < n, ∃ c, E.solve S k = some c ∧ (f ((h + (off + k)) % m)).R = (.explicit, some c.1.1, some c.1.2) ∧
    (f ((h + (off + (k + 1))) % m)).L = (.explicit, some c.2.1, some c.2.2)

theorem pass_of {E : Env ℝ} {m : ℕ} {ks ks' : Table ℝ} (hm : 0 < m) (h : makeChoices E m ks = some ks') {j : ℕ}
    (hj : j < m) (hf : (ready E m ks j).rt.fixed = false) :
    ∃ off o n S, off ≤ o ∧ o < off + n ∧ ((breakpoint m (joined E m ks m)).1 + o) % m = j ∧
      Pass E m (breakpoint m (joined E m ks m)).1 (ready E m ks) ks' off n S := by
  obtain ⟨off, o, n, ks1, ks2, hb, h1, h2, h3, rfl, h5, h6, h7, h8⟩ := makeChoices_covers hm h j hj
  have hP : ∀ a, (ready E m ks a).P = (ks a).P := fun a => by
    rw [← joined_P E m ks m a]; exact ((breakpoint_spec hm (joined E m ks m)).2.2.1 a).1
  generalize (breakpoint m (joined E m ks m)).1 = h at *
  obtain ⟨n1, -, -, -, -, s⟩ := walkStep_spec (Nat.mod_lt _ hm) h5
  have hS : Solved E m ks1 ((h + off) % m) n ks2 := by
    rcases s with hS | ⟨hx, hn, -⟩
    · exact hS
    · exfalso
      obtain rfl : o = off := by omega
      rw [← (R_eq (h7 o le_rfl (by omega)).1).1, hf] at hx
      simp at hx
  obtain ⟨S, a1, a2, a3, a4, a5, a6, a7, a8, a9⟩ := solved_stretch hS
  obtain ⟨-, -, c1, c2⟩ := runLength_spec hS.len
  simp only [add_mod_mod'] at a2 a3 a4 a6 a8 c1 c2
  have hRr : ∀ k, off + k < m → (ks1 ((h + (off + k)) % m)).R = (ready E m ks ((h + (off + k)) % m)).R :=
    fun k hk => ((h7 (off + k) (by omega) hk).1).symm
  have hLr : ∀ k, off + k < m → (ks1 ((h + (off + (k + 1))) % m)).L = (ready E m ks ((h + (off + (k + 1))) % m)).L := by
    intro k hk
    have := ((h7 (off + k) (by omega) hk).2).symm
    rw [Nat.mod_add_mod] at this
    exact this
  have hn' : n - 1 + 1 = n := by omega
  have hLq := hLr (n - 1) (by omega)
  rw [hn'] at hLq
  have hRp := hRr 0 (by omega)
  rw [Nat.add_zero] at hRp
  refine ⟨off, o, n, S, h1, h2, rfl, ⟨n1, h3, a1, fun k => ?_, fun k hk => ?_, fun k hk => ?_, fun h0 k => ?_, fun v hg hv => ?_,
    fun v hg hv => ?_, fun h0 ho hl => ?_, ?_, fun k hk1 hk2 => ?_, fun hlt => ?_, fun k hk => ?_⟩⟩
  · rw [a2, h6, hP]
  · rw [a3, (R_eq (hRr k (by omega))).2.2]
  · rw [a4, (L_eq (hLr k (by omega))).2.2]
  · subst h0
    have hk := Nat.mod_lt k hm
    constructor
    · have := hRr (k % m) (by omega)
      rw [Nat.zero_add, Nat.add_mod_mod] at this
      rw [a3, Nat.zero_add, (R_eq this).2.2]
    · have := hLr ((k + (m - 1)) % m) (by have := Nat.mod_lt (k + (m - 1)) hm; omega)
      rw [Nat.zero_add, ← Nat.add_assoc, Nat.add_right_comm, Nat.add_mod_mod,
        show h + 1 + (k + (m - 1)) = h + k + m by omega, Nat.add_mod_right] at this
      rw [a4, Nat.zero_add, (L_eq this).2.2]
  · exact a5 v (by rw [(R_eq hRp).1]; exact hg) (by rw [(R_eq hRp).2.1]; exact hv)
  · exact a6 v (by rw [(L_eq hLq).1]; exact hg) (by rw [(L_eq hLq).2.1]; exact hv)
  · subst h0
    rw [Nat.add_zero] at hRp a7
    refine a7 (by rw [(R_eq hRp).1]; exact ho) ?_
    have := hLr (m - 1) (by omega)
    rw [show h + (0 + (m - 1 + 1)) = h + m by omega, Nat.add_mod_right] at this
    rw [(L_eq this).1]; exact hl
  · rw [a8, (L_eq hLq).1]
  · obtain ⟨e1, e2⟩ := c2 k hk1 hk2
    have hk' : k - 1 + 1 = k := by omega
    have l1 := hLr (k - 1) (by omega)
    rw [hk'] at l1
    rw [(L_eq l1).1] at e1
    rw [(R_eq (hRr k (by omega))).1] at e2
    exact ⟨e1, e2⟩
  · unfold Knot.brk at c1 ⊢
    rw [(L_eq hLq).1, (R_eq (hRr n hlt)).1] at c1
    exact c1
  · obtain ⟨c, e1, e2, e3⟩ := a9 k hk
    have := h8 (off + k) (by omega) (by omega)
    rw [add_mod_mod'] at e2
    rw [Nat.add_assoc, add_mod_mod'] at e3
    refine ⟨c, e1, by rw [← this.1]; exact e2, ?_⟩
    have t := this.2
    rw [Nat.mod_add_mod] at t
    exact t.symm.trans e3

theorem run_z {E : Env ℝ} {m h : ℕ} {r f : Table ℝ} {off n : ℕ} {S : Stretch ℝ} (hp : Pass E m h r f off n S) (k : ℕ) :
    S.run.z k = pt (r ((h + (off + k)) % m)).P := by
  rw [← hp.pos k]
  rfl

theorem pt_inj {p q : ℝ × ℝ} (h : pt p = pt q) : p = q :=
  Prod.ext (congrArg Complex.re h) (congrArg Complex.im h)

theorem run_delta {E : Env ℝ} {m h : ℕ} {r f : Table ℝ} {off n : ℕ} {S : Stretch ℝ} (hp : Pass E m h r f off n S) (k : ℕ)
    (hne : (r ((h + (off + k)) % m)).P ≠ (r ((h + (off + (k + 1))) % m)).P) : 0 < S.run.delta k := by
  rw [delta_eq, run_z hp, run_z hp]
  refine norm_pos_iff.mpr (sub_ne_zero.mpr fun e => hne (pt_inj e).symm)

/-- At an open knot that is not joined to its neighbours, the control points chosen lie on a line. -/
theorem smooth_table {eps : ℝ} (he : 0 < eps) {m : ℕ} {ks ks' : Table ℝ} (h : makeChoices (realEnv eps) m ks = some ks')
    (hg : ∀ a, Good (ks a)) {j i : ℕ} (hj : j < m) (hi : (j + 1) % m = i)
    (f1 : Far (realEnv eps) (ks j).P (ks i).P) (f2 : Far (realEnv eps) (ks i).P (ks ((i + 1) % m)).P)
    (hf : (ks j).rt.fixed = false) (hl : (ks i).lt = .opn) (hr : (ks i).rt = .opn) :
    ∃ (T : ℂ) (α β : ℝ) (a b : ℝ × ℝ), ‖T‖ = 1 ∧ 0 ≤ α ∧ 0 ≤ β ∧ (0 ≤ (ks i).ry.getD 1 → 0 < α) ∧
      (0 ≤ (ks i).ly.getD 1 → 0 < β) ∧ (ks' i).R = (.explicit, some a.1, some a.2) ∧
      (ks' i).L = (.explicit, some b.1, some b.2) ∧ pt a = pt (ks i).P + α * T ∧ pt b = pt (ks i).P - β * T := by
  have hm : 0 < m := by omega
  have him : i < m := by rw [← hi]; exact Nat.mod_lt _ hm
  have jR : (joined (realEnv eps) m ks m i).R = (ks i).R :=
    joined_R f2 (Or.inr fun t ht e => by
      have : t = j := succ_mod_inj ht hj (by rw [e, hi])
      rw [this]; exact f1)
  have jL : (joined (realEnv eps) m ks m i).L = (ks i).L := by
    have := joined_L (E := realEnv eps) (ks := ks) hj (by rw [hi]; exact f1) (by rw [hi]; exact Or.inr f2)
    rw [hi] at this
    exact this
  have jf := joined_free (E := realEnv eps) (m := m) (ks := ks) (j := j) (by rw [hi]; exact f1) hf
  obtain ⟨b1, b2, b3, b4⟩ := breakpoint_spec hm (joined (realEnv eps) m ks m)
  have hP : ∀ a, (ready (realEnv eps) m ks a).P = (ks a).P := fun a => by
    rw [← joined_P (realEnv eps) m ks m a]; exact (b3 a).1
  have hR : (ready (realEnv eps) m ks i).R = (ks i).R := by
    rw [← jR]; exact (b3 i).2
  have hfj : (ready (realEnv eps) m ks j).rt.fixed = false := by
    rw [← jf]; exact congrArg (fun x => x.1.fixed) (b3 j).2
  by_cases hbr : (ready (realEnv eps) m ks i).L = (ks i).L
  · obtain ⟨off, o, n, S, h1, h2, h3, hp⟩ := pass_of hm h hj hfj
    have b2' : (ready (realEnv eps) m ks (breakpoint m (joined (realEnv eps) m ks m)).1).brk = true := b2
    generalize (breakpoint m (joined (realEnv eps) m ks m)).1 = hh at *
    have hnb : (ready (realEnv eps) m ks i).brk = false := by
      unfold Knot.brk
      rw [(L_eq hbr).1, (R_eq hR).1, hl, hr]
      rfl
    have hi' : (hh + (o + 1)) % m = i := by
      rw [← hi, ← h3, Nat.mod_add_mod, Nat.add_assoc]
    have hnm := hp.nm
    have ho : o + 1 < off + n := by
      by_contra hc
      have hn' : o + 1 = off + n := by omega
      by_cases hlt : off + n < m
      · have := hp.brk hlt
        rw [← hn', hi', hnb] at this
        simp at this
      · have : o + 1 = m := by omega
        rw [this, Nat.add_mod_right, Nat.mod_eq_of_lt b1] at hi'
        rw [hi', hnb] at b2'
        simp at b2'
    obtain ⟨k, rfl⟩ : ∃ k, o = off + k := ⟨o - off, by omega⟩
    have e1 : hh + (off + (k + 1)) = hh + (off + k + 1) := by omega
    have d1 : 0 < S.run.delta k := by
      refine run_delta hp k ?_
      rw [h3, e1, hi', hP, hP]
      exact far_ne he f1
    have hii : (hh + (off + (k + 1 + 1))) % m = (i + 1) % m := by
      rw [← hi', Nat.mod_add_mod]; congr 1
    have d2 : 0 < S.run.delta (k + 1) := by
      refine run_delta hp (k + 1) ?_
      rw [hii, e1, hi', hP, hP]
      exact far_ne he f2
    obtain ⟨c, c1, -, c3⟩ := hp.seg k (by omega)
    obtain ⟨c', c1', c2', -⟩ := hp.seg (k + 1) (by omega)
    rw [e1, hi'] at c3 c2'
    obtain ⟨T, α, β, t1, t2, t3, t4, t5, t6, t7⟩ := tangent_inner S.run k (by change k + 1 < S.n; rw [hp.len]; omega) d1 d2
      c'.1 c.2 c.1 c'.2 c1 c1'
    rw [run_z hp, e1, hi', hP] at t6 t7
    refine ⟨T, α, β, c'.1, c.2, t1, t2, t3, fun hh' => t4 ?_, fun hh' => t5 ?_, c2', c3, t6, t7⟩
    · change 0 ≤ S.rt (k + 1)
      rw [hp.rt _ (by omega), e1, hi', (R_eq hR).2.2]; exact hh'
    · change 0 ≤ S.lt (k + 1)
      rw [hp.lt k (by omega), e1, hi', (L_eq hbr).2.2]; exact hh'
  · rcases b4 with b4 | ⟨b4, b5, b6⟩
    · exfalso
      apply hbr
      unfold ready
      rw [b4]; exact jL
    have hr6 : ready (realEnv eps) m ks = mod (joined (realEnv eps) m ks m) 0 fun k => k.setL .endCycle k.lx k.ly := b6
    have hi0 : i = 0 := by
      by_contra hne
      apply hbr
      rw [hr6, mod_ne _ _ hne]; exact jL
    subst hi0
    have ropen : (ready (realEnv eps) m ks 0).rt = .opn := by rw [(R_eq hR).1]; exact hr
    obtain ⟨off, o, n, S, h1, h2, h3, hp⟩ := pass_of hm h hm (by rw [ropen]; rfl)
    rw [b5] at h3 hp
    have hnm := hp.nm
    have hn1 := hp.n1
    rw [Nat.zero_add, Nat.mod_eq_of_lt (by omega)] at h3
    subst h3
    obtain rfl : off = 0 := by omega
    have hnn : n = m := by
      by_contra hc
      have := hp.brk (by omega)
      rw [Nat.zero_add, Nat.zero_add, Nat.mod_eq_of_lt (by omega)] at this
      rw [hr6, mod_ne _ _ (by omega)] at this
      obtain ⟨x1, x2⟩ := b4 n (by omega)
      simp [Knot.brk, x1, x2] at this
    subst hnn
    have good := joined_good (E := realEnv eps) (m := n) n hg
    have l0 : (ready (realEnv eps) n ks 0).lt = .endCycle := by rw [hr6, mod_same]; rfl
    have hly : ∀ a, (ready (realEnv eps) n ks a).ly = (joined (realEnv eps) n ks n a).ly := by
      intro a
      rw [hr6]
      by_cases e : a = 0
      · subst e; rw [mod_same]; rfl
      · rw [mod_ne _ _ e]
    have hstop : S.stop = .cycle := hp.cycle'.mpr (by simp only [Nat.zero_add, Nat.mod_self]; exact l0)
    have hstart : S.start = .cycle := hp.cycle rfl (by simpa using ropen) (by simpa using l0)
    have hne : ∀ k, (ks (k % n)).P ≠ (ks ((k + 1) % n)).P := by
      intro k
      have hk := Nat.mod_lt k hm
      have := joined_open hk (b4 (k % n) hk).2
      rw [Nat.mod_add_mod] at this
      exact far_ne he this
    have hprop : Proper S.run := by
      refine ⟨?_, fun k => ?_, fun k => ?_, fun k => ?_, fun g hg' => ?_, fun g hg' => ?_, ?_, fun _ k => ?_⟩
      · change 1 ≤ S.n
        rw [hp.len]; exact hn1
      · rintro ⟨x1, x2⟩
        apply hne k
        have y1 := hp.pos k
        have y2 := hp.pos (k + 1)
        simp only [Nat.zero_add] at y1 y2
        rw [hP] at y1 y2
        rw [← y1, ← y2]
        exact Prod.ext x1.symm x2.symm
      · change 3 / 4 ≤ |S.rt k|
        rw [(hp.round rfl k).1]
        simp only [Nat.zero_add]
        have hk := Nat.mod_lt k hm
        have : (ready (realEnv eps) n ks (k % n)).R = (joined (realEnv eps) n ks n (k % n)).R := (b3 _).2
        rw [(R_eq this).2.2]
        exact (good _).1 (b4 _ hk).2
      · change 3 / 4 ≤ |S.lt k|
        rw [(hp.round rfl k).2]
        simp only [Nat.zero_add]
        have hk := Nat.mod_lt k hm
        rw [hly]
        exact (good _).2.1 (b4 _ hk).1
      · change S.start = _ at hg'
        rw [hstart] at hg'; simp at hg'
      · change S.stop = _ at hg'
        rw [hstop] at hg'; simp at hg'
      · change S.start = _ ↔ S.stop = _
        rw [hstart, hstop]; simp
      · change S.x (k + S.n) = S.x k ∧ S.y (k + S.n) = S.y k
        have y1 := hp.pos k
        have y2 := hp.pos (k + n)
        rw [show 0 + (0 + (k + n)) = k + n by omega, Nat.add_mod_right] at y2
        rw [show 0 + (0 + k) = k by omega] at y1
        rw [← y1] at y2
        rw [hp.len]
        exact Prod.mk.inj y2
    obtain ⟨c, c1, -, c3⟩ := hp.seg (n - 1) (by omega)
    obtain ⟨c', c1', c2', -⟩ := hp.seg 0 (by omega)
    rw [show 0 + (0 + (n - 1 + 1)) = n by omega, Nat.mod_self] at c3
    rw [show 0 + (0 + 0) = 0 by omega, Nat.zero_mod] at c2'
    have hSn : S.run.n = n := hp.len
    obtain ⟨T, α, β, t1, t2, t3, t4, t5, t6, t7⟩ := tangent_continuous S.run hprop (n - 1) 0
      (Or.inr ⟨hstop, by omega, rfl⟩) c'.1 c.2 c.1 c'.2 c1 c1'
    rw [run_z hp, show 0 + (0 + 0) = 0 by omega, Nat.zero_mod, hP] at t6 t7
    refine ⟨T, α, β, c'.1, c.2, t1, t2, t3, fun hh' => t4 ?_, fun hh' => t5 ?_, c2', c3, t6, t7⟩
    · change 0 ≤ S.rt 0
      rw [(hp.round rfl 0).1, Nat.add_zero, Nat.zero_mod, (R_eq hR).2.2]; exact hh'
    · change 0 ≤ S.lt (n - 1 + 1)
      rw [(hp.round rfl _).2, Nat.zero_add, show n - 1 + 1 = n by omega, Nat.mod_self, hly, (L_eq jL).2.2]; exact hh'

/-- A direction given for the end of a curve is the direction of the curve there. -/
theorem given_left {eps : ℝ} (he : 0 < eps) {m : ℕ} {ks ks' : Table ℝ} (h : makeChoices (realEnv eps) m ks = some ks')
    {j i : ℕ} (hj : j < m) (hi : (j + 1) % m = i) (f1 : Far (realEnv eps) (ks j).P (ks i).P)
    (hf : (ks j).rt.fixed = false) {v : ℝ} (hl : (ks i).lt = .given) (hv : (ks i).lx = some v) :
    ∃ (β : ℝ) (b : ℝ × ℝ), 0 ≤ β ∧ (0 ≤ (ks i).ly.getD 1 → 0 < β) ∧ (ks' i).L = (.explicit, some b.1, some b.2) ∧
      pt b = pt (ks i).P - β * dir v := by
  have hm : 0 < m := by omega
  have him : i < m := by rw [← hi]; exact Nat.mod_lt _ hm
  have jL : (joined (realEnv eps) m ks m i).L = (ks i).L := by
    have := joined_L (E := realEnv eps) (ks := ks) hj (by rw [hi]; exact f1) (by rw [hi, hl]; exact Or.inl (by simp))
    rw [hi] at this
    exact this
  have jf := joined_free (E := realEnv eps) (m := m) (ks := ks) (j := j) (by rw [hi]; exact f1) hf
  obtain ⟨b1, b2, b3, b4⟩ := breakpoint_spec hm (joined (realEnv eps) m ks m)
  have hP : ∀ a, (ready (realEnv eps) m ks a).P = (ks a).P := fun a => by
    rw [← joined_P (realEnv eps) m ks m a]; exact (b3 a).1
  have hfj : (ready (realEnv eps) m ks j).rt.fixed = false := by
    rw [← jf]; exact congrArg (fun x => x.1.fixed) (b3 j).2
  have hL : (ready (realEnv eps) m ks i).L = (ks i).L := by
    rcases b4 with b4 | ⟨b4, -, -⟩
    · unfold ready
      rw [b4]; exact jL
    · have := (b4 i him).1
      rw [(L_eq jL).1, hl] at this
      simp at this
  obtain ⟨off, o, n, S, h1, h2, h3, hp⟩ := pass_of hm h hj hfj
  generalize (breakpoint m (joined (realEnv eps) m ks m)).1 = hh at *
  have hi' : (hh + (o + 1)) % m = i := by
    rw [← hi, ← h3, Nat.mod_add_mod, Nat.add_assoc]
  have hnm := hp.nm
  have hn1 := hp.n1
  have ho : o + 1 = off + n := by
    by_contra hc
    have := (hp.inner (o + 1 - off) (by omega) (by omega)).1
    rw [show off + (o + 1 - off) = o + 1 by omega, hi', (L_eq hL).1, hl] at this
    simp at this
  have hq : (hh + (off + n)) % m = i := by rw [← ho]; exact hi'
  have hn' : n - 1 + 1 = n := by omega
  have d1 : 0 < S.run.delta (n - 1) := by
    refine run_delta hp (n - 1) ?_
    rw [hn', hq, show off + (n - 1) = o by omega, h3, hP, hP]
    exact far_ne he f1
  have hstop : S.run.stop = .given v := hp.given' v (by rw [hq, (L_eq hL).1]; exact hl) (by rw [hq, (L_eq hL).2.1]; exact hv)
  obtain ⟨c, c1, -, c3⟩ := hp.seg (n - 1) (by omega)
  rw [hn', hq] at c3
  have hSn : S.run.n = n := hp.len
  obtain ⟨β, t1, t2, t3⟩ := last_direction S.run (by omega) (by rw [hSn]; exact d1) v hstop c.1 c.2 (by rw [hSn]; exact c1)
  rw [hSn] at t2 t3
  rw [run_z hp, hq, hP] at t3
  refine ⟨β, c.2, t1, fun hh' => t2 ?_, c3, t3⟩
  change 0 ≤ S.lt n
  have := hp.lt (n - 1) (by omega)
  rw [hn', hq, (L_eq hL).2.2] at this
  rw [this]; exact hh'

/-- A direction given for the start of a curve is the direction of the curve there. -/
theorem given_right {eps : ℝ} (he : 0 < eps) {m : ℕ} {ks ks' : Table ℝ} (h : makeChoices (realEnv eps) m ks = some ks')
    (hg : ∀ a, Good (ks a)) {i : ℕ} (him : i < m) (f2 : Far (realEnv eps) (ks i).P (ks ((i + 1) % m)).P)
    {v : ℝ} (hr : (ks i).rt = .given) (hv : (ks i).rx = some v) :
    ∃ (α : ℝ) (a : ℝ × ℝ), 0 ≤ α ∧ (0 ≤ (ks i).ry.getD 1 → 0 < α) ∧ (ks' i).R = (.explicit, some a.1, some a.2) ∧
      pt a = pt (ks i).P + α * dir v := by
  have hm : 0 < m := by omega
  have jR : (joined (realEnv eps) m ks m i).R = (ks i).R := joined_R f2 (Or.inl (by rw [hr]; simp))
  obtain ⟨b1, b2, b3, b4⟩ := breakpoint_spec hm (joined (realEnv eps) m ks m)
  have hP : ∀ a, (ready (realEnv eps) m ks a).P = (ks a).P := fun a => by
    rw [← joined_P (realEnv eps) m ks m a]; exact (b3 a).1
  have hR : (ready (realEnv eps) m ks i).R = (ks i).R := by
    rw [← jR]; exact (b3 i).2
  have hready : ready (realEnv eps) m ks = joined (realEnv eps) m ks m := by
    rcases b4 with b4 | ⟨b4, -, -⟩
    · exact b4
    · have := (b4 i him).2
      rw [(R_eq jR).1, hr] at this
      simp at this
  obtain ⟨off, o, n, S, h1, h2, h3, hp⟩ := pass_of hm h him (by rw [(R_eq hR).1, hr]; rfl)
  generalize (breakpoint m (joined (realEnv eps) m ks m)).1 = hh at *
  have ho : o = off := by
    by_contra hc
    have := (hp.inner (o - off) (by omega) (by omega)).2
    rw [show off + (o - off) = o by omega, h3, (R_eq hR).1, hr] at this
    simp at this
  subst ho
  have hn1 := hp.n1
  have d1 : 0 < S.run.delta 0 := by
    refine run_delta hp 0 ?_
    have e : (hh + (o + (0 + 1))) % m = (i + 1) % m := by rw [← h3, Nat.mod_add_mod]; congr 1
    rw [e, Nat.add_zero, h3, hP, hP]
    exact far_ne he f2
  have hstart : S.run.start = .given v := hp.given v (by rw [h3, (R_eq hR).1]; exact hr) (by rw [h3, (R_eq hR).2.1]; exact hv)
  have hstop : S.run.stop ≠ .cycle := by
    intro hc
    have := hp.cycle'.mp hc
    rw [hready] at this
    exact (joined_good m hg _).2.2 this
  obtain ⟨c, c1, c2, -⟩ := hp.seg 0 (by omega)
  rw [Nat.add_zero, h3] at c2
  have hSn : S.run.n = n := hp.len
  obtain ⟨α, t1, t2, t3⟩ := first_direction S.run (by omega) d1 hstop v hstart c.1 c.2 c1
  rw [run_z hp, Nat.add_zero, h3, hP] at t3
  refine ⟨α, c.1, t1, fun hh' => t2 ?_, c2, t3⟩
  change 0 ≤ S.rt 0
  rw [hp.rt 0 (by omega), Nat.add_zero, h3, (R_eq hR).2.2]; exact hh'

end PyX.MetaPost
