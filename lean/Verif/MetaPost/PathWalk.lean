import Verif.MetaPost.PathLemmas

/-!
# Lemmas on path construction: the walk round the path deals with every curve exactly once
-/

set_option linter.unusedSectionVars false

namespace PyX.MetaPost

variable {K : Type} [Field K] [LinearOrder K] [IsStrictOrderedRing K]

/-- The curve behind knot `i` has the same data in both tables. -/
def Same (m : ℕ) (ks ks' : Table K) (i : ℕ) : Prop :=
  (ks i).R = (ks' i).R ∧ (ks ((i + 1) % m)).L = (ks' ((i + 1) % m)).L

theorem Same.refl (m : ℕ) (ks : Table K) (i : ℕ) : Same m ks ks i := ⟨rfl, rfl⟩
theorem Same.trans {m : ℕ} {a b c : Table K} {i : ℕ} (h : Same m a b i) (h' : Same m b c i) : Same m a c i :=
  ⟨h.1.trans h'.1, h.2.trans h'.2⟩

theorem add_mod_mod' (h off k m : ℕ) : ((h + off) % m + k) % m = (h + (off + k)) % m := by
  rw [Nat.mod_add_mod, Nat.add_assoc]

theorem add_mod_succ (h off m : ℕ) : ((h + off) % m + 1) % m = (h + 1 + off) % m := by
  rw [Nat.mod_add_mod]; congr 1; omega

/-- A pass from offset `off` over `n` curves leaves the other curves alone. -/
theorem walkStep_same {E : Env K} {m h off n : ℕ} {ks ks' : Table K} (hm : 0 < m)
    (hs : walkStep E m ks ((h + off) % m) = some (n, ks')) (hn : off + n ≤ m) (o : ℕ) (ho : o < m)
    (hout : o < off ∨ off + n ≤ o) : Same m ks ks' ((h + o) % m) := by
  obtain ⟨-, -, -, s1, s2, -⟩ := walkStep_spec (Nat.mod_lt _ hm) hs
  constructor
  · refine (s1 _ fun k hk he => ?_).symm
    rw [add_mod_mod'] at he
    have := mod_inj ho (by omega) he
    omega
  · refine (s2 _ fun k hk he => ?_).symm
    rw [add_mod_succ, show (h + off) % m + k + 1 = (h + off) % m + (k + 1) by omega, add_mod_mod',
      show h + (off + (k + 1)) = h + 1 + (off + k) by omega] at he
    have := mod_inj ho (by omega) he
    omega

/-- Breakpoints remain breakpoints. -/
theorem walkStep_brk {E : Env K} {m p n : ℕ} {ks ks' : Table K} (hp : p < m)
    (hs : walkStep E m ks p = some (n, ks')) (a : ℕ) (hb : (ks a).brk = true) : (ks' a).brk = true := by
  obtain ⟨-, -, -, s1, s2, s3⟩ := walkStep_spec hp hs
  rcases s3 with hS | ⟨-, -, ht, -⟩
  · obtain ⟨ks1, ks2, R, -, -, -, hk⟩ := hS.run
    by_cases h1 : ∃ k < n, a = (p + k) % m
    · obtain ⟨k, hkn, rfl⟩ := h1
      obtain ⟨c, -, hr, -⟩ := hk k hkn
      have : (ks' ((p + k) % m)).rt = .explicit := congrArg Prod.fst hr
      simp [Knot.brk, this]
    · by_cases h2 : ∃ k < n, a = (p + k + 1) % m
      · obtain ⟨k, hkn, rfl⟩ := h2
        obtain ⟨c, -, -, hl⟩ := hk k hkn
        have : (ks' ((p + k + 1) % m)).lt = .explicit := congrArg Prod.fst hl
        simp [Knot.brk, this]
      · push Not at h1 h2
        have e1 := (R_eq (s1 a h1)).1
        have e2 := (L_eq (s2 a h2)).1
        simpa [Knot.brk, e1, e2] using hb
  · simpa [Knot.brk, (ht a).1, (ht a).2] using hb

/-- A pass ends at the first breakpoint at the latest. -/
theorem walkStep_bound {E : Env K} {m h off n : ℕ} {ks ks' : Table K} (hh : h < m) (ho : off < m)
    (hs : walkStep E m ks ((h + off) % m) = some (n, ks')) (hb : (ks h).brk = true) : 1 ≤ n ∧ off + n ≤ m := by
  obtain ⟨s0, -, -, -, -, s3⟩ := walkStep_spec (Nat.mod_lt _ (by omega)) hs
  refine ⟨s0, ?_⟩
  rcases s3 with hS | ⟨-, h1, -⟩
  · obtain ⟨-, -, -, h4⟩ := runLength_spec hS.len
    by_contra hc
    have := h4 (m - off) (by omega) (by omega)
    rw [add_mod_mod', show h + (off + (m - off)) = h + m by omega, Nat.add_mod_right, Nat.mod_eq_of_lt hh] at this
    simp [Knot.brk, this] at hb
  · omega

/-- The walk from offset `off`: the curves before are left alone, and each of the others is dealt with in one
pass, which finds it and all later ones unchanged, and whose result is final. -/
theorem walk_covers {E : Env K} {m h : ℕ} (hh : h < m) (fuel off : ℕ) (ks ks' : Table K)
    (hw : walk E m h fuel off ks = some ks') (hb : (ks h).brk = true) :
    (∀ a, (ks' a).P = (ks a).P) ∧ (∀ o < m, o < off → Same m ks ks' ((h + o) % m)) ∧
    ∀ o, off ≤ o → o < m → ∃ off1 n ks1 ks2, off ≤ off1 ∧ off1 ≤ o ∧ o < off1 + n ∧ off1 + n ≤ m ∧
      walkStep E m ks1 ((h + off1) % m) = some (n, ks2) ∧ (∀ a, (ks1 a).P = (ks a).P) ∧
      (∀ o', off1 ≤ o' → o' < m → Same m ks ks1 ((h + o') % m)) ∧
      ∀ o', off1 ≤ o' → o' < off1 + n → Same m ks2 ks' ((h + o') % m) := by
  induction fuel generalizing off ks with
  | zero =>
    unfold walk at hw
    split_ifs at hw with hm
    simp only [Option.some.injEq] at hw
    rw [hw]
    exact ⟨fun a => rfl, fun o _ _ => Same.refl _ _ _, fun o h1 h2 => by omega⟩
  | succ fuel ih =>
    unfold walk at hw
    split_ifs at hw with hm
    · simp only [Option.some.injEq] at hw
      rw [hw]
      exact ⟨fun a => rfl, fun o _ _ => Same.refl _ _ _, fun o h1 h2 => by omega⟩
    · simp only [Option.bind_eq_some_iff] at hw
      obtain ⟨⟨n, ks2⟩, hs, hw⟩ := hw
      simp only at hw
      obtain ⟨n1, n2⟩ := walkStep_bound hh (by omega) hs hb
      obtain ⟨-, -, sP, -⟩ := walkStep_spec (Nat.mod_lt _ (by omega)) hs
      obtain ⟨i1, i2, i3⟩ := ih (off + n) ks2 hw (walkStep_brk (Nat.mod_lt _ (by omega)) hs h hb)
      refine ⟨fun a => by rw [i1, sP], fun o ho1 ho2 => ?_, fun o ho1 ho2 => ?_⟩
      · exact (walkStep_same (by omega) hs n2 o ho1 (Or.inl ho2)).trans (i2 o ho1 (by omega))
      · by_cases hlt : o < off + n
        · exact ⟨off, n, ks, ks2, le_rfl, ho1, hlt, n2, hs, fun a => rfl, fun o' _ _ => Same.refl _ _ _,
            fun o' _ h2 => i2 o' (by omega) h2⟩
        · obtain ⟨off1, n', k1, k2, j1, j2, j3, j4, j5, j6, j7, j8⟩ := i3 o (by omega) ho2
          refine ⟨off1, n', k1, k2, by omega, j2, j3, j4, j5, fun a => by rw [j6, sP], fun o' h1 h2 => ?_, j8⟩
          exact (walkStep_same (by omega) hs n2 o' h2 (Or.inr (by omega))).trans (j7 o' h1 h2)

theorem breakpoint_spec {m : ℕ} (hm : 0 < m) (ks : Table K) :
    (breakpoint m ks).1 < m ∧ ((breakpoint m ks).2 (breakpoint m ks).1).brk = true ∧
    (∀ a, ((breakpoint m ks).2 a).P = (ks a).P ∧ ((breakpoint m ks).2 a).R = (ks a).R) ∧
    ((breakpoint m ks).2 = ks ∨
      ((∀ i < m, (ks i).lt = .opn ∧ (ks i).rt = .opn) ∧ (breakpoint m ks).1 = 0 ∧
        (breakpoint m ks).2 = mod ks 0 fun k => k.setL .endCycle k.lx k.ly)) := by
  rcases e : (List.range m).find? fun i => (ks i).brk with _ | i
  · have hb : breakpoint m ks = (0, mod ks 0 fun k => k.setL .endCycle k.lx k.ly) := by
      unfold breakpoint
      rw [e]
    rw [hb]
    refine ⟨hm, ?_, fun a => ⟨mL_P _ _ _ _ _ _, mL_R _ _ _ _ _ _⟩, Or.inr ⟨fun i hi => ?_, rfl, rfl⟩⟩
    · change (mod ks 0 _ 0).brk = true
      rw [mod_same]
      simp [Knot.brk, Knot.setL]
    · rw [List.find?_eq_none] at e
      have := e i (List.mem_range.mpr hi)
      simpa [Knot.brk] using this
  · have hb : breakpoint m ks = (i, ks) := by
      unfold breakpoint
      rw [e]
    rw [hb]
    have h1 := List.find?_some e
    have h2 := List.mem_of_find?_eq_some e
    exact ⟨List.mem_range.mp h2, h1, fun a => ⟨rfl, rfl⟩, Or.inl rfl⟩

/-- Offset of a knot from the first breakpoint. -/
theorem exists_offset {m h i : ℕ} (hh : h < m) (hi : i < m) : ∃ o < m, (h + o) % m = i := by
  by_cases hle : h ≤ i
  · exact ⟨i - h, by omega, by rw [show h + (i - h) = i by omega, Nat.mod_eq_of_lt hi]⟩
  · refine ⟨i + m - h, by omega, ?_⟩
    rw [show h + (i + m - h) = i + m by omega, Nat.add_mod_right, Nat.mod_eq_of_lt hi]

/-- The table the walk starts with. -/
def ready (E : Env K) (m : ℕ) (ks : Table K) : Table K := (breakpoint m (joined E m ks m)).2

/-- **Every curve is dealt with in one pass.** -/
theorem makeChoices_covers {E : Env K} {m : ℕ} {ks ks' : Table K} (hm : 0 < m) (h : makeChoices E m ks = some ks')
    (i : ℕ) (hi : i < m) :
    ∃ off o n ks1 ks2, (breakpoint m (joined E m ks m)).1 < m ∧ off ≤ o ∧ o < off + n ∧ off + n ≤ m ∧ 
      ((breakpoint m (joined E m ks m)).1 + o) % m = i ∧
      walkStep E m ks1 (((breakpoint m (joined E m ks m)).1 + off) % m) = some (n, ks2) ∧
      (∀ a, (ks1 a).P = (ks a).P) ∧
      (∀ o', off ≤ o' → o' < m → Same m (ready E m ks) ks1 (((breakpoint m (joined E m ks m)).1 + o') % m)) ∧
      (∀ o', off ≤ o' → o' < off + n → Same m ks2 ks' (((breakpoint m (joined E m ks m)).1 + o') % m)) := by
  obtain ⟨b1, b2, b3, -⟩ := breakpoint_spec hm (joined E m ks m)
  obtain ⟨o, ho, rfl⟩ := exists_offset b1 hi
  obtain ⟨-, -, hc⟩ := walk_covers b1 m 0 _ _ h b2
  obtain ⟨off1, n, ks1, ks2, h1, h2, h3, h4, h5, h6, h7, h8⟩ := hc o (Nat.zero_le _) ho
  exact ⟨off1, o, n, ks1, ks2, b1, h2, h3, h4, rfl, h5, fun a => by rw [h6, (b3 a).1, joined_P], h7, h8⟩

theorem makeChoices_P {E : Env K} {m : ℕ} {ks ks' : Table K} (hm : 0 < m) (h : makeChoices E m ks = some ks') (a : ℕ) :
    (ks' a).P = (ks a).P := by
  obtain ⟨b1, b2, b3, -⟩ := breakpoint_spec hm (joined E m ks m)
  obtain ⟨h1, -, -⟩ := walk_covers b1 m 0 _ _ h b2
  rw [h1, (b3 a).1, joined_P]

end PyX.MetaPost
