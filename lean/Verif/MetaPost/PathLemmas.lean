import Verif.MetaPost.Path
import Mathlib.Data.Nat.ModEq
import Mathlib.Tactic.SplitIfs

/-!
# Lemmas on path construction: which sides of which knots the single steps change
-/

set_option linter.unusedSectionVars false

namespace PyX.MetaPost

variable {K : Type} [Field K] [LinearOrder K] [IsStrictOrderedRing K]

/-- Position, left side and right side of a knot. -/
def Knot.P (k : Knot K) : K × K := (k.x, k.y)
def Knot.L (k : Knot K) : Typ × Option K × Option K := (k.lt, k.lx, k.ly)
def Knot.R (k : Knot K) : Typ × Option K × Option K := (k.rt, k.rx, k.ry)

@[simp] theorem setL_P (k : Knot K) (t a b) : (k.setL t a b).P = k.P := rfl
@[simp] theorem setL_R (k : Knot K) (t a b) : (k.setL t a b).R = k.R := rfl
@[simp] theorem setL_L (k : Knot K) (t a b) : (k.setL t a b).L = (t, a, b) := rfl
@[simp] theorem setR_P (k : Knot K) (t a b) : (k.setR t a b).P = k.P := rfl
@[simp] theorem setR_L (k : Knot K) (t a b) : (k.setR t a b).L = k.L := rfl
@[simp] theorem setR_R (k : Knot K) (t a b) : (k.setR t a b).R = (t, a, b) := rfl

theorem mod_same (ks : Table K) (i : ℕ) (f) : mod ks i f i = f (ks i) := by simp [mod]
theorem mod_ne (ks : Table K) {i j : ℕ} (f) (h : j ≠ i) : mod ks i f j = ks j := by simp [mod, h]

/-- A change that keeps some part of the knot keeps that part of all knots. -/
theorem mod_proj {α : Type} (g : Knot K → α) (ks : Table K) (i j : ℕ) (f) (h : g (f (ks i)) = g (ks i)) :
    g (mod ks i f j) = g (ks j) := by
  by_cases e : j = i
  · subst e; rw [mod_same, h]
  · rw [mod_ne _ _ e]

section
variable (ks : Table K) (i j : ℕ) (t : Knot K → Typ) (a b : Knot K → Option K) (c : Knot K → Prop) [DecidablePred c]

theorem mL_P : (mod ks i (fun k => k.setL (t k) (a k) (b k)) j).P = (ks j).P := mod_proj _ _ _ _ _ rfl
theorem mL_R : (mod ks i (fun k => k.setL (t k) (a k) (b k)) j).R = (ks j).R := mod_proj _ _ _ _ _ rfl
theorem mR_P : (mod ks i (fun k => k.setR (t k) (a k) (b k)) j).P = (ks j).P := mod_proj _ _ _ _ _ rfl
theorem mR_L : (mod ks i (fun k => k.setR (t k) (a k) (b k)) j).L = (ks j).L := mod_proj _ _ _ _ _ rfl
theorem iL_P : (mod ks i (fun k => if c k then k.setL (t k) (a k) (b k) else k) j).P = (ks j).P :=
  mod_proj _ _ _ _ _ (by split_ifs <;> rfl)
theorem iL_R : (mod ks i (fun k => if c k then k.setL (t k) (a k) (b k) else k) j).R = (ks j).R :=
  mod_proj _ _ _ _ _ (by split_ifs <;> rfl)
theorem iR_P : (mod ks i (fun k => if c k then k.setR (t k) (a k) (b k) else k) j).P = (ks j).P :=
  mod_proj _ _ _ _ _ (by split_ifs <;> rfl)
theorem iR_L : (mod ks i (fun k => if c k then k.setR (t k) (a k) (b k) else k) j).L = (ks j).L :=
  mod_proj _ _ _ _ _ (by split_ifs <;> rfl)
theorem mL_rt : (mod ks i (fun k => k.setL (t k) (a k) (b k)) j).rt = (ks j).rt :=
  mod_proj (fun k => k.rt) _ _ _ _ rfl
theorem mL_rx : (mod ks i (fun k => k.setL (t k) (a k) (b k)) j).rx = (ks j).rx :=
  mod_proj (fun k => k.rx) _ _ _ _ rfl
theorem mL_ry : (mod ks i (fun k => k.setL (t k) (a k) (b k)) j).ry = (ks j).ry :=
  mod_proj (fun k => k.ry) _ _ _ _ rfl
theorem mR_lt : (mod ks i (fun k => k.setR (t k) (a k) (b k)) j).lt = (ks j).lt :=
  mod_proj (fun k => k.lt) _ _ _ _ rfl
theorem mR_lx : (mod ks i (fun k => k.setR (t k) (a k) (b k)) j).lx = (ks j).lx :=
  mod_proj (fun k => k.lx) _ _ _ _ rfl
theorem mR_ly : (mod ks i (fun k => k.setR (t k) (a k) (b k)) j).ly = (ks j).ly :=
  mod_proj (fun k => k.ly) _ _ _ _ rfl
end

theorem R_eq {k k' : Knot K} (h : k.R = k'.R) : k.rt = k'.rt ∧ k.rx = k'.rx ∧ k.ry = k'.ry := by
  simpa [Knot.R] using h
theorem L_eq {k k' : Knot K} (h : k.L = k'.L) : k.lt = k'.lt ∧ k.lx = k'.lx ∧ k.ly = k'.ly := by
  simpa [Knot.L] using h
theorem P_eq {k k' : Knot K} (h : k.P = k'.P) : k.x = k'.x ∧ k.y = k'.y := by
  simpa [Knot.P] using h

/-! ## Links -/

theorem setKnots_P {E : Env K} {ks ks' : Table K} {i j : ℕ} {l : Link K} (h : setKnots E ks i j l = some ks') (a : ℕ) :
    (ks' a).P = (ks a).P := by
  cases l with
  | line keep =>
    simp only [setKnots] at h
    split_ifs at h
    · simp only [Option.some.injEq] at h
      rw [← h]
      rw [mR_P, mL_P, mL_P,
        mR_P]
    · simp only [Option.some.injEq] at h
      rw [← h]
      rw [mL_P, mR_P]
  | control l r =>
    simp only [setKnots, Option.some.injEq] at h
    rw [← h]
    rw [mL_P, mR_P]
  | tension l r =>
    simp only [setKnots] at h
    split_ifs at h
    simp only [Option.some.injEq] at h
    rw [← h]
    rw [mL_P, mR_P]

/-- A link changes the right side of its first knot; only a line that keeps angles changes that of the second. -/
theorem setKnots_R {E : Env K} {ks ks' : Table K} {i j : ℕ} {l : Link K} (h : setKnots E ks i j l = some ks') {a : ℕ}
    (h1 : a ≠ i) (h2 : l = .line true → a ≠ j) : (ks' a).R = (ks a).R := by
  cases l with
  | line keep =>
    simp only [setKnots] at h
    split_ifs at h with hk
    · simp only [Option.some.injEq] at h
      subst hk
      rw [← h, mod_ne _ _ (h2 rfl), mL_R, mL_R, mod_ne _ _ h1]
    · simp only [Option.some.injEq] at h
      rw [← h]
      rw [mL_R, mod_ne _ _ h1]
  | control l r =>
    simp only [setKnots, Option.some.injEq] at h
    rw [← h]
    rw [mL_R, mod_ne _ _ h1]
  | tension l r =>
    simp only [setKnots] at h
    split_ifs at h
    simp only [Option.some.injEq] at h
    rw [← h]
    rw [mL_R, mod_ne _ _ h1]

theorem setKnots_L {E : Env K} {ks ks' : Table K} {i j : ℕ} {l : Link K} (h : setKnots E ks i j l = some ks') {a : ℕ}
    (h1 : a ≠ j) (h2 : l = .line true → a ≠ i) : (ks' a).L = (ks a).L := by
  cases l with
  | line keep =>
    simp only [setKnots] at h
    split_ifs at h with hk
    · simp only [Option.some.injEq] at h
      subst hk
      rw [← h, mR_L, mod_ne _ _ (h2 rfl), mod_ne _ _ h1, mR_L]
    · simp only [Option.some.injEq] at h
      rw [← h]
      rw [mod_ne _ _ h1, mR_L]
  | control l r =>
    simp only [setKnots, Option.some.injEq] at h
    rw [← h]
    rw [mod_ne _ _ h1, mR_L]
  | tension l r =>
    simp only [setKnots] at h
    split_ifs at h
    simp only [Option.some.injEq] at h
    rw [← h]
    rw [mod_ne _ _ h1, mR_L]

theorem setKnots_control {E : Env K} {ks ks' : Table K} {i j : ℕ} {l r : K × K}
    (h : setKnots E ks i j (.control l r) = some ks') :
    (ks' i).R = (.explicit, some l.1, some l.2) ∧ (ks' j).L = (.explicit, some r.1, some r.2) := by
  simp only [setKnots, Option.some.injEq] at h
  rw [← h]
  constructor
  · rw [mL_R, mod_same, setR_R]
  · rw [mod_same, setL_L]

theorem setKnots_tension {E : Env K} {ks ks' : Table K} {i j : ℕ} {l r : K}
    (h : setKnots E ks i j (.tension l r) = some ks') :
    (ks i).rt.fixed = false ∧ (ks j).lt.fixed = false ∧
    (ks' i).R = ((ks i).rt, (ks i).rx, some l) ∧ (ks' j).L = ((ks j).lt, (ks j).lx, some r) := by
  simp only [setKnots] at h
  split_ifs at h with hc
  simp only [Option.some.injEq] at h
  simp only [Bool.or_eq_true, not_or, Bool.not_eq_true] at hc
  refine ⟨hc.1, hc.2, ?_, ?_⟩
  · rw [← h, mL_R, mod_same, setR_R]
  · rw [← h, mod_same, setL_L]
    have := mod_proj Knot.L ks i j (fun k => k.setR k.rt k.rx (some l)) (by simp)
    rw [(L_eq this).1, (L_eq this).2.1]

/-- A right side that is not fixed stays so, except at the first knot of a line. -/
theorem setKnots_line {E : Env K} {ks ks' : Table K} {i j : ℕ} {keep : Bool}
    (h : setKnots E ks i j (.line keep) = some ks') :
    (keep = false → (ks' i).R = (.endpoint, none, none) ∧ (ks' j).L = (.endpoint, none, none)) ∧
    (keep = true → (i ≠ j → (ks' i).R = (.endpoint, none, none) ∧ (ks' j).L = (.endpoint, none, none)) ∧
      (ks' i).lt = .given ∧ (ks' i).lx = some (E.arg ((ks j).x - (ks i).x) ((ks j).y - (ks i).y)) ∧
      (ks' j).rt = .given ∧ (ks' j).rx = some (E.arg ((ks j).x - (ks i).x) ((ks j).y - (ks i).y)) ∧
      (i ≠ j → (ks' i).ly = (ks i).ly ∧ (ks' j).ry = (ks j).ry)) := by
  simp only [setKnots] at h
  split_ifs at h with hk
  · simp only [Option.some.injEq] at h
    subst hk
    refine ⟨fun h => by simp at h, fun _ => ⟨fun hij => ?_, ?_, ?_, ?_, ?_, fun hij => ?_⟩⟩
    · rw [← h]
      constructor
      · rw [mod_ne _ _ hij, mod_same, setL_R, mod_ne _ _ hij, mod_same, setR_R]
      · rw [mod_same, setR_L, mod_ne _ _ (Ne.symm hij), mod_same, setL_L]
    · rw [← h]
      rw [mod_proj (fun k => k.lt) _ _ _ _ rfl, mod_same]; rfl
    · rw [← h]
      rw [mod_proj (fun k => k.lx) _ _ _ _ rfl, mod_same]; rfl
    · rw [← h, mod_same]; rfl
    · rw [← h, mod_same]; rfl
    · rw [← h]
      constructor
      · rw [mod_ne _ _ hij, mod_same]
        change (mod (mod ks i _) j _ i).ly = _
        rw [mod_ne _ _ hij, mod_same]; rfl
      · rw [mod_same]
        change (mod (mod (mod ks i _) j _) i _ j).ry = _
        rw [mod_ne _ _ (Ne.symm hij), mod_same]
        change (mod ks i _ j).ry = _
        rw [mod_ne _ _ (Ne.symm hij)]
  · simp only [Option.some.injEq] at h
    refine ⟨fun _ => ?_, fun h' => absurd h' hk⟩
    rw [← h]
    constructor
    · rw [mL_R, mod_same, setR_R]
    · rw [mod_same, setL_L]

theorem linkStep_P {E : Env K} {m i : ℕ} {l : Option (Link K)} {ks ks' : Table K} (h : linkStep E m i l ks = some ks')
    (a : ℕ) : (ks' a).P = (ks a).P := by
  cases l with
  | none => simp only [linkStep, Option.some.injEq] at h; rw [h]
  | some l => exact setKnots_P h a

theorem linked_succ {E : Env K} {es : Elems K} {i : ℕ} {ks : Table K} (h : linked E es (i + 1) = some ks) :
    ∃ ks0, linked E es i = some ks0 ∧ linkStep E es.length i (link es i) ks0 = some ks := by
  simpa [linked, Option.bind_eq_some_iff] using h

theorem linked_le {E : Env K} {es : Elems K} {i j : ℕ} {ks : Table K} (h : linked E es j = some ks) (hij : i ≤ j) :
    ∃ ks0, linked E es i = some ks0 := by
  induction j generalizing ks with
  | zero => obtain rfl : i = 0 := by omega
            exact ⟨ks, h⟩
  | succ j ih =>
    by_cases e : i = j + 1
    · subst e; exact ⟨ks, h⟩
    · obtain ⟨ks0, h0, -⟩ := linked_succ h
      exact ih h0 (by omega)

theorem linked_P {E : Env K} {es : Elems K} {i : ℕ} {ks : Table K} (h : linked E es i = some ks) (a : ℕ) :
    (ks a).P = (initial es a).P := by
  induction i generalizing ks with
  | zero => simp only [linked, Option.some.injEq] at h; rw [h]
  | succ i ih =>
    obtain ⟨ks0, h0, h1⟩ := linked_succ h
    rw [linkStep_P h1, ih h0]

/-- Invariants of the loop over the links. -/
theorem linked_inv {E : Env K} {es : Elems K} (Q : Table K → Prop) {i j : ℕ} {ks0 ks : Table K} (hij : i ≤ j)
    (h0 : linked E es i = some ks0) (h : linked E es j = some ks) (hq : Q ks0)
    (step : ∀ t, i ≤ t → t < j → ∀ ks ks', Q ks → linkStep E es.length t (link es t) ks = some ks' → Q ks') : Q ks := by
  induction j generalizing ks with
  | zero =>
    obtain rfl : i = 0 := by omega
    rw [h0] at h
    simp only [Option.some.injEq] at h
    rwa [← h]
  | succ j ih =>
    by_cases e : i = j + 1
    · subst e
      rw [h0] at h
      simp only [Option.some.injEq] at h
      rwa [← h]
    · obtain ⟨ks1, h1, h2⟩ := linked_succ h
      exact step j (by omega) (by omega) ks1 ks
        (ih (by omega) h1 fun t ht1 ht2 => step t ht1 (by omega)) h2

/-! ## Joining equal knots -/

theorem joinStep_P (E : Env K) (ks : Table K) (i j a : ℕ) : (joinStep E ks i j a).P = (ks a).P := by
  unfold joinStep
  split_ifs
  · simp only
    rw [mL_P, mR_P, iR_P,
      mL_P, iL_P, mR_P]
  · rfl

theorem joined_P (E : Env K) (m : ℕ) (ks : Table K) (i a : ℕ) : (joined E m ks i a).P = (ks a).P := by
  induction i with
  | zero => rfl
  | succ i ih => rw [joined, joinStep_P, ih]

/-- The pair of knots is left alone. -/
def Apart (E : Env K) (k k' : Knot K) : Prop :=
  k.rt.fixed = true ∨ E.eps ^ 2 ≤ (k.x - k'.x) ^ 2 + (k.y - k'.y) ^ 2

theorem joinStep_apart {E : Env K} {ks : Table K} {i j : ℕ} (h : Apart E (ks i) (ks j)) : joinStep E ks i j = ks := by
  unfold joinStep
  rw [if_neg]
  rintro ⟨h1, h2⟩
  rcases h with h | h
  · rw [h1] at h; simp at h
  · exact absurd h2 (not_lt.mpr h)

/-- The right side of a knot is changed only when it is joined to the next one or when it is open. -/
theorem joinStep_R (E : Env K) (ks : Table K) (i j a : ℕ)
    (h : a ≠ i ∨ Apart E (ks i) (ks j)) :
    (joinStep E ks i j a).R = (ks a).R ∨
      (a = j ∧ (ks a).rt = .opn ∧ (joinStep E ks i j a).R = (.curl, some 1, (ks a).ry)) := by
  by_cases hA : Apart E (ks i) (ks j)
  · rw [joinStep_apart hA]; exact Or.inl rfl
  · have hi : a ≠ i := h.resolve_right hA
    unfold joinStep
    split_ifs
    · simp only
      rw [mL_R, mod_ne _ _ hi]
      by_cases ha : a = j
      · subst ha
        rw [mod_same, mod_same, mod_ne _ _ hi, mod_ne _ _ hi]
        simp only
        split_ifs with ho
        · right
          exact ⟨trivial, ho, rfl⟩
        · left
          rfl
      · left
        rw [mod_ne _ _ ha, mod_ne _ _ ha, mod_ne _ _ hi, mod_ne _ _ hi]
    · exact Or.inl rfl

/-- The left side of a knot is changed only when it is joined to the one before or when it is open. -/
theorem joinStep_L (E : Env K) (ks : Table K) (i j a : ℕ)
    (h : a ≠ j ∨ Apart E (ks i) (ks j)) :
    (joinStep E ks i j a).L = (ks a).L ∨
      (a = i ∧ (ks a).lt = .opn ∧ (joinStep E ks i j a).L = (.curl, some 1, (ks a).ly)) := by
  by_cases hA : Apart E (ks i) (ks j)
  · rw [joinStep_apart hA]; exact Or.inl rfl
  · have hj : a ≠ j := h.resolve_right hA
    unfold joinStep
    split_ifs
    · simp only
      rw [mod_ne _ _ hj, mR_L, mod_ne _ _ hj, mod_ne _ _ hj]
      by_cases ha : a = i
      · subst ha
        rw [mod_same, mod_same]
        simp only
        split_ifs with ho
        · right
          exact ⟨trivial, ho, rfl⟩
        · left
          rfl
      · left
        rw [mod_ne _ _ ha, mod_ne _ _ ha]
    · exact Or.inl rfl

/-- Invariants of the loop that joins equal knots. -/
theorem joined_inv {E : Env K} {m : ℕ} (Q : Table K → Prop) {ks : Table K} (n : ℕ) (hq : Q ks)
    (step : ∀ t, t < n → ∀ ks, Q ks → Q (joinStep E ks t ((t + 1) % m))) : Q (joined E m ks n) := by
  induction n with
  | zero => exact hq
  | succ n ih => exact step n (by omega) _ (ih fun t ht => step t (by omega))

/-! ## The walk round the path -/

theorem mod_inj {m p a b : ℕ} (ha : a < m) (hb : b < m) (h : (p + a) % m = (p + b) % m) : a = b := by
  have := Nat.ModEq.add_left_cancel' p h
  rwa [Nat.ModEq, Nat.mod_eq_of_lt ha, Nat.mod_eq_of_lt hb] at this

theorem closeEnd_spec {E : Env K} {ks ks' : Table K} {q : ℕ} (h : closeEnd E ks q = some ks') :
    (∀ a, (ks' a).P = (ks a).P ∧ (ks' a).R = (ks a).R ∧ (ks' a).ly = (ks a).ly ∧
      (a ≠ q → (ks' a).L = (ks a).L)) ∧ ((ks q).lt ≠ .opn → ks' = ks) := by
  unfold closeEnd at h
  split_ifs at h with ho
  · simp only [Option.bind_eq_some_iff, Option.map_eq_some_iff] at h
    obtain ⟨rx, hrx, ry, hry, h⟩ := h
    refine ⟨fun a => ⟨?_, ?_, ?_, ?_⟩, fun h' => absurd ho h'⟩
    · rw [← h, mL_P]
    · rw [← h, mL_R]
    · rw [← h, mod_proj (fun k => k.ly) _ _ _ _ rfl]
    · intro ha
      rw [← h, mod_ne _ _ ha]
  · simp only [Option.some.injEq] at h
    rw [h]
    exact ⟨fun a => ⟨rfl, rfl, rfl, fun _ => rfl⟩, fun _ => rfl⟩

theorem closeStart_spec {E : Env K} {ks ks' : Table K} {p : ℕ} (h : closeStart E ks p = some ks') :
    (∀ a, (ks' a).P = (ks a).P ∧ (ks' a).L = (ks a).L ∧ (ks' a).ry = (ks a).ry ∧
      (a ≠ p → (ks' a).R = (ks a).R)) ∧ ((ks p).rt ≠ .opn → ks' = ks) := by
  unfold closeStart at h
  split_ifs at h with ho
  · simp only [Option.bind_eq_some_iff, Option.map_eq_some_iff] at h
    obtain ⟨rx, hrx, ry, hry, h⟩ := h
    refine ⟨fun a => ⟨?_, ?_, ?_, ?_⟩, fun h' => absurd ho.1 h'⟩
    · rw [← h, mR_P]
    · rw [← h, mR_L]
    · rw [← h, mod_proj (fun k => k.ry) _ _ _ _ rfl]
    · intro ha
      rw [← h, mod_ne _ _ ha]
  · simp only [Option.some.injEq] at h
    rw [h]
    exact ⟨fun a => ⟨rfl, rfl, rfl, fun _ => rfl⟩, fun _ => rfl⟩

theorem store_spec {S : ℕ → Option ((K × K) × (K × K))} {m : ℕ} {ks ks' : Table K} {p n : ℕ} (hn : n ≤ m)
    (h : store S m ks p n = some ks') :
    (∀ a, (ks' a).P = (ks a).P) ∧
    (∀ a, (∀ k < n, a ≠ (p + k) % m) → (ks' a).R = (ks a).R) ∧
    (∀ a, (∀ k < n, a ≠ (p + k + 1) % m) → (ks' a).L = (ks a).L) ∧
    (∀ k < n, ∃ c, S k = some c ∧ (ks' ((p + k) % m)).R = (.explicit, some c.1.1, some c.1.2) ∧
      (ks' ((p + k + 1) % m)).L = (.explicit, some c.2.1, some c.2.2)) := by
  induction n generalizing ks' with
  | zero =>
    simp only [store, Option.some.injEq] at h
    rw [h]
    exact ⟨fun a => rfl, fun a _ => rfl, fun a _ => rfl, fun k hk => by omega⟩
  | succ n ih =>
    simp only [store, Option.bind_eq_some_iff, Option.map_eq_some_iff] at h
    obtain ⟨ks1, h1, c, hc, h⟩ := h
    obtain ⟨i1, i2, i3, i4⟩ := ih (by omega) h1
    refine ⟨fun a => ?_, fun a ha => ?_, fun a ha => ?_, fun k hk => ?_⟩
    · rw [← h, mL_P, mR_P, i1]
    · rw [← h, mL_R, mod_ne _ _ (ha n (by omega)), i2 a fun k hk => ha k (by omega)]
    · rw [← h, mod_ne _ _ (ha n (by omega)), mR_L, i3 a fun k hk => ha k (by omega)]
    · by_cases e : k = n
      · subst e
        refine ⟨c, hc, ?_, ?_⟩
        · rw [← h, mL_R, mod_same, setR_R]
        · rw [← h, mod_same, setL_L]
      · obtain ⟨c', hc', e1, e2⟩ := i4 k (by omega)
        refine ⟨c', hc', ?_, ?_⟩
        · rw [← h, mL_R, mod_ne, e1]
          intro he
          exact e (mod_inj (by omega) (by omega) he)
        · rw [← h, mod_ne, mR_L, e2]
          intro he
          have : (p + 1 + k) % m = (p + 1 + n) % m := by
            rw [show p + 1 + k = p + k + 1 by omega, show p + 1 + n = p + n + 1 by omega]
            exact he
          exact e (mod_inj (by omega) (by omega) this)

theorem runLength_spec {m : ℕ} {ks : Table K} {p n : ℕ} (h : runLength m ks p = some n) :
    1 ≤ n ∧ n ≤ m ∧ (ks ((p + n) % m)).brk = true ∧
      ∀ k, 1 ≤ k → k < n → (ks ((p + k) % m)).lt = .opn ∧ (ks ((p + k) % m)).rt = .opn := by
  simp only [runLength, Option.map_eq_some_iff] at h
  obtain ⟨a, ha, rfl⟩ := h
  rw [List.find?_range_eq_some] at ha
  obtain ⟨h1, h2, h3⟩ := ha
  simp only [List.mem_range] at h2
  refine ⟨by omega, by omega, h1, fun k hk1 hk2 => ?_⟩
  have := h3 (k - 1) (by omega)
  rw [show p + (k - 1) + 1 = p + k by omega] at this
  simpa [Knot.brk] using this

/-- What one pass of the loop does when the curves of a run are chosen. -/
structure Solved (E : Env K) (m : ℕ) (ks : Table K) (p n : ℕ) (ks' : Table K) : Prop where
  free : (ks p).rt.fixed = false
  len : runLength m ks p = some n
  run : ∃ ks1 ks2 R, closeEnd E ks ((p + n) % m) = some ks1 ∧ closeStart E ks1 p = some ks2 ∧
    stretch m ks2 p n = some R ∧ ∀ k < n, ∃ c, E.solve R k = some c ∧
      (ks' ((p + k) % m)).R = (.explicit, some c.1.1, some c.1.2) ∧
      (ks' ((p + k + 1) % m)).L = (.explicit, some c.2.1, some c.2.2)
  ends : ∃ s, stopOf s ≠ none ∧ ((ks ((p + n) % m)).lt ≠ .opn → s.L = (ks ((p + n) % m)).L)

/-- What one pass of the loop changes. -/
theorem walkStep_spec {E : Env K} {m : ℕ} {ks ks' : Table K} {p n : ℕ} (hp : p < m)
    (h : walkStep E m ks p = some (n, ks')) :
    1 ≤ n ∧ n ≤ m ∧ (∀ a, (ks' a).P = (ks a).P) ∧
    (∀ a, (∀ k < n, a ≠ (p + k) % m) → (ks' a).R = (ks a).R) ∧
    (∀ a, (∀ k < n, a ≠ (p + k + 1) % m) → (ks' a).L = (ks a).L) ∧
    (Solved E m ks p n ks' ∨
      ((ks p).rt.fixed = true ∧ n = 1 ∧ (∀ a, (ks' a).lt = (ks a).lt ∧ (ks' a).rt = (ks a).rt) ∧
        ((ks p).rt = .explicit → ks' = ks) ∧
        ((ks p).rt = .endpoint → (ks' p).rx = some (ks p).x ∧ (ks' p).ry = some (ks p).y))) := by
  unfold walkStep at h
  split_ifs at h with h1 h2
  · simp only [solveRun, Option.bind_eq_some_iff, Option.map_eq_some_iff, Prod.mk.injEq] at h
    obtain ⟨n', hn, ks1, e1, ks2, e2, R, hR, ks3, hs, rfl, rfl⟩ := h
    obtain ⟨n1, n2, n3, n4⟩ := runLength_spec hn
    obtain ⟨s1, s2, s3, s4⟩ := store_spec n2 hs
    obtain ⟨c1, c2⟩ := closeEnd_spec e1
    obtain ⟨d1, d2⟩ := closeStart_spec e2
    have hp0 : (p + 0) % m = p := Nat.mod_eq_of_lt hp
    refine ⟨n1, n2, fun a => by rw [s1, (d1 a).1, (c1 a).1], fun a ha => ?_, fun a ha => ?_, Or.inl ⟨h1, hn,
      ⟨ks1, ks2, R, e1, e2, hR, s4⟩, ?_⟩⟩
    · have := ha 0 (by omega)
      rw [hp0] at this
      rw [s2 a ha, (d1 a).2.2.2 this, (c1 a).2.1]
    · have := ha (n' - 1) (by omega)
      rw [show p + (n' - 1) + 1 = p + n' by omega] at this
      rw [s3 a ha, (d1 a).2.1, (c1 a).2.2.2 this]
    · refine ⟨ks2 ((p + n') % m), ?_, fun ho => ?_⟩
      · intro hn
        simp [stretch, hn] at hR
      · rw [(d1 _).2.1, c2 ho]
  · simp only [Option.some.injEq, Prod.mk.injEq] at h
    obtain ⟨rfl, h⟩ := h
    have hp0 : (p + 0) % m = p := Nat.mod_eq_of_lt hp
    refine ⟨le_rfl, by omega, fun a => ?_, fun a ha => ?_, fun a ha => ?_, Or.inr ⟨by simpa using h1, rfl, fun a => ⟨?_, ?_⟩,
      fun h' => by rw [h2] at h'; simp at h', fun _ => ⟨?_, ?_⟩⟩⟩
    · rw [← h, mL_P, mR_P]
    · have := ha 0 (by omega)
      rw [hp0] at this
      rw [← h, mL_R, mod_ne _ _ this]
    · have := ha 0 (by omega)
      rw [← h, mod_ne _ _ this, mR_L]
    · rw [← h, mod_proj (fun k => k.lt) _ _ _ (fun k => k.setL k.lt (some k.x) (some k.y)) rfl, mR_lt]
    · rw [← h, mod_proj (fun k => k.rt) _ _ _ _ rfl, mod_proj (fun k => k.rt) _ _ _ _ rfl]
    · rw [← h, mod_proj (fun k => k.rx) _ _ _ _ rfl, mod_same]
      rfl
    · rw [← h, mod_proj (fun k => k.ry) _ _ _ _ rfl, mod_same]
      rfl
  · simp only [Option.some.injEq, Prod.mk.injEq] at h
    obtain ⟨rfl, rfl⟩ := h
    exact ⟨le_rfl, by omega, fun a => rfl, fun a _ => rfl, fun a _ => rfl, Or.inr ⟨by simpa using h1, rfl,
      fun a => ⟨rfl, rfl⟩, fun _ => rfl, fun h' => absurd h' h2⟩⟩

end PyX.MetaPost
