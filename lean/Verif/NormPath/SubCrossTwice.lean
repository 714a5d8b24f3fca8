import Verif.NormPath.SubCrossProps

/-!
# C140: intersections at the same parameters are reported once
-/

set_option linter.unusedSectionVars false

namespace PyX.NormPath.SubCross

open PyX.NormPath.Sub

variable (roots : ℝ → ℝ → ℝ → ℝ → List ℝ) (eps : Option ℝ) (n : ℕ)

/-! ## Segments between equal parameters -/

/-- A sub-path which is a single point. -/
def pointSub (p : ℝ × ℝ) : Sub := ⟨[], false, some ⟨p.1, p.2, p.1, p.2⟩⟩

/-- An item which is a single point. -/
def Still (i : Item ℝ) (p : ℝ × ℝ) : Prop := ∀ s, i.point s = p

theorem still_line {l : Line ℝ} {p : ℝ × ℝ} (h : Still (.line l) p) : l = ⟨p.1, p.2, p.1, p.2⟩ := by
  have h0 := h 0
  have h1 := h 1
  obtain ⟨x0, y0, x1, y1⟩ := l
  simp only [Item.point, linePoint] at h0 h1
  subst h0
  simp only [Prod.mk.injEq] at h1
  obtain ⟨e1, e2⟩ := h1
  simp only [Line.mk.injEq]
  refine ⟨by ring, by ring, by linarith, by linarith⟩

theorem still_curve {c : Curve ℝ} {p : ℝ × ℝ} (h : Still (.curve c) p) : c = ⟨p.1, p.2, p.1, p.2, p.1, p.2, p.1, p.2⟩ := by
  have h0 := h 0
  have h1 := h 1
  have h2 := h 2
  have h3 := h (-1)
  obtain ⟨x0, y0, x1, y1, x2, y2, x3, y3⟩ := c
  obtain ⟨p, q⟩ := p
  simp only [Item.point, bezierPoint, linePoint, Prod.mk.injEq] at h0 h1 h2 h3
  obtain ⟨a0, b0⟩ := h0
  obtain ⟨a1, b1⟩ := h1
  obtain ⟨a2, b2⟩ := h2
  obtain ⟨a3, b3⟩ := h3
  simp only [Curve.mk.injEq]
  refine ⟨by linarith, by linarith, by linarith, by linarith, by linarith, by linarith, by linarith, by linarith⟩

theorem hypot_self (x y : ℝ) : hypot (x - x) (y - y) = 0 := by simp [hypot]

theorem append_still (e : ℝ) (he : 0 < e) (m : ℕ) (s : Sub) (i : Item ℝ) (p : ℝ × ℝ) (hs : s = fresh ∨ s = pointSub p) (hi : Still i p) :
    append roots (some e) (m + 1) s i = (pointSub p, none) := by
  have hsk : ∀ l, s.skip l = ⟨[], false, some l⟩ := by
    intro l
    rcases hs with rfl | rfl <;> rfl
  have hcl : s.closed = false := by rcases hs with rfl | rfl <;> rfl
  have hadj : s.adjusted i = i := by
    rcases hs with rfl | rfl
    · rfl
    · cases i with
      | line l => rw [still_line hi]; rfl
      | curve c => rw [still_curve hi]; rfl
  have hbeg : i.begin_ = p := by rw [← at_begin, at_eq_point]; exact hi 0
  have hm : s.matches_ e i := by
    intro q hq
    rcases hs with rfl | rfl
    · simp [fresh, end_] at hq
    · simp only [pointSub, end_, Option.some.injEq] at hq
      rw [hbeg, ← hq]
      simp only [Line.end_]
      rw [hypot_self]
      exact he
  unfold append
  simp only
  rw [if_neg (not_not.mpr hm), if_neg (by rw [hcl]; simp), hadj]
  cases i with
  | line l =>
    simp only
    rw [still_line hi]
    simp only
    rw [hypot_self, if_neg (not_le.mpr he), hsk]
    rfl
  | curve c =>
    simp only
    rw [still_curve hi]
    have hl : ¬ long e (⟨p.1, p.2, p.1, p.2, p.1, p.2, p.1, p.2⟩ : Curve ℝ) := by
      unfold long
      simp only [hypot_self, zero_mul, ge_iff_le, not_le.mpr he, or_self, and_self, not_false_eq_true]
    rw [if_neg hl, hsk]
    rfl

theorem extend_still (e : ℝ) (he : 0 < e) (m : ℕ) (parts : List (Item ℝ)) (s : Sub) (p : ℝ × ℝ) (hs : s = fresh ∨ s = pointSub p)
    (hi : ∀ i ∈ parts, Still i p) (hne : s = fresh → parts ≠ []) : extend roots (some e) (m + 1) s parts = (pointSub p, none) := by
  induction parts generalizing s with
  | nil =>
    rcases hs with rfl | rfl
    · exact absurd rfl (hne rfl)
    · rfl
  | cons i parts ih =>
    unfold extend extendWith
    rw [append_still roots e he m s i p hs (hi i (by simp))]
    exact ih (pointSub p) (.inr rfl) (fun j hj => hi j (List.mem_cons_of_mem _ hj)) (fun h => by simp [pointSub, fresh] at h)

theorem way_still {items : List (Item ℝ)} (hchain : items.IsChain fun i j => i.end_ = j.begin_) {goal t u : ℝ} {l : List (Item ℝ)}
    (h : Way items goal t u l) (htg : t = goal) (hg : 0 ≤ goal ∧ goal ≤ items.length) (p : ℝ × ℝ) (hp : At items goal p) :
    ∀ part ∈ l, Still part p := by
  induction h with
  | nil => intro _ h; simp at h
  | cons k item part a b t u v rest get tr ht hu up down within tail ih =>
    obtain ⟨h1, h2⟩ := up htg.le
    have hut : u = t := by linarith
    obtain ⟨⟨a0, a1⟩, _⟩ := within hg.1 hg.2 (by rw [htg]; exact hg.1) (by rw [htg]; exact hg.2)
    intro q hq
    rcases List.mem_cons.mp hq with rfl | hq
    · intro s
      have hab : b = a := by linarith
      rw [tr s, hab, sub_self, mul_zero, add_zero]
      exact At.unique hchain ⟨k, item, a, get, by rw [← htg, ht], a0, a1, rfl⟩ hp
    · exact ih (hut.trans htg) q hq

/-- A segment between equal parameters is a point. -/
theorem piece_point (e : ℝ) (he : 0 < e) (items : List (Item ℝ)) (hchain : items.IsChain fun i j => i.end_ = j.begin_) (a : ℝ) (c : Sub)
    (h : Piece roots (some e) n items a a c) (ha : 0 ≤ a ∧ a ≤ items.length) : ∃ p, At items a p ∧ c = pointSub p ∧ 0 < n := by
  obtain ⟨parts, hne, hway, hext⟩ := h
  obtain ⟨first, _, _, _, hp, _⟩ := way_at hway hne ha ha
  have hstill := way_still hchain hway rfl ha _ hp
  cases n with
  | zero =>
    cases parts with
    | nil => exact absurd rfl hne
    | cons i l => simp [extend, extendWith, append] at hext
  | succ m =>
    rw [extend_still roots e he m parts fresh _ (.inl rfl) hstill (fun _ => hne)] at hext
    simp only [Prod.mk.injEq, and_true] at hext
    exact ⟨_, hp, hext.symm, Nat.succ_pos _⟩

/-- Joining a short part to the point where it begins gives the part. -/
theorem join_point (e : ℝ) (he : 0 < e) (hn : 0 < n) {items : List (Item ℝ)} (hchain : items.IsChain fun i j => i.end_ = j.begin_) {a b : ℝ}
    {o : Sub} {p : ℝ × ℝ} (hp : At items a p) (ho : Part e items a b o) (h0 : o.items = []) :
    Sub.join roots (some e) n (pointSub p) o = (o, none) := by
  obtain ⟨q, hq, haq⟩ := ho.from_
  have hqp := At.unique hchain haq hp
  subst hqp
  have hcl := ho.isOpen
  have hsh := ho.short
  obtain ⟨m, rfl⟩ : ∃ m, n = m + 1 := ⟨n - 1, by omega⟩
  obtain ⟨is, cl, sk⟩ := o
  simp only at h0 hcl
  subst h0 hcl
  cases sk with
  | none => simp [Sub.begin_] at hq
  | some l =>
    have hl := hsh l rfl
    simp only [Sub.begin_, Option.some.injEq] at hq
    subst hq
    have hm : (pointSub l.begin_).matches_ e (.line l) := by
      intro r hr
      simp only [pointSub, end_, Option.some.injEq] at hr
      rw [← hr]
      simp only [Line.end_, Item.begin_]
      rw [hypot_self]
      exact he
    have hadj : (pointSub l.begin_).adjusted (.line l) = .line l := by cases l; rfl
    unfold Sub.join
    rw [if_neg (by simp)]
    have hif : (pointSub l.begin_).items = [] := rfl
    simp only [if_pos hif, extend, extendWith]
    unfold append
    simp only
    rw [if_neg (not_not.mpr hm), if_neg (by simp [pointSub]), hadj]
    simp only
    rw [if_neg]
    · rfl
    · rw [dist2_comm] at hl
      exact not_le.mpr hl

/-! ## Twins -/

/-- The loops reach `j` from `i`. -/
def Reach (segs : List Sub) (i j : ℕ) : Prop :=
  ∃ k c js, i = 1 + k ∧ segs[k]? = some c ∧ shortRun roots eps n c i (segs.drop (k + 1)) = .ok js ∧ j ∈ js

theorem mem_pairs (ints : List (ℝ × ℕ)) (segs : List Sub) (ps : List (ℕ × ℕ)) (h : openPairs roots eps n ints 1 segs = .ok ps) (p : ℕ × ℕ) :
    p ∈ ps ↔ ∃ i j, Reach roots eps n segs i j ∧ pairAt ints i j = .ok p := by
  rw [mem_openPairs roots eps n ints segs 1 ps h]
  constructor
  · rintro ⟨k, c, js, j, h1, h2, h3, h4⟩
    exact ⟨1 + k, j, ⟨k, c, js, rfl, h1, h2, h3⟩, h4⟩
  · rintro ⟨_, j, ⟨k, c, js, rfl, h1, h2, h3⟩, h4⟩
    exact ⟨k, c, js, j, h1, h2, h3, h4⟩

theorem openPairs_runs (ints : List (ℝ × ℕ)) (l : List Sub) (i : ℕ) (ps : List (ℕ × ℕ)) (h : openPairs roots eps n ints i l = .ok ps) (k : ℕ)
    (c : Sub) (hk : l[k]? = some c) : ∃ js, shortRun roots eps n c (i + k) (l.drop (k + 1)) = .ok js := by
  induction l generalizing i ps k with
  | nil => simp at hk
  | cons s rest ih =>
    unfold openPairs at h
    obtain ⟨qs, hq, h⟩ := bind_ok h
    obtain ⟨l', hl', rfl⟩ := map_ok h
    cases k with
    | zero =>
      simp only [List.getElem?_cons_zero, Option.some.injEq] at hk
      subst hk
      unfold pairsAt at hq
      obtain ⟨js, hjs, _⟩ := bind_ok hq
      exact ⟨js, by simpa using hjs⟩
    | succ k =>
      obtain ⟨js, hjs⟩ := ih (i + 1) l' hl' k (by simpa using hk)
      exact ⟨js, by rw [show i + (k + 1) = i + 1 + k by omega]; simpa using hjs⟩

theorem reach_back {segs : List Sub} {i j : ℕ} (h : Reach roots eps n segs i j) : i ≤ j ∧ ∀ r, i ≤ r → r ≤ j → Reach roots eps n segs i r := by
  obtain ⟨k, c, js, rfl, h1, h2, h3⟩ := h
  obtain ⟨m, rfl, _⟩ := shortRun_range roots eps n _ _ _ _ h2
  have := List.mem_range'_1.mp h3
  exact ⟨this.1, fun r hr1 hr2 => ⟨k, c, _, rfl, h1, h2, List.mem_range'_1.mpr ⟨hr1, by omega⟩⟩⟩

theorem shortRun_start {cur : Sub} {j : ℕ} {rest : List Sub} {js : List ℕ} (h0 : cur.items = [])
    (h : shortRun roots eps n cur j rest = .ok js) : j ∈ js := by
  cases rest with
  | nil =>
    simp only [shortRun, Except.ok.injEq] at h
    rw [if_pos h0] at h
    subst h
    simp
  | cons s rest =>
    unfold shortRun at h
    rw [if_pos h0] at h
    obtain ⟨c, _, h⟩ := bind_ok h
    obtain ⟨l, _, rfl⟩ := map_ok h
    simp

theorem shortRun_long {cur : Sub} {j : ℕ} {rest : List Sub} {js : List ℕ} (h0 : cur.items ≠ [])
    (h : shortRun roots eps n cur j rest = .ok js) : js = [] := by
  cases rest with
  | nil =>
    simp only [shortRun, Except.ok.injEq] at h
    rw [if_neg h0] at h
    exact h.symm
  | cons s rest =>
    unfold shortRun at h
    rw [if_neg h0] at h
    simp only [Except.ok.injEq] at h
    exact h.symm

theorem sortPair_eq {a b x y : ℕ} (h : sortPair a b = (x, y)) : (a = x ∧ b = y ∧ a < b) ∨ (a = y ∧ b = x ∧ b ≤ a) := by
  unfold sortPair at h
  split at h
  · rename_i hl
    simp only [Prod.mk.injEq] at h
    exact .inl ⟨h.1, h.2, hl⟩
  · rename_i hl
    simp only [Prod.mk.injEq] at h
    exact .inr ⟨h.2, h.1, by omega⟩

/-- Of two neighbouring intersections with equal parameters, the second one is close to the first one, and everything which is
close to the second one is close to the first one. -/
theorem twins (m : ℕ) (e : ℝ) (he : 0 < e) (s : Sub) (hs : s.items ≠ []) (ho : s.closed = false)
    (hchain : s.items.IsChain fun i j => i.end_ = j.begin_) (ints : List (ℝ × ℕ)) (hr : ∀ x ∈ ints, 0 ≤ x.1 ∧ x.1 ≤ s.items.length)
    (hnd : (ints.map Prod.snd).Nodup) (ps : List (ℕ × ℕ)) (h : closepoints roots (some e) n m s ints = .ok ps) (r : ℕ) (t : ℝ) (X Y : ℕ)
    (hx : ints[r]? = some (t, X)) (hy : ints[r + 1]? = some (t, Y)) (hXY : X < Y) :
    (X, Y) ∈ ps ∧ ∀ v, Y ≤ v → (Y, v) ∈ ps → (X, v) ∈ ps := by
  unfold closepoints at h
  obtain ⟨l, hl, h⟩ := bind_ok h
  rw [ho] at h
  simp only [Bool.false_eq_true, if_false] at h
  obtain ⟨hlen, hpieces, hparts⟩ := segments_parts roots n e s hs ho hchain ints hr l hl
  have hmem := mem_pairs roots (some e) n ints _ ps h
  -- the positions of indices
  have hpos : ∀ (i j : ℕ) (x y : ℝ × ℕ), ints[i]? = some x → ints[j]? = some y → x.2 = y.2 → i = j := by
    intro i j x y hi hj hxy
    have hi' : i < (ints.map Prod.snd).length := by simpa using (List.getElem?_eq_some_iff.mp hi).1
    refine (List.getElem?_inj hi' hnd).mp ?_
    rw [List.getElem?_map, List.getElem?_map, hi, hj]
    simp [hxy]
  -- the segment between them
  have hrlt : r + 1 < ints.length := (List.getElem?_eq_some_iff.mp hy).1
  have hin : ∀ k, k + 1 < ints.length → l.dropLast.tail[k]? = l[k + 1]? := by
    intro k hk
    rw [List.getElem?_tail, List.getElem?_dropLast, if_pos (by omega)]
  obtain ⟨c, hc⟩ : ∃ c, l[r + 1]? = some c := ⟨_, List.getElem?_eq_getElem (by omega)⟩
  have hpc := hpieces (r + 1) c hc
  rw [params_at s ints r _ hx, params_at s ints (r + 1) _ hy] at hpc
  obtain ⟨p, hp, rfl, hn⟩ := piece_point roots n e he s.items hchain t c hpc (hr _ (List.mem_of_getElem? hx))
  have hcin : l.dropLast.tail[r]? = some (pointSub p) := by rw [hin r hrlt, hc]
  obtain ⟨js, hjs⟩ := openPairs_runs roots (some e) n ints _ 1 ps h r _ hcin
  have first : Reach roots (some e) n l.dropLast.tail (r + 1) (r + 1) := by
    refine ⟨r, _, js, by omega, hcin, by rw [show r + 1 = 1 + r by omega]; rw [show 1 + r = r + 1 by omega] at hjs ⊢; exact hjs, ?_⟩
    rw [show 1 + r = r + 1 by omega] at hjs
    exact shortRun_start roots (some e) n rfl hjs
  have onward : ∀ w, Reach roots (some e) n l.dropLast.tail (r + 2) w → Reach roots (some e) n l.dropLast.tail (r + 1) w := by
    rintro w ⟨k, o, js', hk, h1, h2, h3⟩
    have hk' : k = r + 1 := by omega
    subst hk'
    have h0 : o.items = [] := by
      by_contra hne
      rw [shortRun_long roots (some e) n hne h2] at h3
      simp at h3
    have hpo := hparts (r + 2) o (inner_get l (r + 1) o h1)
    simp only [Nat.zero_add] at hpo
    rw [params_at s ints (r + 1) _ hy] at hpo
    have hj := join_point roots n e he hn hchain hp hpo h0
    refine ⟨r, pointSub p, (r + 1) :: js', by omega, hcin, ?_, List.mem_cons_of_mem _ h3⟩
    have hd : l.dropLast.tail.drop (r + 1) = o :: l.dropLast.tail.drop (r + 1 + 1) := by
      obtain ⟨hlt, he'⟩ := List.getElem?_eq_some_iff.mp h1
      rw [List.drop_eq_getElem_cons hlt, he']
    rw [hd]
    unfold shortRun
    rw [if_pos (show (pointSub p).items = [] from rfl), hj]
    simp only [ok, Except.bind]
    rw [show r + 1 + 1 = r + 2 from rfl, h2]
    rfl
  constructor
  · refine (hmem _).mpr ⟨r + 1, r + 1, first, ?_⟩
    unfold pairAt
    rw [if_neg (by omega), show r + 1 - 1 = r by omega, hx, hy]
    simp only [sortPair]
    rw [if_pos hXY]
  · intro v hv hm
    obtain ⟨i, j, hreach, hpair⟩ := (hmem _).mp hm
    have hi0 : 0 < i := by obtain ⟨k, _, _, rfl, _⟩ := hreach; omega
    obtain ⟨x', y', hx', hy', hsort⟩ := pairAt_ok hi0 hpair
    have hback := reach_back roots (some e) n hreach
    rcases sortPair_eq hsort.symm with ⟨e1, e2, _⟩ | ⟨e1, e2, _⟩
    · -- from the second one onwards
      have hi : i - 1 = r + 1 := hpos _ _ _ _ hx' hy e1
      have hi' : i = r + 2 := by omega
      subst hi'
      refine (hmem _).mpr ⟨r + 1, j, onward j hreach, ?_⟩
      unfold pairAt
      rw [if_neg (by omega), show r + 1 - 1 = r by omega, hx, hy']
      simp only [sortPair]
      rw [e2, if_pos (by omega)]
    · -- coming from before
      have hj : j = r + 1 := hpos _ _ _ _ hy' hy e2
      subst hj
      have hne : i - 1 ≠ r := by
        intro hc'
        rw [hc', hx] at hx'
        simp only [Option.some.injEq] at hx'
        rw [← hx'] at e1
        simp only at e1
        omega
      refine (hmem _).mpr ⟨i, r, hback.2 r (by have := hback.1; omega) (by omega), ?_⟩
      unfold pairAt
      rw [if_neg (by omega), hx', hx]
      simp only [sortPair]
      rw [e1, if_neg (by omega)]

/-! ## The result -/

theorem sortPair_le (a b : ℕ) : (sortPair a b).1 ≤ (sortPair a b).2 := by
  unfold sortPair
  split
  · rename_i h; exact h.le
  · rename_i h; exact not_lt.mp h

theorem pairsAt_le {ints : List (ℝ × ℕ)} {i : ℕ} {run : Except Err (List ℕ)} {ps : List (ℕ × ℕ)} (h : pairsAt ints i run = .ok ps) :
    ∀ p ∈ ps, p.1 ≤ p.2 := by
  unfold pairsAt at h
  obtain ⟨js, _, h⟩ := bind_ok h
  have hm := all_mem _ _ h
  intro p hp
  have : (Except.ok p : Except Err (ℕ × ℕ)) ∈ js.map fun j => pairAt ints i j := by rw [hm]; exact List.mem_map.mpr ⟨p, hp, rfl⟩
  obtain ⟨j, _, e⟩ := List.mem_map.mp this
  unfold pairAt at e
  split at e
  · simp only [Except.ok.injEq] at e
    rw [← e]; exact sortPair_le _ _
  · simp at e

theorem closepoints_le (m : ℕ) (s : Sub) (ints : List (ℝ × ℕ)) (ps : List (ℕ × ℕ)) (h : closepoints roots eps n m s ints = .ok ps) :
    ∀ p ∈ ps, p.1 ≤ p.2 := by
  unfold closepoints at h
  obtain ⟨split, _, h⟩ := bind_ok h
  have hop : ∀ (l : List Sub) (i : ℕ) (ps : List (ℕ × ℕ)), openPairs roots eps n ints i l = .ok ps → ∀ p ∈ ps, p.1 ≤ p.2 := by
    intro l
    induction l with
    | nil => intro i ps h; simp only [openPairs, Except.ok.injEq] at h; subst h; simp
    | cons s rest ih =>
      intro i ps h
      unfold openPairs at h
      obtain ⟨qs, hq, h⟩ := bind_ok h
      obtain ⟨l', hl', rfl⟩ := map_ok h
      intro p hp
      rcases List.mem_append.mp hp with hp | hp
      · exact pairsAt_le hq p hp
      · exact ih _ _ hl' p hp
  have hcl : ∀ (l : List Sub) (i : ℕ) (ps : List (ℕ × ℕ)), closedPairs roots eps n m ints split i l = .ok ps → ∀ p ∈ ps, p.1 ≤ p.2 := by
    intro l
    induction l with
    | nil => intro i ps h; simp only [closedPairs, Except.ok.injEq] at h; subst h; simp
    | cons s rest ih =>
      intro i ps h
      unfold closedPairs at h
      obtain ⟨qs, hq, h⟩ := bind_ok h
      obtain ⟨l', hl', rfl⟩ := map_ok h
      intro p hp
      rcases List.mem_append.mp hp with hp | hp
      · exact pairsAt_le hq p hp
      · exact ih _ _ hl' p hp
  split at h
  · exact hcl _ _ _ h
  · exact hop _ _ _ h

theorem intersect_report {m : ℕ} {meet : Item ℝ → Item ℝ → List (ℝ × ℝ)} {epsA epsB : Option ℝ} {a b : Sub} {r : List ℝ × List ℝ}
    (h : intersect roots n m meet epsA epsB a b = .ok r) : ∃ A B,
      closepoints roots epsA n m a (indexedA (ordered (raw meet a.items b.items))) = .ok A ∧
      closepoints roots epsB n m b (indexedB (ordered (raw meet a.items b.items))) = .ok B ∧
      r.1.length = r.2.length ∧ r.1.zip r.2 = report (ordered (raw meet a.items b.items)) A B := by
  unfold intersect at h
  obtain ⟨A, hA, h⟩ := bind_ok h
  obtain ⟨B, hB, rfl⟩ := map_ok h
  refine ⟨A, B, hA, hB, by simp, ?_⟩
  simp only
  generalize report (ordered (raw meet a.items b.items)) A B = l
  induction l with
  | nil => rfl
  | cons x l ih => simp [ih]

/-- **C140.** For whatever sub-paths, the two lists have the same length, the pairs in them are intersections of the items, none
more often than it has been found, and the parameters of the first sub-path are in increasing order. -/
theorem intersect_sound (m : ℕ) (meet : Item ℝ → Item ℝ → List (ℝ × ℝ)) (epsA epsB : Option ℝ) (a b : Sub) (r : List ℝ × List ℝ)
    (h : intersect roots n m meet epsA epsB a b = .ok r) :
    r.1.length = r.2.length ∧ List.Subperm (r.1.zip r.2) (raw meet a.items b.items) ∧ r.1.Pairwise (· ≤ ·) := by
  obtain ⟨A, B, hA, hB, hl, e⟩ := intersect_report roots n h
  have hsub := report_sublist (ordered (raw meet a.items b.items)) A B (closepoints_le roots epsA n m a _ A hA)
  rw [← e] at hsub
  refine ⟨hl, hsub.subperm.trans (ordered_perm _).subperm, ?_⟩
  have hp := (ordered_sorted (raw meet a.items b.items)).sublist hsub
  have e1 : r.1 = (r.1.zip r.2).map Prod.fst := (List.map_fst_zip hl.le).symm
  rw [e1, List.pairwise_map]
  exact hp

/-- A proper open sub-path. -/
structure OpenSub (s : Sub) : Prop where
  nonempty : s.items ≠ []
  isOpen : s.closed = false
  chain : s.items.IsChain fun i j => i.end_ = j.begin_

/-- The intersections of items have parameters within them (see `Cross.cross_sound_partial`). -/
def Within (meet : Item ℝ → Item ℝ → List (ℝ × ℝ)) (a b : Sub) : Prop :=
  ∀ i ∈ a.items, ∀ j ∈ b.items, ∀ r ∈ meet i j, (0 ≤ r.1 ∧ r.1 ≤ 1) ∧ 0 ≤ r.2 ∧ r.2 ≤ 1

theorem raw_within {meet : Item ℝ → Item ℝ → List (ℝ × ℝ)} {a b : Sub} (hw : Within meet a b) (r : ℝ × ℝ) (hr : r ∈ raw meet a.items b.items) :
    (0 ≤ r.1 ∧ r.1 ≤ a.items.length) ∧ 0 ≤ r.2 ∧ r.2 ≤ b.items.length := by
  obtain ⟨i, j, x, y, s, t, hi, hj, hm, rfl⟩ := (mem_raw _ _ _ _).mp hr
  have := hw x (List.mem_of_getElem? hi) y (List.mem_of_getElem? hj) _ hm
  have hi' : (i : ℝ) + 1 ≤ a.items.length := by exact_mod_cast (List.getElem?_eq_some_iff.mp hi).1
  have hj' : (j : ℝ) + 1 ≤ b.items.length := by exact_mod_cast (List.getElem?_eq_some_iff.mp hj).1
  have hi0 : (0 : ℝ) ≤ i := by positivity
  have hj0 : (0 : ℝ) ≤ j := by positivity
  simp only at this ⊢
  refine ⟨⟨?_, ?_⟩, ?_, ?_⟩ <;> linarith [this.1.1, this.1.2, this.2.1, this.2.2]

theorem mem_indexedA {l : List (ℝ × ℝ)} {x : ℝ × ℕ} : x ∈ indexedA l ↔ ∃ r, l[x.2]? = some r ∧ r.1 = x.1 := by
  unfold indexedA
  rw [List.mem_zipIdx_iff_getElem?, List.getElem?_map, Option.map_eq_some_iff]

theorem mem_indexedB {l : List (ℝ × ℝ)} {x : ℝ × ℕ} : x ∈ indexedB l ↔ ∃ r, l[x.2]? = some r ∧ r.2 = x.1 := by
  classical
  have hp : x ∈ indexedB l ↔ x ∈ (l.map Prod.snd).zipIdx := (List.perm_insertionSort _ _).mem_iff
  rw [hp, List.mem_zipIdx_iff_getElem?, List.getElem?_map, Option.map_eq_some_iff]

/-- Two intersections which are near each other on both sub-paths. -/
def NearBoth (e e' : ℝ) (a b : Sub) (l : List (ℝ × ℝ)) (x y : ℝ × ℝ) : Prop :=
  x ∈ l ∧ y ∈ l ∧ Near e a.items x.1 y.1 ∧ Near e' b.items x.2 y.2

section
variable {roots n} {m : ℕ} {meet : Item ℝ → Item ℝ → List (ℝ × ℝ)} {e e' : ℝ} {a b : Sub} {r : List ℝ × List ℝ}

/-- **C140 (nothing is lost).** From each intersection of the items of two open sub-paths one comes to one which is reported by
steps between intersections which are closer than epsilon on both sub-paths. -/
theorem intersect_complete_partial (ha : OpenSub a) (hb : OpenSub b) (hw : Within meet a b)
    (h : intersect roots n m meet (some e) (some e') a b = .ok r) (x : ℝ × ℝ) (hx : x ∈ raw meet a.items b.items) :
    ∃ y ∈ r.1.zip r.2, Relation.EqvGen (NearBoth e e' a b (raw meet a.items b.items)) x y := by
  obtain ⟨A, B, hA, hB, hl, eq⟩ := intersect_report roots n h
  have hperm := ordered_perm (raw meet a.items b.items)
  generalize hL : ordered (raw meet a.items b.items) = L at *
  have hrA : ∀ x ∈ indexedA L, 0 ≤ x.1 ∧ x.1 ≤ a.items.length := by
    intro x hx
    obtain ⟨q, hq, hq'⟩ := mem_indexedA.mp hx
    rw [← hq']
    exact (raw_within hw q (hperm.mem_iff.mp (List.mem_of_getElem? hq))).1
  have hrB : ∀ x ∈ indexedB L, 0 ≤ x.1 ∧ x.1 ≤ b.items.length := by
    intro x hx
    obtain ⟨q, hq, hq'⟩ := mem_indexedB.mp hx
    rw [← hq']
    exact (raw_within hw q (hperm.mem_iff.mp (List.mem_of_getElem? hq))).2
  have nA := closepoints_near roots n m e a ha.nonempty ha.isOpen ha.chain _ hrA A hA
  have nB := closepoints_near roots n m e' b hb.nonempty hb.isOpen hb.chain _ hrB B hB
  -- what the pairs mean
  have hstep : ∀ i j x y, (i, j) ∈ both A B → L[i]? = some x → L[j]? = some y →
      NearBoth e e' a b (raw meet a.items b.items) x y := by
    intro i j x y hij hx hy
    obtain ⟨h1, h2⟩ := mem_both.mp hij
    refine ⟨hperm.mem_iff.mp (List.mem_of_getElem? hx), hperm.mem_iff.mp (List.mem_of_getElem? hy), ?_, ?_⟩
    · obtain ⟨u, hu, v, hv, hnear, hp⟩ := nA _ h1
      obtain ⟨u', hu1, hu2⟩ := mem_indexedA.mp hu
      obtain ⟨v', hv1, hv2⟩ := mem_indexedA.mp hv
      rcases hp with hp | hp
      · simp only [Prod.mk.injEq] at hp
        rw [← hp.1, hx] at hu1
        rw [← hp.2, hy] at hv1
        cases hu1; cases hv1
        rw [hu2, hv2]; exact hnear
      · simp only [Prod.mk.injEq] at hp
        rw [← hp.2, hy] at hu1
        rw [← hp.1, hx] at hv1
        cases hu1; cases hv1
        rw [hu2, hv2]; exact hnear.symm
    · obtain ⟨u, hu, v, hv, hnear, hp⟩ := nB _ h2
      obtain ⟨u', hu1, hu2⟩ := mem_indexedB.mp hu
      obtain ⟨v', hv1, hv2⟩ := mem_indexedB.mp hv
      rcases hp with hp | hp
      · simp only [Prod.mk.injEq] at hp
        rw [← hp.1, hx] at hu1
        rw [← hp.2, hy] at hv1
        cases hu1; cases hv1
        rw [hu2, hv2]; exact hnear
      · simp only [Prod.mk.injEq] at hp
        rw [← hp.2, hy] at hu1
        rw [← hp.1, hx] at hv1
        cases hu1; cases hv1
        rw [hu2, hv2]; exact hnear.symm
  have hexists : ∀ i j, (i, j) ∈ both A B → (∃ x, L[i]? = some x) ∧ ∃ y, L[j]? = some y := by
    intro i j hij
    obtain ⟨u, hu, v, hv, _, hp⟩ := nA _ (mem_both.mp hij).1
    obtain ⟨u', hu1, _⟩ := mem_indexedA.mp hu
    obtain ⟨v', hv1, _⟩ := mem_indexedA.mp hv
    rcases hp with hp | hp
    · simp only [Prod.mk.injEq] at hp
      exact ⟨⟨u', by rw [hp.1]; exact hu1⟩, ⟨v', by rw [hp.2]; exact hv1⟩⟩
    · simp only [Prod.mk.injEq] at hp
      exact ⟨⟨v', by rw [hp.1]; exact hv1⟩, ⟨u', by rw [hp.2]; exact hu1⟩⟩
  have hlinked : ∀ i j, Linked (both A B) i j → (∀ x, L[i]? = some x → ∃ y, L[j]? = some y ∧
      Relation.EqvGen (NearBoth e e' a b (raw meet a.items b.items)) x y) ∧ (∀ y, L[j]? = some y → ∃ x, L[i]? = some x ∧
      Relation.EqvGen (NearBoth e e' a b (raw meet a.items b.items)) x y) := by
    intro i j hij
    induction hij with
    | rel i j hij =>
      obtain ⟨⟨x0, hx0⟩, y0, hy0⟩ := hexists i j hij
      have := hstep i j x0 y0 hij hx0 hy0
      constructor
      · intro x hx
        rw [hx0] at hx; cases hx
        exact ⟨y0, hy0, .rel _ _ this⟩
      · intro y hy
        rw [hy0] at hy; cases hy
        exact ⟨x0, hx0, .rel _ _ this⟩
    | refl i => exact ⟨fun x hx => ⟨x, hx, .refl _⟩, fun x hx => ⟨x, hx, .refl _⟩⟩
    | symm i j _ ih =>
      constructor
      · intro x hx
        obtain ⟨y, hy, g⟩ := ih.2 x hx
        exact ⟨y, hy, .symm _ _ g⟩
      · intro x hx
        obtain ⟨y, hy, g⟩ := ih.1 x hx
        exact ⟨y, hy, .symm _ _ g⟩
    | trans i j k _ _ ih1 ih2 =>
      constructor
      · intro x hx
        obtain ⟨y, hy, g⟩ := ih1.1 x hx
        obtain ⟨z, hz, g'⟩ := ih2.1 y hy
        exact ⟨z, hz, .trans _ _ _ g g'⟩
      · intro z hz
        obtain ⟨y, hy, g⟩ := ih2.2 z hz
        obtain ⟨x, hx, g'⟩ := ih1.2 y hy
        exact ⟨x, hx, .trans _ _ _ g' g⟩
  obtain ⟨i, hi⟩ := List.mem_iff_getElem?.mp (hperm.mem_iff.mpr hx)
  obtain ⟨k, y, hk, hy, hlink⟩ := nothing_lost L A B (closepoints_le roots _ n m a _ A hA) i (List.getElem?_eq_some_iff.mp hi).1
  obtain ⟨y', hy', g⟩ := (hlinked i k hlink).1 x hi
  rw [hk] at hy'
  cases hy'
  exact ⟨y, by rw [eq]; exact hy, g⟩

/-- An intersection with no other one near it is reported. -/
theorem lonely_found (ha : OpenSub a) (hb : OpenSub b) (hw : Within meet a b)
    (h : intersect roots n m meet (some e) (some e') a b = .ok r) (x : ℝ × ℝ) (hx : x ∈ raw meet a.items b.items)
    (hfar : ∀ y ∈ raw meet a.items b.items, Near e a.items x.1 y.1 → Near e' b.items x.2 y.2 → y = x) : x ∈ r.1.zip r.2 := by
  obtain ⟨y, hy, g⟩ := intersect_complete_partial ha hb hw h x hx
  have key : ∀ u v, Relation.EqvGen (NearBoth e e' a b (raw meet a.items b.items)) u v → (u = x ↔ v = x) := by
    intro u v huv
    induction huv with
    | rel u v huv =>
      obtain ⟨h1, h2, h3, h4⟩ := huv
      constructor
      · rintro rfl; exact hfar v h2 h3 h4
      · rintro rfl; exact hfar u h1 h3.symm h4.symm
    | refl => exact Iff.rfl
    | symm _ _ _ ih => exact ih.symm
    | trans _ _ _ _ _ ih1 ih2 => exact ih1.trans ih2
  rw [← (key x y g).mp rfl]
  exact hy

theorem indexedA_nodup (l : List (ℝ × ℝ)) : ((indexedA l).map Prod.snd).Nodup := by
  unfold indexedA
  rw [List.zipIdx_map_snd]
  exact List.nodup_range'

theorem indexedB_nodup (l : List (ℝ × ℝ)) : ((indexedB l).map Prod.snd).Nodup := by
  classical
  have hp : ((indexedB l).map Prod.snd).Perm (((l.map Prod.snd).zipIdx).map Prod.snd) := (List.perm_insertionSort _ _).map _
  rw [hp.nodup_iff, List.zipIdx_map_snd]
  exact List.nodup_range'

/-- Equal parameters with consecutive indices are neighbours. -/
theorem indexedB_neighbours (l : List (ℝ × ℝ)) (k : ℕ) (t : ℝ) (hx : (t, k) ∈ indexedB l) (hy : (t, k + 1) ∈ indexedB l) :
    ∃ p, (indexedB l)[p]? = some (t, k) ∧ (indexedB l)[p + 1]? = some (t, k + 1) := by
  classical
  have hs : (indexedB l).Pairwise tupleLe := sort_pairwise _
  have hnd := indexedB_nodup l
  generalize indexedB l = L at *
  obtain ⟨p, hp⟩ := List.mem_iff_getElem?.mp hx
  obtain ⟨q, hq⟩ := List.mem_iff_getElem?.mp hy
  have hpos : ∀ (i j : ℕ) (x y : ℝ × ℕ), L[i]? = some x → L[j]? = some y → x.2 = y.2 → i = j := by
    intro i j x y hi hj hxy
    have hi' : i < (L.map Prod.snd).length := by simpa using (List.getElem?_eq_some_iff.mp hi).1
    refine (List.getElem?_inj hi' hnd).mp ?_
    rw [List.getElem?_map, List.getElem?_map, hi, hj]
    simp [hxy]
  have hord : ∀ (i j : ℕ) (x y : ℝ × ℕ), L[i]? = some x → L[j]? = some y → i < j → tupleLe x y := by
    intro i j x y hi hj hij
    obtain ⟨h1, rfl⟩ := List.getElem?_eq_some_iff.mp hi
    obtain ⟨h2, rfl⟩ := List.getElem?_eq_some_iff.mp hj
    exact List.pairwise_iff_getElem.mp hs i j h1 h2 hij
  have hpq : p < q := by
    rcases Nat.lt_trichotomy p q with h | h | h
    · exact h
    · subst h; rw [hp] at hq; simp at hq
    · rcases hord _ _ _ _ hq hp h with h' | h'
      · exact absurd h' (lt_irrefl _)
      · simp at h'
  have hadj : q = p + 1 := by
    by_contra hne
    have hlt : p + 1 < q := by omega
    have hql := (List.getElem?_eq_some_iff.mp hq).1
    obtain ⟨z, hz⟩ : ∃ z, L[p + 1]? = some z := ⟨_, List.getElem?_eq_getElem (by omega)⟩
    have h1 := hord _ _ _ _ hp hz (by omega)
    have h2 := hord _ _ _ _ hz hq hlt
    obtain ⟨z1, z2⟩ := z
    unfold tupleLe at h1 h2
    simp only at h1 h2
    have : z2 = k ∨ z2 = k + 1 := by
      rcases h1 with h1 | ⟨h1, h1'⟩ <;> rcases h2 with h2 | ⟨h2, h2'⟩
      · exact absurd (h1.trans h2) (lt_irrefl _)
      · exact absurd (h2 ▸ h1) (lt_irrefl _)
      · exact absurd (h1 ▸ h2) (lt_irrefl _)
      · omega
    rcases this with rfl | rfl
    · exact absurd (hpos _ _ _ _ hz hp rfl) (by omega)
    · exact absurd (hpos _ _ _ _ hz hq rfl) (by omega)
  subst hadj
  exact ⟨p, hp, hq⟩

theorem ordered_lex (l : List (ℝ × ℝ)) : (ordered l).Pairwise tupleLe := by
  classical
  exact sort_pairwise l

/-- **C140 (no pair twice).** For open sub-paths no pair of parameters is reported twice. -/
theorem intersect_nodup_partial (he : 0 < e) (he' : 0 < e') (ha : OpenSub a) (hb : OpenSub b) (hw : Within meet a b)
    (h : intersect roots n m meet (some e) (some e') a b = .ok r) : (r.1.zip r.2).Nodup := by
  obtain ⟨A, B, hA, hB, hl, eq⟩ := intersect_report roots n h
  have hperm := ordered_perm (raw meet a.items b.items)
  have hlex := ordered_lex (raw meet a.items b.items)
  generalize hL : ordered (raw meet a.items b.items) = L at *
  have hrA : ∀ x ∈ indexedA L, 0 ≤ x.1 ∧ x.1 ≤ a.items.length := by
    intro x hx
    obtain ⟨q, hq, hq'⟩ := mem_indexedA.mp hx
    rw [← hq']
    exact (raw_within hw q (hperm.mem_iff.mp (List.mem_of_getElem? hq))).1
  have hrB : ∀ x ∈ indexedB L, 0 ≤ x.1 ∧ x.1 ≤ b.items.length := by
    intro x hx
    obtain ⟨q, hq, hq'⟩ := mem_indexedB.mp hx
    rw [← hq']
    exact (raw_within hw q (hperm.mem_iff.mp (List.mem_of_getElem? hq))).2
  -- the order of the pairs of the first sub-path
  have hordA : A.Pairwise pairLe ∧ ∀ p ∈ A, p.1 < p.2 := by
    have hA' := hA
    unfold closepoints at hA'
    obtain ⟨sg, _, hA'⟩ := bind_ok hA'
    rw [ha.isOpen] at hA'
    obtain ⟨h1, h2⟩ := openPairs_order roots (some e) n L _ 1 one_pos A hA'
    exact ⟨h1, fun p hp => (h2 p hp).2⟩
  -- of equal neighbours the second one is dropped
  have drop : ∀ k x, L[k]? = some x → L[k + 1]? = some x → k + 1 ∉ keys L.length (equivalent (both A B)) := by
    intro k x hx hy hk
    have a1 : (indexedA L)[k]? = some (x.1, k) := by
      unfold indexedA; rw [List.getElem?_zipIdx, List.getElem?_map, hx]; simp
    have a2 : (indexedA L)[k + 1]? = some (x.1, k + 1) := by
      unfold indexedA; rw [List.getElem?_zipIdx, List.getElem?_map, hy]; simp
    obtain ⟨q, b1, b2⟩ := indexedB_neighbours L k x.2 (mem_indexedB.mpr ⟨x, hx, rfl⟩) (mem_indexedB.mpr ⟨x, hy, rfl⟩)
    obtain ⟨tA1, tA2⟩ := twins roots n m e he a ha.nonempty ha.isOpen ha.chain _ hrA (indexedA_nodup L) A hA k x.1 k (k + 1) a1 a2
      (Nat.lt_succ_self k)
    obtain ⟨tB1, tB2⟩ := twins roots n m e' he' b hb.nonempty hb.isOpen hb.chain _ hrB (indexedB_nodup L) B hB q x.2 k (k + 1) b1 b2
      (Nat.lt_succ_self k)
    rcases (kept_iff _ A B hordA.1 hordA.2 (k + 1)).mp hk with ⟨_, h0⟩ | ⟨i, _, h1, h2⟩
    · exact h0 k (mem_both.mpr ⟨tA1, tB1⟩)
    · have hm := mem_both.mp h1
      have hlt := hordA.2 _ hm.1
      simp only at hlt
      have := h2 k (mem_both.mpr ⟨tA2 i hlt.le hm.1, tB2 i hlt.le hm.2⟩)
      omega
  -- equal elements at a distance have equal neighbours
  rw [eq]
  have hrep := report_eq L A B (fun p hp => (hordA.2 p hp).le)
  have hnd : ((report L A B).map some).Nodup := by
    rw [hrep]
    have hks := keys_sorted L.length (equivalent (both A B))
    have hpw : (keys L.length (equivalent (both A B))).Pairwise fun i j => i < j ∧ i ∈ keys L.length (equivalent (both A B)) ∧
        j ∈ keys L.length (equivalent (both A B)) := by
      rw [List.pairwise_iff_getElem] at hks ⊢
      exact fun i j h1 h2 hij => ⟨hks i j h1 h2 hij, List.getElem_mem _, List.getElem_mem _⟩
    rw [List.Nodup, List.pairwise_map]
    refine hpw.imp ?_
    rintro i j ⟨hij, hi, hj⟩ hsame
    obtain ⟨i', hi', rfl⟩ := (mem_keys _ _ _).mp hi
    obtain ⟨j', hj', hjj⟩ := (mem_keys _ _ _).mp hj
    have hjl : j < L.length := by
      rw [← hjj]
      exact lt_of_le_of_lt (equivalent_le _ (fun p hp => (hordA.2 p (mem_both.mp hp).1).le) j') hj'
    generalize equivalent (both A B) i' = i at *
    have hx : L[i]? = some L[i] := List.getElem?_eq_getElem (by omega)
    have hxj : L[j]? = some L[i] := by rw [← hsame]; exact hx
    obtain ⟨j0, rfl⟩ : ∃ j0, j = j0 + 1 := ⟨j - 1, by omega⟩
    have hz : L[j0]? = some L[j0] := List.getElem?_eq_getElem (by omega)
    have hzx : L[j0] = L[i] := by
      by_cases hc : i = j0
      · subst hc; rfl
      have h1 := List.pairwise_iff_getElem.mp hlex i j0 (by omega) (by omega) (by omega)
      have h2 := List.pairwise_iff_getElem.mp hlex j0 (j0 + 1) (by omega) (by omega) (by omega)
      have h3 : L[j0 + 1] = L[i] := (List.getElem?_eq_some_iff.mp hxj).2
      rw [h3] at h2
      unfold tupleLe at h1 h2
      ext
      · rcases h1 with h1 | h1 <;> rcases h2 with h2 | h2 <;> linarith [h1, h2]
      · rcases h1 with h1 | h1 <;> rcases h2 with h2 | h2
        · linarith
        · linarith [h2.1]
        · linarith [h1.1]
        · linarith [h1.2, h2.2]
    exact drop j0 _ hz (by rw [hzx]; exact hxj) hj
  exact List.Nodup.of_map _ hnd

end

end PyX.NormPath.SubCross
