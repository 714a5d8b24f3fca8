import Mathlib.Data.List.Basic
import Mathlib.Data.List.Nodup
import Mathlib.Data.List.Perm.Subperm
import Mathlib.Data.List.Chain
import Mathlib.Tactic.Linarith

/-!
# C161: the pieces of a parallel path which are kept (`pyx/deformer.py:1350-1372, 1416-1507`)

The parameters of the crossings and the ends on the parallel path are numbered by their position in the sorted list `allparams`. What is known about them (the crossings with their directions, the crossings
with the original path, the ends which are no crossings) is given.
-/

set_option linter.unusedSectionVars false
set_option linter.unusedSimpArgs false

namespace PyX.Deform.Rebuild

/-- What is known about the `n` parameters in `allparams`: the sub-path they are on, whether that is closed, `forwardpairs`, the keys of `backwardpairs`, `origintparams`, `beginparams`, and `endparams`. -/
structure Net where
  n : ℕ
  sub : ℕ → ℕ
  closed : ℕ → Bool
  fw : ℕ → Option ℕ
  bw : ℕ → Bool
  orig : ℕ → Bool
  begins : ℕ → Bool
  ends : ℕ → Bool

/-- The first parameter on a sub-path (`deformer.py:1365`). -/
def first (N : Net) (s : ℕ) : Option ℕ := (List.range N.n).find? fun p => N.sub p = s

/-- `nextp` (`deformer.py:1359-1370`): the outer `none` is a missing key, the inner one is `None`. (That the first parameter of a closed sub-path is its begin, is asserted by the code.) -/
def next (N : Net) (p : ℕ) : Option (Option ℕ) :=
  if N.ends p then some (if N.closed (N.sub p) then first N (N.sub p) else none)
  else if p + 1 < N.n then some (some (p + 1)) else none

/-- The ways a search ends: a `KeyError`, an `AssertionError`, a list of pieces (an empty one if there is no way to go on), or not at all. -/
inductive Res
  | keyError
  | assertion
  | found (l : List (ℕ × ℕ))
  | unfinished
deriving DecidableEq, Repr

/-- `previousp` and `result` after the test for crossings (`deformer.py:1448-1453`). -/
def jump (N : Net) (c prev : ℕ) (res : List (ℕ × ℕ)) : ℕ × List (ℕ × ℕ) :=
  match N.fw c with
  | some q => (q, res ++ [(prev, c)])
  | none => (prev, res)

/-- The loop of `trial_parampairs` (`deformer.py:1426-1464`); the number bounds the repetitions. -/
def walk (N : Net) (start : ℕ) : ℕ → List ℕ → ℕ → Option (Option ℕ) → List (ℕ × ℕ) → Res
  | 0, _, _, _, _ => .unfinished
  | _ + 1, _, _, none, _ => .keyError
  | _ + 1, _, _, some none, _ => .keyError
  | f + 1, tried, prev, some (some c), res =>
    if N.n ≤ c then .keyError
    else if c ∈ tried then .found []
    else if N.orig c then .found []
    else if N.bw c then .found []
    else if c = start then (if N.begins start && N.ends prev then .found res else .assertion)
    else if N.fw c = some start then .found (res ++ [(prev, c)])
    else if N.ends c then
      if next N c = some none then .found ((jump N c prev res).2 ++ [((jump N c prev res).1, c)])
      else walk N start f (c :: c :: tried) c (next N c) ((jump N c prev res).2 ++ [((jump N c prev res).1, c)])
    else walk N start f (c :: (jump N c prev res).1 :: tried) (jump N c prev res).1 (next N (jump N c prev res).1) (jump N c prev res).2

/-- `trial_parampairs` (`deformer.py:1416-1465`). -/
def trial (N : Net) (done : List ℕ) (start : ℕ) : Res := walk N start (N.n + 2) done start (next N start) []

/-- The loop over the starts (`deformer.py:1473-1507`), the pieces of each sub-path of the result; `none`: an exception. -/
def rebuild (N : Net) : List ℕ → List ℕ → Option (List (List (ℕ × ℕ)))
  | _, [] => some []
  | done, s :: ss =>
    if s ∈ done then rebuild N done ss
    else
      match trial N done s with
      | .found [] => rebuild N done ss
      | .found l => (rebuild N (l.map Prod.fst ++ l.map Prod.snd ++ done) ss).map (l :: ·)
      | _ => none

/-! ## The specification -/

/-- A sub-path of the result: it begins at `start`; each piece goes from a parameter to the next one on the path, which is not a crossing with the original path, not one to be followed from elsewhere, and
not excluded; after a piece the path goes on at the other parameter of the crossing, or after the end of a closed sub-path; no parameter is reached twice; the last piece leads back to the start, or to the end of an
open sub-path. -/
structure Outline (N : Net) (done : List ℕ) (start : ℕ) (l : List (ℕ × ℕ)) : Prop where
  begin : l.head?.map Prod.fst = some start
  pieces : ∀ x ∈ l, next N x.1 = some (some x.2) ∧ N.orig x.2 = false ∧ N.bw x.2 = false ∧ x.2 ∉ done
  links : l.IsChain fun a b => N.fw a.2 = some b.1 ∨ N.ends a.2 = true ∧ b.1 = a.2
  once : (l.map Prod.snd).Nodup
  finish : ∃ x, l.getLast? = some x ∧ (N.fw x.2 = some start ∨ N.ends x.2 = true ∧ next N x.2 = some none ∨ N.ends x.2 = true ∧ next N x.2 = some (some start) ∧ N.begins start = true)

/-- The ends which are no crossings are none (`deformer.py:1331-1352`). -/
def Separate (N : Net) : Prop := (∀ c, N.ends c = true → N.fw c = none) ∧ ∀ c q, N.fw c = some q → N.ends q = false

/-! ## The search ends -/

/-- The parameters which are not tried yet. -/
def open_ (N : Net) (tried : List ℕ) : List ℕ := (List.range N.n).filter fun p => p ∉ tried

theorem open_lt (N : Net) (tried more : List ℕ) (c : ℕ) (hc : c < N.n) (h : c ∉ tried) (hm : c ∈ more) (hs : ∀ x ∈ tried, x ∈ more) : (open_ N more).length < (open_ N tried).length := by
  unfold open_
  have h1 : (List.range N.n).filter (fun p => decide (p ∉ more)) = ((List.range N.n).filter (fun p => decide (p ∉ tried))).filter (fun p => decide (p ∉ more)) := by
    rw [List.filter_filter]
    refine List.filter_congr fun p _ => ?_
    by_cases hp : p ∈ more
    · simp [hp]
    · have : p ∉ tried := fun hx => hp (hs p hx)
      simp [hp, this]
  rw [h1]
  refine List.length_filter_lt_length_iff_exists.2 ⟨c, ?_, by simpa using hm⟩
  rw [List.mem_filter]
  exact ⟨List.mem_range.2 hc, by simpa using h⟩

theorem walk_ends (N : Net) (start : ℕ) (f : ℕ) (tried : List ℕ) (prev : ℕ) (cur : Option (Option ℕ)) (res : List (ℕ × ℕ)) (h : (open_ N tried).length < f) :
    walk N start f tried prev cur res ≠ .unfinished := by
  induction f generalizing tried prev cur res with
  | zero => omega
  | succ f ih =>
    match cur with
    | none => simp [walk]
    | some none => simp [walk]
    | some (some c) =>
      rw [walk]
      by_cases h1 : N.n ≤ c
      · rw [if_pos h1]; simp
      rw [if_neg h1]
      by_cases h2 : c ∈ tried
      · rw [if_pos h2]; simp
      rw [if_neg h2]
      have key : ∀ p, (open_ N (c :: p :: tried)).length < f := fun p => by
        have := open_lt N tried (c :: p :: tried) c (by omega) h2 (by simp) (fun x hx => by simp [hx])
        omega
      split
      · simp
      split
      · simp
      split
      · split <;> simp
      split
      · simp
      split
      · split
        · simp
        · exact ih _ _ _ _ (key _)
      · exact ih _ _ _ _ (key _)

/-- **C161.** The search for a sub-path always ends. -/
theorem trial_ends (N : Net) (done : List ℕ) (start : ℕ) : trial N done start ≠ .unfinished := by
  refine walk_ends _ _ _ _ _ _ _ ?_
  have : (open_ N done).length ≤ N.n := by
    unfold open_
    refine le_trans (List.length_filter_le _ _) ?_
    rw [List.length_range]
  omega

/-! ## What is found -/

/-- What holds during the search. -/
structure Inv (N : Net) (done : List ℕ) (start : ℕ) (tried : List ℕ) (prev : ℕ) (res : List (ℕ × ℕ)) : Prop where
  grown : ∀ x ∈ done, x ∈ tried
  begin : (res = [] ∧ prev = start) ∨ res.head?.map Prod.fst = some start
  pieces : ∀ x ∈ res, next N x.1 = some (some x.2) ∧ N.orig x.2 = false ∧ N.bw x.2 = false ∧ x.2 ∉ done ∧ x.2 ∈ tried
  links : res.IsChain fun a b => N.fw a.2 = some b.1 ∨ N.ends a.2 = true ∧ b.1 = a.2
  link : ∀ x, res.getLast? = some x → N.fw x.2 = some prev ∨ N.ends x.2 = true ∧ prev = x.2
  once : (res.map Prod.snd).Nodup

/-- Appending a piece. -/
theorem Inv.snoc {N : Net} {done : List ℕ} {start : ℕ} {tried : List ℕ} {prev : ℕ} {res : List (ℕ × ℕ)} (h : Inv N done start tried prev res) {c : ℕ} (hn : next N prev = some (some c))
    (ho : N.orig c = false) (hb : N.bw c = false) (ht : c ∉ tried) (p : ℕ) (hl : N.fw c = some p ∨ N.ends c = true ∧ p = c) (q : ℕ) :
    Inv N done start (c :: q :: tried) p (res ++ [(prev, c)]) := by
  refine ⟨fun x hx => by simp [h.grown x hx], ?_, ?_, ?_, ?_, ?_⟩
  · right
    rcases h.begin with ⟨h1, h2⟩ | h1
    · rw [h1, h2]; rfl
    · cases res with
      | nil => simp at h1
      | cons a res => simpa using h1
  · intro x hx
    rw [List.mem_append, List.mem_singleton] at hx
    rcases hx with hx | rfl
    · obtain ⟨g1, g2, g3, g4, g5⟩ := h.pieces x hx
      exact ⟨g1, g2, g3, g4, by simp [g5]⟩
    · exact ⟨hn, ho, hb, fun hd => ht (h.grown c hd), by simp⟩
  · rw [List.isChain_append]
    refine ⟨h.links, by simp, ?_⟩
    intro x hx y hy
    simp at hy
    subst hy
    have := h.link x hx
    rcases this with g | ⟨g1, g2⟩
    · exact Or.inl g
    · exact Or.inr ⟨g1, g2⟩
  · intro x hx
    simp at hx
    subst hx
    exact hl
  · rw [List.map_append, List.nodup_append]
    refine ⟨h.once, by simp, ?_⟩
    intro a ha b hb' hab
    simp at hb'
    subst hb'
    rw [List.mem_map] at ha
    obtain ⟨x, hx, hxa⟩ := ha
    have := (h.pieces x hx).2.2.2.2
    rw [hxa, hab] at this
    exact ht this

/-- What is found at the end. -/
theorem Inv.outline {N : Net} {done : List ℕ} {start : ℕ} {tried : List ℕ} {prev : ℕ} {res : List (ℕ × ℕ)} (h : Inv N done start tried prev res) {c : ℕ} (hn : next N prev = some (some c))
    (ho : N.orig c = false) (hb : N.bw c = false) (ht : c ∉ tried) (hf : N.fw c = some start ∨ N.ends c = true ∧ next N c = some none) : Outline N done start (res ++ [(prev, c)]) := by
  have g : Inv N done start (c :: c :: tried) (if N.ends c = true then c else start) (res ++ [(prev, c)]) := by
    by_cases he : N.ends c = true
    · rw [if_pos he]; exact h.snoc hn ho hb ht c (Or.inr ⟨he, rfl⟩) c
    · rw [if_neg he]
      rcases hf with hf | ⟨hf, _⟩
      · exact h.snoc hn ho hb ht start (Or.inl hf) c
      · exact absurd hf he
  refine ⟨?_, fun x hx => ?_, g.links, g.once, ?_⟩
  · rcases g.begin with ⟨h1, _⟩ | h1
    · simp at h1
    · exact h1
  · obtain ⟨g1, g2, g3, g4, _⟩ := g.pieces x hx
    exact ⟨g1, g2, g3, g4⟩
  · refine ⟨(prev, c), by simp, ?_⟩
    rcases hf with hf | hf
    · exact Or.inl hf
    · exact Or.inr (Or.inl hf)

theorem walk_tried (N : Net) (start f : ℕ) (tried : List ℕ) (prev c : ℕ) (res : List (ℕ × ℕ)) (hc : c ∈ tried) (l : List (ℕ × ℕ))
    (h : walk N start f tried prev (some (some c)) res = .found l) : l = [] := by
  cases f with
  | zero => simp [walk] at h
  | succ f =>
    rw [walk] at h
    by_cases h1 : N.n ≤ c
    · rw [if_pos h1] at h; cases h
    · rw [if_neg h1, if_pos hc] at h
      cases h
      rfl

theorem walk_outline (N : Net) (hs : Separate N) (done : List ℕ) (start f : ℕ) (tried : List ℕ) (prev : ℕ) (cur : Option (Option ℕ)) (res : List (ℕ × ℕ)) (l : List (ℕ × ℕ))
    (hcur : cur = next N prev) (hi : Inv N done start tried prev res) (h : walk N start f tried prev cur res = .found l) (hl : l ≠ []) : Outline N done start l := by
  induction f generalizing tried prev cur res with
  | zero => simp [walk] at h
  | succ f ih =>
    match cur, hcur, h with
    | none, _, h => simp [walk] at h
    | some none, _, h => simp [walk] at h
    | some (some c), hcur, h =>
      rw [walk] at h
      by_cases h1 : N.n ≤ c
      · rw [if_pos h1] at h; cases h
      rw [if_neg h1] at h
      by_cases h2 : c ∈ tried
      · rw [if_pos h2] at h; cases h; exact absurd rfl hl
      rw [if_neg h2] at h
      by_cases h3 : N.orig c = true
      · rw [if_pos h3] at h; cases h; exact absurd rfl hl
      rw [if_neg h3] at h
      by_cases h4 : N.bw c = true
      · rw [if_pos h4] at h; cases h; exact absurd rfl hl
      rw [if_neg h4] at h
      have h3' : N.orig c = false := by simpa using h3
      have h4' : N.bw c = false := by simpa using h4
      by_cases h5 : c = start
      · rw [if_pos h5] at h
        by_cases h6 : (N.begins start && N.ends prev) = true
        · rw [if_pos h6] at h
          cases h
          rw [Bool.and_eq_true] at h6
          refine ⟨?_, fun x hx => ?_, hi.links, hi.once, ?_⟩
          · rcases hi.begin with ⟨g, _⟩ | g
            · exact absurd g hl
            · exact g
          · obtain ⟨g1, g2, g3, g4, _⟩ := hi.pieces x hx
            exact ⟨g1, g2, g3, g4⟩
          · cases hx : l.getLast? with
            | none => exact absurd (List.getLast?_eq_none_iff.1 hx) hl
            | some x =>
              refine ⟨x, rfl, ?_⟩
              rcases hi.link x hx with g | ⟨g1, g2⟩
              · exact absurd h6.2 (by rw [hs.2 _ _ g]; simp)
              · right; right
                exact ⟨g1, by rw [← g2, ← hcur, h5], h6.1⟩
        · rw [if_neg h6] at h; cases h
      rw [if_neg h5] at h
      by_cases h6 : N.fw c = some start
      · rw [if_pos h6] at h
        cases h
        exact hi.outline hcur.symm h3' h4' h2 (Or.inl h6)
      rw [if_neg h6] at h
      by_cases h7 : N.ends c = true
      · rw [if_pos h7] at h
        have hj : jump N c prev res = (prev, res) := by unfold jump; rw [hs.1 c h7]
        rw [hj] at h
        dsimp only at h
        by_cases h8 : next N c = some none
        · rw [if_pos h8] at h
          cases h
          exact hi.outline hcur.symm h3' h4' h2 (Or.inr ⟨h7, h8⟩)
        · rw [if_neg h8] at h
          exact ih _ _ _ _ rfl (hi.snoc hcur.symm h3' h4' h2 c (Or.inr ⟨h7, rfl⟩) c) h
      · rw [if_neg h7] at h
        cases hq : N.fw c with
        | some q =>
          have hj : jump N c prev res = (q, res ++ [(prev, c)]) := by unfold jump; rw [hq]
          rw [hj] at h
          exact ih _ _ _ _ rfl (hi.snoc hcur.symm h3' h4' h2 q (Or.inl hq) q) h
        | none =>
          have hj : jump N c prev res = (prev, res) := by unfold jump; rw [hq]
          rw [hj] at h
          dsimp only at h
          rw [← hcur] at h
          exact absurd (walk_tried _ _ _ _ _ _ _ (by simp) _ h) hl

/-- **C161.** What is found is a sub-path of the parallel path. -/
theorem trial_outline (N : Net) (hs : Separate N) (done : List ℕ) (start : ℕ) (l : List (ℕ × ℕ)) (h : trial N done start = .found l) (hl : l ≠ []) : Outline N done start l := by
  refine walk_outline N hs done start _ _ _ _ _ l rfl ?_ h hl
  exact ⟨fun _ h => h, Or.inl ⟨rfl, rfl⟩, by simp, by simp, by simp, by simp⟩

/-- What is known about the parameters fits together: the partners of crossings are listed, and begins are no crossings. -/
structure Consistent (N : Net) : Prop where
  separate : Separate N
  partner : ∀ c q, N.fw c = some q → N.bw q = true
  begin : ∀ p, N.begins p = true → N.bw p = false ∧ N.orig p = false ∧ N.fw p = none ∧ N.ends p = false ∧ p < N.n

theorem next_lt (N : Net) (p c : ℕ) (h : next N p = some (some c)) : c < N.n := by
  unfold next at h
  by_cases h1 : N.ends p = true
  · rw [if_pos h1] at h
    by_cases h2 : N.closed (N.sub p) = true
    · rw [if_pos h2] at h
      have h3 := Option.some.inj h
      unfold first at h3
      exact List.mem_range.1 (List.mem_of_find?_eq_some h3)
    · rw [if_neg h2] at h; cases h
  · rw [if_neg h1] at h
    by_cases h2 : p + 1 < N.n
    · rw [if_pos h2] at h
      have := Option.some.inj (Option.some.inj h)
      omega
    · rw [if_neg h2] at h; cases h

theorem walk_complete (N : Net) (hc : Consistent N) (start : ℕ) (hst : N.begins start = true ∨ N.bw start = true) (rest : List (ℕ × ℕ)) (f : ℕ) (tried : List ℕ) (prev : ℕ) (res : List (ℕ × ℕ))
    (hf : rest.length < f) (hp : rest.head?.map Prod.fst = some prev)
    (hpc : ∀ x ∈ rest, next N x.1 = some (some x.2) ∧ N.orig x.2 = false ∧ N.bw x.2 = false ∧ x.2 ∉ tried)
    (hl : rest.IsChain fun a b => N.fw a.2 = some b.1 ∨ N.ends a.2 = true ∧ b.1 = a.2) (ho : (rest.map Prod.snd).Nodup) (hy : ∀ y ∈ rest.tail, y.1 ≠ start)
    (hb : N.begins start = true → start ∉ tried)
    (hfin : ∃ x, rest.getLast? = some x ∧ (N.fw x.2 = some start ∨ N.ends x.2 = true ∧ next N x.2 = some none ∨ N.ends x.2 = true ∧ next N x.2 = some (some start) ∧ N.begins start = true)) :
    walk N start f tried prev (next N prev) res = .found (res ++ rest) := by
  induction rest generalizing f tried prev res with
  | nil => simp at hp
  | cons x rest ih =>
    obtain ⟨b, c⟩ := x
    simp only [List.head?_cons, Option.map_some, Option.some.injEq] at hp
    subst hp
    obtain ⟨g1, g2, g3, g4⟩ := hpc (b, c) (by simp)
    dsimp only at g1 g2 g3 g4
    cases f with
    | zero => simp at hf
    | succ f =>
      have hcs : c ≠ start := by
        rintro rfl
        rcases hst with h | h
        · obtain ⟨_, _, e3, e4, _⟩ := hc.begin c h
          cases rest with
          | nil =>
            obtain ⟨x, hx, hx2⟩ := hfin
            simp at hx
            subst hx
            dsimp only at hx2
            rw [e3, e4] at hx2
            simp at hx2
          | cons y rest =>
            rw [List.isChain_cons_cons] at hl
            have := hl.1
            dsimp only at this
            rw [e3, e4] at this
            simp at this
        · rw [h] at g3; cases g3
      rw [g1, walk, if_neg (by have := next_lt N b c g1; omega), if_neg g4, if_neg (by rw [g2]; simp), if_neg (by rw [g3]; simp), if_neg hcs]
      cases rest with
      | nil =>
        obtain ⟨x, hx, hx2⟩ := hfin
        simp at hx
        subst hx
        dsimp only at hx2
        rcases hx2 with h | ⟨h, h'⟩ | ⟨h, h', h''⟩
        · rw [if_pos h]
        · have hn := hc.separate.1 c h
          have hj : jump N c b res = (b, res) := by unfold jump; rw [hn]
          rw [if_neg (by rw [hn]; simp), if_pos h, if_pos h', hj]
        · have hn := hc.separate.1 c h
          have hj : jump N c b res = (b, res) := by unfold jump; rw [hn]
          rw [if_neg (by rw [hn]; simp), if_pos h, if_neg (by rw [h']; simp), hj]
          dsimp only
          cases f with
          | zero => simp at hf
          | succ f =>
            obtain ⟨e1, e2, _, _, e5⟩ := hc.begin start h''
            rw [h', walk, if_neg (by omega), if_neg, if_neg (by rw [e2]; simp), if_neg (by rw [e1]; simp), if_pos rfl, if_pos (by rw [h'', h]; rfl)]
            simp only [List.mem_cons, not_or]
            exact ⟨Ne.symm hcs, Ne.symm hcs, hb h''⟩
      | cons y rest =>
        rw [List.isChain_cons_cons] at hl
        obtain ⟨hl1, hl2⟩ := hl
        rw [List.map_cons, List.nodup_cons] at ho
        obtain ⟨ho1, ho2⟩ := ho
        have hfin' : ∃ x, (y :: rest).getLast? = some x ∧ (N.fw x.2 = some start ∨ N.ends x.2 = true ∧ next N x.2 = some none ∨ N.ends x.2 = true ∧ next N x.2 = some (some start) ∧ N.begins start = true) := by
          obtain ⟨x, hx, hx2⟩ := hfin
          rw [List.getLast?_cons_cons] at hx
          exact ⟨x, hx, hx2⟩
        have hy1 : y.1 ≠ start := hy y (by simp)
        have step : ∀ q, (q = c ∨ N.bw q = true) → q ≠ start → y.1 = q → walk N start f (c :: q :: tried) q (next N q) (res ++ [(b, c)]) = .found (res ++ (b, c) :: y :: rest) := by
          intro q hq hqs hyq
          rw [ih f (c :: q :: tried) q (res ++ [(b, c)]) (by simp at hf ⊢; omega) (by simp [hyq]) ?_ hl2 ho2 (fun z hz => hy z (by simp at hz ⊢; exact Or.inr hz)) ?_ hfin']
          · simp
          · intro x hx
            obtain ⟨e1, e2, e3, e4⟩ := hpc x (by simp at hx ⊢; exact Or.inr hx)
            refine ⟨e1, e2, e3, ?_⟩
            have hxc : x.2 ≠ c := by
              intro he
              apply ho1
              dsimp only
              rw [← he]
              exact List.mem_map_of_mem hx
            simp only [List.mem_cons, not_or]
            refine ⟨hxc, ?_, e4⟩
            rcases hq with rfl | hq
            · exact hxc
            · intro he
              rw [he, hq] at e3
              cases e3
          · intro hbg
            simp only [List.mem_cons, not_or]
            exact ⟨Ne.symm hcs, Ne.symm hqs, hb hbg⟩
        rcases hl1 with h | ⟨h, h'⟩
        · dsimp only at h
          have hne : ¬ N.ends c = true := by
            intro he
            rw [hc.separate.1 c he] at h
            cases h
          have hj : jump N c b res = (y.1, res ++ [(b, c)]) := by unfold jump; rw [h]
          rw [if_neg (by rw [h]; intro he; exact hy1 (Option.some.inj he)), if_neg hne, hj]
          exact step y.1 (Or.inr (hc.partner c _ h)) hy1 rfl
        · dsimp only at h h'
          have hn := hc.separate.1 c h
          have hj : jump N c b res = (b, res) := by unfold jump; rw [hn]
          have hyn := (hpc y (by simp)).1
          rw [h'] at hyn
          rw [if_neg (by rw [hn]; simp), if_pos h, if_neg (by rw [hyn]; simp), hj]
          exact step c (Or.inl rfl) hcs h'

/-- **C161.** Each such sub-path is found: nothing is lost. -/
theorem trial_complete (N : Net) (hc : Consistent N) (done : List ℕ) (start : ℕ) (hst : N.begins start = true ∨ N.bw start = true) (hd : start ∉ done) (l : List (ℕ × ℕ))
    (h : Outline N done start l) : trial N done start = .found l := by
  have hlen : l.length ≤ N.n := by
    have h1 : (l.map Prod.snd).length ≤ (List.range N.n).length := by
      refine (List.subperm_of_subset h.once ?_).length_le
      intro c hcm
      rw [List.mem_map] at hcm
      obtain ⟨x, hx, rfl⟩ := hcm
      exact List.mem_range.2 (next_lt N _ _ (h.pieces x hx).1)
    simpa using h1
  have := walk_complete N hc start hst l (N.n + 2) done start [] (by omega) h.begin h.pieces h.links h.once ?_ (fun _ => hd) h.finish
  · simpa [trial] using this
  · cases l with
    | nil => simp
    | cons a t =>
      intro y hy hys
      rw [List.tail_cons] at hy
      have ha : a.1 = start := by simpa using h.begin
      have e1 := (h.pieces a (by simp)).1
      have e2 := (h.pieces y (by simp [hy])).1
      rw [ha] at e1
      rw [hys, e1] at e2
      have e3 : a.2 = y.2 := Option.some.inj (Option.some.inj e2)
      have := h.once
      rw [List.map_cons, List.nodup_cons] at this
      apply this.1
      rw [e3]
      exact List.mem_map_of_mem hy

theorem Outline.mono {N : Net} {done more : List ℕ} {start : ℕ} {l : List (ℕ × ℕ)} (h : Outline N more start l) (hs : ∀ x ∈ done, x ∈ more) : Outline N done start l :=
  ⟨h.begin, fun x hx => ⟨(h.pieces x hx).1, (h.pieces x hx).2.1, (h.pieces x hx).2.2.1, fun hd => (h.pieces x hx).2.2.2 (hs _ hd)⟩, h.links, h.once, h.finish⟩

/-- **C161.** The result consists of such sub-paths, each begins at one of the possible starts, and no piece of the path is used twice in all of them. -/
theorem rebuild_outlines (N : Net) (hs : Separate N) (starts done : List ℕ) (out : List (List (ℕ × ℕ))) (h : rebuild N done starts = some out) :
    (∀ l ∈ out, l ≠ [] ∧ ∃ s ∈ starts, s ∉ done ∧ Outline N done s l) ∧ ((out.flatten).map Prod.snd).Nodup ∧ ∀ x ∈ out.flatten, x.2 ∉ done := by
  induction starts generalizing done out with
  | nil =>
    rw [rebuild] at h
    cases h
    simp
  | cons s ss ih =>
    rw [rebuild] at h
    by_cases hd : s ∈ done
    · rw [if_pos hd] at h
      obtain ⟨g1, g2, g3⟩ := ih done out h
      refine ⟨fun l hl => ?_, g2, g3⟩
      obtain ⟨e1, s', e2, e3, e4⟩ := g1 l hl
      exact ⟨e1, s', by simp [e2], e3, e4⟩
    · rw [if_neg hd] at h
      cases ht : trial N done s with
      | keyError => rw [ht] at h; cases h
      | assertion => rw [ht] at h; cases h
      | unfinished => rw [ht] at h; cases h
      | found l0 =>
        rw [ht] at h
        cases l0 with
        | nil =>
          obtain ⟨g1, g2, g3⟩ := ih done out h
          refine ⟨fun l hl => ?_, g2, g3⟩
          obtain ⟨e1, s', e2, e3, e4⟩ := g1 l hl
          exact ⟨e1, s', by simp [e2], e3, e4⟩
        | cons x0 l0 =>
          dsimp only at h
          have hO := trial_outline N hs done s _ ht (by simp)
          cases hr : rebuild N (List.map Prod.fst (x0 :: l0) ++ List.map Prod.snd (x0 :: l0) ++ done) ss with
          | none => rw [hr] at h; cases h
          | some out' =>
            rw [hr] at h
            simp only [Option.map_some, Option.some.injEq] at h
            subst h
            obtain ⟨g1, g2, g3⟩ := ih _ out' hr
            refine ⟨?_, ?_, ?_⟩
            · intro l hl
              rw [List.mem_cons] at hl
              rcases hl with rfl | hl
              · exact ⟨by simp, s, by simp, hd, hO⟩
              · obtain ⟨e1, s', e2, e3, e4⟩ := g1 l hl
                refine ⟨e1, s', by simp [e2], fun hx => e3 ?_, e4.mono fun x hx => ?_⟩
                · rw [List.mem_append]; exact Or.inr hx
                · rw [List.mem_append]; exact Or.inr hx
            · rw [List.flatten_cons, List.map_append, List.nodup_append]
              refine ⟨hO.once, g2, ?_⟩
              intro a ha b hb hab
              subst hab
              rw [List.mem_map] at hb
              obtain ⟨y, hy, hya⟩ := hb
              refine g3 y hy ?_
              rw [hya, List.mem_append, List.mem_append]
              exact Or.inl (Or.inr ha)
            · intro x hx
              rw [List.flatten_cons, List.mem_append] at hx
              rcases hx with hx | hx
              · exact (hO.pieces x hx).2.2.2
              · intro hxd
                refine g3 x hx ?_
                rw [List.mem_append]
                exact Or.inr hxd

/-! ## Pieces of one sub-path -/

/-- The parameters are sorted by sub-paths (`allparams.sort`), and the last one of each sub-path is its end. -/
def EndsListed (N : Net) : Prop := ∀ p, p < N.n → N.ends p = false → p + 1 < N.n ∧ N.sub (p + 1) = N.sub p

theorem first_sub (N : Net) (s p : ℕ) (h : first N s = some p) : N.sub p = s ∧ p < N.n := by
  unfold first at h
  have h1 := List.find?_some h
  have h2 := List.mem_of_find?_eq_some h
  exact ⟨by simpa using h1, List.mem_range.1 h2⟩

/-- **C161.** If the ends of all sub-paths are listed (are not crossings), each piece is on one sub-path, as is needed to cut it out (`deformer.py:1487-1488`). -/
theorem piece_sub (N : Net) (he : EndsListed N) (x : ℕ × ℕ) (hx : x.1 < N.n) (h : next N x.1 = some (some x.2)) : N.sub x.2 = N.sub x.1 := by
  unfold next at h
  by_cases h1 : N.ends x.1 = true
  · rw [if_pos h1] at h
    by_cases h2 : N.closed (N.sub x.1) = true
    · rw [if_pos h2] at h
      exact (first_sub N _ _ (Option.some.inj h)).1
    · rw [if_neg h2] at h; cases h
  · rw [if_neg h1] at h
    obtain ⟨g1, g2⟩ := he x.1 hx (by simpa using h1)
    rw [if_pos g1] at h
    have := Option.some.inj (Option.some.inj h)
    rw [← this]
    exact g2

/-- Two open sub-paths; the first one begins at parameter 0, and ends in itself: its end, parameter 2, is a crossing with parameter 1, and so is not listed. The second one begins there too, and has its end at
parameter 3. -/
def exNet : Net where
  n := 4
  sub := fun p => if p < 3 then 0 else 1
  closed := fun _ => false
  fw := fun p => if p = 1 then some 2 else none
  bw := fun p => p = 2
  orig := fun _ => false
  begins := fun p => p = 0
  ends := fun p => p = 3

/-- **C161, violated.** Without this, a piece may lead from one sub-path into another one, and the code cuts out something else. -/
theorem piece_sub_fails : Separate exNet ∧ rebuild exNet [] [0, 2] = some [[(0, 1), (2, 3)]] ∧ exNet.sub 2 ≠ exNet.sub 3 := by
  refine ⟨⟨?_, ?_⟩, by decide +kernel, by decide +kernel⟩
  · intro c hc
    simp [exNet] at hc
    subst hc
    decide +kernel
  · intro c q h
    by_cases h5 : c = 1
    · subst h5; simp [exNet] at h; subst h; decide +kernel
    · simp [exNet, h5] at h

/-- A search which leads to a `KeyError`: the last parameter of all is a crossing from which the path should go on. -/
theorem key_error : rebuild { exNet with n := 3, ends := fun _ => false } [] [0, 2] = none := by decide +kernel

/-- A closed sub-path which crosses itself in one point (like an 8): with begin 0, crossing 1 leading to 2 and end 3. The loop between 1 and 2 is left out; if the crossing leads from 2 to 1 instead, only the loop is kept. -/
theorem ex_eight : rebuild ⟨4, fun _ => 0, fun _ => true, fun p => if p = 1 then some 2 else none, fun p => p = 2, fun _ => false, fun p => p = 0, fun p => p = 3⟩ [] [0, 2] = some [[(0, 1), (2, 3)]] ∧
    rebuild ⟨4, fun _ => 0, fun _ => true, fun p => if p = 2 then some 1 else none, fun p => p = 1, fun _ => false, fun p => p = 0, fun p => p = 3⟩ [] [0, 1] = some [[(1, 2)]] := by
  decide +kernel

/-- That of the first of the two. -/
def exEight : Net := ⟨4, fun _ => 0, fun _ => true, fun p => if p = 1 then some 2 else none, fun p => p = 2, fun _ => false, fun p => p = 0, fun p => p = 3⟩

theorem ex_consistent : Consistent exEight ∧ EndsListed exEight := by
  refine ⟨⟨⟨?_, ?_⟩, ?_, ?_⟩, ?_⟩
  · intro c hc
    simp [exEight] at hc
    subst hc
    rfl
  · intro c q h
    by_cases h5 : c = 1
    · subst h5; simp [exEight] at h; subst h; decide +kernel
    · simp [exEight, h5] at h
  · intro c q h
    by_cases h5 : c = 1
    · subst h5; simp [exEight] at h; subst h; decide +kernel
    · simp [exEight, h5] at h
  · intro p hp
    simp [exEight] at hp
    subst hp
    decide +kernel
  · intro p hp he
    simp [exEight] at hp he ⊢
    omega

end PyX.Deform.Rebuild
