import Mathlib.Data.List.Basic
import Mathlib.Data.List.Nodup
import Mathlib.Logic.Function.Basic
import Mathlib.Algebra.Order.Group.Nat
import Mathlib.Tactic.Common

/-!
# C170: paths as objects (`pyx/normpath.py:1548-1568, 1620-1637, 1731-1737, 1757-1761, 1783-1811, 1848-1915, 1985`, `pyx/path.py:1079-1119, 1216-1233`)

Normpaths are lists of references to sub-paths, and sub-paths are changed in place. The model has a heap of sub-paths, normpaths and paths. The contents `S` of sub-paths and the path items `I` are arbitrary.
-/

set_option linter.unusedSectionVars false
set_option linter.unusedSimpArgs false

namespace PyX.NormPath.Objects

variable {S I : Type}

/-- What is done with the contents: `updatenormpath` of an item, which changes the last sub-path and may add others (`path.py:306-309, 358-365, 396-400, 637-646`), `createnormpath` of a first item, `normsubpath.join` (`normpath.py:1217-1234`), and `normsubpath.reversed`. `none` is an exception. -/
structure Ops (S I : Type) where
  update : S → I → Option (S × List S)
  create : I → List S
  join : S → S → Option S
  reversed : S → S

/-- The objects: the contents of the sub-paths, the number of them, the references of each normpath, the number of normpaths, and the items and the cached normpath of each path. -/
structure Heap (S I : Type) where
  sub : ℕ → S
  subN : ℕ
  np : ℕ → List ℕ
  npN : ℕ
  items : ℕ → List I
  cache : ℕ → Option ℕ

/-- What a normpath looks like. -/
def val (h : Heap S I) (a : ℕ) : List S := (h.np a).map h.sub

/-- `self.normsubpaths.append(…)` with a new sub-path. -/
def push (a : ℕ) (h : Heap S I) (s : S) : Heap S I :=
  { h with sub := Function.update h.sub h.subN s, subN := h.subN + 1, np := Function.update h.np a (h.np a ++ [h.subN]) }

def pushes (h : Heap S I) (a : ℕ) (l : List S) : Heap S I := l.foldl (push a) h

/-- `normpath()` (`normpath.py:1548-1556`): the result is the number `h.npN`. -/
def new (h : Heap S I) : Heap S I := { h with np := Function.update h.np h.npN [], npN := h.npN + 1 }

/-- A new normpath of new sub-paths. -/
def fresh (h : Heap S I) (l : List S) : Heap S I := pushes (new h) h.npN l

/-- `copy` (`normpath.py:1731-1736`); as before, the result is the number `h.npN`. -/
def copy (h : Heap S I) (a : ℕ) : Heap S I := fresh h (val h a)

/-- The loop of `__iadd__` (`normpath.py:1564-1568`) at the position `i` of the list of the other path, for at most `n` passes. -/
def iaddLoop (a b : ℕ) : ℕ → ℕ → Heap S I → Option (Heap S I)
  | 0, _, _ => none
  | n + 1, i, h =>
    match (h.np b)[i]? with
    | none => some h
    | some r => iaddLoop a b n (i + 1) (push a h (h.sub r))

/-- `__iadd__` with another path (`normpath.py:1564-1568`), see `iadd_loop`. -/
def iadd (h : Heap S I) (a b : ℕ) : Heap S I := pushes h a (val h b)

/-- `__add__` (`normpath.py:1558-1562`). -/
def add (h : Heap S I) (a b : ℕ) : Heap S I := iadd (copy h a) h.npN b

/-- `join` (`normpath.py:1783-1797`). -/
def join (O : Ops S I) (h : Heap S I) (a b : ℕ) : Option (Heap S I) :=
  match (h.np a).getLast?, h.np b with
  | some r, q :: l =>
    (O.join (h.sub r) (h.sub q)).map fun s =>
      { h with sub := Function.update h.sub r s, np := Function.update h.np a (h.np a ++ l) }
  | _, _ => none

/-- `joined` and `<<` (`normpath.py:1799-1811`). -/
def joined (O : Ops S I) (h : Heap S I) (a b : ℕ) : Option (Heap S I) := join O (copy h a) h.npN b

/-- `append` of a path item (`normpath.py:1626-1637`). -/
def item (O : Ops S I) (h : Heap S I) (a : ℕ) (i : I) : Option (Heap S I) :=
  match (h.np a).getLast? with
  | some r => (O.update (h.sub r) i).map fun x => pushes { h with sub := Function.update h.sub r x.1 } a x.2
  | none => some (pushes h a (O.create i))

/-- `reversed` (`normpath.py:1848-1853`). -/
def reversed (O : Ops S I) (h : Heap S I) (a : ℕ) : Heap S I := fresh h ((val h a).reverse.map O.reversed)

/-- `transformed` (`normpath.py:1983-1985`). -/
def transformed (f : S → S) (h : Heap S I) (a : ℕ) : Heap S I := fresh h ((val h a).map f)

/-- `split` at one point of the sub-path `k`, which is divided to `s` and `t` (`normpath.py:1873-1913`): the results are `h.npN` and `h.npN + 1`. -/
def split (h : Heap S I) (a k : ℕ) (s t : S) : Heap S I :=
  { h with
    sub := Function.update (Function.update h.sub h.subN s) (h.subN + 1) t
    subN := h.subN + 2
    np := Function.update (Function.update h.np h.npN ((h.np a).take k ++ [h.subN])) (h.npN + 1) ((h.subN + 1) :: (h.np a).drop (k + 1))
    npN := h.npN + 2 }

/-- `path.append` (`path.py:1115-1119`). -/
def pathItem (h : Heap S I) (p : ℕ) (i : I) : Heap S I :=
  { h with items := Function.update h.items p (h.items p ++ [i]), cache := Function.update h.cache p none }

/-- `path.normpath` (`path.py:1216-1233`) with the normpath returned; `norm` is what the items give. -/
def pathNorm (norm : List I → List S) (h : Heap S I) (p : ℕ) : Heap S I × ℕ :=
  match h.cache p with
  | some a => (h, a)
  | none => ({ fresh h (norm (h.items p)) with cache := Function.update h.cache p (some h.npN) }, h.npN)

/-! ## Separate normpaths -/

/-- No sub-path belongs to two normpaths, or twice to one. -/
structure Separate (h : Heap S I) : Prop where
  apart : ∀ a b r, r ∈ h.np a → r ∈ h.np b → a = b
  nodup : ∀ a, (h.np a).Nodup
  bound : ∀ a r, r ∈ h.np a → r < h.subN

theorem map_update_of_notMem (l : List ℕ) (f : ℕ → S) (r : ℕ) (s : S) (h : r ∉ l) : l.map (Function.update f r s) = l.map f := by
  apply List.map_congr_left
  intro x hx
  refine Function.update_of_ne (fun e => ?_) _ _
  subst e
  exact h hx

theorem push_val_other (h : Heap S I) (hs : Separate h) (a b : ℕ) (s : S) (hb : b ≠ a) : val (push a h s) b = val h b := by
  unfold val push
  dsimp only
  rw [Function.update_of_ne hb]
  exact map_update_of_notMem _ _ _ _ (fun m => lt_irrefl _ (hs.bound b _ m))

theorem push_val_self (h : Heap S I) (hs : Separate h) (a : ℕ) (s : S) : val (push a h s) a = val h a ++ [s] := by
  unfold val push
  dsimp only
  rw [Function.update_self, List.map_append, map_update_of_notMem _ _ _ _ (fun m => lt_irrefl _ (hs.bound a _ m))]
  simp

theorem push_separate (h : Heap S I) (hs : Separate h) (a : ℕ) (s : S) : Separate (push a h s) := by
  have mem : ∀ b r, r ∈ (push a h s).np b → r ∈ h.np b ∨ (b = a ∧ r = h.subN) := by
    intro b r m
    unfold push at m
    dsimp only at m
    by_cases c : b = a
    · subst c
      rw [Function.update_self, List.mem_append, List.mem_singleton] at m
      rcases m with m | m
      · exact Or.inl m
      · exact Or.inr ⟨rfl, m⟩
    · rw [Function.update_of_ne c] at m; exact Or.inl m
  refine ⟨?_, ?_, ?_⟩
  · intro b c r hb hc
    rcases mem b r hb with mb | ⟨eb, er⟩ <;> rcases mem c r hc with mc | ⟨ec, er'⟩
    · exact hs.apart b c r mb mc
    · rw [er'] at mb; exact absurd (hs.bound b _ mb) (lt_irrefl _)
    · rw [er] at mc; exact absurd (hs.bound c _ mc) (lt_irrefl _)
    · rw [eb, ec]
  · intro b
    unfold push
    dsimp only
    by_cases c : b = a
    · subst c
      rw [Function.update_self, List.nodup_append]
      refine ⟨hs.nodup b, List.nodup_singleton _, ?_⟩
      intro x hx y hy
      rw [List.mem_singleton] at hy
      subst hy
      exact (hs.bound b x hx).ne
    · rw [Function.update_of_ne c]; exact hs.nodup b
  · intro b r m
    change r < h.subN + 1
    rcases mem b r m with m | ⟨_, rfl⟩
    · exact Nat.lt_succ_of_lt (hs.bound b r m)
    · exact Nat.lt_succ_self _

theorem pushes_spec (a : ℕ) (l : List S) : ∀ (h : Heap S I), Separate h →
    Separate (pushes h a l) ∧ val (pushes h a l) a = val h a ++ l ∧ (∀ b, b ≠ a → val (pushes h a l) b = val h b) ∧
      (pushes h a l).npN = h.npN ∧ (pushes h a l).items = h.items ∧ (pushes h a l).cache = h.cache ∧ (∀ b, b ≠ a → (pushes h a l).np b = h.np b) := by
  induction l with
  | nil => intro h hs; exact ⟨hs, by simp [pushes], fun b _ => rfl, rfl, rfl, rfl, fun b _ => rfl⟩
  | cons s l ih =>
    intro h hs
    obtain ⟨p1, p2, p3, p4, p5, p6, p7⟩ := ih (push a h s) (push_separate h hs a s)
    refine ⟨p1, ?_, ?_, p4, p5, p6, ?_⟩
    · change val (pushes (push a h s) a l) a = _
      rw [p2, push_val_self h hs]
      simp
    · intro b hb
      change val (pushes (push a h s) a l) b = _
      rw [p3 b hb, push_val_other h hs a b s hb]
    · intro b hb
      change (pushes (push a h s) a l).np b = _
      rw [p7 b hb]
      unfold push
      dsimp only
      rw [Function.update_of_ne hb]

theorem new_separate (h : Heap S I) (hs : Separate h) : Separate (new h) := by
  have mem : ∀ b r, r ∈ (new h).np b → r ∈ h.np b := by
    intro b r m
    unfold new at m
    dsimp only at m
    by_cases c : b = h.npN
    · subst c; rw [Function.update_self] at m; cases m
    · rw [Function.update_of_ne c] at m; exact m
  refine ⟨fun a b r ha hb => hs.apart a b r (mem a r ha) (mem b r hb), ?_, fun b r m => hs.bound b r (mem b r m)⟩
  intro b
  unfold new
  dsimp only
  by_cases c : b = h.npN
  · subst c; rw [Function.update_self]; exact List.nodup_nil
  · rw [Function.update_of_ne c]; exact hs.nodup b

theorem new_val (h : Heap S I) : val (new h) h.npN = [] ∧ ∀ b, b ≠ h.npN → val (new h) b = val h b := by
  unfold val new
  dsimp only
  refine ⟨by rw [Function.update_self]; rfl, fun b hb => by rw [Function.update_of_ne hb]⟩

theorem fresh_spec (h : Heap S I) (hs : Separate h) (l : List S) :
    Separate (fresh h l) ∧ val (fresh h l) h.npN = l ∧ (∀ b, b ≠ h.npN → val (fresh h l) b = val h b) ∧ (fresh h l).npN = h.npN + 1 ∧
      (fresh h l).items = h.items ∧ (fresh h l).cache = h.cache ∧ (∀ b, b ≠ h.npN → (fresh h l).np b = h.np b) := by
  obtain ⟨p1, p2, p3, p4, p5, p6, p7⟩ := pushes_spec h.npN l (new h) (new_separate h hs)
  refine ⟨p1, ?_, ?_, p4, p5, p6, ?_⟩
  · unfold fresh; rw [p2, (new_val h).1]; rfl
  · intro b hb; unfold fresh; rw [p3 b hb, (new_val h).2 b hb]
  · intro b hb
    unfold fresh
    rw [p7 b hb]
    unfold new
    dsimp only
    rw [Function.update_of_ne hb]

/-! ## Adding -/

theorem iadd_loop_aux (a b : ℕ) (hab : a ≠ b) : ∀ (n : ℕ) (h : Heap S I), Separate h → ∀ i, i ≤ (h.np b).length → (h.np b).length - i < n →
    iaddLoop a b n i h = some (pushes h a (((h.np b).drop i).map h.sub)) := by
  intro n
  induction n with
  | zero => intro h _ i _ hn; omega
  | succ n ih =>
    intro h hs i hi hn
    unfold iaddLoop
    by_cases c : i < (h.np b).length
    · rw [List.getElem?_eq_getElem c]
      dsimp only
      have eb : (push a h (h.sub (h.np b)[i])).np b = h.np b := by
        unfold push; dsimp only; rw [Function.update_of_ne hab.symm]
      rw [ih _ (push_separate h hs a _) (i + 1) (by rw [eb]; omega) (by rw [eb]; omega), eb, List.drop_eq_getElem_cons c, List.map_cons]
      unfold pushes
      rw [List.foldl_cons]
      congr 2
      unfold push
      dsimp only
      apply map_update_of_notMem
      intro m
      exact lt_irrefl _ (hs.bound b _ (List.mem_of_mem_drop m))
    · have e : i = (h.np b).length := by omega
      rw [List.getElem?_eq_none (by omega), e, List.drop_length]
      rfl

/-- C170: adding another path in place ends, with copies of all of its sub-paths. -/
theorem iadd_loop (a b : ℕ) (hab : a ≠ b) (h : Heap S I) (hs : Separate h) (n : ℕ) (hn : (h.np b).length < n) :
    iaddLoop a b n 0 h = some (iadd h a b) := by
  rw [iadd_loop_aux a b hab n h hs 0 (Nat.zero_le _) (by omega)]
  rfl

/-- C170, what does not hold: adding a path to itself in place never ends, unless it is empty. -/
theorem iadd_self (a : ℕ) : ∀ (n i : ℕ) (h : Heap S I), i < (h.np a).length → iaddLoop a a n i h = none := by
  intro n
  induction n with
  | zero => intro i h _; rfl
  | succ n ih =>
    intro i h hi
    unfold iaddLoop
    rw [List.getElem?_eq_getElem hi]
    dsimp only
    apply ih
    unfold push
    dsimp only
    rw [Function.update_self, List.length_append]
    exact Nat.add_lt_add_right hi 1

/-! ## Single operations -/

theorem set_last_separate (h : Heap S I) (hs : Separate h) (r : ℕ) (s : S) : Separate { h with sub := Function.update h.sub r s } :=
  ⟨hs.apart, hs.nodup, hs.bound⟩

theorem set_last_val (h : Heap S I) (hs : Separate h) (a r : ℕ) (s : S) (hr : (h.np a).getLast? = some r) :
    val { h with sub := Function.update h.sub r s } a = (val h a).dropLast ++ [s] ∧
      ∀ b, b ≠ a → val { h with sub := Function.update h.sub r s } b = val h b := by
  have m : r ∈ h.np a := List.mem_of_getLast? hr
  obtain ⟨l, hl⟩ := List.getLast?_eq_some_iff.1 hr
  constructor
  · unfold val
    dsimp only
    have nd := hs.nodup a
    rw [hl, List.nodup_append] at nd
    rw [hl, List.map_append, List.map_append, map_update_of_notMem l _ _ _ (fun k => nd.2.2 r k r (by simp) rfl)]
    simp
  · intro b hb
    unfold val
    dsimp only
    exact map_update_of_notMem _ _ _ _ (fun k => hb (hs.apart b a r k m))

/-- C170: appending an item changes this normpath only. -/
theorem item_spec (O : Ops S I) (h h' : Heap S I) (hs : Separate h) (a : ℕ) (i : I) (e : item O h a i = some h') :
    Separate h' ∧ (∀ b, b ≠ a → val h' b = val h b) ∧ h'.npN = h.npN ∧ h'.items = h.items ∧ h'.cache = h.cache ∧
      (∀ s, (val h a).getLast? = some s → ∃ x, O.update s i = some x ∧ val h' a = (val h a).dropLast ++ x.1 :: x.2) ∧
      (val h a = [] → val h' a = O.create i) := by
  unfold item at e
  cases g : (h.np a).getLast? with
  | none =>
    rw [g] at e
    dsimp only at e
    cases e
    have z : h.np a = [] := List.getLast?_eq_none_iff.1 g
    have z' : val h a = [] := by unfold val; rw [z]; rfl
    obtain ⟨p1, p2, p3, p4, p5, p6, _⟩ := pushes_spec a (O.create i) h hs
    refine ⟨p1, p3, p4, p5, p6, ?_, ?_⟩
    · intro s k; rw [z'] at k; cases k
    · intro _; rw [p2, z']; rfl
  | some r =>
    rw [g] at e
    dsimp only at e
    cases u : O.update (h.sub r) i with
    | none => rw [u] at e; cases e
    | some x =>
      rw [u] at e
      cases e
      have hs' := set_last_separate h hs r x.1
      obtain ⟨v1, v2⟩ := set_last_val h hs a r x.1 g
      obtain ⟨p1, p2, p3, p4, p5, p6, _⟩ := pushes_spec a x.2 _ hs'
      refine ⟨p1, fun b hb => by rw [p3 b hb, v2 b hb], p4, p5, p6, ?_, ?_⟩
      · intro s k
        have : s = h.sub r := by
          unfold val at k
          rw [List.getLast?_map, g] at k
          exact (Option.some.inj k).symm
        subst this
        refine ⟨x, u, ?_⟩
        rw [p2, v1]
        simp
      · intro k
        have : h.np a = [] := List.map_eq_nil_iff.1 k
        rw [this] at g
        cases g

/-- C170: what joining gives, and that the other normpath is not changed. -/
theorem join_spec (O : Ops S I) (h h' : Heap S I) (hs : Separate h) (a b : ℕ) (hab : a ≠ b) (e : join O h a b = some h') :
    (∀ c, c ≠ a → val h' c = val h c) ∧ h'.npN = h.npN ∧ h'.items = h.items ∧ h'.cache = h.cache ∧
      (∃ s t u l, (val h a).getLast? = some s ∧ val h b = t :: l ∧ O.join s t = some u ∧ val h' a = (val h a).dropLast ++ u :: l) ∧
      ((val h b).length = 1 → Separate h') := by
  unfold join at e
  cases g : (h.np a).getLast? with
  | none => rw [g] at e; cases e
  | some r =>
    cases w : h.np b with
    | nil => rw [g, w] at e; cases e
    | cons q l =>
      rw [g, w] at e
      dsimp only at e
      cases u : O.join (h.sub r) (h.sub q) with
      | none => rw [u] at e; cases e
      | some s =>
        rw [u] at e
        cases e
        obtain ⟨v1, v2⟩ := set_last_val h hs a r s g
        have notin : r ∉ l := by
          intro k
          exact hab (hs.apart a b r (List.mem_of_getLast? g) (by rw [w]; exact List.mem_cons_of_mem _ k))
        refine ⟨?_, rfl, rfl, rfl, ⟨h.sub r, h.sub q, s, l.map h.sub, ?_, ?_, u, ?_⟩, ?_⟩
        · intro c hc
          have := v2 c hc
          unfold val at this ⊢
          dsimp only at this ⊢
          rw [Function.update_of_ne hc]
          exact this
        · unfold val; rw [List.getLast?_map, g]; rfl
        · unfold val; rw [w]; rfl
        · unfold val at v1 ⊢
          dsimp only at v1 ⊢
          rw [Function.update_self, List.map_append, v1, map_update_of_notMem l _ _ _ notin]
          simp
        · intro k
          have z : l = [] := by
            unfold val at k
            rw [w] at k
            simpa using k
          subst z
          have e : Function.update h.np a (h.np a ++ []) = h.np := by rw [List.append_nil]; exact Function.update_eq_self a h.np
          rw [e]
          exact set_last_separate h hs r s

/-! ## Programs -/

/-- The operations of a program, with the numbers of the normpaths and paths. -/
inductive Op (S I : Type)
  | copy (a : ℕ)
  | iadd (a b : ℕ)
  | add (a b : ℕ)
  | join (a b : ℕ)
  | joined (a b : ℕ)
  | item (a : ℕ) (i : I)
  | reversed (a : ℕ)
  | transformed (f : S → S) (a : ℕ)
  | pathItem (p : ℕ) (i : I)
  | pathNorm (p : ℕ)

def step (O : Ops S I) (norm : List I → List S) (h : Heap S I) : Op S I → Option (Heap S I)
  | .copy a => some (copy h a)
  | .iadd a b => if a = b then none else some (iadd h a b)
  | .add a b => some (add h a b)
  | .join a b => join O h a b
  | .joined a b => joined O h a b
  | .item a i => item O h a i
  | .reversed a => some (reversed O h a)
  | .transformed f a => some (transformed f h a)
  | .pathItem p i => some (pathItem h p i)
  | .pathNorm p => some (pathNorm norm h p).1

/-- The normpath which an operation changes in place. -/
def Op.target : Op S I → Option ℕ
  | .iadd a _ => some a
  | .join a _ => some a
  | .item a _ => some a
  | _ => none

/-- All operands exist, and only normpaths with a single sub-path are joined. -/
def Safe (h : Heap S I) : Op S I → Prop
  | .copy a => a < h.npN
  | .iadd a b => a < h.npN ∧ b < h.npN
  | .add a b => a < h.npN ∧ b < h.npN
  | .join a b => a < h.npN ∧ b < h.npN ∧ a ≠ b ∧ (val h b).length ≤ 1
  | .joined a b => a < h.npN ∧ b < h.npN ∧ (val h b).length ≤ 1
  | .item a _ => a < h.npN
  | .reversed a => a < h.npN
  | .transformed _ a => a < h.npN
  | .pathItem _ _ => True
  | .pathNorm _ => True

theorem join_one (O : Ops S I) (h h' : Heap S I) (hs : Separate h) (a b : ℕ) (hab : a ≠ b) (e : join O h a b = some h') (l : (val h b).length ≤ 1) :
    Separate h' := by
  obtain ⟨_, _, _, _, ⟨s, t, u, k, _, hb, _⟩, p⟩ := join_spec O h h' hs a b hab e
  apply p
  rw [hb] at l ⊢
  simp at l ⊢
  exact l

/-- C170: an operation keeps the normpaths separate and changes no other normpath than the one it is called for. -/
theorem step_partial (O : Ops S I) (norm : List I → List S) (h h' : Heap S I) (hs : Separate h) (o : Op S I) (ok : Safe h o) (e : step O norm h o = some h') :
    Separate h' ∧ h.npN ≤ h'.npN ∧ ∀ b, b < h.npN → o.target ≠ some b → val h' b = val h b := by
  cases o with
  | copy a =>
    cases e
    obtain ⟨p1, _, p3, p4, _⟩ := fresh_spec h hs (val h a)
    exact ⟨p1, by change h.npN ≤ (fresh h (val h a)).npN; omega, fun b hb _ => p3 b hb.ne⟩
  | iadd a b =>
    unfold step at e
    dsimp only at e
    by_cases c : a = b
    · rw [if_pos c] at e; cases e
    · rw [if_neg c] at e; cases e
      obtain ⟨p1, _, p3, p4, _⟩ := pushes_spec a (val h b) h hs
      refine ⟨p1, by change h.npN ≤ (pushes h a (val h b)).npN; omega, ?_⟩
      intro d _ t
      exact p3 d (fun k => t (by rw [k]; rfl))
  | add a b =>
    cases e
    obtain ⟨p1, _, p3, p4, _⟩ := fresh_spec h hs (val h a)
    obtain ⟨q1, _, q3, q4, _⟩ := pushes_spec h.npN (val (copy h a) b) (copy h a) p1
    refine ⟨q1, ?_, ?_⟩
    · change h.npN ≤ (pushes (copy h a) h.npN (val (copy h a) b)).npN
      rw [q4]
      change h.npN ≤ (fresh h (val h a)).npN
      omega
    · intro d hd _
      change val (pushes (copy h a) h.npN (val (copy h a) b)) d = _
      rw [q3 d hd.ne]
      exact p3 d hd.ne
  | join a b =>
    obtain ⟨_, _, hab, l⟩ := ok
    obtain ⟨p1, p2, _⟩ := join_spec O h h' hs a b hab e
    exact ⟨join_one O h h' hs a b hab e l, by omega, fun d _ t => p1 d (fun k => t (by rw [k]; rfl))⟩
  | joined a b =>
    obtain ⟨_, hb, l⟩ := ok
    obtain ⟨p1, _, p3, p4, _⟩ := fresh_spec h hs (val h a)
    have ne : h.npN ≠ b := hb.ne'
    change join O (fresh h (val h a)) h.npN b = some h' at e
    obtain ⟨q1, q2, _⟩ := join_spec O _ h' p1 h.npN b ne e
    refine ⟨join_one O _ h' p1 h.npN b ne e (by rw [p3 b hb.ne]; exact l), by omega, ?_⟩
    intro d hd _
    rw [q1 d hd.ne, p3 d hd.ne]
  | item a i =>
    obtain ⟨p1, p2, p3, _⟩ := item_spec O h h' hs a i e
    exact ⟨p1, by omega, fun d _ t => p2 d (fun k => t (by rw [k]; rfl))⟩
  | reversed a =>
    cases e
    obtain ⟨p1, _, p3, p4, _⟩ := fresh_spec h hs ((val h a).reverse.map O.reversed)
    exact ⟨p1, by change h.npN ≤ (fresh h _).npN; omega, fun b hb _ => p3 b hb.ne⟩
  | transformed f a =>
    cases e
    obtain ⟨p1, _, p3, p4, _⟩ := fresh_spec h hs ((val h a).map f)
    exact ⟨p1, by change h.npN ≤ (fresh h _).npN; omega, fun b hb _ => p3 b hb.ne⟩
  | pathItem p i =>
    cases e
    exact ⟨⟨hs.apart, hs.nodup, hs.bound⟩, le_refl _, fun b _ _ => rfl⟩
  | pathNorm p =>
    unfold step pathNorm at e
    dsimp only at e
    cases c : h.cache p with
    | some a =>
      rw [c] at e; cases e
      exact ⟨hs, le_refl _, fun b _ _ => rfl⟩
    | none =>
      rw [c] at e; cases e
      obtain ⟨p1, _, p3, p4, _⟩ := fresh_spec h hs (norm (h.items p))
      exact ⟨⟨p1.apart, p1.nodup, p1.bound⟩, by change h.npN ≤ (fresh h _).npN; omega, fun b hb _ => p3 b hb.ne⟩

/-- A program all of whose operations are safe. -/
inductive Run (O : Ops S I) (norm : List I → List S) : Heap S I → List (Op S I) → Heap S I → Prop
  | nil (h) : Run O norm h [] h
  | cons (h h' h'' o l) : Safe h o → step O norm h o = some h' → Run O norm h' l h'' → Run O norm h (o :: l) h''

/-- C170: a normpath which is not the target of an operation in place looks the same after any program. -/
theorem run_partial (O : Ops S I) (norm : List I → List S) (h h' : Heap S I) (l : List (Op S I)) (r : Run O norm h l h') (hs : Separate h) (b : ℕ) (hb : b < h.npN)
    (t : ∀ o ∈ l, o.target ≠ some b) : Separate h' ∧ val h' b = val h b := by
  induction r with
  | nil => exact ⟨hs, rfl⟩
  | cons h h1 h2 o l ok e _ ih =>
    obtain ⟨p1, p2, p3⟩ := step_partial O norm h h1 hs o ok e
    obtain ⟨q1, q2⟩ := ih p1 (by omega) (fun o ho => t o (List.mem_cons_of_mem _ ho))
    exact ⟨q1, by rw [q2, p3 b hb (t o List.mem_cons_self)]⟩

/-- C170: the values of the results. -/
theorem results (O : Ops S I) (h : Heap S I) (hs : Separate h) (a b : ℕ) (hb : b < h.npN) (f : S → S) :
    val (copy h a) h.npN = val h a ∧ val (iadd h a b) a = val h a ++ val h b ∧ val (add h a b) h.npN = val h a ++ val h b ∧
      val (reversed O h a) h.npN = (val h a).reverse.map O.reversed ∧ val (transformed f h a) h.npN = (val h a).map f := by
  obtain ⟨p1, p2, p3, _⟩ := fresh_spec h hs (val h a)
  refine ⟨p2, (pushes_spec a (val h b) h hs).2.1, ?_, (fresh_spec h hs _).2.1, (fresh_spec h hs _).2.1⟩
  unfold add iadd
  rw [(pushes_spec h.npN _ (copy h a) p1).2.1]
  change val (fresh h (val h a)) h.npN ++ val (fresh h (val h a)) b = _
  rw [p2, p3 b hb.ne]

/-- C170: joining gives a new normpath, whatever the number of sub-paths is, and changes none of the given ones. -/
theorem joined_spec (O : Ops S I) (h h' : Heap S I) (hs : Separate h) (a b : ℕ) (hb : b < h.npN) (e : joined O h a b = some h') :
    (∀ c, c < h.npN → val h' c = val h c) ∧
      ∃ s t u l, (val h a).getLast? = some s ∧ val h b = t :: l ∧ O.join s t = some u ∧ val h' h.npN = (val h a).dropLast ++ u :: l := by
  obtain ⟨p1, p2, p3, _⟩ := fresh_spec h hs (val h a)
  change join O (fresh h (val h a)) h.npN b = some h' at e
  obtain ⟨q1, _, _, _, ⟨s, t, u, l, r1, r2, r3, r4⟩, _⟩ := join_spec O _ h' p1 h.npN b hb.ne' e
  rw [p2] at r1 r4
  rw [p3 b hb.ne] at r2
  exact ⟨fun c hc => by rw [q1 c hc.ne, p3 c hc.ne], s, t, u, l, r1, r2, r3, r4⟩

/-! ## The normpath of a path -/

/-- What is cached is the normpath of the items. -/
def Cached (norm : List I → List S) (h : Heap S I) : Prop := ∀ p a, h.cache p = some a → a < h.npN ∧ val h a = norm (h.items p)

/-- C170: as long as no normpath of a path is changed in place, the normpath of each path is that of its items. -/
theorem cached_step_partial (O : Ops S I) (norm : List I → List S) (h h' : Heap S I) (hs : Separate h) (hc : Cached norm h) (o : Op S I) (ok : Safe h o)
    (e : step O norm h o = some h') (t : ∀ p a, h.cache p = some a → o.target ≠ some a) : Cached norm h' := by
  obtain ⟨_, le, same⟩ := step_partial O norm h h' hs o ok e
  have keep : h'.cache = h.cache → h'.items = h.items → Cached norm h' := by
    intro e1 e2 p a k
    rw [e1] at k
    obtain ⟨u, v⟩ := hc p a k
    exact ⟨by omega, by rw [same a u (t p a k), v, e2]⟩
  cases o with
  | copy a => cases e; obtain ⟨_, _, _, _, i, c, _⟩ := fresh_spec h hs (val h a); exact keep c i
  | iadd a b =>
    unfold step at e
    dsimp only at e
    by_cases c : a = b
    · rw [if_pos c] at e; cases e
    · rw [if_neg c] at e; cases e
      obtain ⟨_, _, _, _, i, c, _⟩ := pushes_spec a (val h b) h hs
      exact keep c i
  | add a b =>
    cases e
    obtain ⟨p1, _, _, _, i, c, _⟩ := fresh_spec h hs (val h a)
    obtain ⟨_, _, _, _, i', c', _⟩ := pushes_spec h.npN (val (copy h a) b) (copy h a) p1
    exact keep (c'.trans c) (i'.trans i)
  | join a b =>
    obtain ⟨_, _, i, c, _⟩ := join_spec O h h' hs a b ok.2.2.1 e
    exact keep c i
  | joined a b =>
    obtain ⟨p1, _, _, _, i, c, _⟩ := fresh_spec h hs (val h a)
    change join O (fresh h (val h a)) h.npN b = some h' at e
    obtain ⟨_, _, i', c', _⟩ := join_spec O _ h' p1 h.npN b ok.2.1.ne' e
    exact keep (c'.trans c) (i'.trans i)
  | item a i =>
    obtain ⟨_, _, _, i', c, _⟩ := item_spec O h h' hs a i e
    exact keep c i'
  | reversed a => cases e; obtain ⟨_, _, _, _, i, c, _⟩ := fresh_spec h hs ((val h a).reverse.map O.reversed); exact keep c i
  | transformed f a => cases e; obtain ⟨_, _, _, _, i, c, _⟩ := fresh_spec h hs ((val h a).map f); exact keep c i
  | pathItem p i =>
    cases e
    intro q a k
    unfold pathItem at k ⊢
    dsimp only at k ⊢
    by_cases d : q = p
    · subst d; rw [Function.update_self] at k; cases k
    · rw [Function.update_of_ne d] at k ⊢
      exact hc q a k
  | pathNorm p =>
    unfold step pathNorm at e
    dsimp only at e
    cases c : h.cache p with
    | some a => rw [c] at e; cases e; exact hc
    | none =>
      rw [c] at e; cases e
      obtain ⟨_, p2, p3, p4, i, _, _⟩ := fresh_spec h hs (norm (h.items p))
      intro q a k
      change a < (fresh h (norm (h.items p))).npN ∧ val (fresh h (norm (h.items p))) a = norm ((fresh h (norm (h.items p))).items q)
      change Function.update h.cache p (some h.npN) q = some a at k
      rw [i, p4]
      by_cases d : q = p
      · subst d
        rw [Function.update_self] at k
        cases k
        exact ⟨Nat.lt_succ_self _, p2⟩
      · rw [Function.update_of_ne d] at k
        obtain ⟨u, v⟩ := hc q a k
        exact ⟨Nat.lt_succ_of_lt u, by rw [p3 a u.ne, v]⟩

/-- C170: then `normpath` gives the normpath of the items. -/
theorem pathNorm_spec (norm : List I → List S) (h : Heap S I) (hs : Separate h) (hc : Cached norm h) (p : ℕ) :
    val (pathNorm norm h p).1 (pathNorm norm h p).2 = norm (h.items p) := by
  unfold pathNorm
  cases c : h.cache p with
  | some a => exact (hc p a c).2
  | none => exact (fresh_spec h hs (norm (h.items p))).2.1

/-! ## What does not hold -/

/-- A concrete world: sub-paths are lists of numbers of points, items add a point. -/
def points : Ops (List ℕ) ℕ := ⟨fun s i => some (s ++ [i], []), fun i => [[i]], fun s t => some (s ++ t), List.reverse⟩

/-- Two normpaths: the first one has one sub-path, the second one two. -/
def two : Heap (List ℕ) ℕ :=
  ⟨fun r => if r = 0 then [1, 2] else if r = 1 then [3, 4] else if r = 2 then [5, 6] else [], 3,
    fun a => if a = 0 then [0] else if a = 1 then [1, 2] else [], 2, fun _ => [7, 8], fun _ => none⟩

theorem two_separate : Separate two := by
  have e : ∀ a, two.np a = if a = 0 then [0] else if a = 1 then [1, 2] else [] := fun a => rfl
  refine ⟨?_, ?_, ?_⟩
  · intro a b r ha hb
    rw [e] at ha hb
    by_cases a0 : a = 0 <;> by_cases b0 : b = 0 <;> by_cases a1 : a = 1 <;> by_cases b1 : b = 1 <;> simp_all
  · intro a
    rw [e]
    by_cases a0 : a = 0 <;> by_cases a1 : a = 1 <;> simp_all
  · intro a r m
    rw [e] at m
    change r < 3
    by_cases a0 : a = 0 <;> by_cases a1 : a = 1 <;> simp_all <;> omega

/-- C170, what does not hold: `c = a << b; c.append(item)` changes `b`, when `b` has several sub-paths. -/
theorem joined_shared :
    ∃ h h', joined points two 0 1 = some h ∧ val h 2 = [[1, 2, 3, 4], [5, 6]] ∧ val h 1 = [[3, 4], [5, 6]] ∧
      item points h 2 9 = some h' ∧ val h' 1 = [[3, 4], [5, 6, 9]] := by
  refine ⟨_, _, rfl, by decide, by decide, rfl, by decide⟩

/-- C170, what does not hold: changing a part of a split path changes the path (here split in its first sub-path, with the second part changed). -/
theorem split_shared :
    ∃ h', val (split two 1 0 [3] [4]) 3 = [[4], [5, 6]] ∧ item points (split two 1 0 [3] [4]) 3 9 = some h' ∧ val h' 1 = [[3, 4], [5, 6, 9]] :=
  ⟨_, by decide, rfl, by decide⟩

/-- C170, what does not hold: changing the normpath of a path changes what `normpath` gives for the path later, although its items are the same. -/
theorem cache_changed :
    ∃ h', item points (pathNorm (fun l => [l]) two 0).1 (pathNorm (fun l => [l]) two 0).2 9 = some h' ∧ h'.items 0 = [7, 8] ∧
      val (pathNorm (fun l => [l]) h' 0).1 (pathNorm (fun l => [l]) h' 0).2 = [[7, 8, 9]] :=
  ⟨_, rfl, rfl, by decide⟩

/-! ## Examples -/

example : Cached (fun l => [l]) two := fun p a k => by cases k

/-- `c = a + b; c.append(item); a += c`: the second normpath is unchanged. -/
example : ∃ h, Run points (fun l => [l]) two [.add 0 1, .item 2 9, .iadd 0 2] h ∧ val h 0 = [[1, 2], [1, 2], [3, 4], [5, 6, 9]] ∧ val h 1 = [[3, 4], [5, 6]] := by
  refine ⟨_, .cons _ _ _ _ _ ⟨by decide, by decide⟩ rfl (.cons _ _ _ _ _ (by change 2 < (add two 0 1).npN; decide) rfl (.cons _ _ _ _ _ ⟨?_, ?_⟩ rfl (.nil _))), by decide, by decide⟩
  · decide
  · decide

end PyX.NormPath.Objects
