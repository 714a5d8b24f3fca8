import Mathlib.Data.List.Nodup
import Mathlib.Data.List.Basic

/-!
# Python dictionaries

A dictionary is the list of its items in the order of insertion, with distinct keys.
-/

namespace PyX.Util

variable {α β : Type*} [DecidableEq α]

abbrev Dict (α β : Type*) := List (α × β)

namespace Dict

/-- `d.get(k)`. -/
def dget (d : Dict α β) (k : α) : Option β :=
  match d with
  | [] => none
  | (k', v) :: d => if k' = k then some v else dget d k

/-- `d[k] = v`. -/
def dset (d : Dict α β) (k : α) (v : β) : Dict α β :=
  match d with
  | [] => [(k, v)]
  | (k', v') :: d => if k' = k then (k', v) :: d else (k', v') :: dset d k v

/-- `d.keys()`. -/
def keys (d : Dict α β) : List α := d.map (·.1)

theorem dget_dset (d : Dict α β) (k : α) (v : β) (x : α) : dget (dset d k v) x = if k = x then some v else dget d x := by
  induction d with
  | nil => simp [dset, dget]
  | cons p d ih =>
    obtain ⟨k', v'⟩ := p
    by_cases h : k' = k
    · subst h
      simp only [dset, if_true, dget]
      by_cases hx : k' = x
      · simp [hx]
      · simp [hx]
    · simp only [dset, h, if_false, dget, ih]
      by_cases hx : k' = x
      · subst hx
        simp [Ne.symm h]
      · simp [hx]

theorem mem_keys (d : Dict α β) (k : α) : k ∈ keys d ↔ (dget d k).isSome := by
  induction d with
  | nil => simp [keys, dget]
  | cons p d ih =>
    obtain ⟨k', v'⟩ := p
    simp only [keys, List.map_cons, List.mem_cons, dget] at ih ⊢
    by_cases h : k' = k
    · simp [h]
    · simp [h, Ne.symm h, ih]

theorem dget_of_mem (d : Dict α β) (hd : (keys d).Nodup) (k : α) (v : β) (h : (k, v) ∈ d) : dget d k = some v := by
  induction d with
  | nil => simp at h
  | cons p d ih =>
    obtain ⟨k', v'⟩ := p
    simp only [keys, List.map_cons, List.nodup_cons] at hd
    simp only [List.mem_cons, Prod.mk.injEq] at h
    rcases h with ⟨rfl, rfl⟩ | h
    · simp [dget]
    · have : k' ≠ k := by
        rintro rfl
        exact hd.1 (List.mem_map.mpr ⟨_, h, rfl⟩)
      simp only [dget, this, if_false]
      exact ih hd.2 h

theorem mem_of_dget (d : Dict α β) (k : α) (v : β) (h : dget d k = some v) : (k, v) ∈ d := by
  induction d with
  | nil => simp [dget] at h
  | cons p d ih =>
    obtain ⟨k', v'⟩ := p
    simp only [dget] at h
    by_cases hk : k' = k
    · simp only [hk, if_true, Option.some.injEq] at h
      subst hk; subst h
      exact List.mem_cons_self
    · simp only [hk, if_false] at h
      exact List.mem_cons_of_mem _ (ih h)

theorem keys_dset (d : Dict α β) (k : α) (v : β) : keys (dset d k v) = if k ∈ keys d then keys d else keys d ++ [k] := by
  induction d with
  | nil => simp [keys, dset]
  | cons p d ih =>
    obtain ⟨k', v'⟩ := p
    by_cases h : k' = k
    · subst h
      simp [keys, dset]
    · have hne : ¬ k = k' := fun e => h e.symm
      simp only [dset, h, if_false]
      have : keys ((k', v') :: dset d k v) = k' :: keys (dset d k v) := rfl
      rw [this, ih]
      have e : keys ((k', v') :: d) = k' :: keys d := rfl
      rw [e]
      by_cases hm : k ∈ keys d
      · simp [hm]
      · simp [hm, hne]

theorem nodup_dset (d : Dict α β) (hd : (keys d).Nodup) (k : α) (v : β) : (keys (dset d k v)).Nodup := by
  rw [keys_dset]
  by_cases h : k ∈ keys d
  · rw [if_pos h]; exact hd
  · rw [if_neg h]
    rw [List.nodup_append]
    refine ⟨hd, by simp, ?_⟩
    intro a ha b hb
    simp only [List.mem_singleton] at hb
    subst hb
    rintro rfl
    exact h ha

theorem dget_append (d e : Dict α β) (k : α) : dget (d ++ e) k = (dget d k).or (dget e k) := by
  induction d with
  | nil => simp [dget]
  | cons p d ih =>
    obtain ⟨k', v'⟩ := p
    simp only [List.cons_append, dget]
    by_cases h : k' = k
    · simp [h]
    · simp [h, ih]

end Dict

end PyX.Util
