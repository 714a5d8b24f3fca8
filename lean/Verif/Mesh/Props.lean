import Verif.Mesh.Model
import Mathlib.Tactic.Linarith
import Mathlib.Tactic.NormNum
import Mathlib.Tactic.Positivity
import Mathlib.Tactic.FieldSimp

/-!
# C53: mesh coordinates
-/

set_option linter.unusedSectionVars false

namespace PyX.Mesh

variable {K : Type*} [Field K] [LinearOrder K] [IsStrictOrderedRing K] [FloorRing K]

theorem quantise (x lo hi S : K) (hS : 0 < S) (h1 : lo ≤ x) (h2 : x ≤ hi) (h3 : lo < hi) :
    ∃ n : ℕ, trunc ((x - lo) * S / (hi - lo)) = n ∧ (n : K) ≤ S ∧ lo ≤ lo + n * (hi - lo) / S ∧ lo + n * (hi - lo) / S ≤ x ∧
      x - (lo + n * (hi - lo) / S) < (hi - lo) / S := by
  have hpos : 0 < hi - lo := by linarith
  set q := (x - lo) * S / (hi - lo) with hq
  have hq0 : 0 ≤ q := by
    apply div_nonneg _ hpos.le
    exact mul_nonneg (by linarith) hS.le
  have hq1 : q ≤ S := by
    rw [hq, div_le_iff₀ hpos]
    nlinarith
  have htr : trunc q = ⌊q⌋ := by
    unfold trunc
    rw [if_neg (not_lt.mpr hq0)]
  obtain ⟨n, hn⟩ : ∃ n : ℕ, ⌊q⌋ = n := ⟨⌊q⌋.toNat, by rw [Int.toNat_of_nonneg (Int.floor_nonneg.mpr hq0)]⟩
  have hn1 : (n : K) ≤ q := by
    have := Int.floor_le q
    rw [hn] at this
    simpa using this
  have hn2 : q < n + 1 := by
    have := Int.lt_floor_add_one q
    rw [hn] at this
    simpa using this
  have hx : x = lo + q * (hi - lo) / S := by
    rw [hq]
    field_simp
    ring
  refine ⟨n, by rw [htr, hn], hn1.trans hq1, ?_, ?_, ?_⟩
  · have : 0 ≤ (n : K) * (hi - lo) / S := by positivity
    linarith
  · have : (n : K) * (hi - lo) / S ≤ q * (hi - lo) / S := by
      apply div_le_div_of_nonneg_right _ hS.le
      exact mul_le_mul_of_nonneg_right hn1 hpos.le
    linarith
  · have : q * (hi - lo) / S < (n + 1) * (hi - lo) / S := by
      apply div_lt_div_of_pos_right _ hS
      exact mul_lt_mul_of_pos_right hn2 hpos
    have e : (n + 1 : K) * (hi - lo) / S = n * (hi - lo) / S + (hi - lo) / S := by ring
    rw [e] at this
    linarith

theorem pack32_small (n : ℕ) (hn : n ≤ 16777215) : pack32 (n : ℤ) = .ok [n / 16777216 % 256, n / 65536 % 256, n / 256 % 256, n % 256] := by
  unfold pack32
  rw [if_pos (by omega)]
  simp only [Int.toNat_natCast]

/-- **C53.**  A coordinate within a non-empty range is written in three bytes, from which a coordinate within the range is read that is less than the original by less than one
step. -/
theorem coords24_spec (x lo hi : K) (h1 : lo ≤ x) (h2 : x ≤ hi) (h3 : lo < hi) :
    ∃ a b c, coords24 x lo hi = .ok [a, b, c] ∧ a < 256 ∧ b < 256 ∧ c < 256 ∧
      lo ≤ decodeCoord lo hi a b c ∧ decodeCoord lo hi a b c ≤ x ∧ x - decodeCoord lo hi a b c < (hi - lo) / 16777215 := by
  obtain ⟨n, e, hn, g1, g2, g3⟩ := quantise x lo hi 16777215 (Nat.ofNat_pos) h1 h2 h3
  have hn3 : n ≤ 16777215 := by
    have : (n : K) ≤ ((16777215 : ℕ) : K) := by rw [Nat.cast_ofNat]; exact hn
    exact Nat.cast_le.mp this
  refine ⟨n / 65536 % 256, n / 256 % 256, n % 256, ?_, by omega, by omega, by omega, ?_⟩
  · unfold coords24
    rw [if_neg (by intro h; linarith), e, pack32_small n hn3]
    simp only [List.drop_succ_cons, List.drop_zero]
  · have hval : n / 65536 % 256 * 65536 + n / 256 % 256 * 256 + n % 256 = n := by omega
    unfold decodeCoord
    rw [hval]
    exact ⟨g1, g2, g3⟩

/-- **C53.**  A range that is not empty is required. -/
theorem coords24_empty (x lo : K) : coords24 x lo lo = .error .zeroDivision := by
  unfold coords24
  rw [if_pos (sub_self lo)]

/-! ## Whole meshes -/

/-- All nodes are within the bounding box. -/
theorem bbox_contains (nodes : List (Node K)) (b : Box K) (h : bbox nodes = .ok b) :
    ∀ n ∈ nodes, b.llx ≤ n.x ∧ n.x ≤ b.urx ∧ b.lly ≤ n.y ∧ n.y ≤ b.ury := by
  cases nodes with
  | nil => simp [bbox] at h
  | cons n ns =>
    simp only [bbox, Except.ok.injEq] at h
    have gen : ∀ (ns : List (Node K)) (b0 : Box K),
        let r := ns.foldl (fun b m => ⟨min b.llx m.x, min b.lly m.y, max b.urx m.x, max b.ury m.y⟩) b0
        (r.llx ≤ b0.llx ∧ b0.urx ≤ r.urx ∧ r.lly ≤ b0.lly ∧ b0.ury ≤ r.ury) ∧
          ∀ n ∈ ns, r.llx ≤ n.x ∧ n.x ≤ r.urx ∧ r.lly ≤ n.y ∧ n.y ≤ r.ury := by
      intro ns
      induction ns with
      | nil => intro b0; exact ⟨⟨le_refl _, le_refl _, le_refl _, le_refl _⟩, fun n hn => by simp at hn⟩
      | cons m ns ih =>
        intro b0
        obtain ⟨⟨g1, g2, g3, g4⟩, g5⟩ := ih ⟨min b0.llx m.x, min b0.lly m.y, max b0.urx m.x, max b0.ury m.y⟩
        simp only at g1 g2 g3 g4 ⊢
        rw [List.foldl_cons]
        refine ⟨⟨g1.trans (min_le_left _ _), (le_max_left _ _).trans g2, g3.trans (min_le_left _ _), (le_max_left _ _).trans g4⟩, ?_⟩
        intro n hn
        simp only [List.mem_cons] at hn
        rcases hn with rfl | hn
        · exact ⟨g1.trans (min_le_right _ _), (le_max_right _ _).trans g2, g3.trans (min_le_right _ _), (le_max_right _ _).trans g4⟩
        · exact g5 n hn
    obtain ⟨g1, g2⟩ := gen ns ⟨n.x, n.y, n.x, n.y⟩
    simp only at g1 g2
    rw [h] at g1 g2
    intro m hm
    simp only [List.mem_cons] at hm
    rcases hm with rfl | hm
    · exact ⟨g1.1, g1.2.1, g1.2.2.1, g1.2.2.2⟩
    · exact g2 m hm

/-- What is read is close to what was written: less by less than a step. -/
def Close (lo hi x x' : K) : Prop := lo ≤ x' ∧ x' ≤ x ∧ x - x' < (hi - lo) / 16777215

/-- **C53.**  The data of a mesh that is neither flat in x nor in y: reading them gives the nodes in order, each starting a new vertex of a triangle (flag 0), with their
colours and their coordinates up to one step. -/
theorem mesh_data (nodes : List (Node K)) (b : Box K) (hb : bbox nodes = .ok b) (hx : b.llx < b.urx) (hy : b.lly < b.ury) (k : ℕ)
    (hk : ∀ n ∈ nodes, n.colour.length = k) :
    ∃ bytes, data b nodes = .ok bytes ∧ ∃ read, decode b k nodes.length bytes = some read ∧
      List.Forall₂ (fun n r => r.1 = 0 ∧ r.2.colour = n.colour ∧ Close b.llx b.urx n.x r.2.x ∧ Close b.lly b.ury n.y r.2.y) nodes read := by
  have hc := bbox_contains nodes b hb
  clear hb
  induction nodes with
  | nil => exact ⟨[], rfl, [], rfl, List.Forall₂.nil⟩
  | cons n ns ih =>
    obtain ⟨rest, h1, read, h2, h3⟩ := ih (fun m hm => hk m (List.mem_cons_of_mem _ hm)) (fun m hm => hc m (List.mem_cons_of_mem _ hm))
    obtain ⟨c1, c2, c3, c4⟩ := hc n List.mem_cons_self
    obtain ⟨a1, a2, a3, ea, _, _, _, da1, da2, da3⟩ := coords24_spec n.x b.llx b.urx c1 c2 hx
    obtain ⟨b1, b2, b3, eb, _, _, _, db1, db2, db3⟩ := coords24_spec n.y b.lly b.ury c3 c4 hy
    have hkn := hk n List.mem_cons_self
    refine ⟨0 :: a1 :: a2 :: a3 :: b1 :: b2 :: b3 :: (n.colour ++ rest), ?_,
      (0, ⟨decodeCoord b.llx b.urx a1 a2 a3, decodeCoord b.lly b.ury b1 b2 b3, n.colour⟩) :: read, ?_, ?_⟩
    · unfold data nodeData
      rw [ea]
      simp only
      rw [eb]
      simp only
      rw [h1]
      simp
    · rw [List.length_cons, decode]
      rw [if_neg (by rw [List.length_append]; omega)]
      rw [← hkn, List.drop_left, List.take_left, hkn, h2]
      rfl
    · exact List.Forall₂.cons ⟨rfl, rfl, ⟨da1, da2, da3⟩, ⟨db1, db2, db3⟩⟩ h3

/-- A triangle. -/
example : ∃ b, bbox (K := ℚ) [⟨0, 0, [1]⟩, ⟨2, 0, [2]⟩, ⟨1, 1, [3]⟩] = .ok b ∧ b.llx < b.urx ∧ b.lly < b.ury ∧
    coords24 1 b.llx b.urx = .ok [127, 255, 255] := by
  refine ⟨⟨0, 0, 2, 1⟩, rfl, by norm_num, by norm_num, ?_⟩
  have h : trunc ((1 - 0 : ℚ) * 16777215 / (2 - 0)) = 8388607 := by
    unfold trunc
    rw [if_neg (by norm_num), Int.floor_eq_iff]
    norm_num
  unfold coords24
  simp only
  rw [if_neg (by norm_num), h]
  rfl

end PyX.Mesh
