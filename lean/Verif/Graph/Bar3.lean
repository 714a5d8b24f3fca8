import Verif.Graph.ProjectorProps
import Verif.Style.BarProps

/-!
# C107: three-dimensional bars: model of `bar.drawpoint` (`graph/style.py:1536-1580`) and properties

The bar is a box in the coordinates of the graph, given by the clipped ranges.
-/

set_option linter.unusedSectionVars false

namespace PyX.Graph

/-! ## Model -/

/-- The condition for a pair of planes (`style.py:1538, 1547, 1556`): only the first difference is compared with `epsilon`. -/
def wide (eps : ℝ) (a b : ℝ × ℝ) : Prop := |a.1 - a.2| > eps ∧ |b.1 - b.2| ≠ 0

open Classical in
/-- `planes` (`style.py:1537-1564`): the four corners of every plane. -/
noncomputable def barPlanes (eps : ℝ) (x y z : ℝ × ℝ) : List (V3 × V3 × V3 × V3) :=
  (if wide eps x y then
    [(⟨x.1, y.1, z.1⟩, ⟨x.2, y.1, z.1⟩, ⟨x.2, y.2, z.1⟩, ⟨x.1, y.2, z.1⟩),
     (⟨x.1, y.1, z.2⟩, ⟨x.1, y.2, z.2⟩, ⟨x.2, y.2, z.2⟩, ⟨x.2, y.1, z.2⟩)] else []) ++
  (if wide eps x z then
    [(⟨x.1, y.1, z.1⟩, ⟨x.1, y.1, z.2⟩, ⟨x.2, y.1, z.2⟩, ⟨x.2, y.1, z.1⟩),
     (⟨x.1, y.2, z.1⟩, ⟨x.2, y.2, z.1⟩, ⟨x.2, y.2, z.2⟩, ⟨x.1, y.2, z.2⟩)] else []) ++
  (if wide eps y z then
    [(⟨x.1, y.1, z.1⟩, ⟨x.1, y.2, z.1⟩, ⟨x.1, y.2, z.2⟩, ⟨x.1, y.1, z.2⟩),
     (⟨x.2, y.1, z.1⟩, ⟨x.2, y.1, z.2⟩, ⟨x.2, y.2, z.2⟩, ⟨x.2, y.2, z.1⟩)] else [])

open Classical in
/-- The planes which are drawn (`style.py:1570-1577`). -/
noncomputable def barDrawn (g : Graph3) (eps : ℝ) (x y z : ℝ × ℝ) : List (V3 × V3 × V3 × V3) :=
  (barPlanes eps x y z).filter fun p => decide (positive (g.vangle p.1 p.2.1 p.2.2.2))

/-! ## Specification -/

/-- The points of the plane of a face of the bar. -/
def BarOn (x y z : ℝ × ℝ) : Face → V3 → Prop
  | .x0, v => v.x = x.1
  | .x1, v => v.x = x.2
  | .y0, v => v.y = y.1
  | .y1, v => v.y = y.2
  | .z0, v => v.z = z.1
  | .z1, v => v.z = z.2

/-- The corners of the bar. -/
def Corner (x y z : ℝ × ℝ) (v : V3) : Prop := (v.x = x.1 ∨ v.x = x.2) ∧ (v.y = y.1 ∨ v.y = y.2) ∧ (v.z = z.1 ∨ v.z = z.2)

/-- The points are the corners of a face of the bar, in an order around the face: opposite points differ in both directions of the face. -/
def IsFace (x y z : ℝ × ℝ) (F : Face) (p : V3 × V3 × V3 × V3) : Prop :=
  (∀ v, (v = p.1 ∨ v = p.2.1 ∨ v = p.2.2.1 ∨ v = p.2.2.2) ↔ Corner x y z v ∧ BarOn x y z F v) ∧
  add p.1 p.2.2.1 = add p.2.1 p.2.2.2

/-- A place in space is on the outer side of a face of the bar. -/
def BarBeyond (g : Graph3) (x y z : ℝ × ℝ) (e : V3) : Face → Prop
  | .x0 => e.x < 2 * g.xscale * (x.1 - 1 / 2)
  | .x1 => 2 * g.xscale * (x.2 - 1 / 2) < e.x
  | .y0 => e.y < 2 * g.yscale * (y.1 - 1 / 2)
  | .y1 => 2 * g.yscale * (y.2 - 1 / 2) < e.y
  | .z0 => e.z < 2 * g.zscale * (z.1 - 1 / 2)
  | .z1 => 2 * g.zscale * (z.2 - 1 / 2) < e.z

/-! ## Properties -/

/-- The plane of a face in the list of planes. -/
def facePlane (x y z : ℝ × ℝ) : Face → V3 × V3 × V3 × V3
  | .z0 => (⟨x.1, y.1, z.1⟩, ⟨x.2, y.1, z.1⟩, ⟨x.2, y.2, z.1⟩, ⟨x.1, y.2, z.1⟩)
  | .z1 => (⟨x.1, y.1, z.2⟩, ⟨x.1, y.2, z.2⟩, ⟨x.2, y.2, z.2⟩, ⟨x.2, y.1, z.2⟩)
  | .y0 => (⟨x.1, y.1, z.1⟩, ⟨x.1, y.1, z.2⟩, ⟨x.2, y.1, z.2⟩, ⟨x.2, y.1, z.1⟩)
  | .y1 => (⟨x.1, y.2, z.1⟩, ⟨x.2, y.2, z.1⟩, ⟨x.2, y.2, z.2⟩, ⟨x.1, y.2, z.2⟩)
  | .x0 => (⟨x.1, y.1, z.1⟩, ⟨x.1, y.2, z.1⟩, ⟨x.1, y.2, z.2⟩, ⟨x.1, y.1, z.2⟩)
  | .x1 => (⟨x.2, y.1, z.1⟩, ⟨x.2, y.1, z.2⟩, ⟨x.2, y.2, z.2⟩, ⟨x.2, y.2, z.1⟩)

theorem facePlane_isFace (x y z : ℝ × ℝ) (F : Face) : IsFace x y z F (facePlane x y z F) := by
  have ext : ∀ (a b c : ℝ) (v : V3), v = ⟨a, b, c⟩ ↔ v.x = a ∧ v.y = b ∧ v.z = c := by
    intro a b c v
    constructor
    · rintro rfl; exact ⟨rfl, rfl, rfl⟩
    · rintro ⟨rfl, rfl, rfl⟩; rfl
  cases F <;> refine ⟨fun v => ?_, by ext <;> simp only [facePlane, add] <;> ring⟩ <;> simp only [facePlane, ext, Corner, BarOn] <;> tauto

theorem mem_barPlanes (eps : ℝ) (x y z : ℝ × ℝ) (heps : 0 ≤ eps) (hx : x.1 + eps < x.2) (hy : y.1 + eps < y.2) (hz : z.1 + eps < z.2) (p : V3 × V3 × V3 × V3) :
    p ∈ barPlanes eps x y z ↔ ∃ F, p = facePlane x y z F := by
  have w : ∀ a b : ℝ × ℝ, a.1 + eps < a.2 → b.1 + eps < b.2 → wide eps a b := by
    intro a b ha hb
    refine ⟨?_, ?_⟩
    · rw [abs_sub_comm, abs_of_pos (by linarith)]; linarith
    · rw [abs_ne_zero]; intro h; linarith
  simp only [barPlanes, if_pos (w x y hx hy), if_pos (w x z hx hz), if_pos (w y z hy hz), List.mem_append, List.mem_cons, List.not_mem_nil, or_false]
  constructor
  · rintro (((h | h) | (h | h)) | (h | h))
    · exact ⟨.z0, h⟩
    · exact ⟨.z1, h⟩
    · exact ⟨.y0, h⟩
    · exact ⟨.y1, h⟩
    · exact ⟨.x0, h⟩
    · exact ⟨.x1, h⟩
  · rintro ⟨F, rfl⟩
    cases F <;> simp [facePlane]

/-- C107: of a three-dimensional bar (with no thin side) exactly the faces are drawn which are seen from outside, each once around its corners. -/
theorem bar_faces (D phi theta f : ℝ) (g : Graph3) (hg : g.projector = central D phi theta f) (sx : 0 < g.xscale) (sy : 0 < g.yscale) (sz : 0 < g.zscale)
    (eps : ℝ) (heps : 0 ≤ eps) (x y z : ℝ × ℝ) (hx : x.1 + eps < x.2) (hy : y.1 + eps < y.2) (hz : z.1 + eps < z.2) :
    (∀ F, BarBeyond g x y z (vecEye D (phi * f) (theta * f)) F → ∃ p ∈ barDrawn g eps x y z, IsFace x y z F p) ∧
    (∀ p ∈ barDrawn g eps x y z, ∃ F, BarBeyond g x y z (vecEye D (phi * f) (theta * f)) F ∧ IsFace x y z F p) := by
  have key : ∀ F, positive (g.vangle (facePlane x y z F).1 (facePlane x y z F).2.1 (facePlane x y z F).2.2.2) ↔ BarBeyond g x y z (vecEye D (phi * f) (theta * f)) F := by
    intro F
    have dx : 0 < x.2 - x.1 := by linarith
    have dy : 0 < y.2 - y.1 := by linarith
    have dz : 0 < z.2 - z.1 := by linarith
    have hxy : 0 < 4 * g.xscale * g.yscale * (x.2 - x.1) * (y.2 - y.1) := by positivity
    have hxz : 0 < 4 * g.xscale * g.zscale * (x.2 - x.1) * (z.2 - z.1) := by positivity
    have hyz : 0 < 4 * g.yscale * g.zscale * (y.2 - y.1) * (z.2 - z.1) := by positivity
    cases F <;> simp only [facePlane, BarBeyond, Graph3.vangle, hg, central_angle_pos]
    · rw [pos_mul_iff hyz (y := 2 * g.xscale * (x.1 - 1 / 2) - (vecEye D (phi * f) (theta * f)).x) (by simp only [det, sub, Graph3.space]; ring)]; exact sub_pos
    · rw [pos_mul_iff hyz (y := (vecEye D (phi * f) (theta * f)).x - 2 * g.xscale * (x.2 - 1 / 2)) (by simp only [det, sub, Graph3.space]; ring)]; exact sub_pos
    · rw [pos_mul_iff hxz (y := 2 * g.yscale * (y.1 - 1 / 2) - (vecEye D (phi * f) (theta * f)).y) (by simp only [det, sub, Graph3.space]; ring)]; exact sub_pos
    · rw [pos_mul_iff hxz (y := (vecEye D (phi * f) (theta * f)).y - 2 * g.yscale * (y.2 - 1 / 2)) (by simp only [det, sub, Graph3.space]; ring)]; exact sub_pos
    · rw [pos_mul_iff hxy (y := 2 * g.zscale * (z.1 - 1 / 2) - (vecEye D (phi * f) (theta * f)).z) (by simp only [det, sub, Graph3.space]; ring)]; exact sub_pos
    · rw [pos_mul_iff hxy (y := (vecEye D (phi * f) (theta * f)).z - 2 * g.zscale * (z.2 - 1 / 2)) (by simp only [det, sub, Graph3.space]; ring)]; exact sub_pos
  constructor
  · intro F hF
    refine ⟨facePlane x y z F, ?_, facePlane_isFace x y z F⟩
    simp only [barDrawn, List.mem_filter, decide_eq_true_eq, mem_barPlanes eps x y z heps hx hy hz]
    exact ⟨⟨F, rfl⟩, (key F).mpr hF⟩
  · intro p hp
    simp only [barDrawn, List.mem_filter, decide_eq_true_eq, mem_barPlanes eps x y z heps hx hy hz] at hp
    obtain ⟨⟨F, rfl⟩, hpos⟩ := hp
    exact ⟨F, (key F).mp hpos, facePlane_isFace x y z F⟩

/-- Seen from the direction of the x-axis, the front face is drawn. -/
example : ∃ p ∈ barDrawn ⟨0, 0, 1, 1, 1, 1, central 10 0 0 1⟩ 0 (0, 1 / 2) (0, 1 / 2) (0, 1 / 2), IsFace (0, 1 / 2) (0, 1 / 2) (0, 1 / 2) .x1 p := by
  refine (bar_faces 10 0 0 1 _ rfl ?_ ?_ ?_ 0 le_rfl _ _ _ ?_ ?_ ?_).1 .x1 ?_ <;> norm_num [BarBeyond, vecEye]

end PyX.Graph
