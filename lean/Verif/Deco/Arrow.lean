import Verif.Deco.Exclude
import Verif.NormPath.Polyline
import Verif.Trafo.Props
import Verif.Attr.Props

/-!
# C121: arrows on paths (`pyx/deco.py:450-570`)

A path is seen through its points at arc lengths (`Track`): `at` and `split` of a normpath, called with arc lengths, are `pt` and
the stretch of `pt` between two arc lengths (C40, C46, C118).  A curve of the outline is a function on `[0, 1]`.  Angles are in degrees.

Not modelled: removal of parts shorter than epsilon when curves are joined, closed sub-paths.
-/

set_option linter.unusedSectionVars false

namespace PyX.Deco

noncomputable section

open Real PyX.Trafo

/-- A path by arc length; arc lengths outside of `[0, len]` are extrapolated. -/
structure Track where
  pt : ℝ → ℝ × ℝ
  len : ℝ

/-- The settings of an arrow (`arrow.__init__`, `deco.py:495-503`). -/
structure Arrow where
  pos : ℝ
  reversed : Bool
  size : ℝ
  angle : ℝ
  constriction : Option ℝ

namespace Arrow

variable (a : Arrow) (p : Track)

/-- `constrictionlen` (`deco.py:510-515`). -/
def clen : ℝ :=
  match a.constriction with
  | some c => a.size * c * cos (phi (a.angle / 2))
  | none => a.size * 1 * cos (phi (a.angle / 2))

/-- `arclenfrombegin` (`deco.py:536`). -/
def tipLen : ℝ := (1 - if a.reversed then 1 else 0) * a.clen + a.pos * (p.len - a.clen)

/-- `direction` (`deco.py:537`). -/
def dir : ℝ := if a.reversed then -1 else 1

/-- The excluded range (`deco.py:545-548`), by arc length. -/
def excluded : Option (ℝ × ℝ) :=
  open Classical in
  if a.pos = 0 ∧ a.reversed = true then some (0, min a.size a.clen)
  else if a.pos = 1 ∧ a.reversed = false then some (p.len - min a.size a.clen, p.len)
  else none

end Arrow

/-- `transformed(trafo.rotate(angle, tx, ty))` of a point. -/
def rotPt (angle : ℝ) (c q : ℝ × ℝ) : ℝ × ℝ := ((rotate angle (some c.1) (some c.2)).getD Trafo.one).apply q

/-- A straight line. -/
def lineC (q r : ℝ × ℝ) : ℝ → ℝ × ℝ := fun u => (q.1 + u * (r.1 - q.1), q.2 + u * (r.2 - q.2))

namespace Arrow
variable (a : Arrow) (p : Track)

/-- The tip (`deco.py:467`). -/
def tip : ℝ × ℝ := p.pt (a.tipLen p)

/-- `arrowtemplate` (`deco.py:471`). -/
def template : ℝ → ℝ × ℝ := fun u => p.pt (a.tipLen p + u * (a.tipLen p - a.dir * a.size - a.tipLen p))

/-- `arrowl` and `arrowr` (`deco.py:474-475`). -/
def left : ℝ → ℝ × ℝ := fun u => rotPt (-a.angle / 2) (a.tip p) (a.template p u)
def right : ℝ → ℝ × ℝ := fun u => rotPt (a.angle / 2) (a.tip p) (a.template p u)

/-- The constriction point (`deco.py:480`). -/
def cpoint : ℝ × ℝ := p.pt (a.tipLen p - a.dir * a.clen)

/-- `_arrowhead` (`deco.py:450-488`): the curves of the outline; the last one is the line added by `close`. -/
def outline : List (ℝ → ℝ × ℝ) :=
  match a.constriction with
  | some _ => [fun u => a.left p (1 - u), a.right p, lineC (a.right p 1) (a.cpoint p), lineC (a.cpoint p) (a.left p 1)]
  | none => [fun u => a.left p (1 - u), a.right p, lineC (a.right p 1) (a.left p 1)]

end Arrow

/-! ## Specification -/

/-- The curves follow one another, and the last one ends where the first one starts. -/
def Loop (l : List (ℝ → ℝ × ℝ)) : Prop :=
  (l.IsChain fun c d => c 1 = d 0) ∧ ∀ c d, l.head? = some c → l.getLast? = some d → d 1 = c 0

/-- A point of the outline. -/
def OnOutline (l : List (ℝ → ℝ × ℝ)) (q : ℝ × ℝ) : Prop := ∃ c ∈ l, ∃ u, 0 ≤ u ∧ u ≤ 1 ∧ c u = q

/-- The track goes along a path with unit speed at most: the distance of two points is at most the arc length between them. -/
def Rectified (p : Track) : Prop := ∀ s t, distSq (p.pt s) (p.pt t) ≤ (s - t) ^ 2

/-- A straight path from `o` in direction `d`. -/
def Straight (p : Track) (o d : ℝ × ℝ) : Prop := d.1 ^ 2 + d.2 ^ 2 = 1 ∧ ∀ s, p.pt s = (o.1 + s * d.1, o.2 + s * d.2)

/-- The path run through backwards. -/
def Track.back (p : Track) : Track := ⟨fun s => p.pt (p.len - s), p.len⟩

/-! ## Proofs -/

theorem rotPt_center (angle : ℝ) (c : ℝ × ℝ) : rotPt angle c c = c := by
  simp only [rotPt, rotate, Option.getD_some, apply]
  ext <;> simp <;> ring

theorem rotPt_dist (angle : ℝ) (c q : ℝ × ℝ) : distSq (rotPt angle c q) c = distSq q c := by
  conv_lhs => rw [← rotPt_center angle c]
  have : distSq (rotPt angle c q) (rotPt angle c (rotPt angle c c)) = distSq q (rotPt angle c c) :=
    rotate_distSq angle (some c.1) (some c.2) _ rfl _ _
  rw [rotPt_center, rotPt_center] at this
  rw [rotPt_center]
  exact this

theorem rotPt_eq (angle : ℝ) (c q : ℝ × ℝ) : rotPt angle c q =
    (c.1 + cos (phi angle) * (q.1 - c.1) - sin (phi angle) * (q.2 - c.2),
     c.2 + sin (phi angle) * (q.1 - c.1) + cos (phi angle) * (q.2 - c.2)) := by
  simp only [rotPt, rotate, Option.getD_some, apply]
  ext <;> simp <;> ring

variable (a : Arrow) (p : Track)

theorem template_zero : a.template p 0 = a.tip p := by simp [Arrow.template, Arrow.tip]

theorem left_zero : a.left p 0 = a.tip p := by rw [Arrow.left, template_zero, rotPt_center]

theorem right_zero : a.right p 0 = a.tip p := by rw [Arrow.right, template_zero, rotPt_center]

theorem lineC_zero (q r : ℝ × ℝ) : lineC q r 0 = q := by simp [lineC]

theorem lineC_one (q r : ℝ × ℝ) : lineC q r 1 = r := by simp [lineC]

/-- **C121.**  The outline of an arrowhead is a closed loop, for all paths and settings: no gaps at the tip, at the ends of
the barbs and at the constriction point. -/
theorem outline_loop : Loop (a.outline p) := by
  unfold Arrow.outline
  cases a.constriction with
  | none => constructor <;> simp [left_zero, right_zero, lineC_zero, lineC_one]
  | some c => constructor <;> simp [left_zero, right_zero, lineC_zero, lineC_one]

/-- **C121.**  An arrow at the end of a path has its tip exactly at the end, an arrow at the begin exactly at the begin; the tip is on
the outline. -/
theorem tip_at_end : (a.pos = 1 → a.reversed = false → a.tip p = p.pt p.len) ∧
    (a.pos = 0 → a.reversed = true → a.tip p = p.pt 0) ∧ OnOutline (a.outline p) (a.tip p) := by
  refine ⟨fun h1 h2 => ?_, fun h1 h2 => ?_, a.right p, ?_, 0, le_refl _, zero_le_one, right_zero a p⟩
  · simp [Arrow.tip, Arrow.tipLen, h1, h2]
  · simp [Arrow.tip, Arrow.tipLen, h1, h2]
  · unfold Arrow.outline
    cases a.constriction <;> simp

/-- **C121.**  For positions from 0 to 1 on a path which is not shorter than the head, the tip and the constriction point are on the
path, and the head moves along the whole of the path: at 0 it starts at the begin, at 1 it reaches the end. -/
theorem head_on_path (h0 : 0 ≤ a.pos) (h1 : a.pos ≤ 1) (hc : 0 ≤ a.clen) (hl : a.clen ≤ p.len) :
    (0 ≤ a.tipLen p ∧ a.tipLen p ≤ p.len) ∧ (0 ≤ a.tipLen p - a.dir * a.clen ∧ a.tipLen p - a.dir * a.clen ≤ p.len) ∧
    (a.pos = 0 → min (a.tipLen p) (a.tipLen p - a.dir * a.clen) = 0) ∧
    (a.pos = 1 → max (a.tipLen p) (a.tipLen p - a.dir * a.clen) = p.len) := by
  have e1 : 0 ≤ a.pos * (p.len - a.clen) := mul_nonneg h0 (by linarith)
  have e2 : a.pos * (p.len - a.clen) ≤ p.len - a.clen := by nlinarith
  unfold Arrow.tipLen Arrow.dir
  cases a.reversed
  · simp only [Bool.false_eq_true, if_false, sub_zero, one_mul]
    refine ⟨⟨by linarith, by linarith⟩, ⟨by linarith, by linarith⟩, fun h => ?_, fun h => ?_⟩
    · rw [h, min_eq_right (by linarith)]; ring
    · rw [h, max_eq_left (by linarith)]; ring
  · simp only [if_true, sub_self, zero_mul, zero_add]
    refine ⟨⟨by linarith, by linarith⟩, ⟨by linarith, by linarith⟩, fun h => ?_, fun h => ?_⟩
    · rw [h, min_eq_left (by linarith)]; ring
    · rw [h, max_eq_right (by linarith)]; ring

/-- Lines stay within discs. -/
theorem lineC_disc (c q r : ℝ × ℝ) (R : ℝ) (hq : distSq q c ≤ R) (hr : distSq r c ≤ R) (u : ℝ) (h0 : 0 ≤ u) (h1 : u ≤ 1) :
    distSq (lineC q r u) c ≤ R := by
  have e : distSq (lineC q r u) c = (1 - u) * distSq q c + u * distSq r c - u * (1 - u) * distSq q r := by
    simp only [distSq, lineC]; ring
  have e1 : 0 ≤ u * (1 - u) * distSq q r := by
    refine mul_nonneg (mul_nonneg h0 (by linarith)) ?_
    unfold distSq; positivity
  have e2 : (1 - u) * distSq q c ≤ (1 - u) * R := mul_le_mul_of_nonneg_left hq (by linarith)
  have e3 : u * distSq r c ≤ u * R := mul_le_mul_of_nonneg_left hr h0
  rw [e]
  linarith

/-- **C121.**  However the path is bent, no point of the outline is farther from the tip than the size of the arrow or the
length up to the constriction point. -/
theorem head_within (hp : Rectified p) (q : ℝ × ℝ) (hq : OnOutline (a.outline p) q) :
    distSq q (a.tip p) ≤ max (a.size ^ 2) (a.clen ^ 2) := by
  have ht : ∀ u, 0 ≤ u → u ≤ 1 → distSq (a.template p u) (a.tip p) ≤ a.size ^ 2 := by
    intro u h0 h1
    refine (hp _ _).trans ?_
    have e : a.tipLen p + u * (a.tipLen p - a.dir * a.size - a.tipLen p) - a.tipLen p = -(u * (a.dir * a.size)) := by ring
    have d2 : a.dir ^ 2 = 1 := by unfold Arrow.dir; split <;> norm_num
    rw [e, neg_sq, mul_pow, mul_pow, d2, one_mul]
    have u2 : u ^ 2 ≤ 1 := by nlinarith
    nlinarith [sq_nonneg a.size]
  have hl : ∀ u, 0 ≤ u → u ≤ 1 → distSq (a.left p u) (a.tip p) ≤ max (a.size ^ 2) (a.clen ^ 2) := by
    intro u h0 h1
    rw [Arrow.left, rotPt_dist]
    exact (ht u h0 h1).trans (le_max_left _ _)
  have hr : ∀ u, 0 ≤ u → u ≤ 1 → distSq (a.right p u) (a.tip p) ≤ max (a.size ^ 2) (a.clen ^ 2) := by
    intro u h0 h1
    rw [Arrow.right, rotPt_dist]
    exact (ht u h0 h1).trans (le_max_left _ _)
  have hc : distSq (a.cpoint p) (a.tip p) ≤ max (a.size ^ 2) (a.clen ^ 2) := by
    refine (hp _ _).trans (le_trans ?_ (le_max_right _ _))
    have d2 : a.dir ^ 2 = 1 := by unfold Arrow.dir; split <;> norm_num
    have e : a.tipLen p - a.dir * a.clen - a.tipLen p = -(a.dir * a.clen) := by ring
    rw [e, neg_sq, mul_pow, d2, one_mul]
  obtain ⟨c, hc', u, h0, h1, rfl⟩ := hq
  unfold Arrow.outline at hc'
  cases hk : a.constriction with
  | none =>
    simp only [hk, List.mem_cons, List.not_mem_nil, or_false] at hc'
    rcases hc' with rfl | rfl | rfl
    · exact hl _ (by linarith) (by linarith)
    · exact hr u h0 h1
    · exact lineC_disc _ _ _ _ (hr 1 zero_le_one le_rfl) (hl 1 zero_le_one le_rfl) u h0 h1
  | some k =>
    simp only [hk, List.mem_cons, List.not_mem_nil, or_false] at hc'
    rcases hc' with rfl | rfl | rfl | rfl
    · exact hl _ (by linarith) (by linarith)
    · exact hr u h0 h1
    · exact lineC_disc _ _ _ _ (hr 1 zero_le_one le_rfl) hc u h0 h1
    · exact lineC_disc _ _ _ _ hc (hl 1 zero_le_one le_rfl) u h0 h1

/-- **C121.**  On a straight path: the barbs end at the distance `size · cos (angle/2)` behind the tip and `size · sin (angle/2)` to both
sides, and the constriction point is on the path, `constriction · size · cos (angle/2)` behind the tip.  "Behind" is against the
direction in which the arrow points. -/
theorem head_straight (o d : ℝ × ℝ) (h : Straight p o d) :
    let back := (-(a.dir * d.1), -(a.dir * d.2))
    let side := (a.dir * d.2, -(a.dir * d.1))
    let c := cos (phi (a.angle / 2))
    let s := sin (phi (a.angle / 2))
    let t := a.tip p
    a.left p 1 = (t.1 + a.size * c * back.1 - a.size * s * side.1, t.2 + a.size * c * back.2 - a.size * s * side.2) ∧
    a.right p 1 = (t.1 + a.size * c * back.1 + a.size * s * side.1, t.2 + a.size * c * back.2 + a.size * s * side.2) ∧
    a.cpoint p = (t.1 + a.constriction.getD 1 * (a.size * c) * back.1, t.2 + a.constriction.getD 1 * (a.size * c) * back.2) := by
  obtain ⟨-, h⟩ := h
  have hn : phi (-a.angle / 2) = -phi (a.angle / 2) := by unfold phi; ring
  refine ⟨?_, ?_, ?_⟩
  · rw [Arrow.left, rotPt_eq, Arrow.template, Arrow.tip, h, h, hn, cos_neg, sin_neg]
    ext <;> simp <;> ring
  · rw [Arrow.right, rotPt_eq, Arrow.template, Arrow.tip, h, h]
    ext <;> simp <;> ring
  · rw [Arrow.cpoint, Arrow.tip, h, h]
    cases hk : a.constriction <;> simp only [Arrow.clen, hk, Option.getD_some, Option.getD_none] <;> ext <;> simp <;> ring

/-- **C121.**  On a straight path a constriction of 1, and no constriction, give a straight back: the end of the stroke is in the
middle between the ends of the barbs. -/
theorem straight_back (o d : ℝ × ℝ) (h : Straight p o d) (hk : a.constriction.getD 1 = 1) :
    a.cpoint p = lineC (a.right p 1) (a.left p 1) (1 / 2) := by
  obtain ⟨e1, e2, e3⟩ := head_straight a p o d h
  rw [e1, e2, e3, hk]
  simp only [lineC]
  ext <;> simp <;> ring

/-- **C121.**  The stroke of a straight path ends at the head: where the stroke ends is a point of the outline, at the constriction
point, or in the middle of the back if there is none (constrictions up to the length of the barbs).  With a constriction this
holds for all paths. -/
theorem stroke_meets_head (h1 : a.pos = 1) (h2 : a.reversed = false) (hle : a.clen ≤ a.size)
    (hp : a.constriction ≠ none ∨ ∃ o d, Straight p o d) :
    ∃ b e, a.excluded p = some (b, e) ∧ e = p.len ∧ p.pt b = a.cpoint p ∧ OnOutline (a.outline p) (p.pt b) := by
  refine ⟨p.len - min a.size a.clen, p.len, ?_, rfl, ?_, ?_⟩
  · simp [Arrow.excluded, h1, h2]
  · simp [Arrow.cpoint, Arrow.tipLen, Arrow.dir, h1, h2, min_eq_right hle]
  · have e : p.pt (p.len - min a.size a.clen) = a.cpoint p := by
      simp [Arrow.cpoint, Arrow.tipLen, Arrow.dir, h1, h2, min_eq_right hle]
    rw [e]
    cases hk : a.constriction with
    | some k =>
      refine ⟨lineC (a.right p 1) (a.cpoint p), ?_, 1, zero_le_one, le_rfl, lineC_one _ _⟩
      simp [Arrow.outline, hk]
    | none =>
      obtain ⟨o, d, hs⟩ := hp.resolve_left (by simp [hk])
      refine ⟨lineC (a.right p 1) (a.left p 1), ?_, 1 / 2, by norm_num, by norm_num, ?_⟩
      · simp [Arrow.outline, hk]
      · exact (straight_back a p o d hs (by simp [hk])).symm

/-- **C121.**  An arrow at the begin of a path is the arrow at the end of the path run through backwards: `barrow` and `earrow`
are mirror images of each other.  The same holds for all positions. -/
theorem arrow_back (b : Arrow) (h1 : b.pos = 1 - a.pos) (h2 : b.reversed = !a.reversed) (h3 : b.size = a.size)
    (h4 : b.angle = a.angle) (h5 : b.constriction = a.constriction) : b.outline p.back = a.outline p ∧
    b.excluded p.back = (a.excluded p).map fun r => (p.len - r.2, p.len - r.1) := by
  have hc : b.clen = a.clen := by simp [Arrow.clen, h3, h4, h5]
  have hL : b.tipLen p.back = p.len - a.tipLen p := by
    simp only [Arrow.tipLen, hc, h1, h2, Track.back]
    cases a.reversed <;> simp <;> ring
  have hd : b.dir = -a.dir := by
    simp only [Arrow.dir, h2]
    cases a.reversed <;> simp
  have ht : b.tip p.back = a.tip p := by
    simp only [Arrow.tip, hL]
    simp [Track.back]
  have hm : b.template p.back = a.template p := by
    funext u
    simp only [Arrow.template, hL, hd, h3]
    show p.pt (p.len - _) = _
    congr 1
    ring
  have hl : b.left p.back = a.left p := by funext u; simp only [Arrow.left, ht, hm, h4]
  have hr : b.right p.back = a.right p := by funext u; simp only [Arrow.right, ht, hm, h4]
  have hcp : b.cpoint p.back = a.cpoint p := by
    simp only [Arrow.cpoint, hL, hd, hc]
    show p.pt (p.len - _) = _
    congr 1
    ring
  constructor
  · unfold Arrow.outline
    rw [h5, hl, hr, hcp]
  · unfold Arrow.excluded
    rw [hc, h3, h1, h2]
    have e1 : (1 - a.pos = 0 ∧ (!a.reversed) = true) ↔ (a.pos = 1 ∧ a.reversed = false) := by
      constructor
      · rintro ⟨x, y⟩; exact ⟨by linarith, by simpa using y⟩
      · rintro ⟨x, y⟩; exact ⟨by linarith, by simp [y]⟩
    have e2 : (1 - a.pos = 1 ∧ (!a.reversed) = false) ↔ (a.pos = 0 ∧ a.reversed = true) := by
      constructor
      · rintro ⟨x, y⟩; exact ⟨by linarith, by simpa using y⟩
      · rintro ⟨x, y⟩; exact ⟨by linarith, by simp [y]⟩
    simp only [e1, e2]
    by_cases k1 : a.pos = 0 ∧ a.reversed = true
    · have k2 : ¬ (a.pos = 1 ∧ a.reversed = false) := by rintro ⟨-, y⟩; rw [k1.2] at y; simp at y
      rw [if_neg k2, if_pos k1, if_pos k1]
      simp [Track.back]
    · by_cases k2 : a.pos = 1 ∧ a.reversed = false
      · rw [if_pos k2, if_neg k1, if_pos k2]
        simp
      · rw [if_neg k2, if_neg k1, if_neg k1, if_neg k2]
        rfl

/-- **C121.**  Arrows at both ends: exactly the stretches covered by the heads are left out of the stroke. -/
theorem both_ends (b e : Arrow) (hb : b.pos = 0) (hb' : b.reversed = true) (he : e.pos = 1) (he' : e.reversed = false)
    (h0 : 0 ≤ min b.size b.clen) (h1 : 0 ≤ min e.size e.clen) (s : ℝ) :
    Covered (([b, e].filterMap fun a => a.excluded p).foldl (fun rs r => excluderange rs r.1 r.2) []) s ↔
      (0 ≤ s ∧ s ≤ min b.size b.clen) ∨ (p.len - min e.size e.clen ≤ s ∧ s ≤ p.len) := by
  have e1 : b.excluded p = some (0, min b.size b.clen) := by simp [Arrow.excluded, hb, hb']
  have e2 : e.excluded p = some (p.len - min e.size e.clen, p.len) := by simp [Arrow.excluded, he, he']
  have e3 : ([b, e].filterMap fun a => a.excluded p) = [(0, min b.size b.clen), (p.len - min e.size e.clen, p.len)] := by
    simp [e1, e2]
  rw [e3, (excluderanges _ ?_).2]
  · simp
  · intro r hr
    simp only [List.mem_cons, List.not_mem_nil, or_false] at hr
    rcases hr with rfl | rfl
    · exact h0
    · simpa using h1

/-! ## Paths shorter than the head -/

open PyX.NormPath PyX.NormPath.Sub in
/-- **C121**, deviation: if a straight path is shorter than the arrowhead, the position where the stroke ends is before the begin of the path
(`t < 0`), and the stroked path is the line from the begin of the path backwards to this position, outside of the path (and a
sub-path without items). -/
theorem short_path_stroke (roots : ℝ → ℝ → ℝ → ℝ → List ℝ) (e : ℝ) (he : 0 < e) (n : ℕ) (l : Line ℝ) (hl : e < l.arclen)
    (cut : ℝ) (hcut : l.arclen + e ≤ cut) :
    ∃ t, t < 0 ∧ pathToParam 0 [[l]] (totalLen [l] - cut) = (0, t) ∧
      strokepath roots (some e) (n + 1) [⟨[.line l], false, none⟩] [(toLex (0, t), toLex (0, 1))] =
        .ok [⟨[.line ⟨l.x0, l.y0, (l.at_ t).1, (l.at_ t).2⟩], false, none⟩,
             ⟨[], false, some ⟨(l.at_ 1).1, (l.at_ 1).2, (l.at_ 1).1, (l.at_ 1).2⟩⟩] := by
  have hl0 : 0 < l.arclen := he.trans hl
  have ht : (l.arclen - cut) / l.arclen < 0 := div_neg_of_neg_of_pos (by linarith) hl0
  have hte : e ≤ -((l.arclen - cut) / l.arclen) * l.arclen := by
    rw [neg_mul, div_mul_cancel₀ _ hl0.ne']; linarith
  refine ⟨(l.arclen - cut) / l.arclen, ht, by simp [pathToParam, toParam, totalLen], ?_⟩
  generalize (l.arclen - cut) / l.arclen = t at ht hte
  have l0 : locate 1 0 = (0, 0) := by simp [locate]
  have l1 : locate 1 1 = (0, 1) := by simp [locate]
  have lt : locate 1 t = (0, t) := by simp [locate, not_lt.mpr ht.le]
  have hyp : ∀ s u : ℝ, hypot ((l.at_ u).1 - (l.at_ s).1) ((l.at_ u).2 - (l.at_ s).2) = |u - s| * l.arclen := by
    intro s u
    simp only [hypot, Line.arclen, Line.at_]
    rw [← Real.sqrt_sq_eq_abs, ← Real.sqrt_mul (sq_nonneg _)]
    congr 1
    ring
  have h0 : l.at_ 0 = (l.x0, l.y0) := by simp [Line.at_]
  have c1 : e ≤ hypot ((l.at_ t).1 - l.x0) ((l.at_ t).2 - l.y0) := by
    have := hyp 0 t
    rw [h0] at this
    rw [this, sub_zero, abs_of_neg ht]; exact hte
  have c2 : e ≤ hypot ((l.at_ 1).1 - (l.at_ t).1) ((l.at_ 1).2 - (l.at_ t).2) := by
    rw [hyp, abs_of_pos (by linarith)]
    nlinarith
  have hcol : collect roots (some e) (n + 1) [] fresh (Item.line l) [0, t, 1, 1] =
      .ok ([⟨[.line ⟨l.x0, l.y0, (l.at_ t).1, (l.at_ t).2⟩], false, none⟩,
        ⟨[.line ⟨(l.at_ t).1, (l.at_ t).2, (l.at_ 1).1, (l.at_ 1).2⟩], false, none⟩],
        ⟨[], false, some ⟨(l.at_ 1).1, (l.at_ 1).2, (l.at_ 1).1, (l.at_ 1).2⟩⟩) := by
    have hz : ¬ e ≤ hypot 0 0 := by simp [hypot, he]
    have ap : ∀ k : Line ℝ, append roots (some e) (n + 1) fresh (.line k) =
        if hypot (k.x1 - k.x0) (k.y1 - k.y0) ≥ e then (⟨[.line k], false, none⟩, none) else (⟨[], false, some k⟩, none) := by
      intro k
      have hm : matches_ e fresh (.line k) := by intro q hq; simp [fresh, Sub.end_] at hq
      rw [append]
      rw [if_neg (not_not.mpr hm)]
      simp [fresh, adjusted, push, unskip, skip]
    have mk : ∀ k : Line ℝ, ok (make roots (some e) (n + 1) [.line k] false) =
        if hypot (k.x1 - k.x0) (k.y1 - k.y0) ≥ e then .ok ⟨[.line k], false, none⟩ else .ok ⟨[], false, some k⟩ := by
      intro k
      simp only [make, extend, extendWith, ap]
      by_cases hk : hypot (k.x1 - k.x0) (k.y1 - k.y0) ≥ e
      · simp only [if_pos hk]; simp [ok]
      · simp only [if_neg hk]; simp [ok]
    simp only [collect, Item.segments, Line.segments, Line.segmentsFrom, Option.map_some, List.map_cons, List.map_nil, makeAll, mk, ap, h0]
    rw [if_pos c1, if_pos c2, if_neg (by simpa using hz)]
    rfl
  simp [strokepath, splitlist, split, splitLoop, splitStep, splitCollect, segments, segmentsOpen, segLoop, segStep, l0, l1, lt, hcol, evens]

/-! ## Examples -/

/-- The default arrow (`size` 6) at the end of a horizontal line of length 100. -/
def exTrack : Track := ⟨fun s => (s, 0), 100⟩
def exArrow : Arrow := ⟨1, false, 6, 45, some (4 / 5)⟩

theorem exTrack_straight : Straight exTrack (0, 0) (1, 0) := by constructor <;> simp [exTrack]

theorem exTrack_rectified : Rectified exTrack := by intro s t; simp [exTrack, distSq]

example : exArrow.tip exTrack = (100, 0) := by
  rw [(tip_at_end exArrow exTrack).1 rfl rfl]; simp [exTrack]

theorem exArrow_clen : exArrow.clen = 6 * (4 / 5) * cos (phi (45 / 2)) := rfl

example : 0 ≤ exArrow.clen ∧ exArrow.clen ≤ exTrack.len ∧ exArrow.clen ≤ exArrow.size := by
  have h0 : 0 ≤ cos (phi (45 / 2)) := cos_nonneg_of_neg_pi_div_two_le_of_le
    (by unfold phi; nlinarith [pi_pos]) (by unfold phi; nlinarith [pi_pos])
  have h1 := cos_le_one (phi (45 / 2))
  rw [exArrow_clen]
  refine ⟨by positivity, ?_, ?_⟩
  · show _ ≤ (100 : ℝ); nlinarith
  · show _ ≤ (6 : ℝ); nlinarith

/-- The line above is longer than 6: for a line of length 1, `cut = 5` is beyond the begin. -/
example : PyX.NormPath.Line.arclen (⟨0, 0, 1, 0⟩ : PyX.NormPath.Line ℝ) + 1 / 100000 ≤ 5 := by
  norm_num [PyX.NormPath.Line.arclen, PyX.NormPath.hypot]

end

/-! ## Attributes of arrows -/

section

open PyX.Attr

/-- `self.attrs` (`deco.py:496`). -/
def arrowAttrs {A C : Type} (S : Sys A C) (solid filled : A) (attrs : List A) : List A := mergeattrs S ([solid, filled] ++ attrs)

/-- **C121.**  Calling an arrow without giving attributes (as `deco.earrow.large` and the like are made, `deco.py:518-531`) keeps the
attributes, if there is still a line style and a filling among them. -/
theorem arrow_call_keeps {A C : Type} (S : Sys A C) (hN : Nested S) (hM : Mutual S) (solid filled : A) (attrs : List A)
    (hs : ∃ x ∈ arrowAttrs S solid filled attrs, removes S x solid = true)
    (hf : ∃ x ∈ arrowAttrs S solid filled attrs, removes S x filled = true) :
    (arrowAttrs S solid filled (arrowAttrs S solid filled attrs)).Perm (arrowAttrs S solid filled attrs) := by
  unfold arrowAttrs at *
  have hi := merge_idem S hN hM ([solid, filled] ++ attrs)
  generalize mergeattrs S ([solid, filled] ++ attrs) = m at *
  refine (merge_perm S _).trans ?_
  have e : survivors S ([solid, filled] ++ m) = survivors S m := by
    have h1 : (m.any fun x => removes S x solid) = true := by simpa using hs
    have h2 : (m.any fun x => removes S x filled) = true := by simpa using hf
    simp [survivors, h1, h2]
  rw [e]
  have := (merge_perm S m).symm
  rwa [hi] at this

/-- Some attributes of arrows: line styles, `deco.filled`, `deco.filled.clear` and colours. -/
inductive ArrowAttr
  | dash (n : ℕ)
  | filled
  | clearFilled
  | color (n : ℕ)
deriving DecidableEq

inductive ArrowClass
  | linestyle
  | filled
  | color
deriving DecidableEq

def arrowSys : Sys ArrowAttr ArrowClass where
  inst
    | .dash _, .linestyle => true
    | .filled, .filled => true
    | .color _, .color => true
    | _, _ => false
  kind
    | .dash _ => .excl .linestyle
    | .filled => .excl .filled
    | .clearFilled => .clearClass .filled
    | .color _ => .excl .color

/-- **C121**, deviation: an arrow which is not to be filled gets filled again when it is called, say for another size. -/
theorem arrow_call_fills :
    arrowAttrs arrowSys (.dash 0) .filled [.clearFilled] = [.dash 0] ∧
    arrowAttrs arrowSys (.dash 0) .filled (arrowAttrs arrowSys (.dash 0) .filled [.clearFilled]) = [.filled, .dash 0] := by
  decide

theorem arrowSys_nested : Nested arrowSys := by
  constructor
  · intro a; cases a <;> simp [before, arrowSys]
  · intro a b x; cases a <;> cases b <;> simp [before, arrowSys]

theorem arrowSys_mutual : Mutual arrowSys := by
  intro a b; cases a <;> cases b <;> simp [isSorter, isClear, removes, arrowSys]

example : ∃ x ∈ arrowAttrs arrowSys (.dash 0) .filled [.color 1, .dash 2], removes arrowSys x (.dash 0) = true := by decide
example : ∃ x ∈ arrowAttrs arrowSys (.dash 0) .filled [.color 1, .dash 2], removes arrowSys x .filled = true := by decide

end

end PyX.Deco
