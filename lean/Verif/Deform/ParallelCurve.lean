import Verif.Deform.Parallel
import Verif.Deform.ArmsProps
import Mathlib.Data.Finset.Sort

/-!
# C127: parallels of curves (`deformer.parallel` without the intersection step)
-/

set_option linter.unusedSectionVars false

namespace PyX.Deform.Par

noncomputable section

open PyX.NormPath PyX.Deform

/-! ## Model -/

/-- The settings of the deformer (`deformer.py:845-854`), the epsilon of the path, and the default epsilon of normsubpaths. -/
structure NSet where
  dist : ℝ
  eps : ℝ
  relerr : ℝ
  checks : List ℝ
  deps : ℝ

/-- The intersections of a path and a line: parameters of the line (`normsubpath.intersect`). -/
abbrev Cuts := List (Item ℝ) → Line ℝ → List ℝ

/-- `dist_err` without the sign (`deformer.py:1227`). -/
def NSet.err (p : NSet) : ℝ := max |p.relerr * p.dist| p.eps

/-- The line of `_distchecked` (`deformer.py:1237-1239`). -/
def cutline (p : NSet) (P n : Pt) : Line ℝ :=
  let e := sign p.dist * p.err
  ⟨P.1 + (p.dist - 2 * e) * n.1, P.2 + (p.dist - 2 * e) * n.2, P.1 + (p.dist + 2 * e) * n.1, P.2 + (p.dist + 2 * e) * n.2⟩

/-- The smallest value of a list. -/
def minimum : List ℝ → Option ℝ
  | [] => none
  | x :: r => some (r.foldl min x)

open Classical in
/-- The condition of `_distchecked` for one parameter (`deformer.py:1241-1246`). -/
def distOk (cut : Cuts) (p : NSet) (par : List (Item ℝ)) (P n : Pt) : Bool :=
  let l := cutline p P n
  match minimum ((cut par l).map fun s => hypot (P.1 - (l.at_ s).1) (P.2 - (l.at_ s).2)) with
  | none => false
  | some m => decide ¬ (|m - (|p.dist|)| > p.err)

/-- The loop of `_distchecked` (`deformer.py:1231-1248`). -/
def distLoop (cut : Cuts) (p : NSet) (c : Curve ℝ) (par : List (Item ℝ)) : List ℝ → Except Bad Bool
  | [] => .ok true
  | t :: ts => (orthogonal (.curve c) t 1).bind fun n => if distOk cut p par (c.at_ t) n then distLoop cut p c par ts else .ok false

/-- `_distchecked` (`deformer.py:1220-1249`). -/
def distChecked (cut : Cuts) (p : NSet) (c : Curve ℝ) (par : List (Item ℝ)) (s e : ℝ) : Except Bad Bool :=
  distLoop cut p c par (p.checks.map fun t => s + (e - s) * t)

open Classical in
/-- `normsubpath([normline_pt(...)], epsilon=epsilon)`: lines shorter than epsilon are left out (`normpath.py:892-899`). -/
def keepLine (eps : ℝ) (A D : Pt) : List (Item ℝ) := if hypot (D.1 - A.1) (D.2 - A.2) ≥ eps then [conn A D] else []

open Classical in
/-- Enough space on the normal (`deformer.py:1141-1142`). -/
def room (d eps : ℝ) : Option ℝ → Prop
  | none => True
  | some a => a * d < 0 ∨ |a| > |d| + eps

open Classical in
/-- The curvature at an end of the parallel (`deformer.py:1146-1149`). -/
def parCurv (d k : ℝ) : Option Curv → Except Bad Curv
  | some c => .ok c
  | none => if 1 - d * k = 0 then .error .zero else .ok (.fin (k / (1 - d * k)))

open Classical in
/-- The attempt with a single item (`deformer.py:1154-1171`).  (With arms not shorter than epsilon the curve is neither left out nor moved by `normsubpath.append`; splitting it does
not change its points.) -/
def single (eps : ℝ) (A D tA tD : Pt) : List (ℝ × ℝ) → List (Item ℝ)
  | [] => []
  | (a, d) :: _ =>
    if a ≥ 0 ∧ d ≥ 0 then
      if a < eps ∧ d < eps then keepLine eps A D else [.curve (armCurve A D tA tD (max a eps) (max d eps))]
    else []

/-- The attempt is good enough (`deformer.py:1174-1176`). -/
def accepted (cut : Cuts) (p : NSet) (c : Curve ℝ) (first : List (Item ℝ)) (s e : ℝ) : Except Bad Bool :=
  if first.isEmpty then .ok false else if p.checks.isEmpty then .ok true else distChecked cut p c first s e

/-- A point moved along the normal (`deformer.py:1121-1122`). -/
def movedPt (d : ℝ) (P t : Pt) : Pt := (P.1 - d * t.2, P.2 + d * t.1)

/-- `deformnicecurve` (`deformer.py:1105-1190`); the number bounds the recursion.  (The connection lines of `joined` have no length.) -/
def nice (roots : List ℝ → List ℝ) (cut : Cuts) (p : NSet) (c : Curve ℝ) : ℕ → ℝ → ℝ → Option Curv → Option Curv → Except Bad (List (Item ℝ))
  | 0, _, _, _, _ => .error .length
  | n + 1, s, e, cA, cD =>
    (direction (.curve c) s).bind fun tA => (direction (.curve c) e).bind fun tD =>
      let A := movedPt p.dist (c.at_ s) tA
      let D := movedPt p.dist (c.at_ e) tD
      open Classical in
      if hypot (A.1 - D.1) (A.2 - D.2) < p.eps ∧ |p.dist| * (tA.1 * tD.2 - tA.2 * tD.1) < p.eps then .ok (keepLine p.deps A D)
      else
        let x := intersection (c.at_ s) (c.at_ e) (-tA.2, tA.1) (-tD.2, tD.1)
        if room p.dist p.eps (x.map Prod.fst) ∨ room p.dist p.eps (x.map Prod.snd) then
          (curvatureAt (.curve c) s).bind fun kA => (curvatureAt (.curve c) e).bind fun kD =>
            (parCurv p.dist kA cA).bind fun gA => (parCurv p.dist kD cD).bind fun gD =>
              (controldists roots A D tA tD gA gD false (1 / 10 ^ 8)).bind fun sols =>
                let first := single p.eps A D tA tD sols
                (accepted cut p c first s e).bind fun good =>
                  if good then .ok first
                  else
                    (nice roots cut p c n s (1 / 2 * (s + e)) (some gA) none).bind fun l =>
                      (nice roots cut p c n (1 / 2 * (s + e)) e none (some gD)).map fun r =>
                        if l.isEmpty || r.isEmpty then keepLine p.eps A D else l ++ r
        else .ok []

/-! ## Specification -/

/-- The point of the true parallel. -/
def parallelPt (d : ℝ) (c : Curve ℝ) (t : ℝ) : Pt := off (c.at_ t) (leftOf (dirOf (.curve c) t)) d

/-- The check at one parameter: some point of the path is on the normal of the curve, at the given distance up to the error. -/
def Checked (p : NSet) (c : Curve ℝ) (par : List (Item ℝ)) (t : ℝ) : Prop :=
  ∃ i ∈ par, ∃ s, 0 ≤ s ∧ s ≤ 1 ∧ ∃ x, i.at_ s = off (c.at_ t) (leftOf (dirOf (.curve c) t)) x ∧ |(|x| - |p.dist|)| ≤ p.err ∧ |x - p.dist| ≤ 2 * p.err

/-- The items follow the true parallel from the parameter `s` to the parameter `e`: each item leads from one point of it to another one, it is a line or has the same tangents
there as the original curve, and (except for lines which replace parts without parallel) the distance was checked. -/
inductive Follows (p : NSet) (c : Curve ℝ) : List (Item ℝ) → ℝ → ℝ → Prop
  | line (s e : ℝ) : Follows p c [conn (parallelPt p.dist c s) (parallelPt p.dist c e)] s e
  | curve (s e a b : ℝ) (ha : 0 < a) (hb : 0 < b)
      (hc : ∀ t ∈ p.checks, Checked p c [.curve (armCurve (parallelPt p.dist c s) (parallelPt p.dist c e) (dirOf (.curve c) s) (dirOf (.curve c) e) a b)] (s + (e - s) * t)) :
      Follows p c [.curve (armCurve (parallelPt p.dist c s) (parallelPt p.dist c e) (dirOf (.curve c) s) (dirOf (.curve c) e) a b)] s e
  | append {l r : List (Item ℝ)} {s m e : ℝ} (h1 : Follows p c l s m) (h2 : Follows p c r m e) : Follows p c (l ++ r) s e

/-- The intersections found are intersections. -/
def CutsSound (cut : Cuts) : Prop := ∀ par l, ∀ s ∈ cut par l, 0 ≤ s ∧ s ≤ 1 ∧ ∃ i ∈ par, ∃ t, 0 ≤ t ∧ t ≤ 1 ∧ i.at_ t = l.at_ s

/-! ## The distance -/

theorem foldl_min_mem (r : List ℝ) : ∀ x, r.foldl min x ∈ x :: r := by
  induction r with
  | nil => intro x; simp
  | cons y r ih =>
    intro x
    have := ih (min x y)
    simp only [List.foldl_cons, List.mem_cons] at this ⊢
    rcases this with h | h
    · rcases min_choice x y with e | e
      · exact Or.inl (h.trans e)
      · exact Or.inr (Or.inl (h.trans e))
    · exact Or.inr (Or.inr h)

theorem minimum_mem {l : List ℝ} {m : ℝ} (h : minimum l = some m) : m ∈ l := by
  cases l with
  | nil => simp [minimum] at h
  | cons x r =>
    simp only [minimum, Option.some.injEq] at h
    rw [← h]
    exact foldl_min_mem r x

theorem sign_sq (x : ℝ) : |sign x| = 1 := by
  rw [sign]; split_ifs <;> norm_num

/-- What one check ensures. -/
theorem distOk_sound (cut : Cuts) (hcut : CutsSound cut) (p : NSet) (he : 0 ≤ p.eps) (par : List (Item ℝ)) (P n : Pt) (hn : Unit2 n) (h : distOk cut p par P n = true) :
    ∃ i ∈ par, ∃ s, 0 ≤ s ∧ s ≤ 1 ∧ ∃ x, i.at_ s = off P n x ∧ |(|x| - |p.dist|)| ≤ p.err ∧ |x - p.dist| ≤ 2 * p.err := by
  unfold distOk at h
  simp only at h
  split at h
  · cases h
  · rename_i m hm
    simp only [gt_iff_lt, not_lt, decide_eq_true_eq] at h
    obtain ⟨s, hs, e⟩ := List.mem_map.mp (minimum_mem hm)
    obtain ⟨h0, h1, i, hi, t, ht0, ht1, ht⟩ := hcut par _ s hs
    have herr : 0 ≤ p.err := he.trans (le_max_right _ _)
    have hx : (cutline p P n).at_ s = off P n (p.dist + (4 * s - 2) * (sign p.dist * p.err)) := by
      ext <;> simp only [cutline, Line.at_, off] <;> ring
    refine ⟨i, hi, t, ht0, ht1, _, ht.trans hx, ?_, ?_⟩
    · rw [hx] at e
      rw [← e] at h
      rw [Unit2] at hn
      have : hypot (P.1 - (off P n (p.dist + (4 * s - 2) * (sign p.dist * p.err))).1) (P.2 - (off P n (p.dist + (4 * s - 2) * (sign p.dist * p.err))).2) =
          |p.dist + (4 * s - 2) * (sign p.dist * p.err)| := by
        generalize p.dist + (4 * s - 2) * (sign p.dist * p.err) = w
        rw [hypot, off, ← Real.sqrt_sq_eq_abs]
        congr 1
        simp only
        linear_combination w ^ 2 * hn
      rwa [this] at h
    · rw [add_sub_cancel_left, abs_mul, abs_mul, sign_sq, one_mul, abs_of_nonneg herr]
      apply mul_le_mul_of_nonneg_right _ herr
      rw [abs_le]
      constructor <;> linarith

theorem distLoop_sound (cut : Cuts) (hcut : CutsSound cut) (p : NSet) (he : 0 ≤ p.eps) (c : Curve ℝ) (par : List (Item ℝ)) (hc : ∀ t, 0 ≤ t → t ≤ 1 → (Item.curve c).tangent t ≠ (0, 0)) :
    ∀ ts, (∀ t ∈ ts, 0 ≤ t ∧ t ≤ 1) → distLoop cut p c par ts = .ok true → ∀ t ∈ ts, Checked p c par t := by
  intro ts
  induction ts with
  | nil => simp
  | cons t ts ih =>
    intro hb h
    have ht := hc t (hb t (by simp)).1 (hb t (by simp)).2
    rw [distLoop, orthogonal_eq ht] at h
    simp only [Except.bind, mul_one] at h
    split_ifs at h with hd
    · intro x hx
      rcases List.mem_cons.mp hx with rfl | hx
      · have hu := dirOf_unit ht
        rw [Unit2] at hu
        exact distOk_sound cut hcut p he par _ (leftOf (dirOf (.curve c) x)) (by rw [Unit2, leftOf]; linear_combination hu) hd
      · exact ih (fun t ht => hb t (List.mem_cons_of_mem _ ht)) h x hx
    · cases h

theorem movedPt_eq (d : ℝ) (c : Curve ℝ) (t : ℝ) : movedPt d (c.at_ t) (dirOf (.curve c) t) = parallelPt d c t := by
  rw [movedPt, parallelPt, off, leftOf]
  ext <;> simp only <;> ring

theorem keepLine_follows (p : NSet) (c : Curve ℝ) (s e x : ℝ) (r : List (Item ℝ)) (h : keepLine x (parallelPt p.dist c s) (parallelPt p.dist c e) = r) (hr : r ≠ []) :
    Follows p c r s e := by
  subst h
  unfold keepLine at hr ⊢
  split_ifs at hr ⊢ with h
  · exact .line s e
  · exact absurd rfl hr

/-- **C127.**  The parallel of a curve follows the true parallel. -/
theorem nice_follows (roots : List ℝ → List ℝ) (cut : Cuts) (hcut : CutsSound cut) (p : NSet) (he : 0 < p.eps) (hch : ∀ t ∈ p.checks, 0 ≤ t ∧ t ≤ 1) (c : Curve ℝ)
    (hc : ∀ t, 0 ≤ t → t ≤ 1 → (Item.curve c).tangent t ≠ (0, 0)) :
    ∀ n s e cA cD r, 0 ≤ s → s ≤ e → e ≤ 1 → nice roots cut p c n s e cA cD = .ok r → r ≠ [] → Follows p c r s e := by
  intro n
  induction n with
  | zero => intro s e cA cD r _ _ _ h; rw [nice] at h; cases h
  | succ n ih =>
    intro s e cA cD r hs0 hse he1 h hr
    rw [nice, direction_eq (hc s hs0 (hse.trans he1)), direction_eq (hc e (hs0.trans hse) he1)] at h
    simp only [Except.bind, movedPt_eq] at h
    split_ifs at h with h1 h2
    · cases h; exact keepLine_follows p c s e _ _ rfl hr
    · cases k1 : curvatureAt (.curve c) s with
      | error b => rw [k1] at h; cases h
      | ok kA =>
      cases k2 : curvatureAt (.curve c) e with
      | error b => rw [k1, k2] at h; cases h
      | ok kD =>
      rw [k1, k2] at h
      simp only at h
      cases g1 : parCurv p.dist kA cA with
      | error b => rw [g1] at h; cases h
      | ok gA =>
      cases g2 : parCurv p.dist kD cD with
      | error b => rw [g1, g2] at h; cases h
      | ok gD =>
      rw [g1, g2] at h
      simp only at h
      cases hs : controldists roots (parallelPt p.dist c s) (parallelPt p.dist c e) (dirOf (.curve c) s) (dirOf (.curve c) e) gA gD false (1 / 10 ^ 8) with
      | error b => rw [hs] at h; cases h
      | ok sols =>
      rw [hs] at h
      simp only at h
      cases ha : accepted cut p c (single p.eps (parallelPt p.dist c s) (parallelPt p.dist c e) (dirOf (.curve c) s) (dirOf (.curve c) e) sols) s e with
      | error b => rw [ha] at h; cases h
      | ok good =>
      rw [ha] at h
      simp only at h
      split_ifs at h with hg
      · -- the single item
        have hf : single p.eps (parallelPt p.dist c s) (parallelPt p.dist c e) (dirOf (.curve c) s) (dirOf (.curve c) e) sols = r := by
          cases h; rfl
        subst hg
        rw [hf] at ha
        unfold accepted at ha
        rw [if_neg (by simpa using hr)] at ha
        split_ifs at ha with q2
        · have : p.checks = [] := by simpa using q2
          cases sols with
          | nil => exact absurd hf.symm hr
          | cons ad rest =>
            obtain ⟨a, d⟩ := ad
            simp only [single] at hf
            split_ifs at hf with w1 w2
            · exact keepLine_follows p c s e _ r hf hr
            · subst hf
              exact .curve s e _ _ (lt_max_of_lt_right he) (lt_max_of_lt_right he) (by rw [this]; simp)
            · exact absurd hf.symm hr
        · have hck := distLoop_sound cut hcut p he.le c r hc _ (by
            intro y hy
            obtain ⟨t, ht, rfl⟩ := List.mem_map.mp hy
            obtain ⟨t0, t1⟩ := hch t ht
            constructor <;> nlinarith) ha
          cases sols with
          | nil => exact absurd hf.symm hr
          | cons ad rest =>
            obtain ⟨a, d⟩ := ad
            simp only [single] at hf
            split_ifs at hf with w1 w2
            · exact keepLine_follows p c s e _ r hf hr
            · subst hf
              exact .curve s e _ _ (lt_max_of_lt_right he) (lt_max_of_lt_right he) (fun t ht => hck _ (List.mem_map.mpr ⟨t, ht, rfl⟩))
            · exact absurd hf.symm hr
      · -- two halves
        cases hl : nice roots cut p c n s (1 / 2 * (s + e)) (some gA) none with
        | error b => rw [hl] at h; cases h
        | ok l =>
        cases hr' : nice roots cut p c n (1 / 2 * (s + e)) e none (some gD) with
        | error b => rw [hl, hr'] at h; cases h
        | ok r' =>
        rw [hl, hr'] at h
        simp only [Except.map] at h
        split_ifs at h with hemp
        · cases h
          exact keepLine_follows p c s e _ _ rfl hr
        · cases h
          simp only [Bool.or_eq_true, List.isEmpty_iff, not_or] at hemp
          exact .append (ih _ _ _ _ _ hs0 (by linarith) (by linarith) hl hemp.1) (ih _ _ _ _ _ (by linarith) (by linarith) he1 hr' hemp.2)
    · cases h; exact absurd rfl hr

/-- **C127.**  The parallel leads from the point at the distance from the begin of the curve to the one at its end, without gaps. -/
theorem Follows.leads {p : NSet} {c : Curve ℝ} {r : List (Item ℝ)} {s e : ℝ} (h : Follows p c r s e) : Leads r (parallelPt p.dist c s) (parallelPt p.dist c e) := by
  induction h with
  | line s e => exact conn_leads _ _
  | curve s e a b _ _ _ => exact ⟨rfl, rfl⟩
  | append _ _ ih1 ih2 => exact ih1.append ih2

/-! ## The true parallel -/

/-- **C127.**  The velocity of the true parallel is the one of the curve, multiplied with `1 - dist*curvature`. -/
theorem parallel_velocity (d : ℝ) (c : Curve ℝ) (t : ℝ) (h : c.dot t ≠ (0, 0)) :
    HasDerivAt (fun t => (parallelPt d c t).1) ((1 - d * kappa c t) * (c.dot t).1) t ∧
    HasDerivAt (fun t => (parallelPt d c t).2) ((1 - d * kappa c t) * (c.dot t).2) t := by
  have e : c.dot = c.tangent := funext fun u => (xy_eq c u).2.2.1
  have hx : HasDerivAt (fun t => (c.dot t).1) (c.ddot t).1 t := by rw [e]; exact (ddot_deriv c t).1
  have hy : HasDerivAt (fun t => (c.dot t).2) (c.ddot t).2 t := by rw [e]; exact (ddot_deriv c t).2
  obtain ⟨px, py⟩ := tangent_deriv (.curve c) t
  have hq : 0 < (c.dot t).1 ^ 2 + (c.dot t).2 ^ 2 := by
    rcases eq_or_ne (c.dot t).1 0 with h1 | h1
    · have h2 : (c.dot t).2 ≠ 0 := fun h2 => h (Prod.ext h1 h2)
      positivity
    · positivity
  have hh : HasDerivAt (fun t => hypot (c.dot t).1 (c.dot t).2) (((c.dot t).1 * (c.ddot t).1 + (c.dot t).2 * (c.ddot t).2) / hypot (c.dot t).1 (c.dot t).2) t := by
    have := ((hx.pow 2).add (hy.pow 2)).sqrt hq.ne'
    refine this.congr_deriv ?_
    rw [hypot]
    simp only [Pi.add_apply, Pi.pow_apply]
    field_simp
    ring
  have hp : 0 < hypot (c.dot t).1 (c.dot t).2 := by rw [hypot]; exact Real.sqrt_pos.mpr hq
  have hs : hypot (c.dot t).1 (c.dot t).2 ^ 2 = (c.dot t).1 ^ 2 + (c.dot t).2 ^ 2 := by rw [hypot, Real.sq_sqrt hq.le]
  have ht : (Item.curve c).tangent t = c.dot t := by rw [e]; rfl
  have e1 : (fun t => (parallelPt d c t).1) = fun t => ((Item.curve c).at_ t).1 - d * ((c.dot t).2 / hypot (c.dot t).1 (c.dot t).2) := by
    funext u
    rw [e]
    simp only [parallelPt, off, leftOf, dirOf, Item.tangent, Item.at_]
    ring
  have e2 : (fun t => (parallelPt d c t).2) = fun t => ((Item.curve c).at_ t).2 + d * ((c.dot t).1 / hypot (c.dot t).1 (c.dot t).2) := by
    funext u
    rw [e]
    simp only [parallelPt, off, leftOf, dirOf, Item.tangent, Item.at_]
  rw [e1, e2]
  rw [ht] at px py
  rw [kappa_eq, wedge]
  constructor
  · refine (px.sub ((hy.div hh hp.ne').const_mul d)).congr_deriv ?_
    generalize hypot (c.dot t).1 (c.dot t).2 = r at *
    have : (c.ddot t).2 * r - (c.dot t).2 * (((c.dot t).1 * (c.ddot t).1 + (c.dot t).2 * (c.ddot t).2) / r) =
        ((c.dot t).1 * (c.ddot t).2 - (c.dot t).2 * (c.ddot t).1) * (c.dot t).1 / r := by
      field_simp
      linear_combination (c.ddot t).2 * hs
    rw [this]
    field_simp
  · refine (py.add ((hx.div hh hp.ne').const_mul d)).congr_deriv ?_
    generalize hypot (c.dot t).1 (c.dot t).2 = r at *
    have : (c.ddot t).1 * r - (c.dot t).1 * (((c.dot t).1 * (c.ddot t).1 + (c.dot t).2 * (c.ddot t).2) / r) =
        - (((c.dot t).1 * (c.ddot t).2 - (c.dot t).2 * (c.ddot t).1) * (c.dot t).2 / r) := by
      field_simp
      linear_combination (c.ddot t).1 * hs
    rw [this]
    field_simp
    ring

/-- **C127.**  The curvature used for the ends is the curvature of the true parallel: with `v` its velocity and `w` its acceleration, the curvature is
`(v.1 w.2 - v.2 w.1) / |v|^3`. -/
theorem parallel_curvature (d : ℝ) (c : Curve ℝ) (t : ℝ) (h : c.dot t ≠ (0, 0)) (hk : 0 < 1 - d * kappa c t) :
    ∃ w : Pt, HasDerivAt (fun t => (1 - d * kappa c t) * (c.dot t).1) w.1 t ∧ HasDerivAt (fun t => (1 - d * kappa c t) * (c.dot t).2) w.2 t ∧
      parCurv d (kappa c t) none = .ok (.fin (wedge ((1 - d * kappa c t) * (c.dot t).1, (1 - d * kappa c t) * (c.dot t).2) w /
        hypot ((1 - d * kappa c t) * (c.dot t).1) ((1 - d * kappa c t) * (c.dot t).2) ^ 3)) := by
  have e : c.dot = c.tangent := funext fun u => (xy_eq c u).2.2.1
  have hx : HasDerivAt (fun t => (c.dot t).1) (c.ddot t).1 t := by rw [e]; exact (ddot_deriv c t).1
  have hy : HasDerivAt (fun t => (c.dot t).2) (c.ddot t).2 t := by rw [e]; exact (ddot_deriv c t).2
  have hkd := kappa_deriv c t _ rfl h
  generalize (wedge (c.dot t) _ * _ - _) / _ = k' at hkd
  have hm := (hkd.const_mul d).const_sub 1
  refine ⟨(_, _), hm.mul hx, hm.mul hy, ?_⟩
  rw [parCurv, if_neg hk.ne']
  have hh : hypot ((1 - d * kappa c t) * (c.dot t).1) ((1 - d * kappa c t) * (c.dot t).2) = (1 - d * kappa c t) * hypot (c.dot t).1 (c.dot t).2 := by
    rw [hypot, hypot, show ((1 - d * kappa c t) * (c.dot t).1) ^ 2 + ((1 - d * kappa c t) * (c.dot t).2) ^ 2 =
      (1 - d * kappa c t) ^ 2 * ((c.dot t).1 ^ 2 + (c.dot t).2 ^ 2) by ring, Real.sqrt_mul (sq_nonneg _), Real.sqrt_sq hk.le]
  rw [hh]
  have hK := kappa_eq c t
  rw [wedge] at hK
  have hp : 0 < hypot (c.dot t).1 (c.dot t).2 := by
    have := hypot_pos (u := c.dot t) h
    exact this
  congr 2
  simp only [wedge]
  generalize hypot (c.dot t).1 (c.dot t).2 = r at *
  rw [eq_div_iff (by positivity)] at hK
  rw [div_eq_div_iff hk.ne' (by positivity)]
  generalize kappa c t = k at *
  linear_combination (1 - d * k) ^ 3 * hK

/-! ## Crossings -/

/-- `params` (`deformer.py:1266-1267`). -/
def sampleParams (n : ℕ) (t0 t1 : ℝ) : List ℝ := (List.range n).map fun i : ℕ => t0 + (i : ℝ) * (t1 - t0) / ((n : ℝ) - 1)

/-- `middleparam` (`deformer.py:1279-1281`). -/
def interpolated (b e fb fe : ℝ) : ℝ := (b * |fb| + e * |fe|) / (|fb| + |fe|)

open Classical in
/-- The check of the middle (`deformer.py:1282-1294`). -/
def crossMiddle (rec : ℝ → ℝ → Except Bad (List ℝ)) (d eps : ℝ) (b e m km : ℝ) : Except Bad (List ℝ) :=
  if km = 0 then .error .zero else if |1 / km - d| < eps ∨ e - b < 1 / 10 ^ 14 then .ok [m] else rec b e

open Classical in
/-- One pair of parameters (`deformer.py:1273-1299`); `k` is the curvature. -/
def crossPair (rec : ℝ → ℝ → Except Bad (List ℝ)) (k : ℝ → Except Bad ℝ) (d eps : ℝ) (b e : ℝ) : Except Bad (List ℝ) :=
  (k b).bind fun kb => (k e).bind fun ke =>
    if (kb * d - 1) * (ke * d - 1) < 0 then
      (k (interpolated b e (kb * d - 1) (ke * d - 1))).bind fun km => crossMiddle rec d eps b e (interpolated b e (kb * d - 1) (ke * d - 1)) km
    else .ok ((if kb * d - 1 = 0 then [b] else []) ++ (if ke * d - 1 = 0 then [e] else []))

/-- The loop over the pairs. -/
def crossPairs (rec : ℝ → ℝ → Except Bad (List ℝ)) (k : ℝ → Except Bad ℝ) (d eps : ℝ) : List ℝ → Except Bad (List ℝ)
  | b :: e :: r => (crossPair rec k d eps b e).bind fun l => (crossPairs rec k d eps (e :: r)).map fun l' => l ++ l'
  | _ => .ok []

open Classical in
/-- `_distcrossingparameters` (`deformer.py:1252-1301`); `n` is `lookforcurvatures`, the first number bounds the recursion. -/
def crossings (n : ℕ) (k : ℝ → Except Bad ℝ) (d eps : ℝ) : ℕ → ℝ → ℝ → Except Bad (List ℝ)
  | 0, _, _ => .error .length
  | f + 1, t0, t1 =>
    if ¬ t0 < t1 then .error .assertion else if n = 1 then .error .zero
    else crossPairs (crossings n k d eps f) k d eps (sampleParams n t0 t1)

/-- What is known about a parameter found: the curvature is the inverse of the distance, or almost, or crosses it very close to it. -/
def Crossing (κ : ℝ → ℝ) (d eps x : ℝ) : Prop :=
  κ x * d = 1 ∨ (κ x ≠ 0 ∧ |1 / κ x - d| < eps) ∨ ∃ b e, b ≤ x ∧ x ≤ e ∧ e - b < 1 / 10 ^ 14 ∧ (κ b * d - 1) * (κ e * d - 1) < 0

theorem interpolated_mem {b e fb fe : ℝ} (hbe : b ≤ e) (h : fb * fe < 0) : b ≤ interpolated b e fb fe ∧ interpolated b e fb fe ≤ e := by
  have h1 : 0 < |fb| := abs_pos.mpr (by rintro rfl; simp at h)
  have h2 : 0 < |fe| := abs_pos.mpr (by rintro rfl; simp at h)
  rw [interpolated, le_div_iff₀ (by positivity), div_le_iff₀ (by positivity)]
  constructor <;> nlinarith

/-- **C127.**  The weights of the interpolation are exchanged (`deformer.py:1279-1281`): if the curvature changes linearly, the parameter found is the mirror image of the right one. -/
theorem interpolation_mirrored (b e fb fe x : ℝ) (hbe : b < e) (h : fb * fe < 0) (hx : fb + (fe - fb) * ((x - b) / (e - b)) = 0) :
    interpolated b e fb fe = b + e - x := by
  have hd : e - b ≠ 0 := by linarith
  have hx' : fb * (e - x) + fe * (x - b) = 0 := by
    field_simp at hx
    linear_combination hx
  rw [interpolated]
  rcases mul_neg_iff.mp h with ⟨h1, h2⟩ | ⟨h1, h2⟩
  · rw [abs_of_pos h1, abs_of_neg h2, div_eq_iff (by linarith)]
    linear_combination -hx'
  · rw [abs_of_neg h1, abs_of_pos h2, div_eq_iff (by linarith)]
    linear_combination hx'

theorem crossPair_sound (rec : ℝ → ℝ → Except Bad (List ℝ)) (k : ℝ → Except Bad ℝ) (κ : ℝ → ℝ) (hk : ∀ t, 0 ≤ t → t ≤ 1 → k t = .ok (κ t)) (d eps b e : ℝ) (hb0 : 0 ≤ b) (hbe : b ≤ e) (he1 : e ≤ 1)
    (hrec : ∀ r, rec b e = .ok r → ∀ x ∈ r, b ≤ x ∧ x ≤ e ∧ Crossing κ d eps x) (r : List ℝ) (h : crossPair rec k d eps b e = .ok r) :
    ∀ x ∈ r, b ≤ x ∧ x ≤ e ∧ Crossing κ d eps x := by
  rw [crossPair, hk b hb0 (hbe.trans he1), hk e (hb0.trans hbe) he1] at h
  simp only [Except.bind] at h
  split_ifs at h with h1
  · obtain ⟨m1, m2⟩ := interpolated_mem hbe h1
    rw [hk _ (hb0.trans m1) (m2.trans he1)] at h
    generalize interpolated b e (κ b * d - 1) (κ e * d - 1) = m at *
    unfold crossMiddle at h
    simp only at h
    split_ifs at h with q1 q2
    · cases h
      intro x hx
      rw [List.mem_singleton] at hx
      subst hx
      refine ⟨m1, m2, ?_⟩
      rcases q2 with q2 | q2
      · exact Or.inr (Or.inl ⟨q1, q2⟩)
      · exact Or.inr (Or.inr ⟨b, e, m1, m2, q2, h1⟩)
    · exact hrec r h
  all_goals
    cases h
    intro x hx
    simp only [List.append_nil, List.nil_append, List.cons_append, List.mem_cons, List.not_mem_nil, or_false] at hx
  · rcases hx with rfl | rfl
    · exact ⟨le_refl _, hbe, Or.inl (by linarith)⟩
    · exact ⟨hbe, le_refl _, Or.inl (by linarith)⟩
  · subst hx; exact ⟨le_refl _, hbe, Or.inl (by linarith)⟩
  · subst hx; exact ⟨hbe, le_refl _, Or.inl (by linarith)⟩

theorem crossPairs_sound (rec : ℝ → ℝ → Except Bad (List ℝ)) (k : ℝ → Except Bad ℝ) (κ : ℝ → ℝ) (hk : ∀ t, 0 ≤ t → t ≤ 1 → k t = .ok (κ t)) (d eps : ℝ) (lo hi : ℝ) (hlo : 0 ≤ lo) (hhi : hi ≤ 1)
    (hrec : ∀ b e r, 0 ≤ b → e ≤ 1 → rec b e = .ok r → ∀ x ∈ r, b ≤ x ∧ x ≤ e ∧ Crossing κ d eps x) :
    ∀ (ps : List ℝ), ps.Pairwise (· ≤ ·) → (∀ x ∈ ps, lo ≤ x ∧ x ≤ hi) → ∀ r, crossPairs rec k d eps ps = .ok r → ∀ x ∈ r, lo ≤ x ∧ x ≤ hi ∧ Crossing κ d eps x
  | [], _, _, r, h, x, hx => by rw [crossPairs] at h; cases h; cases hx; simp
  | [b], _, _, r, h, x, hx => by rw [crossPairs] at h; cases h; cases hx; simp
  | b :: e :: ps, hp, hb, r, h, x, hx => by
    rw [crossPairs] at h
    cases h1 : crossPair rec k d eps b e with
    | error _ => rw [h1] at h; cases h
    | ok l =>
    cases h2 : crossPairs rec k d eps (e :: ps) with
    | error _ => rw [h1, h2] at h; cases h
    | ok l' =>
    rw [h1, h2] at h
    cases h
    rcases List.mem_append.mp hx with hx | hx
    · obtain ⟨a1, a2, a3⟩ := crossPair_sound rec k κ hk d eps b e (hlo.trans (hb b (by simp)).1) ((List.pairwise_cons.mp hp).1 e (by simp)) ((hb e (by simp)).2.trans hhi)
        (fun r => hrec b e r (hlo.trans (hb b (by simp)).1) ((hb e (by simp)).2.trans hhi)) l h1 x hx
      exact ⟨(hb b (by simp)).1.trans a1, a2.trans (hb e (by simp)).2, a3⟩
    · exact crossPairs_sound rec k κ hk d eps lo hi hlo hhi hrec (e :: ps) (List.pairwise_cons.mp hp).2 (fun y hy => hb y (List.mem_cons_of_mem _ hy)) l' h2 x hx

theorem sampleParams_sorted (n : ℕ) (t0 t1 : ℝ) (h : t0 ≤ t1) (hn : n ≠ 1) : (sampleParams n t0 t1).Pairwise (· ≤ ·) := by
  rcases Nat.lt_or_ge n 2 with h2 | h2
  · have : n = 0 := by omega
    subst this
    simp [sampleParams]
  · rw [sampleParams, List.pairwise_map]
    refine List.pairwise_lt_range.imp ?_
    intro i j hij
    have : (2 : ℝ) ≤ n := by exact_mod_cast h2
    have hij' : (i : ℝ) ≤ j := by exact_mod_cast hij.le
    have : 0 < (n : ℝ) - 1 := by linarith
    gcongr

theorem sampleParams_bounds (n : ℕ) (t0 t1 : ℝ) (h : t0 ≤ t1) (hn : n ≠ 1) : ∀ x ∈ sampleParams n t0 t1, t0 ≤ x ∧ x ≤ t1 := by
  intro x hx
  obtain ⟨i, hi, rfl⟩ := List.mem_map.mp hx
  rw [List.mem_range] at hi
  have h2 : 2 ≤ n := by omega
  have h2' : (2 : ℝ) ≤ n := by exact_mod_cast h2
  have hi' : (i : ℝ) ≤ n - 1 := by
    have : (i : ℝ) + 1 ≤ n := by exact_mod_cast hi
    linarith
  have hpos : 0 < (n : ℝ) - 1 := by linarith
  have hi0 : (0 : ℝ) ≤ i := Nat.cast_nonneg i
  constructor
  · have : 0 ≤ (i : ℝ) * (t1 - t0) / ((n : ℝ) - 1) := by
      apply div_nonneg (mul_nonneg hi0 (by linarith)) hpos.le
    linarith
  · have : (i : ℝ) * (t1 - t0) / ((n : ℝ) - 1) ≤ t1 - t0 := by
      rw [div_le_iff₀ hpos]
      nlinarith
    linarith

/-- **C127.**  The parameters found are crossings. -/
theorem crossings_sound (n : ℕ) (k : ℝ → Except Bad ℝ) (κ : ℝ → ℝ) (hk : ∀ t, 0 ≤ t → t ≤ 1 → k t = .ok (κ t)) (d eps : ℝ) :
    ∀ f t0 t1 r, 0 ≤ t0 → t1 ≤ 1 → crossings n k d eps f t0 t1 = .ok r → ∀ x ∈ r, t0 ≤ x ∧ x ≤ t1 ∧ Crossing κ d eps x := by
  intro f
  induction f with
  | zero => intro t0 t1 r _ _ h; rw [crossings] at h; cases h
  | succ f ih =>
    intro t0 t1 r ht0 ht1 h
    rw [crossings] at h
    split_ifs at h with h1 h2
    exact crossPairs_sound _ k κ hk d eps t0 t1 ht0 ht1 ih _ (sampleParams_sorted n t0 t1 h1.le h2) (sampleParams_bounds n t0 t1 h1.le h2) r h

theorem crossPair_found (rec : ℝ → ℝ → Except Bad (List ℝ)) (k : ℝ → Except Bad ℝ) (κ : ℝ → ℝ) (hk : ∀ t, 0 ≤ t → t ≤ 1 → k t = .ok (κ t)) (d eps b e : ℝ) (hb0 : 0 ≤ b) (hbe : b ≤ e) (he1 : e ≤ 1)
    (hrec : ∀ r, rec b e = .ok r → (κ b * d - 1) * (κ e * d - 1) ≤ 0 → ∃ x ∈ r, b ≤ x ∧ x ≤ e) (hs : (κ b * d - 1) * (κ e * d - 1) ≤ 0)
    (r : List ℝ) (h : crossPair rec k d eps b e = .ok r) : ∃ x ∈ r, b ≤ x ∧ x ≤ e := by
  rw [crossPair, hk b hb0 (hbe.trans he1), hk e (hb0.trans hbe) he1] at h
  simp only [Except.bind] at h
  by_cases h1 : (κ b * d - 1) * (κ e * d - 1) < 0
  · rw [if_pos h1] at h
    obtain ⟨m1, m2⟩ := interpolated_mem hbe h1
    rw [hk _ (hb0.trans m1) (m2.trans he1)] at h
    generalize interpolated b e (κ b * d - 1) (κ e * d - 1) = m at *
    unfold crossMiddle at h
    simp only at h
    split_ifs at h with q1 q2
    · cases h
      exact ⟨m, by simp, m1, m2⟩
    · exact hrec r h hs
  · rw [if_neg h1] at h
    have h0 : (κ b * d - 1) * (κ e * d - 1) = 0 := le_antisymm hs (not_lt.mp h1)
    cases h
    rcases mul_eq_zero.mp h0 with h0 | h0
    · exact ⟨b, by simp [h0], le_refl _, hbe⟩
    · exact ⟨e, by simp [h0], hbe, le_refl _⟩

theorem crossPairs_found (rec : ℝ → ℝ → Except Bad (List ℝ)) (k : ℝ → Except Bad ℝ) (κ : ℝ → ℝ) (hk : ∀ t, 0 ≤ t → t ≤ 1 → k t = .ok (κ t)) (d eps : ℝ)
    (hrec : ∀ b e r, 0 ≤ b → e ≤ 1 → rec b e = .ok r → (κ b * d - 1) * (κ e * d - 1) ≤ 0 → ∃ x ∈ r, b ≤ x ∧ x ≤ e) :
    ∀ (ps : List ℝ), ps.Pairwise (· ≤ ·) → (∀ x ∈ ps, 0 ≤ x ∧ x ≤ 1) → ∀ r, crossPairs rec k d eps ps = .ok r → ∀ i (hi : i + 1 < ps.length),
      (κ ps[i] * d - 1) * (κ ps[i + 1] * d - 1) ≤ 0 → ∃ x ∈ r, ps[i] ≤ x ∧ x ≤ ps[i + 1]
  | [], _, _, _, _, i, hi, _ => by simp at hi
  | [b], _, _, _, _, i, hi, _ => by simp at hi
  | b :: e :: ps, hp, hb, r, h, i, hi, hs => by
    rw [crossPairs] at h
    cases h1 : crossPair rec k d eps b e with
    | error _ => rw [h1] at h; cases h
    | ok l =>
    cases h2 : crossPairs rec k d eps (e :: ps) with
    | error _ => rw [h1, h2] at h; cases h
    | ok l' =>
    rw [h1, h2] at h
    cases h
    cases i with
    | zero =>
      obtain ⟨x, hx, q⟩ := crossPair_found rec k κ hk d eps b e (hb b (by simp)).1 ((List.pairwise_cons.mp hp).1 e (by simp)) (hb e (by simp)).2
        (fun r => hrec b e r (hb b (by simp)).1 (hb e (by simp)).2) hs l h1
      exact ⟨x, List.mem_append_left _ hx, q⟩
    | succ i =>
      obtain ⟨x, hx, q⟩ := crossPairs_found rec k κ hk d eps hrec (e :: ps) (List.pairwise_cons.mp hp).2 (fun y hy => hb y (List.mem_cons_of_mem _ hy)) l' h2 i (by simpa using hi) hs
      exact ⟨x, List.mem_append_right _ hx, q⟩

/-- Signs at the ends of a list differ: so they do for neighbours. -/
theorem sign_change (g : ℝ → ℝ) : ∀ (n : ℕ) (p : ℕ → ℝ), g (p 0) * g (p (n + 1)) ≤ 0 → ∃ i ≤ n, g (p i) * g (p (i + 1)) ≤ 0 := by
  intro n
  induction n with
  | zero => intro p h; exact ⟨0, le_refl _, h⟩
  | succ n ih =>
    intro p h
    by_cases h1 : g (p 0) * g (p 1) ≤ 0
    · exact ⟨0, Nat.zero_le _, h1⟩
    · have : g (p 1) * g (p (n + 1 + 1)) ≤ 0 := by
        rw [not_le] at h1
        rcases pos_and_pos_or_neg_and_neg_of_mul_pos h1 with ⟨a, b⟩ | ⟨a, b⟩
        · have := nonpos_of_mul_nonpos_right h a
          exact mul_nonpos_of_nonneg_of_nonpos b.le this
        · have : 0 ≤ g (p (n + 1 + 1)) := by
            by_contra hc
            exact absurd h (not_le.mpr (mul_pos_of_neg_of_neg a (not_le.mp hc)))
          exact mul_nonpos_of_nonpos_of_nonneg b.le this
      obtain ⟨i, hi, q⟩ := ih (fun i => p (i + 1)) this
      exact ⟨i + 1, by omega, q⟩

theorem sampleParams_get (n : ℕ) (t0 t1 : ℝ) (i : ℕ) (hi : i < (sampleParams n t0 t1).length) :
    (sampleParams n t0 t1)[i] = t0 + (i : ℝ) * (t1 - t0) / ((n : ℝ) - 1) := by
  simp [sampleParams]

/-- **C127.**  If the curvature is on different sides of the inverse of the distance at two neighbouring parameters looked at, a crossing between them is found; the same if it
is on different sides at the ends of the interval. -/
theorem crossings_found (n : ℕ) (hn : 2 ≤ n) (k : ℝ → Except Bad ℝ) (κ : ℝ → ℝ) (hk : ∀ t, 0 ≤ t → t ≤ 1 → k t = .ok (κ t)) (d eps : ℝ) :
    ∀ f t0 t1 r, 0 ≤ t0 → t1 ≤ 1 → crossings n k d eps f t0 t1 = .ok r →
      (∀ i, i + 1 < n → (κ (t0 + (i : ℝ) * (t1 - t0) / ((n : ℝ) - 1)) * d - 1) * (κ (t0 + ((i + 1 : ℕ) : ℝ) * (t1 - t0) / ((n : ℝ) - 1)) * d - 1) ≤ 0 →
        ∃ x ∈ r, t0 + (i : ℝ) * (t1 - t0) / ((n : ℝ) - 1) ≤ x ∧ x ≤ t0 + ((i + 1 : ℕ) : ℝ) * (t1 - t0) / ((n : ℝ) - 1)) ∧
      ((κ t0 * d - 1) * (κ t1 * d - 1) ≤ 0 → ∃ x ∈ r, t0 ≤ x ∧ x ≤ t1) := by
  intro f
  induction f with
  | zero => intro t0 t1 r _ _ h; rw [crossings] at h; cases h
  | succ f ih =>
    intro t0 t1 r ht0 ht1 h
    rw [crossings] at h
    split_ifs at h with h1 h2
    have hall : ∀ i, i + 1 < n → (κ (t0 + (i : ℝ) * (t1 - t0) / ((n : ℝ) - 1)) * d - 1) * (κ (t0 + ((i + 1 : ℕ) : ℝ) * (t1 - t0) / ((n : ℝ) - 1)) * d - 1) ≤ 0 →
        ∃ x ∈ r, t0 + (i : ℝ) * (t1 - t0) / ((n : ℝ) - 1) ≤ x ∧ x ≤ t0 + ((i + 1 : ℕ) : ℝ) * (t1 - t0) / ((n : ℝ) - 1) := by
      intro i hi hs
      have hl : i + 1 < (sampleParams n t0 t1).length := by simpa [sampleParams] using hi
      have := crossPairs_found _ k κ hk d eps (fun b e r q0 q1 hr => (ih b e r q0 q1 hr).2) _ (sampleParams_sorted n t0 t1 h1.le h2)
        (fun y hy => ⟨ht0.trans (sampleParams_bounds n t0 t1 h1.le h2 y hy).1, (sampleParams_bounds n t0 t1 h1.le h2 y hy).2.trans ht1⟩) r h i hl
      rw [sampleParams_get, sampleParams_get] at this
      exact this hs
    refine ⟨hall, fun hs => ?_⟩
    obtain ⟨m, rfl⟩ : ∃ m, n = m + 2 := ⟨n - 2, by omega⟩
    have hm : ((m + 2 : ℕ) : ℝ) - 1 = ((m + 1 : ℕ) : ℝ) := by push_cast; ring
    have hm0 : ((m + 1 : ℕ) : ℝ) ≠ 0 := by positivity
    obtain ⟨i, hi, q⟩ := sign_change (fun t => κ t * d - 1) m (fun i => t0 + (i : ℝ) * (t1 - t0) / (((m + 2 : ℕ) : ℝ) - 1)) (by
      simp only [Nat.cast_zero, zero_mul, zero_div, add_zero]
      rw [hm, mul_div_assoc, mul_div_cancel₀ _ hm0]
      simpa using hs)
    obtain ⟨x, hx, -⟩ := hall i (by omega) q
    exact ⟨x, hx, (crossings_sound (m + 2) k κ hk d eps (f + 1) t0 t1 r ht0 ht1 (by rw [crossings, if_neg (not_not.mpr h1), if_neg h2]; exact h) x hx).imp_right And.left⟩

theorem crossPairs_ends (rec : ℝ → ℝ → Except Bad (List ℝ)) (k : ℝ → Except Bad ℝ) (κ : ℝ → ℝ) (hk : ∀ t, 0 ≤ t → t ≤ 1 → k t = .ok (κ t)) (d eps w : ℝ)
    (hrec : ∀ b e, 0 ≤ b → e ≤ 1 → e - b = w → 1 / 10 ^ 14 ≤ w → rec b e ≠ .error .length) (hw0 : 0 ≤ w) :
    ∀ (ps : List ℝ), (∀ x ∈ ps, 0 ≤ x ∧ x ≤ 1) → (∀ i (hi : i + 1 < ps.length), ps[i + 1] - ps[i] = w) → crossPairs rec k d eps ps ≠ .error .length
  | [], _, _ => by rw [crossPairs] <;> simp
  | [b], _, _ => by rw [crossPairs] <;> simp
  | b :: e :: ps, hb, hw => by
    have hbe := hw 0 (by simp)
    simp only [zero_add, List.getElem_cons_succ, List.getElem_cons_zero] at hbe
    have hb0 := (hb b (by simp)).1
    have he1 := (hb e (by simp)).2
    rw [crossPairs]
    have h1 : crossPair rec k d eps b e ≠ .error .length := by
      rw [crossPair, hk b hb0 (by linarith), hk e (by linarith) he1]
      simp only [Except.bind]
      split_ifs with h
      · obtain ⟨m1, m2⟩ := interpolated_mem (b := b) (e := e) (by linarith) h
        rw [hk _ (hb0.trans m1) (m2.trans he1)]
        unfold crossMiddle
        simp only
        split_ifs with q1 q2
        · simp
        · simp
        · push Not at q2
          exact hrec b e hb0 he1 hbe (hbe ▸ q2.2)
      all_goals simp
    have h2 := crossPairs_ends rec k κ hk d eps w hrec hw0 (e :: ps) (fun y hy => hb y (List.mem_cons_of_mem _ hy)) (fun i hi => hw (i + 1) (by simpa using hi))
    cases g1 : crossPair rec k d eps b e with
    | error x => intro h; simp only [Except.bind] at h; exact h1 (g1.trans h)
    | ok l =>
    cases g2 : crossPairs rec k d eps (e :: ps) with
    | error x => intro h; simp only [Except.bind, Except.map] at h; exact h2 (g2.trans (by cases h; rfl))
    | ok l' => simp [Except.bind, Except.map]

/-- **C127.**  With at least three parameters looked at, the search ends: the recursion is no deeper than it takes the intervals to get shorter than 1e-14. -/
theorem crossings_ends (n : ℕ) (hn : 3 ≤ n) (k : ℝ → Except Bad ℝ) (κ : ℝ → ℝ) (hk : ∀ t, 0 ≤ t → t ≤ 1 → k t = .ok (κ t)) (d eps : ℝ) :
    ∀ f t0 t1, 0 ≤ t0 → t1 ≤ 1 → t0 < t1 → t1 - t0 < 1 / 10 ^ 14 * ((n : ℝ) - 1) ^ (f + 1) → crossings n k d eps (f + 1) t0 t1 ≠ .error .length := by
  have h3 : (3 : ℝ) ≤ n := by exact_mod_cast hn
  have hpos : 0 < (n : ℝ) - 1 := by linarith
  intro f
  induction f with
  | zero =>
    intro t0 t1 ht0 ht1 ht hw
    rw [crossings, if_neg (not_not.mpr ht), if_neg (by omega)]
    refine crossPairs_ends _ k κ hk d eps ((t1 - t0) / ((n : ℝ) - 1)) ?_ (div_nonneg (by linarith) hpos.le) _
      (fun y hy => ⟨ht0.trans (sampleParams_bounds n t0 t1 ht.le (by omega) y hy).1, (sampleParams_bounds n t0 t1 ht.le (by omega) y hy).2.trans ht1⟩) ?_
    · intro b e _ _ _ hw'
      exfalso
      rw [le_div_iff₀ hpos] at hw'
      rw [zero_add, pow_one] at hw
      linarith
    · intro i hi
      rw [sampleParams_get, sampleParams_get]
      push_cast
      ring
  | succ f ih =>
    intro t0 t1 ht0 ht1 ht hw
    rw [crossings, if_neg (not_not.mpr ht), if_neg (by omega)]
    refine crossPairs_ends _ k κ hk d eps ((t1 - t0) / ((n : ℝ) - 1)) ?_ (div_nonneg (by linarith) hpos.le) _
      (fun y hy => ⟨ht0.trans (sampleParams_bounds n t0 t1 ht.le (by omega) y hy).1, (sampleParams_bounds n t0 t1 ht.le (by omega) y hy).2.trans ht1⟩) ?_
    · intro b e hb0 he1 hbe hw'
      refine ih b e hb0 he1 ?_ ?_
      · have : (0 : ℝ) < 1 / 10 ^ 14 := by positivity
        linarith
      · rw [hbe, div_lt_iff₀ hpos]
        calc t1 - t0 < 1 / 10 ^ 14 * ((n : ℝ) - 1) ^ (f + 1 + 1) := hw
          _ = _ := by ring
    · intro i hi
      rw [sampleParams_get, sampleParams_get]
      push_cast
      ring

/-- For the parameters of a curve, 48 levels of recursion are always enough. -/
theorem crossings_end (n : ℕ) (hn : 3 ≤ n) (k : ℝ → Except Bad ℝ) (κ : ℝ → ℝ) (hk : ∀ t, 0 ≤ t → t ≤ 1 → k t = .ok (κ t)) (d eps : ℝ) : crossings n k d eps 48 0 1 ≠ .error .length := by
  refine crossings_ends n hn k κ hk d eps 47 0 1 le_rfl le_rfl one_pos ?_
  have h3 : (3 : ℝ) ≤ n := by exact_mod_cast hn
  have : (2 : ℝ) ^ 48 ≤ ((n : ℝ) - 1) ^ 48 := pow_le_pow_left₀ (by norm_num) (by linarith) 48
  calc (1 : ℝ) - 0 < 1 / 10 ^ 14 * 2 ^ 48 := by norm_num
    _ ≤ _ := by gcongr

/-- **C127.**  With two parameters, the search never ends if the first interpolation does not find the crossing: it is called for the same interval again. -/
theorem two_endless (k : ℝ → Except Bad ℝ) (κ : ℝ → ℝ) (hk : ∀ t, 0 ≤ t → t ≤ 1 → k t = .ok (κ t)) (d eps t0 t1 : ℝ) (h00 : 0 ≤ t0) (h11 : t1 ≤ 1) (ht : 1 / 10 ^ 14 ≤ t1 - t0)
    (hs : (κ t0 * d - 1) * (κ t1 * d - 1) < 0) (h0 : κ (interpolated t0 t1 (κ t0 * d - 1) (κ t1 * d - 1)) ≠ 0)
    (hm : eps ≤ |1 / κ (interpolated t0 t1 (κ t0 * d - 1) (κ t1 * d - 1)) - d|) : ∀ f, crossings 2 k d eps f t0 t1 = .error .length := by
  have ht' : t0 < t1 := by
    have : (0 : ℝ) < 1 / 10 ^ 14 := by positivity
    linarith
  have hp : sampleParams 2 t0 t1 = [t0, t1] := by
    simp [sampleParams, List.range_succ]
    ring
  intro f
  induction f with
  | zero => rw [crossings]
  | succ f ih =>
    rw [crossings, if_neg (not_not.mpr ht'), if_neg (by norm_num), hp, crossPairs, crossPair, hk t0 h00 (by linarith), hk t1 (by linarith) h11]
    obtain ⟨m1, m2⟩ := interpolated_mem ht'.le hs
    simp only [Except.bind]
    rw [if_pos hs, hk _ (h00.trans m1) (m2.trans h11)]
    simp only
    rw [crossMiddle, if_neg h0, if_neg (by push Not; exact ⟨hm, ht⟩), ih]

/-! ## Curves with crossings -/

/-- The parallel is not turned over (`deformer.py:1076, 1097`). -/
def goodCurv (d k : ℝ) : Prop := d * k < 0 ∨ |d * k| < 1

/-- The parallels of the pieces, and whether they are joined at their ends. -/
abbrev Pieces := List (List (Item ℝ)) × Bool × Bool

open Classical in
/-- One piece of the loop (`deformer.py:1077-1087`). -/
def addPiece (i len : ℕ) (l : List (Item ℝ)) (r : Pieces) : Pieces :=
  (if l.isEmpty then r.1 else l :: r.1, (i == 0) || r.2.1, (!(i == 0) && i == len - 2) || r.2.2)

open Classical in
/-- The loop over the crossings (`deformer.py:1070-1087`); `len` is their number. -/
def pieces (roots : List ℝ → List ℝ) (cut : Cuts) (p : NSet) (c : Curve ℝ) (f len : ℕ) : ℕ → List (ℝ × Option Curv) → Except Bad Pieces
  | i, a :: b :: r =>
    (curvatureAt (.curve c) (1 / 2 * (a.1 + b.1))).bind fun k =>
      if goodCurv p.dist k then
        (nice roots cut p (c.segment a.1 b.1) f 0 1 a.2 b.2).bind fun l => (pieces roots cut p c f len (i + 1) (b :: r)).map (addPiece i len l)
      else pieces roots cut p c f len (i + 1) (b :: r)
  | _, _ => .ok ([], false, false)

/-- `_length_pt` (`deformer.py:807-809`). -/
def lengthPt (c : Curve ℝ) (s t : ℝ) : ℝ := hypot ((c.at_ s).1 - (c.at_ t).1) ((c.at_ s).2 - (c.at_ t).2)

open Classical in
/-- The ends of the curve are added to the crossings (`deformer.py:1055-1068`). -/
def withEnds (eps : ℝ) (c : Curve ℝ) (xs : List ℝ) : List (ℝ × Option Curv) :=
  (if lengthPt c (xs.headD 0) 0 > eps then [(0, none)] else []) ++ xs.map (fun x => (x, some Curv.inf)) ++
    (if lengthPt c (xs.getLastD 0) 1 > eps then [(1, none)] else [])

/-- The end of the loop (`deformer.py:1088-1090`). -/
def piecesResult (r : Pieces) : Pieces := if r.1.isEmpty then ([], true, true) else r

open Classical in
/-- A curve without crossings (`deformer.py:1092-1104`). -/
def wholeCurve (roots : List ℝ → List ℝ) (cut : Cuts) (p : NSet) (c : Curve ℝ) (f : ℕ) : Except Bad Pieces :=
  (curvatureAt (.curve c) (1 / 2)).bind fun k =>
    if goodCurv p.dist k then (nice roots cut p c f 0 1 none none).map fun l => if l.isEmpty then ([], false, false) else ([l], true, true)
    else .ok ([], false, false)

/-- `deformsubpathitem` for curves (`deformer.py:1043-1104`); `n` is `lookforcurvatures`. -/
def curveItem (roots : List ℝ → List ℝ) (cut : Cuts) (p : NSet) (n : ℕ) (c : Curve ℝ) (f : ℕ) : Except Bad Pieces :=
  (crossings n (curvatureAt (.curve c)) p.dist p.eps f 0 1).bind fun xs =>
    if xs.isEmpty then wholeCurve roots cut p c f
    else
      let ts := withEnds p.eps c (xs.toFinset.sort (· ≤ ·))
      (pieces roots cut p c f ts.length 0 ts).map piecesResult

theorem curvatureAt_eq {c : Curve ℝ} {t : ℝ} (h : (Item.curve c).tangent t ≠ (0, 0)) : curvatureAt (.curve c) t = .ok (kappa c t) := by
  have e : c.dot t = c.tangent t := (xy_eq c t).2.2.1
  have hp : hypot (c.dot t).1 (c.dot t).2 ≠ 0 := by
    rw [e]
    exact (hypot_pos h).ne'
  rw [curvatureAt, kappa, Item.curvature]
  simp only [if_neg hp, Option.getD_some]

/-! ## Segments -/

theorem segment_at (c : Curve ℝ) (a b t : ℝ) : (c.segment a b).at_ t = c.at_ (a + (b - a) * t) := by
  have h := segment_traces c a b t
  rw [← at_eq_point, ← at_eq_point] at h
  rw [mul_comm]
  exact h

theorem segment_tangent (c : Curve ℝ) (a b t : ℝ) :
    (Item.curve (c.segment a b)).tangent t = ((b - a) * ((Item.curve c).tangent (a + (b - a) * t)).1, (b - a) * ((Item.curve c).tangent (a + (b - a) * t)).2) := by
  ext <;> simp only [Item.tangent, Curve.tangent, Curve.segment, Curve.segCoord] <;> ring

theorem segment_dir (c : Curve ℝ) (a b t : ℝ) (hab : a < b) : dirOf (.curve (c.segment a b)) t = dirOf (.curve c) (a + (b - a) * t) := by
  have hd : 0 < b - a := by linarith
  have hh : ∀ x y : ℝ, hypot ((b - a) * x) ((b - a) * y) = (b - a) * hypot x y := by
    intro x y
    rw [hypot, hypot, show ((b - a) * x) ^ 2 + ((b - a) * y) ^ 2 = (b - a) ^ 2 * (x ^ 2 + y ^ 2) by ring, Real.sqrt_mul (sq_nonneg _), Real.sqrt_sq hd.le]
  rw [dirOf, dirOf, segment_tangent, hh]
  ext <;> simp only <;> rw [mul_div_mul_left _ _ hd.ne']

theorem segment_parallel (d : ℝ) (c : Curve ℝ) (a b t : ℝ) (hab : a < b) : parallelPt d (c.segment a b) t = parallelPt d c (a + (b - a) * t) := by
  rw [parallelPt, parallelPt, segment_at, segment_dir c a b t hab]

/-- The parallel of a part of a curve follows the parallel of the curve. -/
theorem Follows.segment {p : NSet} {c : Curve ℝ} {a b : ℝ} (hab : a < b) {l : List (Item ℝ)} {s e : ℝ} (h : Follows p (c.segment a b) l s e) :
    Follows p c l (a + (b - a) * s) (a + (b - a) * e) := by
  induction h with
  | line s e =>
    rw [segment_parallel _ c a b s hab, segment_parallel _ c a b e hab]
    exact .line _ _
  | curve s e x y hx hy hc =>
    rw [segment_parallel _ c a b s hab, segment_parallel _ c a b e hab, segment_dir c a b s hab, segment_dir c a b e hab] at hc ⊢
    refine .curve _ _ x y hx hy fun t ht => ?_
    have := hc t ht
    rw [Checked, segment_at, segment_dir c a b _ hab] at this
    rw [Checked]
    rw [show a + (b - a) * s + (a + (b - a) * e - (a + (b - a) * s)) * t = a + (b - a) * (s + (e - s) * t) by ring]
    exact this
  | append _ _ h1 h2 => exact .append h1 h2

/-! ## The pieces -/

/-- A piece of the parallel: it follows the true parallel over an interval of parameters, in whose middle the parallel is not turned over. -/
def PieceOf (p : NSet) (c : Curve ℝ) (l : List (Item ℝ)) (iv : ℝ × ℝ) : Prop :=
  l ≠ [] ∧ 0 ≤ iv.1 ∧ iv.1 < iv.2 ∧ iv.2 ≤ 1 ∧ goodCurv p.dist (kappa c (1 / 2 * (iv.1 + iv.2))) ∧ Follows p c l iv.1 iv.2

theorem pieces_spec (roots : List ℝ → List ℝ) (cut : Cuts) (hcut : CutsSound cut) (p : NSet) (he : 0 < p.eps) (hch : ∀ t ∈ p.checks, 0 ≤ t ∧ t ≤ 1) (c : Curve ℝ)
    (hc : ∀ t, 0 ≤ t → t ≤ 1 → (Item.curve c).tangent t ≠ (0, 0)) (f len : ℕ) :
    ∀ (ts : List (ℝ × Option Curv)) (i : ℕ) (r : Pieces), (∀ a ∈ ts, 0 ≤ a.1 ∧ a.1 ≤ 1) → ts.Pairwise (fun a b => a.1 < b.1) →
      pieces roots cut p c f len i ts = .ok r →
      ∃ ivs, List.Forall₂ (PieceOf p c) r.1 ivs ∧ ivs.Pairwise (fun x y => x.2 ≤ y.1) ∧ ∀ iv ∈ ivs, (iv.1, iv.2) ∈ (ts.map Prod.fst).zip (ts.map Prod.fst).tail
  | [], i, r, _, _, h => by rw [pieces] at h <;> [(cases h; exact ⟨[], .nil, .nil, by simp⟩); simp]
  | [a], i, r, _, _, h => by rw [pieces] at h <;> [(cases h; exact ⟨[], .nil, .nil, by simp⟩); simp]
  | a :: b :: ts, i, r, hb, hp, h => by
    have ha := hb a (by simp)
    have hb' := hb b (by simp)
    have hab : a.1 < b.1 := (List.pairwise_cons.mp hp).1 b (by simp)
    have hbs : ∀ x ∈ b :: ts, 0 ≤ x.1 ∧ x.1 ≤ 1 := fun x hx => hb x (List.mem_cons_of_mem _ hx)
    have hps := (List.pairwise_cons.mp hp).2
    rw [pieces, curvatureAt_eq (hc _ (by linarith) (by linarith))] at h
    simp only [Except.bind] at h
    split_ifs at h with hg
    · cases h1 : nice roots cut p (c.segment a.1 b.1) f 0 1 a.2 b.2 with
      | error _ => rw [h1] at h; cases h
      | ok l =>
      cases h2 : pieces roots cut p c f len (i + 1) (b :: ts) with
      | error _ => rw [h1, h2] at h; cases h
      | ok r' =>
      rw [h1, h2] at h
      cases h
      obtain ⟨ivs, q1, q2, q3⟩ := pieces_spec roots cut hcut p he hch c hc f len (b :: ts) (i + 1) r' hbs hps h2
      by_cases hl : l = []
      · refine ⟨ivs, ?_, q2, fun iv hiv => ?_⟩
        · simpa [addPiece, hl] using q1
        · simp only [List.map_cons, List.tail_cons, List.zip_cons_cons, List.mem_cons]
          right
          simpa using q3 iv hiv
      · refine ⟨(a.1, b.1) :: ivs, ?_, List.pairwise_cons.mpr ⟨fun y hy => ?_, q2⟩, fun iv hiv => ?_⟩
        · have hf := nice_follows roots cut hcut p he hch (c.segment a.1 b.1) (fun t ht0 ht1 => by
            rw [segment_tangent]
            have hne := hc (a.1 + (b.1 - a.1) * t) (by nlinarith) (by nlinarith)
            intro hz
            have z1 := (Prod.mk.inj hz).1
            have z2 := (Prod.mk.inj hz).2
            have hd : b.1 - a.1 ≠ 0 := by linarith
            exact hne (Prod.ext ((mul_eq_zero.mp z1).resolve_left hd) ((mul_eq_zero.mp z2).resolve_left hd))) f 0 1 a.2 b.2 l le_rfl zero_le_one le_rfl h1 hl
          have hf' := hf.segment hab
          rw [mul_zero, add_zero, mul_one, add_sub_cancel] at hf'
          simp only [addPiece, List.isEmpty_iff, if_neg hl]
          exact .cons ⟨hl, ha.1, hab, hb'.2, hg, hf'⟩ q1
        · have := List.of_mem_zip (q3 y hy)
          obtain ⟨z, hz, e⟩ := List.mem_map.mp this.1
          rw [← e]
          rcases List.mem_cons.mp hz with rfl | hz
          · exact le_refl _
          · exact ((List.pairwise_cons.mp hps).1 z hz).le
        · simp only [List.map_cons, List.tail_cons, List.zip_cons_cons, List.mem_cons]
          rcases List.mem_cons.mp hiv with rfl | hiv
          · left; rfl
          · right
            simpa using q3 iv hiv
    · obtain ⟨ivs, q1, q2, q3⟩ := pieces_spec roots cut hcut p he hch c hc f len (b :: ts) (i + 1) r hbs hps h
      refine ⟨ivs, q1, q2, fun iv hiv => ?_⟩
      simp only [List.map_cons, List.tail_cons, List.zip_cons_cons, List.mem_cons]
      right
      simpa using q3 iv hiv

theorem withEnds_sorted (eps : ℝ) (he : 0 < eps) (c : Curve ℝ) (xs : List ℝ) (hx : xs ≠ []) (hb : ∀ x ∈ xs, 0 ≤ x ∧ x ≤ 1) (hs : xs.Pairwise (· < ·)) :
    (∀ a ∈ withEnds eps c xs, 0 ≤ a.1 ∧ a.1 ≤ 1) ∧ (withEnds eps c xs).Pairwise (fun a b => a.1 < b.1) := by
  have hself : ∀ t, lengthPt c t t = 0 := by intro t; simp [lengthPt, hypot]
  have hh : ∀ x ∈ xs, xs.headD 0 ≤ x := by
    cases xs with
    | nil => exact absurd rfl hx
    | cons y ys =>
      intro x hx'
      rcases List.mem_cons.mp hx' with rfl | h
      · exact le_refl _
      · exact ((List.pairwise_cons.mp hs).1 x h).le
  have hl : ∀ x ∈ xs, x ≤ xs.getLastD 0 := by
    obtain ⟨ys, y, rfl⟩ : ∃ ys y, xs = ys ++ [y] := ⟨xs.dropLast, xs.getLast hx, (List.dropLast_append_getLast hx).symm⟩
    intro x hx'
    rw [List.getLastD_eq_getLast?, List.getLast?_append]
    simp only [List.getLast?_singleton, Option.some_or, Option.getD_some]
    rcases List.mem_append.mp hx' with h | h
    · exact ((List.pairwise_append.mp hs).2.2 x h y (by simp)).le
    · rw [List.mem_singleton] at h; exact h.le
  have hhm : xs.headD 0 ∈ xs := by
    cases xs with
    | nil => exact absurd rfl hx
    | cons y ys => simp
  have hlm : xs.getLastD 0 ∈ xs := by
    rw [List.getLastD_eq_getLast?, List.getLast?_eq_some_getLast hx]
    exact List.getLast_mem hx
  constructor
  · intro a ha
    rw [withEnds, List.mem_append, List.mem_append] at ha
    rcases ha with (ha | ha) | ha
    · split_ifs at ha
      · rw [List.mem_singleton] at ha; subst ha; norm_num
      · cases ha
    · obtain ⟨x, hx, rfl⟩ := List.mem_map.mp ha
      exact hb x hx
    · split_ifs at ha
      · rw [List.mem_singleton] at ha; subst ha; norm_num
      · cases ha
  · rw [withEnds, List.pairwise_append, List.pairwise_append]
    have h0 : lengthPt c (xs.headD 0) 0 > eps → 0 < xs.headD 0 := by
      intro h
      rcases (hb _ hhm).1.eq_or_lt with e | e
      · rw [← e, hself] at h; linarith
      · exact e
    have h1 : lengthPt c (xs.getLastD 0) 1 > eps → xs.getLastD 0 < 1 := by
      intro h
      rcases (hb _ hlm).2.eq_or_lt with e | e
      · rw [e, hself] at h; linarith
      · exact e
    refine ⟨⟨by split_ifs <;> simp, List.pairwise_map.mpr hs, ?_⟩, by split_ifs <;> simp, ?_⟩
    · intro a ha b hb'
      obtain ⟨x, hx', rfl⟩ := List.mem_map.mp hb'
      split_ifs at ha with q
      · rw [List.mem_singleton] at ha; subst ha
        exact (h0 q).trans_le (hh x hx')
      · cases ha
    · intro a ha b hb'
      split_ifs at hb' with q
      · rw [List.mem_singleton] at hb'; subst hb'
        rcases List.mem_append.mp ha with ha | ha
        · split_ifs at ha
          · rw [List.mem_singleton] at ha; subst ha; norm_num
          · cases ha
        · obtain ⟨x, hx', rfl⟩ := List.mem_map.mp ha
          exact (hl x hx').trans_lt (h1 q)
      · cases hb'

/-- **C127.**  The parallel of a curve consists of pieces which follow the true parallel over separate intervals of parameters, in the order of the curve; in the middle of
each interval the true parallel is not turned over. -/
theorem curve_parallel (roots : List ℝ → List ℝ) (cut : Cuts) (hcut : CutsSound cut) (p : NSet) (he : 0 < p.eps) (hch : ∀ t ∈ p.checks, 0 ≤ t ∧ t ≤ 1) (n : ℕ) (c : Curve ℝ)
    (hc : ∀ t, 0 ≤ t → t ≤ 1 → (Item.curve c).tangent t ≠ (0, 0)) (f : ℕ) (r : Pieces) (h : curveItem roots cut p n c f = .ok r) :
    ∃ ivs, List.Forall₂ (PieceOf p c) r.1 ivs ∧ ivs.Pairwise (fun x y => x.2 ≤ y.1) := by
  rw [curveItem] at h
  cases hx : crossings n (curvatureAt (.curve c)) p.dist p.eps f 0 1 with
  | error _ => rw [hx] at h; cases h
  | ok xs =>
  rw [hx] at h
  simp only [Except.bind] at h
  split_ifs at h with hemp
  · rw [wholeCurve, curvatureAt_eq (hc _ (by norm_num) (by norm_num))] at h
    simp only [Except.bind] at h
    split_ifs at h with hg
    · cases h1 : nice roots cut p c f 0 1 none none with
      | error _ => rw [h1] at h; cases h
      | ok l =>
      rw [h1] at h
      simp only [Except.map, Except.ok.injEq] at h
      split_ifs at h with hl
      · subst h; exact ⟨[], .nil, .nil⟩
      · subst h
        have hl' : l ≠ [] := by simpa using hl
        refine ⟨[(0, 1)], .cons ⟨hl', le_rfl, zero_lt_one, le_rfl, by simpa using hg, ?_⟩ .nil, List.pairwise_singleton _ _⟩
        exact nice_follows roots cut hcut p he hch c hc f 0 1 none none l le_rfl zero_le_one le_rfl h1 hl'
    · cases h; exact ⟨[], .nil, .nil⟩
  · have hne : (xs.toFinset.sort (· ≤ ·)) ≠ [] := by
      intro e
      apply hemp
      have : xs.toFinset = ∅ := by
        rw [← List.toFinset_eq_empty_iff] at e
        simpa using e
      simpa using this
    have hcross := crossings_sound n (curvatureAt (.curve c)) (kappa c) (fun t h0 h1 => curvatureAt_eq (hc t h0 h1)) p.dist p.eps f 0 1 xs le_rfl le_rfl hx
    obtain ⟨hb, hs⟩ := withEnds_sorted p.eps he c _ hne (fun x hx' => by
      have := hcross x (by simpa using hx')
      exact ⟨this.1, this.2.1⟩) (Finset.sortedLT_sort _).pairwise
    cases h1 : pieces roots cut p c f (withEnds p.eps c (xs.toFinset.sort (· ≤ ·))).length 0 (withEnds p.eps c (xs.toFinset.sort (· ≤ ·))) with
    | error _ => rw [h1] at h; cases h
    | ok r' =>
    rw [h1] at h
    cases h
    obtain ⟨ivs, q1, q2, -⟩ := pieces_spec roots cut hcut p he hch c hc f _ _ 0 r' hb hs h1
    rw [piecesResult]
    split_ifs with hr
    · exact ⟨[], .nil, .nil⟩
    · exact ⟨ivs, q1, q2⟩

/-- **C127.**  No piece is forgotten: if the true parallel is not turned over in the middle between two neighbours of the list of crossings and ends, the parallel of this
piece is part of the result, unless it is empty. -/
theorem pieces_kept (roots : List ℝ → List ℝ) (cut : Cuts) (p : NSet) (c : Curve ℝ) (f len : ℕ) :
    ∀ (ts : List (ℝ × Option Curv)) (i : ℕ) (r : Pieces), pieces roots cut p c f len i ts = .ok r → ∀ pre a b post, ts = pre ++ a :: b :: post →
      ∀ k, curvatureAt (.curve c) (1 / 2 * (a.1 + b.1)) = .ok k → goodCurv p.dist k →
        ∃ l, nice roots cut p (c.segment a.1 b.1) f 0 1 a.2 b.2 = .ok l ∧ (l = [] ∨ l ∈ r.1)
  | [], _, _, _, pre, a, b, post, e, _, _, _ => by simp at e
  | [x], _, _, _, pre, a, b, post, e, _, _, _ => by
    have := congrArg List.length e
    simp at this
    omega
  | x :: y :: ts, i, r, h, pre, a, b, post, e, k, hk, hg => by
    rw [pieces] at h
    cases hk' : curvatureAt (.curve c) (1 / 2 * (x.1 + y.1)) with
    | error _ => rw [hk'] at h; cases h
    | ok k' =>
    rw [hk'] at h
    simp only [Except.bind] at h
    cases pre with
    | nil =>
      simp only [List.nil_append, List.cons.injEq] at e
      obtain ⟨rfl, rfl, rfl⟩ := e
      have : k' = k := by rw [hk] at hk'; cases hk'; rfl
      subst this
      rw [if_pos hg] at h
      cases h1 : nice roots cut p (c.segment x.1 y.1) f 0 1 x.2 y.2 with
      | error _ => rw [h1] at h; cases h
      | ok l =>
      cases h2 : pieces roots cut p c f len (i + 1) (y :: ts) with
      | error _ => rw [h1, h2] at h; cases h
      | ok r' =>
      rw [h1, h2] at h
      cases h
      refine ⟨l, rfl, ?_⟩
      by_cases hl : l = []
      · exact Or.inl hl
      · right
        simp [addPiece, hl]
    | cons z pre =>
      simp only [List.cons_append, List.cons.injEq] at e
      obtain ⟨rfl, e⟩ := e
      split_ifs at h with hg'
      · cases h1 : nice roots cut p (c.segment x.1 y.1) f 0 1 x.2 y.2 with
        | error _ => rw [h1] at h; cases h
        | ok l =>
        cases h2 : pieces roots cut p c f len (i + 1) (y :: ts) with
        | error _ => rw [h1, h2] at h; cases h
        | ok r' =>
        rw [h1, h2] at h
        cases h
        obtain ⟨l', q1, q2⟩ := pieces_kept roots cut p c f len (y :: ts) (i + 1) r' h2 pre a b post e k hk hg
        refine ⟨l', q1, q2.imp_right fun q => ?_⟩
        simp only [addPiece]
        split_ifs
        · exact q
        · exact List.mem_cons_of_mem _ q
      · exact pieces_kept roots cut p c f len (y :: ts) (i + 1) r h pre a b post e k hk hg

/-- **C127.**  A single piece between a crossing at one end and the other end of the curve is never joined at its end (`deformer.py:1077-1080`: `elif`), although it reaches the
end of the curve. -/
theorem single_piece_flags (roots : List ℝ → List ℝ) (cut : Cuts) (p : NSet) (c : Curve ℝ) (f : ℕ) (a b : ℝ × Option Curv) (r : Pieces)
    (h : pieces roots cut p c f 2 0 [a, b] = .ok r) (hr : r.1 ≠ []) : r.2 = (true, false) := by
  rw [pieces] at h
  cases hk : curvatureAt (.curve c) (1 / 2 * (a.1 + b.1)) with
  | error _ => rw [hk] at h; cases h
  | ok k =>
  rw [hk] at h
  simp only [Except.bind] at h
  have hp : pieces roots cut p c f 2 (0 + 1) [b] = .ok ([], false, false) := by rw [pieces]; simp
  rw [hp] at h
  split_ifs at h with hg
  · cases h1 : nice roots cut p (c.segment a.1 b.1) f 0 1 a.2 b.2 with
    | error _ => rw [h1] at h; cases h
    | ok l =>
    rw [h1] at h
    cases h
    simp [addPiece]
  · cases h
    exact absurd rfl hr

/-- A curve to the right which starts with the radius 5. -/
def exStart : Curve ℝ := ⟨0, 0, 1, 0, 13 / 6, -3 / 10, 7 / 2, -13 / 10⟩

theorem exStart_tangent (t : ℝ) : (Item.curve exStart).tangent t = (3 + t, -9 / 5 * t - 6 / 5 * t ^ 2) := by
  ext <;> simp only [Item.tangent, Curve.tangent, exStart] <;> ring

theorem exStart_regular (t : ℝ) : (Item.curve exStart).tangent t ≠ (0, 0) := by
  rw [exStart_tangent]
  intro h
  have h1 := (Prod.mk.inj h).1
  have h2 := (Prod.mk.inj h).2
  have : t = -3 := by linarith
  subst this
  norm_num at h2

theorem hypot_of {x y r : ℝ} (hr : 0 ≤ r) (h : x ^ 2 + y ^ 2 = r ^ 2) : hypot x y = r := by
  rw [hypot, h, Real.sqrt_sq hr]

theorem exStart_kappa : kappa exStart 0 = -1 / 5 ∧ kappa exStart (1 / 2) = -9300 / 50653 ∧ kappa exStart 1 = -69 / 625 := by
  refine ⟨?_, ?_, ?_⟩
  · rw [kappa_eq, show hypot (exStart.dot 0).1 (exStart.dot 0).2 = 3 from hypot_of (by norm_num) (by norm_num [exStart, Curve.dot])]
    norm_num [exStart, Curve.dot, Curve.ddot, wedge]
  · rw [kappa_eq, show hypot (exStart.dot (1 / 2)).1 (exStart.dot (1 / 2)).2 = 37 / 10 from hypot_of (by norm_num) (by norm_num [exStart, Curve.dot])]
    norm_num [exStart, Curve.dot, Curve.ddot, wedge]
  · rw [kappa_eq, show hypot (exStart.dot 1).1 (exStart.dot 1).2 = 5 from hypot_of (by norm_num) (by norm_num [exStart, Curve.dot])]
    norm_num [exStart, Curve.dot, Curve.ddot, wedge]

/-- The settings of the example: the distance 5 to the right, a path with the epsilon 1, and three parameters. -/
def exSet : NSet := ⟨-5, 1, 1 / 20, [], 1 / 10 ^ 5⟩

theorem exStart_dirs : dirOf (.curve exStart) 0 = (1, 0) ∧ dirOf (.curve exStart) 1 = (4 / 5, -3 / 5) := by
  constructor
  · rw [dirOf, exStart_tangent, hypot_of (r := 3) (by norm_num) (by norm_num)]
    norm_num
  · rw [dirOf, exStart_tangent, hypot_of (r := 5) (by norm_num) (by norm_num)]
    norm_num

theorem three_params : sampleParams 3 0 1 = [0, 1 / 2, 1] := by
  simp [sampleParams, List.range_succ]
  norm_num

theorem exStart_crossings (f : ℕ) : crossings 3 (curvatureAt (.curve exStart)) (-5) 1 (f + 1) 0 1 = .ok [0] := by
  obtain ⟨k0, k1, k2⟩ := exStart_kappa
  rw [crossings, if_neg (by norm_num), if_neg (by norm_num), three_params, crossPairs, crossPairs, crossPairs, crossPair, crossPair,
    curvatureAt_eq (exStart_regular _), curvatureAt_eq (exStart_regular _), curvatureAt_eq (exStart_regular _), k0, k1, k2]
  · simp only [Except.bind, Except.map]
    rw [if_neg (show ¬ ((-1 / 5 * -5 - 1 : ℝ) * (-9300 / 50653 * -5 - 1) < 0) by norm_num),
      if_neg (show ¬ ((-9300 / 50653 * -5 - 1 : ℝ) * (-69 / 625 * -5 - 1) < 0) by norm_num),
      if_pos (show (-1 / 5 * -5 - 1 : ℝ) = 0 by norm_num), if_neg (show ¬ ((-9300 / 50653 * -5 - 1 : ℝ) = 0) by norm_num),
      if_neg (show ¬ ((-69 / 625 * -5 - 1 : ℝ) = 0) by norm_num)]
    rfl
  · simp

theorem exStart_segment : exStart.segment 0 1 = exStart := by
  simp only [Curve.segment, Curve.segCoord, exStart, Curve.mk.injEq]
  norm_num

theorem exStart_parallel (roots : List ℝ → List ℝ) (cut : Cuts) (f : ℕ) (gA gD : Option Curv) :
    nice roots cut exSet exStart (f + 1) 0 1 gA gD = .ok [conn (0, -5) (1 / 2, -53 / 10)] := by
  obtain ⟨d0, d1⟩ := exStart_dirs
  have a0 : exStart.at_ 0 = (0, 0) := by simp [exStart, Curve.at_]
  have a1 : exStart.at_ 1 = (7 / 2, -13 / 10) := by norm_num [exStart, Curve.at_]
  have hA : movedPt exSet.dist (exStart.at_ 0) (1, 0) = (0, -5) := by rw [a0, movedPt, exSet]; norm_num
  have hD : movedPt exSet.dist (exStart.at_ 1) (4 / 5, -3 / 5) = (1 / 2, -53 / 10) := by rw [a1, movedPt, exSet]; norm_num
  rw [nice, direction_eq (exStart_regular 0), direction_eq (exStart_regular 1), d0, d1]
  simp only [Except.bind]
  rw [hA, hD]
  have hlen : hypot ((0 : ℝ) - 1 / 2) (-5 - -53 / 10) < exSet.eps := by
    rw [hypot, exSet, Real.sqrt_lt' (by norm_num)]
    norm_num
  have hlen' : hypot ((1 / 2 : ℝ) - 0) (-53 / 10 - -5) ≥ exSet.deps := by
    rw [hypot, exSet]
    apply Real.le_sqrt_of_sq_le
    norm_num
  rw [if_pos ⟨hlen, by norm_num [exSet]⟩, keepLine, if_pos hlen']

/-- **C127.**  The parallel of the curve reaches the end of the true parallel, and the curve is not turned over there, but it is not joined to what follows. -/
theorem end_not_joined (roots : List ℝ → List ℝ) (cut : Cuts) (f : ℕ) :
    curveItem roots cut exSet 3 exStart (f + 1) = .ok ([[conn (parallelPt (-5) exStart 0) (parallelPt (-5) exStart 1)]], true, false) ∧
    -5 * kappa exStart 1 < 1 := by
  obtain ⟨k0, k1, k2⟩ := exStart_kappa
  obtain ⟨d0, d1⟩ := exStart_dirs
  have a0 : exStart.at_ 0 = (0, 0) := by simp [exStart, Curve.at_]
  have a1 : exStart.at_ 1 = (7 / 2, -13 / 10) := by norm_num [exStart, Curve.at_]
  refine ⟨?_, by rw [k2]; norm_num⟩
  have hp0 : parallelPt (-5) exStart 0 = (0, -5) := by rw [parallelPt, d0, a0, off, leftOf]; norm_num
  have hp1 : parallelPt (-5) exStart 1 = (1 / 2, -53 / 10) := by rw [parallelPt, d1, a1, off, leftOf]; norm_num
  have hl0 : lengthPt exStart 0 0 = 0 := by simp [lengthPt, hypot]
  have hl1 : lengthPt exStart 0 1 > 1 := by
    rw [lengthPt, a0, a1, hypot]
    apply Real.lt_sqrt_of_sq_lt
    norm_num
  have hw : withEnds exSet.eps exStart [0] = [(0, some .inf), (1, none)] := by
    rw [withEnds]
    simp only [List.headD_cons, List.getLastD_cons, List.getLastD_nil, hl0]
    rw [if_neg (by norm_num [exSet]), if_pos (by simpa [exSet] using hl1)]
    rfl
  rw [curveItem, show exSet.dist = -5 from rfl, show exSet.eps = 1 from rfl, exStart_crossings f, hp0, hp1]
  simp only [Except.bind, List.isEmpty_cons, Bool.false_eq_true, if_false, List.toFinset_cons, List.toFinset_nil, insert_empty_eq, Finset.sort_singleton]
  rw [show (1 : ℝ) = exSet.eps from rfl, hw, pieces, curvatureAt_eq (exStart_regular _)]
  simp only [Except.bind]
  rw [show (1 / 2 * (0 + 1) : ℝ) = 1 / 2 by norm_num, k1, if_pos (by right; norm_num [exSet, abs_lt]), exStart_segment, exStart_parallel roots cut f, pieces]
  · simp only [Except.map, addPiece, piecesResult]
    norm_num [exSet]
  · simp

/-! ## A lost parallel -/

/-- A loop whose ends are three quarters of a turn apart. -/
def exLoop : Curve ℝ := ⟨3, 0, 83, 60, -83, 60, -3, 0⟩

theorem exLoop_tangent (t : ℝ) : (Item.curve exLoop).tangent t = (240 - 1476 * (t * (1 - t)), 180 * (1 - 2 * t)) := by
  ext <;> simp only [Item.tangent, Curve.tangent, exLoop] <;> ring

theorem exLoop_sq (t : ℝ) : 9 * 1044 ≤ (240 - 1476 * (t * (1 - t))) ^ 2 + (180 * (1 - 2 * t)) ^ 2 := by
  have : (240 - 1476 * (t * (1 - t))) ^ 2 + (180 * (1 - 2 * t)) ^ 2 = 9 * (10000 - 93120 * (t * (1 - t)) + 242064 * (t * (1 - t)) ^ 2) := by ring
  rw [this]
  generalize t * (1 - t) = u
  nlinarith [sq_nonneg (u - 0.19235)]

theorem exLoop_regular (t : ℝ) : (Item.curve exLoop).tangent t ≠ (0, 0) := by
  rw [exLoop_tangent]
  intro h
  have h1 := (Prod.mk.inj h).1
  have h2 := (Prod.mk.inj h).2
  have := exLoop_sq t
  rw [h1, h2] at this
  norm_num at this

/-- The curve turns to the left everywhere, with radii larger than 5. -/
theorem exLoop_kappa (t : ℝ) (h0 : 0 ≤ t) (h1 : t ≤ 1) : 0 < 5 * kappa exLoop t ∧ 5 * kappa exLoop t < 1 := by
  have e : exLoop.dot t = (240 - 1476 * (t * (1 - t)), 180 * (1 - 2 * t)) := by
    rw [(xy_eq exLoop t).2.2.1]; exact exLoop_tangent t
  have hw : wedge (exLoop.dot t) (exLoop.ddot t) = 18 * (9960 - 29520 * (t * (1 - t))) := by
    rw [wedge, e]
    simp only [exLoop, Curve.ddot]
    ring
  have hu0 : 0 ≤ t * (1 - t) := mul_nonneg h0 (by linarith)
  have hu1 : t * (1 - t) ≤ 1 / 4 := by nlinarith [sq_nonneg (t - 1 / 2)]
  have hq := exLoop_sq t
  have hq' : (240 - 1476 * (t * (1 - t))) ^ 2 + (180 * (1 - 2 * t)) ^ 2 = 9 * (10000 - 93120 * (t * (1 - t)) + 242064 * (t * (1 - t)) ^ 2) := by ring
  rw [kappa_eq, hw, e]
  simp only
  have hs : hypot (240 - 1476 * (t * (1 - t))) (180 * (1 - 2 * t)) ^ 2 = (240 - 1476 * (t * (1 - t))) ^ 2 + (180 * (1 - 2 * t)) ^ 2 := by
    rw [hypot, Real.sq_sqrt (by positivity)]
  have hp : 0 ≤ hypot (240 - 1476 * (t * (1 - t))) (180 * (1 - 2 * t)) := Real.sqrt_nonneg _
  rw [hq'] at hq hs
  generalize hypot (240 - 1476 * (t * (1 - t))) (180 * (1 - 2 * t)) = q at *
  generalize t * (1 - t) = u at *
  have hp' : 96 < q := by nlinarith
  have hp3 : 0 < q ^ 3 := by positivity
  constructor
  · apply mul_pos (by norm_num)
    apply div_pos _ hp3
    linarith
  · rw [← mul_div_assoc, div_lt_one hp3]
    have : 96 * q ^ 2 ≤ q ^ 3 := by nlinarith [sq_nonneg q]
    rw [hs] at this
    nlinarith [sq_nonneg (u - 0.19)]

theorem exLoop_dirs : dirOf (.curve exLoop) 0 = (4 / 5, 3 / 5) ∧ dirOf (.curve exLoop) 1 = (4 / 5, -3 / 5) := by
  constructor
  · rw [dirOf, exLoop_tangent, hypot_of (r := 300) (by norm_num) (by norm_num)]
    norm_num
  · rw [dirOf, exLoop_tangent, hypot_of (r := 300) (by norm_num) (by norm_num)]
    norm_num

theorem no_crossings (n : ℕ) (hn : n ≠ 1) (k : ℝ → Except Bad ℝ) (κ : ℝ → ℝ) (hk : ∀ t, 0 ≤ t → t ≤ 1 → k t = .ok (κ t)) (d eps : ℝ)
    (h : ∀ t, 0 ≤ t → t ≤ 1 → κ t * d < 1) (f : ℕ) : crossings n k d eps (f + 1) 0 1 = .ok [] := by
  rw [crossings, if_neg (by norm_num), if_neg hn]
  have : ∀ ps : List ℝ, (∀ x ∈ ps, 0 ≤ x ∧ x ≤ 1) → crossPairs (crossings n k d eps f) k d eps ps = .ok [] := by
    intro ps
    induction ps with
    | nil => intro _; rw [crossPairs]; simp
    | cons b ps ih =>
      intro hb
      cases ps with
      | nil => rw [crossPairs]; simp
      | cons e ps =>
        have h1 := hb b (by simp)
        have h2 := hb e (by simp)
        have q1 := h b h1.1 h1.2
        have q2 := h e h2.1 h2.2
        rw [crossPairs, ih (fun x hx => hb x (List.mem_cons_of_mem _ hx)), crossPair, hk b h1.1 h1.2, hk e h2.1 h2.2]
        simp only [Except.bind, Except.map]
        rw [if_neg (by nlinarith), if_neg (by linarith), if_neg (by linarith)]
        rfl
  exact this _ (sampleParams_bounds n 0 1 zero_le_one hn)

/-- **C127.**  The whole parallel of a curve gets lost if its ends coincide and the tangents there make a turn to the right (`deformer.py:1128-1129`: no absolute value
of the sine), although the curvature is nowhere too large for the distance. -/
theorem lost_parallel (roots : List ℝ → List ℝ) (cut : Cuts) (p : NSet) (hd : p.dist = 5) (he : 0 < p.eps) (he' : 0 < p.deps) (n : ℕ) (hn : n ≠ 1) (f : ℕ) :
    curveItem roots cut p n exLoop (f + 1) = .ok ([], false, false) ∧
    (∀ t, 0 ≤ t → t ≤ 1 → 0 < 1 - p.dist * kappa exLoop t) ∧ parallelPt p.dist exLoop (1 / 2) = (0, 40) := by
  obtain ⟨d0, d1⟩ := exLoop_dirs
  have a0 : exLoop.at_ 0 = (3, 0) := by simp [exLoop, Curve.at_]
  have a1 : exLoop.at_ 1 = (-3, 0) := by norm_num [exLoop, Curve.at_]
  have hA : movedPt 5 (exLoop.at_ 0) (4 / 5, 3 / 5) = (0, 4) := by rw [a0, movedPt]; norm_num
  have hD : movedPt 5 (exLoop.at_ 1) (4 / 5, -3 / 5) = (0, 4) := by rw [a1, movedPt]; norm_num
  refine ⟨?_, ?_, ?_⟩
  · have hz : hypot ((0 : ℝ) - 0) ((4 : ℝ) - 4) = 0 := by simp [hypot]
    have hnice : nice roots cut p exLoop (f + 1) 0 1 none none = .ok [] := by
      rw [nice, direction_eq (exLoop_regular 0), direction_eq (exLoop_regular 1), d0, d1]
      simp only [Except.bind]
      rw [hd, hA, hD, if_pos ⟨by rw [hz]; exact he, by norm_num; linarith⟩, keepLine, if_neg (by rw [hz]; exact not_le.mpr he')]
    rw [curveItem, no_crossings n hn _ (kappa exLoop) (fun t _ _ => curvatureAt_eq (exLoop_regular t)) p.dist p.eps (fun t h0 h1 => by
      rw [hd, mul_comm]; exact (exLoop_kappa t h0 h1).2) f]
    simp only [Except.bind, List.isEmpty_nil, if_true]
    have hk := exLoop_kappa (1 / 2) (by norm_num) (by norm_num)
    rw [wholeCurve, curvatureAt_eq (exLoop_regular _)]
    simp only [Except.bind]
    rw [if_pos (by right; rw [hd, abs_of_pos hk.1]; exact hk.2), hnice]
    rfl
  · intro t h0 h1
    rw [hd]
    linarith [(exLoop_kappa t h0 h1).2]
  · have hdir : dirOf (.curve exLoop) (1 / 2) = (-1, 0) := by
      rw [dirOf, exLoop_tangent, hypot_of (r := 129) (by norm_num) (by norm_num)]
      norm_num
    rw [parallelPt, hdir, hd, off, leftOf]
    norm_num [exLoop, Curve.at_]

/-! ## Examples -/

/-- A curve upwards with horizontal tangents at its ends. -/
def exWave : Curve ℝ := ⟨0, 0, 1, 0, 1, 3 / 2, 2, 3 / 2⟩

theorem exWave_tangent (t : ℝ) : (Item.curve exWave).tangent t = (3 - 6 * (t * (1 - t)), 9 * (t * (1 - t))) := by
  ext <;> simp only [Item.tangent, Curve.tangent, exWave] <;> ring

theorem exWave_regular (t : ℝ) : (Item.curve exWave).tangent t ≠ (0, 0) := by
  rw [exWave_tangent]
  intro h
  have h1 := (Prod.mk.inj h).1
  have h2 := (Prod.mk.inj h).2
  linarith

/-- The parallel of the wave at the distance 1/2 is a single curve. -/
theorem exWave_parallel (roots : List ℝ → List ℝ) (cut : Cuts) (f : ℕ) :
    ∃ a b, 0 < a ∧ 0 < b ∧ nice roots cut ⟨1 / 2, 1 / 1000, 1 / 20, [], 1 / 10 ^ 5⟩ exWave (f + 1) 0 1 none none =
      .ok [.curve (armCurve (0, 1 / 2) (2, 2) (1, 0) (1, 0) a b)] := by
  have d0 : dirOf (.curve exWave) 0 = (1, 0) := by
    rw [dirOf, exWave_tangent, hypot_of (r := 3) (by norm_num) (by norm_num)]
    norm_num
  have d1 : dirOf (.curve exWave) 1 = (1, 0) := by
    rw [dirOf, exWave_tangent, hypot_of (r := 3) (by norm_num) (by norm_num)]
    norm_num
  have k0 : kappa exWave 0 = 1 := by
    rw [kappa_eq, show hypot (exWave.dot 0).1 (exWave.dot 0).2 = 3 from hypot_of (by norm_num) (by norm_num [exWave, Curve.dot])]
    norm_num [exWave, Curve.dot, Curve.ddot, wedge]
  have k1 : kappa exWave 1 = -1 := by
    rw [kappa_eq, show hypot (exWave.dot 1).1 (exWave.dot 1).2 = 3 from hypot_of (by norm_num) (by norm_num [exWave, Curve.dot])]
    norm_num [exWave, Curve.dot, Curve.ddot, wedge]
  have hA : movedPt (1 / 2) (exWave.at_ 0) (1, 0) = (0, 1 / 2) := by norm_num [movedPt, exWave, Curve.at_]
  have hD : movedPt (1 / 2) (exWave.at_ 1) (1, 0) = (2, 2) := by norm_num [movedPt, exWave, Curve.at_]
  have hlen : ¬ hypot ((0 : ℝ) - 2) (1 / 2 - 2) < 1 / 1000 := by
    rw [hypot_of (r := 5 / 2) (by norm_num) (by norm_num)]
    norm_num
  have hx : intersection (exWave.at_ 0) (exWave.at_ 1) (-(0 : ℝ), 1) (-(0 : ℝ), 1) = none := by
    norm_num [intersection]
  obtain ⟨a, b, h1, h2, h3, -⟩ := endgeometry_parallel roots (0, 1 / 2) (2, 2) (1, 0) 2 (-2 / 3) false (1 / 10 ^ 8) (by norm_num [Unit2]) (by norm_num)
    (by norm_num [abs_of_pos]) (by norm_num [abs_of_neg])
  have ha : 0 < a := by
    norm_num [tD] at h2
    by_contra hc
    have : a * |a| ≤ 0 := mul_nonpos_of_nonpos_of_nonneg (not_lt.mp hc) (abs_nonneg a)
    linarith
  have hb : 0 < b := by
    norm_num [tE] at h3
    by_contra hc
    have : b * |b| ≤ 0 := mul_nonpos_of_nonpos_of_nonneg (not_lt.mp hc) (abs_nonneg b)
    linarith
  have ha' : ¬ a < 1 / 1000 := by
    norm_num [tD] at h2
    rw [abs_of_pos ha] at h2
    intro hc
    nlinarith
  refine ⟨max a (1 / 1000), max b (1 / 1000), lt_max_of_lt_left ha, lt_max_of_lt_left hb, ?_⟩
  rw [nice, direction_eq (exWave_regular 0), direction_eq (exWave_regular 1), d0, d1]
  simp only [Except.bind]
  rw [hA, hD, if_neg (by intro h; exact hlen h.1), hx, if_pos (by left; simp [room]), curvatureAt_eq (exWave_regular 0), curvatureAt_eq (exWave_regular 1), k0, k1]
  simp only [parCurv]
  rw [if_neg (by norm_num), if_neg (by norm_num)]
  simp only
  rw [show (1 / (1 - 1 / 2 * 1) : ℝ) = 2 by norm_num, show (-1 / (1 - 1 / 2 * -1) : ℝ) = -2 / 3 by norm_num, h1]
  simp only [single, if_pos (And.intro ha.le hb.le : a ≥ 0 ∧ b ≥ 0), if_neg (fun h => ha' h.1 : ¬ (a < 1 / 1000 ∧ b < 1 / 1000))]
  simp [accepted]

/-- The hypotheses of the theorems hold for it: it leads from one end of the true parallel to the other. -/
example (roots : List ℝ → List ℝ) : ∃ r, nice roots (fun _ _ => []) ⟨1 / 2, 1 / 1000, 1 / 20, [], 1 / 10 ^ 5⟩ exWave 1 0 1 none none = .ok r ∧ r ≠ [] ∧
    Leads r (parallelPt (1 / 2) exWave 0) (parallelPt (1 / 2) exWave 1) := by
  obtain ⟨a, b, -, -, h⟩ := exWave_parallel roots (fun _ _ => []) 0
  refine ⟨_, h, by simp, ?_⟩
  exact (nice_follows roots (fun _ _ => []) (by intro _ _ _ h; cases h) ⟨1 / 2, 1 / 1000, 1 / 20, [], 1 / 10 ^ 5⟩ (by norm_num) (by simp) exWave
    (fun t _ _ => exWave_regular t) 1 0 1 none none _ le_rfl zero_le_one le_rfl h (by simp)).leads

example (roots : List ℝ → List ℝ) : ∃ r ivs, curveItem roots (fun _ _ => []) exSet 3 exStart 1 = .ok r ∧ r.1.length = 1 ∧ List.Forall₂ (PieceOf exSet exStart) r.1 ivs := by
  have h := (end_not_joined roots (fun _ _ => []) 0).1
  obtain ⟨ivs, hi, -⟩ := curve_parallel roots (fun _ _ => []) (by intro _ _ _ h; cases h) exSet (by norm_num [exSet]) (by simp [exSet]) 3 exStart (fun t _ _ => exStart_regular t) 1 _ h
  exact ⟨_, ivs, h, rfl, hi⟩

/-- Curvatures which cross the inverse of the distance 1 in the middle. -/
example (f : ℕ) : crossings 3 (fun t => .ok (1 / 2 + t)) 1 (1 / 1000) (f + 1) 0 1 = .ok [1 / 2, 1 / 2] := by
  rw [crossings, if_neg (by norm_num), if_neg (by norm_num), three_params, crossPairs, crossPairs, crossPairs, crossPair, crossPair]
  · simp only [Except.bind, Except.map]
    norm_num
  · simp

/-- The crossing is at 1/4, the interpolation gives 3/4, and with two parameters the search does not end. -/
example : interpolated 0 1 (-1) 3 = 3 / 4 ∧ ∀ f, crossings 2 (fun t => .ok (4 * t)) 1 (1 / 1000) f 0 1 = .error .length := by
  have h : interpolated 0 1 (-1) 3 = 3 / 4 := by
    rw [interpolation_mirrored 0 1 (-1) 3 (1 / 4) (by norm_num) (by norm_num) (by norm_num)]
    norm_num
  refine ⟨h, two_endless _ (fun t => 4 * t) (fun _ _ _ => rfl) 1 (1 / 1000) 0 1 le_rfl le_rfl (by norm_num) (by norm_num) ?_ ?_⟩
  · rw [show (4 * 0 * 1 - 1 : ℝ) = -1 by norm_num, show (4 * 1 * 1 - 1 : ℝ) = 3 by norm_num, h]
    norm_num
  · rw [show (4 * 0 * 1 - 1 : ℝ) = -1 by norm_num, show (4 * 1 * 1 - 1 : ℝ) = 3 by norm_num, h]
    norm_num [abs_of_neg]

end

end PyX.Deform.Par
