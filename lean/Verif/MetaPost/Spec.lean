import Verif.MetaPost.Model

/-!
# Specification: mock curvature

J. D. Hobby's equations as stated in the METAFONT and MetaPost documentation. At knot `k` the curve leaves
with the angle `θ k` to the chord ahead and arrives with the angle `φ k` to the chord behind; `ψ k` is the
turning angle of the chords, so that the tangent is continuous when `θ k + φ k + ψ k = 0`.
-/

namespace PyX.MetaPost

variable {K : Type} [Field K] [LinearOrder K] [IsStrictOrderedRing K]

/-- Arrival angle at knot `k`. -/
def phi (c : Chain K) (θ : ℕ → K) (k : ℕ) : K := -c.psi k - θ k

/-- Mock curvature on leaving knot `k`. -/
def mockOut (c : Chain K) (θ : ℕ → K) (k : ℕ) : K :=
  ((3 - 1 / c.lt (k + 1)) * θ k - 1 / c.lt (k + 1) * phi c θ (k + 1)) * c.rt k ^ 2 / c.d k

/-- Mock curvature on arriving at knot `k + 1`. -/
def mockIn (c : Chain K) (θ : ℕ → K) (k : ℕ) : K :=
  ((3 - 1 / c.rt k) * phi c θ (k + 1) - 1 / c.rt k * θ k) * c.lt (k + 1) ^ 2 / c.d k

/-- The mock curvature at one end of a curve is `γ` times that at the other end, `x` and `y` being the angles
there; MetaPost replaces this by `x = 4 y` if it would make `x` more than four times `y`. -/
def CurlEnd (γ near far x y : K) : Prop :=
  let α := 1 / near
  let β := 1 / far
  if (3 - α) * α ^ 2 * γ + β ^ 3 ≤ 4 * (α ^ 3 * γ + (3 - β) * β ^ 2) then
    ((3 - β) * x - β * y) / α ^ 2 = γ * (((3 - α) * y - α * x) / β ^ 2)
  else x = 4 * y

/-- The equations for the angles of a run of knots. -/
structure Smooth (c : Chain K) (θ : ℕ → K) : Prop where
  inner : ∀ k, k + 1 < c.n → mockIn c θ k = mockOut c θ (k + 1)
  first : match c.start with
    | .given v => θ 0 = v
    | .curl g => CurlEnd g (c.rt 0) (c.lt 1) (θ 0) (phi c θ 1)
    | .cycle => True
  last : match c.stop with
    | .given v => θ c.n = v
    | .curl g => CurlEnd g (c.lt c.n) (c.rt (c.n - 1)) (phi c θ c.n) (θ (c.n - 1))
    | .cycle => θ c.n = θ 0 ∧ θ (c.n + 1) = θ 1 ∧ mockIn c θ (c.n - 1) = mockOut c θ c.n

/-- Sensible data: at least one curve, different knots, tensions of at least 3/4, no negative curl, a cycle has
no other end. -/
structure Valid (c : Chain K) : Prop where
  n : 1 ≤ c.n
  d : ∀ k, 0 < c.d k
  rt : ∀ k, 3 / 4 ≤ c.rt k
  lt : ∀ k, 3 / 4 ≤ c.lt k
  start : ∀ g, c.start = .curl g → 0 ≤ g
  stop : ∀ g, c.stop = .curl g → 0 ≤ g
  cycle : c.start = .cycle ↔ c.stop = .cycle
  line : c.n = 1 → ∀ g g', ¬ (c.start = .curl g ∧ c.stop = .curl g')
  psi : c.stop ≠ .cycle → c.psi c.n = 0

end PyX.MetaPost
