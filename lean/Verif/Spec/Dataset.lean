import Verif.Spec.Circular
import Verif.Spec.Ripser
import Mathlib.Analysis.SpecialFunctions.Complex.Log

/-!
# Specification vocabulary: coordinates in terms of the data set (independent of the model of the code)

`S` is the set of landmarks (as data points), `N` the number of data points, `δ u i` the distance from data point `u` to data
point `i`, `r` the radius of the balls, `ξ` a 1-cochain with values modulo `p`, as a function of pairs of data points.
-/

namespace Dreimac

/-- The weights of the landmarks at the covered data points: bump values divided by their sum over the balls containing the
point. -/
def IsBumpWeights (S : Finset ℕ) (N : ℕ) (δ : ℕ → ℕ → ℝ) (r : ℝ) (bump : Fl ℝ → Fl ℝ → Fl ℝ) (w : ℕ → ℕ → ℝ) : Prop :=
  ∀ i < N, (∃ u ∈ S, δ u i < r) → ∃ φ : ℕ → ℝ,
    (∀ u ∈ S, (δ u i < r → bump (.fin (δ u i)) (.fin r) = .fin (φ u)) ∧ (r ≤ δ u i → φ u = 0)) ∧
    0 < ∑ v ∈ S, φ v ∧ ∀ u ∈ S, w u i = φ u / ∑ v ∈ S, φ v

/-- `c` is an integer cocycle on the landmarks, at threshold `t`, congruent to `ξ` modulo `p`. -/
structure IsIntegerLift (p : ℤ) (S : Finset ℕ) (δ : ℕ → ℕ → ℝ) (t : ℝ) (ξ c : ℕ → ℕ → ℤ) : Prop where
  congr : ∀ u ∈ S, ∀ v ∈ S, p ∣ c u v - ξ u v
  antisymm : ∀ u ∈ S, ∀ v ∈ S, c v u = -c u v
  cocycle : ∀ u ∈ S, ∀ v ∈ S, ∀ w ∈ S, δ u v < t → δ v w < t → δ u w < t → c u v + c v w = c u w

/-- If the class has an integer cocycle with values between `-p / 2` and `p / 2`, then `c` is that cocycle. -/
def IsSmallestLift (p : ℤ) (S : Finset ℕ) (δ : ℕ → ℕ → ℝ) (t : ℝ) (ξ c : ℕ → ℕ → ℤ) : Prop :=
  ∀ c', IsIntegerLift p S δ t ξ c' → (∀ u ∈ S, ∀ v ∈ S, |2 * c' u v| < p) → ∀ u ∈ S, ∀ v ∈ S, c u v = c' u v

open Classical in
/-- The energy of the form `c - df` on the pairs of landmarks closer than `t`. -/
noncomputable def dataEnergy (S : Finset ℕ) (δ : ℕ → ℕ → ℝ) (t : ℝ) (c : ℕ → ℕ → ℤ) (f : ℕ → ℝ) : ℝ :=
  ∑ u ∈ S, ∑ v ∈ S, if δ u v < t then ((c u v : ℝ) - (f u - f v)) ^ 2 else 0

/-- `θ` is the circular coordinate of the integer cocycle `c` with potential `f` and weights `w`: undefined exactly at the data
points in no ball, and on the ball of each landmark `u` it has the real-valued lift `∑ v, (f v + c u v) * w v i`; the lifts of
two balls differ on their intersection by the value of `c`. -/
structure IsDataCoordinate (S : Finset ℕ) (N : ℕ) (δ : ℕ → ℕ → ℝ) (r : ℝ) (w : ℕ → ℕ → ℝ) (c : ℕ → ℕ → ℤ) (f : ℕ → ℝ)
    (θ : ℕ → Fl ℝ) : Prop where
  undefined : ∀ i < N, (θ i = .nan ↔ ∀ u ∈ S, r ≤ δ u i)
  angle : ∀ u ∈ S, ∀ i < N, δ u i < r → IsAngle (θ i) (∑ v ∈ S, (f v + c u v) * w v i)
  transition : ∀ u ∈ S, ∀ u' ∈ S, ∀ i < N, δ u i < r → δ u' i < r →
    ∑ v ∈ S, (f v + c u v) * w v i - ∑ v ∈ S, (f v + c u' v) * w v i = (c u u' : ℝ)

/-! ### 2-cochains, as functions of triples of data points -/

/-- The 2-cochain `c` lifts the values listed in the array `c₀` to integers: it is alternating, on a listed triple it is the
balanced representative (between `-p / 2` and `(p - 1) / 2`) of the listed value, and it is zero on triples of landmarks that are
not listed in any order. -/
structure ListsLift2 (p : ℤ) (S : Finset ℕ) (c₀ : List ZRow) (c : ℕ → ℕ → ℕ → ℤ) : Prop where
  swap12 : ∀ u ∈ S, ∀ v ∈ S, ∀ w ∈ S, c v u w = -c u v w
  swap23 : ∀ u ∈ S, ∀ v ∈ S, ∀ w ∈ S, c u w v = -c u v w
  rows : ∀ r ∈ c₀, ∃ u v w : ℕ, r.verts = [(u : ℤ), (v : ℤ), (w : ℤ)] ∧ u ∈ S ∧ v ∈ S ∧ w ∈ S ∧
    p ∣ c u v w - r.val ∧ -p ≤ 2 * c u v w ∧ 2 * c u v w ≤ p - 1
  unlisted : ∀ u ∈ S, ∀ v ∈ S, ∀ w ∈ S, (∀ r ∈ c₀, ¬ r.verts.Perm [(u : ℤ), (v : ℤ), (w : ℤ)]) → c u v w = 0

/-- The 2-cochain `c` satisfies the cocycle condition on all quadruples of landmarks with pairwise distances below `t`. -/
def IsDataCocycle2 (S : Finset ℕ) (δ : ℕ → ℕ → ℝ) (t : ℝ) (c : ℕ → ℕ → ℕ → ℤ) : Prop :=
  ∀ u ∈ S, ∀ v ∈ S, ∀ w ∈ S, ∀ z ∈ S, δ u v < t → δ u w < t → δ u z < t → δ v w < t → δ v z < t → δ w z < t →
    c v w z - c u w z + c u v z - c u v w = 0

open Classical in
/-- The energy of the 2-form `c - dν` on the triples of landmarks with pairwise distances below `t`. -/
noncomputable def dataEnergy2 (S : Finset ℕ) (δ : ℕ → ℕ → ℝ) (t : ℝ) (c : ℕ → ℕ → ℕ → ℤ) (ν : ℕ → ℕ → ℝ) : ℝ :=
  ∑ u ∈ S, ∑ v ∈ S, ∑ w ∈ S,
    if δ u v < t ∧ δ v w < t ∧ δ u w < t then ((c u v w : ℝ) - (ν u v + ν v w - ν u w)) ^ 2 else 0

/-- The entry for the landmark `v` of the vector of data point `i` computed with the ball of the landmark `u`:
`√(w v i) * exp(2πi θ)` with the phase `θ = ν(v, u) + ∑ t, w t i * (c - dν)(v, u, t)`. -/
noncomputable def cpDataVector (S : Finset ℕ) (c : ℕ → ℕ → ℕ → ℤ) (ν : ℕ → ℕ → ℝ) (w : ℕ → ℕ → ℝ) (u i v : ℕ) : ℂ :=
  Complex.exp (2 * Real.pi * Complex.I *
    ((ν v u + ∑ t ∈ S, w t i * (c v u t - (ν v u + ν u t - ν v t)) : ℝ) : ℂ)) * (√(w v i) : ℝ)

end Dreimac
