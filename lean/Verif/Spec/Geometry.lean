import Mathlib.Order.Bounds.Basic
import Mathlib.Order.Defs.LinearOrder
import Mathlib.Topology.MetricSpace.Pseudo.Defs

/-!
# Specification vocabulary: farthest point sampling (independent of the model)

`D i j` is the distance from point `i` to point `j`; `p` lists the sampled points, `lam` their insertion radii.
-/

namespace Dreimac

variable {K : Type} [LinearOrder K]

/-- `m` is the smallest distance from one of the first `i` sampled points to the point `x`. -/
def DistToFirst (D : ℕ → ℕ → K) (p : ℕ → ℕ) (i x : ℕ) (m : K) : Prop := IsLeast {v | ∃ j < i, D (p j) x = v} m

/-- `p` is a farthest point sample of size `M` of the points `0, …, N - 1`, started at point 0, with insertion radii
`lam`; ties are resolved in favour of the smallest index. -/
structure FarthestPointSample [Zero K] (D : ℕ → ℕ → K) (N M : ℕ) (p : ℕ → ℕ) (lam : ℕ → K) : Prop where
  start : 0 < M → p 0 = 0 ∧ lam 0 = 0
  mem : ∀ i < M, p i < N
  /-- the insertion radius of a landmark is its distance to the earlier ones … -/
  radius : ∀ i, 1 ≤ i → i < M → DistToFirst D p i (p i) (lam i)
  /-- … which is the largest among all points … -/
  far : ∀ i, 1 ≤ i → i < M → ∀ x < N, ∀ m, DistToFirst D p i x m → m ≤ lam i
  /-- … and strictly larger than for the points before it. -/
  first : ∀ i, 1 ≤ i → i < M → ∀ x < p i, ∀ m, DistToFirst D p i x m → m < lam i

/-- What a farthest point sample gives: insertion radii do not increase, landmarks are separated by the insertion radius
of the later one, and every point is within the last insertion radius of a landmark. -/
structure GoodSample (D : ℕ → ℕ → K) (N M : ℕ) (p : ℕ → ℕ) (lam : ℕ → K) : Prop where
  noninc : ∀ i j, 1 ≤ i → i ≤ j → j < M → lam j ≤ lam i
  packing : ∀ i j, i < j → j < M → lam j ≤ D (p i) (p j)
  covering : 2 ≤ M → ∀ x < N, ∃ j < M, D (p j) x ≤ lam (M - 1)

/-- The first `M` entries of `p` are distinct. -/
def DistinctUpTo (M : ℕ) (p : ℕ → ℕ) : Prop := ∀ i < M, ∀ j < M, p i = p j → i = j

end Dreimac
