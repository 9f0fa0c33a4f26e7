import Mathlib.Analysis.SpecialFunctions.Pow.Real
import Mathlib.Order.WithBot
import Mathlib.Algebra.Order.Monoid.Unbundled.WithTop

/-!
# Specification vocabulary: neighbour graphs and graph distances (independent of the model of the code)
-/

namespace Dreimac

/-- The Euclidean distance of the rows `u` and `v` of an array with `d` columns. -/
noncomputable def rowDist (d : ℕ) (X : ℕ → ℕ → ℝ) (u v : ℕ) : ℝ := √(∑ k ∈ Finset.range d, (X u k - X v k) ^ 2)

/-- `nbr u` consists of `k` of the points `0, …, n - 1`, none of which is farther from `u` than a point left out. -/
structure IsNeighbourGraph (n k : ℕ) (δ : ℕ → ℕ → ℝ) (nbr : ℕ → Finset ℕ) : Prop where
  points : ∀ u, ∀ v ∈ nbr u, u < n ∧ v < n
  card : ∀ u < n, (nbr u).card = k
  nearest : ∀ u < n, ∀ v ∈ nbr u, ∀ x < n, x ∉ nbr u → δ u v ≤ δ u x

/-- A chain from `u` to `v` of length `t`: each point of it is a neighbour of the next one, or the next one is a neighbour of
it. -/
inductive NeighbourChain (nbr : ℕ → Finset ℕ) (δ : ℕ → ℕ → ℝ) : ℕ → ℕ → ℝ → Prop
  | refl (u : ℕ) : NeighbourChain nbr δ u u 0
  | step {u x v : ℕ} {t : ℝ} : (x ∈ nbr u ∨ u ∈ nbr x) → NeighbourChain nbr δ x v t → NeighbourChain nbr δ u v (δ u x + t)

/-- `t` is the length of a shortest chain from `u` to `v`, infinite if there is no chain. -/
structure IsChainDistance (nbr : ℕ → Finset ℕ) (δ : ℕ → ℕ → ℝ) (u v : ℕ) (t : WithTop ℝ) : Prop where
  le : ∀ s : ℝ, NeighbourChain nbr δ u v s → t ≤ s
  attained : ∀ s : ℝ, t = s → NeighbourChain nbr δ u v s

/-- Every point can be reached from every other one. -/
def IsConnectedGraph (n : ℕ) (nbr : ℕ → Finset ℕ) (δ : ℕ → ℕ → ℝ) : Prop :=
  ∀ u < n, ∀ v < n, ∃ s, NeighbourChain nbr δ u v s

end Dreimac
