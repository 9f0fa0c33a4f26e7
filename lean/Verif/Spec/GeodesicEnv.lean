import Verif.Model.Geodesic
import Verif.Spec.Graph

/-!
# What is assumed about `KDTree.query` and `shortest_path`
-/

namespace Dreimac

/-- `KDTree(X).query(X, k)` lists `k` different points, with their Euclidean distances, and no point left out is nearer. -/
structure QuerySpec (query : ℕ → (ℕ → ℕ → ℝ) → ℕ → ℕ → ℕ → List (ℕ × ℝ)) : Prop where
  length : ∀ d X n k u, u < n → 0 < k → k ≤ n → (query d X n k u).length = k
  nodup : ∀ d X n k u, u < n → 0 < k → k ≤ n → ((query d X n k u).map Prod.fst).Nodup
  entry : ∀ d X n k u, u < n → 0 < k → k ≤ n → ∀ p ∈ query d X n k u, p.1 < n ∧ p.2 = rowDist d X u p.1
  nearest : ∀ d X n k u, u < n → 0 < k → k ≤ n → ∀ p ∈ query d X n k u, ∀ x < n,
    x ∉ (query d X n k u).map Prod.fst → rowDist d X u p.1 ≤ rowDist d X u x

/-- A walk from `u` to `v` in the undirected graph of an `n × n` sparse array, with its total weight: a step from `u` to `x` uses an
entry in row `u` or in row `x`. -/
inductive CsrWalk (g : CsrMatrix) (n : ℕ) : ℕ → ℕ → ℝ → Prop
  | refl (u : ℕ) : CsrWalk g n u u 0
  | step {u x v : ℕ} {a t : ℝ} : u < n → x < n → ((x, a) ∈ g.row u ∨ (u, a) ∈ g.row x) → CsrWalk g n x v t →
      CsrWalk g n u v (a + t)

/-- The columns of an `n × n` sparse array are in range and its entries are not negative. -/
def CsrMatrix.Nonneg (g : CsrMatrix) (n : ℕ) : Prop := ∀ u < n, ∀ p ∈ g.row u, p.1 < n ∧ 0 ≤ p.2

/-- `shortest_path(g, indices=u, directed=False)` returns the weights of walks of minimal weight, infinity where there is no
walk, for arrays without negative entries. -/
def ShortestPathSpec (sp : CsrMatrix → ℕ → ℕ → ℕ → WithTop ℝ) : Prop :=
  ∀ g n, g.Nonneg n → ∀ u < n, ∀ v < n, (∀ s : ℝ, CsrWalk g n u v s → sp g n u v ≤ s) ∧
    ∀ s : ℝ, sp g n u v = s → CsrWalk g n u v s

end Dreimac
