import Verif.Spec.Graph

/-!
# Specification vocabulary: closed paths in a neighbour graph (independent of the model of the code)
-/

namespace Dreimac

/-- The columns `i 0, ..., i n` of the array of geodesic distances form a closed path in the neighbour graph of the points
`pt 0, pt 1, ...` (consecutive points are neighbours), and one of the ends of each edge is so close to a landmark `l q` (rows are
landmarks) that the ball of radius `r` of the landmark contains the whole edge. -/
structure NeighbourLoop (nbr : ℕ → Finset ℕ) (δ : ℕ → ℕ → ℝ) (pt : ℕ → ℕ) (N k : ℕ) (D : ℕ → ℕ → ℝ) (r : ℝ) (n : ℕ)
    (i l : ℕ → ℕ) : Prop where
  pos : 0 < n
  closed_data : i n = i 0
  closed_land : l n = l 0
  data : ∀ q ≤ n, i q < N
  land : ∀ q ≤ n, l q < k
  edge : ∀ q < n, pt (i (q + 1)) ∈ nbr (pt (i q)) ∨ pt (i q) ∈ nbr (pt (i (q + 1)))
  near : ∀ q < n, D (l q) (i q) + δ (pt (i q)) (pt (i (q + 1))) < r ∨ D (l q) (i (q + 1)) + δ (pt (i q)) (pt (i (q + 1))) < r

end Dreimac
