import Verif.Model.Geometry
import Mathlib.Algebra.Order.Monoid.Unbundled.WithTop
import Mathlib.Data.Real.Basic

/-!
# Model of `landmark_geodesic_distance`, including the neighbour graph (utils.py 166-226)
-/

namespace Dreimac

/-- The three arrays of a `scipy.sparse.csr_matrix` (utils.py 200-203). -/
structure CsrMatrix where
  data : List ℝ
  indices : List ℕ
  indptr : List ℕ

/-- scipy's CSR convention: row `u` consists of the entries (column, value) at the positions
`indptr[u], …, indptr[u + 1] - 1`; entries with value zero count as entries. (utils.py 207, 214.) -/
noncomputable def CsrMatrix.row (g : CsrMatrix) (u : ℕ) : List (ℕ × ℝ) :=
  ((g.indices.zip g.data).take (g.indptr.getD (u + 1) 0)).drop (g.indptr.getD u 0)

/-- `np.arange(start, stop, step)` for natural numbers and `step > 0` (utils.py 199). -/
def npArange (start stop step : ℕ) : List ℕ := (List.range ((stop - start + step - 1) / step)).map fun i => start + i * step

/-- utils.py 193-203: `query u` is the row `u` of `spatial_tree.query(X, k=n_neighbors)`, as pairs (index, distance); `.ravel()`
concatenates the rows. -/
noncomputable def kneighborsGraph (n nNeighbors : ℕ) (query : ℕ → List (ℕ × ℝ)) : CsrMatrix :=
  let distancesNn := (List.range n).map fun u => (query u).map Prod.snd
  let indicesNn := (List.range n).map fun u => (query u).map Prod.fst
  let nNonzero := n * nNeighbors
  let indptr := npArange 0 (nNonzero + 1) nNeighbors
  { data := distancesNn.flatten, indices := indicesNn.flatten, indptr := indptr }

/-- The library routines used: `query d X n k u` is row `u` of `KDTree(X).query(X, k)` for an `n × d` array `X`, and
`shortestPath g n i` is `shortest_path(g, indices=i, directed=False)` for an `n × n` sparse array `g`; infinite entries are `⊤`. (utils.py 192-214.) -/
structure GeodesicEnv where
  query : ℕ → (ℕ → ℕ → ℝ) → ℕ → ℕ → ℕ → List (ℕ × ℝ)
  shortestPath : CsrMatrix → ℕ → ℕ → ℕ → WithTop ℝ

/-- utils.py 166-226, `landmark_geodesic_distance` for an `n × d` array `X` (the loop and the errors are those of
`landmarkGeodesicDistance`; the graph is built after the two assertions, and the query raises `ValueError` for `k = 0`). -/
noncomputable def landmarkGeodesic (env : GeodesicEnv) (n d : ℕ) (X : ℕ → ℕ → ℝ) (nLandmarks nNeighbors : ℕ) :
    Except PyErr ((ℕ → ℕ → WithTop ℝ) × List ℕ) :=
  let g := kneighborsGraph n nNeighbors (env.query d X n nNeighbors)
  landmarkGeodesicDistance n (env.shortestPath g n) nLandmarks nNeighbors

end Dreimac
