import Mathlib.Analysis.SpecialFunctions.Trigonometric.Inverse
import Mathlib.Data.Real.Sqrt
import Mathlib.Algebra.BigOperators.Group.Finset.Basic
import Mathlib.Logic.Function.Basic
import Verif.Model.Py

/-!
# Model of `GeometryUtils` (utils.py 23-226)

Arrays are functions of their indices; the shapes are separate parameters.  Distances are values of an arbitrary linear
order (which can contain an infinite value, as returned by `scipy.sparse.csgraph.shortest_path`); there is no `nan`.
-/

namespace Dreimac

section greedy
variable {K : Type} [LinearOrder K]

/-- `np.argmax` of a one-dimensional array of length `n`: the first index of a largest entry, `ValueError` if the array
is empty. (utils.py 117, 153, 211.) -/
def npArgmax (n : ℕ) (ds : ℕ → K) : Except PyErr ℕ :=
  if n = 0 then .error .valueError
  else .ok ((List.range n).foldl (fun m i => if ds m < ds i then i else m) 0)

/-- `D[i, :]` for an array with `n` rows. (utils.py 152, 156.) -/
def getRow (n : ℕ) (D : ℕ → ℕ → K) (i : ℕ) : Except PyErr (ℕ → K) :=
  if i < n then .ok (D i) else .error .indexError

/-- The local variables of the sampling loops: `perm`, `lambdas`, `ds` and (utils.py 117, 206) `D`. -/
structure GreedyState (K : Type) where
  perm : ℕ → ℕ
  lambdas : ℕ → K
  ds : ℕ → K
  D : ℕ → ℕ → K

/-- The result of `get_greedy_perm_pc`: arrays `Y` (`M × d`), `perm` and `lambdas` (length `M`), `D` (`M × N`). (utils.py 126.) -/
structure GreedyPc (R K : Type) where
  Y : ℕ → ℕ → R
  perm : ℕ → ℕ
  lambdas : ℕ → K
  D : ℕ → ℕ → K

/-- utils.py 81-127, `get_greedy_perm_pc` for an `N × d` array `X`.  `csm m A n B` is `csm_fn(A, B)` for an `m × d` array
`A` and an `n × d` array `B`; `X[0, :][None, :]` is the array with the one row `X[0, :]`.  With no points `X[0, :]`, and
with `M = 0` the assignment `D[0, :] = ds`, raise `IndexError`. -/
def getGreedyPermPc [Zero K] {R : Type} (csm : ℕ → (ℕ → ℕ → R) → ℕ → (ℕ → ℕ → R) → ℕ → ℕ → K) (N : ℕ) (X : ℕ → ℕ → R)
    (M : ℕ) : Except PyErr (GreedyPc R K) := do
  if N = 0 then throw .indexError
  let ds := csm 1 (fun _ => X 0) N X 0
  if M = 0 then throw .indexError
  let init : GreedyState K := { perm := fun _ => 0, lambdas := fun _ => 0, ds := ds, D := Function.update (fun _ _ => 0) 0 ds }
  let st ← (pyRange 1 M).foldlM (init := init) fun st i => do
    let idx ← npArgmax N st.ds
    let thisds := csm 1 (fun _ => X idx) N X 0
    pure { perm := Function.update st.perm i idx, lambdas := Function.update st.lambdas i (st.ds idx),
           ds := fun j => min (st.ds j) (thisds j), D := Function.update st.D i thisds }
  pure { Y := fun i => X (st.perm i), perm := st.perm, lambdas := st.lambdas, D := st.D }

/-- The result of `get_greedy_perm_dm`: `perm` and `lambdas` (length `M`), `DLandmarks` (`M × N`). (utils.py 158.) -/
structure GreedyDm (K : Type) where
  perm : ℕ → ℕ
  lambdas : ℕ → K
  DLandmarks : ℕ → ℕ → K

/-- utils.py 130-163, `get_greedy_perm_dm` for an array `D` with `nR` rows and `nC` columns (`nR = nC` in the
documentation).  Row indices out of range raise `IndexError`.  (The `D` field of the state is not used.) -/
def getGreedyPermDm [Zero K] (nR nC : ℕ) (D : ℕ → ℕ → K) (M : ℕ) : Except PyErr (GreedyDm K) := do
  let ds ← getRow nR D 0
  let init : GreedyState K := { perm := fun _ => 0, lambdas := fun _ => 0, ds := ds, D := fun _ _ => 0 }
  let st ← (pyRange 1 M).foldlM (init := init) fun st i => do
    let idx ← npArgmax nC st.ds
    let row ← getRow nR D idx
    pure { perm := Function.update st.perm i idx, lambdas := Function.update st.lambdas i (st.ds idx),
           ds := fun j => min (st.ds j) (row j), D := st.D }
  pure { perm := st.perm, lambdas := st.lambdas, DLandmarks := fun i => D (st.perm i) }

/-- utils.py 166-226, `landmark_geodesic_distance` for `n` points; returns `(dist_landmarks_points, perm_all_points)`.
`sp i` is `shortest_path(kneighbors_graph, indices=i, directed=False)` for the neighbour graph of the points: any function.
`KDTree.query` raises `ValueError` for `k = 0`; with no landmarks `D[0, :] = ds` raises `IndexError`.
`np.setdiff1d(np.arange(n), perm, assume_unique=True)` keeps the entries of the first array that are not in the second. -/
def landmarkGeodesicDistance [Zero K] (n : ℕ) (sp : ℕ → ℕ → K) (nLandmarks nNeighbors : ℕ) :
    Except PyErr ((ℕ → ℕ → K) × List ℕ) := do
  if ¬ nLandmarks ≤ n then throw .assertionError
  if ¬ nNeighbors ≤ n then throw .assertionError
  if nNeighbors = 0 then throw .valueError
  let ds := sp 0
  if nLandmarks = 0 then throw .indexError
  let init : GreedyState K := { perm := fun _ => 0, lambdas := fun _ => 0, ds := ds, D := Function.update (fun _ _ => 0) 0 ds }
  let st ← (pyRange 1 nLandmarks).foldlM (init := init) fun st i => do
    let idx ← npArgmax n st.ds
    let thisds := sp idx
    pure { perm := Function.update st.perm i idx, lambdas := Function.update st.lambdas i (st.ds idx),
           ds := fun j => min (st.ds j) (thisds j), D := Function.update st.D i thisds }
  let perm := (List.range nLandmarks).map st.perm
  let permRest := (List.range n).filter fun x => !perm.contains x
  let permAll := perm ++ permRest
  pure (fun i j => st.D i (permAll.getD j 0), permAll)

end greedy

noncomputable section
open Classical

/-- utils.py 30-51, `get_csm`: entry `(i, j)` for arrays with `d` columns (for different numbers of columns
`X.dot(Y.T)` raises `ValueError`: not modelled). -/
def getCsm (d : ℕ) (_m : ℕ) (X : ℕ → ℕ → ℝ) (_n : ℕ) (Y : ℕ → ℕ → ℝ) : ℕ → ℕ → ℝ := fun i j =>
  let c := (∑ k ∈ Finset.range d, X i k ^ 2) + (∑ k ∈ Finset.range d, Y j k ^ 2)
    - 2 * ∑ k ∈ Finset.range d, X i k * Y j k
  Real.sqrt (if c < 0 then 0 else c)

/-- utils.py 54-75, `get_csm_projarc`. -/
def getCsmProjarc (d : ℕ) (_m : ℕ) (X : ℕ → ℕ → ℝ) (_n : ℕ) (Y : ℕ → ℕ → ℝ) : ℕ → ℕ → ℝ := fun i j =>
  let c := |∑ k ∈ Finset.range d, X i k * Y j k|
  let c := if c < -1 then -1 else c
  let c := if 1 < c then 1 else c
  Real.arccos |c|

/-- utils.py 78-79, `get_ssm`. -/
def getSsm (d : ℕ) (m : ℕ) (X : ℕ → ℕ → ℝ) : ℕ → ℕ → ℝ := getCsm d m X m X

end

end Dreimac
