import Mathlib.Data.EReal.Basic
import Mathlib.Data.Real.Archimedean
import Verif.Model.CircleMap
import Verif.Model.LLL

/-!
# Model of `ToroidalCoords` (toroidalcoords.py) and `CircularCoords` (circularcoords.py)

Real numbers in place of floats, with `nan`/`inf` where they can arise (radii, weights, coordinates).  Distances are
finite reals.  The linear-algebra routines of scipy/numpy that the code calls (`lsqr`, `milp`, `cholesky`) are
arbitrary functions.
-/

namespace Dreimac

open Matrix Real

noncomputable section

/-- `A @ B` for sparse matrices. (toroidalcoords.py 225.) -/
def SparseMat.mul (A B : SparseMat) : SparseMat :=
  ⟨A.nRows, B.nCols, A.entries.flatMap fun e =>
    (B.entries.filter fun f => f.1 = e.2.1).map fun f => (e.1, f.2.1, e.2.2 * f.2.2)⟩

/-- `scipy.sparse.linalg.lsqr(A, b)[0]`: an arbitrary function. (toroidalcoords.py 224, complexprojectivecoords.py 159.) -/
abbrev Lsqr := SparseMat → (ℕ → ℝ) → (ℕ → ℝ)

section innerProduct
variable {K : Type} [LT K] [DecidableLT K]

/-- toroidalcoords.py 236-262, `_make_inner_product_get_row_columns_values` (64-bit buffers). -/
def innerProductLoop (dist : ℕ → ℕ → K) (threshold : K) (T : Table) (n cap : ℕ) : Except PyErr (List Entry) :=
  (pyRange 0 n).foldlM (init := ([] : List Entry)) fun buf i =>
    (pyRange (i + 1) n).foldlM (init := buf) fun buf j =>
      if dist i j < threshold then push cap buf ⟨(cnsD1 i j T : ℕ), (cnsD1 i j T : ℕ), 1⟩
      else pure buf

/-- toroidalcoords.py 227-275, `_make_inner_product`: `W` (`WSqrt` is a copy of `W`). -/
def makeInnerProduct (n : ℕ) (dist : ℕ → ℕ → K) (threshold : K) (T : Table) : Except PyErr SparseMat := do
  let nEdges := (n * (n - 1)) / 2
  let entries ← innerProductLoop dist threshold T n nEdges
  csrArray nEdges nEdges entries

end innerProduct

/-- toroidalcoords.py 219-224, `_integrate_harmonic_representative`; returns `(harm_rep, integral)`. -/
def integrateHarmonic (lsqr : Lsqr) (c : ℕ → ℤ) (delta0 W : SparseMat) : (ℕ → ℝ) × (ℕ → ℝ) :=
  let integral := lsqr (W.mul delta0) (W.mulVec fun e => (c e : ℝ))
  (fun e => (c e : ℝ) - delta0.mulVec integral e, integral)

section sparseIntegrate
variable {K : Type} [LT K] [DecidableLT K]

/-- toroidalcoords.py 290-303, `_cocycle_to_matrix`: fills `theta_matrix` (initially zero) above the diagonal. -/
def thetaMatrix (harm : ℕ → ℝ) (n : ℕ) (dist : ℕ → ℕ → K) (threshold : K) (T : Table) : ℕ → ℕ → ℝ :=
  (pyRange 0 n).foldl (init := fun _ _ => 0) fun M i =>
    (pyRange (i + 1) n).foldl (init := M) fun M j =>
      if dist i j < threshold then Function.update M i (Function.update (M i) j (harm (cnsD1 i j T))) else M

/-- toroidalcoords.py 278-308, `_sparse_integrate`: the coordinate of data point `i`; `n` is `integral.shape[0]`. -/
def sparseIntegrate (harm integral : ℕ → ℝ) (cov : Covering ℝ) (n : ℕ) (dist : ℕ → ℕ → K)
    (threshold : K) (T : Table) (i : ℕ) : Fl ℝ :=
  let theta := thetaMatrix harm n dist threshold T
  let classMap : Fl ℝ := Fl.fin (integral (cov.ballIndx i)) +
    flSum ((List.range n).map fun t => Fl.fin (theta (cov.ballIndx i) t) * cov.varphi t i)
  flmod (Fl.fin (2 * π) * classMap) (2 * π)

end sparseIntegrate

/-- The comparison of finite distances with a threshold that may be `nan` or infinite: `d < nan` is false. (toroidalcoords.py 113-116, 177-179.) -/
def ripsThr : Fl ℝ → EReal
  | .nan => ⊥
  | .ninf => ⊥
  | .pinf => ⊤
  | .fin x => (x : EReal)

/-- The attributes written at the end of a call with several classes (toroidalcoords.py 212-214). -/
structure GramInfo where
  n : ℕ
  originalGram : Matrix (Fin n) (Fin n) ℝ
  gram : Matrix (Fin n) (Fin n) ℝ
  changeBasis : Matrix (Fin n) (Fin n) ℝ

/-- toroidalcoords.py 366-372, `_gram_matrix` (`v.T @ W @ w`). -/
def gramMatrix {m : ℕ} (harm : Fin m → ℕ → ℝ) (W : SparseMat) : Matrix (Fin m) (Fin m) ℝ :=
  fun i j => ∑ e ∈ Finset.range W.nRows, harm i e * W.mulVec (harm j) e

/-- `np.linalg.cholesky`: `none` means `LinAlgError`. (toroidalcoords.py 357.) -/
abbrev Cholesky := ∀ n : ℕ, Matrix (Fin n) (Fin n) ℝ → Option (Matrix (Fin n) (Fin n) ℝ)

/-- `np.array(circ_coords)` as an `m × N` array. (toroidalcoords.py 361.) -/
def stackMaps {m : ℕ} (coords : Fin m → ℕ → Fl ℝ) : ℕ → ℕ → Fl ℝ := fun j p => if h : j < m then coords ⟨j, h⟩ p else 0

/-- A square matrix as a NumPy array. (toroidalcoords.py 357-363.) -/
def matArr {m : ℕ} (A : Matrix (Fin m) (Fin m) ℝ) : ℕ → ℕ → ℝ :=
  fun i j => if h : i < m ∧ j < m then A ⟨i, h.1⟩ ⟨j, h.2⟩ else 0

/-- toroidalcoords.py 356-363 (`_reduce_circular_coordinates`) and 200-214: lattice reduction and the stored
attributes.  `N` is the number of data points. -/
def reduceCoordinates (chol : Cholesky) (fuel N : ℕ) {m : ℕ} (coords : Fin m → ℕ → Fl ℝ)
    (gram : Matrix (Fin m) (Fin m) ℝ) : Except PyErr ((Fin m → ℕ → Fl ℝ) × GramInfo) :=
  match chol m gram with
  | none => .error .linAlgError
  | some Lm =>
    match lll fuel Lmᵀ with
    | none => .error .outOfFuel
    | some (D, change) =>
      match linearCombination (.d2 m N (stackMaps coords)) (.d2 m m (matArr changeᵀ)) with
      | .error e => .error e
      | .ok (.d2 _ _ g) => .ok (fun i p => g i p, ⟨m, gram, D * Dᵀ, changeᵀ⟩)
      | .ok _ => .error .typeError

/-- The external routines a call depends on. (toroidalcoords.py 153, 224, 357.) -/
structure Oracles where
  lsqr : Lsqr
  milp : Milp ℝ
  cholesky : Cholesky

/-- The fields of a `ToroidalCoords`/`CircularCoords` object that `get_coordinates` reads or writes.  Simplifications:
cocycle vertices are natural numbers (landmark indices, see C10), distances are finite. (toroidalcoords.py 35-42.) -/
structure ToroObj where
  /-- `_prime` -/
  prime : ℤ
  /-- `_dgms` -/
  dgms : List (List (Fl ℝ × Fl ℝ))
  /-- `_cocycles` -/
  cocycles : List (List SparseCochain)
  /-- `_n_landmarks`, also the number of rows of `_dist_land_data` -/
  nLand : ℕ
  /-- the number of columns of `_dist_land_data` -/
  nData : ℕ
  /-- `_dist_land_data` and its dtype -/
  dist : ℕ → ℕ → ℝ
  dtype : DType
  /-- `_idx_land` -/
  idxLand : ℕ → ℕ
  /-- `_cns_lookup_table` -/
  table : Table
  /-- `(_r_cover, _rips_threshold)` -/
  radius : Option (Fl ℝ × Fl ℝ)
  /-- `_original_gram_matrix`, `_gram_matrix`, `_change_basis` -/
  gramInfo : Option GramInfo

/-- emcoords.py 76: `_dist_land_land`. -/
def ToroObj.distLandLand (o : ToroObj) (l m : ℕ) : ℝ := o.dist l (o.idxLand m)

/-- The arguments of `get_coordinates`. (toroidalcoords.py 44-53.) -/
structure Args where
  perc : Fl ℝ
  cocycleIdxs : List ClassArg
  bump : Fl ℝ → Fl ℝ → Fl ℝ
  standardRange : Bool
  check : Bool

/-- Python's `max` and `min` of a non-empty sequence of floats. (toroidalcoords.py 88.) -/
def pyMax (x : Fl ℝ) (xs : List (Fl ℝ)) : Fl ℝ := xs.foldl (fun m y => if Fl.lt m y then y else m) x

/-- `min` of a non-empty sequence (toroidalcoords.py 89). -/
def pyMin (x : Fl ℝ) (xs : List (Fl ℝ)) : Fl ℝ := xs.foldl (fun m y => if Fl.lt y m then y else m) x

/-- IEEE `>=`. (toroidalcoords.py 91.) -/
def Fl.ge (a b : Fl ℝ) : Bool := !a.isNan && !b.isNan && !(Fl.lt a b)

/-- The position a Python index refers to. (emcoords.py 113-117.) -/
def pyPos (len : ℕ) (z : ℤ) : ℕ := (if z < 0 then z + len else z).toNat

/-- The position of the array selected by a class argument. (emcoords.py 113-117.) -/
def ClassArg.pos (len : ℕ) : ClassArg → ℕ
  | .int z => pyPos len z
  | .nonInt => 0

/-- toroidalcoords.py 98-101: the selected stored arrays are lifted, one after the other, in place. -/
def liftSelected (prime : ℤ) (idxs : List ClassArg) (cs : List SparseCochain) : List SparseCochain :=
  idxs.foldl (fun cs a => cs.modify (a.pos cs.length) fun c => liftToIntegerCocycle c prime) cs

/-- toroidalcoords.py 79-85: the births, deaths and arrays of the selected classes (`zip(*[])` cannot be unpacked:
`ValueError`). -/
def selectClasses (o : ToroObj) (idxs : List ClassArg) :
    Except PyErr ((Fl ℝ × Fl ℝ × SparseCochain) × List (Fl ℝ × Fl ℝ × SparseCochain)) := do
  let sel ← idxs.mapM fun a => getRepresentativeCocycle o.dgms o.cocycles a 1
  match sel with
  | [] => .error .valueError
  | x :: xs => pure (x, xs)

/-- toroidalcoords.py 87-95: the common support of the selected classes. -/
def commonSupport (sel : (Fl ℝ × Fl ℝ × SparseCochain) × List (Fl ℝ × Fl ℝ × SparseCochain)) :
    Except PyErr (Fl ℝ × Fl ℝ) :=
  let cohomdeath := pyMax sel.1.1 (sel.2.map fun s => s.1)
  let cohombirth := pyMin sel.1.2.1 (sel.2.map fun s => s.2.1)
  if Fl.ge cohomdeath cohombirth then .error .supportsDisjoint else .ok (cohomdeath, cohombirth)

/-- toroidalcoords.py 117-174: from the lifted sparse cocycles to dense integer cocycles, checked and repaired. -/
def integerCocycles (env : Oracles) (o : ToroObj) (thr : EReal) (check : Bool)
    (cs : List SparseCochain) : Except PyErr (List (ℕ → ℤ)) := do
  let dense ← cs.mapM fun c => sparseCocycleToVector 1 c o.table o.nLand
  checkAndRepair env.milp o.nLand (fun l m => (o.distLandLand l m : EReal)) thr o.table o.prime check
    (dense.map fun v => fun e => v.getD e 0)

/-- The coordinates computed by a call, before lattice reduction, with the intermediate results they are built from. (toroidalcoords.py 80-201.) -/
structure CoordData where
  cov : Covering ℝ
  thr : EReal
  delta0 : SparseMat
  inner : SparseMat
  cocycles : List (ℕ → ℤ)

/-- toroidalcoords.py 104-180: the covering, the matrices and the integer cocycles; `cs` are the lifted arrays. -/
def coordData (env : Oracles) (o : ToroObj) (a : Args) (radius : Fl ℝ × Fl ℝ)
    (cs : List SparseCochain) : Except PyErr CoordData := do
  let cov ← getCoveringPartition o.dtype o.nLand o.nData (fun l i => Fl.fin (o.dist l i)) radius.1 a.bump
  let thr := ripsThr radius.2
  let dll : ℕ → ℕ → EReal := fun l m => (o.distLandLand l m : EReal)
  let delta0 ← makeDelta0 o.nLand dll thr o.table
  let cocycles ← integerCocycles env o thr a.check cs
  let inner ← makeInnerProduct o.nLand dll thr o.table
  pure ⟨cov, thr, delta0, inner, cocycles⟩

/-- toroidalcoords.py 182-203: one circular coordinate, before lattice reduction. -/
def circularCoordinate (env : Oracles) (o : ToroObj) (d : CoordData) (c : ℕ → ℤ) : ℕ → Fl ℝ :=
  let hi := integrateHarmonic env.lsqr c d.delta0 d.inner
  sparseIntegrate hi.1 hi.2 d.cov o.nLand (fun l m => (o.distLandLand l m : EReal)) d.thr o.table

/-- The coordinates before lattice reduction. (toroidalcoords.py 190-201.) -/
def CoordData.coords (env : Oracles) (o : ToroObj) (d : CoordData) :
    Fin d.cocycles.length → ℕ → Fl ℝ :=
  fun j => circularCoordinate env o d d.cocycles[j]

/-- toroidalcoords.py 207: the Gram matrix of the harmonic representatives. -/
def CoordData.gram (env : Oracles) (d : CoordData) :
    Matrix (Fin d.cocycles.length) (Fin d.cocycles.length) ℝ :=
  gramMatrix (fun j => (integrateHarmonic env.lsqr d.cocycles[j] d.delta0 d.inner).1) d.inner

/-- toroidalcoords.py 182-216: the coordinates, reduced if more than one class was selected; the new value of the
stored attributes. -/
def finishCoords (env : Oracles) (fuel : ℕ) (o : ToroObj) (d : CoordData) :
    Except PyErr (List (ℕ → Fl ℝ) × Option GramInfo) :=
  if 1 < d.cocycles.length then do
    let (g, info) ← reduceCoordinates env.cholesky fuel o.nData (d.coords env o) (d.gram env)
    pure (List.ofFn g, some info)
  else pure (List.ofFn (d.coords env o), o.gramInfo)

/-- toroidalcoords.py 46-216, `ToroidalCoords.get_coordinates`: the object after the call and the result.  The stored
cocycle arrays are lifted in place before the radius is computed, so that a call that fails later still changes
them. -/
def getCoordinates (env : Oracles) (fuel : ℕ) (o : ToroObj) (a : Args) :
    ToroObj × Except PyErr (List (ℕ → Fl ℝ)) :=
  match selectClasses o a.cocycleIdxs with
  | .error e => (o, .error e)
  | .ok sel =>
    match commonSupport sel with
    | .error e => (o, .error e)
    | .ok (death, birth) =>
      let o1 : ToroObj := { o with cocycles := o.cocycles.modify 1 (liftSelected o.prime a.cocycleIdxs) }
      match getCoverRadius a.perc death birth a.standardRange with
      | .error e => (o1, .error e)
      | .ok radius =>
        let o2 : ToroObj := { o1 with radius := some radius }
        let stored := o2.cocycles.getD 1 []
        let cs := a.cocycleIdxs.map fun x => stored.getD (x.pos stored.length) []
        match coordData env o2 a radius cs with
        | .error e => (o2, .error e)
        | .ok d =>
          match finishCoords env fuel o2 d with
          | .error e => (o2, .error e)
          | .ok (coords, info) => ({ o2 with gramInfo := info }, .ok coords)

/-- circularcoords.py 40-79, `CircularCoords.get_coordinates`. -/
def circularGetCoordinates (env : Oracles) (fuel : ℕ) (o : ToroObj) (perc : Fl ℝ) (cocycleIdx : ClassArg)
    (bump : Fl ℝ → Fl ℝ → Fl ℝ) (standardRange check : Bool) : ToroObj × Except PyErr (ℕ → Fl ℝ) :=
  let r := getCoordinates env fuel o ⟨perc, [cocycleIdx], bump, standardRange, check⟩
  (r.1, do
    let l ← r.2
    pyGet l 0)

end

end Dreimac
