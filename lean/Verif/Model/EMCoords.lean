import Mathlib.Algebra.Order.Floor.Ring
import Mathlib.Analysis.SpecialFunctions.Exp
import Verif.Model.Cochain
import Verif.Model.Fl

/-!
# Model of `EMCoords` (emcoords.py) and `PartUnity` (utils.py 632-700)
-/

namespace Dreimac

section
variable {K : Type} [Field K] [LinearOrder K]

/-- emcoords.py 120-152, `get_cover_radius`; returns `(r_cover, rips_threshold)`.  (The parameters called
`cohomdeath_rips` and `cohombirth_rips` in the code are the first and second coordinate of the diagram point, i.e.
the birth and the death in homology.) -/
def getCoverRadius (perc birth death : Fl K) (standardRange : Bool) : Except PyErr (Fl K × Fl K) :=
  let start := if standardRange then Fl.fin 2 * birth else birth
  if Fl.lt death start then .error .tooShort
  else
    let ripsThreshold := (Fl.fin 1 - perc) * start + perc * death
    .ok (ripsThreshold / Fl.fin 2, ripsThreshold)

/-- utils.py 640-658, `PartUnity.linear`. -/
def bumpLinear (d r : Fl K) : Fl K := r - d

/-- utils.py 661-679, `PartUnity.quadratic`. -/
def bumpQuadratic (d r : Fl K) : Fl K := (r - d) * (r - d)

/-- `np.exp` on extended values. (utils.py 700.) -/
noncomputable def Fl.exp : Fl ℝ → Fl ℝ
  | .nan => .nan
  | .ninf => .fin 0
  | .pinf => .pinf
  | .fin x => .fin (Real.exp x)

/-- utils.py 682-700, `PartUnity.exp`. -/
noncomputable def bumpExp (d r : Fl ℝ) : Fl ℝ := Fl.exp (r * r / (d * d - r * r))

/-- The dtype of the distance array: `np.zeros_like` (emcoords.py 176) copies it. -/
inductive DType where
  | float
  | int
  deriving DecidableEq, Repr

/-- Assignment of a float into an array of the given dtype.  For integer arrays C truncates towards zero; non-finite
values become `INT64_MIN` (x86). (emcoords.py 176-177.) -/
def DType.cast [FloorRing K] : DType → Fl K → Fl K
  | .float, v => v
  | .int, .fin x => .fin (if 0 ≤ x then (⌊x⌋ : K) else (⌈x⌉ : K))
  | .int, _ => .fin (-(2 ^ 63))

/-- `np.sum` of a list of floats. (emcoords.py 178.) -/
def flSum (l : List (Fl K)) : Fl K := l.foldl (· + ·) 0

/-- The observable result of `get_covering_partition`: the number in the warning (if one is issued), the weights
`varphi[landmark, datapoint]` and the ball indices. (emcoords.py 154-187.) -/
structure Covering (K : Type) where
  warning : Option ℕ
  varphi : ℕ → ℕ → Fl K
  ballIndx : ℕ → ℕ

/-- emcoords.py 154-187, `get_covering_partition`.  `dist` is `self._dist_land_data`, an `L × N` array of the given
dtype.  For an integer dtype `denom[denom == 0] = np.nan` raises `ValueError`; `np.argmax` over an empty axis too.
Simplification: the warnings filter does not turn the warning into an exception. -/
def getCoveringPartition [FloorRing K] (dt : DType) (L N : ℕ) (dist : ℕ → ℕ → Fl K) (r : Fl K)
    (bump : Fl K → Fl K → Fl K) : Except PyErr (Covering K) :=
  let U := fun l i => Fl.lt (dist l i) r
  let phi := fun l i => if U l i then dt.cast (bump (dist l i) r) else 0
  let denom := fun i => flSum ((List.range L).map fun l => phi l i)
  let nzero := (List.range N).countP fun i => (denom i).isZero
  if 0 < nzero ∧ dt = .int then .error .valueError
  else if L = 0 then .error .valueError
  else .ok
    { warning := if 0 < nzero then some nzero else none
      varphi := fun l i => phi l i / (if (denom i).isZero then Fl.nan else denom i)
      ballIndx := fun i => ((List.range L).find? fun l => U l i).getD 0 }

/-- What ripser returns (the fields the code reads). (emcoords.py 52-84.) -/
structure RipserResult (K : Type) where
  dgms : List (List (Fl K × Fl K))
  idxPerm : List ℕ
  cocycles : List (List (List ZRow))
  dperm2all : ℕ → ℕ → Fl K

/-- The fields of an `EMCoords` object set by the constructor.  (`_dist_land_land`, line 76, consists of the columns of
`_dist_land_data` at the landmarks; see `ToroObj.distLandLand`, `ProjObj.distLandLand`.) -/
structure EMObject (K : Type) where
  prime : ℤ
  dgms : List (List (Fl K × Fl K))
  cocycles : List (List (List ZRow))
  idxLand : List ℕ
  distLandData : ℕ → ℕ → Fl K

/-- emcoords.py 80-84: one pass of the sorting loop, for one dimension.  `argsort` is `np.argsort` (an unstable sort:
an arbitrary function here).  Returns the sorted diagram and cocycles. -/
def sortDim (argsort : List (Fl K) → List ℕ) (dgm : List (Fl K × Fl K)) (cocycles : List (List ZRow)) :
    Except PyErr (List (Fl K × Fl K) × List (List ZRow)) := do
  let idxs := argsort (dgm.map fun p => p.1 - p.2)
  let dgm' ← idxs.mapM fun (i : ℕ) => pyGet dgm (i : ℤ)
  let cocycles' ← idxs.mapM fun (i : ℕ) => pyGet cocycles (i : ℤ)
  pure (dgm', cocycles')

/-- emcoords.py 79-84: `for i in range(1, maxdim+1)`. -/
def sortLoop (argsort : List (Fl K) → List ℕ) (maxdim : ℕ) (dgms : List (List (Fl K × Fl K)))
    (cocycles : List (List (List ZRow))) :
    Except PyErr (List (List (Fl K × Fl K)) × List (List (List ZRow))) :=
  (pyRange 1 (maxdim + 1)).foldlM (init := (dgms, cocycles)) fun st (i : ℕ) => do
    let dgm ← pyGet st.1 (i : ℤ)
    let coc ← pyGet st.2 (i : ℤ)
    let (dgm', coc') ← sortDim argsort dgm coc
    pure (st.1.set i dgm', st.2.set i coc')

/-- emcoords.py 13-85, the constructor, given the answer of ripser.  `useDperm` is true for point clouds and square
distance matrices (lines 69-74), otherwise rows of `X` are taken. `nX` is `X.shape[0]`. -/
def emInit (argsort : List (Fl K) → List ℕ) (res : RipserResult K) (useDperm : Bool) (X : ℕ → ℕ → Fl K) (nX : ℕ)
    (prime : ℤ) (maxdim : ℕ) : Except PyErr (EMObject K) :=
  if maxdim < 1 then .error .assertionError
  else do
    let distLandData : ℕ → ℕ → Fl K :=
      if useDperm then res.dperm2all else fun l i => X (res.idxPerm.getD l 0) i
    let (dgms, cocycles) ← sortLoop argsort maxdim res.dgms res.cocycles
    let cocycles ← reindexCocycles cocycles res.idxPerm nX
    pure { prime := prime, dgms := dgms, cocycles := cocycles, idxLand := res.idxPerm, distLandData := distLandData }

end

section coverage
variable {K : Type} [LinearOrder K]

/-- `np.min` and `np.max` of a one-dimensional array (`ValueError` if it is empty). (emcoords.py 75.) -/
def npMin : List K → Except PyErr K
  | [] => .error .valueError
  | x :: xs => .ok (xs.foldl min x)

/-- `np.max` (emcoords.py 75). -/
def npMax : List K → Except PyErr K
  | [] => .error .valueError
  | x :: xs => .ok (xs.foldl max x)

/-- emcoords.py 75: `np.max(np.min(self._dist_land_data, 1))` for an `L × N` array: `min` along axis 1, that is over
the data points, for each landmark. -/
def coverage (L N : ℕ) (dist : ℕ → ℕ → K) : Except PyErr K := do
  let rowMins ← (List.range L).mapM fun l => npMin ((List.range N).map fun i => dist l i)
  npMax rowMins

end coverage

/-- The class index passed by a user.  (Simplification: Python's `bool` is a subclass of `int`; booleans are not
modelled.) (emcoords.py 88-118, toroidalcoords.py 76-77.) -/
inductive ClassArg where
  | int (z : ℤ)
  | nonInt
  deriving DecidableEq, Repr

/-- emcoords.py 88-118, `get_representative_cocycle` on the stored diagrams and cocycles. -/
def getRepresentativeCocycle {K R : Type} (dgms : List (List (Fl K × Fl K))) (cocycles : List (List (List R)))
    (cls : ClassArg) (dim : ℤ) : Except PyErr (Fl K × Fl K × List R) :=
  match cls with
  | .nonInt => .error .assertionError
  | .int z => do
    let dgm ← pyGet dgms dim
    let coc ← pyGet cocycles dim
    let p ← pyGet dgm z
    let c ← pyGet coc z
    pure (p.1, p.2, c)

end Dreimac
