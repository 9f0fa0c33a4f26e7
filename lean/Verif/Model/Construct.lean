import Verif.Model.ClassMap

/-!
# Model of the constructors of `ToroidalCoords`, `CircularCoords`, `LensCoords`, `ProjectiveCoords` and
`ComplexProjectiveCoords`
(emcoords.py 13-85, toroidalcoords.py 35-42, circularcoords.py 27-38, lenscoords.py 29-40, projectivecoords.py 27-37,
complexprojectivecoords.py 36-43)

The result of `ripser` is a parameter.  The objects of `Verif.Model.Toroidal` and `Verif.Model.ClassMap` have arrays of natural
numbers and of real numbers where `EMObject` has integers and extended reals; the conversions below lose nothing if the
vertices of the cocycles are landmarks and the distances are finite.
-/

namespace Dreimac

noncomputable section

/-- The arguments `X` (an array with its shape and dtype) and `distance_matrix`. (emcoords.py 13-24.) -/
structure DataInput where
  rows : ℕ
  cols : ℕ
  entries : ℕ → ℕ → ℝ
  dtype : DType
  distanceMatrix : Bool

/-- emcoords.py 69-74: whether `_dist_land_data` is the array `dperm2all` computed by ripser (otherwise rows of `X`). -/
def DataInput.useDperm (x : DataInput) : Bool := !x.distanceMatrix || x.rows == x.cols

/-- The number of columns of `_dist_land_data`. (emcoords.py 69-74.) -/
def DataInput.nData (x : DataInput) : ℕ := if x.useDperm then x.rows else x.cols

/-- The dtype of `_dist_land_data`: ripser computes floats from a point cloud and copies rows of a distance matrix. (emcoords.py 69-74.) -/
def DataInput.distDType (x : DataInput) : DType := if x.distanceMatrix then x.dtype else .float

/-- A row of a stored cocycle with natural numbers as vertices. (emcoords.py 79-84, toroidalcoords.py 35-42.) -/
def ZRow.toRow (r : ZRow) : Row := ⟨r.verts.map Int.toNat, r.val⟩

/-- A finite value as a real number. (emcoords.py 69-76.) -/
def Fl.toReal : Fl ℝ → ℝ
  | .fin x => x
  | _ => 0

/-- An `n × m` array as a function of all pairs of natural numbers.  (Python never reads outside the array; outside, the
nearest entry is repeated.) (emcoords.py 69-76.) -/
def clampArr (n m : ℕ) (f : ℕ → ℕ → ℝ) (l i : ℕ) : ℝ := f (min l (n - 1)) (min i (m - 1))

/-- The cocycles of an `EMObject` with natural numbers as vertices. (emcoords.py 79-84.) -/
def EMObject.natCocycles (obj : EMObject ℝ) : List (List SparseCochain) :=
  obj.cocycles.map fun ck => ck.map fun c => c.map ZRow.toRow

/-- `_dist_land_data` as a real array. (emcoords.py 69-76.) -/
def EMObject.realDist (obj : EMObject ℝ) (nData : ℕ) : ℕ → ℕ → ℝ :=
  clampArr obj.idxLand.length nData fun l i => (obj.distLandData l i).toReal

/-- toroidalcoords.py 35-42, `ToroidalCoords.__init__` (also circularcoords.py 27-38): the constructor of `EMCoords`, then the
lookup table for `n_landmarks` vertices and dimension 2. -/
def toroInit (argsort : List (Fl ℝ) → List ℕ) (res : RipserResult ℝ) (x : DataInput) (nLandmarks : ℕ) (prime : ℤ)
    (maxdim : ℕ) : Except PyErr ToroObj := do
  let obj ← emInit argsort res x.useDperm (fun u i => .fin (x.entries u i)) x.rows prime maxdim
  pure { prime := obj.prime, dgms := obj.dgms, cocycles := obj.natCocycles, nLand := obj.idxLand.length,
         nData := x.nData, dist := obj.realDist x.nData, dtype := x.distDType,
         idxLand := fun m => obj.idxLand.getD m 0, table := cnsTable nLandmarks 2, radius := none, gramInfo := none }

/-- The constructors of the classes in `Verif.Model.ClassMap`, with the lookup table as a parameter. (lenscoords.py 29-40, projectivecoords.py 27-37, complexprojectivecoords.py 36-43.) -/
def projInitWith (table : Table) (argsort : List (Fl ℝ) → List ℕ) (res : RipserResult ℝ) (x : DataInput) (prime : ℤ)
    (maxdim : ℕ) : Except PyErr ProjObj := do
  let obj ← emInit argsort res x.useDperm (fun u i => .fin (x.entries u i)) x.rows prime maxdim
  pure { prime := obj.prime, dgms := obj.dgms, cocycles := obj.natCocycles, nLand := obj.idxLand.length,
         nData := x.nData, dist := obj.realDist x.nData, dtype := x.distDType,
         idxLand := fun m => obj.idxLand.getD m 0, table := table, radius := none, variance := none }

/-- lenscoords.py 29-40, `LensCoords.__init__` (there is no lookup table). -/
def lensInit (argsort : List (Fl ℝ) → List ℕ) (res : RipserResult ℝ) (x : DataInput) (prime : ℤ) (maxdim : ℕ) :
    Except PyErr ProjObj := projInitWith [] argsort res x prime maxdim

/-- projectivecoords.py 27-37, `ProjectiveCoords.__init__`: the prime is 2. -/
def projInit (argsort : List (Fl ℝ) → List ℕ) (res : RipserResult ℝ) (x : DataInput) (maxdim : ℕ) :
    Except PyErr ProjObj := projInitWith [] argsort res x 2 maxdim

/-- complexprojectivecoords.py 36-43, `ComplexProjectiveCoords.__init__`: the lookup table is for `n_landmarks` vertices and
dimension 3. -/
def cpInit (argsort : List (Fl ℝ) → List ℕ) (res : RipserResult ℝ) (x : DataInput) (nLandmarks : ℕ) (prime : ℤ)
    (maxdim : ℕ) : Except PyErr ProjObj := projInitWith (cnsTable nLandmarks 3) argsort res x prime maxdim

end

end Dreimac
