import Mathlib.Data.Set.Function
import Verif.Model.Construct

/-!
# Specification for C94 and C95: changes of the data set that must not matter
-/

namespace Dreimac

/-- Multiplication of a float by a positive constant (the infinities and `nan` stay). -/
noncomputable def Fl.scale (c : ℝ) : Fl ℝ → Fl ℝ
  | .fin x => .fin (c * x)
  | v => v

/-- Diagrams in other units. -/
noncomputable def scaleDgms (c : ℝ) (dgms : List (List (Fl ℝ × Fl ℝ))) : List (List (Fl ℝ × Fl ℝ)) :=
  dgms.map fun d => d.map fun q => (q.1.scale c, q.2.scale c)

/-- `o'` is an object with the same landmarks as `o`, in other units (one unit of `o` is `c` units of `o'`): the same
cocycles, the scaled diagrams and the scaled distances between landmarks.  The other data points (and how many
there are) may be different. -/
structure SameLandmarks (c : ℝ) (o o' : ToroObj) : Prop where
  prime : o'.prime = o.prime
  cocycles : o'.cocycles = o.cocycles
  nLand : o'.nLand = o.nLand
  table : o'.table = o.table
  float : o.dtype = .float ∧ o'.dtype = .float
  dgms : o'.dgms = scaleDgms c o.dgms
  landmarks : ∀ l < o.nLand, ∀ m < o.nLand, o'.distLandLand l m = c * o.distLandLand l m

/-- Data point `p'` of `o'` is at the (scaled) distances of data point `p` of `o` from all the landmarks. -/
def SamePoint (c : ℝ) (o o' : ToroObj) (p p' : ℕ) : Prop := ∀ l < o.nLand, o'.dist l p' = c * o.dist l p

/-- The bump function does not depend on the unit, up to a positive factor (which cancels in the partition of unity). -/
def UnitFree (c : ℝ) (bump : Fl ℝ → Fl ℝ → Fl ℝ) : Prop :=
  ∃ k : ℝ, 0 < k ∧ ∀ d r, bump (d.scale c) (r.scale c) = (bump d r).scale k

/-- The same for the objects with values in projective spaces: `σ` renames the data points. -/
structure ReorderedData (c : ℝ) (σ : ℕ → ℕ) (o o' : ProjObj) : Prop where
  prime : o'.prime = o.prime
  cocycles : o'.cocycles = o.cocycles
  nLand : o'.nLand = o.nLand
  nData : o'.nData = o.nData
  table : o'.table = o.table
  float : o.dtype = .float ∧ o'.dtype = .float
  dgms : o'.dgms = scaleDgms c o.dgms
  landmarks : ∀ l < o.nLand, ∀ m < o.nLand, o'.distLandLand l m = c * o.distLandLand l m
  bijective : Set.BijOn σ (Set.Iio o.nData) (Set.Iio o.nData)
  points : ∀ l < o.nLand, ∀ i < o.nData, o'.dist l i = c * o.dist l (σ i)

/-- The outcomes of the two calls: the same exception, or the same coordinates up to the renaming of the data points,
the same reported variance and the scaled radii. -/
def SameOutcome {𝕜 : Type} (c : ℝ) (σ : ℕ → ℕ) (N : ℕ) (r r' : ProjObj × Except PyErr (Arr 𝕜)) : Prop :=
  (∃ e, r.2 = .error e ∧ r'.2 = .error e) ∨
  ∃ Y Y', r.2 = .ok Y ∧ r'.2 = .ok Y' ∧ r'.1.variance = r.1.variance ∧
    (∃ q, r.1.radius = some q ∧ r'.1.radius = some (q.1.scale c, q.2.scale c)) ∧
    Y'.cols = Y.cols ∧ Y.rows = N ∧ Y'.rows = N ∧ ∀ n < N, ∀ k, Y'.at' n k = Y.at' (σ n) k

/-- What ripser returns for the same data in other units. -/
noncomputable def RipserResult.scale (c : ℝ) (res : RipserResult ℝ) : RipserResult ℝ :=
  { res with dgms := scaleDgms c res.dgms, dperm2all := fun l i => (res.dperm2all l i).scale c }

/-- The data set (a distance matrix or coordinates of points) in other units. -/
def DataInput.scale (c : ℝ) (x : DataInput) : DataInput := { x with entries := fun i j => c * x.entries i j }

/-- A sort whose answer depends only on the comparisons of its keys, in particular not on their unit. -/
def UnitFreeSort (c : ℝ) (argsort : List (Fl ℝ) → List ℕ) : Prop :=
  ∀ keys, argsort (keys.map (Fl.scale c)) = argsort keys

end Dreimac
