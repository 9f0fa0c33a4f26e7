import Mathlib.Analysis.SpecialFunctions.Complex.Log
import Mathlib.Analysis.SpecialFunctions.Trigonometric.Basic
import Mathlib.Data.Real.Sqrt
import Mathlib.Algebra.Order.Floor.Ring
import Verif.Model.Geometry
import Verif.Model.EMCoords

/-!
# Model of `ProjectiveMapUtils` and `LensMapUtils` (utils.py 1397-1617)

Exact real and complex numbers in place of floats.  A vector of length `d` is a function `ℕ → ℝ` of which the first `d`
values are used.  Division by zero (`nan` or `inf` in NumPy) is excluded in the theorems by hypotheses.
-/

namespace Dreimac

open Real

noncomputable section
open Classical

/-- `np.sum(x * y)` for vectors of length `d`. (utils.py 1545-1563.) -/
def npDot (d : ℕ) (x y : ℕ → ℝ) : ℝ := ∑ k ∈ Finset.range d, x k * y k

/-- `np.sqrt(np.sum(x ** 2))` for a vector of length `d`. (utils.py 1456, 1545-1559.) -/
def npNorm (d : ℕ) (x : ℕ → ℝ) : ℝ := √(∑ k ∈ Finset.range d, x k ^ 2)

/-- utils.py 1548-1550 (and 1510-1512): `np.zeros(d)` with the last entry set to 1, for `d ≥ 1`. -/
def northPole (d : ℕ) : ℕ → ℝ := fun k => if k = d - 1 then 1 else 0

/-- utils.py 1524-1568, `rotmat` for one-dimensional arrays of length `d ≥ 1`; `b = none` is the default empty array. -/
def rotmat (d : ℕ) (a : ℕ → ℝ) (b : Option (ℕ → ℝ)) : ℕ → ℕ → ℝ :=
  let a := fun k => a k / npNorm d a
  let b := b.getD (northPole d)
  let b := fun k => b k / npNorm d b
  let c := fun k => a k - npDot d b a * b k
  if npNorm d c < 1 / 10 ^ 15 then fun i j => if i = j then 1 else 0
  else
    let c := fun k => c k / npNorm d c
    let lam := npDot d b a
    let beta := √(1 - |lam| ^ 2)
    fun i j => (if i = j then 1 else 0) - (1 - lam) * (c i * c j) - (1 - lam) * (b i * b j)
      + beta * (b i * c j - c i * b j)

/-- utils.py 1403-1433, `get_stereo_proj_codim1` for an `N × d` array with `d ≥ 1`.  `eigh` stands for
`np.linalg.eigh`: entry `(i, k)` of the matrix of eigenvectors of the `d × d` matrix given (any function);
`u = none` is the default empty array. -/
def getStereoProjCodim1 (eigh : (ℕ → ℕ → ℝ) → ℕ → ℕ → ℝ) (N d : ℕ) (pX : ℕ → ℕ → ℝ) (u : Option (ℕ → ℝ)) : ℕ → ℕ → ℝ :=
  let u := match u with
    | some u => u
    | none =>
      let U := eigh fun i j => ∑ n ∈ Finset.range N, pX n i * pX n j
      fun i => U i 0
  let R := rotmat d u none
  -- `XX[i, n]`
  let XX := fun i n => npDot d (R i) (pX n)
  let XX := fun i n => if XX (d - 1) n < 0 then XX i n * -1 else XX i n
  fun n i => XX i n / (1 + XX (d - 1) n)

/-- utils.py 1435-1461, `circle_to_3dnorthpole`, for a point `(x, y)` of the plane.  This is the value
returned for a floating point array; for the effect on the array of the caller see `circleTo3dNorthpoleCall`. -/
def circleTo3dNorthpole (x : ℝ × ℝ) : (ℝ × ℝ) × (ℝ × ℝ × ℝ) :=
  let magSqr := x.1 ^ 2 + x.2 ^ 2
  let (x, magSqr) := if 1 < magSqr then ((x.1 / √magSqr, x.2 / √magSqr), 1) else (x, magSqr)
  (x, (x.1, x.2, √(1 - magSqr)))

/-- utils.py 1435-1461, `circle_to_3dnorthpole`, as a procedure: the content of the array of the caller after the call, and what
the call returns or raises.  `x /= np.sqrt(magSqr)` (line 1456) divides in place; for an array of integers NumPy refuses to store
the quotient (`UFuncTypeError`, a `TypeError`). -/
def circleTo3dNorthpoleCall (dt : DType) (x : ℝ × ℝ) : (ℝ × ℝ) × Except PyErr ((ℝ × ℝ) × (ℝ × ℝ × ℝ)) :=
  let magSqr := x.1 ^ 2 + x.2 ^ 2
  if 1 < magSqr then
    match dt with
    | .int => (x, .error .typeError)
    | .float =>
      let x := (x.1 / √magSqr, x.2 / √magSqr)
      (x, .ok (x, (x.1, x.2, √(1 - 1))))
  else (x, .ok (x, (x.1, x.2, √(1 - magSqr))))

/-- utils.py 1463-1488, `hopf_map`, for one row `(x0, x1)` of the array.  `Y` is the array with rows real part,
imaginary part of the first column, real part, imaginary part of the second. -/
def hopfMap (X : ℂ × ℂ) : ℝ × ℝ × ℝ :=
  let Y : ℕ → ℝ := fun k => if k = 0 then X.1.re else if k = 1 then X.1.im else if k = 2 then X.2.re else X.2.im
  (2 * (Y 0 * Y 2 + Y 1 * Y 3), 2 * (Y 1 * Y 2 - Y 0 * Y 3), (Y 0 ^ 2 + Y 1 ^ 2) - (Y 2 ^ 2 + Y 3 ^ 2))

/-- utils.py 1506-1507, `_stereo`, on one vector of length `d`. -/
def stereoDown (d : ℕ) (v : ℕ → ℝ) : ℕ → ℝ := fun k => v k / (1 - v (d - 1))

/-- utils.py 1490-1522, `stereographic_projection_hemispheres` for an array with `d ≥ 2` columns: the row of the result for
row `x` of the array (each row is treated separately). -/
def stereographicProjectionHemispheres (d : ℕ) (center : Option (ℕ → ℝ)) (x : ℕ → ℝ) : ℕ → ℝ :=
  let center := center.getD (northPole d)
  let R := rotmat d center none
  let x' := fun i => npDot d (R i) x
  if x' (d - 1) < 0 then stereoDown d x'
  else
    let y := fun i => if i = d - 1 then x' i * -1 else x' i
    fun k => stereoDown d y k + 2.5 * (if k = 0 then 1 else 0)

/-- `np.mod(x, m)` for `m > 0`. (utils.py 1602-1607.) -/
def npMod (x m : ℝ) : ℝ := x - m * ⌊x / m⌋

/-- utils.py 1599-1615, `_point_lens_to_sphere`. -/
def pointLensToSphere (q : ℕ) (p : ℂ × ℂ) : ℝ × ℝ × ℝ :=
  let argZ := npMod (Complex.arg p.1) (2 * π)
  let theta := npMod argZ (2 * π / q)
  let k : ℤ := ⌊(argZ - theta) / (2 * π / q)⌋
  let phi := npMod (Complex.arg p.2) (2 * π) - 2 * k * π / q
  let r := ‖p.2‖
  (r * cos phi, r * sin phi, (q / π) * (theta - π / q) * √(1 - r ^ 2))

/-- utils.py 1577-1617, `lens_3D_to_disk_3D`, for an array with `n` rows. -/
def lens3DToDisk3D (q n : ℕ) (X : ℕ → ℂ × ℂ) : List (ℝ × ℝ × ℝ) :=
  (List.range n).map fun i => pointLensToSphere q (X i)

end

end Dreimac
