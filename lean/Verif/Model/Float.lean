import Mathlib.Algebra.Order.Round
import Verif.Spec.Rounding
import Verif.Model.EMCoords
import Verif.Model.Cocycle

/-!
# Rounded arithmetic: the same code once more, with every operation followed by a rounding

The rest of the model computes with exact numbers.  Here each arithmetic operation of the code is followed by the rounding
`rnd` of the number format (`Fl.round rnd`), which also covers overflow.  `rnd` is a parameter; `float64` is NumPy's default.
Signed zeros are not modelled.
-/

namespace Dreimac

open Fl

/-- An order of summation: NumPy adds the rows of an array one after the other or in pairs, depending on the memory layout. (emcoords.py 178.) -/
inductive SumTree where
  | leaf (l : ℕ)
  | node (s t : SumTree)

/-- The indices of the summands. (emcoords.py 178.) -/
def SumTree.leaves : SumTree → List ℕ
  | leaf l => [l]
  | node s t => s.leaves ++ t.leaves

section
variable {K : Type} [Field K] [LinearOrder K]

/-- The sum of the values `f l`, rounded after each addition. (emcoords.py 178.) -/
def SumTree.eval (rnd : K → Fl K) (f : ℕ → Fl K) : SumTree → Fl K
  | leaf l => f l
  | node s t => Fl.round rnd (s.eval rnd f + t.eval rnd f)

/-- emcoords.py 120-152, `get_cover_radius`, in rounded arithmetic. -/
def getCoverRadiusF (rnd : K → Fl K) (perc birth death : Fl K) (standardRange : Bool) : Except PyErr (Fl K × Fl K) :=
  let rd := Fl.round rnd
  let start := if standardRange then rd (Fl.fin 2 * birth) else birth
  if Fl.lt death start then .error .tooShort
  else
    let ripsThreshold := rd (rd (rd (Fl.fin 1 - perc) * start) + rd (perc * death))
    .ok (rd (ripsThreshold / Fl.fin 2), ripsThreshold)

/-- utils.py 640-658, `PartUnity.linear`, in rounded arithmetic. -/
def bumpLinearF (rnd : K → Fl K) (d r : Fl K) : Fl K := Fl.round rnd (r - d)

/-- utils.py 661-679, `PartUnity.quadratic`, in rounded arithmetic. -/
def bumpQuadraticF (rnd : K → Fl K) (d r : Fl K) : Fl K :=
  let v := Fl.round rnd (r - d)
  Fl.round rnd (v * v)

/-- utils.py 682-700, `PartUnity.exp`, in rounded arithmetic.  The library function `exp` is assumed to be correctly
rounded. -/
noncomputable def bumpExpF (rnd : ℝ → Fl ℝ) (d r : Fl ℝ) : Fl ℝ :=
  let rd := Fl.round rnd
  rd (Fl.exp (rd (rd (r * r) / rd (rd (d * d) - rd (r * r)))))

/-- emcoords.py 154-187, `get_covering_partition`, in rounded arithmetic, for an array of floats.  `order` is the order of
summation of `np.sum(phi, 0)`. -/
def getCoveringPartitionF (rnd : K → Fl K) (order : SumTree) (L N : ℕ) (dist : ℕ → ℕ → Fl K) (r : Fl K)
    (bump : Fl K → Fl K → Fl K) : Except PyErr (Covering K) :=
  let U := fun l i => Fl.lt (dist l i) r
  let phi := fun l i => if U l i then bump (dist l i) r else 0
  let denom := fun i => order.eval rnd fun l => phi l i
  let nzero := (List.range N).countP fun i => (denom i).isZero
  if L = 0 then .error .valueError
  else .ok
    { warning := if 0 < nzero then some nzero else none
      varphi := fun l i => Fl.round rnd (phi l i / (if (denom i).isZero then Fl.nan else denom i))
      ballIndx := fun i => ((List.range L).find? fun l => U l i).getD 0 }

variable [IsStrictOrderedRing K] [FloorRing K]

/-- C's `fmod(x, m)` for `m > 0`: the remainder with the sign of `x`, which is computed without rounding. (toroidalcoords.py 308.) -/
def cFmod (x m : K) : K := x - m * (if 0 ≤ x then (⌊x / m⌋ : K) else (⌈x / m⌉ : K))

/-- `np.mod(x, m)` for a finite `m > 0`: `fmod`, and `m` is added (with rounding) if the remainder is negative. (toroidalcoords.py 308.) -/
def npModF (rnd : K → Fl K) : Fl K → K → Fl K
  | .fin x, m => if cFmod x m < 0 then rnd (cFmod x m + m) else .fin (cFmod x m)
  | _, _ => .nan

/-- toroidalcoords.py 308: `np.mod(2 * np.pi * class_map, 2 * np.pi)` for one entry of `class_map`; `tau` is the machine
number `2 * np.pi`. -/
def angleF (rnd : K → Fl K) (tau : K) (c : Fl K) : Fl K := npModF rnd (Fl.round rnd (Fl.fin tau * c)) tau

end

/-- `np.sqrt` on extended values (correctly rounded, as IEEE 754 requires); `nan` for negative numbers. (lenscoords.py 100, projectivecoords.py 97, complexprojectivecoords.py 301.) -/
noncomputable def Fl.sqrtF (rnd : ℝ → Fl ℝ) : Fl ℝ → Fl ℝ
  | .fin x => if x < 0 then .nan else rnd (Real.sqrt x)
  | .pinf => .pinf
  | _ => .nan

section
variable {K : Type} [Field K] [LinearOrder K]

/-- utils.py 49-50: the entry of `C` before the square root, for the row `x` of `X` and the row `y` of `Y`.
`order` is the order of summation of `np.sum`; `dot` is the matrix product of the linear algebra library. -/
def csmSquareF (rnd : K → Fl K) (order : SumTree) (dot : (ℕ → K) → (ℕ → K) → Fl K) (x y : ℕ → K) : Fl K :=
  let rd := Fl.round rnd
  let sq := fun (v : ℕ → K) => order.eval rnd fun k => rd (Fl.fin (v k) * Fl.fin (v k))
  let c := rd (rd (sq x + sq y) - rd (Fl.fin 2 * dot x y))
  if Fl.lt c 0 then 0 else c

end

/-- utils.py 30-51, `get_csm`, one entry, in rounded arithmetic. -/
noncomputable def getCsmF (rnd : ℝ → Fl ℝ) (order : SumTree) (dot : (ℕ → ℝ) → (ℕ → ℝ) → Fl ℝ) (x y : ℕ → ℝ) : Fl ℝ :=
  Fl.sqrtF rnd (csmSquareF rnd order dot x y)

end Dreimac
