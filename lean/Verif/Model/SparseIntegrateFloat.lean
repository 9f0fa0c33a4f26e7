import Verif.Model.Float
import Verif.Model.Toroidal

/-!
# Circular coordinates in rounded arithmetic (toroidalcoords.py 219-308)

The exact versions are in `Model/Toroidal`.  Fused multiply-add is not modelled, and the least squares solution `integral` is
an arbitrary array of floats.
-/

namespace Dreimac

section
variable {K : Type} [Field K] [LinearOrder K] [IsStrictOrderedRing K] [FloorRing K]

/-- `(A @ x)[r]` in rounded arithmetic: scipy's compressed row format starts with 0 and adds the products of the stored entries
of the row one after the other. (toroidalcoords.py 225, 227.) -/
def SparseMat.mulVecF (rnd : K → Fl K) (A : SparseMat) (x : ℕ → Fl K) (r : ℕ) : Fl K :=
  let rd := Fl.round rnd
  A.entries.foldl (fun s e => if e.1 = r then rd (s + rd (Fl.fin ((e.2.2 : ℤ) : K) * x e.2.1)) else s) 0

/-- toroidalcoords.py 227, `harm_rep = cocycle - boundary_matrix.dot(integral)`: the entry of edge `e`, in rounded arithmetic; the
integers of `cocycle` are converted to floats. -/
def harmRepF (rnd : K → Fl K) (c : ℕ → ℤ) (delta0 : SparseMat) (integral : ℕ → Fl K) (e : ℕ) : Fl K :=
  let rd := Fl.round rnd
  rd (rd (Fl.fin ((c e : ℤ) : K)) - delta0.mulVecF rnd integral e)

variable {D : Type} [LT D] [DecidableLT D]

/-- toroidalcoords.py 290-303, `_cocycle_to_matrix`, for an array `harm` of floats. -/
def thetaMatrixF (harm : ℕ → Fl K) (n : ℕ) (dist : ℕ → ℕ → D) (threshold : D) (T : Table) : ℕ → ℕ → Fl K :=
  (pyRange 0 n).foldl (init := fun _ _ => Fl.fin 0) fun M i =>
    (pyRange (i + 1) n).foldl (init := M) fun M j =>
      if dist i j < threshold then Function.update M i (Function.update (M i) j (harm (cnsD1 i j T))) else M

/-- toroidalcoords.py 278-308, `_sparse_integrate`, for data point `i`, in rounded arithmetic.  `order` is the order of summation
of `theta_matrix[...].dot(...)`, `tau` the machine number `2 * np.pi`. -/
def sparseIntegrateF (rnd : K → Fl K) (tau : K) (order : SumTree) (harm integral : ℕ → Fl K) (cov : Covering K) (n : ℕ)
    (dist : ℕ → ℕ → D) (threshold : D) (T : Table) (i : ℕ) : Fl K :=
  let rd := Fl.round rnd
  let theta := thetaMatrixF harm n dist threshold T
  let classMap := rd (integral (cov.ballIndx i) +
    order.eval rnd fun m => rd (theta (cov.ballIndx i) m * cov.varphi m i))
  angleF rnd tau classMap

end

end Dreimac
