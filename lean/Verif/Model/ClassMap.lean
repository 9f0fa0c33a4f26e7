import Mathlib.Analysis.SpecialFunctions.Complex.Log
import Mathlib.Analysis.Complex.Basic
import Verif.Model.Ppca
import Verif.Model.Toroidal

/-!
# Model of `LensCoords`, `ProjectiveCoords` and `ComplexProjectiveCoords`
(lenscoords.py, projectivecoords.py, complexprojectivecoords.py)

Exact real and complex numbers in place of floats; `none` is a value that is not finite.  The linear-algebra routines of
scipy/numpy that the code calls (`lsqr`, `milp`, `eigh`) are arbitrary functions.
-/

namespace Dreimac

open Real

noncomputable section

/-- `np.sqrt` of an array entry (`nan` for negative entries). (lenscoords.py 100, projectivecoords.py 97, complexprojectivecoords.py 301.) -/
def oSqrt : Fl ℝ → Option ℝ
  | .fin x => open Classical in if 0 ≤ x then some (Real.sqrt x) else none
  | _ => none

/-- `M[a, b] = v` on a two-dimensional array. (lenscoords.py 97-98, projectivecoords.py 94-95, complexprojectivecoords.py 256-261.) -/
def set2 {α : Type} (M : ℕ → ℕ → α) (a b : ℕ) (v : α) : ℕ → ℕ → α := Function.update M a (Function.update (M a) b v)

/-- `M[a, b, c] = v` on a three-dimensional array. (complexprojectivecoords.py 210-227.) -/
def set3 {α : Type} (M : ℕ → ℕ → ℕ → α) (a b c : ℕ) (v : α) : ℕ → ℕ → ℕ → α :=
  Function.update M a (set2 (M a) b c v)

/-- The fields of a `LensCoords`, `ProjectiveCoords` or `ComplexProjectiveCoords` object that `get_coordinates` reads or
writes.  Simplifications: cocycle vertices are natural numbers (landmark indices, see C10), distances are finite. (lenscoords.py 29-40, projectivecoords.py 27-37, complexprojectivecoords.py 36-43.) -/
structure ProjObj where
  /-- `_prime` -/
  prime : ℤ
  /-- `_dgms` -/
  dgms : List (List (Fl ℝ × Fl ℝ))
  /-- `_cocycles` -/
  cocycles : List (List SparseCochain)
  /-- `_n_landmarks`, also the number of rows of `_dist_land_data` -/
  nLand : ℕ
  /-- the number of columns of `_dist_land_data` -/
  nData : ℕ
  /-- `_dist_land_data` and its dtype -/
  dist : ℕ → ℕ → ℝ
  dtype : DType
  /-- `_idx_land` -/
  idxLand : ℕ → ℕ
  /-- `_cns_lookup_table` -/
  table : Table
  /-- `(_r_cover, _rips_threshold)` -/
  radius : Option (Fl ℝ × Fl ℝ)
  /-- `_variance` -/
  variance : Option (List (Option ℝ))

/-- emcoords.py 76: `_dist_land_land`. -/
def ProjObj.distLandLand (o : ProjObj) (l m : ℕ) : ℝ := o.dist l (o.idxLand m)

/-- The arguments of `get_coordinates`; `dim` is `complex_dim` (`LensCoords`) or `proj_dim` (the other classes), `check`
is `check_cocycle_condition` (only used by `ComplexProjectiveCoords`). (lenscoords.py 42-51, projectivecoords.py 39-47, complexprojectivecoords.py 45-54.) -/
structure ProjArgs where
  perc : Fl ℝ
  cocycleIdx : ClassArg
  dim : ℤ
  bump : Fl ℝ → Fl ℝ → Fl ℝ
  standardRange : Bool
  check : Bool
  mode : RedMode

section flat
variable {𝕜 : Type} [RCLike 𝕜]

/-- lenscoords.py 96-98, projectivecoords.py 93-95: `np.ones((n, n))`, then all entries `M[a, b] = fwd(v)` are assigned,
then all entries `M[b, a] = bwd(v)`, in the order of the rows `(a, b, v)` of the cocycle; an index that is not below `n`
raises `IndexError`. -/
def cocycleMatrix (n : ℕ) (fwd bwd : ℤ → 𝕜) (c : SparseCochain) : Except PyErr (ℕ → ℕ → 𝕜) :=
  if c.all fun r => r.verts.getD 0 0 < n ∧ r.verts.getD 1 0 < n then
    let M : ℕ → ℕ → 𝕜 := c.foldl (fun M r => set2 M (r.verts.getD 0 0) (r.verts.getD 1 0) (fwd r.val)) fun _ _ => 1
    .ok (c.foldl (fun M r => set2 M (r.verts.getD 1 0) (r.verts.getD 0 0) (bwd r.val)) M)
  else .error .indexError

/-- lenscoords.py 100, projectivecoords.py 97: `np.sqrt(varphi.T) * cocycle_matrix[ball_indx[:], :]`, an `N × L` array
(entries outside the array are `none`). -/
def flatClassMap (L N : ℕ) (cov : Covering ℝ) (M : ℕ → ℕ → 𝕜) : Arr 𝕜 :=
  ⟨N, L, fun i l => if i < N ∧ l < L then (oSqrt (cov.varphi l i)).map fun (s : ℝ) => (s : 𝕜) * M (cov.ballIndx i) l else none⟩

/-- The statements shared by lenscoords.py 81-105 and projectivecoords.py 78-104: the object after the call and the
result; `matrix` computes the cocycle matrix, `k` is the dimension passed to `ppca`. -/
def flatGetCoordinates (eigh : Eigh 𝕜) (fuel : ℕ) (matrix : SparseCochain → Except PyErr (ℕ → ℕ → 𝕜)) (k : ℤ)
    (o : ProjObj) (a : ProjArgs) : ProjObj × Except PyErr (Arr 𝕜) :=
  match getRepresentativeCocycle o.dgms o.cocycles a.cocycleIdx 1 with
  | .error e => (o, .error e)
  | .ok (death, birth, cocycle) =>
    match getCoverRadius a.perc death birth a.standardRange with
    | .error e => (o, .error e)
    | .ok radius =>
      let o1 : ProjObj := { o with radius := some radius }
      match getCoveringPartition o.dtype o.nLand o.nData (fun l i => Fl.fin (o.dist l i)) radius.1 a.bump with
      | .error e => (o1, .error e)
      | .ok cov =>
        match matrix cocycle with
        | .error e => (o1, .error e)
        | .ok M =>
          match ppca eigh fuel (flatClassMap o.nLand o.nData cov M) k a.mode with
          | .error e => (o1, .error e)
          | .ok R => ({ o1 with variance := some R.variance }, .ok R.X)

end flat

/-- lenscoords.py 94: `np.exp(2 * np.pi * 1j / self._prime)`. -/
def rootOfUnity (prime : ℤ) : ℂ := Complex.exp (2 * π * Complex.I / prime)

/-- lenscoords.py 96-98: the cocycle matrix of `LensCoords` (complex numbers have negative powers). -/
def lensMatrix (prime : ℤ) (n : ℕ) (c : SparseCochain) : Except PyErr (ℕ → ℕ → ℂ) :=
  cocycleMatrix n (fun v => rootOfUnity prime ^ v) (fun v => (1 / rootOfUnity prime) ^ v) c

/-- lenscoords.py 42-105, `LensCoords.get_coordinates`. -/
def lensGetCoordinates (eigh : Eigh ℂ) (fuel : ℕ) (o : ProjObj) (a : ProjArgs) : ProjObj × Except PyErr (Arr ℂ) :=
  flatGetCoordinates eigh fuel (lensMatrix o.prime o.nLand) (a.dim - 1) o a

/-- projectivecoords.py 91-95: the cocycle matrix of `ProjectiveCoords`; `(-1) ** a` raises `ValueError` if the integer
array `a` has a negative entry. -/
def projMatrix (n : ℕ) (c : SparseCochain) : Except PyErr (ℕ → ℕ → ℝ) :=
  if c.any fun r => r.val < 0 then .error .valueError
  else cocycleMatrix n (fun v => (-1 : ℝ) ^ v) (fun v => (1 / (-1 : ℝ)) ^ v) c

/-- projectivecoords.py 39-104, `ProjectiveCoords.get_coordinates`. -/
def projGetCoordinates (eigh : Eigh ℝ) (fuel : ℕ) (o : ProjObj) (a : ProjArgs) : ProjObj × Except PyErr (Arr ℝ) :=
  flatGetCoordinates eigh fuel (projMatrix o.nLand) a.dim o a

section tensors
variable {K : Type} [LT K] [DecidableLT K]

/-- complexprojectivecoords.py 232-263, `_one_cocycle_to_tensor`. -/
def oneTensor (cocycle : ℕ → ℝ) (n : ℕ) (dist : ℕ → ℕ → K) (threshold : K) (T : Table) : ℕ → ℕ → ℝ :=
  (pyRange 0 n).foldl (init := fun _ _ => 0) fun res i =>
    (pyRange (i + 1) n).foldl (init := res) fun res j =>
      if dist i j < threshold then
        let val := cocycle (cnsD1 i j T)
        set2 (set2 res i j val) j i (-val)
      else res

/-- complexprojectivecoords.py 186-229, `_two_cocycle_to_tensor`. -/
def twoTensor (cocycle : ℕ → ℝ) (n : ℕ) (dist : ℕ → ℕ → K) (threshold : K) (T : Table) : ℕ → ℕ → ℕ → ℝ :=
  (pyRange 0 n).foldl (init := fun _ _ _ => 0) fun res i =>
    (pyRange (i + 1) n).foldl (init := res) fun res j =>
      if dist i j < threshold then
        (pyRange (j + 1) n).foldl (init := res) fun res k =>
          if dist i k < threshold ∧ dist j k < threshold then
            let val := cocycle (cnsD2 i j k T)
            set3 (set3 (set3 (set3 (set3 (set3 res i j k val) i k j (-val)) j i k (-val)) k j i (-val)) k i j val)
              j k i val
          else res
      else res

end tensors

/-- `np.exp(2 * np.pi * 1j * x)`. (lenscoords.py 94, complexprojectivecoords.py 301.) -/
def oPhase : Fl ℝ → Option ℂ
  | .fin x => some (Complex.exp (2 * π * Complex.I * x))
  | _ => none

/-- complexprojectivecoords.py 296-300: the loops of `_assemble`: what is accumulated in the argument `class_map`
(initially zero) at data point `b` and landmark `i`. -/
def accumulate (L : ℕ) (nu : ℕ → ℕ → ℝ) (eta : ℕ → ℕ → ℕ → ℝ) (cov : Covering ℝ) (b i : ℕ) : Fl ℝ :=
  (List.range L).foldl (fun s t => s + cov.varphi t b * Fl.fin (eta i (cov.ballIndx b) t))
    (Fl.fin 0 + Fl.fin (nu i (cov.ballIndx b)))

/-- Whether numba treats the closure variable `class_map0` (a contiguous float64 array of `8 * L * N` bytes) as a
compile-time constant: numba's `make_constant_array` embeds the content of a contiguous array of at most `10 ** 6` bytes
at compile time, which is before the loops run, and keeps a pointer to larger ones. (complexprojectivecoords.py 283-301.) -/
def frozenClosure (L N : ℕ) : Bool := 8 * L * N ≤ 10 ^ 6

/-- complexprojectivecoords.py 301: `np.exp(2 * np.pi * 1j * class_map0) * np.sqrt(varphi.T)`.  The expression names
the closure variable `class_map0`, not the argument `class_map`; both are the same array, but if numba has frozen the
closure variable its entries are still zero.  (Entries outside the array are `none`.) -/
def assembled (L N : ℕ) (nu : ℕ → ℕ → ℝ) (eta : ℕ → ℕ → ℕ → ℝ) (cov : Covering ℝ) : Arr ℂ :=
  ⟨N, L, fun b i =>
    if b < N ∧ i < L then
      oMul (oPhase (if frozenClosure L N then Fl.fin 0 else accumulate L nu eta cov b i))
        ((oSqrt (cov.varphi i b)).map fun (s : ℝ) => (s : ℂ))
    else none⟩

/-- complexprojectivecoords.py 266-311, `_sparse_integrate`. -/
def sparseIntegrate2 {K : Type} [LT K] [DecidableLT K] (harm integral : ℕ → ℝ) (cov : Covering ℝ) (L N : ℕ)
    (dist : ℕ → ℕ → K) (threshold : K) (T : Table) : Arr ℂ :=
  assembled L N (oneTensor integral L dist threshold T) (twoTensor harm L dist threshold T) cov

/-- The external routines a call of `ComplexProjectiveCoords.get_coordinates` depends on. (complexprojectivecoords.py 137, 159, 174-179.) -/
structure CPOracles where
  lsqr : Lsqr
  milp : Milp ℝ
  eigh : Eigh ℂ

/-- complexprojectivecoords.py 159-160: `(harmonic_representative, integral)`. -/
def harmonic2 (lsqr : Lsqr) (c : ℕ → ℤ) (delta1 : SparseMat) : (ℕ → ℝ) × (ℕ → ℝ) :=
  let integral := lsqr delta1 fun e => (c e : ℝ)
  (fun e => (c e : ℝ) - delta1.mulVec integral e, integral)

/-- The class index as it appears in the error message. (complexprojectivecoords.py 145-150.) -/
def ClassArg.toInt : ClassArg → ℤ
  | .int z => z
  | .nonInt => 0

/-- complexprojectivecoords.py 45-182, `ComplexProjectiveCoords.get_coordinates`: the object after the call and the
result.  The stored cocycle array is lifted in place (utils.py 229-250). -/
def cpGetCoordinates (env : CPOracles) (fuel : ℕ) (o : ProjObj) (a : ProjArgs) : ProjObj × Except PyErr (Arr ℂ) :=
  match getRepresentativeCocycle o.dgms o.cocycles a.cocycleIdx 2 with
  | .error e => (o, .error e)
  | .ok (death, birth, cocycle) =>
    match getCoverRadius a.perc death birth a.standardRange with
    | .error e => (o, .error e)
    | .ok radius =>
      let o1 : ProjObj := { o with radius := some radius }
      match getCoveringPartition o.dtype o.nLand o.nData (fun l i => Fl.fin (o.dist l i)) radius.1 a.bump with
      | .error e => (o1, .error e)
      | .ok cov =>
        let thr := ripsThr radius.2
        let dll : ℕ → ℕ → EReal := fun l m => (o.distLandLand l m : EReal)
        match makeDelta1 o.nLand dll thr o.table with
        | .error e => (o1, .error e)
        | .ok delta1 =>
          let o2 : ProjObj := { o1 with cocycles := o.cocycles.modify 2 (liftSelected o.prime [a.cocycleIdx]) }
          match sparseCocycleToVector 2 (liftToIntegerCocycle cocycle o.prime) o.table o.nLand with
          | .error e => (o2, .error e)
          | .ok v =>
            match checkAndRepair2AsIs env.milp o.nLand dll thr o.table o.prime a.cocycleIdx.toInt a.check
                (fun e => v.getD e 0) with
            | .error e => (o2, .error e)
            | .ok c =>
              let hi := harmonic2 env.lsqr c delta1
              let classMap := sparseIntegrate2 hi.1 hi.2 cov o.nLand o.nData dll thr o.table
              match ppca env.eigh fuel classMap a.dim a.mode with
              | .error e => (o2, .error e)
              | .ok R => ({ o2 with variance := some R.variance }, .ok R.X)

end

end Dreimac
