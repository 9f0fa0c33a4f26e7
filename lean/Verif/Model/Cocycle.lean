import Mathlib.Algebra.Order.Field.Basic
import Mathlib.Algebra.Order.Floor.Ring
import Mathlib.Order.WithBot
import Verif.Model.Coboundary

/-!
# Model of the cocycle checks and the repair of lifted cocycles
(toroidalcoords.py 125-174 and 311-352, complexprojectivecoords.py 116-156 and 314-355)
-/

namespace Dreimac

section checks
variable {K : Type} [LinearOrder K]

/-- toroidalcoords.py 311-352, `_is_one_cocycle`.  The state is `(is_cocycle, first_failure)`; `np.inf` is `⊤`.
`cochain` is the dense vector as a function of the index. -/
def isOneCocycle (cochain : ℕ → ℤ) (n : ℕ) (dist : ℕ → ℕ → K) (threshold : K) (T : Table) : Bool × WithTop K :=
  (pyRange 0 n).foldl (init := (true, ⊤)) fun st i =>
    (pyRange (i + 1) n).foldl (init := st) fun st j =>
      if dist i j < threshold then
        (pyRange (j + 1) n).foldl (init := st) fun st k =>
          if dist i k < threshold ∧ dist j k < threshold then
            let index_ij := cnsD1 i j T
            let index_jk := cnsD1 j k T
            let index_ik := cnsD1 i k T
            if cochain index_ij + cochain index_jk - cochain index_ik ≠ 0 then
              (false, min (min (min st.2 (dist i j)) (dist j k)) (dist i k))
            else st
          else st
      else st

/-- complexprojectivecoords.py 314-355, `_is_two_cocycle`. -/
def isTwoCocycle (cochain : ℕ → ℤ) (n : ℕ) (dist : ℕ → ℕ → K) (threshold : K) (T : Table) : Bool :=
  (pyRange 0 n).foldl (init := true) fun st i =>
    (pyRange (i + 1) n).foldl (init := st) fun st j =>
      if dist i j < threshold then
        (pyRange (j + 1) n).foldl (init := st) fun st k =>
          if dist i k < threshold ∧ dist j k < threshold then
            (pyRange (k + 1) n).foldl (init := st) fun st l =>
              if dist i l < threshold ∧ dist j l < threshold ∧ dist k l < threshold then
                if cochain (cnsD2 i j k T) - cochain (cnsD2 i j l T) + cochain (cnsD2 i k l T)
                    - cochain (cnsD2 j k l T) ≠ 0 then false
                else st
              else st
          else st
      else st

end checks

/-- `np.rint` / Python's `round`: round to the nearest integer, ties to even. (toroidalcoords.py 170, 417, complexprojectivecoords.py 154.) -/
def rint {F : Type} [Field F] [LinearOrder F] [IsStrictOrderedRing F] [FloorRing F] (x : F) : ℤ :=
  if Int.fract x < 1 / 2 then ⌊x⌋
  else if 1 / 2 < Int.fract x then ⌊x⌋ + 1
  else if ⌊x⌋ % 2 = 0 then ⌊x⌋ else ⌊x⌋ + 1

/-- An answer of `scipy.optimize.milp` for the constraint `A x = y`, `x` integral, no bounds, zero objective:
`none` if `success` is false, otherwise the (floating point) solution.  The solver is an arbitrary function. (toroidalcoords.py 147-158, complexprojectivecoords.py 131-142.) -/
abbrev Milp (F : Type) := SparseMat → (ℕ → ℤ) → Option (ℕ → F)

section repair
variable {F : Type} [Field F] [LinearOrder F] [IsStrictOrderedRing F] [FloorRing F]

/-- toroidalcoords.py 143-171 and complexprojectivecoords.py 127-156: the integer program and the corrected
cochain; `none` means `success` is false.  (`//` is floor division; the prime is positive.) -/
def repairWith (milp : Milp F) (delta : SparseMat) (prime : ℤ) (cochain : ℕ → ℤ) : Option (ℕ → ℤ) :=
  let y : ℕ → ℤ := fun r => delta.mulVec cochain r / prime
  match milp delta y with
  | none => none
  | some solution => some fun e => cochain e - prime * rint (solution e)

/-- `bool(A)` for a scipy sparse array (`_spbase.__bool__`): only arrays of shape `(1, 1)` have a truth value
(`nnz != 0`), `ValueError` otherwise. (toroidalcoords.py 139.) -/
def sparseTruth (A : SparseMat) : Except PyErr Bool :=
  if A.nRows = 1 ∧ A.nCols = 1 then .ok (!A.entries.isEmpty)
  else .error .valueError

/-- Python's `delta1 or make()` where `delta1` is `None` or a sparse array (toroidalcoords.py 139). -/
def deltaOr (delta1 : Option SparseMat) (make : Except PyErr SparseMat) : Except PyErr SparseMat :=
  match delta1 with
  | none => make
  | some A => do
    if (← sparseTruth A) then pure A else make

variable {K : Type} [LinearOrder K]

/-- toroidalcoords.py 129-173: the loop over the selected classes; `classIdx` is the `enumerate` counter and
`delta1` the variable of that name. -/
def repairLoop (milp : Milp F) (n : ℕ) (dist : ℕ → ℕ → K) (threshold : K) (T : Table) (prime : ℤ) :
    ℕ → Option SparseMat → List (ℕ → ℤ) → Except PyErr (List (ℕ → ℤ))
  | _, _, [] => .ok []
  | classIdx, delta1, c :: cs =>
    if (isOneCocycle c n dist threshold T).1 then do
      let rest ← repairLoop milp n dist threshold T prime (classIdx + 1) delta1 cs
      pure (c :: rest)
    else do
      let d ← deltaOr delta1 (makeDelta1Compact n dist threshold T)
      match repairWith milp d prime c with
      | none => .error (.noIntegralLift classIdx)
      | some c' => do
        let rest ← repairLoop milp n dist threshold T prime (classIdx + 1) (some d) cs
        pure (c' :: rest)

/-- toroidalcoords.py 125-174: `if check_cocycle_condition: ...`. -/
def checkAndRepair (milp : Milp F) (n : ℕ) (dist : ℕ → ℕ → K) (threshold : K) (T : Table) (prime : ℤ)
    (check : Bool) (cs : List (ℕ → ℤ)) : Except PyErr (List (ℕ → ℤ)) :=
  if check then repairLoop milp n dist threshold T prime 0 none cs else .ok cs

/-- complexprojectivecoords.py 116-156: check and repair of the lifted 2-cochain.  Line 135 evaluates
`scipy.optimize.Bounds()`, but the module never binds the name `scipy` (lines 1-12 import
`scipy.sparse as sparse` and names from `scipy.optimize`): the flag `scipyBound` says whether the name is bound;
in the code as it is, it is `false`. -/
def checkAndRepair2 (scipyBound : Bool) (milp : Milp F) (n : ℕ) (dist : ℕ → ℕ → K) (threshold : K) (T : Table)
    (prime : ℤ) (cocycleIdx : ℤ) (check : Bool) (c : ℕ → ℤ) : Except PyErr (ℕ → ℤ) :=
  if check ∧ isTwoCocycle c n dist threshold T = false then do
    let delta2 ← makeDelta2Compact n dist threshold T
    if scipyBound = false then .error .nameError
    else match repairWith milp delta2 prime c with
      | none => .error (.noIntegralLift cocycleIdx)
      | some c' => .ok c'
  else .ok c

/-- The repair step as the module actually runs it. (complexprojectivecoords.py 115-157.) -/
def checkAndRepair2AsIs (milp : Milp F) (n : ℕ) (dist : ℕ → ℕ → K) (threshold : K) (T : Table)
    (prime : ℤ) (cocycleIdx : ℤ) (check : Bool) (c : ℕ → ℤ) : Except PyErr (ℕ → ℤ) :=
  checkAndRepair2 false milp n dist threshold T prime cocycleIdx check c

end repair

end Dreimac
