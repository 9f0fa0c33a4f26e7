import Mathlib.Analysis.RCLike.Basic
import Mathlib.Analysis.SpecialFunctions.Trigonometric.Inverse
import Verif.Model.Py

/-!
# Model of `EquivariantPCA.ppca` (utils.py 703-797)

Entries are exact real or complex numbers (`𝕜 = ℝ` or `ℂ`), or `none` for a value that is not finite (`nan`; infinities
are identified with it: simplification).  `np.linalg.eigh` is an arbitrary function of the matrix it is given.
-/

namespace Dreimac

open Real

noncomputable section

variable {𝕜 : Type} [RCLike 𝕜]

/-- Multiplication and addition of possibly non-finite numbers. (utils.py 746-792.) -/
def oMul {α : Type} [Mul α] (a b : Option α) : Option α := a.bind fun x => b.map fun y => x * y

/-- Addition of possibly non-finite numbers (utils.py 746-792). -/
def oAdd {α : Type} [Add α] (a b : Option α) : Option α := a.bind fun x => b.map fun y => x + y

/-- `np.sum`, or the sum inside `dot`. (utils.py 746-792.) -/
def oSum {α : Type} [Add α] [Zero α] (l : List (Option α)) : Option α := l.foldl oAdd (some 0)

/-- `np.conjugate`. (utils.py 746, 750, 779, 788.) -/
def oConj (a : Option 𝕜) : Option 𝕜 := a.map fun x => star x

/-- A two-dimensional NumPy array. (utils.py 703-797.) -/
structure Arr (𝕜 : Type) where
  rows : ℕ
  cols : ℕ
  at' : ℕ → ℕ → Option 𝕜

/-- `A.T` (utils.py 746, 750, 779, 788.) -/
def Arr.T (A : Arr 𝕜) : Arr 𝕜 := ⟨A.cols, A.rows, fun i j => A.at' j i⟩

/-- `np.linalg.eigh` on an `n × n` array: the array of eigenvectors, or `none` if an exception is raised. (utils.py 746, 779.) -/
abbrev Eigh (𝕜 : Type) := ℕ → (ℕ → ℕ → Option 𝕜) → Option (ℕ → ℕ → Option 𝕜)

/-- utils.py 746, 779: `X.dot(np.conjugate(X).T)`. -/
def gramArr (X : Arr 𝕜) : ℕ → ℕ → Option 𝕜 := fun i j =>
  oSum ((List.range X.cols).map fun n => oMul (X.at' i n) (oConj (X.at' j n)))

/-- `np.eye` (utils.py 749, 783.) -/
def eyeArr : ℕ → ℕ → Option 𝕜 := fun i j => some (if i = j then 1 else 0)

/-- `np.fliplr` of an array with `n` columns. (utils.py 747, 780.) -/
def fliplr (n : ℕ) (U : ℕ → ℕ → Option 𝕜) : ℕ → ℕ → Option 𝕜 := fun i j => U i (n - 1 - j)

/-- utils.py 745-749, 778-783: the eigenvectors, most important first; the identity if `eigh` fails. -/
def eigBasis (eigh : Eigh 𝕜) (X : Arr 𝕜) : ℕ → ℕ → Option 𝕜 :=
  match eigh X.rows (gramArr X) with
  | some U => fliplr X.rows U
  | none => eyeArr

/-- utils.py 750, 788: `(np.conjugate(U).T).dot(X)`. -/
def rotateArr (U : ℕ → ℕ → Option 𝕜) (X : Arr 𝕜) : Arr 𝕜 :=
  ⟨X.rows, X.cols, fun k n => oSum ((List.range X.rows).map fun i => oMul (oConj (U i k)) (X.at' i n))⟩

/-- The number of rows of `Y[:k, :]` for an array with `n` rows (negative `k` counts from the end). (utils.py 751.) -/
def sliceLen (n : ℕ) (k : ℤ) : ℕ := if k < 0 then ((n : ℤ) + k).toNat else min n k.toNat

/-- `np.linalg.norm(Y, axis=0)`, column `n`. (utils.py 752, 792.) -/
def colNorm (Y : Arr 𝕜) (n : ℕ) : Option ℝ :=
  (oSum ((List.range Y.rows).map fun i => (Y.at' i n).map fun x => ‖x‖ ^ 2)).map Real.sqrt

open Classical in
/-- Division of an entry by a norm (`x / 0` is not finite). (utils.py 752, 792.) -/
def oDivNorm (a : Option 𝕜) (r : Option ℝ) : Option 𝕜 :=
  a.bind fun x => r.bind fun s => if s = 0 then none else some (x / (s : 𝕜))

/-- utils.py 752, 792: `Y / np.linalg.norm(Y, axis=0)[None, :]`. -/
def normalizeCols (Y : Arr 𝕜) : Arr 𝕜 := ⟨Y.rows, Y.cols, fun i n => oDivNorm (Y.at' i n) (colNorm Y n)⟩

/-- utils.py 744-753, `_one_step_linear_reduction`. -/
def oneStep (eigh : Eigh 𝕜) (X : Arr 𝕜) (dimsToKeep : ℤ) : Arr 𝕜 :=
  let Y := rotateArr (eigBasis eigh X) X
  normalizeCols ⟨sliceLen Y.rows dimsToKeep, Y.cols, Y.at'⟩

/-- utils.py 762-766: the `while` loop of the "exponential" mode, stopped after `fuel` iterations (`none`). -/
def expLoop (eigh : Eigh 𝕜) (total : ℤ) : ℕ → ℤ → Arr 𝕜 → Option (Arr 𝕜)
  | 0, k, X => if 0 < k then none else some X
  | fuel + 1, k, X => if 0 < k then expLoop eigh total fuel (k / 2) (oneStep eigh X (total + k)) else some X

/-- utils.py 760-769: the "exponential" mode. -/
def exponentialMode (eigh : Eigh 𝕜) (fuel : ℕ) (X : Arr 𝕜) (total : ℤ) : Option (Arr 𝕜) :=
  (expLoop eigh total fuel (((X.rows : ℤ) - total) / 2) X).map fun X =>
    if (X.rows : ℤ) > total then oneStep eigh X total else X

open Classical in
/-- `np.arccos` of a real number (`nan` outside `[-1, 1]`). (utils.py 785.) -/
def oArccos (a : Option ℝ) : Option ℝ := a.bind fun x => if -1 ≤ x ∧ x ≤ 1 then some (arccos x) else none

/-- utils.py 784-787: the mean over the data points of `(π/2 - arccos |U[:, -1]ᵀ x|)²`.  (`U[:, -1]` is not conjugated.) -/
def varianceEntry (U : ℕ → ℕ → Option 𝕜) (X : Arr 𝕜) : Option ℝ :=
  (oSum ((List.range X.cols).map fun n =>
    (oArccos ((oSum ((List.range X.rows).map fun i => oMul (U i (X.rows - 1)) (X.at' i n))).map fun z => ‖z‖)).map
      fun t => (π / 2 - t) ^ 2)).bind fun s => if X.cols = 0 then none else some (s / X.cols)

/-- The state of the main loop of the "one-by-one" mode: `X`, `XRet` and `variance`. (utils.py 754-792.) -/
structure LoopState (𝕜 : Type) where
  X : Arr 𝕜
  ret : Option (Arr 𝕜)
  variance : List (Option ℝ)

/-- utils.py 776-792: one iteration. `variance[-i - 1]` is position `nDim - 1 - (i + 1)` of an array of length
`nDim - 1`. -/
def oneByOneStep (eigh : Eigh 𝕜) (nDim : ℕ) (projDim : ℤ) (st : LoopState 𝕜) (i : ℕ) : LoopState 𝕜 :=
  let ret := if (i : ℤ) = (nDim : ℤ) - projDim - 1 then some st.X else st.ret
  let U := eigBasis eigh st.X
  let variance := st.variance.set (nDim - 1 - (i + 1)) (varianceEntry U st.X)
  let Y := rotateArr U st.X
  ⟨normalizeCols ⟨sliceLen Y.rows (-1), Y.cols, Y.at'⟩, ret, variance⟩

/-- utils.py 771-792: the main loop of the "one-by-one" mode. -/
def oneByOneLoop (eigh : Eigh 𝕜) (X : Arr 𝕜) (projDim : ℤ) (variance : List (Option ℝ)) : LoopState 𝕜 :=
  (pyRange 0 (X.rows - 1)).foldl (oneByOneStep eigh X.rows projDim) ⟨X, none, variance⟩

/-- The argument `projective_dim_red_mode`. (utils.py 703-797.) -/
inductive RedMode where
  | direct
  | exponential
  | oneByOne
  | other
  deriving DecidableEq, Repr

/-- The dictionary returned by `ppca`. (utils.py 795-797.) -/
structure PpcaResult (𝕜 : Type) where
  variance : List (Option ℝ)
  X : Arr 𝕜

/-- utils.py 705-797, `EquivariantPCA.ppca`.  `np.zeros(-1)` raises `ValueError`; `None.T` raises `AttributeError`.
`fuel` bounds the number of iterations of the `while` loop.  (Printing is not modelled.) -/
def ppca (eigh : Eigh 𝕜) (fuel : ℕ) (classMap : Arr 𝕜) (projDim : ℤ) (mode : RedMode) : Except PyErr (PpcaResult 𝕜) :=
  if mode = .other then .error .assertionError
  else
    let X := classMap.T
    if X.rows = 0 then .error .valueError
    else
      let variance : List (Option ℝ) := List.replicate (X.rows - 1) (some 0)
      let total := projDim + 1
      match mode with
      | .direct => .ok ⟨variance, (oneStep eigh X total).T⟩
      | .exponential =>
        match exponentialMode eigh fuel X total with
        | none => .error .outOfFuel
        | some Y => .ok ⟨variance, Y.T⟩
      | .oneByOne =>
        let st := oneByOneLoop eigh X projDim variance
        match st.ret with
        | none => .error .attributeError
        | some Y => .ok ⟨st.variance, Y.T⟩
      | .other => .error .assertionError

end

end Dreimac
