import Mathlib.Data.Matrix.Basic
import Mathlib.LinearAlgebra.Matrix.RowCol
import Mathlib.Data.Matrix.Mul
import Verif.Model.Cocycle

/-!
# Model of the lattice reduction (toroidalcoords.py 376-437)

Exact arithmetic in an ordered field.  Division by zero (numpy: `nan`/`inf` with a warning) is `0` here; it does not
occur for linearly independent columns.
-/

namespace Dreimac

open Matrix

variable {K : Type} [Field K] [LinearOrder K] [IsStrictOrderedRing K] [FloorRing K] {n : ℕ}

/-- toroidalcoords.py 382-387: `gs_cofficient` and `proj` (the projection of `v2` onto `v1`). -/
def proj (v1 v2 : Fin n → K) : Fin n → K := (v2 ⬝ᵥ v1 / v1 ⬝ᵥ v1) • v1

/-- The indices `0, ..., i-1`. (toroidalcoords.py 387-400, 413.) -/
def below (i : Fin n) : List (Fin n) := (List.finRange n).filter (· < i)

/-- toroidalcoords.py 379-401, `_gram_schmidt`.  Note `Aj = B[:, j]` (line 396): the vector is projected onto the
columns of `B`, not on those of the result. -/
def gramSchmidt (B : Matrix (Fin n) (Fin n) K) : Matrix (Fin n) (Fin n) K :=
  Matrix.of fun r i => ((below i).foldl (fun Ai j => Ai - proj (B.col j) Ai) (B.col i)) r

/-- toroidalcoords.py 410-413, `mu`.  `Q` is always `_gram_schmidt(B)` for the current `B`. -/
def lllMu (B : Matrix (Fin n) (Fin n) K) (i j : Fin n) : K :=
  B.col i ⬝ᵥ (gramSchmidt B).col j / (gramSchmidt B).col j ⬝ᵥ (gramSchmidt B).col j

/-- The variables of the `while` loop: `B`, `change` and `k`. (toroidalcoords.py 403-435.) -/
structure LLLState (K : Type) (n : ℕ) where
  B : Matrix (Fin n) (Fin n) K
  change : Matrix (Fin n) (Fin n) K
  k : ℕ

/-- toroidalcoords.py 418-423: one pass of the length reduction loop (index `j`). -/
def lengthReduce (k : Fin n) (s : Matrix (Fin n) (Fin n) K × Matrix (Fin n) (Fin n) K) (j : Fin n) :
    Matrix (Fin n) (Fin n) K × Matrix (Fin n) (Fin n) K :=
  if 1 / 2 < |lllMu s.1 k j| then
    let r : K := (rint (lllMu s.1 k j) : ℤ)
    (s.1.updateCol k (s.1.col k - r • s.1.col j), s.2.updateCol k (s.2.col k - r • s.2.col j))
  else s

/-- toroidalcoords.py 430-434: exchange of two columns. -/
def swapCols (B : Matrix (Fin n) (Fin n) K) (k k1 : Fin n) : Matrix (Fin n) (Fin n) K :=
  (B.updateCol k (B.col k1)).updateCol k1 (B.col k)

/-- toroidalcoords.py 416-437: one iteration of `while k < n` (`k ≥ 1` throughout). -/
def lllStep (delta : K) (s : LLLState K n) : LLLState K n :=
  if h : s.k < n then
    let k : Fin n := ⟨s.k, h⟩
    let k1 : Fin n := ⟨s.k - 1, by omega⟩
    let (B, change) := (below k).reverse.foldl (lengthReduce k) (s.B, s.change)
    let Q := gramSchmidt B
    if (delta - lllMu B k k1 ^ 2) * (Q.col k1 ⬝ᵥ Q.col k1) < Q.col k ⬝ᵥ Q.col k then
      ⟨B, change, s.k + 1⟩
    else
      ⟨swapCols B k k1, swapCols change k k1, max (s.k - 1) 1⟩
  else s

/-- The state after at most `m` iterations. (toroidalcoords.py 411-435.) -/
def lllRun (delta : K) (m : ℕ) (s : LLLState K n) : LLLState K n := (lllStep delta)^[m] s

/-- toroidalcoords.py 404-408 and 415: the initial state (`np.eye`, `k = 1`). -/
def lllInit (B : Matrix (Fin n) (Fin n) K) : LLLState K n := ⟨B, 1, 1⟩

/-- toroidalcoords.py 404-439, `_lll` with `delta = 3/4`.  `none` means that the loop has not ended after `fuel`
iterations; the Python function diverges iff this is `none` for every `fuel`. -/
def lll (fuel : ℕ) (B : Matrix (Fin n) (Fin n) K) : Option (Matrix (Fin n) (Fin n) K × Matrix (Fin n) (Fin n) K) :=
  let s := lllRun (3 / 4 : K) fuel (lllInit B)
  if s.k < n then none else some (s.B, s.change)

end Dreimac
