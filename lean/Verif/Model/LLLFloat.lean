import Verif.Model.Float
import Verif.Model.LLL

/-!
# The lattice reduction in rounded arithmetic (toroidalcoords.py 376-437)

As `Model/LLL`, but with entries in `Fl K` (including `nan` and infinities) and a rounding after each operation.  `dot` is
`np.dot` of two vectors: any function.
-/

namespace Dreimac

open Fl

/-- A column operation on a matrix: subtract `z` times column `j` from column `k`, or exchange two columns. (toroidalcoords.py 416-432.) -/
inductive ColOp (n : ℕ) where
  | reduce (k j : Fin n) (z : ℤ)
  | swap (k j : Fin n)

section
variable {K : Type} [Field K] [LinearOrder K] [IsStrictOrderedRing K] [FloorRing K] {n : ℕ}

/-- A matrix of floats (row, column). (toroidalcoords.py 380-437.) -/
abbrev FMat (K : Type) (n : ℕ) := Fin n → Fin n → Fl K

/-- Column `j`. (toroidalcoords.py 380-437.) -/
def FMat.col {K : Type} {n : ℕ} (B : FMat K n) (j : Fin n) : Fin n → Fl K := fun r => B r j

/-- `B[:, k] = v`. (toroidalcoords.py 417-418, 424-432.) -/
def FMat.setCol {K : Type} {n : ℕ} (B : FMat K n) (k : Fin n) (v : Fin n → Fl K) : FMat K n :=
  fun r c => if c = k then v r else B r c

variable (rnd : K → Fl K) (dot : (Fin n → Fl K) → (Fin n → Fl K) → Fl K)

/-- toroidalcoords.py 382-387: `proj`. -/
def projF (v1 v2 : Fin n → Fl K) : Fin n → Fl K :=
  fun r => Fl.round rnd (Fl.round rnd (dot v2 v1 / dot v1 v1) * v1 r)

/-- toroidalcoords.py 379-401, `_gram_schmidt`. -/
def gramSchmidtF (B : FMat K n) : FMat K n :=
  fun r i => ((below i).foldl (fun Ai j => fun r => Fl.round rnd (Ai r - projF rnd dot (B.col j) Ai r)) (B.col i)) r

/-- toroidalcoords.py 410-413, `mu`. -/
def muF (B : FMat K n) (i j : Fin n) : Fl K :=
  let Q := gramSchmidtF rnd dot B
  Fl.round rnd (dot (B.col i) (Q.col j) / dot (Q.col j) (Q.col j))

/-- `abs` of a float. (toroidalcoords.py 415.) -/
def Fl.abs' : Fl K → Fl K
  | .fin x => .fin |x|
  | .ninf => .pinf
  | v => v

/-- The local variables: `B`, `change`; `trace` lists the column operations performed so far (it is not in the code; it is used
to state what the operations were). (toroidalcoords.py 403-435.) -/
structure LLLVarsF (K : Type) (n : ℕ) where
  B : FMat K n
  change : FMat K n
  trace : List (ColOp n)

/-- `A[:, k] - z * A[:, j]`, rounded. (toroidalcoords.py 417-418.) -/
def subCol (A : FMat K n) (k j : Fin n) (z : ℤ) : FMat K n :=
  A.setCol k fun r => Fl.round rnd (A r k - Fl.round rnd (Fl.fin (z : K) * A r j))

/-- toroidalcoords.py 418-423: one pass of the length reduction loop.  `round(inf)` raises `OverflowError`. -/
def lengthReduceF (k : Fin n) (s : LLLVarsF K n) (j : Fin n) : Except PyErr (LLLVarsF K n) :=
  let m := muF rnd dot s.B k j
  if Fl.lt (Fl.fin (1 / 2)) (Fl.abs' m) then
    match m with
    | .fin x => .ok ⟨subCol rnd s.B k j (rint x), subCol rnd s.change k j (rint x), s.trace ++ [.reduce k j (rint x)]⟩
    | _ => .error .overflowError
  else .ok s

/-- toroidalcoords.py 430-434: exchange of two columns. -/
def swapColsF (B : FMat K n) (k k1 : Fin n) : FMat K n := (B.setCol k (B.col k1)).setCol k1 (B.col k)

/-- toroidalcoords.py 416-437: one iteration of `while k < n`. -/
def lllStepF (delta : K) (s : LLLVarsF K n × ℕ) : Except PyErr (LLLVarsF K n × ℕ) :=
  if h : s.2 < n then do
    let k : Fin n := ⟨s.2, h⟩
    let k1 : Fin n := ⟨s.2 - 1, by omega⟩
    let v ← (below k).reverse.foldlM (lengthReduceF rnd dot k) s.1
    let Q := gramSchmidtF rnd dot v.B
    let m := muF rnd dot v.B k k1
    let m2 := Fl.round rnd (m * m)
    if Fl.lt (Fl.round rnd (Fl.round rnd (Fl.fin delta - m2) * dot (Q.col k1) (Q.col k1))) (dot (Q.col k) (Q.col k)) then
      pure (v, s.2 + 1)
    else
      pure (⟨swapColsF v.B k k1, swapColsF v.change k k1, v.trace ++ [.swap k k1]⟩, max (s.2 - 1) 1)
  else pure s

/-- At most `m` iterations of the loop. (toroidalcoords.py 411-435.) -/
def lllRunF (delta : K) : ℕ → LLLVarsF K n × ℕ → Except PyErr (LLLVarsF K n × ℕ)
  | 0, s => pure s
  | m + 1, s => do
    let t ← lllStepF rnd dot delta s
    lllRunF delta m t

/-- `np.eye(n)`. (toroidalcoords.py 404.) -/
def eyeF : FMat K n := fun r c => if r = c then Fl.fin 1 else Fl.fin 0

/-- toroidalcoords.py 404-415: the initial state. -/
def lllInitF (B : FMat K n) : LLLVarsF K n × ℕ := (⟨B, eyeF, []⟩, 1)

end

end Dreimac
