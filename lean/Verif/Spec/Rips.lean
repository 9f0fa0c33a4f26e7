import Mathlib.Algebra.Ring.Defs
import Mathlib.Data.Nat.Choose.Basic

/-!
# Specification vocabulary: the Rips complex and coboundaries (independent of the model)

`dist` is read only above the diagonal, as in the code; vertices are `0, …, n-1`.
-/

namespace Dreimac

variable {K : Type} [LT K]

/-- `{i < j}` is an edge of the Rips complex on `n` vertices at the (open) threshold. -/
def RipsEdge (n : ℕ) (dist : ℕ → ℕ → K) (t : K) (i j : ℕ) : Prop := i < j ∧ j < n ∧ dist i j < t

/-- `{i < j < k}` is a triangle of the Rips complex. -/
def RipsTriangle (n : ℕ) (dist : ℕ → ℕ → K) (t : K) (i j k : ℕ) : Prop :=
  RipsEdge n dist t i j ∧ RipsEdge n dist t j k ∧ RipsEdge n dist t i k

/-- `{i < j < k < l}` is a tetrahedron of the Rips complex. -/
def RipsTetra (n : ℕ) (dist : ℕ → ℕ → K) (t : K) (i j k l : ℕ) : Prop :=
  RipsTriangle n dist t i j k ∧ RipsEdge n dist t i l ∧ RipsEdge n dist t j l ∧ RipsEdge n dist t k l

/-- The slots of edges and triangles in dense vectors: the colexicographic index `C(i,1) + C(j,2) (+ C(k,3))`
(see C01, C02). -/
def edgeIdx (i j : ℕ) : ℕ := Nat.choose i 1 + Nat.choose j 2

@[inherit_doc edgeIdx]
def triIdx (i j k : ℕ) : ℕ := Nat.choose i 1 + Nat.choose j 2 + Nat.choose k 3

end Dreimac
