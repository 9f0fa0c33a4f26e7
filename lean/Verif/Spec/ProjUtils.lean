import Mathlib.LinearAlgebra.Matrix.Determinant.Basic
import Mathlib.Data.Real.Sqrt

/-!
# Specification vocabulary for vectors and matrices of size `d` (independent of the model)
-/

namespace Dreimac

/-- The inner product of the first `d` entries. -/
def dotP (d : ℕ) (x y : ℕ → ℝ) : ℝ := ∑ k ∈ Finset.range d, x k * y k

/-- A unit vector of length `d`. -/
def UnitVec (d : ℕ) (x : ℕ → ℝ) : Prop := dotP d x x = 1

/-- Not the zero vector. -/
def NonzeroVec (d : ℕ) (x : ℕ → ℝ) : Prop := ∃ k < d, x k ≠ 0

/-- The vector divided by its length. -/
noncomputable def direction (d : ℕ) (x : ℕ → ℝ) : ℕ → ℝ := fun k => x k / Real.sqrt (dotP d x x)

/-- Equality of the first `d` entries. -/
def EqVec (d : ℕ) (x y : ℕ → ℝ) : Prop := ∀ k < d, x k = y k

/-- The first `d` entries are opposite. -/
def NegVec (d : ℕ) (x y : ℕ → ℝ) : Prop := ∀ k < d, x k = - y k

/-- The square matrix with the entries `R i j`. -/
def toMat (d : ℕ) (R : ℕ → ℕ → ℝ) : Matrix (Fin d) (Fin d) ℝ := Matrix.of fun i j => R i j

/-- An orthogonal matrix of determinant 1. -/
def IsRotationMat (d : ℕ) (R : ℕ → ℕ → ℝ) : Prop := toMat d R * (toMat d R).transpose = 1 ∧ (toMat d R).det = 1

/-- The matrix applied to a vector. -/
def mulV (d : ℕ) (R : ℕ → ℕ → ℝ) (x : ℕ → ℝ) : ℕ → ℝ := fun i => dotP d (R i) x

/-- The last coordinate vector. -/
def lastVec (d : ℕ) : ℕ → ℝ := fun k => if k + 1 = d then 1 else 0

/-- The distance from `x` to the line through the unit vector `y`. -/
noncomputable def distToLine (d : ℕ) (x y : ℕ → ℝ) : ℝ :=
  Real.sqrt (dotP d (fun k => x k - dotP d x y * y k) (fun k => x k - dotP d x y * y k))

/-- The pole used by the projections: the direction of the given vector unless it is within `1e-15` of the last coordinate
axis, in which case it is the last coordinate vector. -/
def IsPole (d : ℕ) (u w : ℕ → ℝ) : Prop :=
  UnitVec d w ∧ (1 / 10 ^ 15 ≤ distToLine d (direction d u) (lastVec d) → EqVec d w (direction d u)) ∧
    (distToLine d (direction d u) (lastVec d) < 1 / 10 ^ 15 → EqVec d w (lastVec d))

end Dreimac
