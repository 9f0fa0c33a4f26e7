import Mathlib.Analysis.SpecialFunctions.Trigonometric.Angle
import Verif.Spec.Circular

/-!
# Specification vocabulary: how often a sequence of angles turns around the circle

`y 0, y 1, ..., y n` are angles.  From each angle to the next one goes the short way around the circle.
-/

namespace Dreimac

open Real

/-- The signed length, in `(-π, π]`, of the short way around the circle from the angle `x` to the angle `y`. -/
noncomputable def angleStep (x y : ℝ) : ℝ := ((y - x : ℝ) : Real.Angle).toReal

/-- The number of turns (fractional, if the last angle is not the first one) made by `y 0, ..., y n`. -/
noncomputable def turns (n : ℕ) (y : ℕ → ℝ) : ℝ := (∑ q ∈ Finset.range n, angleStep (y q) (y (q + 1))) / (2 * π)

/-- A closed path of data points `i 0, ..., i n = i 0` and of landmarks `l 0, ..., l n = l 0` such that the ball of radius
`r` around landmark `l q` contains the `q`-th data point and the next one. -/
structure LoopInCover (L : ℕ) (dist : ℕ → ℕ → ℝ) (r : ℝ) (n : ℕ) (i l : ℕ → ℕ) : Prop where
  pos : 0 < n
  closed_data : i n = i 0
  closed_land : l n = l 0
  here : ∀ q < n, InBall L dist r (l q) (i q)
  next : ∀ q < n, InBall L dist r (l q) (i (q + 1))

/-- The value of an integer 1-cochain on the closed edge path `l 0, ..., l n` of landmarks. -/
def loopVal (c : ℕ → ℤ) (n : ℕ) (l : ℕ → ℕ) : ℤ := ∑ q ∈ Finset.range n, edgeVal c (l q) (l (q + 1))

end Dreimac
