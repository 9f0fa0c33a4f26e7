import Mathlib.Algebra.Order.Round
import Mathlib.Algebra.BigOperators.Group.Finset.Basic
import Mathlib.Algebra.Order.Floor.Ring

/-!
# Specification vocabulary: numbers of turns measured with a machine number `tau` for a full turn (independent of the model)
-/

namespace Dreimac

section
variable {K : Type} [Field K] [LinearOrder K] [IsStrictOrderedRing K] [FloorRing K]

/-- The shortest way from the angle `x` to the angle `y`, if a full turn is `tau`. -/
def shortStep (tau x y : K) : K := (y - x) - tau * round ((y - x) / tau)

/-- The number of turns of the angles `y 0, ..., y n`. -/
def turnsOf (tau : K) (n : ℕ) (y : ℕ → K) : K := (∑ q ∈ Finset.range n, shortStep tau (y q) (y (q + 1))) / tau

end

end Dreimac
