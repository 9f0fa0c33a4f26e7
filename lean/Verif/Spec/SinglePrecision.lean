import Verif.Spec.Rounding
import Mathlib.Data.Real.Archimedean

/-!
# Specification vocabulary: the conversion of distances to another precision (independent of the code)

ripser stores the distances as 32-bit floats; the code that calls it works with 64-bit floats.
-/

namespace Dreimac

/-- `ρ` converts numbers to another format, monotonically, with relative error `u` and absolute error `η`. -/
structure Converts (ρ : ℝ → ℝ) (u η : ℝ) : Prop where
  mono : Monotone ρ
  error : ∀ x, |ρ x - x| ≤ u * |x| + η

/-- The conversion to the format of NumPy's `float32` (24 bits, exponents from -126, rounding to nearest, ties to even), for
numbers that do not overflow. -/
noncomputable def single (x : ℝ) : ℝ := roundUnbounded 24 (-126) x

end Dreimac
