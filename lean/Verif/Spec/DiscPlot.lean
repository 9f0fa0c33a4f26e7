import Verif.Spec.ProjUtils

/-! # Specification vocabulary: plots of a projective space in the disc -/

namespace Dreimac

/-- For two points of the closed unit disc of dimension `q`: the inner product of the points of the upper hemisphere they are the
stereographic projections of (from the south pole), up to the positive factor `(1 + |P|²) (1 + |Q|²)`. -/
def discPairing (q : ℕ) (P Q : ℕ → ℝ) : ℝ := 4 * dotP q P Q + (1 - dotP q P P) * (1 - dotP q Q Q)

end Dreimac
