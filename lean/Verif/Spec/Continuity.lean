import Verif.Spec.Surface
import Verif.Spec.DataLoop

/-!
# Specification vocabulary: Lipschitz continuity (independent of the model of the code)
-/

namespace Dreimac

/-- The bump function for radius `r`, extended by zero to distances from `r` on, is Lipschitz with constant `Λ`. -/
def LipschitzBump (bump : Fl ℝ → Fl ℝ → Fl ℝ) (r Λ : ℝ) : Prop :=
  ∃ β : ℝ → ℝ, (∀ s, 0 ≤ s → s < r → bump (.fin s) (.fin r) = .fin (β s)) ∧ (∀ s, r ≤ s → β s = 0) ∧
    ∀ s t, 0 ≤ s → 0 ≤ t → |β s - β t| ≤ Λ * |s - t|

/-- Data points `i` and `j` are in the ball of the landmark `u`, where the bump function has the value `m` at `i`, and their
distances to each landmark differ by at most `ε` (for instance, if their distance is at most `ε`). -/
structure NearbyPoints (S : Finset ℕ) (N : ℕ) (δ : ℕ → ℕ → ℝ) (r : ℝ) (bump : Fl ℝ → Fl ℝ → Fl ℝ) (u i j : ℕ) (m ε : ℝ) : Prop where
  land : u ∈ S
  data : i < N ∧ j < N
  ball : δ u i < r ∧ δ u j < r
  height : bump (.fin (δ u i)) (.fin r) = .fin m
  near : ∀ v ∈ S, |δ v i - δ v j| ≤ ε

end Dreimac
