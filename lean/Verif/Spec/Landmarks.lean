import Mathlib.Data.Real.Basic

/-!
# Specification vocabulary: landmarks chosen by farthest point sampling (independent of the model)
-/

namespace Dreimac

/-- Every landmark but the first is a row as far as possible from the earlier ones: no row is farther from all earlier
landmarks (this is how ripser chooses landmarks). -/
def FarthestLandmarks (n : ℕ) (δ : ℕ → ℕ → ℝ) (S : List ℕ) : Prop :=
  ∀ l, 0 < l → ∀ (h : l < S.length), ∀ x < n, ∀ j, ∀ (hj : j < l), ∃ m, ∃ (hm : m < l), δ S[m] x ≤ δ S[j] S[l]

/-- The `n` rows can be split into `k` groups such that two rows of the same group are at distance less than `r`. -/
def SplitsIntoGroups (n k : ℕ) (δ : ℕ → ℕ → ℝ) (r : ℝ) : Prop :=
  ∃ g : ℕ → ℕ, (∀ x < n, g x < k) ∧ ∀ x < n, ∀ y < n, g x = g y → δ x y < r

end Dreimac
