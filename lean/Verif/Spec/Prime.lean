import Verif.Spec.Dataset

/-!
# Specification vocabulary: one integer cochain and its reductions modulo two primes (independent of the model of the code)
-/

namespace Dreimac

/-- The integer cochain `c` is small compared with `p` and reduces to `ξ` modulo `p`. -/
def SmallReduction (p : ℤ) (S : Finset ℕ) (ξ c : ℕ → ℕ → ℤ) : Prop := ∀ u ∈ S, ∀ v ∈ S, p ∣ c u v - ξ u v ∧ |2 * c u v| < p

/-- The integer cochain `c` satisfies the cocycle condition on all triples of landmarks with pairwise distances below `t`. -/
def IsDataCocycle (S : Finset ℕ) (δ : ℕ → ℕ → ℝ) (t : ℝ) (c : ℕ → ℕ → ℤ) : Prop :=
  ∀ u ∈ S, ∀ v ∈ S, ∀ w ∈ S, δ u v < t → δ v w < t → δ u w < t → c u v + c v w = c u w

end Dreimac
