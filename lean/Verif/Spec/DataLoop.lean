import Verif.Spec.Winding
import Verif.Spec.Dataset

/-!
# Specification vocabulary: closed paths of data points and landmarks (independent of the model of the code)
-/

namespace Dreimac

/-- A closed path of data points `i 0, ..., i n = i 0` and of landmarks `l 0, ..., l n = l 0` such that the ball of radius
`r` around landmark `l q` contains the `q`-th data point and the next one. -/
structure DataLoop (S : Finset ℕ) (N : ℕ) (δ : ℕ → ℕ → ℝ) (r : ℝ) (n : ℕ) (i l : ℕ → ℕ) : Prop where
  pos : 0 < n
  closed_data : i n = i 0
  closed_land : l n = l 0
  data : ∀ q < n, i q < N
  land : ∀ q < n, l q ∈ S
  here : ∀ q < n, δ (l q) (i q) < r
  next : ∀ q < n, δ (l q) (i (q + 1)) < r

/-- The value of a 1-cochain on the closed path of landmarks `l 0, ..., l n`. -/
def pathValue (c : ℕ → ℕ → ℤ) (n : ℕ) (l : ℕ → ℕ) : ℤ := ∑ q ∈ Finset.range n, c (l q) (l (q + 1))

/-- `M` bounds the values of the form `c - df` on pairs of landmarks closer than `t`. -/
def FormBound (S : Finset ℕ) (δ : ℕ → ℕ → ℝ) (t : ℝ) (c : ℕ → ℕ → ℤ) (f : ℕ → ℝ) (M : ℝ) : Prop :=
  ∀ u ∈ S, ∀ v ∈ S, δ u v < t → |(c u v : ℝ) - (f u - f v)| ≤ M

/-- The steps of the path are small, compared with the bound `M` of the form: `M ≤ 1/4`, or the weights change by less than
`1 / (2 M)` in total from each point to the next one. -/
def SmallSteps (S : Finset ℕ) (w : ℕ → ℕ → ℝ) (M : ℝ) (n : ℕ) (i : ℕ → ℕ) : Prop :=
  M ≤ 1 / 4 ∨ ∀ q < n, M * ∑ v ∈ S, |w v (i (q + 1)) - w v (i q)| < 1 / 2

end Dreimac
