import Verif.Spec.Dataset

/-!
# Specification vocabulary: classes that do not vanish, seen on the data (independent of the model of the code)

`S` is the set of landmarks (as data points), `N` the number of data points, `δ u i` the distance from `u` to `i`.
-/

namespace Dreimac

/-- Modulo `p`, the values of `ξ` on the pairs of landmarks related by `E` are the differences of a function on the landmarks. -/
def IsDifferenceMod (p : ℤ) (S : Finset ℕ) (E : ℕ → ℕ → Prop) (ξ : ℕ → ℕ → ℤ) : Prop :=
  ∃ g : ℕ → ℤ, ∀ u ∈ S, ∀ v ∈ S, E u v → p ∣ ξ u v - (g v - g u)

/-- What ripser promises about the birth of a class: on the Rips complex at the birth `b` (pairs at distance at most `b`, in
ripser's precision) its cocycle is not a difference modulo `p`. -/
def BornAt (ρ : ℝ → ℝ) (p : ℤ) (S : Finset ℕ) (δ : ℕ → ℕ → ℝ) (b : ℝ) (ξ : ℕ → ℕ → ℤ) : Prop :=
  ¬ IsDifferenceMod p S (fun u v => ρ (δ u v) ≤ b) ξ

/-- The same for several classes: at the latest birth `B`, no combination of the cocycles is a difference modulo `p`, except
those whose coefficients are all divisible by `p`. -/
def IndependentAt (ρ : ℝ → ℝ) (p : ℤ) (S : Finset ℕ) (δ : ℕ → ℕ → ℝ) (B : ℝ) {m : ℕ} (ξ : Fin m → ℕ → ℕ → ℤ) : Prop :=
  ∀ n : Fin m → ℤ, IsDifferenceMod p S (fun u v => ρ (δ u v) ≤ B) (fun u v => ∑ a, n a * ξ a u v) → ∀ a, p ∣ n a

/-- The balls of radius `r` around two landmarks at distance at most `b` (in ripser's precision) have a common data point. -/
def Bridged (ρ : ℝ → ℝ) (S : Finset ℕ) (N : ℕ) (δ : ℕ → ℕ → ℝ) (b r : ℝ) : Prop :=
  ∀ u ∈ S, ∀ v ∈ S, ρ (δ u v) ≤ b → ∃ i < N, δ u i < r ∧ δ v i < r

/-- The weights change little within each ball, compared with the bound `M` of the form. -/
def SmallBalls (S : Finset ℕ) (N : ℕ) (δ : ℕ → ℕ → ℝ) (r : ℝ) (w : ℕ → ℕ → ℝ) (M : ℝ) : Prop :=
  M ≤ 1 / 4 ∨ ∀ u ∈ S, ∀ i < N, ∀ i' < N, δ u i < r → δ u i' < r → M * ∑ v ∈ S, |w v i' - w v i| < 1 / 2

/-- `P i i'` holds for all pairs of data points in a common ball. -/
def OnCommonBalls (S : Finset ℕ) (N : ℕ) (δ : ℕ → ℕ → ℝ) (r : ℝ) (P : ℕ → ℕ → Prop) : Prop :=
  ∀ u ∈ S, ∀ i < N, ∀ i' < N, δ u i < r → δ u i' < r → P i i'

/-- Modulo `p`, the values of `c` on the triples of landmarks related by `E` are the coboundary of an antisymmetric function of pairs. -/
def IsDifferenceMod2 (p : ℤ) (S : Finset ℕ) (E : ℕ → ℕ → Prop) (c : ℕ → ℕ → ℕ → ℤ) : Prop :=
  ∃ m : ℕ → ℕ → ℤ, (∀ u ∈ S, ∀ v ∈ S, m v u = -m u v) ∧
    ∀ u ∈ S, ∀ v ∈ S, ∀ z ∈ S, E u v → E v z → E u z → p ∣ c u v z - (m u v + m v z - m u z)

/-- What ripser promises about the birth of a class of dimension 2: on the Rips complex at the birth `b`, its cocycle is not a
coboundary modulo `p`. -/
def BornAt2 (ρ : ℝ → ℝ) (p : ℤ) (S : Finset ℕ) (δ : ℕ → ℕ → ℝ) (b : ℝ) (c : ℕ → ℕ → ℕ → ℤ) : Prop :=
  ¬ IsDifferenceMod2 p S (fun u v => ρ (δ u v) ≤ b) c

/-- The balls of radius `r` around three landmarks at pairwise distances at most `b` (in ripser's precision) have a common data
point. -/
def Bridged2 (ρ : ℝ → ℝ) (S : Finset ℕ) (N : ℕ) (δ : ℕ → ℕ → ℝ) (b r : ℝ) : Prop :=
  ∀ u ∈ S, ∀ v ∈ S, ∀ z ∈ S, ρ (δ u v) ≤ b → ρ (δ v z) ≤ b → ρ (δ u z) ≤ b → ∃ i < N, δ u i < r ∧ δ v i < r ∧ δ z i < r

end Dreimac
