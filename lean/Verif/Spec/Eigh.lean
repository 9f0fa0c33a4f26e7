import Mathlib.Algebra.BigOperators.Ring.Finset
import Verif.Model.Ppca

/-!
# What `numpy.linalg.eigh` promises, and what a principal component reduction is (C103, C104)

Nothing here refers to the model of `ppca`; `Arr` is a two-dimensional array, one data point per row.
-/

namespace Dreimac

variable {𝕜 : Type} [RCLike 𝕜]

/-- The first `m` vectors `w 0, w 1, ...` of `𝕜 ^ d` are orthonormal. -/
def OrthonormalVecs (m d : ℕ) (w : ℕ → ℕ → 𝕜) : Prop :=
  ∀ j < m, ∀ k < m, ∑ i ∈ Finset.range d, star (w j i) * w k i = if j = k then 1 else 0

/-- The documented behaviour of `numpy.linalg.eigh`: for a finite Hermitian matrix it returns an array whose columns are
orthonormal eigenvectors, in ascending order of the (real) eigenvalues `lam`. -/
def EighSpec (eigh : Eigh 𝕜) : Prop :=
  ∀ (n : ℕ) (G : ℕ → ℕ → Option 𝕜) (g : ℕ → ℕ → 𝕜), (∀ i < n, ∀ j < n, G i j = some (g i j)) →
    (∀ i < n, ∀ j < n, star (g i j) = g j i) →
    ∃ (U : ℕ → ℕ → Option 𝕜) (u : ℕ → ℕ → 𝕜) (lam : ℕ → ℝ), eigh n G = some U ∧
      (∀ i < n, ∀ j < n, U i j = some (u i j)) ∧ OrthonormalVecs n n (fun j i => u i j) ∧
      (∀ j < n, ∀ i < n, ∑ k ∈ Finset.range n, g i k * u k j = (lam j : 𝕜) * u i j) ∧
      ∀ j k, j ≤ k → k < n → lam j ≤ lam k

/-- The energy of the `N` data points `a 0, a 1, ...` in the span of the first `m` of the vectors `w 0, w 1, ...`: the sum of
the squared lengths of their components. -/
noncomputable def capturedEnergy (m d N : ℕ) (w a : ℕ → ℕ → 𝕜) : ℝ :=
  ∑ k ∈ Finset.range m, ∑ n ∈ Finset.range N, ‖∑ i ∈ Finset.range d, star (w k i) * a n i‖ ^ 2

/-- `B` is obtained from `A` by one principal component reduction to `m` dimensions: there are `m` orthonormal directions
that capture as much of the energy of the data as any `m` orthonormal directions can, and the new data points are the
components along these, scaled to length one (not-a-number if all components are zero).  (No claim if `A` is not finite.) -/
def IsPrincipalStep (m : ℕ) (A B : Arr 𝕜) : Prop :=
  B.rows = A.rows ∧ B.cols = m ∧
    ∀ a : ℕ → ℕ → 𝕜, (∀ n < A.rows, ∀ i < A.cols, A.at' n i = some (a n i)) →
      ∃ v : ℕ → ℕ → 𝕜, OrthonormalVecs m A.cols v ∧
        (∀ w, OrthonormalVecs m A.cols w → capturedEnergy m A.cols A.rows w a ≤ capturedEnergy m A.cols A.rows v a) ∧
        ∀ n < A.rows,
          (∃ (y : ℕ → 𝕜) (s : ℝ), 0 < s ∧ (∑ k ∈ Finset.range m, ‖y k‖ ^ 2 = 1) ∧ ∀ k < m,
            B.at' n k = some (y k) ∧ ∑ i ∈ Finset.range A.cols, star (v k i) * a n i = (s : 𝕜) * y k) ∨
          ∀ k < m, B.at' n k = none ∧ ∑ i ∈ Finset.range A.cols, star (v k i) * a n i = 0

/-- `B` is obtained from `A` by principal component reductions to the given numbers of dimensions, one after the other. -/
inductive PrincipalReduction : List ℕ → Arr 𝕜 → Arr 𝕜 → Prop
  | nil (A : Arr 𝕜) : PrincipalReduction [] A A
  | snoc {dims : List ℕ} {A B C : Arr 𝕜} (m : ℕ) : PrincipalReduction dims A B → IsPrincipalStep m B C →
      PrincipalReduction (dims ++ [m]) A C

end Dreimac
