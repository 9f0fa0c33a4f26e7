import Verif.Spec.Eigh

/-! # Specification vocabulary: normalised orthogonal projections (independent of the model of the code) -/

namespace Dreimac

variable {𝕜 : Type} [RCLike 𝕜]

/-- The vectors `y 0, ..., y (N - 1)` of `𝕜 ^ D` are obtained from the vectors `a 0, ..., a (N - 1)` of `𝕜 ^ d` by orthogonal
projection to the span of `D` orthonormal vectors `v` and scaling to length one: `s i` is the length of the projection of `a i`,
and `y i` are its coordinates, divided by this length. -/
structure IsNormalizedProjection (D d N : ℕ) (v a y : ℕ → ℕ → 𝕜) (s : ℕ → ℝ) : Prop where
  ortho : OrthonormalVecs D d v
  pos : ∀ i < N, 0 < s i
  unit : ∀ i < N, ∑ k ∈ Finset.range D, ‖y i k‖ ^ 2 = 1
  comp : ∀ i < N, ∀ k < D, ∑ m ∈ Finset.range d, star (v k m) * a i m = (s i : 𝕜) * y i k

/-- For a unit vector whose projection to a subspace has length `s`: its distance from the subspace. -/
noncomputable def lost (s : ℝ) : ℝ := Real.sqrt (1 - s ^ 2)

/-- The overlap of the weights of two data points. -/
noncomputable def dataOverlap (S : Finset ℕ) (w : ℕ → ℕ → ℝ) (i j : ℕ) : ℝ := ∑ v ∈ S, Real.sqrt (w v i) * Real.sqrt (w v j)

/-- The vectors `v` are orthonormal and capture as much of the energy of the data `a` as any other orthonormal vectors. -/
def CapturesMost {𝕜 : Type} [RCLike 𝕜] (D d N : ℕ) (v a : ℕ → ℕ → 𝕜) : Prop :=
  OrthonormalVecs D d v ∧ ∀ w, OrthonormalVecs D d w → capturedEnergy D d N w a ≤ capturedEnergy D d N v a

end Dreimac
