import Verif.Props.Holonomy
import Verif.Props.WindingExamples

/-! # Concrete cases of C107: once around the octagon -/

namespace Dreimac

open Real

theorem octProj_covered (p v : ℤ) : ∀ i < (octProj p v).nData, ∃ l < (octProj p v).nLand, (octProj p v).dist l i < 3 / 2 := by
  intro i hi
  have hi' : i < 8 := hi
  have key : ∀ i < 8, ∃ l < 4, octDist l i ≤ 1 := by decide +kernel
  obtain ⟨l, hl, h⟩ := key i hi'
  refine ⟨l, hl, ?_⟩
  show ((octDist l i : ℕ) : ℝ) < _
  have : ((octDist l i : ℕ) : ℝ) ≤ (1 : ℕ) := by exact_mod_cast h
  push_cast at this; linarith

/-- C107 (real projective): the coordinates in the projective 3-space change sign once around the octagon. -/
example (eigh : Eigh ℝ) (he : EighSpec eigh) : ∃ X : Arr ℝ,
    (projGetCoordinates eigh 4 (octProj 2 1) (octProjArgs .direct 3)).2 = .ok X ∧
    ∃ y : ℕ → ℕ → ℝ, (∀ i < 8, ∀ k < 4, X.at' i k = some (y i k)) ∧
      ∏ q ∈ Finset.range 8, ∑ k ∈ Finset.range 4, y (q % 8) k * y ((q + 1) % 8) k < 0 := by
  obtain ⟨X, r, h1, h2, h3, h4, h5⟩ := C84_projective_returns eigh 4 (octProj 2 1) (octProjArgs .direct 3) (octProj_wf 2 1)
    2 4 (1 / 2) _ (octProj_class 2 1) (by simp) rfl (by norm_num [octProjArgs]) positiveBump_linear (by simp [octProjArgs]) 3
    rfl (by norm_num) (by decide) (by decide)
  simp only [octProjArgs, Bool.false_eq_true, if_false] at h3
  obtain rfl : r = 3 / 2 := by linarith
  obtain ⟨w, V, β, -, -, h⟩ := C107_projective_holonomy (octProj_wf 2 1) positiveBump_linear h1 h2
    (octProj_class 2 1).stored (octCochain_represents 1) octObj_triangle
    (fun i j k h => absurd h (octObj_no_triangle i j k)) he (octProj_covered 2 1) 3 rfl (by decide)
  obtain ⟨y, hy, hl⟩ := h (Or.inl rfl)
  have h5' : X.cols = 4 := h5
  rw [h5'] at hy hl
  exact ⟨X, h1, y, hy, (hl 8 _ _ oct_loop (fun q _ => Nat.mod_lt _ (by norm_num))).2 (by decide +kernel)⟩

/-- C107 (lens): with prime 3 the product of the inner products of consecutive rows is not a positive number. -/
example (eigh : Eigh ℂ) (he : EighSpec eigh) : ∃ X : Arr ℂ,
    (lensGetCoordinates eigh 4 (octProj 3 2) (octProjArgs .exponential 4)).2 = .ok X ∧
    ∃ y : ℕ → ℕ → ℂ, (∀ i < 8, ∀ k < 4, X.at' i k = some (y i k)) ∧
      ¬ ∃ ρ : ℝ, 0 < ρ ∧ ∏ q ∈ Finset.range 8, rowInner 4 y (q % 8) ((q + 1) % 8) = ρ := by
  obtain ⟨X, r, h1, h2, h3, h4, h5⟩ := C84_lens_returns eigh 4 (octProj 3 2) (octProjArgs .exponential 4) (octProj_wf 3 2)
    2 4 (1 / 2) _ (octProj_class 3 2) rfl (by norm_num [octProjArgs]) positiveBump_linear (by simp [octProjArgs]) 4 rfl
    (by norm_num) (by decide) (by decide)
  simp only [octProjArgs, Bool.false_eq_true, if_false] at h3
  obtain rfl : r = 3 / 2 := by linarith
  obtain ⟨w, V, β, -, -, h⟩ := C107_lens_holonomy (octProj_wf 3 2) (by decide) positiveBump_linear h1 h2
    (octProj_class 3 2).stored (octCochain_represents 2) octObj_triangle
    (fun i j k h => absurd h (octObj_no_triangle i j k)) he (octProj_covered 3 2) 4 rfl (by norm_num) (by decide)
  obtain ⟨y, hy, hl⟩ := h (Or.inl rfl)
  have h5' : X.cols = 4 := h5
  rw [h5'] at hy hl
  refine ⟨X, h1, y, hy, fun hpos => ?_⟩
  have := ((hl 8 _ _ oct_loop (fun q _ => Nat.mod_lt _ (by norm_num))).2).1 hpos
  revert this
  show ¬ (3 : ℤ) ∣ _
  decide +kernel

/-- Correct eigenvector routines exist. -/
example : (∃ eigh : Eigh ℝ, EighSpec eigh) ∧ ∃ eigh : Eigh ℂ, EighSpec eigh := ⟨exists_eighSpec, exists_eighSpec⟩

end Dreimac
