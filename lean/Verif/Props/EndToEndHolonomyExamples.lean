import Verif.Props.EndToEndHolonomy
import Verif.Props.EndToEndWindingExamples

/-! # Concrete cases of C112 -/

namespace Dreimac

open Real

theorem oct_covered (a : ℤ) : ∀ i < octInput.nPoints, ∃ u ∈ (octRipser a).idxPerm, octδ u i < 3 / 2 := by
  intro i hi
  have key : ∀ i < 8, ∃ u ∈ [0, 4, 2, 6], cyc8 u i ≤ 1 := by decide +kernel
  obtain ⟨u, hu, h⟩ := key i hi
  refine ⟨u, hu, ?_⟩
  have : ((cyc8 u i : ℕ) : ℝ) ≤ (1 : ℕ) := by exact_mod_cast h
  unfold octδ; push_cast at this; linarith

/-- C112: once around the octagon, the product of the inner products of the rows of the lens coordinates with prime 3 is not
positive: it has the phase `exp(-4πi / 3)`. -/
example (eigh : Eigh ℂ) (he : EighSpec eigh) : ∃ o X, ∃ y : ℕ → ℕ → ℂ, lensInit idealArgsort (octRipser 2) octInput 3 1 = .ok o ∧
    (lensGetCoordinates eigh 4 o ⟨.fin (1 / 2), .int 0, 4, bumpLinear, false, true, .exponential⟩).2 = .ok X ∧
    (∀ i < 8, ∀ m < 4, X.at' i m = some (y i m)) ∧
    ¬ ∃ ρ : ℝ, 0 < ρ ∧ ∏ q ∈ Finset.range 8, ∑ m ∈ Finset.range 4, star (y (q % 8) m) * y ((q + 1) % 8) m = ρ := by
  obtain ⟨o, dgm, coc, σ, h1, h5, h6, h7, h8⟩ := C112_lens_holonomy octInput octInput_describes
    (octRipser_spec 3 2 (by norm_num) (by norm_num)) idealArgsort idealArgsort_spec le_rfl (by norm_num) (fun _ => rfl) (by norm_num)
  simp only [octRipser] at h5 h6
  simp at h5 h6
  subst h5 h6
  have hσ : σ = [0] := List.perm_singleton.1 h7.1
  subst hσ
  obtain ⟨ξ, hξ, h9⟩ := h8 0 0 2 4 _ rfl rfl rfl
  obtain rfl := hξ.unique (octξ_lists 2)
  obtain ⟨X, y, e1, -, -, e2, e3⟩ := h9 eigh 4 [] (1 / 2) false true bumpLinear .exponential he le_rfl
    (by norm_num) positiveBump_linear (by simp) (3 / 2) (by norm_num) (belowDeath_id.2 (by norm_num)) (oct_covered 2)
  rw [octS_eq] at e3
  refine ⟨o, X, y, h1, e1, e2, ?_⟩
  rw [(e3 8 _ _ oct_dataLoop).2]
  have : pathValue (octξ 2) 8 (fun (q : ℕ) => (q + 1) / 2 * 2 % 8) = 2 := by decide +kernel
  rw [this]; decide

/-- C112: once around the octagon, the product for the projective coordinates is negative. -/
example (eigh : Eigh ℝ) (he : EighSpec eigh) : ∃ o X, ∃ y : ℕ → ℕ → ℝ, projInit idealArgsort (octRipser 1) octInput 1 = .ok o ∧
    (projGetCoordinates eigh 4 o ⟨.fin (1 / 2), .int 0, 3, bumpLinear, false, true, .direct⟩).2 = .ok X ∧
    (∀ i < 8, ∀ m < 4, X.at' i m = some (y i m)) ∧
    ∏ q ∈ Finset.range 8, ∑ m ∈ Finset.range 4, y (q % 8) m * y ((q + 1) % 8) m < 0 := by
  obtain ⟨o, dgm, coc, σ, h1, h5, h6, h7, h8⟩ := C112_projective_holonomy octInput octInput_describes
    (octRipser_spec 2 1 (by norm_num) (by norm_num)) idealArgsort idealArgsort_spec le_rfl (by norm_num) (fun _ => rfl)
  simp only [octRipser] at h5 h6
  simp at h5 h6
  subst h5 h6
  have hσ : σ = [0] := List.perm_singleton.1 h7.1
  subst hσ
  obtain ⟨ξ, hξ, h9⟩ := h8 0 0 2 4 _ rfl rfl rfl
  obtain rfl := hξ.unique (octξ_lists 1)
  obtain ⟨X, y, e1, -, -, e2, e3⟩ := h9 eigh 4 [] (1 / 2) false true bumpLinear .direct he le_rfl
    (by norm_num) positiveBump_linear (by simp) (3 / 2) (by norm_num) (belowDeath_id.2 (by norm_num)) (oct_covered 1)
  rw [octS_eq] at e3
  refine ⟨o, X, y, h1, e1, e2, (e3 8 _ _ oct_dataLoop).2 ?_⟩
  have : pathValue (octξ 1) 8 (fun (q : ℕ) => (q + 1) / 2 * 2 % 8) = 1 := by decide +kernel
  rw [this]; decide

/-- A correct eigenvector routine exists. -/
example : (∃ eigh : Eigh ℂ, EighSpec eigh) ∧ ∃ eigh : Eigh ℝ, EighSpec eigh := ⟨exists_eighSpec, exists_eighSpec⟩

end Dreimac
