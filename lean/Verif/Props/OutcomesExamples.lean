import Verif.Props.Outcomes
import Verif.Props.ConstructExamples

/-!
# Concrete data for C121: the octagon with four landmarks
-/

namespace Dreimac

/-- C121 for the octagon: the same class four times, with the cocycle check.  The call ends; it does not fail because of the
arguments, since the class exists. -/
example (history : List (ℕ × Args)) :
    ∃ o N out, toroInit idealArgsort (octRipser 2) octInput 4 3 1 = .ok o ∧
      (∀ fuel, N ≤ fuel → (getCoordinates idealEnv fuel (afterCalls idealEnv o history)
        ⟨.fin (1 / 2), [.int 0, .int 0, .int (-1), .int 0], bumpLinear, false, true⟩).2 = out) ∧
      out ≠ .error .outOfFuel ∧ out ≠ .error .indexError ∧ out ≠ .error .assertionError := by
  obtain ⟨o, dgm, σ, h1, h2, -, h3⟩ := C121_every_call_ends octInput octInput_describes
    (octRipser_spec 3 2 (by norm_num) (by norm_num)) idealArgsort idealArgsort_spec le_rfl (by norm_num) (by norm_num)
    (fun _ => rfl) idealEnv idealCholesky_spec
  simp only [octRipser] at h2
  simp at h2
  subst h2
  obtain ⟨N, out, hN, ho⟩ := h3 history ⟨.fin (1 / 2), [.int 0, .int 0, .int (-1), .int 0], bumpLinear, false, true⟩
    (by simp) (by norm_num)
  refine ⟨o, N, out, h1, hN, ?_⟩
  cases ho with
  | outOfRange l l' z h h' hz =>
    exfalso
    have : ClassArg.int z ∈ [ClassArg.int 0, .int 0, .int (-1), .int 0] := by
      change [ClassArg.int 0, .int 0, .int (-1), .int 0] = _ at h
      rw [h]; simp
    simp at this hz
    omega
  | notAnInteger l l' h h' =>
    exfalso
    have : ClassArg.nonInt ∈ [ClassArg.int 0, .int 0, .int (-1), .int 0] := by
      change [ClassArg.int 0, .int 0, .int (-1), .int 0] = _ at h
      rw [h]; simp
    simp at this
  | _ => simp

/-- C121 for the octagon: the first wrong index decides. -/
example (history : List (ℕ × Args)) :
    ∃ o N, toroInit idealArgsort (octRipser 2) octInput 4 3 1 = .ok o ∧
      ∀ fuel, N ≤ fuel → (getCoordinates idealEnv fuel (afterCalls idealEnv o history)
        ⟨.fin (1 / 2), [.int 0, .int (-2), .nonInt], bumpLinear, false, true⟩).2 = .error .indexError := by
  obtain ⟨o, dgm, σ, h1, h2, hσ, h3⟩ := C121_every_call_ends octInput octInput_describes
    (octRipser_spec 3 2 (by norm_num) (by norm_num)) idealArgsort idealArgsort_spec le_rfl (by norm_num) (by norm_num)
    (fun _ => rfl) idealEnv idealCholesky_spec
  simp only [octRipser] at h2
  simp at h2
  subst h2
  have hσ : σ = [0] := List.perm_singleton.1 hσ.1
  subst hσ
  obtain ⟨N, out, hN, ho⟩ := h3 history ⟨.fin (1 / 2), [.int 0, .int (-2), .nonInt], bumpLinear, false, true⟩
    (by simp) (by norm_num)
  refine ⟨o, N, h1, fun fuel hf => ?_⟩
  rw [hN fuel hf]
  refine (C121_argument_errors ho).2.2.1.2 ⟨[.int 0], [.nonInt], -2, rfl, ?_, Or.inl (by simp)⟩
  intro idx hidx
  simp at hidx
  subst hidx
  exact ⟨_, 0, 0, by simp, Or.inl rfl, rfl, rfl⟩

end Dreimac
