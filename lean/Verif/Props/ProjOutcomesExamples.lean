import Verif.Props.ProjOutcomes
import Verif.Props.ConstructExamples
import Verif.Props.EndToEnd2Examples

/-!
# Concrete data for C122: the octagon with four landmarks, the octahedron
-/

namespace Dreimac

/-- The interval `[2, 4)` of the octagon. -/
theorem oct_selects (z : ℤ) (h : z = 0 ∨ z = -1) :
    SelectsInterval [(.fin 2, .fin 4)] [0] (.int z) ((.fin 2, .fin 4) : Fl ℝ × Fl ℝ) := by
  refine ⟨0, 0, by simp, ?_, rfl, rfl⟩
  rcases h with rfl | rfl <;> simp

theorem oct_long (std : Bool) : ¬ TooShort std ((.fin 2, .fin 4) : Fl ℝ × Fl ℝ) := by
  rintro ⟨b, d, he, h⟩
  simp only [Prod.mk.injEq, Fl.fin.injEq] at he
  obtain ⟨rfl, rfl⟩ := he
  cases std <;> norm_num at h

/-- C122 for a lens coordinate on the octagon: one complex dimension cannot be reached "one by one", whatever was called
before. -/
example (eigh : Eigh ℂ) (history : List ProjArgs) :
    ∃ o, lensInit idealArgsort (octRipser 2) octInput 3 1 = .ok o ∧
      (lensGetCoordinates eigh 2 (lensHistory eigh 2 o history)
        ⟨.fin (1 / 2), .int (-1), 1, bumpLinear, true, true, .oneByOne⟩).2 = .error .attributeError := by
  obtain ⟨o, dgm, σ, h1, h2, h3, h4⟩ := C122_lens_outcomes octInput octInput_describes
    (octRipser_spec 3 2 (by norm_num) (by norm_num)) idealArgsort idealArgsort_spec le_rfl (by norm_num) (fun _ => rfl)
  simp only [octRipser] at h2
  simp at h2
  subst h2
  have hσ : σ = [0] := List.perm_singleton.1 h3.1
  subst hσ
  have := h4 eigh history ⟨.fin (1 / 2), .int (-1), 1, bumpLinear, true, true, .oneByOne⟩ 2 (by norm_num)
  rcases C122_rows_exclude this (.notReached (.fin 2, .fin 4) (oct_selects _ (Or.inr rfl)) (oct_long _) rfl (Or.inl (by norm_num))) with
    ⟨e, h, h'⟩ | ⟨X, Y, h, h'⟩
  · injection h' with h'
    subst h'
    exact ⟨o, h1, h⟩
  · cases h'

/-- C122 for a projective coordinate on the octagon: a target dimension above the number of landmarks is silently replaced. -/
example (eigh : Eigh ℝ) (history : List ProjArgs) :
    ∃ o X, projInit idealArgsort (octRipser 1) octInput 1 = .ok o ∧
      (projGetCoordinates eigh 2 (projHistory eigh 2 o history)
        ⟨.fin (1 / 2), .int 0, 100, bumpLinear, false, true, .direct⟩).2 = .ok X ∧ X.rows = 8 ∧ X.cols = 4 := by
  obtain ⟨o, dgm, σ, h1, h2, h3, h4⟩ := C122_projective_outcomes octInput octInput_describes
    (octRipser_spec 2 1 (by norm_num) (by norm_num)) idealArgsort idealArgsort_spec le_rfl (by norm_num) (fun _ => rfl)
  simp only [octRipser] at h2
  simp at h2
  subst h2
  have hσ : σ = [0] := List.perm_singleton.1 h3.1
  subst hσ
  have := h4 eigh history ⟨.fin (1 / 2), .int 0, 100, bumpLinear, false, true, .direct⟩ 2 (by norm_num)
  generalize hR : (projGetCoordinates eigh 2 (projHistory eigh 2 o history)
        ⟨.fin (1 / 2), .int 0, 100, bumpLinear, false, true, .direct⟩).2 = R at this
  cases this with
  | returns pt h h' hm hq X hrows hcols => exact ⟨o, X, h1, hR, hrows, hcols 101 (by norm_num)⟩
  | notAnInteger h => cases h
  | outOfRange z h h' => simp at h h'; omega
  | tooShort pt h h' =>
    obtain ⟨r, j, e1, -, e2, e3⟩ := h
    have : r = 0 := by simp at e1; omega
    subst this
    cases Option.some.inj e2
    cases Option.some.inj e3
    exact absurd h' (oct_long _)
  | unknownMode pt h h' hm => cases hm
  | notReached pt h h' hm => cases hm

/-- C122 for a complex projective coordinate on the octahedron: an index that does not exist. -/
example (env : CPOracles) (history : List ProjArgs) :
    ∃ o, cpInit idealArgsort (ochRipser 40) ochInput 6 41 2 = .ok o ∧
      (cpGetCoordinates env 3 (cpHistory env 3 o history)
        ⟨.fin (1 / 2), .int 1, 1, bumpLinear, false, true, .direct⟩).2 = .error .indexError := by
  obtain ⟨o, dgm, σ, h1, h2, h3, h4⟩ := C122_complex_projective_outcomes ochInput ochInput_describes
    (ochRipser_spec 41 40 (by norm_num) (by norm_num)) idealArgsort idealArgsort_spec le_rfl (by norm_num) (by norm_num)
    (fun _ => rfl)
  simp only [ochRipser] at h2
  simp at h2
  subst h2
  refine ⟨o, h1, ?_⟩
  rcases h4 env history ⟨.fin (1 / 2), .int 1, 1, bumpLinear, false, true, .direct⟩ 3 (by norm_num) (fun _ => by decide) with
    h | ⟨-, -, pt, ⟨r, j, e1, e2, -⟩, -⟩
  · rcases C122_rows_exclude h (.outOfRange 1 rfl (Or.inr (by simp))) with ⟨e, h, h'⟩ | ⟨X, Y, h, h'⟩
    · injection h' with h'
      subst h'
      exact h
    · cases h'
  · simp at e1 e2
    omega

end Dreimac
