import Verif.Props.StoredState
import Verif.Props.ProjOutcomesExamples

/-!
# C136 on the octagon
-/

namespace Dreimac

/-- A call of `LensCoords` that fails (one complex dimension cannot be reached "one by one") has stored the radius 2; a second call
with a class index that does not exist does not change it, whatever was called before; and no variance of an earlier call is lost. -/
example (eigh : Eigh ℂ) (history : List ProjArgs) : ∃ o, lensInit idealArgsort (octRipser 2) octInput 3 1 = .ok o ∧
    (lensHistory eigh 2 o (history ++ [⟨.fin (1 / 2), .int (-1), 1, bumpLinear, true, true, .oneByOne⟩,
      ⟨.fin (1 / 2), .int 5, 1, bumpLinear, true, true, .oneByOne⟩])).radius = some (.fin 2, .fin 4) ∧
    (lensHistory eigh 2 o (history ++ [⟨.fin (1 / 2), .int 5, 1, bumpLinear, true, true, .oneByOne⟩])) =
      lensHistory eigh 2 o history := by
  obtain ⟨o, dgm, σ, h1, h2, h3, h4⟩ := C136_lens_state octInput octInput_describes
    (octRipser_spec 3 2 (by norm_num) (by norm_num)) idealArgsort idealArgsort_spec le_rfl (by norm_num) (fun _ => rfl)
  simp only [octRipser] at h2
  simp at h2
  subst h2
  have hσ : σ = [0] := List.perm_singleton.1 h3.1
  subst hσ
  have h5 : FailsEarly [((.fin 2, .fin 4) : Fl ℝ × Fl ℝ)] [0] ⟨.fin (1 / 2), .int 5, 1, bumpLinear, true, true, .oneByOne⟩ :=
    Or.inr (Or.inl ⟨5, rfl, by simp⟩)
  refine ⟨o, h1, ?_, ?_⟩
  · have := (h4 eigh 2).radius history [⟨.fin (1 / 2), .int 5, 1, bumpLinear, true, true, .oneByOne⟩]
      ⟨.fin (1 / 2), .int (-1), 1, bumpLinear, true, true, .oneByOne⟩ 2
      ⟨2, 4, 1 / 2, oct_selects _ (Or.inr rfl), rfl, by norm_num, by norm_num⟩ (by
        intro a' ha'
        rw [List.mem_singleton] at ha'
        subst ha'
        exact h5)
    refine this.trans ?_
    norm_num
  · have := ((h4 eigh 2).early history _ h5).1
    unfold lensHistory
    rw [List.foldl_append]
    exact this

end Dreimac
