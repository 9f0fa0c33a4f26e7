import Verif.Props.StoredToro
import Verif.Props.ProjOutcomesExamples
import Verif.Props.OutcomesExamples

/-!
# C136 on the octagon, toroidal coordinates
-/

namespace Dreimac

theorem oct_ends {z : ℤ} (hz : z = 0 ∨ z = -1) {b d : ℝ}
    (h : SelectedEnds [((.fin 2, .fin 4) : Fl ℝ × Fl ℝ)] [0] [.int z] b d) : b = 2 ∧ d = 4 := by
  obtain ⟨i, hi, j, hj, pt, qt, h1, h2, h3, h4⟩ := h
  rw [List.mem_singleton] at hi hj
  subst hi hj
  have e1 := h1.unique (oct_selects z hz)
  have e2 := h2.unique (oct_selects z hz)
  subst e1 e2
  simp only [Fl.fin.injEq] at h3 h4
  exact ⟨h3.symm, h4.symm⟩

theorem oct_alive {z : ℤ} (hz : z = 0 ∨ z = -1) (std : Bool) :
    JointlyAlive [((.fin 2, .fin 4) : Fl ℝ × Fl ℝ)] [0] [.int z] std := by
  refine ⟨⟨by simp, fun idx hidx => ?_⟩, fun b d h => ?_, fun b d h => ?_⟩
  · rw [List.mem_singleton] at hidx; subst hidx; exact ⟨_, oct_selects z hz⟩
  · obtain ⟨rfl, rfl⟩ := oct_ends hz h; norm_num
  · obtain ⟨rfl, rfl⟩ := oct_ends hz h; split <;> norm_num

/-- After a call for the class, whatever came before and whether or not it succeeds, the radius is `(4 + 4) / 4 = 2`; a later call with a
class index that does not exist fails and changes neither the radius nor the Gram matrices. -/
example (history : List (ℕ × Args)) : ∃ o, toroInit idealArgsort (octRipser 2) octInput 4 3 1 = .ok o ∧ o.radius = none ∧
    ((history ++ [((7, Args.mk (.fin (1 / 2)) [.int (-1)] bumpLinear true true) : ℕ × Args),
      ((7, Args.mk (.fin (1 / 2)) [.int 0, .int 5] bumpLinear true true) : ℕ × Args)]).foldl
        (fun o (a : ℕ × Args) => (getCoordinates idealEnv a.1 o a.2).1) o).radius = some (.fin 2, .fin 4) ∧
    ∃ e, (getCoordinates idealEnv 7 (history.foldl (fun o (a : ℕ × Args) => (getCoordinates idealEnv a.1 o a.2).1) o)
      ⟨.fin (1 / 2), [.int 0, .int 5], bumpLinear, true, true⟩).2 = .error e := by
  obtain ⟨o, dgm, σ, h1, h2, h3, h4⟩ := C136_toroidal_state octInput octInput_describes
    (octRipser_spec 3 2 (by norm_num) (by norm_num)) idealArgsort idealArgsort_spec le_rfl (by norm_num) (by norm_num)
    (fun _ => rfl)
  simp only [octRipser] at h2
  simp at h2
  subst h2
  have hσ : σ = [0] := List.perm_singleton.1 h3.1
  subst hσ
  have h5 : ¬ JointlyAlive [((.fin 2, .fin 4) : Fl ℝ × Fl ℝ)] [0] [.int 0, .int 5] true := by
    intro h
    obtain ⟨pt, r, j, k1, k2, -⟩ := h.exist (.int 5) (by simp)
    simp at k1 k2
    omega
  refine ⟨o, h1, (h4 idealEnv).start.1, ?_, ((h4 idealEnv).early history (7, _) h5).1⟩
  refine ((h4 idealEnv).radius history [((7, Args.mk (.fin (1 / 2)) [.int 0, .int 5] bumpLinear true true) : ℕ × Args)] 7
    ⟨.fin (1 / 2), [.int (-1)], bumpLinear, true, true⟩ 2 4 (1 / 2) 2 (oct_alive (Or.inr rfl) true) ?_ ?_ rfl (by norm_num) ?_).trans ?_
  · exact ⟨_, List.mem_singleton_self _, _, List.mem_singleton_self _, _, _, oct_selects _ (Or.inr rfl), oct_selects _ (Or.inr rfl),
      rfl, rfl⟩
  · intro b d h
    obtain ⟨rfl, rfl⟩ := oct_ends (Or.inr rfl) h
    exact ⟨le_rfl, le_rfl⟩
  · intro a' ha'
    rw [List.mem_singleton] at ha'
    subst ha'
    exact h5
  · norm_num

end Dreimac
