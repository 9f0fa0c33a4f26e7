import Verif.Props.Coverage
import Verif.Props.ConstructExamples

/-!
# Concrete data for C118: the octagon with four landmarks
-/

namespace Dreimac

theorem oct_farthest (a : ℤ) : FarthestLandmarks 8 octδ (octRipser a).idxPerm := by
  have key : ∀ l < 4, 0 < l → ∀ x < 8, ∀ j < l, ∃ m < l, cyc8 ([0, 4, 2, 6].getD m 0) x ≤
      cyc8 ([0, 4, 2, 6].getD j 0) ([0, 4, 2, 6].getD l 0) := by decide
  intro l h0 hl x hx j hj
  obtain ⟨m, hm, h⟩ := key l hl h0 x hx j hj
  refine ⟨m, hm, ?_⟩
  have e : ∀ q (hq : q < (octRipser a).idxPerm.length), (octRipser a).idxPerm[q] = [0, 4, 2, 6].getD q 0 := fun q hq =>
    (getD_of_lt hq).symm
  rw [e, e, e]
  unfold octδ
  exact_mod_cast h

theorem oct_groups : SplitsIntoGroups 8 4 octδ (3 / 2) := by
  refine ⟨fun x => x / 2, fun x hx => by beta_reduce; omega, fun x hx y hy h => ?_⟩
  have key : ∀ x < 8, ∀ y < 8, x / 2 = y / 2 → cyc8 x y ≤ 1 := by decide
  have := key x hx y hy h
  unfold octδ
  have h1 : (cyc8 x y : ℝ) ≤ 1 := by exact_mod_cast this
  linarith

/-- C118 for the octagon: with `perc = 1 / 2` all eight points get a coordinate; with `perc = 0` the radius is 1, which
is not enough for the odd points: they get NaN. -/
example (env : Oracles) (fuel : ℕ) (history : List (ℕ × Args)) :
    ∃ o θ θ', toroInit idealArgsort (octRipser 2) octInput 4 3 1 = .ok o ∧
      (circularGetCoordinates env fuel (afterCalls env o history) (.fin (1 / 2)) (.int 0) bumpLinear false false).2 = .ok θ ∧
      (circularGetCoordinates env fuel (afterCalls env o history) (.fin 0) (.int 0) bumpLinear false false).2 = .ok θ' ∧
      (∀ i < 8, ∃ y : ℝ, θ i = .fin y ∧ 0 ≤ y ∧ y < 2 * Real.pi) ∧ θ' 1 = .nan ∧ θ' 2 ≠ .nan := by
  obtain ⟨o, dgm, σ, h1, h2, h3, h4⟩ := C118_circular octInput octInput_describes (octRipser_spec 3 2 (by norm_num) (by norm_num))
    idealArgsort idealArgsort_spec le_rfl (by norm_num) (by norm_num) (fun _ => rfl)
  simp only [octRipser] at h2
  simp at h2
  subst h2
  have hσ : σ = [0] := List.perm_singleton.1 h3.1
  subst hσ
  have h5 := h4 0 0 2 4 rfl rfl env fuel history
  obtain ⟨θ, e1, -, e2⟩ := h5 (1 / 2) false bumpLinear positiveBump_linear (by norm_num) (3 / 2) (by norm_num)
  obtain ⟨θ', f1, f2, -⟩ := h5 0 false bumpLinear positiveBump_linear (by norm_num) 1 (by norm_num)
  refine ⟨o, θ, θ', h1, e1, f1, e2 (Or.inr ⟨oct_farthest 2, oct_groups⟩), (f2 1 (by decide)).2 ?_, fun h => ?_⟩
  · intro u hu
    have key : ∀ u ∈ [0, 4, 2, 6], 1 ≤ cyc8 u 1 := by decide
    have := key u hu
    unfold octδ
    exact_mod_cast this
  · have := (f2 2 (by decide)).1 h 2 (by simp [octRipser])
    norm_num [octδ, cyc8] at this

/-- C118 for two percentages. -/
example (env : Oracles) (fuel : ℕ) (history : List (ℕ × Args)) : ∃ θ θ',
    (getCoordinates env fuel octObj ⟨.fin 0, [.int 0], bumpLinear, false, false⟩).2 = .ok [θ] ∧
    (getCoordinates env fuel (afterCalls env octObj history) ⟨.fin (1 / 2), [.int 0], bumpLinear, false, false⟩).2 = .ok [θ'] ∧
    ∀ i, θ' i = .nan → θ i = .nan := by
  obtain ⟨r, hr, ⟨θ, h1, h2⟩, -⟩ := C83_one_class env fuel octObj octObj_wf octObj_fieldValued (.int 0) 2 4 _ octObj_class 0 false
    (by norm_num) bumpLinear positiveBump_linear
  obtain ⟨r', hr', ⟨θ', h1', h2'⟩, -⟩ := C83_one_class env fuel octObj octObj_wf octObj_fieldValued (.int 0) 2 4 _ octObj_class (1 / 2)
    false (by norm_num) bumpLinear positiveBump_linear
  rw [← (C08_repeatable env octObj octObj_fieldValued history fuel _).1] at h1'
  rw [← radius_afterCalls octObj_fieldValued h1'] at h2'
  exact ⟨θ, θ', h1, h1', (C118_larger_perc (perc' := 1 / 2) octObj_wf octObj_fieldValued positiveBump_linear history rfl (by norm_num)
    h1 h2 h1' h2').2 θ (by simp) θ' (by simp)⟩

end Dreimac
