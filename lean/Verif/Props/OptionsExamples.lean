import Verif.Props.Options
import Verif.Props.EndToEndWindingExamples

/-!
# C129: a concrete instance
-/

namespace Dreimac

noncomputable section

theorem oct_threshold {u v : ℕ} (hu : u ∈ octS) (hv : v ∈ octS) : octδ u v < 7 / 2 ↔ octδ u v < 3 := by
  have key : ∀ u ∈ octS, ∀ v ∈ octS, cyc8 u v ≤ 2 ∨ 4 ≤ cyc8 u v := by decide +kernel
  unfold octδ
  rcases key u hu v hv with h | h
  · have : ((cyc8 u v : ℕ) : ℝ) ≤ (2 : ℕ) := by exact_mod_cast h
    push_cast at this
    constructor <;> intro _ <;> linarith
  · have : ((4 : ℕ) : ℝ) ≤ (cyc8 u v : ℕ) := by exact_mod_cast h
    push_cast at this
    constructor <;> intro _ <;> linarith

theorem oct_lift : IsIntegerLift 3 octS octδ (7 / 2) (octξ 2) (octξ (-1)) :=
  ⟨octξ_small.congr, octξ_small.antisymm, fun u hu v hv w hw a b c => octξ_small.cocycle u hu v hv w hw ((oct_threshold hu hv).1 a)
    ((oct_threshold hv hw).1 b) ((oct_threshold hu hw).1 c)⟩

theorem oct_energy (c : ℕ → ℕ → ℤ) (f : ℕ → ℝ) : dataEnergy octS octδ (7 / 2) c f = dataEnergy octS octδ 3 c f := by
  unfold dataEnergy
  refine Finset.sum_congr rfl fun u hu => Finset.sum_congr rfl fun v hv => ?_
  simp only [oct_threshold hu hv]

/-- C129: with `perc = 1 / 2` and linear bumps, and with `perc = 3 / 4` and quadratic bumps, the coordinate of the octagon turns once. -/
example (fuel : ℕ) (history : List (ℕ × Args)) : ∃ o θ θ', toroInit idealArgsort (octRipser 2) octInput 4 3 1 = .ok o ∧
    (circularGetCoordinates idealEnv fuel (afterCalls idealEnv o history) (.fin (3 / 4)) (.int 0) bumpQuadratic false true).2 = .ok θ ∧
    (circularGetCoordinates idealEnv fuel o (.fin (1 / 2)) (.int 0) bumpLinear false true).2 = .ok θ' ∧
    ∃ y y' : ℕ → ℝ, (∀ q ≤ 8, θ (q % 8) = .fin (y q)) ∧ (∀ q ≤ 8, θ' (q % 8) = .fin (y' q)) ∧ turns 8 y = -1 ∧ turns 8 y' = turns 8 y := by
  obtain ⟨o, dgm, coc, σ, h1, h5, h6, h7, h8⟩ := C129_circular_options octInput octInput_describes
    (octRipser_spec 3 2 (by norm_num) (by norm_num)) idealArgsort idealArgsort_spec le_rfl (by norm_num) (by norm_num) (fun _ => rfl)
    (by norm_num)
  simp only [octRipser] at h5 h6
  simp at h5 h6
  subst h5 h6
  have hσ : σ = [0] := List.perm_singleton.1 h7.1
  subst hσ
  obtain ⟨ξ, hξ, h9⟩ := h8 0 0 2 4 _ rfl rfl rfl
  obtain rfl := hξ.unique (octξ_lists 2)
  have h10 := h9 idealEnv idealEnv (1 / 10) (1 / 10) (1 / 10) (1 / 10) (by norm_num) (by norm_num) idealMilp_sound idealMilp_complete
    (by norm_num) (by norm_num) idealMilp_sound idealMilp_complete fuel fuel history [] (3 / 4) (1 / 2) false false bumpQuadratic bumpLinear
    (by norm_num) (by norm_num) positiveBump_quadratic positiveBump_linear (7 / 4) (3 / 2) (by norm_num) (by norm_num) (by norm_num)
    (belowDeath_id.2 (by norm_num)) (belowDeath_id.2 (by norm_num))
  rw [show (2 : ℝ) * (3 / 2) = 3 by norm_num, show (2 : ℝ) * (7 / 4) = 7 / 2 by norm_num, octS_eq] at h10
  obtain ⟨θ, w, f, θ', w', f', e1, e1', -, -, e3, e3', e4⟩ := h10 (octξ (-1))
    oct_lift (by decide)
  have hrefl : ∀ u ∈ octS, ∀ v ∈ octS, octξ (-1) u v = octξ (-1) u v := fun _ _ _ _ => rfl
  have hb : FormBound octS octδ (7 / 2) (octξ (-1)) f (1 / 4) := by
    have h := oct_formBound hrefl (f := f) fun g => by rw [← oct_energy, ← oct_energy]; exact e3 idealLsqr_exact g
    exact fun u hu v hv huv => h u hu v hv ((oct_threshold hu hv).1 huv)
  obtain ⟨y, y', hy, hy', ht, ht'⟩ := e4 (1 / 4) (1 / 4) 8 _ _ hb (oct_formBound hrefl (e3' idealLsqr_exact)) oct_dataLoop (Or.inl le_rfl)
    (Or.inl le_rfl)
  refine ⟨o, θ, θ', h1, e1, e1', y, y', hy, hy', ?_, ht'⟩
  rw [ht, oct_pathValue hrefl]; norm_num

/-- Circular coordinates of the octagon exist for these options. -/
theorem oct_call {o : ToroObj} (ho : toroInit idealArgsort (octRipser 2) octInput 4 3 1 = .ok o) (fuel : ℕ) (history : List (ℕ × Args))
    (perc r : ℝ) (bump : Fl ℝ → Fl ℝ → Fl ℝ) (hb : PositiveBump bump) (hr : 2 * r = (1 - perc) * 2 + perc * 4) (hr4 : 2 * r ≤ 4)
    (hl : ∃ c, IsIntegerLift 3 octS octδ (2 * r) (octξ 2) c) :
    ∃ θ, (getCoordinates idealEnv fuel (afterCalls idealEnv o history) ⟨.fin perc, [.int 0], bump, false, true⟩).2 = .ok [θ] := by
  obtain ⟨o', dgm, coc, σ, h1, h5, h6, h7, h8⟩ := C89_circular_coordinates octInput octInput_describes
    (octRipser_spec 3 2 (by norm_num) (by norm_num)) idealArgsort idealArgsort_spec le_rfl (by norm_num) (by norm_num) (fun _ => rfl)
    (by norm_num)
  rw [ho] at h1
  injection h1 with h1
  subst h1
  simp only [octRipser] at h5 h6
  simp at h5 h6
  subst h5 h6
  have hσ : σ = [0] := List.perm_singleton.1 h7.1
  subst hσ
  obtain ⟨ξ, hξ, h9⟩ := h8 0 0 2 4 _ rfl rfl rfl
  obtain rfl := hξ.unique (octξ_lists 2)
  have h10 := (h9 idealEnv (1 / 10) (1 / 10) (by norm_num) (by norm_num) idealMilp_sound idealMilp_complete fuel history
    perc false bump (by norm_num) hb r (by simpa using hr) (belowDeath_id.2 hr4)).1
  rw [octS_eq] at h10
  obtain ⟨θ, -, -, -, e1, -⟩ := h10 hl
  have hT := C46_single_class idealEnv fuel (afterCalls idealEnv o history) (.fin perc) (.int 0) bump false true
  simp only at hT
  exact ⟨θ, (hT.2.2.2.1 θ).1 e1⟩

/-- C129 for `ToroidalCoords` with one selected class and the same options: the numbers of turns agree. -/
example (fuel : ℕ) (history : List (ℕ × Args)) : ∃ o θ θ', toroInit idealArgsort (octRipser 2) octInput 4 3 1 = .ok o ∧
    (getCoordinates idealEnv fuel (afterCalls idealEnv o history) ⟨.fin (3 / 4), [.int 0], bumpQuadratic, false, true⟩).2 = .ok [θ] ∧
    (getCoordinates idealEnv fuel o ⟨.fin (1 / 2), [.int 0], bumpLinear, false, true⟩).2 = .ok [θ'] ∧
    ∃ y y' : ℕ → ℝ, (∀ q ≤ 8, θ (q % 8) = .fin (y q)) ∧ (∀ q ≤ 8, θ' (q % 8) = .fin (y' q)) ∧ turns 8 y' = turns 8 y := by
  obtain ⟨o, dgm, coc, σ, h1, h5, h6, h7, h8⟩ := C129_toroidal_options octInput octInput_describes
    (octRipser_spec 3 2 (by norm_num) (by norm_num)) idealArgsort idealArgsort_spec le_rfl (by norm_num) (by norm_num) (fun _ => rfl)
    (by norm_num)
  simp only [octRipser] at h5 h6
  simp at h5 h6
  subst h5 h6
  have hσ : σ = [0] := List.perm_singleton.1 h7.1
  subst hσ
  obtain ⟨θ, hθ⟩ := oct_call h1 fuel history (3 / 4) (7 / 4) bumpQuadratic positiveBump_quadratic (by norm_num) (by norm_num)
    ⟨_, by rw [show (2 : ℝ) * (7 / 4) = 7 / 2 by norm_num]; exact oct_lift⟩
  obtain ⟨θ', hθ'⟩ := oct_call h1 fuel [] (1 / 2) (3 / 2) bumpLinear positiveBump_linear (by norm_num) (by norm_num)
    ⟨_, by rw [show (2 : ℝ) * (3 / 2) = 3 by norm_num]; exact octξ_small⟩
  have hsel : SelectsClasses [(.fin 2, .fin 4)] [[⟨[6, 0], 2⟩]] [0] (fun _ : Fin 1 => 0) (fun _ => 2) (fun _ => 4) (fun _ => octξ 2) :=
    ⟨fun a => ⟨0, _, rfl, rfl, rfl, octξ_lists 2⟩⟩
  have h10 := h8 1 _ _ _ _ hsel idealEnv idealEnv (1 / 10) (1 / 10) (1 / 10) (1 / 10) (by norm_num) (by norm_num) idealMilp_sound
    (by norm_num) (by norm_num) idealMilp_sound fuel fuel history [] (3 / 4) (1 / 2) false false bumpQuadratic bumpLinear
    positiveBump_quadratic positiveBump_linear 2 4 (7 / 4) (3 / 2) (by simp [IsGreatest, mem_upperBounds])
    (by simp [IsLeast, mem_lowerBounds]) (by norm_num) (by norm_num) (by norm_num) (by norm_num) (by norm_num) (by norm_num)
    (belowDeath_id.2 (by norm_num)) (belowDeath_id.2 (by norm_num))
  rw [show (2 : ℝ) * (3 / 2) = 3 by norm_num, show (2 : ℝ) * (7 / 4) = 7 / 2 by norm_num, octS_eq] at h10
  obtain ⟨Θ, Θ', w, w', f, f', U, U', V, g0, g0', -, -, -, gU, -, -, g4, g4', g5⟩ := h10 (fun _ => octξ (-1))
    (fun _ => ⟨oct_lift, by decide⟩) [θ] [θ'] (by simpa using hθ) (by simpa [afterCalls] using hθ')
  obtain ⟨rfl, rfl, rfl⟩ := gU rfl
  have hrefl : ∀ u ∈ octS, ∀ v ∈ octS, octξ (-1) u v = octξ (-1) u v := fun _ _ _ _ => rfl
  have hb : FormBound octS octδ (7 / 2) (octξ (-1)) (f 0) (1 / 4) := by
    have h := oct_formBound hrefl (f := f 0) fun g => by rw [← oct_energy, ← oct_energy]; exact g4 idealLsqr_exact 0 g
    exact fun u hu v hv huv => h u hu v hv ((oct_threshold hu hv).1 huv)
  obtain ⟨y, y', hy, hy', ht⟩ := g5 (1 / 4) (1 / 4) 8 _ _
    (fun q => by obtain rfl : q = 0 := Subsingleton.elim _ _; simpa using hb)
    (fun q => by obtain rfl : q = 0 := Subsingleton.elim _ _; simpa using oct_formBound hrefl (g4' idealLsqr_exact 0)) oct_dataLoop
    (Or.inl le_rfl) (Or.inl le_rfl)
  have e : θ = Θ 0 := by simpa using g0
  have e' : θ' = Θ' 0 := by simpa using g0'
  refine ⟨o, θ, θ', h1, hθ, by simpa [afterCalls] using hθ', y 0, y' 0, fun q hq => by rw [e]; exact hy 0 q hq,
    fun q hq => by rw [e']; exact hy' 0 q hq, ?_⟩
  rw [ht 0]
  simp

end

end Dreimac
