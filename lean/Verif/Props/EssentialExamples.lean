import Verif.Props.Essential
import Verif.Props.EndToEndHolonomyExamples
import Verif.Props.DegreeExamples

/-! # Concrete cases of C132 -/

namespace Dreimac

open Real

/-- The class of the octagon is born at 2. -/
theorem oct_born (p a : ℤ) (h : ¬ p ∣ a) : BornAt id p octS octδ 2 (octξ a) := by
  rintro ⟨g, hg⟩
  have hd : ∀ u v, cyc8 u v ≤ 2 → id (octδ u v) ≤ 2 := by
    intro u v h
    have : ((cyc8 u v : ℕ) : ℝ) ≤ (2 : ℕ) := by exact_mod_cast h
    unfold octδ; simpa using this
  have h1 := hg 0 (by decide) 2 (by decide) (hd _ _ (by decide))
  have h2 := hg 2 (by decide) 4 (by decide) (hd _ _ (by decide))
  have h3 := hg 4 (by decide) 6 (by decide) (hd _ _ (by decide))
  have h4 := hg 6 (by decide) 0 (by decide) (hd _ _ (by decide))
  have e1 : octξ a 0 2 = 0 := by simp [octξ]
  have e2 : octξ a 2 4 = 0 := by simp [octξ]
  have e3 : octξ a 4 6 = 0 := by simp [octξ]
  have e4 : octξ a 6 0 = a := by simp [octξ]
  rw [e1] at h1; rw [e2] at h2; rw [e3] at h3; rw [e4] at h4
  apply h
  have := dvd_add (dvd_add (dvd_add h1 h2) h3) h4
  rwa [show 0 - (g 2 - g 0) + (0 - (g 4 - g 2)) + (0 - (g 6 - g 4)) + (a - (g 0 - g 6)) = a by ring] at this

/-- The data points between the landmarks bridge the balls. -/
theorem oct_bridged : Bridged id octS octInput.nPoints octδ 2 (3 / 2) := by
  intro u hu v hv h
  have h' : cyc8 u v ≤ 2 := by
    unfold octδ at h
    simp only [id] at h
    exact_mod_cast h
  have key : ∀ u ∈ octS, ∀ v ∈ octS, cyc8 u v ≤ 2 → ∃ i < 8, cyc8 u i ≤ 1 ∧ cyc8 v i ≤ 1 := by decide +kernel
  obtain ⟨i, hi, h1, h2⟩ := key u hu v hv h'
  have hd : ∀ l i, cyc8 l i ≤ 1 → octδ l i < 3 / 2 := by
    intro l i h
    have : ((cyc8 l i : ℕ) : ℝ) ≤ (1 : ℕ) := by exact_mod_cast h
    unfold octδ; push_cast at this; linarith
  exact ⟨i, hi, hd _ _ h1, hd _ _ h2⟩

/-- C132: the circular coordinate of the octagon is not the reduction of a real-valued function that changes by less than half a turn
within each ball. -/
example (fuel : ℕ) (history : List (ℕ × Args)) : ∃ o θ, toroInit idealArgsort (octRipser 2) octInput 4 3 1 = .ok o ∧
    (circularGetCoordinates idealEnv fuel (afterCalls idealEnv o history) (.fin (1 / 2)) (.int 0) bumpLinear false true).2 =
      .ok θ ∧ ¬ ∃ g : ℕ → ℝ, (∀ i < 8, IsAngle (θ i) (g i)) ∧
        OnCommonBalls octS 8 octδ (3 / 2) fun i i' => |g i' - g i| < 1 / 2 := by
  obtain ⟨o, dgm, coc, σ, h1, h5, h6, h7, h8⟩ := C132_circular_essential octInput octInput_describes
    (octRipser_spec 3 2 (by norm_num) (by norm_num)) idealArgsort idealArgsort_spec le_rfl (by norm_num) (by norm_num) (fun _ => rfl)
    (by norm_num)
  simp only [octRipser] at h5 h6
  simp at h5 h6
  subst h5 h6
  have hσ : σ = [0] := List.perm_singleton.1 h7.1
  subst hσ
  obtain ⟨ξ, hξ, h9⟩ := h8 0 0 2 4 _ rfl rfl rfl
  obtain rfl := hξ.unique (octξ_lists 2)
  have h10 := h9 (octS_eq 2 ▸ oct_born 3 2 (by norm_num)) idealEnv (1 / 10) (1 / 10) (by norm_num) (by norm_num) idealMilp_sound
    idealMilp_complete fuel history
    (1 / 2) false bumpLinear (by norm_num) positiveBump_linear (3 / 2) (by norm_num) (belowDeath_id.2 (by norm_num))
    (octS_eq 2 ▸ oct_bridged)
  rw [show (2 : ℝ) * (3 / 2) = 3 by norm_num, octS_eq] at h10
  obtain ⟨θ, w, c, f, e1, -, e2, -, e3, e4⟩ := h10 ⟨_, octξ_small⟩
  have hc : ∀ u ∈ octS, ∀ v ∈ octS, c u v = octξ (-1) u v := e2 _ octξ_small (by decide)
  refine ⟨o, θ, h1, e1, ?_⟩
  rintro ⟨g, hg, hs⟩
  exact e4 (1 / 4) (oct_formBound hc (e3 idealLsqr_exact)) (Or.inl le_rfl) ⟨g, fun i hi _ => hg i hi, hs⟩

/-- C132: the same for `ToroidalCoords` with one selected class. -/
example (fuel : ℕ) (history : List (ℕ × Args)) : ∃ o θ, toroInit idealArgsort (octRipser 2) octInput 4 3 1 = .ok o ∧
    (getCoordinates idealEnv fuel (afterCalls idealEnv o history) ⟨.fin (1 / 2), [.int 0], bumpLinear, false, true⟩).2 =
      .ok [θ] ∧ ¬ ∃ g : ℕ → ℝ, (∀ i < 8, ∃ y : ℝ, θ i = .fin y ∧ SameAngle y (2 * π * g i)) ∧
        OnCommonBalls octS 8 octδ (3 / 2) fun i i' => |g i' - g i| < 1 / 2 := by
  obtain ⟨o, dgm, coc, σ, h1, h5, h6, h7, h8⟩ := C132_toroidal_essential octInput octInput_describes
    (octRipser_spec 3 2 (by norm_num) (by norm_num)) idealArgsort idealArgsort_spec le_rfl (by norm_num) (by norm_num) (fun _ => rfl)
    (by norm_num)
  obtain ⟨o', dgm', coc', σ', h1', h5', h6', h7', h8'⟩ := C89_circular_coordinates octInput octInput_describes
    (octRipser_spec 3 2 (by norm_num) (by norm_num)) idealArgsort idealArgsort_spec le_rfl (by norm_num) (by norm_num) (fun _ => rfl)
    (by norm_num)
  rw [h1] at h1'
  injection h1' with h1'
  subst h1'
  simp only [octRipser] at h5 h6 h5' h6'
  simp at h5 h6 h5' h6'
  subst h5 h6 h5' h6'
  have hσ : σ = [0] := List.perm_singleton.1 h7.1
  have hσ' : σ' = [0] := List.perm_singleton.1 h7'.1
  subst hσ hσ'
  obtain ⟨ξ, hξ, h9⟩ := h8' 0 0 2 4 _ rfl rfl rfl
  obtain rfl := hξ.unique (octξ_lists 2)
  have h10 := (h9 idealEnv (1 / 10) (1 / 10) (by norm_num) (by norm_num) idealMilp_sound idealMilp_complete fuel history
    (1 / 2) false bumpLinear (by norm_num) positiveBump_linear (3 / 2) (by norm_num) (belowDeath_id.2 (by norm_num))).1
  rw [show (2 : ℝ) * (3 / 2) = 3 by norm_num, octS_eq] at h10
  obtain ⟨θ, -, -, -, e1, -⟩ := h10 ⟨_, octξ_small⟩
  have hT := C46_single_class idealEnv fuel (afterCalls idealEnv o history) (.fin (1 / 2)) (.int 0) bumpLinear false true
  simp only at hT
  have hok := (hT.2.2.2.1 θ).1 e1
  have hsel : SelectsClasses [(.fin 2, .fin 4)] [[⟨[6, 0], 2⟩]] [0] (fun _ : Fin 1 => 0) (fun _ => 2) (fun _ => 4) (fun _ => octξ 2) :=
    ⟨fun a => ⟨0, _, rfl, rfl, rfl, octξ_lists 2⟩⟩
  have hind : IndependentAt id 3 octS octδ 2 (fun _ : Fin 1 => octξ 2) := by
    intro n hn a
    obtain rfl : a = 0 := Subsingleton.elim _ _
    by_contra hnd
    refine oct_born 3 (n 0 * 2) ?_ ?_
    · intro h
      omega
    · obtain ⟨g, hg⟩ := hn
      refine ⟨g, fun u hu v hv huv => ?_⟩
      have := hg u hu v hv huv
      beta_reduce at this
      rwa [Fin.sum_univ_one, show n 0 * octξ 2 u v = octξ (n 0 * 2) u v by unfold octξ; ring] at this
  obtain ⟨θ', w, c, f, U, g0, -, g2, gU, -, g4, g5⟩ := h8 1 _ _ _ _ hsel idealEnv (1 / 10) (1 / 10) (by norm_num) (by norm_num)
    idealMilp_sound fuel history (1 / 2) false bumpLinear positiveBump_linear 2 4 (3 / 2)
    (by simp [IsGreatest, mem_upperBounds]) (by simp [IsLeast, mem_lowerBounds]) (by norm_num) (by norm_num) (by norm_num)
    (belowDeath_id.2 (by norm_num)) (octS_eq 2 ▸ hind) (octS_eq 2 ▸ oct_bridged) [θ] (by simpa using hok)
  rw [show (2 : ℝ) * (3 / 2) = 3 by norm_num, octS_eq] at g2 g4 g5
  have hc : ∀ u ∈ octS, ∀ v ∈ octS, c 0 u v = octξ (-1) u v := (g2 0).2 _ octξ_small (by decide)
  have hU := gU rfl
  subst hU
  have hθ : θ = θ' 0 := by simpa using g0
  refine ⟨o, θ, h1, hok, ?_⟩
  rintro ⟨g, hg, hs⟩
  refine g5 (fun _ => 1) (by norm_num) (1 / 4) ?_ (Or.inl le_rfl) ⟨g, fun i hi _ => ?_, hs⟩
  · simpa using oct_formBound hc (g4 idealLsqr_exact 0)
  · obtain ⟨y, hy, hy'⟩ := hg i hi
    refine ⟨fun _ => y, fun q => ?_, by simpa using hy'⟩
    obtain rfl : q = 0 := Subsingleton.elim _ _
    rw [← hθ, hy]

/-- C132: the rows of the lens coordinates of the octagon cannot be multiplied by phases such that the inner products become positive. -/
example (eigh : Eigh ℂ) (he : EighSpec eigh) : ∃ o X, ∃ y : ℕ → ℕ → ℂ, lensInit idealArgsort (octRipser 2) octInput 3 1 = .ok o ∧
    (lensGetCoordinates eigh 4 o ⟨.fin (1 / 2), .int 0, 4, bumpLinear, false, true, .exponential⟩).2 = .ok X ∧
    (∀ i < 8, ∀ m < 4, X.at' i m = some (y i m)) ∧
    ¬ ∃ φ : ℕ → ℂ, (∀ i < 8, ‖φ i‖ = 1) ∧ OnCommonBalls octS 8 octδ (3 / 2) fun i i' =>
      ∃ t : ℝ, 0 < t ∧ ∑ m ∈ Finset.range 4, star (φ i * y i m) * (φ i' * y i' m) = t := by
  obtain ⟨o, dgm, coc, σ, h1, h5, h6, h7, h8⟩ := C132_lens_essential octInput octInput_describes
    (octRipser_spec 3 2 (by norm_num) (by norm_num)) idealArgsort idealArgsort_spec le_rfl (by norm_num) (fun _ => rfl) (by norm_num)
  simp only [octRipser] at h5 h6
  simp at h5 h6
  subst h5 h6
  have hσ : σ = [0] := List.perm_singleton.1 h7.1
  subst hσ
  obtain ⟨ξ, hξ, h9⟩ := h8 0 0 2 4 _ rfl rfl rfl
  obtain rfl := hξ.unique (octξ_lists 2)
  obtain ⟨X, y, e1, -, -, e2, e3⟩ := h9 (octS_eq 2 ▸ oct_born 3 2 (by norm_num)) eigh 4 [] (1 / 2) false true bumpLinear .exponential he
    le_rfl (by norm_num) positiveBump_linear (by simp) (3 / 2) (by norm_num) (belowDeath_id.2 (by norm_num)) (oct_covered 2)
    (octS_eq 2 ▸ oct_bridged)
  rw [octS_eq] at e3
  exact ⟨o, X, y, h1, e1, e2, e3⟩

/-- C132: the signs of the rows of the real projective coordinates of the octagon cannot be chosen consistently. -/
example (eigh : Eigh ℝ) (he : EighSpec eigh) : ∃ o X, ∃ y : ℕ → ℕ → ℝ, projInit idealArgsort (octRipser 1) octInput 1 = .ok o ∧
    (projGetCoordinates eigh 4 o ⟨.fin (1 / 2), .int 0, 3, bumpLinear, false, true, .direct⟩).2 = .ok X ∧
    (∀ i < 8, ∀ m < 4, X.at' i m = some (y i m)) ∧
    ¬ ∃ s : ℕ → ℝ, (∀ i < 8, s i = 1 ∨ s i = -1) ∧ OnCommonBalls octS 8 octδ (3 / 2) fun i i' =>
      0 < ∑ m ∈ Finset.range 4, (s i * y i m) * (s i' * y i' m) := by
  obtain ⟨o, dgm, coc, σ, h1, h5, h6, h7, h8⟩ := C132_projective_essential octInput octInput_describes
    (octRipser_spec 2 1 (by norm_num) (by norm_num)) idealArgsort idealArgsort_spec le_rfl (by norm_num) (fun _ => rfl)
  simp only [octRipser] at h5 h6
  simp at h5 h6
  subst h5 h6
  have hσ : σ = [0] := List.perm_singleton.1 h7.1
  subst hσ
  obtain ⟨ξ, hξ, h9⟩ := h8 0 0 2 4 _ rfl rfl rfl
  obtain rfl := hξ.unique (octξ_lists 1)
  obtain ⟨X, y, e1, -, -, e2, e3⟩ := h9 (octS_eq 1 ▸ oct_born 2 1 (by norm_num)) eigh 4 [] (1 / 2) false true bumpLinear .direct he
    le_rfl (by norm_num) positiveBump_linear (by simp) (3 / 2) (by norm_num) (belowDeath_id.2 (by norm_num)) (oct_covered 1)
    (octS_eq 1 ▸ oct_bridged)
  rw [octS_eq] at e3
  exact ⟨o, X, y, h1, e1, e2, e3⟩

/-- The two classes of the torus are independent at their birth, and the data points bridge the balls. -/
example : IndependentAt id 3 torIdx.toFinset torδ 2 (fun a => listForm (torL a)) := by
  rintro n ⟨g, hg⟩ a
  have hS : ∀ u ∈ torIdx, u ∈ torIdx.toFinset := fun u hu => List.mem_toFinset.2 hu
  have hd : ∀ u v, torD u v ≤ 2 → id (torδ u v) ≤ 2 := by
    intro u v h
    show torδ u v ≤ 2
    unfold torδ
    exact_mod_cast h
  have key : ∀ u v, u ∈ torIdx → v ∈ torIdx → torD u v ≤ 2 →
      (3 : ℤ) ∣ n 0 * listForm (torL 0) u v + n 1 * listForm (torL 1) u v - (g v - g u) := by
    intro u v hu hv h
    have := hg u (hS u hu) v (hS v hv) (hd u v h)
    beta_reduce at this
    rwa [Fin.sum_univ_two] at this
  have l0 : ∀ u v, (u, v) ∈ [(0, 16), (16, 32), (32, 48), (0, 2), (2, 4), (4, 6)] →
      listForm (torL 0) u v = 0 ∧ listForm (torL 1) u v = 0 ∧ torD u v ≤ 2 ∧ u ∈ torIdx ∧ v ∈ torIdx := by
    have : ∀ q ∈ [(0, 16), (16, 32), (32, 48), (0, 2), (2, 4), (4, 6)],
      listForm (torL 0) q.1 q.2 = 0 ∧ listForm (torL 1) q.1 q.2 = 0 ∧ torD q.1 q.2 ≤ 2 ∧ q.1 ∈ torIdx ∧ q.2 ∈ torIdx := by
      decide +kernel
    exact fun u v h => this (u, v) h
  have step : ∀ u v, (u, v) ∈ [(0, 16), (16, 32), (32, 48), (0, 2), (2, 4), (4, 6)] → (3 : ℤ) ∣ g v - g u := by
    intro u v h
    obtain ⟨h1, h2, h3, h4, h5⟩ := l0 u v h
    have := key u v h4 h5 h3
    rw [h1, h2] at this
    omega
  have a1 := key 48 0 (by decide) (by decide) (by decide +kernel)
  have a2 := key 6 0 (by decide) (by decide) (by decide +kernel)
  rw [(by decide +kernel : listForm (torL 0) 48 0 = 1), (by decide +kernel : listForm (torL 1) 48 0 = 0)] at a1
  rw [(by decide +kernel : listForm (torL 0) 6 0 = 0), (by decide +kernel : listForm (torL 1) 6 0 = 1)] at a2
  have s1 := step 0 16 (by decide)
  have s2 := step 16 32 (by decide)
  have s3 := step 32 48 (by decide)
  have s4 := step 0 2 (by decide)
  have s5 := step 2 4 (by decide)
  have s6 := step 4 6 (by decide)
  fin_cases a
  · show (3 : ℤ) ∣ n 0
    omega
  · show (3 : ℤ) ∣ n 1
    omega

/-- C132: with the standard range the radius exceeds the birth: for example, birth 1, death 4, percentage 1/2. -/
example : Bridged id octS 8 octδ 1 (3 / 2) :=
  C132_standard_range (perc := 1 / 2) (d := 4) (η := 0) (by decide) (by simp [octS, octδ, cyc8]) (fun x => by simp) le_rfl (by norm_num) (by norm_num) (by norm_num)

end Dreimac
