import Mathlib.Tactic.IntervalCases
import Verif.Props.EndToEndWinding
import Verif.Props.ConstructExamples

/-! # Concrete cases of C111 -/

namespace Dreimac

open Real

/-- The landmarks of the octagon. -/
def octS : Finset ℕ := {0, 4, 2, 6}

theorem octS_eq (a : ℤ) : (octRipser a).idxPerm.toFinset = octS := by
  show ([0, 4, 2, 6] : List ℕ).toFinset = octS
  decide

/-- `octξ 2` has the small integer representative `octξ (-1)`. -/
theorem octξ_small : IsIntegerLift 3 octS octδ 3 (octξ 2) (octξ (-1)) where
  congr := by decide
  antisymm := fun u _ v _ => (octξ_lists (-1)).antisymm u v
  cocycle := fun u hu v hv w hw => octξ_cocycle (-1) 3 (by norm_num) u (by simpa [octS] using hu) v (by simpa [octS] using hv) w
    (by simpa [octS] using hw)

open Classical in
theorem oct_dataEnergy (c : ℕ → ℕ → ℤ) (hc : ∀ u ∈ octS, ∀ v ∈ octS, c u v = octξ (-1) u v) (f : ℕ → ℝ) :
    dataEnergy octS octδ 3 c f =
      2 * ((f 0 - f 2) ^ 2 + (f 2 - f 4) ^ 2 + (f 4 - f 6) ^ 2 + (1 + (f 6 - f 0)) ^ 2) := by
  have h : dataEnergy octS octδ 3 c f = ∑ u ∈ octS, ∑ v ∈ octS,
      if cyc8 u v < 3 then ((octξ (-1) u v : ℝ) - (f u - f v)) ^ 2 else 0 := by
    unfold dataEnergy
    refine Finset.sum_congr rfl fun u hu => Finset.sum_congr rfl fun v hv => ?_
    rw [hc u hu v hv]
    have : (octδ u v < 3) ↔ cyc8 u v < 3 := by
      unfold octδ
      rw [show (3 : ℝ) = ((3 : ℕ) : ℝ) by norm_num]; exact Nat.cast_lt
    simp only [this]
  rw [h]
  simp [octS, cyc8, octξ]
  ring

/-- The harmonic form of the octagon's class has absolute value `1/4` on the four edges. -/
theorem oct_formBound {c : ℕ → ℕ → ℤ} (hc : ∀ u ∈ octS, ∀ v ∈ octS, c u v = octξ (-1) u v) {f : ℕ → ℝ}
    (hf : ∀ g, dataEnergy octS octδ 3 c f ≤ dataEnergy octS octδ 3 c g) : FormBound octS octδ 3 c f (1 / 4) := by
  have hmin := hf (fun (m : ℕ) => if m = 0 then 3 / 4 else if m = 2 then 1 / 2 else if m = 4 then 1 / 4 else 0)
  rw [oct_dataEnergy c hc, oct_dataEnergy c hc] at hmin
  norm_num at hmin
  have k1 : f 0 - f 2 = 1 / 4 := by
    nlinarith [sq_nonneg (f 0 - f 2 - 1 / 4), sq_nonneg (f 2 - f 4 - 1 / 4), sq_nonneg (f 4 - f 6 - 1 / 4), sq_nonneg (3 / 4 + (f 6 - f 0))]
  have k2 : f 2 - f 4 = 1 / 4 := by
    nlinarith [sq_nonneg (f 0 - f 2 - 1 / 4), sq_nonneg (f 2 - f 4 - 1 / 4), sq_nonneg (f 4 - f 6 - 1 / 4), sq_nonneg (3 / 4 + (f 6 - f 0))]
  have k3 : f 4 - f 6 = 1 / 4 := by
    nlinarith [sq_nonneg (f 0 - f 2 - 1 / 4), sq_nonneg (f 2 - f 4 - 1 / 4), sq_nonneg (f 4 - f 6 - 1 / 4), sq_nonneg (3 / 4 + (f 6 - f 0))]
  intro u hu v hv hd
  rw [hc u hu v hv]
  have hd' : cyc8 u v < 3 := by unfold octδ at hd; exact_mod_cast hd
  have k4 : f 0 = f 6 + 3 / 4 := by linarith
  have k5 : f 2 = f 6 + 1 / 2 := by linarith
  have k6 : f 4 = f 6 + 1 / 4 := by linarith
  simp only [octS, Finset.mem_insert, Finset.mem_singleton] at hu hv
  rcases hu with rfl | rfl | rfl | rfl <;> rcases hv with rfl | rfl | rfl | rfl <;>
    first
      | (exfalso; revert hd'; decide)
      | (simp only [octξ]; rw [abs_le]; constructor <;> norm_num [k4, k5, k6])

/-- Once around the octagon. -/
theorem oct_dataLoop : DataLoop octS octInput.nPoints octδ (3 / 2) 8 (fun (q : ℕ) => q % 8) (fun (q : ℕ) => (q + 1) / 2 * 2 % 8) := by
  have key : ∀ q < 8, (q + 1) / 2 * 2 % 8 ∈ octS ∧ cyc8 ((q + 1) / 2 * 2 % 8) (q % 8) ≤ 1 ∧
    cyc8 ((q + 1) / 2 * 2 % 8) ((q + 1) % 8) ≤ 1 := by decide +kernel
  have hd : ∀ l i, cyc8 l i ≤ 1 → octδ l i < 3 / 2 := by
    intro l i h
    have : ((cyc8 l i : ℕ) : ℝ) ≤ (1 : ℕ) := by exact_mod_cast h
    unfold octδ; push_cast at this; linarith
  exact ⟨by norm_num, rfl, rfl, fun q _ => Nat.mod_lt _ (by norm_num), fun q hq => (key q hq).1,
    fun q hq => hd _ _ (key q hq).2.1, fun q hq => hd _ _ (key q hq).2.2⟩

theorem oct_pathValue {c : ℕ → ℕ → ℤ} (hc : ∀ u ∈ octS, ∀ v ∈ octS, c u v = octξ (-1) u v) :
    pathValue c 8 (fun (q : ℕ) => (q + 1) / 2 * 2 % 8) = -1 := by
  have : pathValue c 8 (fun (q : ℕ) => (q + 1) / 2 * 2 % 8) =
      pathValue (octξ (-1)) 8 (fun (q : ℕ) => (q + 1) / 2 * 2 % 8) := by
    unfold pathValue
    refine Finset.sum_congr rfl fun q hq => ?_
    have hq := Finset.mem_range.1 hq
    exact hc _ (oct_dataLoop.land_le hq.le).1 _ (oct_dataLoop.land_le (show q + 1 ≤ 8 from hq)).1
  rw [this]; decide +kernel

/-- C111: going once around the octagon of data points, the coordinate of the octagon turns exactly once, from the
constructor to the returned array. -/
example (fuel : ℕ) (history : List (ℕ × Args)) : ∃ o θ, toroInit idealArgsort (octRipser 2) octInput 4 3 1 = .ok o ∧
    (circularGetCoordinates idealEnv fuel (afterCalls idealEnv o history) (.fin (1 / 2)) (.int 0) bumpLinear false true).2 =
      .ok θ ∧ ∃ y : ℕ → ℝ, (∀ q ≤ 8, θ (q % 8) = .fin (y q)) ∧ turns 8 y = -1 := by
  obtain ⟨o, dgm, coc, σ, h1, h5, h6, h7, h8⟩ := C111_circular_winding octInput octInput_describes
    (octRipser_spec 3 2 (by norm_num) (by norm_num)) idealArgsort idealArgsort_spec le_rfl (by norm_num) (by norm_num) (fun _ => rfl)
    (by norm_num)
  simp only [octRipser] at h5 h6
  simp at h5 h6
  subst h5 h6
  have hσ : σ = [0] := List.perm_singleton.1 h7.1
  subst hσ
  obtain ⟨ξ, hξ, h9⟩ := h8 0 0 2 4 _ rfl rfl rfl
  obtain rfl := hξ.unique (octξ_lists 2)
  have h10 := h9 idealEnv (1 / 10) (1 / 10) (by norm_num) (by norm_num) idealMilp_sound idealMilp_complete fuel history
    (1 / 2) false bumpLinear (by norm_num) positiveBump_linear (3 / 2) (by norm_num) (belowDeath_id.2 (by norm_num))
  rw [show (2 : ℝ) * (3 / 2) = 3 by norm_num, octS_eq] at h10
  obtain ⟨θ, w, c, f, e1, -, e2, -, e3, e4⟩ := h10 ⟨_, octξ_small⟩
  have hc : ∀ u ∈ octS, ∀ v ∈ octS, c u v = octξ (-1) u v := e2 _ octξ_small (by decide)
  obtain ⟨y, hy, ht, -⟩ := e4 (1 / 4) 8 _ _ (oct_formBound hc (e3 idealLsqr_exact)) oct_dataLoop (Or.inl le_rfl)
  refine ⟨o, θ, h1, e1, y, hy, ?_⟩
  rw [ht, oct_pathValue hc]; norm_num

/-- C111 for `ToroidalCoords` with one selected class. -/
example (fuel : ℕ) (history : List (ℕ × Args)) : ∃ o θ, toroInit idealArgsort (octRipser 2) octInput 4 3 1 = .ok o ∧
    (getCoordinates idealEnv fuel (afterCalls idealEnv o history) ⟨.fin (1 / 2), [.int 0], bumpLinear, false, true⟩).2 =
      .ok [θ] ∧ ∃ y : ℕ → ℝ, (∀ q ≤ 8, θ (q % 8) = .fin (y q)) ∧ turns 8 y = -1 := by
  obtain ⟨o, dgm, coc, σ, h1, h5, h6, h7, h8⟩ := C111_toroidal_winding octInput octInput_describes
    (octRipser_spec 3 2 (by norm_num) (by norm_num)) idealArgsort idealArgsort_spec le_rfl (by norm_num) (by norm_num) (fun _ => rfl)
    (by norm_num)
  obtain ⟨o', dgm', coc', σ', h1', h5', h6', h7', h8'⟩ := C89_circular_coordinates octInput octInput_describes
    (octRipser_spec 3 2 (by norm_num) (by norm_num)) idealArgsort idealArgsort_spec le_rfl (by norm_num) (by norm_num) (fun _ => rfl)
    (by norm_num)
  rw [h1] at h1'
  injection h1' with h1'
  subst h1'
  simp only [octRipser] at h5 h6 h5' h6'
  simp at h5 h6 h5' h6'
  subst h5 h6 h5' h6'
  have hσ : σ = [0] := List.perm_singleton.1 h7.1
  have hσ' : σ' = [0] := List.perm_singleton.1 h7'.1
  subst hσ hσ'
  obtain ⟨ξ, hξ, h9⟩ := h8' 0 0 2 4 _ rfl rfl rfl
  obtain rfl := hξ.unique (octξ_lists 2)
  have h10 := (h9 idealEnv (1 / 10) (1 / 10) (by norm_num) (by norm_num) idealMilp_sound idealMilp_complete fuel history
    (1 / 2) false bumpLinear (by norm_num) positiveBump_linear (3 / 2) (by norm_num) (belowDeath_id.2 (by norm_num))).1
  rw [show (2 : ℝ) * (3 / 2) = 3 by norm_num, octS_eq] at h10
  obtain ⟨θ, -, -, -, e1, -⟩ := h10 ⟨_, octξ_small⟩
  have hT := C46_single_class idealEnv fuel (afterCalls idealEnv o history) (.fin (1 / 2)) (.int 0) bumpLinear false true
  simp only at hT
  have hok := (hT.2.2.2.1 θ).1 e1
  have hsel : SelectsClasses [(.fin 2, .fin 4)] [[⟨[6, 0], 2⟩]] [0] (fun _ : Fin 1 => 0) (fun _ => 2) (fun _ => 4) (fun _ => octξ 2) :=
    ⟨fun a => ⟨0, _, rfl, rfl, rfl, octξ_lists 2⟩⟩
  obtain ⟨θ', w, c, f, U, g0, -, g2, gU, -, g4, g5⟩ := h8 1 _ _ _ _ hsel idealEnv (1 / 10) (1 / 10) (by norm_num) (by norm_num)
    idealMilp_sound fuel history (1 / 2) false bumpLinear positiveBump_linear 2 4 (3 / 2)
    (by simp [IsGreatest, mem_upperBounds]) (by simp [IsLeast, mem_lowerBounds]) (by norm_num) (by norm_num) (by norm_num) (belowDeath_id.2 (by norm_num)) [θ] (by simpa using hok)
  rw [show (2 : ℝ) * (3 / 2) = 3 by norm_num, octS_eq] at g2 g4 g5
  have hc : ∀ u ∈ octS, ∀ v ∈ octS, c 0 u v = octξ (-1) u v := (g2 0).2 _ octξ_small (by decide)
  have hU := gU rfl
  subst hU
  have hM : ∀ q : Fin 1, FormBound octS octδ 3 (fun u v => ∑ a, (1 : Matrix (Fin 1) (Fin 1) ℤ) q a * c a u v)
      (fun u => ∑ a, ((1 : Matrix (Fin 1) (Fin 1) ℤ) q a : ℤ) * f a u) (1 / 4) := by
    intro q
    obtain rfl : q = 0 := Subsingleton.elim _ _
    simpa using oct_formBound hc (g4 idealLsqr_exact 0)
  obtain ⟨y, hy, ht, -⟩ := g5 (1 / 4) 8 _ _ hM oct_dataLoop (Or.inl le_rfl)
  have hθ : θ = θ' 0 := by simpa using g0
  refine ⟨o, θ, h1, hok, y 0, fun q hq => by rw [hθ]; exact hy 0 q hq, ?_⟩
  rw [ht 0]
  simp [oct_pathValue hc]

end Dreimac
