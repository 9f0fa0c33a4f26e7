import Verif.Props.EssentialReduced
import Verif.Props.EssentialExamples
import Verif.Props.ReducedExamples

/-!
# C132 on the octagon: real projective coordinates in the projective line
-/

namespace Dreimac

open Real

noncomputable section

/-- C132: with `proj_dim = 1` the signs of the rows of the real projective coordinates of the octagon, points of the projective line,
still cannot be chosen consistently, although half of the energy of some of the vectors is lost. -/
example (eigh : Eigh ℝ) (he : EighSpec eigh) : ∃ o X, ∃ y : ℕ → ℕ → ℝ, projInit idealArgsort (octRipser 1) octInput 1 = .ok o ∧
    (projGetCoordinates eigh 4 o ⟨.fin (1 / 2), .int 0, 1, bumpLinear, false, true, .direct⟩).2 = .ok X ∧ X.cols = 2 ∧
    (∀ i < 8, ∀ m < 2, X.at' i m = some (y i m)) ∧
    ¬ ∃ e : ℕ → ℝ, (∀ i < 8, e i = 1 ∨ e i = -1) ∧ OnCommonBalls octS 8 octδ (3 / 2) fun i i' =>
      0 < ∑ m ∈ Finset.range 2, (e i * y i m) * (e i' * y i' m) := by
  obtain ⟨o, dgm, coc, σ, h1, h5, h6, h7, h8⟩ := C132_projective_reduced octInput octInput_describes
    (octRipser_spec 2 1 (by norm_num) (by norm_num)) idealArgsort idealArgsort_spec le_rfl (by norm_num) (fun _ => rfl)
  obtain ⟨o', dgm', coc', σ', h1', h5', h6', h7', h8'⟩ := C91_projective_coordinates octInput octInput_describes
    (octRipser_spec 2 1 (by norm_num) (by norm_num)) idealArgsort idealArgsort_spec le_rfl (by norm_num) (fun _ => rfl)
  rw [h1] at h1'
  injection h1' with h1'
  subst h1'
  simp only [octRipser] at h5 h6 h5' h6'
  simp at h5 h6 h5' h6'
  subst h5 h6 h5' h6'
  have hσ : σ = [0] := List.perm_singleton.1 h7.1
  have hσ' : σ' = [0] := List.perm_singleton.1 h7'.1
  subst hσ hσ'
  obtain ⟨ξ, hξ, h9⟩ := h8 0 0 2 4 _ rfl rfl rfl
  obtain rfl := hξ.unique (octξ_lists 1)
  obtain ⟨ξ, hξ', h9'⟩ := h8' 0 0 2 4 _ rfl rfl rfl
  obtain rfl := hξ'.unique (octξ_lists 1)
  obtain ⟨X, w, β, e1, e2, e3, e4, e5, e6⟩ := h9 (octS_eq 1 ▸ oct_born 2 1 (by norm_num)) eigh 4 [] (1 / 2) false true bumpLinear
    .direct 1 he le_rfl (by norm_num) positiveBump_linear (by simp) le_rfl (by norm_num) (3 / 2) (by norm_num)
    (belowDeath_id.2 (by norm_num)) (oct_covered 1) (octS_eq 1 ▸ oct_bridged)
  obtain ⟨X', w', V, β', e1', -, -, e4', e5', e6'⟩ := h9' eigh 4 [] (1 / 2) false true bumpLinear .direct 1 le_rfl
    (by norm_num) positiveBump_linear (by simp) le_rfl (by norm_num) (3 / 2) (by norm_num) (belowDeath_id.2 (by norm_num))
  rw [e1] at e1'
  injection e1' with e1'
  subst e1'
  rw [octS_eq] at e4 e4' e6
  have hfin : ∃ y : ℕ → ℕ → ℝ, ∀ n < 8, ∀ k < 2, X.at' n k = some (y n k) := by
    refine C130_direct_finite eigh he 4 (dataClassMap [0, 4, 2, 6] 8 octδ (3 / 2) (signVector (octξ 1) w') β')
      (fun i m => signVector (octξ 1) w' (β' i) i ([0, 4, 2, 6].getD m 0))
      (fun i hi m hm => if_pos ⟨hi, hm, oct_covered 1 i hi⟩) 1 (by decide : 1 < 4) ⟨V, X⟩ e5' ?_
    intro v hv n hn
    have hβ : ∀ i < 8, β' i ∈ [0, 4, 2, 6] ∧ octδ (β' i) i < 3 / 2 := fun i hi =>
      ⟨(e6' i hi (oct_covered 1 i hi)).1, (e6' i hi (oct_covered 1 i hi)).2.1⟩
    have hc := oct_captured (fun v i hi => oct_comp e4' hβ v hi) hv n hn
    by_contra hcon
    push Not at hcon
    have z0 := oct_comp e4' hβ (v 0) (i := n) hn
    have z1 := oct_comp e4' hβ (v 1) (i := n) hn
    rw [show ∑ m ∈ Finset.range 4, star (v 0 m) * signVector (octξ 1) w' (β' n) n ([0, 4, 2, 6].getD m 0) = 0 from
      hcon 0 (by norm_num)] at z0
    rw [show ∑ m ∈ Finset.range 4, star (v 1 m) * signVector (octξ 1) w' (β' n) n ([0, 4, 2, 6].getD m 0) = 0 from
      hcon 1 (by norm_num)] at z1
    rw [← z0, ← z1] at hc
    have : (0 : ℝ) < (√2)⁻¹ := by positivity
    split at hc <;> linarith
  obtain ⟨y, hy⟩ := hfin
  obtain ⟨v, s, hv, hmost, hmain⟩ := e6 y hy
  refine ⟨o, X, y, h1, e1, e3, hy, ?_⟩
  refine hmain ?_
  have hc := oct_captured (fun v i hi => oct_comp e4 e5 v hi) (hmost rfl)
  have hs2 : ∀ i < 8, s i ^ 2 = if i % 2 = 0 then 1 / 2 else (1 + (√2)⁻¹) / 2 := by
    intro i hi
    rw [← hc i hi, ← oct_comp e4 e5 (v 0) hi, ← oct_comp e4 e5 (v 1) hi]
    have hu := hv.unit i hi
    have c0 := hv.comp i hi 0 (by norm_num)
    have c1 := hv.comp i hi 1 (by norm_num)
    simp only [Finset.sum_range_succ _ 1, Finset.sum_range_one, Real.norm_eq_abs, sq_abs] at hu
    rw [show ∑ m ∈ Finset.range 4, star (v 0 m) * signVector (octξ 1) w (β i) i ([0, 4, 2, 6].getD m 0) = s i * y i 0 from c0,
      show ∑ m ∈ Finset.range 4, star (v 1 m) * signVector (octξ 1) w (β i) i ([0, 4, 2, 6].getD m 0) = s i * y i 1 from c1]
    linear_combination (-(s i) ^ 2) * hu
  have heven : ∀ i < 8, i % 2 = 0 → lost (s i) = √(1 / 2) := by
    intro i hi h
    unfold lost
    rw [hs2 i hi, if_pos h]
    norm_num
  have hodd : ∀ i < 8, i % 2 = 1 → lost (s i) < √(1 / 2) := by
    intro i hi h
    unfold lost
    rw [hs2 i hi, if_neg (by omega)]
    refine Real.sqrt_lt_sqrt ?_ ?_
    · have : (√2)⁻¹ ≤ 1 := inv_le_one_of_one_le₀ (Real.one_le_sqrt.2 (by norm_num))
      linarith
    · have : (0 : ℝ) < (√2)⁻¹ := by positivity
      linarith
  have hnn : ∀ i, 0 ≤ lost (s i) := fun i => Real.sqrt_nonneg _
  have ht : (0 : ℝ) < √(1 / 2) := Real.sqrt_pos.2 (by norm_num)
  have ht2 : √(1 / 2) * √(1 / 2) = (1 / 2 : ℝ) := Real.mul_self_sqrt (by norm_num)
  have hh : (√2)⁻¹ * (√2)⁻¹ = (1 / 2 : ℝ) := by
    rw [← mul_inv, Real.mul_self_sqrt (by norm_num)]; norm_num
  have hle : ∀ i < 8, lost (s i) ≤ √(1 / 2) := by
    intro i hi
    rcases Nat.mod_two_eq_zero_or_one i with h | h
    · exact (heven i hi h).le
    · exact (hodd i hi h).le
  have ht1 : √(1 / 2) < (1 : ℝ) := by rw [Real.sqrt_lt' one_pos]; norm_num
  intro u hu i hi i' hi' hd hd'
  change i < 8 at hi
  change i' < 8 at hi'
  have hcyc : ∀ {j}, octδ u j < 3 / 2 → cyc8 u j ≤ 1 := by
    intro j h
    by_contra hc
    have : ((2 : ℕ) : ℝ) ≤ (cyc8 u j : ℕ) := by exact_mod_cast (by omega : 2 ≤ cyc8 u j)
    unfold octδ at h
    push_cast at this
    linarith
  have c1 := hcyc hd
  have c2 := hcyc hd'
  have hov : dataOverlap octS w i i' = if i = i' then 1 else if i % 2 = 1 ∧ i' % 2 = 1 then 1 / 2 else √(1 / 2) := by
    unfold dataOverlap octS
    rw [Finset.sum_insert (by decide), Finset.sum_insert (by decide), Finset.sum_insert (by decide), Finset.sum_singleton]
    rw [oct_weights e4 (by decide) hi, oct_weights e4 (by decide) hi, oct_weights e4 (by decide) hi, oct_weights e4 (by decide) hi,
      oct_weights e4 (by decide) hi', oct_weights e4 (by decide) hi', oct_weights e4 (by decide) hi', oct_weights e4 (by decide) hi']
    have hu' : u = 0 ∨ u = 4 ∨ u = 2 ∨ u = 6 := by simpa [octS] using hu
    clear hle hodd heven hs2 hc hd hd' hcyc
    rcases hu' with rfl | rfl | rfl | rfl <;> interval_cases i <;> first | (exfalso; revert c1; decide) | skip
    all_goals interval_cases i' <;> first | (exfalso; revert c2; decide) | (norm_num [cyc8]; try linarith [hh])
  rw [hov]
  have hmul : lost (s i) * lost (s i') ≤ 1 / 2 := by
    rw [← ht2]
    exact mul_le_mul (hle i hi) (hle i' hi') (hnn _) ht.le
  split
  · linarith
  · split
    · rename_i h
      rw [← ht2]
      exact mul_lt_mul'' (hodd i hi h.1) (hodd i' hi' h.2) (hnn _) (hnn _)
    · nlinarith

end

end Dreimac
