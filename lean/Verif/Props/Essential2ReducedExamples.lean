import Verif.Props.Essential2Reduced
import Verif.Props.Essential2Examples

/-! # C134 with a reduction, on the octahedron -/

namespace Dreimac

open Real Finset

noncomputable section

/-- C134 on the octahedron with 30000 data points, exact solvers and `proj_dim = 5`: the lost parts are zero, and an error of `1 / 100`
turns is allowed. -/
example (history : List ProjArgs) : ∃ (env : CPOracles) (o : ProjObj) (X : Arr ℂ) (y : ℕ → ℕ → ℂ), EighSpec env.eigh ∧
    ExactLsq env.lsqr ∧ cpInit idealArgsort cheRipser (cheInput 30000) 6 41 2 = .ok o ∧
    (cpGetCoordinates env 6 (cpHistory env 6 o history)
      ⟨.fin (1 / 2), .int 0, 5, bumpLinear, false, true, .exponential⟩).2 = .ok X ∧
    (∀ i < 30000, ∀ m < 6, X.at' i m = some (y i m)) ∧
    ¬ ∃ φ : ℕ → ℂ, (∀ i < 30000, ‖φ i‖ = 1) ∧ OnCommonBalls cheS 30000 cheδ (3 / 4) fun i i' =>
      |Complex.arg (∑ m ∈ range 6, star (φ i * y i m) * (φ i' * y i' m))| < 2 * π * (1 / 3 - (1 / 6 + 1 / 100)) := by
  obtain ⟨eigh, he⟩ := exists_eighSpec (𝕜 := ℂ)
  obtain ⟨o, dgm, coc, σ, h1, h5, h6, h7, h8⟩ := C134_complex_projective_reduced (cheInput 30000)
    (cheInput_describes 30000 (by norm_num)) cheRipser_spec idealArgsort idealArgsort_spec le_rfl (by norm_num) (by norm_num)
    (fun _ => rfl) (by norm_num) (by show 10 ^ 6 < 8 * 6 * 30000; norm_num)
  obtain ⟨o', dgm', coc', σ', h1', h5', h6', h7', h8'⟩ := C124_complex_projective_chern_partial (cheInput 30000)
    (cheInput_describes 30000 (by norm_num)) cheRipser_spec idealArgsort idealArgsort_spec le_rfl (by norm_num) (by norm_num)
    (fun _ => rfl) (by norm_num) (by show 10 ^ 6 < 8 * 6 * 30000; norm_num)
  rw [h1] at h1'
  injection h1' with h1'
  subst h1'
  simp only [cheRipser] at h5 h6 h5' h6'
  simp at h5 h6 h5' h6'
  subst h5 h6 h5' h6'
  have hσ : σ = [0] := List.perm_singleton.1 h7.1
  have hσ' : σ' = [0] := List.perm_singleton.1 h7'.1
  subst hσ hσ'
  obtain ⟨c, hc, h9⟩ := h8 0 0 1 2 _ rfl rfl rfl
  obtain ⟨c', hc', h9'⟩ := h8' 0 0 1 2 _ rfl rfl rfl
  obtain ⟨X', y, -, -, e1', -, -, e4', -⟩ := h9' ⟨idealLsqr, idealMilp, eigh⟩ 6 history (1 / 2) false true bumpLinear
    .exponential he le_rfl (by norm_num) positiveBump_linear (by simp) (3 / 4) (by norm_num) (che_cocycle hc')
    (fun i _ => ⟨cheNear i, cheNear_ok i⟩)
  obtain ⟨X, w, ν, β, e1, e2, e3, e5, e6, e7, eβ, e8⟩ := h9 (che_born hc) ⟨idealLsqr, idealMilp, eigh⟩ 6 history (1 / 2) false true
    bumpLinear .exponential 5 he le_rfl (by norm_num) positiveBump_linear (by simp) (by norm_num) (by norm_num) (3 / 4)
    (by norm_num) (che_bridged (show 14 ≤ 30000 by norm_num)) (che_cocycle hc) (fun i _ => ⟨cheNear i, cheNear_ok i⟩)
  have hXX : X = X' := by
    have h : Except.ok X = Except.ok X' := e1.symm.trans e1'
    injection h
  subst hXX
  obtain ⟨v, s, hv, -, hmain⟩ := e8 y e4'
  have hW : ∀ i < 30000, ∀ u ∈ cheS, w u i = (cheV u (cheRep i) : ℝ) := fun i hi u hu => che_all_weights e5 hi u hu
  have hnn : ∀ u i, 0 ≤ cheV u i := by intro u i; unfold cheV; split_ifs <;> norm_num
  have hunit : ∀ i < 30000, ∑ m ∈ range 6, ‖cpDataVector cheS c ν w (β i) i ([3, 0, 2, 4, 1, 5].getD m 0)‖ ^ 2 = 1 := by
    intro i hi
    have key : ∀ i < 14, ∑ m ∈ range 6, cheV ([3, 0, 2, 4, 1, 5].getD m 0) i = 1 := by decide +kernel
    have hk : ((∑ m ∈ range 6, cheV ([3, 0, 2, 4, 1, 5].getD m 0) (cheRep i) : ℚ) : ℝ) = 1 := by
      rw [key _ (cheRep_lt i)]; norm_num
    rw [← hk]
    push_cast
    refine sum_congr rfl fun m hm => ?_
    have hmem : [3, 0, 2, 4, 1, 5].getD m 0 ∈ cheS :=
      (by decide : ∀ m < 6, [3, 0, 2, 4, 1, 5].getD m 0 ∈ cheS) m (mem_range.1 hm)
    rw [cpDataVector_eq, norm_mul, norm_phasor, one_mul, Complex.norm_real, Real.norm_eq_abs, sq_abs, hW i hi _ hmem,
      Real.sq_sqrt (by exact_mod_cast hnn _ _)]
  have hpi := Real.pi_pos
  have hM := che_bound (che_lift hc) e6 (e7 idealLsqr_exact)
  refine ⟨⟨idealLsqr, idealMilp, eigh⟩, o, X, y, he, idealLsqr_exact, h1, e1, e4', ?_⟩
  refine hmain _ (1 / 6) (1 / 100) hM (by norm_num) (by norm_num) (by norm_num) (che_step e5) ?_
  intro u hu i hi i' hi' hd hd'
  beta_reduce
  have hst := che_step e5 u hu i hi i' hi' hd hd'
  beta_reduce at hst
  have h0 : 0 ≤ (1 / 8 : ℝ) * ∑ v ∈ cheS, |w v i' - w v i| :=
    mul_nonneg (by norm_num) (sum_nonneg fun _ _ => abs_nonneg _)
  have hlost : lost (s i) = 0 := lost_full hv hi (hunit i hi)
  rw [hlost, zero_mul]
  have hpos : ∀ {i}, i < 30000 → cheδ u i < 3 / 4 → 0 < w u i := by
    intro i hi hd
    have key : ∀ u ∈ cheS, ∀ i < 14, cheDist u i < 8 → 0 < cheV u i := by decide +kernel
    have h1 := key u hu _ (cheRep_lt i) (by rw [cheDist_rep]; exact che_lt (n := 8) (by push_cast; linarith))
    rw [hW i hi u hu]
    exact_mod_cast h1
  refine mul_pos (mul_pos ?_ (cos_pos_of_mem_Ioo ⟨?_, ?_⟩)) (sin_pos_of_pos_of_lt_pi (by positivity) (by linarith))
  · have q1 := hpos hi hd
    have q2 := hpos hi' hd'
    exact sum_pos' (fun v _ => by positivity) ⟨u, hu, by positivity⟩
  · have : 0 ≤ 2 * π * ((1 / 8 : ℝ) * ∑ v ∈ cheS, |w v i' - w v i|) := by positivity
    exact lt_of_lt_of_le (by linarith) this
  · have := mul_le_mul_of_nonneg_left hst (by positivity : (0 : ℝ) ≤ 2 * π)
    exact lt_of_le_of_lt this (by linarith)

end

end Dreimac
