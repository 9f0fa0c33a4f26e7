import Verif.Props.ReducedChern
import Verif.Props.ChernExamples

/-!
# C131 on the octahedron
-/

namespace Dreimac

open Real Finset

noncomputable section

/-- C131 on the octahedron with 30000 data points, exact solvers and `proj_dim = 5`: the lost parts are zero, an error of `1 / 100`
turns is allowed on each edge, and the phases of the rows around the six squares of the cube add up to `2 π`. -/
example : ∃ (env : CPOracles) (o : ProjObj) (X : Arr ℂ) (y : ℕ → ℕ → ℂ), EighSpec env.eigh ∧ ExactLsq env.lsqr ∧
    cpInit idealArgsort cheRipser (cheInput 30000) 6 41 2 = .ok o ∧
    (cpGetCoordinates env 6 o ⟨.fin (1 / 2), .int 0, 5, bumpLinear, false, true, .exponential⟩).2 = .ok X ∧
    (∀ i < 30000, ∀ m < 6, X.at' i m = some (y i m)) ∧
    ∑ f, Complex.arg (cheSurface.around 6 y f) = 2 * π := by
  obtain ⟨eigh, he⟩ := exists_eighSpec (𝕜 := ℂ)
  obtain ⟨o, dgm, coc, σ, h1, h5, h6, h7, h8⟩ := C131_complex_projective_reduced (cheInput 30000)
    (cheInput_describes 30000 (by norm_num)) cheRipser_spec idealArgsort idealArgsort_spec le_rfl (by norm_num) (by norm_num)
    (fun _ => rfl) (by norm_num) (by show 10 ^ 6 < 8 * 6 * 30000; norm_num)
  obtain ⟨o', dgm', coc', σ', h1', h5', h6', h7', h8'⟩ := C124_complex_projective_chern_partial (cheInput 30000)
    (cheInput_describes 30000 (by norm_num)) cheRipser_spec idealArgsort idealArgsort_spec le_rfl (by norm_num) (by norm_num)
    (fun _ => rfl) (by norm_num) (by show 10 ^ 6 < 8 * 6 * 30000; norm_num)
  rw [h1] at h1'
  injection h1' with h1'
  subst h1'
  simp only [cheRipser] at h5 h6 h5' h6'
  simp at h5 h6 h5' h6'
  subst h5 h6 h5' h6'
  have hσ : σ = [0] := List.perm_singleton.1 h7.1
  have hσ' : σ' = [0] := List.perm_singleton.1 h7'.1
  subst hσ hσ'
  obtain ⟨c, hc, h9⟩ := h8 0 0 1 2 _ rfl rfl rfl
  obtain ⟨c', hc', h9'⟩ := h8' 0 0 1 2 _ rfl rfl rfl
  obtain ⟨X', y, -, -, e1', -, -, e4', -⟩ := h9' ⟨idealLsqr, idealMilp, eigh⟩ 6 [] (1 / 2) false true bumpLinear
    .exponential he le_rfl (by norm_num) positiveBump_linear (by simp) (3 / 4) (by norm_num) (che_cocycle hc')
    (fun i _ => ⟨cheNear i, cheNear_ok i⟩)
  obtain ⟨X, w, ν, β, e1, e2, e3, e5, e6, e7, eβ, e8⟩ := h9 ⟨idealLsqr, idealMilp, eigh⟩ 6 [] (1 / 2) false true bumpLinear
    .exponential 5 he le_rfl (by norm_num) positiveBump_linear (by simp) (by norm_num) (by norm_num) (3 / 4) (by norm_num)
    (che_cocycle hc) (fun i _ => ⟨cheNear i, cheNear_ok i⟩)
  have hXX : X = X' := by
    have h : Except.ok X = Except.ok X' := e1.symm.trans e1'
    injection h
  subst hXX
  obtain ⟨v, s, hv, -, hmain⟩ := e8 y e4'
  have hr : ∀ d, 6 ≤ cheSurface.start d ∧ cheSurface.start d < 14 := by decide
  have hW : ∀ i, 6 ≤ i → i < 14 → ∀ u ∈ cheS, w u i = (cheW u i : ℝ) := fun i h6 h14 u hu =>
    che_weights e5 (by show i < 30000; omega) h6 h14 u hu
  have hunit : ∀ i, 6 ≤ i → i < 14 → ∑ m ∈ range 6, ‖cpDataVector cheS c ν w (β i) i ([3, 0, 2, 4, 1, 5].getD m 0)‖ ^ 2 = 1 := by
    intro i h6 h14
    have key : ∀ i < 14, 6 ≤ i → ∑ m ∈ range 6, cheW ([3, 0, 2, 4, 1, 5].getD m 0) i = 1 := by decide +kernel
    have hk : ((∑ m ∈ range 6, cheW ([3, 0, 2, 4, 1, 5].getD m 0) i : ℚ) : ℝ) = 1 := by rw [key i h14 h6]; norm_num
    rw [← hk]
    push_cast
    refine sum_congr rfl fun m hm => ?_
    have hmem : [3, 0, 2, 4, 1, 5].getD m 0 ∈ cheS :=
      (by decide : ∀ m < 6, [3, 0, 2, 4, 1, 5].getD m 0 ∈ cheS) m (mem_range.1 hm)
    rw [cpDataVector_eq, norm_mul, norm_phasor, one_mul, Complex.norm_real, Real.norm_eq_abs, sq_abs, hW i h6 h14 _ hmem,
      Real.sq_sqrt]
    unfold cheW
    split_ifs <;> norm_num
  have hstep : ∀ d, cheSurface.step cheS w d = 2 / 3 := by
    intro d
    have key : ∀ d, ∑ v ∈ cheS, |cheW v (cheSurface.start (cheSurface.next d)) - cheW v (cheSurface.start d)| = 2 / 3 := by
      decide +kernel
    have : ((∑ v ∈ cheS, |cheW v (cheSurface.start (cheSurface.next d)) - cheW v (cheSurface.start d)| : ℚ) : ℝ) = 2 / 3 := by
      rw [key d]; norm_num
    rw [← this]
    unfold DataSurface.step
    push_cast
    refine sum_congr rfl fun v hv => ?_
    rw [hW _ (hr d).1 (hr d).2 v hv, hW _ (hr _).1 (hr _).2 v hv]
  have hM := che_bound (che_lift hc) e6 (e7 idealLsqr_exact)
  have hs := cheSurface_inBalls (show 14 ≤ 30000 by norm_num)
  have hend : ∀ d, cheδ (cheSurface.face d) (cheSurface.start (cheSurface.next d)) < 3 / 4 := fun d => by
    have := hs.ball (cheSurface.next d)
    rwa [cheSurface.next_face] at this
  have hpi := Real.pi_pos
  obtain ⟨-, q⟩ := hmain _ hM (Fin 24) (Fin 6) cheSurface (fun f => f.val) cheNear (fun _ => 1 / 100) hs
    (fun d => by rw [show cheSurface.step cheRipser.idxPerm.toFinset w d = 2 / 3 from hstep d]; norm_num) (fun _ => by norm_num)
    (fun f => by
      have hcard : ∀ f, (univ.filter fun d => cheSurface.face d = f).card = 4 := by decide
      rw [sum_congr rfl fun d _ => by rw [show cheSurface.step cheRipser.idxPerm.toFinset w d = 2 / 3 from hstep d], sum_const,
        hcard]
      norm_num) (fun i _ => cheNear_ok i)
    (fun d => by
      rw [lost_full hv (show cheSurface.start d < 30000 by have := hr d; omega) (hunit _ (hr d).1 (hr d).2), zero_mul,
        show cheSurface.step cheRipser.idxPerm.toFinset w d = 2 / 3 from hstep d]
      refine mul_pos (mul_pos ?_ (cos_pos_of_mem_Ioo ⟨by norm_num; linarith, by norm_num; linarith⟩))
        (sin_pos_of_pos_of_lt_pi (by positivity) (by linarith))
      refine sum_pos' (fun v _ => by positivity) ⟨cheSurface.face d, hs.land _, ?_⟩
      have h1 : ∀ d, 0 < cheW (cheSurface.face d) (cheSurface.start d) ∧ 0 < cheW (cheSurface.face d) (cheSurface.start (cheSurface.next d)) := by
        decide +kernel
      rw [hW _ (hr d).1 (hr d).2 _ (hs.land _), hW _ (hr _).1 (hr _).2 _ (hs.land _)]
      have h2 : (0 : ℝ) < (cheW (cheSurface.face d) (cheSurface.start d) : ℝ) := by exact_mod_cast (h1 d).1
      have h3 : (0 : ℝ) < (cheW (cheSurface.face d) (cheSurface.start (cheSurface.next d)) : ℝ) := by exact_mod_cast (h1 d).2
      positivity)
  refine ⟨⟨idealLsqr, idealMilp, eigh⟩, o, X, y, he, idealLsqr_exact, h1, e1, e4', ?_⟩
  rw [q, cheSurface_value hc]
  simp

end

end Dreimac
