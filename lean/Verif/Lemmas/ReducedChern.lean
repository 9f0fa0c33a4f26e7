import Verif.Lemmas.Reduced
import Verif.Lemmas.Surface

/-! # The phases around polygons after a reduction that loses little -/

namespace Dreimac

open Finset Real

noncomputable section

theorem norm_phasor (t : ℝ) : ‖phasor t‖ = 1 := by
  unfold phasor
  rw [show 2 * (π : ℂ) * Complex.I * (t : ℂ) = ((2 * π * t : ℝ) : ℂ) * Complex.I by push_cast; ring, Complex.norm_exp_ofReal_mul_I]

/-- A complex number close to a positive real number has a small phase. -/
theorem phase_of_close {z : ℂ} {ρ φ : ℝ} (hρ : 0 < ρ) (h0 : 0 ≤ φ) (h1 : φ ≤ 1 / 4) (h : ‖z - ρ‖ < ρ * sin (2 * π * φ)) :
    ∃ ρ' τ : ℝ, 0 < ρ' ∧ |τ| < φ ∧ z = ρ' * phasor τ := by
  have hpi := Real.pi_pos
  have harg := abs_arg_lt hρ (by positivity : 0 ≤ 2 * π * φ) (by nlinarith) h
  have hz : z ≠ 0 := by
    rintro rfl
    rw [zero_sub, norm_neg, Complex.norm_real, Real.norm_of_nonneg hρ.le] at h
    have := mul_le_of_le_one_right hρ.le (sin_le_one (2 * π * φ))
    linarith
  refine ⟨‖z‖, z.arg / (2 * π), norm_pos_iff.2 hz, ?_, ?_⟩
  · rw [abs_div, abs_of_pos (by positivity : 0 < 2 * π), div_lt_iff₀ (by positivity)]
    linarith
  · conv_lhs => rw [← Complex.norm_mul_exp_arg_mul_I z]
    unfold phasor
    congr 2
    push_cast
    field_simp

section
variable {S : Finset ℕ} {N : ℕ} {δ : ℕ → ℕ → ℝ} {r : ℝ} {w : ℕ → ℕ → ℝ} {c : ℕ → ℕ → ℕ → ℤ} {ν : ℕ → ℕ → ℝ}

theorem PhaseData.inner_lower (h : PhaseData S N δ r w c ν) {M : ℝ} (hM : FormBound2 S δ (2 * r) c ν M) {i j l : ℕ} (hi : i < N)
    (hj : j < N) (hl : l ∈ S) (hli : δ l i < r) (hlj : δ l j < r) (hs : M * ∑ t ∈ S, |w t j - w t i| < 1 / 4) :
    dataOverlap S w i j * cos (2 * π * (M * ∑ t ∈ S, |w t j - w t i|)) ≤ ‖dataInner S c ν w l i l j‖ := by
  have hpi := Real.pi_pos
  have hci : ∃ u ∈ S, δ u i < r := ⟨l, hl, hli⟩
  have hcj : ∃ u ∈ S, δ u j < r := ⟨l, hl, hlj⟩
  refine le_trans ?_ (Complex.re_le_norm _)
  unfold dataInner dataOverlap
  rw [Complex.re_sum, sum_mul]
  refine sum_le_sum fun v hv => ?_
  have e : (star (cpDataVector S c ν w l i v) * cpDataVector S c ν w l j v).re =
      √(w v i) * √(w v j) * cos (2 * π * (dataPhase S c ν w l j v - dataPhase S c ν w l i v)) := by
    rw [cpDataVector_eq, cpDataVector_eq, star_mul', star_phasor, RCLike.star_def, Complex.conj_ofReal,
      show phasor (-dataPhase S c ν w l i v) * ((√(w v i) : ℝ) : ℂ) * (phasor (dataPhase S c ν w l j v) * ((√(w v j) : ℝ) : ℂ)) =
        ((√(w v i) * √(w v j) : ℝ) : ℂ) * phasor (dataPhase S c ν w l j v - dataPhase S c ν w l i v) by
        rw [sub_eq_add_neg, phasor_add]; push_cast; ring, phasor_eq, Complex.re_ofReal_mul]
  rw [e]
  by_cases h1 : 0 < w v i
  · by_cases h2 : 0 < w v j
    · refine mul_le_mul_of_nonneg_left ?_ (by positivity)
      have hb := h.phase_step hM hi hj hl hv hli hlj ((h.support i hi hci v hv).1 h1) ((h.support j hj hcj v hv).1 h2)
      rw [← cos_abs (2 * π * (dataPhase S c ν w l j v - dataPhase S c ν w l i v)), abs_mul, abs_of_pos (by positivity : 0 < 2 * π)]
      refine cos_le_cos_of_nonneg_of_le_pi (by positivity) ?_ (by gcongr)
      have := mul_lt_mul_of_pos_left hs (by positivity : 0 < 2 * π)
      linarith
    · rw [Real.sqrt_eq_zero_of_nonpos (not_lt.1 h2)]; simp
  · rw [Real.sqrt_eq_zero_of_nonpos (not_lt.1 h1)]; simp

/-- The phases around the polygons of a closed surface, for vectors whose inner products differ little from the unreduced ones. -/
theorem PhaseData.chern_reduced (h : PhaseData S N δ r w c ν) {M : ℝ} (hM : FormBound2 S δ (2 * r) c ν M) {D F : Type} [Fintype D]
    [Fintype F] [DecidableEq F] (s : DataSurface D F) (ℓ : F → ℕ) (hs : s.InBalls S N δ r ℓ) (hsm : ∀ d, M * s.step S w d < 1 / 4)
    (φ : D → ℝ) (hφ0 : ∀ d, 0 ≤ φ d) (hφ1 : ∀ d, φ d ≤ 1 / 4)
    (hpoly : ∀ f, ∑ d with s.face d = f, (M * s.step S w d + φ d) < 1 / 2) (b : ℕ → ℕ)
    (hb : ∀ d, b (s.start d) ∈ S ∧ δ (b (s.start d)) (s.start d) < r) (β : ℕ → ℕ)
    (hβ : ∀ d, β (s.start d) ∈ S ∧ δ (β (s.start d)) (s.start d) < r) (m : ℕ) (y : ℕ → ℕ → ℂ) (σ : D → ℝ) (hσ : ∀ d, 0 < σ d)
    (hy : ∀ d, ‖(σ d : ℂ) * ∑ k ∈ range m, star (y (s.start d) k) * y (s.start (s.next d)) k -
      dataInner S c ν w (β (s.start d)) (s.start d) (β (s.start (s.next d))) (s.start (s.next d))‖ <
        dataOverlap S w (s.start d) (s.start (s.next d)) * cos (2 * π * (M * s.step S w d)) * sin (2 * π * φ d)) :
    (∀ f, s.around m y f ≠ 0) ∧ ∑ f, Complex.arg (s.around m y f) = 2 * π * s.value c ℓ b := by
  have hpi := Real.pi_pos
  obtain ⟨ρ, t, Z, hρ, ht, hZ, hin, hsum⟩ := h.chern_core hM s ℓ hs hsm b hb β hβ
  have hZn : ∀ d, ‖Z d‖ = 1 := by
    intro d
    have := congrArg norm (hZ d)
    rw [norm_mul, norm_star, norm_one] at this
    nlinarith [norm_nonneg (Z d)]
  set Y : D → ℂ := fun d => ∑ k ∈ range m, star (y (s.start d) k) * y (s.start (s.next d)) k with hY
  set A : D → ℂ := fun d =>
    dataInner S c ν w (β (s.start d)) (s.start d) (β (s.start (s.next d))) (s.start (s.next d)) with hA
  set U : D → ℂ := fun d => star (Z d) * Z (s.next d) * phasor (t d) with hU
  have hAU : ∀ d, A d = ρ d * U d := fun d => by
    rw [show A d = _ from hin d]
    simp only [hU]; ring
  have hUn : ∀ d, ‖U d‖ = 1 := fun d => by
    simp only [hU, norm_mul, norm_star, hZn, norm_phasor, mul_one]
  clear_value U
  have hUU : ∀ d, star (U d) * U d = 1 := fun d => by
    rw [RCLike.star_def, Complex.conj_mul', hUn]; simp
  have hl : ∀ d, ℓ (s.face d) ∈ S := fun d => hs.land _
  have hend : ∀ d, δ (ℓ (s.face d)) (s.start (s.next d)) < r := fun d => by
    have := hs.ball (s.next d)
    rwa [s.next_face] at this
  have hρlow : ∀ d, dataOverlap S w (s.start d) (s.start (s.next d)) * cos (2 * π * (M * s.step S w d)) ≤ ρ d := by
    intro d
    have h1 := h.inner_lower hM (hs.data d) (hs.data (s.next d)) (hl d) (hs.ball d) (hend d) (hsm d)
    have h2 : ‖A d‖ = ρ d := by rw [hAU, norm_mul, hUn, mul_one, Complex.norm_real, Real.norm_of_nonneg (hρ d).le]
    have h3 := h.inner_twist (hs.data d) (hs.data (s.next d)) (hl d) (hβ d).1 (hβ (s.next d)).1 (hs.ball d) (hend d) (hβ d).2
      (hβ (s.next d)).2
    rw [← h2, show A d = _ from h3, norm_mul, norm_mul, norm_star, norm_phasor, norm_phasor, one_mul, one_mul]
    exact h1
  have hclose : ∀ d, ‖star (U d) * (σ d * Y d) - ρ d‖ < ρ d * sin (2 * π * φ d) := by
    intro d
    have e : star (U d) * (σ d * Y d) - ρ d = star (U d) * (σ d * Y d - A d) := by
      rw [hAU]
      linear_combination (ρ d : ℂ) * hUU d
    rw [e, norm_mul, norm_star, hUn, one_mul]
    refine (hy d).trans_le ?_
    have hsin : 0 ≤ sin (2 * π * φ d) := sin_nonneg_of_nonneg_of_le_pi (by have := hφ0 d; positivity) (by
      have := mul_le_mul_of_nonneg_left (hφ1 d) (by positivity : (0 : ℝ) ≤ 2 * π)
      linarith)
    exact mul_le_mul_of_nonneg_right (hρlow d) hsin
  choose ρ' τ hρ' hτ hYτ using fun d => phase_of_close (hρ d) (hφ0 d) (hφ1 d) (hclose d)
  have hYU : ∀ d, Y d = U d * ((ρ' d / σ d : ℝ) * phasor (τ d)) := by
    intro d
    have hσ0 : (σ d : ℂ) ≠ 0 := by exact_mod_cast (hσ d).ne'
    have e1 : (σ d : ℂ) * Y d = U d * (ρ' d * phasor (τ d)) := by
      rw [← hYτ d]
      linear_combination (-(σ d : ℂ) * Y d) * hUU d
    push_cast
    field_simp
    linear_combination e1
  -- the two sides of an edge
  have hopp : ∀ d, τ d + τ (s.opp d) = 0 := by
    intro d
    have e1 : Y (s.opp d) = star (Y d) := by
      simp only [hY, star_sum]
      refine sum_congr rfl fun k _ => ?_
      rw [s.next_start (s.opp d), s.opp_opp, s.next_start d, star_mul', star_star, mul_comm]
    have e2 : A (s.opp d) = star (A d) := by
      simp only [hA]
      rw [star_dataInner, s.next_start (s.opp d), s.opp_opp, s.next_start d]
    rw [hAU, hAU, star_mul', show star ((ρ d : ℝ) : ℂ) = ((ρ d : ℝ) : ℂ) from Complex.conj_ofReal _] at e2
    have e3 := congrArg norm e2
    rw [norm_mul, norm_mul, norm_star, hUn, hUn, mul_one, mul_one, Complex.norm_real, Complex.norm_real,
      Real.norm_of_nonneg (hρ _).le, Real.norm_of_nonneg (hρ _).le] at e3
    rw [e3] at e2
    have hρ0 : (ρ d : ℂ) ≠ 0 := by exact_mod_cast (hρ d).ne'
    have e4 : U (s.opp d) = star (U d) := mul_left_cancel₀ hρ0 e2
    rw [hYU, hYU, e4, star_mul', star_mul', star_phasor, 
      show star ((ρ' d / σ d : ℝ) : ℂ) = ((ρ' d / σ d : ℝ) : ℂ) from Complex.conj_ofReal _] at e1
    have hU0 : star (U d) ≠ 0 := by
      intro h0
      have := hUU d
      rw [h0, zero_mul] at this
      exact zero_ne_one this
    have e5 := mul_left_cancel₀ hU0 e1
    have q1 : 0 < ρ' (s.opp d) / σ (s.opp d) := div_pos (hρ' _) (hσ _)
    have q2 : 0 < ρ' d / σ d := div_pos (hρ' _) (hσ _)
    generalize ρ' (s.opp d) / σ (s.opp d) = x1 at q1 e5
    generalize ρ' d / σ d = x2 at q2 e5
    have e6 := congrArg norm e5
    rw [norm_mul, norm_mul, norm_phasor, norm_phasor, mul_one, mul_one, Complex.norm_real, Complex.norm_real,
      Real.norm_of_nonneg q1.le, Real.norm_of_nonneg q2.le] at e6
    rw [e6] at e5
    have hx : (x2 : ℂ) ≠ 0 := by exact_mod_cast q2.ne'
    have e7 := mul_left_cancel₀ hx e5
    refine phasor_eq_one ?_ ?_
    · rw [phasor_add, e7, ← phasor_add, add_neg_cancel, phasor_zero]
    · have a1 := abs_lt.1 (hτ d)
      have a2 := abs_lt.1 (hτ (s.opp d))
      have a3 := hφ1 d
      have a4 := hφ1 (s.opp d)
      rw [abs_lt]
      constructor <;> linarith [a1.1, a1.2, a2.1, a2.2]
  have hτsum : ∑ d, τ d = 0 := by
    have e1 : ∑ d, τ (s.opp d) = ∑ d, τ d := Equiv.sum_comp (Function.Involutive.toPerm s.opp s.opp_opp) τ
    have e2 : ∑ d, (τ d + τ (s.opp d)) = 0 := sum_eq_zero fun d _ => hopp d
    rw [sum_add_distrib, e1] at e2
    linarith
  have := surface_phases s (ρ := fun d => ρ' d / σ d) (t := fun d => t d + τ d) (Z := Z) (fun d => div_pos (hρ' d) (hσ d)) hZ (m := m)
    (y := y) (fun d => by
      rw [show ∑ k ∈ range m, star (y (s.start d) k) * y (s.start (s.next d)) k = _ from hYU d, phasor_add]
      simp only [hU]
      ring) (fun f => by
      refine (abs_sum_le_sum_abs _ _).trans_lt (lt_of_le_of_lt ?_ (hpoly f))
      exact sum_le_sum fun d _ => (abs_add_le _ _).trans (add_le_add (ht d) (hτ d).le))
  rw [sum_add_distrib, hτsum, add_zero, hsum] at this
  exact this

end

end

end Dreimac
