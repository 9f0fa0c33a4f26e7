import Verif.Lemmas.ReducedChern
import Verif.Spec.Essential

/-! # Lemmas for C134 -/

namespace Dreimac

open Finset Real

noncomputable section

theorem phasor_eq_one_int {t : ℝ} (h : phasor t = 1) : ∃ n : ℤ, t = n := by
  unfold phasor at h
  rw [Complex.exp_eq_one_iff] at h
  obtain ⟨n, hn⟩ := h
  have h2 : (2 * π * Complex.I : ℂ) ≠ 0 := by simp [Real.pi_ne_zero, Complex.I_ne_zero]
  have h3 : (t : ℂ) = n := by
    apply mul_left_cancel₀ h2
    rw [hn]; ring
  exact ⟨n, by exact_mod_cast h3⟩

theorem phasor_polar (z : ℂ) : z = ‖z‖ * phasor (Complex.arg z / (2 * π)) := by
  conv_lhs => rw [← Complex.norm_mul_exp_arg_mul_I z]
  unfold phasor
  congr 2
  push_cast
  field_simp

/-- If a complex number that is a positive multiple of `phasor s * phasor t` has an argument below `2 π κ`, then `s` is within `κ + |t|`
of an integer. -/
theorem near_int {s t a κ : ℝ} (ha : 0 < a) (hz : |Complex.arg (a * (phasor s * phasor t))| < 2 * π * κ) :
    ∃ n : ℤ, |s - n| < κ + |t| := by
  have hpi := Real.pi_pos
  set z : ℂ := a * (phasor s * phasor t) with hzdef
  have hn : ‖z‖ = a := by
    rw [hzdef, norm_mul, norm_mul, norm_phasor, norm_phasor, Complex.norm_real, Real.norm_of_nonneg ha.le]; ring
  have h1 := phasor_polar z
  rw [hn] at h1
  have ha0 : (a : ℂ) ≠ 0 := by exact_mod_cast ha.ne'
  have h2 : phasor s * phasor t = phasor (Complex.arg z / (2 * π)) := mul_left_cancel₀ ha0 (by rw [← h1])
  have h3 : phasor (s + t + -(Complex.arg z / (2 * π))) = 1 := by
    rw [phasor_add, phasor_add, h2, ← phasor_add, add_neg_cancel, phasor_zero]
  obtain ⟨n, hn⟩ := phasor_eq_one_int h3
  refine ⟨n, ?_⟩
  have h4 : |Complex.arg z / (2 * π)| < κ := by
    rw [abs_div, abs_of_pos (by positivity : (0 : ℝ) < 2 * π), div_lt_iff₀ (by positivity)]
    linarith
  have h5 : s - n = Complex.arg z / (2 * π) - t := by linarith
  rw [h5]
  calc |Complex.arg z / (2 * π) - t| ≤ |Complex.arg z / (2 * π)| + |t| := abs_sub _ _
    _ < κ + |t| := by linarith

section
variable {S : Finset ℕ} {N : ℕ} {δ : ℕ → ℕ → ℝ} {r : ℝ} {w : ℕ → ℕ → ℝ} {c : ℕ → ℕ → ℕ → ℤ} {ν : ℕ → ℕ → ℝ}

theorem PhaseData.transition_eq (h : PhaseData S N δ r w c ν) {i u v : ℕ} (hi : i < N) (hu : u ∈ S) (hui : δ u i < r) :
    dataTransition S c ν w v u i = dataPhase S c ν w u i v := by
  have h1 := h.sum_one i hi ⟨u, hu, hui⟩
  unfold dataPhase dataTransition
  have e : ν v u = ∑ t ∈ S, w t i * ν v u := by rw [← sum_mul, h1, one_mul]
  conv_rhs => rw [e]
  rw [← sum_add_distrib]
  refine sum_congr rfl fun t _ => ?_
  rw [← sum_mul, h1]
  ring

/-- If the rows can be multiplied by phases such that all inner products `Y` on common balls have small phases, then the cocycle is a
coboundary on triples of landmarks whose balls have a common data point. -/
theorem PhaseData.unrolled_core (h : PhaseData S N δ r w c ν) {M : ℝ} (hM : FormBound2 S δ (2 * r) c ν M) {α κ : ℝ} (hα : α ≤ 1 / 3)
    (hs : OnCommonBalls S N δ r fun i i' => M * ∑ t ∈ S, |w t i' - w t i| ≤ α) (β : ℕ → ℕ)
    (hβ : ∀ i < N, (∃ u ∈ S, δ u i < r) → β i ∈ S ∧ δ (β i) i < r) (φ : ℕ → ℂ) (hφ : ∀ i, ‖φ i‖ = 1) (Y : ℕ → ℕ → ℂ)
    (hY : ∀ u ∈ S, ∀ i < N, ∀ i' < N, δ u i < r → δ u i' < r → ∃ a t : ℝ, 0 < a ∧ |t| ≤ κ ∧
      Y i i' = star (phasor (dataTransition S c ν w u (β i) i)) * phasor (dataTransition S c ν w u (β i') i') * (a * phasor t))
    (hsmall : OnCommonBalls S N δ r fun i i' => |Complex.arg (star (φ i) * φ i' * Y i i')| < 2 * π * (1 / 3 - κ)) :
    ∃ m : ℕ → ℕ → ℤ, (∀ u ∈ S, ∀ v ∈ S, m v u = -m u v) ∧
      ∀ u ∈ S, ∀ v ∈ S, ∀ z ∈ S, (∃ i < N, δ u i < r ∧ δ v i < r ∧ δ z i < r) → c u v z = m u v + m v z - m u z := by
  classical
  -- the phases of the vectors computed with the ball of `u`
  set f : ℕ → ℝ := fun i => Complex.arg (φ i) / (2 * π) with hf
  have hφf : ∀ i, φ i = phasor (f i) := by
    intro i
    have := phasor_polar (φ i)
    rw [hφ i] at this
    simpa using this
  set T := dataTransition S c ν w with hT
  set G : ℕ → ℕ → ℝ := fun u i => f i + T u (β i) i with hG
  have hstep : ∀ u ∈ S, ∀ i < N, ∀ i' < N, δ u i < r → δ u i' < r → ∃ n : ℤ, |G u i' - G u i - n| < 1 / 3 := by
    intro u hu i hi i' hi' hd hd'
    obtain ⟨a, t, ha, ht, e⟩ := hY u hu i hi i' hi' hd hd'
    have key := hsmall u hu i hi i' hi' hd hd'
    beta_reduce at key
    rw [e, hφf i, hφf i', star_phasor, star_phasor] at key
    have e2 : phasor (-f i) * phasor (f i') * (phasor (-T u (β i) i) * phasor (T u (β i') i') * (a * phasor t)) =
        a * (phasor (G u i' - G u i) * phasor t) := by
      rw [show G u i' - G u i = -f i + f i' + -T u (β i) i + T u (β i') i' by simp only [hG]; ring, phasor_add, phasor_add, phasor_add]
      ring
    rw [e2] at key
    obtain ⟨n, hn⟩ := near_int ha key
    refine ⟨n, hn.trans_le ?_⟩
    linarith
  -- integers that make them change little in the ball
  have hK : ∀ u, ∃ K : ℕ → ℤ, u ∈ S → ∀ i < N, ∀ i' < N, δ u i < r → δ u i' < r → |(G u i' - K i') - (G u i - K i)| < 1 / 3 := by
    intro u
    by_cases hu : u ∈ S ∧ ∃ i < N, δ u i < r
    · obtain ⟨hu, i₀, hi₀, h₀⟩ := hu
      have : ∀ i, ∃ n : ℤ, i < N → δ u i < r → |G u i - G u i₀ - n| < 1 / 3 := by
        intro i
        by_cases hi : i < N ∧ δ u i < r
        · obtain ⟨n, hn⟩ := hstep u hu i₀ hi₀ i hi.1 h₀ hi.2
          exact ⟨n, fun _ _ => hn⟩
        · exact ⟨0, fun q1 q2 => absurd ⟨q1, q2⟩ hi⟩
      choose K hK using this
      refine ⟨K, fun _ i hi i' hi' hd hd' => ?_⟩
      obtain ⟨n, hn⟩ := hstep u hu i hi i' hi' hd hd'
      have q1 := abs_lt.1 (hK i hi hd)
      have q2 := abs_lt.1 (hK i' hi' hd')
      have q3 := abs_lt.1 hn
      have h1 : (n : ℝ) < K i' - K i + 1 := by linarith [q1.1, q1.2, q2.1, q2.2, q3.1, q3.2]
      have h2 : ((K i' : ℝ) - K i) < n + 1 := by linarith [q1.1, q1.2, q2.1, q2.2, q3.1, q3.2]
      have h3 : n < K i' - K i + 1 := by exact_mod_cast h1
      have h4 : K i' - K i < n + 1 := by exact_mod_cast h2
      have h5 : n = K i' - K i := by omega
      rw [h5] at hn
      push_cast at hn
      rwa [show G u i' - K i' - (G u i - K i) = G u i' - G u i - (K i' - K i) by ring]
    · exact ⟨fun _ => 0, fun q i hi _ _ hd _ => absurd ⟨q, i, hi, hd⟩ hu⟩
  choose K hK using hK
  -- the transition integers
  set m₀ : ℕ → ℕ → ℕ → ℤ := fun u v i => K u i - K v i + c u v (β i) with hm₀
  have htrans : ∀ u ∈ S, ∀ v ∈ S, ∀ i < N, δ u i < r → δ v i < r →
      (m₀ u v i : ℝ) = (G v i - K v i) - (G u i - K u i) + T u v i := by
    intro u hu v hv i hi hd hd'
    obtain ⟨b1, b2⟩ := hβ i hi ⟨u, hu, hd⟩
    have e := h.transition_add hi hu hv b1 hd hd' b2
    rw [← hT] at e
    simp only [hm₀, hG]
    push_cast
    rw [e]
    ring
  have hconst : ∀ u ∈ S, ∀ v ∈ S, ∀ i < N, ∀ i' < N, δ u i < r → δ v i < r → δ u i' < r → δ v i' < r → m₀ u v i = m₀ u v i' := by
    intro u hu v hv i hi i' hi' d1 d2 d3 d4
    have e1 := htrans u hu v hv i hi d1 d2
    have e2 := htrans u hu v hv i' hi' d3 d4
    have q1 := abs_lt.1 (hK u hu i hi i' hi' d1 d3)
    have q2 := abs_lt.1 (hK v hv i hi i' hi' d2 d4)
    have q3 := (h.phase_step hM hi hi' hv hu d2 d4 d1 d3).trans (hs u hu i hi i' hi' d1 d3)
    rw [← h.transition_eq hi hv d2, ← h.transition_eq hi' hv d4, ← hT] at q3
    have q3 := abs_le.1 q3
    have h1 : (m₀ u v i : ℝ) < m₀ u v i' + 1 := by linarith [q1.1, q1.2, q2.1, q2.2, q3.1, q3.2]
    have h2 : (m₀ u v i' : ℝ) < m₀ u v i + 1 := by linarith [q1.1, q1.2, q2.1, q2.2, q3.1, q3.2]
    have h3 : m₀ u v i < m₀ u v i' + 1 := by exact_mod_cast h1
    have h4 : m₀ u v i' < m₀ u v i + 1 := by exact_mod_cast h2
    omega
  have hanti : ∀ u ∈ S, ∀ v ∈ S, ∀ i < N, δ u i < r → m₀ v u i = -m₀ u v i := by
    intro u hu v hv i hi hd
    simp only [hm₀]
    rw [h.swap12 u hu v hv _ (hβ i hi ⟨u, hu, hd⟩).1]
    ring
  let m : ℕ → ℕ → ℤ := fun u v => if q : ∃ i < N, δ u i < r ∧ δ v i < r then m₀ u v q.choose else 0
  have hm : ∀ u ∈ S, ∀ v ∈ S, ∀ i < N, δ u i < r → δ v i < r → m u v = m₀ u v i := by
    intro u hu v hv i hi d1 d2
    have q : ∃ i < N, δ u i < r ∧ δ v i < r := ⟨i, hi, d1, d2⟩
    show (if q : ∃ i < N, δ u i < r ∧ δ v i < r then m₀ u v q.choose else 0) = _
    rw [dif_pos q]
    exact hconst u hu v hv _ q.choose_spec.1 i hi q.choose_spec.2.1 q.choose_spec.2.2 d1 d2
  refine ⟨m, fun u hu v hv => ?_, fun u hu v hv z hz => ?_⟩
  · by_cases q : ∃ i < N, δ u i < r ∧ δ v i < r
    · obtain ⟨i, hi, d1, d2⟩ := q
      rw [hm u hu v hv i hi d1 d2, hm v hv u hu i hi d2 d1, hanti u hu v hv i hi d1]
    · have q' : ¬ ∃ i < N, δ v i < r ∧ δ u i < r := fun ⟨i, hi, d1, d2⟩ => q ⟨i, hi, d2, d1⟩
      show (if q : ∃ i < N, δ v i < r ∧ δ u i < r then m₀ v u q.choose else 0) =
        -(if q : ∃ i < N, δ u i < r ∧ δ v i < r then m₀ u v q.choose else 0)
      rw [dif_neg q, dif_neg q', neg_zero]
  · rintro ⟨i, hi, d1, d2, d3⟩
    obtain ⟨b1, b2⟩ := hβ i hi ⟨u, hu, d1⟩
    rw [hm u hu v hv i hi d1 d2, hm v hv z hz i hi d2 d3, hm u hu z hz i hi d1 d3]
    have hc := h.cocycle u hu v hv z hz (β i) b1 (h.close u hu v hv i hi d1 d2) (h.close u hu z hz i hi d1 d3)
      (h.close u hu _ b1 i hi d1 b2) (h.close v hv z hz i hi d2 d3) (h.close v hv _ b1 i hi d2 b2) (h.close z hz _ b1 i hi d3 b2)
    simp only [hm₀]
    linarith

/-- The same for the inner products of the vectors themselves. -/
theorem PhaseData.unrolled (h : PhaseData S N δ r w c ν) {M : ℝ} (hM : FormBound2 S δ (2 * r) c ν M) {α : ℝ} (hα : α < 1 / 4)
    (hs : OnCommonBalls S N δ r fun i i' => M * ∑ t ∈ S, |w t i' - w t i| ≤ α) (β : ℕ → ℕ)
    (hβ : ∀ i < N, (∃ u ∈ S, δ u i < r) → β i ∈ S ∧ δ (β i) i < r) (φ : ℕ → ℂ) (hφ : ∀ i, ‖φ i‖ = 1)
    (hsmall : OnCommonBalls S N δ r fun i i' =>
      |Complex.arg (star (φ i) * φ i' * dataInner S c ν w (β i) i (β i') i')| < 2 * π * (1 / 3 - α)) :
    ∃ m : ℕ → ℕ → ℤ, (∀ u ∈ S, ∀ v ∈ S, m v u = -m u v) ∧
      ∀ u ∈ S, ∀ v ∈ S, ∀ z ∈ S, (∃ i < N, δ u i < r ∧ δ v i < r ∧ δ z i < r) → c u v z = m u v + m v z - m u z := by
  refine h.unrolled_core hM (by linarith) hs β hβ φ hφ (fun i i' => dataInner S c ν w (β i) i (β i') i') ?_ hsmall
  intro u hu i hi i' hi' hd hd'
  obtain ⟨b1, b2⟩ := hβ i hi ⟨u, hu, hd⟩
  obtain ⟨b3, b4⟩ := hβ i' hi' ⟨u, hu, hd'⟩
  have hsi := hs u hu i hi i' hi' hd hd'
  obtain ⟨a, t, ha, ht, e⟩ := h.inner_cone hM hi hi' hu hd hd' (hsi.trans_lt hα)
  refine ⟨a, t, ha, ht.trans hsi, ?_⟩
  rw [h.inner_twist hi hi' hu b1 b3 hd hd' b2 b4, e]

/-- The same for rows whose inner products differ little from those of the vectors. -/
theorem PhaseData.unrolled_reduced (h : PhaseData S N δ r w c ν) {M : ℝ} (hM : FormBound2 S δ (2 * r) c ν M) {α η : ℝ} (hα : α < 1 / 4)
    (hη0 : 0 ≤ η) (hη1 : η ≤ 1 / 4)
    (hs : OnCommonBalls S N δ r fun i i' => M * ∑ t ∈ S, |w t i' - w t i| ≤ α) (β : ℕ → ℕ)
    (hβ : ∀ i < N, (∃ u ∈ S, δ u i < r) → β i ∈ S ∧ δ (β i) i < r) (φ : ℕ → ℂ) (hφ : ∀ i, ‖φ i‖ = 1) (Y : ℕ → ℕ → ℂ) (σ : ℕ → ℝ)
    (hσ : ∀ i < N, 0 < σ i)
    (hY : OnCommonBalls S N δ r fun i i' => ‖((σ i * σ i' : ℝ) : ℂ) * Y i i' - dataInner S c ν w (β i) i (β i') i'‖ <
      dataOverlap S w i i' * cos (2 * π * (M * ∑ t ∈ S, |w t i' - w t i|)) * sin (2 * π * η))
    (hsmall : OnCommonBalls S N δ r fun i i' => |Complex.arg (star (φ i) * φ i' * Y i i')| < 2 * π * (1 / 3 - (α + η))) :
    ∃ m : ℕ → ℕ → ℤ, (∀ u ∈ S, ∀ v ∈ S, m v u = -m u v) ∧
      ∀ u ∈ S, ∀ v ∈ S, ∀ z ∈ S, (∃ i < N, δ u i < r ∧ δ v i < r ∧ δ z i < r) → c u v z = m u v + m v z - m u z := by
  have hpi := Real.pi_pos
  refine h.unrolled_core hM (by linarith) hs β hβ φ hφ Y ?_ hsmall
  intro u hu i hi i' hi' hd hd'
  obtain ⟨b1, b2⟩ := hβ i hi ⟨u, hu, hd⟩
  obtain ⟨b3, b4⟩ := hβ i' hi' ⟨u, hu, hd'⟩
  have hsi := hs u hu i hi i' hi' hd hd'
  obtain ⟨a, t, ha, ht, e⟩ := h.inner_cone hM hi hi' hu hd hd' (hsi.trans_lt hα)
  have hlow := h.inner_lower hM hi hi' hu hd hd' (hsi.trans_lt hα)
  rw [e, norm_mul, norm_phasor, mul_one, Complex.norm_real, Real.norm_of_nonneg ha.le] at hlow
  have hclose := hY u hu i hi i' hi' hd hd'
  beta_reduce at hclose
  rw [h.inner_twist hi hi' hu b1 b3 hd hd' b2 b4, e] at hclose
  set Z : ℂ := star (phasor (dataTransition S c ν w u (β i) i)) * phasor (dataTransition S c ν w u (β i') i') with hZ
  have hZn : ‖Z‖ = 1 := by rw [hZ, norm_mul, norm_star, norm_phasor, norm_phasor, mul_one]
  set U : ℂ := Z * phasor t with hU
  have hUn : ‖U‖ = 1 := by rw [hU, norm_mul, hZn, norm_phasor, mul_one]
  have hUU : star U * U = 1 := by rw [RCLike.star_def, Complex.conj_mul', hUn]; simp
  have hsin : 0 ≤ sin (2 * π * η) := sin_nonneg_of_nonneg_of_le_pi (by positivity) (by
    have := mul_le_mul_of_nonneg_left hη1 (by positivity : (0 : ℝ) ≤ 2 * π)
    linarith)
  have hs0 : 0 < σ i * σ i' := mul_pos (hσ i hi) (hσ i' hi')
  have key : ‖star U * (((σ i * σ i' : ℝ) : ℂ) * Y i i') - a‖ < a * sin (2 * π * η) := by
    have e1 : star U * (((σ i * σ i' : ℝ) : ℂ) * Y i i') - a = star U * (((σ i * σ i' : ℝ) : ℂ) * Y i i' - Z * (a * phasor t)) := by
      have : Z * (a * phasor t) = U * a := by rw [hU]; ring
      rw [this]
      linear_combination (a : ℂ) * hUU
    rw [e1, norm_mul, norm_star, hUn, one_mul]
    exact hclose.trans_le (mul_le_mul_of_nonneg_right hlow hsin)
  obtain ⟨a', τ, ha', hτ, e2⟩ := phase_of_close ha hη0 hη1 key
  refine ⟨a' / (σ i * σ i'), t + τ, div_pos ha' hs0, ?_, ?_⟩
  · have := abs_add_le t τ
    linarith
  · have hc : ((σ i * σ i' : ℝ) : ℂ) ≠ 0 := by exact_mod_cast hs0.ne'
    have e3 : ((σ i * σ i' : ℝ) : ℂ) * Y i i' = U * (a' * phasor τ) := by
      rw [← e2]
      linear_combination (-(((σ i * σ i' : ℝ) : ℂ) * Y i i')) * hUU
    apply mul_left_cancel₀ hc
    rw [e3, hU, phasor_add, Complex.ofReal_div]
    field_simp
end

end

end Dreimac
