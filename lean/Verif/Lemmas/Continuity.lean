import Verif.Spec.Continuity
import Verif.Lemmas.Surface
import Verif.Props.EMCoords
import Mathlib.Analysis.SpecialFunctions.Exp

/-!
# The weights are Lipschitz in the distances
-/

namespace Dreimac

open Finset Real

theorem lipschitz_linear (r : ℝ) : LipschitzBump bumpLinear r 1 := by
  refine ⟨fun s => max (r - s) 0, ?_, ?_, ?_⟩
  · intro s _ hs
    simp only [max_eq_left (show 0 ≤ r - s by linarith)]
    simp [bumpLinear]
  · intro s hs
    exact max_eq_right (by linarith)
  · intro s t _ _
    rw [one_mul]
    refine (abs_max_sub_max_le_abs _ _ _).trans_eq ?_
    rw [show r - s - (r - t) = -(s - t) by ring, abs_neg]

theorem lipschitz_quadratic {r : ℝ} (hr : 0 ≤ r) : LipschitzBump bumpQuadratic r (2 * r) := by
  refine ⟨fun s => max (r - s) 0 * max (r - s) 0, ?_, ?_, ?_⟩
  · intro s _ hs
    simp only [max_eq_left (show 0 ≤ r - s by linarith)]
    simp [bumpQuadratic]
  · intro s hs
    simp only [max_eq_right (show r - s ≤ 0 by linarith), mul_zero]
  · intro s t hs ht
    have h1 := abs_max_sub_max_le_abs (r - s) (r - t) 0
    rw [show r - s - (r - t) = -(s - t) by ring, abs_neg] at h1
    have h2 : ∀ x, 0 ≤ x → 0 ≤ max (r - x) 0 ∧ max (r - x) 0 ≤ r := fun x hx => ⟨le_max_right _ _, max_le (by linarith) hr⟩
    have e : max (r - s) 0 * max (r - s) 0 - max (r - t) 0 * max (r - t) 0 =
        (max (r - s) 0 + max (r - t) 0) * (max (r - s) 0 - max (r - t) 0) := by ring
    rw [e, abs_mul]
    refine mul_le_mul ?_ h1 (abs_nonneg _) (by linarith)
    rw [abs_of_nonneg (add_nonneg (h2 s hs).1 (h2 t ht).1)]
    linarith [(h2 s hs).2, (h2 t ht).2]

/-- `exp(-1 / τ)`, extended by zero, is Lipschitz on `[0, ∞)`. -/
theorem exp_inv_lipschitz {τ τ' : ℝ} (h : 0 < τ) (h' : 0 ≤ τ') (hle : τ' ≤ τ) :
    0 ≤ exp (-(1 / τ)) - (if 0 < τ' then exp (-(1 / τ')) else 0) ∧
      exp (-(1 / τ)) - (if 0 < τ' then exp (-(1 / τ')) else 0) ≤ 4 * (τ - τ') := by
  have hsmall : exp (-(1 / τ)) ≤ τ := by
    rw [exp_neg, inv_le_comm₀ (exp_pos _) h]
    have := add_one_le_exp (1 / τ)
    rw [← one_div]
    linarith
  by_cases hp : 0 < τ'
  · rw [if_pos hp]
    have hinv : 1 / τ ≤ 1 / τ' := one_div_le_one_div_of_le hp hle
    refine ⟨by have := exp_le_exp.2 (neg_le_neg hinv); linarith, ?_⟩
    by_cases hh : τ ≤ 2 * τ'
    · -- comparable
      have e1 : exp (-(1 / τ)) - exp (-(1 / τ')) = exp (-(1 / τ)) * (1 - exp (-(1 / τ' - 1 / τ))) := by
        rw [mul_sub, mul_one, ← exp_add]
        congr 2
        ring
      have e2 : 1 - exp (-(1 / τ' - 1 / τ)) ≤ 1 / τ' - 1 / τ := by
        have := add_one_le_exp (-(1 / τ' - 1 / τ)); linarith
      have e3 : exp (-(1 / τ)) ≤ 2 * τ ^ 2 := by
        have hq := quadratic_le_exp_of_nonneg (show 0 ≤ 1 / τ by positivity)
        rw [exp_neg, inv_le_comm₀ (exp_pos _) (by positivity)]
        have : (2 * τ ^ 2)⁻¹ = (1 / τ) ^ 2 / 2 := by field_simp
        rw [this]
        have : 0 ≤ 1 / τ := by positivity
        linarith
      rw [e1]
      calc exp (-(1 / τ)) * (1 - exp (-(1 / τ' - 1 / τ))) ≤ exp (-(1 / τ)) * (1 / τ' - 1 / τ) :=
            mul_le_mul_of_nonneg_left e2 (exp_pos _).le
        _ ≤ 2 * τ ^ 2 * (1 / τ' - 1 / τ) := mul_le_mul_of_nonneg_right e3 (by linarith)
        _ = 2 * (τ / τ') * (τ - τ') := by field_simp
        _ ≤ 4 * (τ - τ') := by
            refine mul_le_mul_of_nonneg_right ?_ (by linarith)
            have : τ / τ' ≤ 2 := by rw [div_le_iff₀ hp]; linarith
            linarith
    · have := exp_pos (-(1 / τ'))
      linarith
  · rw [if_neg hp]
    obtain rfl : τ' = 0 := le_antisymm (not_lt.1 hp) h'
    have := exp_pos (-(1 / τ))
    exact ⟨by linarith, by linarith⟩

theorem lipschitz_exp {r : ℝ} (hr : 0 < r) : LipschitzBump bumpExp r (8 / r) := by
  set T : ℝ → ℝ := fun s => max ((r ^ 2 - s ^ 2) / r ^ 2) 0 with hT
  have hTpos : ∀ s, 0 ≤ s → (0 < T s ↔ s < r) := by
    intro s hs
    simp only [hT, lt_max_iff, lt_irrefl, or_false]
    rw [div_pos_iff_of_pos_right (by positivity), sub_pos, sq_lt_sq₀ hs hr.le]
  refine ⟨fun s => if 0 < T s then exp (-(1 / T s)) else 0, ?_, ?_, ?_⟩
  · intro s hs hsr
    have h1 := (hTpos s hs).2 hsr
    have h2 : 0 < (r ^ 2 - s ^ 2) / r ^ 2 := by
      simp only [hT, lt_max_iff, lt_irrefl, or_false] at h1; exact h1
    have hne : s * s - r * r ≠ 0 := by nlinarith
    simp only [if_pos h1]
    have e : -(1 / T s) = r * r / (s * s - r * r) := by
      simp only [hT, max_eq_left h2.le]
      have hne' : r ^ 2 - s ^ 2 ≠ 0 := by nlinarith
      rw [one_div_div, eq_div_iff hne, ← neg_div, div_mul_eq_mul_div, div_eq_iff hne']
      ring
    rw [e]
    simp only [bumpExp, Fl.fin_mul, Fl.fin_sub]
    rw [Fl.fin_div _ _ hne]
    rfl
  · intro s hs
    have : ¬ 0 < T s := fun h => absurd ((hTpos s (hr.le.trans hs)).1 h) (not_lt.2 hs)
    simp only [if_neg this]
  · have key : ∀ s t, 0 ≤ s → s ≤ t → |(if 0 < T s then exp (-(1 / T s)) else 0) - (if 0 < T t then exp (-(1 / T t)) else 0)| ≤
        8 / r * |s - t| := by
      intro s t hs hst
      have ht := hs.trans hst
      by_cases hsr : s < r
      · have h1 := (hTpos s hs).2 hsr
        have hmono : T t ≤ T s := by
          simp only [hT]
          refine max_le_max ?_ le_rfl
          exact div_le_div_of_nonneg_right (by nlinarith) (by positivity)
        obtain ⟨k1, k2⟩ := exp_inv_lipschitz h1 (le_max_right _ _ : 0 ≤ T t) hmono
        rw [if_pos h1, abs_of_nonneg k1]
        refine k2.trans ?_
        have h2 : T s - T t ≤ 2 / r * (t - s) := by
          have hs' : T s = (r ^ 2 - s ^ 2) / r ^ 2 := by
            simp only [hT, lt_max_iff, lt_irrefl, or_false] at h1
            exact max_eq_left h1.le
          by_cases htr : t < r
          · have : (r ^ 2 - t ^ 2) / r ^ 2 ≤ T t := le_max_left _ _
            have e : (r ^ 2 - s ^ 2) / r ^ 2 - (r ^ 2 - t ^ 2) / r ^ 2 = (t + s) * (t - s) / r ^ 2 := by ring
            have e' : 2 / r * (t - s) = (2 * r) * (t - s) / r ^ 2 := by field_simp
            rw [hs', e']
            refine le_trans (by linarith [e] : _ ≤ (t + s) * (t - s) / r ^ 2) ?_
            refine div_le_div_of_nonneg_right (mul_le_mul_of_nonneg_right (by linarith) (by linarith)) (by positivity)
          · push Not at htr
            have h0 : 0 ≤ T t := le_max_right _ _
            have e : (r ^ 2 - s ^ 2) / r ^ 2 = (r + s) * (r - s) / r ^ 2 := by ring
            have e' : 2 / r * (t - s) = (2 * r) * (t - s) / r ^ 2 := by field_simp
            have : (r ^ 2 - s ^ 2) / r ^ 2 ≤ 2 / r * (t - s) := by
              rw [e, e']
              exact div_le_div_of_nonneg_right (mul_le_mul (by linarith) (by linarith) (by linarith) (by linarith)) (by positivity)
            rw [hs']; linarith
        rw [abs_sub_comm, abs_of_nonneg (by linarith : 0 ≤ t - s)]
        have : 8 / r * (t - s) = 4 * (2 / r * (t - s)) := by ring
        linarith
      · have h1 : ¬ 0 < T s := fun h => hsr ((hTpos s hs).1 h)
        have h2 : ¬ 0 < T t := fun h => hsr (lt_of_le_of_lt hst ((hTpos t ht).1 h))
        rw [if_neg h1, if_neg h2]
        simp only [sub_self, abs_zero]
        positivity
    intro s t hs ht
    rcases le_total s t with h | h
    · exact key s t hs h
    · rw [abs_sub_comm, abs_sub_comm s t]
      exact key t s ht h

/-- The weights of nearby data points are close. -/
theorem NearbyPoints.weights {n N : ℕ} {δ : ℕ → ℕ → ℝ} (hd : IsDistanceTable n N δ) {S : Finset ℕ} (hS : ∀ u ∈ S, u < n) {r : ℝ}
    {bump : Fl ℝ → Fl ℝ → Fl ℝ} (hb : PositiveBump bump) {w : ℕ → ℕ → ℝ} (hw : IsBumpWeights S N δ r bump w) {Λ : ℝ}
    (hL : LipschitzBump bump r Λ) {u i j : ℕ} {m ε : ℝ} (h : NearbyPoints S N δ r bump u i j m ε) :
    0 < m ∧ ∑ v ∈ S, |w v i - w v j| ≤ 2 * S.card * Λ * ε / m := by
  obtain ⟨β, b1, b2, b3⟩ := hL
  obtain ⟨hi, hj⟩ := h.data
  obtain ⟨hui, huj⟩ := h.ball
  have hu := h.land
  obtain ⟨φ, f1, f2, f3⟩ := hw i hi ⟨u, hu, hui⟩
  obtain ⟨ψ, g1, g2, g3⟩ := hw j hj ⟨u, hu, huj⟩
  have val : ∀ i < N, ∀ φ : ℕ → ℝ, (∀ u ∈ S, (δ u i < r → bump (.fin (δ u i)) (.fin r) = .fin (φ u)) ∧ (r ≤ δ u i → φ u = 0)) →
      ∀ v ∈ S, φ v = β (δ v i) ∧ 0 ≤ φ v := by
    intro i hi φ hφ v hv
    have h0 := hd.nonneg v (hS v hv) i hi
    by_cases hvi : δ v i < r
    · have e := (hφ v hv).1 hvi
      obtain ⟨x, hx, e'⟩ := hb (δ v i) r h0 hvi
      rw [e] at e'
      injection e' with e'
      rw [b1 _ h0 hvi] at e
      injection e with e
      exact ⟨e.symm, by rw [e']; exact hx.le⟩
    · rw [(hφ v hv).2 (not_lt.1 hvi), b2 _ (not_lt.1 hvi)]
      exact ⟨rfl, le_rfl⟩
  have hφ := val i hi φ f1
  have hψ := val j hj ψ g1
  have hm : φ u = m := by
    have := (f1 u hu).1 hui
    rw [h.height] at this
    injection this with this
    exact this.symm
  have hmpos : 0 < m := by
    obtain ⟨x, hx, e'⟩ := hb (δ u i) r (hd.nonneg u (hS u hu) i hi) hui
    rw [h.height] at e'
    injection e' with e'
    rw [e']; exact hx
  have hmle : m ≤ ∑ v ∈ S, φ v := by
    rw [← hm]
    exact single_le_sum (f := φ) (fun v hv => (hφ v hv).2) hu
  set Φ := ∑ v ∈ S, φ v with hΦ
  set Ψ := ∑ v ∈ S, ψ v with hΨ
  have hΛε : ∀ v ∈ S, |φ v - ψ v| ≤ Λ * ε := by
    intro v hv
    rw [(hφ v hv).1, (hψ v hv).1]
    refine (b3 _ _ (hd.nonneg v (hS v hv) i hi) (hd.nonneg v (hS v hv) j hj)).trans ?_
    have hΛ : 0 ≤ Λ := by
      have := b3 0 1 le_rfl zero_le_one
      have h2 := abs_nonneg (β 0 - β 1)
      norm_num at this
      linarith
    exact mul_le_mul_of_nonneg_left (h.near v hv) hΛ
  have hsum : ∑ v ∈ S, |φ v - ψ v| ≤ S.card * Λ * ε := by
    refine (sum_le_sum hΛε).trans_eq ?_
    rw [sum_const, nsmul_eq_mul]
    ring
  refine ⟨hmpos, ?_⟩
  have hterm : ∀ v ∈ S, |w v i - w v j| ≤ (|φ v - ψ v| + ψ v / Ψ * |Φ - Ψ|) / Φ := by
    intro v hv
    rw [f3 v hv, g3 v hv]
    have e : φ v / Φ - ψ v / Ψ = ((φ v - ψ v) - ψ v / Ψ * (Φ - Ψ)) / Φ := by
      have h1 := f2.ne'
      have h2 := g2.ne'
      field_simp
      ring
    rw [e, abs_div, abs_of_pos f2]
    refine div_le_div_of_nonneg_right ?_ f2.le
    refine (abs_sub _ _).trans (add_le_add_right (le_of_eq ?_) _)
    rw [abs_mul, abs_of_nonneg (div_nonneg (hψ v hv).2 g2.le)]
  have hdiff : |Φ - Ψ| ≤ ∑ v ∈ S, |φ v - ψ v| := by
    rw [hΦ, hΨ, ← sum_sub_distrib]
    exact abs_sum_le_sum_abs _ _
  calc ∑ v ∈ S, |w v i - w v j| ≤ ∑ v ∈ S, (|φ v - ψ v| + ψ v / Ψ * |Φ - Ψ|) / Φ := sum_le_sum hterm
    _ = (∑ v ∈ S, |φ v - ψ v| + |Φ - Ψ|) / Φ := by
        rw [← sum_div, sum_add_distrib, ← sum_mul, ← sum_div, ← hΨ, div_self g2.ne', one_mul]
    _ ≤ (2 * (S.card * Λ * ε)) / Φ := div_le_div_of_nonneg_right (by linarith) f2.le
    _ ≤ (2 * (S.card * Λ * ε)) / m := by
        refine div_le_div_of_nonneg_left ?_ hmpos hmle
        have : 0 ≤ ∑ v ∈ S, |φ v - ψ v| := sum_nonneg fun v _ => abs_nonneg _
        linarith
    _ = 2 * S.card * Λ * ε / m := by ring

/-- The overlap of two weight vectors. -/
theorem overlap {S : Finset ℕ} {a b : ℕ → ℝ} (ha : ∀ v ∈ S, 0 ≤ a v) (hb : ∀ v ∈ S, 0 ≤ b v) (ha1 : ∑ v ∈ S, a v = 1)
    (hb1 : ∑ v ∈ S, b v = 1) : 1 - (∑ v ∈ S, |a v - b v|) / 2 ≤ ∑ v ∈ S, √(a v) * √(b v) := by
  have h : ∀ v ∈ S, (a v + b v - |a v - b v|) / 2 ≤ √(a v) * √(b v) := by
    intro v hv
    rcases le_total (a v) (b v) with hab | hab
    · rw [abs_of_nonpos (by linarith)]
      have := mul_le_mul_of_nonneg_left (sqrt_le_sqrt hab) (sqrt_nonneg (a v))
      rw [mul_self_sqrt (ha v hv)] at this
      linarith
    · rw [abs_of_nonneg (by linarith)]
      have := mul_le_mul_of_nonneg_right (sqrt_le_sqrt hab) (sqrt_nonneg (b v))
      rw [mul_self_sqrt (hb v hv)] at this
      linarith
  refine le_trans (le_of_eq ?_) (sum_le_sum h)
  rw [← sum_div, sum_sub_distrib, sum_add_distrib, ha1, hb1]
  ring

end Dreimac
