import Verif.Spec.Surface
import Mathlib.Analysis.SpecialFunctions.Complex.Arg

/-!
# The phases of complex projective coordinates around polygons add up to the value of the class
-/

namespace Dreimac

open Finset Real

noncomputable section

/-- The unit complex number with phase `t` (in turns). -/
def phasor (t : ℝ) : ℂ := Complex.exp (2 * π * Complex.I * (t : ℂ))

theorem phasor_add (s t : ℝ) : phasor (s + t) = phasor s * phasor t := by
  unfold phasor
  rw [← Complex.exp_add]
  congr 1
  push_cast
  ring

theorem phasor_int (n : ℤ) : phasor n = 1 := by
  unfold phasor
  rw [Complex.exp_eq_one_iff]
  exact ⟨n, by push_cast; ring⟩

theorem star_phasor (t : ℝ) : star (phasor t) = phasor (-t) := by
  unfold phasor
  rw [RCLike.star_def, ← Complex.exp_conj]
  congr 1
  rw [show 2 * (π : ℂ) * Complex.I * (t : ℂ) = ((2 * π * t : ℝ) : ℂ) * Complex.I by push_cast; ring, map_mul, Complex.conj_ofReal,
    Complex.conj_I]
  push_cast
  ring

theorem phasor_zero : phasor 0 = 1 := by simp [phasor]

theorem phasor_sum {ι : Type} (s : Finset ι) (f : ι → ℝ) : phasor (∑ i ∈ s, f i) = ∏ i ∈ s, phasor (f i) := by
  classical
  induction s using Finset.induction_on with
  | empty => simp [phasor_zero]
  | insert a s h ih => rw [sum_insert h, prod_insert h, phasor_add, ih]

theorem phasor_eq (t : ℝ) : phasor t = ⟨cos (2 * π * t), sin (2 * π * t)⟩ := by
  unfold phasor
  rw [show 2 * (π : ℂ) * Complex.I * (t : ℂ) = ((2 * π * t : ℝ) : ℂ) * Complex.I by push_cast; ring, Complex.exp_mul_I]
  rw [← Complex.ofReal_cos, ← Complex.ofReal_sin]
  generalize cos (2 * π * t) = a
  generalize sin (2 * π * t) = b
  apply Complex.ext <;> simp

theorem phasor_eq_one {t : ℝ} (h : phasor t = 1) (ht : |t| < 1) : t = 0 := by
  unfold phasor at h
  rw [Complex.exp_eq_one_iff] at h
  obtain ⟨n, hn⟩ := h
  have h2 : (2 * π * Complex.I : ℂ) ≠ 0 := by simp [Real.pi_ne_zero, Complex.I_ne_zero]
  have h3 : (t : ℂ) = n := by
    apply mul_left_cancel₀ h2
    rw [hn]; ring
  have h4 : t = n := by exact_mod_cast h3
  rw [h4] at ht ⊢
  have : |n| < 1 := by exact_mod_cast ht
  rw [Int.abs_lt_one_iff] at this
  simp [this]

/-- A positive multiple of `phasor t` has the argument `2 π t`. -/
theorem arg_phasor {ρ t : ℝ} (hρ : 0 < ρ) (ht : |t| < 1 / 2) : Complex.arg (ρ * phasor t) = 2 * π * t := by
  rw [abs_lt] at ht
  rw [Complex.arg_real_mul _ hρ, phasor_eq]
  have hpi := Real.pi_pos
  have := Complex.arg_cos_add_sin_mul_I (θ := 2 * π * t) ⟨by nlinarith, by nlinarith⟩
  rw [← Complex.ofReal_cos, ← Complex.ofReal_sin] at this
  refine Eq.trans ?_ this
  congr 1
  apply Complex.ext <;> simp only [Complex.add_re, Complex.add_im, Complex.mul_re, Complex.mul_im, Complex.ofReal_re,
    Complex.ofReal_im, Complex.I_re, Complex.I_im] <;> ring

/-- A sum of vectors in a cone lies in the cone. -/
theorem cone {ι : Type} (S : Finset ι) (a θ : ι → ℝ) {κ : ℝ} (hκ : κ < 1 / 4) (ha : ∀ v ∈ S, 0 ≤ a v)
    (hθ : ∀ v ∈ S, 0 < a v → |θ v| ≤ κ) (hpos : ∃ v ∈ S, 0 < a v) :
    ∃ ρ t : ℝ, 0 < ρ ∧ |t| ≤ κ ∧ ∑ v ∈ S, (a v : ℂ) * phasor (θ v) = ρ * phasor t := by
  have hpi := Real.pi_pos
  set z := ∑ v ∈ S, (a v : ℂ) * phasor (θ v) with hz
  obtain ⟨v₀, hv₀, hav₀⟩ := hpos
  have hκ0 : 0 ≤ κ := (abs_nonneg _).trans (hθ v₀ hv₀ hav₀)
  have him : ∀ s : ℝ, (z * phasor s).im = ∑ v ∈ S, a v * sin (2 * π * (θ v + s)) := by
    intro s
    rw [hz, sum_mul, Complex.im_sum]
    refine sum_congr rfl fun v _ => ?_
    rw [mul_assoc, ← phasor_add, phasor_eq]
    simp
  have hre : z.re = ∑ v ∈ S, a v * cos (2 * π * θ v) := by
    rw [hz, Complex.re_sum]
    refine sum_congr rfl fun v _ => ?_
    rw [phasor_eq]; simp
  have hre0 : 0 < z.re := by
    rw [hre]
    apply sum_pos'
    · intro v hv
      rcases (ha v hv).eq_or_lt with h | h
      · rw [← h]; simp
      · have := abs_le.1 (hθ v hv h)
        exact mul_nonneg h.le (cos_nonneg_of_mem_Icc ⟨by nlinarith, by nlinarith⟩)
    · have := abs_le.1 (hθ v₀ hv₀ hav₀)
      exact ⟨v₀, hv₀, mul_pos hav₀ (cos_pos_of_mem_Ioo ⟨by nlinarith, by nlinarith⟩)⟩
  have hz0 : z ≠ 0 := fun h => by rw [h] at hre0; simp at hre0
  have harg := Complex.abs_arg_lt_pi_div_two_iff.2 (Or.inl hre0)
  rw [abs_lt] at harg
  have hpolar : z = ‖z‖ * phasor (Complex.arg z / (2 * π)) := by
    conv_lhs => rw [← Complex.norm_mul_exp_arg_mul_I z]
    unfold phasor
    congr 2
    push_cast
    field_simp
  have hsin : ∀ s : ℝ, (z * phasor s).im = ‖z‖ * sin (Complex.arg z + 2 * π * s) := by
    intro s
    conv_lhs => rw [hpolar]
    rw [mul_assoc, ← phasor_add, phasor_eq]
    simp only [Complex.mul_im, Complex.ofReal_re, Complex.ofReal_im, zero_mul, add_zero]
    congr 2
    field_simp
  have hnorm : 0 < ‖z‖ := norm_pos_iff.2 hz0
  refine ⟨‖z‖, Complex.arg z / (2 * π), hnorm, ?_, hpolar⟩
  rw [abs_le]
  have hup : (z * phasor (-κ)).im ≤ 0 := by
    rw [him]
    apply sum_nonpos
    intro v hv
    rcases (ha v hv).eq_or_lt with h | h
    · rw [← h]; simp
    · have := abs_le.1 (hθ v hv h)
      refine mul_nonpos_of_nonneg_of_nonpos h.le (sin_nonpos_of_nonpos_of_neg_pi_le ?_ ?_) <;> nlinarith
  have hlo : 0 ≤ (z * phasor κ).im := by
    rw [him]
    apply sum_nonneg
    intro v hv
    rcases (ha v hv).eq_or_lt with h | h
    · rw [← h]; simp
    · have := abs_le.1 (hθ v hv h)
      refine mul_nonneg h.le (sin_nonneg_of_nonneg_of_le_pi ?_ ?_) <;> nlinarith
  rw [hsin] at hup hlo
  have hup' : sin (Complex.arg z + 2 * π * -κ) ≤ 0 := nonpos_of_mul_nonpos_right hup hnorm
  have hlo' : 0 ≤ sin (Complex.arg z + 2 * π * κ) := by
    by_contra h
    push Not at h
    exact absurd hlo (not_le.2 (mul_neg_of_pos_of_neg hnorm h))
  constructor
  · by_contra h
    push Not at h
    rw [div_lt_iff₀ (by positivity)] at h
    exact absurd hlo' (not_le.2 (sin_neg_of_neg_of_neg_pi_lt (by nlinarith) (by nlinarith)))
  · by_contra h
    push Not at h
    rw [lt_div_iff₀ (by positivity)] at h
    exact absurd hup' (not_le.2 (sin_pos_of_pos_of_lt_pi (by nlinarith) (by nlinarith)))

/-- What the argument needs to know about the weights, the cocycle and the 1-cochain. -/
structure PhaseData (S : Finset ℕ) (N : ℕ) (δ : ℕ → ℕ → ℝ) (r : ℝ) (w : ℕ → ℕ → ℝ) (c : ℕ → ℕ → ℕ → ℤ) (ν : ℕ → ℕ → ℝ) : Prop where
  nonneg : ∀ i < N, (∃ u ∈ S, δ u i < r) → ∀ u ∈ S, 0 ≤ w u i
  sum_one : ∀ i < N, (∃ u ∈ S, δ u i < r) → ∑ u ∈ S, w u i = 1
  support : ∀ i < N, (∃ u ∈ S, δ u i < r) → ∀ u ∈ S, (0 < w u i ↔ δ u i < r)
  close : ∀ u ∈ S, ∀ v ∈ S, ∀ i < N, δ u i < r → δ v i < r → δ u v < 2 * r
  swap12 : ∀ u ∈ S, ∀ v ∈ S, ∀ z ∈ S, c v u z = -c u v z
  cocycle : IsDataCocycle2 S δ (2 * r) c

/-- The phase of entry `v` of the vector of data point `i` computed with the ball of `u`. -/
def dataPhase (S : Finset ℕ) (c : ℕ → ℕ → ℕ → ℤ) (ν : ℕ → ℕ → ℝ) (w : ℕ → ℕ → ℝ) (u i v : ℕ) : ℝ :=
  ν v u + ∑ t ∈ S, w t i * (c v u t - (ν v u + ν u t - ν v t))

/-- The phase of the transition between the balls of `u` and `u'` at data point `i`. -/
def dataTransition (S : Finset ℕ) (c : ℕ → ℕ → ℕ → ℤ) (ν : ℕ → ℕ → ℝ) (w : ℕ → ℕ → ℝ) (u u' i : ℕ) : ℝ :=
  ∑ t ∈ S, w t i * (c u u' t + ν u t - ν u' t)

theorem cpDataVector_eq (S : Finset ℕ) (c : ℕ → ℕ → ℕ → ℤ) (ν : ℕ → ℕ → ℝ) (w : ℕ → ℕ → ℝ) (u i v : ℕ) :
    cpDataVector S c ν w u i v = phasor (dataPhase S c ν w u i v) * (√(w v i) : ℝ) := rfl

section
variable {S : Finset ℕ} {N : ℕ} {δ : ℕ → ℕ → ℝ} {r : ℝ} {w : ℕ → ℕ → ℝ} {c : ℕ → ℕ → ℕ → ℤ} {ν : ℕ → ℕ → ℝ}

theorem PhaseData.zero (h : PhaseData S N δ r w c ν) {i u t : ℕ} (hi : i < N) (hu : u ∈ S) (hui : δ u i < r) (ht : t ∈ S)
    (hti : ¬ δ t i < r) : w t i = 0 :=
  le_antisymm (not_lt.1 fun h' => hti ((h.support i hi ⟨u, hu, hui⟩ t ht).1 h')) (h.nonneg i hi ⟨u, hu, hui⟩ t ht)

theorem PhaseData.phase_sub (h : PhaseData S N δ r w c ν) {i u u' v : ℕ} (hi : i < N) (hu : u ∈ S) (hu' : u' ∈ S) (hv : v ∈ S)
    (hui : δ u i < r) (hui' : δ u' i < r) (hvi : δ v i < r) :
    dataPhase S c ν w u' i v = dataPhase S c ν w u i v + dataTransition S c ν w u u' i - c v u u' := by
  have h1 := h.sum_one i hi ⟨u, hu, hui⟩
  unfold dataPhase dataTransition
  have e : ∑ t ∈ S, w t i * (c v u' t - (ν v u' + ν u' t - ν v t)) = ∑ t ∈ S, (w t i * (c v u t - (ν v u + ν u t - ν v t)) +
      w t i * (c u u' t + ν u t - ν u' t) - w t i * (c v u u' + ν v u' - ν v u)) := by
    refine sum_congr rfl fun t ht => ?_
    by_cases hti : δ t i < r
    · have hc := h.cocycle v hv u hu u' hu' t ht (h.close v hv u hu i hi hvi hui) (h.close v hv u' hu' i hi hvi hui')
        (h.close v hv t ht i hi hvi hti) (h.close u hu u' hu' i hi hui hui') (h.close u hu t ht i hi hui hti)
        (h.close u' hu' t ht i hi hui' hti)
      have hc' : (c u u' t : ℝ) - c v u' t + c v u t - c v u u' = 0 := by exact_mod_cast hc
      linear_combination (-(w t i)) * hc'
    · rw [h.zero hi hu hui ht hti]; ring
  rw [e, sum_sub_distrib, sum_add_distrib, ← sum_mul _ _ ((c v u u' : ℝ) + ν v u' - ν v u), h1]
  ring

theorem PhaseData.twist (h : PhaseData S N δ r w c ν) {i u u' v : ℕ} (hi : i < N) (hu : u ∈ S) (hu' : u' ∈ S) (hv : v ∈ S)
    (hui : δ u i < r) (hui' : δ u' i < r) :
    cpDataVector S c ν w u' i v = phasor (dataTransition S c ν w u u' i) * cpDataVector S c ν w u i v := by
  rw [cpDataVector_eq, cpDataVector_eq]
  by_cases hvi : δ v i < r
  · rw [h.phase_sub hi hu hu' hv hui hui' hvi, sub_eq_add_neg, phasor_add, phasor_add,
      show -((c v u u' : ℤ) : ℝ) = ((-c v u u' : ℤ) : ℝ) by push_cast; rfl, phasor_int]
    ring
  · rw [h.zero hi hu hui hv hvi]; simp

theorem PhaseData.transition_add (h : PhaseData S N δ r w c ν) {i b u u' : ℕ} (hi : i < N) (hb : b ∈ S) (hu : u ∈ S) (hu' : u' ∈ S)
    (hbi : δ b i < r) (hui : δ u i < r) (hui' : δ u' i < r) :
    dataTransition S c ν w u u' i = dataTransition S c ν w b u' i - dataTransition S c ν w b u i + c b u u' := by
  have h1 := h.sum_one i hi ⟨u, hu, hui⟩
  unfold dataTransition
  have e : ∀ x : ℝ, x = ∑ t ∈ S, w t i * x := fun x => by rw [← sum_mul, h1, one_mul]
  rw [e (c b u u' : ℝ), ← sum_sub_distrib, ← sum_add_distrib]
  refine sum_congr rfl fun t ht => ?_
  by_cases hti : δ t i < r
  · have hc := h.cocycle b hb u hu u' hu' t ht (h.close b hb u hu i hi hbi hui) (h.close b hb u' hu' i hi hbi hui')
      (h.close b hb t ht i hi hbi hti) (h.close u hu u' hu' i hi hui hui') (h.close u hu t ht i hi hui hti)
      (h.close u' hu' t ht i hi hui' hti)
    have hc' : (c u u' t : ℝ) - c b u' t + c b u t - c b u u' = 0 := by exact_mod_cast hc
    linear_combination (w t i) * hc'
  · rw [h.zero hi hu hui ht hti]; ring

theorem PhaseData.transition_neg (h : PhaseData S N δ r w c ν) {i u u' : ℕ} (hu : u ∈ S) (hu' : u' ∈ S) :
    dataTransition S c ν w u' u i = -dataTransition S c ν w u u' i := by
  unfold dataTransition
  rw [← sum_neg_distrib]
  refine sum_congr rfl fun t ht => ?_
  rw [h.swap12 u hu u' hu' t ht]
  push_cast
  ring

/-- The inner product of the vectors of two data points, computed with the balls `u` and `u'`. -/
def dataInner (S : Finset ℕ) (c : ℕ → ℕ → ℕ → ℤ) (ν : ℕ → ℕ → ℝ) (w : ℕ → ℕ → ℝ) (u i u' j : ℕ) : ℂ :=
  ∑ v ∈ S, star (cpDataVector S c ν w u i v) * cpDataVector S c ν w u' j v

theorem PhaseData.inner_twist (h : PhaseData S N δ r w c ν) {i j l u u' : ℕ} (hi : i < N) (hj : j < N) (hl : l ∈ S) (hu : u ∈ S)
    (hu' : u' ∈ S) (hli : δ l i < r) (hlj : δ l j < r) (hui : δ u i < r) (huj : δ u' j < r) :
    dataInner S c ν w u i u' j = star (phasor (dataTransition S c ν w l u i)) * phasor (dataTransition S c ν w l u' j) *
      dataInner S c ν w l i l j := by
  unfold dataInner
  rw [mul_sum]
  refine sum_congr rfl fun v hv => ?_
  rw [h.twist hi hl hu hv hli hui, h.twist hj hl hu' hv hlj huj, star_mul']
  ring

theorem star_dataInner (u i u' j : ℕ) : star (dataInner S c ν w u i u' j) = dataInner S c ν w u' j u i := by
  unfold dataInner
  rw [star_sum]
  refine sum_congr rfl fun v _ => ?_
  rw [star_mul', star_star, mul_comm]

theorem PhaseData.phase_step (h : PhaseData S N δ r w c ν) {M : ℝ} (hM : FormBound2 S δ (2 * r) c ν M) {i j l v : ℕ} (hi : i < N)
    (hj : j < N) (hl : l ∈ S) (hv : v ∈ S) (hli : δ l i < r) (hlj : δ l j < r) (hvi : δ v i < r) (hvj : δ v j < r) :
    |dataPhase S c ν w l j v - dataPhase S c ν w l i v| ≤ M * ∑ t ∈ S, |w t j - w t i| := by
  have e : dataPhase S c ν w l j v - dataPhase S c ν w l i v =
      ∑ t ∈ S, (w t j - w t i) * (c v l t - (ν v l + ν l t - ν v t)) := by
    unfold dataPhase
    rw [add_sub_add_left_eq_sub, ← sum_sub_distrib]
    exact sum_congr rfl fun t _ => by ring
  rw [e, mul_sum]
  refine (abs_sum_le_sum_abs _ _).trans (sum_le_sum fun t ht => ?_)
  rw [abs_mul, mul_comm M]
  have key : ∀ a < N, δ l a < r → δ v a < r → δ t a < r → |(c v l t : ℝ) - (ν v l + ν l t - ν v t)| ≤ M :=
    fun a ha h1 h2 h3 => hM v hv l hl t ht (h.close v hv l hl a ha h2 h1) (h.close l hl t ht a ha h1 h3) (h.close v hv t ht a ha h2 h3)
  by_cases h1 : δ t i < r
  · exact mul_le_mul_of_nonneg_left (key i hi hli hvi h1) (abs_nonneg _)
  · by_cases h2 : δ t j < r
    · exact mul_le_mul_of_nonneg_left (key j hj hlj hvj h2) (abs_nonneg _)
    · rw [h.zero hi hl hli ht h1, h.zero hj hl hlj ht h2]; simp

/-- The inner product of the vectors of two data points in a ball, computed with this ball, has a small phase. -/
theorem PhaseData.inner_cone (h : PhaseData S N δ r w c ν) {M : ℝ} (hM : FormBound2 S δ (2 * r) c ν M) {i j l : ℕ} (hi : i < N)
    (hj : j < N) (hl : l ∈ S) (hli : δ l i < r) (hlj : δ l j < r) (hs : M * ∑ t ∈ S, |w t j - w t i| < 1 / 4) :
    ∃ ρ t : ℝ, 0 < ρ ∧ |t| ≤ M * ∑ t ∈ S, |w t j - w t i| ∧ dataInner S c ν w l i l j = ρ * phasor t := by
  have hci : ∃ u ∈ S, δ u i < r := ⟨l, hl, hli⟩
  have hcj : ∃ u ∈ S, δ u j < r := ⟨l, hl, hlj⟩
  have e : dataInner S c ν w l i l j = ∑ v ∈ S, ((√(w v i) * √(w v j) : ℝ) : ℂ) *
      phasor (dataPhase S c ν w l j v - dataPhase S c ν w l i v) := by
    unfold dataInner
    refine sum_congr rfl fun v _ => ?_
    rw [cpDataVector_eq, cpDataVector_eq, star_mul', star_phasor, RCLike.star_def, Complex.conj_ofReal, sub_eq_add_neg, phasor_add]
    push_cast
    ring
  rw [e]
  refine cone S _ _ hs (fun v _ => by positivity) ?_ ⟨l, hl, ?_⟩
  · intro v hv hpos
    have h1 : 0 < w v i := by
      by_contra h'
      rw [Real.sqrt_eq_zero_of_nonpos (not_lt.1 h')] at hpos
      simp at hpos
    have h2 : 0 < w v j := by
      by_contra h'
      rw [Real.sqrt_eq_zero_of_nonpos (not_lt.1 h')] at hpos
      simp at hpos
    exact h.phase_step hM hi hj hl hv hli hlj ((h.support i hi hci v hv).1 h1) ((h.support j hj hcj v hv).1 h2)
  · have h1 := (h.support i hi hci l hl).2 hli
    have h2 := (h.support j hj hcj l hl).2 hlj
    positivity

/-- The inner products of the vectors of consecutive corners of the polygons of a closed surface: up to a change of the phases of the
vectors, they have small phases, and these add up to the value of the cocycle. -/
theorem PhaseData.chern_core (h : PhaseData S N δ r w c ν) {M : ℝ} (hM : FormBound2 S δ (2 * r) c ν M) {D F : Type} [Fintype D]
    (s : DataSurface D F) (ℓ : F → ℕ) (hs : s.InBalls S N δ r ℓ) (hsm : ∀ d, M * s.step S w d < 1 / 4)
    (b : ℕ → ℕ) (hb : ∀ d, b (s.start d) ∈ S ∧ δ (b (s.start d)) (s.start d) < r) (β : ℕ → ℕ)
    (hβ : ∀ d, β (s.start d) ∈ S ∧ δ (β (s.start d)) (s.start d) < r) :
    ∃ (ρ t : D → ℝ) (Z : D → ℂ), (∀ d, 0 < ρ d) ∧ (∀ d, |t d| ≤ M * s.step S w d) ∧ (∀ d, star (Z d) * Z d = 1) ∧
      (∀ d, dataInner S c ν w (β (s.start d)) (s.start d) (β (s.start (s.next d))) (s.start (s.next d)) =
        star (Z d) * Z (s.next d) * (ρ d * phasor (t d))) ∧ ∑ d, t d = s.value c ℓ b := by
  have hl : ∀ d, ℓ (s.face d) ∈ S := fun d => hs.land _
  have hstart := hs.ball
  have hend : ∀ d, δ (ℓ (s.face d)) (s.start (s.next d)) < r := fun d => by
    have := hs.ball (s.next d)
    rwa [s.next_face] at this
  choose ρ t hρ ht hin using fun d => h.inner_cone hM (hs.data d) (hs.data (s.next d)) (hl d) (hstart d) (hend d) (hsm d)
  -- the two sides of an edge
  have hstep : ∀ d, ∑ v ∈ S, |w v (s.start (s.next (s.opp d))) - w v (s.start (s.opp d))| =
      ∑ v ∈ S, |w v (s.start (s.next d)) - w v (s.start d)| := by
    intro d
    refine sum_congr rfl fun v _ => ?_
    rw [s.next_start, s.next_start, s.opp_opp, abs_sub_comm]
  have hedge : ∀ d, t d + t (s.opp d) + dataTransition S c ν w (ℓ (s.face d)) (ℓ (s.face (s.opp d))) (s.start (s.opp d)) -
      dataTransition S c ν w (ℓ (s.face d)) (ℓ (s.face (s.opp d))) (s.start d) = 0 := by
    intro d
    have hd1 := hs.data d
    have hd2 := hs.data (s.opp d)
    have hb1 := hstart d
    have hb2 := hend d
    rw [s.next_start] at hb2
    have hb3 := hstart (s.opp d)
    have hb4 := hend (s.opp d)
    rw [s.next_start, s.opp_opp] at hb4
    have hk := hsm d
    have ht1 := ht d
    have ht2 := ht (s.opp d)
    rw [hstep d] at ht2
    unfold DataSurface.step at hk
    rw [s.next_start] at hk ht1 ht2
    have e1 := hin d
    rw [s.next_start] at e1
    have e2 := congrArg star (hin (s.opp d))
    rw [s.next_start, s.opp_opp, star_dataInner, star_mul', star_phasor, RCLike.star_def, Complex.conj_ofReal] at e2
    rw [h.inner_twist hd1 hd2 (hl d) (hl (s.opp d)) (hl (s.opp d)) hb1 hb2 hb4 hb3, e1, star_phasor] at e2
    set G1 := dataTransition S c ν w (ℓ (s.face d)) (ℓ (s.face (s.opp d))) (s.start d) with hG1
    set G2 := dataTransition S c ν w (ℓ (s.face d)) (ℓ (s.face (s.opp d))) (s.start (s.opp d)) with hG2
    have hG : |G2 - G1| ≤ 2 * (M * ∑ v ∈ S, |w v (s.start (s.opp d)) - w v (s.start d)|) := by
      have p1 := h.phase_step hM hd1 hd2 (hl d) (hl d) hb1 hb2 hb1 hb2
      have p2 := h.phase_step hM hd1 hd2 (hl (s.opp d)) (hl d) hb4 hb3 hb1 hb2
      rw [h.phase_sub hd1 (hl d) (hl (s.opp d)) (hl d) hb1 hb4 hb1, h.phase_sub hd2 (hl d) (hl (s.opp d)) (hl d) hb2 hb3 hb2,
        ← hG1, ← hG2] at p2
      rw [abs_le] at p1 p2 ⊢
      constructor <;> linarith [p1.1, p1.2, p2.1, p2.2]
    have e3 : (ρ d : ℂ) * phasor (t d + t (s.opp d) + G2 - G1) = ρ (s.opp d) := by
      have : (ρ d : ℂ) * phasor (t d + t (s.opp d) + G2 - G1) = phasor (-G1) * phasor G2 * (ρ d * phasor (t d)) * phasor (t (s.opp d)) := by
        rw [show t d + t (s.opp d) + G2 - G1 = -G1 + G2 + t d + t (s.opp d) by ring, phasor_add, phasor_add, phasor_add]
        ring
      rw [this, e2, mul_assoc, ← phasor_add, neg_add_cancel, phasor_zero, mul_one]
    have hn := congrArg norm e3
    have hunit : ∀ x, ‖phasor x‖ = 1 := by
      intro x
      unfold phasor
      rw [show 2 * (π : ℂ) * Complex.I * (x : ℂ) = ((2 * π * x : ℝ) : ℂ) * Complex.I by push_cast; ring,
        Complex.norm_exp_ofReal_mul_I]
    rw [norm_mul, hunit, mul_one, Complex.norm_real, Complex.norm_real, Real.norm_of_nonneg (hρ d).le,
      Real.norm_of_nonneg (hρ _).le] at hn
    rw [← hn] at e3
    have hρ0 : (ρ d : ℂ) ≠ 0 := by exact_mod_cast (hρ d).ne'
    have e4 : phasor (t d + t (s.opp d) + G2 - G1) = 1 := mul_left_cancel₀ hρ0 (by rw [e3, mul_one])
    refine phasor_eq_one e4 ?_
    rw [abs_lt]
    rw [abs_le] at ht1 ht2 hG
    constructor <;> linarith [ht1.1, ht1.2, ht2.1, ht2.2, hG.1, hG.2]
  -- the sum of all phases
  have hopp : ∀ f : D → ℝ, ∑ d, f (s.opp d) = ∑ d, f d := fun f =>
    Equiv.sum_comp (Function.Involutive.toPerm s.opp s.opp_opp) f
  have hsum : ∑ d, t d = s.value c ℓ b := by
    set H : D → ℝ := fun d => dataTransition S c ν w (ℓ (s.face d)) (ℓ (s.face (s.opp d))) (s.start d) with hH
    have e1 : ∀ d, t d + t (s.opp d) = H d + H (s.opp d) := by
      intro d
      have := hedge d
      have e : H (s.opp d) = -dataTransition S c ν w (ℓ (s.face d)) (ℓ (s.face (s.opp d))) (s.start (s.opp d)) := by
        simp only [hH, s.opp_opp]
        exact h.transition_neg (hl d) (hl (s.opp d))
      rw [e]
      simp only [hH]
      linarith
    have e2 : ∑ d, t d = ∑ d, H d := by
      have := sum_congr rfl fun d (_ : d ∈ univ) => e1 d
      rw [sum_add_distrib, sum_add_distrib, hopp, hopp] at this
      linarith
    set K : D → ℝ := fun d => dataTransition S c ν w (b (s.start d)) (ℓ (s.face d)) (s.start d) with hK
    have e3 : ∀ d, H d = K (s.next (s.opp d)) - K d + c (b (s.start d)) (ℓ (s.face d)) (ℓ (s.face (s.opp d))) := by
      intro d
      have hb4 := hend (s.opp d)
      rw [s.next_start, s.opp_opp] at hb4
      simp only [hK, s.next_start, s.opp_opp, s.next_face]
      exact h.transition_add (hs.data d) (hb d).1 (hl d) (hl (s.opp d)) (hb d).2 (hstart d) hb4
    rw [e2, sum_congr rfl fun d _ => e3 d, sum_add_distrib, sum_sub_distrib, hopp (fun d => K (s.next d)), Equiv.sum_comp s.next K]
    unfold DataSurface.value
    push_cast
    ring
  refine ⟨ρ, t, fun d => phasor (dataTransition S c ν w (ℓ (s.face d)) (β (s.start d)) (s.start d)), hρ, ht, ?_, ?_, hsum⟩
  · intro d
    rw [star_phasor, ← phasor_add, neg_add_cancel, phasor_zero]
  · intro d
    rw [h.inner_twist (hs.data d) (hs.data (s.next d)) (hl d) (hβ d).1 (hβ (s.next d)).1 (hstart d) (hend d) (hβ d).2
        (hβ (s.next d)).2, hin d]
    simp only [s.next_face]

/-- Inner products with phases `t`, up to a change of the phases of the vectors: the products around the polygons. -/
theorem surface_phases {D F : Type} [Fintype D] [Fintype F] [DecidableEq F] (s : DataSurface D F) {ρ t : D → ℝ} {Z : D → ℂ}
    (hρ : ∀ d, 0 < ρ d) (hZ : ∀ d, star (Z d) * Z d = 1) {m : ℕ} {y : ℕ → ℕ → ℂ}
    (hy : ∀ d, ∑ k ∈ range m, star (y (s.start d) k) * y (s.start (s.next d)) k = star (Z d) * Z (s.next d) * (ρ d * phasor (t d)))
    (hsmall : ∀ f, |∑ d with s.face d = f, t d| < 1 / 2) :
    (∀ f, s.around m y f ≠ 0) ∧ ∑ f, Complex.arg (s.around m y f) = 2 * π * ∑ d, t d := by
  have haround : ∀ f, s.around m y f = ((∏ d with s.face d = f, ρ d : ℝ) : ℂ) * phasor (∑ d with s.face d = f, t d) := by
    intro f
    unfold DataSurface.around
    rw [prod_congr rfl fun d _ => hy d, prod_mul_distrib, prod_mul_distrib, prod_mul_distrib, phasor_sum]
    have e2 : ∏ d with s.face d = f, Z (s.next d) = ∏ d with s.face d = f, Z d := by
      refine prod_bij (fun d _ => s.next d) ?_ (fun a _ b _ hab => s.next.injective hab) ?_ (fun d _ => rfl)
      · intro d hd
        simp only [mem_filter, mem_univ, true_and] at hd ⊢
        rw [s.next_face, hd]
      · intro d hd
        simp only [mem_filter, mem_univ, true_and] at hd
        refine ⟨s.next.symm d, ?_, by simp⟩
        simp only [mem_filter, mem_univ, true_and]
        rw [← s.next_face, Equiv.apply_symm_apply, hd]
    rw [e2, ← prod_mul_distrib (f := fun d => star (Z d)) (g := Z)]
    have e3 : ∏ d with s.face d = f, star (Z d) * Z d = 1 := prod_eq_one fun d _ => hZ d
    rw [e3, one_mul]
    push_cast
    rfl
  have hρf : ∀ f, 0 < ∏ d with s.face d = f, ρ d := fun f => prod_pos fun d _ => hρ d
  constructor
  · intro f hf
    rw [haround f] at hf
    rcases mul_eq_zero.1 hf with h' | h'
    · exact (hρf f).ne' (by exact_mod_cast h')
    · exact Complex.exp_ne_zero _ h'
  · rw [sum_congr rfl fun f _ => by rw [haround f, arg_phasor (hρf f) (hsmall f)], ← mul_sum]
    congr 1
    exact sum_fiberwise univ s.face t

/-- The phases around the polygons of a closed surface add up to the value of the cocycle. -/
theorem PhaseData.chern (h : PhaseData S N δ r w c ν) {M : ℝ} (hM : FormBound2 S δ (2 * r) c ν M) {D F : Type} [Fintype D] [Fintype F]
    [DecidableEq F] (s : DataSurface D F) (ℓ : F → ℕ) (hs : s.InBalls S N δ r ℓ) (hsm : s.Small S w M) (b : ℕ → ℕ)
    (hb : ∀ d, b (s.start d) ∈ S ∧ δ (b (s.start d)) (s.start d) < r) (β : ℕ → ℕ)
    (hβ : ∀ d, β (s.start d) ∈ S ∧ δ (β (s.start d)) (s.start d) < r) (m : ℕ) (y : ℕ → ℕ → ℂ)
    (hy : ∀ d, ∑ k ∈ range m, star (y (s.start d) k) * y (s.start (s.next d)) k =
      dataInner S c ν w (β (s.start d)) (s.start d) (β (s.start (s.next d))) (s.start (s.next d))) :
    (∀ f, s.around m y f ≠ 0) ∧ ∑ f, Complex.arg (s.around m y f) = 2 * π * s.value c ℓ b := by
  obtain ⟨ρ, t, Z, hρ, ht, hZ, hin, hsum⟩ := h.chern_core hM s ℓ hs hsm.edge b hb β hβ
  rw [← hsum]
  refine surface_phases s hρ hZ (fun d => (hy d).trans (hin d)) fun f => ?_
  refine (abs_sum_le_sum_abs _ _).trans_lt (lt_of_le_of_lt ?_ (hsm.polygon f))
  rw [mul_sum]
  exact sum_le_sum fun d _ => ht d

end

end

end Dreimac
