import Verif.Lemmas.LLL3
import Verif.Lemmas.LLL4Scalar

/-!
# The vectors of `_lll` with four classes

Everything that happens while the first two basis vectors `b₀, b₁` stay the same.
-/

namespace Dreimac

open Matrix

variable {K : Type} [Field K] [LinearOrder K] [IsStrictOrderedRing K] {n : ℕ}

/-- The second Gram-Schmidt column. -/
def gs1 (b0 b1 : Fin n → K) : Fin n → K := b1 - proj b0 b1

/-- The column `_gram_schmidt` computes from `z` after projecting along `b₀` and then along `b₁`. -/
def gsQ (b0 b1 z : Fin n → K) : Fin n → K := z - proj b0 z - proj b1 (z - proj b0 z)

/-- The coefficient of `z` along `v`. -/
def coef (v z : Fin n → K) : K := z ⬝ᵥ v / v ⬝ᵥ v

/-- The inner product of the parts orthogonal to `b₀` and `b₁`. -/
def perp (b0 b1 z z' : Fin n → K) : K :=
  z ⬝ᵥ z' - coef b0 z * coef b0 z' * (b0 ⬝ᵥ b0)
    - coef (gs1 b0 b1) z * coef (gs1 b0 b1) z' * (gs1 b0 b1 ⬝ᵥ gs1 b0 b1)

section
variable {b0 b1 : Fin n → K} (hp : 0 < b0 ⬝ᵥ b0) (hN : 0 < gs1 b0 b1 ⬝ᵥ gs1 b0 b1)
include hp

theorem gs1_ortho : gs1 b0 b1 ⬝ᵥ b0 = 0 := by
  unfold gs1 proj
  rw [sub_dotProduct, smul_dotProduct, smul_eq_mul]
  field_simp
  ring

theorem b1_eq (z : Fin n → K) : b1 ⬝ᵥ z = gs1 b0 b1 ⬝ᵥ z + coef b0 b1 * (b0 ⬝ᵥ z) := by
  unfold gs1 proj coef
  rw [sub_dotProduct, smul_dotProduct, smul_eq_mul]
  ring

theorem coef_b0 (z : Fin n → K) : b0 ⬝ᵥ z = coef b0 z * (b0 ⬝ᵥ b0) := by
  unfold coef; rw [dotProduct_comm]; field_simp

omit hp in
include hN in
theorem coef_gs1 (z : Fin n → K) : gs1 b0 b1 ⬝ᵥ z = coef (gs1 b0 b1) z * (gs1 b0 b1 ⬝ᵥ gs1 b0 b1) := by
  unfold coef; rw [dotProduct_comm]; field_simp

theorem b1_norm : b1 ⬝ᵥ b1 = gs1 b0 b1 ⬝ᵥ gs1 b0 b1 + coef b0 b1 ^ 2 * (b0 ⬝ᵥ b0) := by
  have h1 := b1_eq hp (b1 := b1) b1
  have h2 := b1_eq hp (b1 := b1) (gs1 b0 b1)
  have h3 := coef_b0 hp b1
  have h4 := gs1_ortho hp (b1 := b1)
  rw [dotProduct_comm b0 (gs1 b0 b1), h4, mul_zero, add_zero, dotProduct_comm] at h2
  rw [h1, h2, h3]; ring

include hN

theorem b1_coef (z : Fin n → K) : b1 ⬝ᵥ z =
    coef (gs1 b0 b1) z * (gs1 b0 b1 ⬝ᵥ gs1 b0 b1) + coef b0 b1 * (coef b0 z * (b0 ⬝ᵥ b0)) := by
  rw [b1_eq hp z, ← coef_gs1 hN z, ← coef_b0 hp z]

theorem gsQ_dot (z z' : Fin n → K) : gsQ b0 b1 z ⬝ᵥ z' = perp b0 b1 z z' + coef (gs1 b0 b1) z *
    (coef (gs1 b0 b1) z' * (coef b0 b1 ^ 2 * (b0 ⬝ᵥ b0) / (b1 ⬝ᵥ b1)) -
      coef b0 b1 * (b0 ⬝ᵥ b0) * coef b0 z' / (b1 ⬝ᵥ b1)) * (gs1 b0 b1 ⬝ᵥ gs1 b0 b1) := by
  have hr := b1_norm hp (b1 := b1)
  have hr0 : 0 < b1 ⬝ᵥ b1 := by rw [hr]; positivity
  have e1 : (z - proj b0 z) ⬝ᵥ b1 = coef (gs1 b0 b1) z * (gs1 b0 b1 ⬝ᵥ gs1 b0 b1) := by
    rw [dotProduct_comm, b1_eq hp, dotProduct_sub, dotProduct_sub, coef_gs1 hN]
    unfold proj
    rw [dotProduct_smul, dotProduct_smul, gs1_ortho hp, smul_eq_mul, smul_eq_mul, dotProduct_comm b0 z]
    field_simp
    ring
  have e2 : gsQ b0 b1 z ⬝ᵥ z' = z ⬝ᵥ z' - coef b0 z * (b0 ⬝ᵥ z')
      - coef (gs1 b0 b1) z * (gs1 b0 b1 ⬝ᵥ gs1 b0 b1) / (b1 ⬝ᵥ b1) * (b1 ⬝ᵥ z') := by
    unfold gsQ
    rw [sub_dotProduct, sub_dotProduct]
    conv_lhs => unfold proj
    rw [smul_dotProduct, smul_dotProduct, smul_eq_mul, smul_eq_mul]
    change _ - _ - (z - proj b0 z) ⬝ᵥ b1 / _ * _ = _
    rw [e1]
    rfl
  rw [e2, b1_coef hp hN z', coef_b0 hp z']
  unfold perp
  generalize gs1 b0 b1 ⬝ᵥ gs1 b0 b1 = N at *
  generalize b1 ⬝ᵥ b1 = R at *
  generalize b0 ⬝ᵥ b0 = p at *
  generalize coef b0 b1 = μ at *
  subst hr
  field_simp
  ring

omit hN in
theorem coef_b0_gsQ (z : Fin n → K) : coef b0 (proj b0 z) = coef b0 z := by
  unfold coef proj
  rw [smul_dotProduct, smul_eq_mul]
  field_simp

omit [LinearOrder K] [IsStrictOrderedRing K] hp hN in
theorem coef_sub (v x y : Fin n → K) : coef v (x - y) = coef v x - coef v y := by
  unfold coef; rw [sub_dotProduct, sub_div]

omit [LinearOrder K] [IsStrictOrderedRing K] hp hN in
theorem coef_smul (v x : Fin n → K) (c : K) : coef v (c • x) = c * coef v x := by
  unfold coef; rw [smul_dotProduct, smul_eq_mul, mul_div_assoc]

omit [LinearOrder K] [IsStrictOrderedRing K] hp hN in
theorem perp_sub_right (z x y : Fin n → K) : perp b0 b1 z (x - y) = perp b0 b1 z x - perp b0 b1 z y := by
  unfold perp; rw [coef_sub, coef_sub, dotProduct_sub]; ring

omit [LinearOrder K] [IsStrictOrderedRing K] hp hN in
theorem perp_smul_right (z x : Fin n → K) (c : K) : perp b0 b1 z (c • x) = c * perp b0 b1 z x := by
  unfold perp; rw [coef_smul, coef_smul, dotProduct_smul, smul_eq_mul]; ring

omit [LinearOrder K] [IsStrictOrderedRing K] hp hN in
theorem perp_comm (x y : Fin n → K) : perp b0 b1 x y = perp b0 b1 y x := by
  unfold perp; rw [dotProduct_comm]; ring

omit hN in
theorem coef_self : coef b0 b0 = 1 := div_self hp.ne'

omit hN in
theorem coef_gs1_b0 : coef (gs1 b0 b1) b0 = 0 := by
  unfold coef; rw [dotProduct_comm, gs1_ortho hp, zero_div]

theorem coef_gs1_b1 : coef (gs1 b0 b1) b1 = 1 := by
  unfold coef
  rw [b1_eq hp, dotProduct_comm b0, gs1_ortho hp, mul_zero, add_zero, div_self hN.ne']

omit hN in
theorem perp_b0 (z : Fin n → K) : perp b0 b1 z b0 = 0 := by
  unfold perp; rw [coef_self hp, coef_gs1_b0 hp, dotProduct_comm, coef_b0 hp]; ring

theorem perp_b1 (z : Fin n → K) : perp b0 b1 z b1 = 0 := by
  unfold perp; rw [coef_gs1_b1 hp hN, dotProduct_comm, b1_coef hp hN]; ring

/-- The part of `z` orthogonal to `b₀, b₁`. -/
theorem perp_eq (x y : Fin n → K) : perp b0 b1 x y =
    (x - coef b0 x • b0 - coef (gs1 b0 b1) x • gs1 b0 b1) ⬝ᵥ (y - coef b0 y • b0 - coef (gs1 b0 b1) y • gs1 b0 b1) := by
  unfold perp
  simp only [sub_dotProduct, dotProduct_sub, smul_dotProduct, dotProduct_smul, smul_eq_mul]
  rw [gs1_ortho hp, dotProduct_comm b0 (gs1 b0 b1), gs1_ortho hp, dotProduct_comm x b0, dotProduct_comm x (gs1 b0 b1),
    coef_b0 hp x, coef_b0 hp y, coef_gs1 hN x, coef_gs1 hN y]
  ring

theorem perp_nonneg (x : Fin n → K) : 0 ≤ perp b0 b1 x x := by
  rw [perp_eq hp hN]
  simp only [dotProduct]
  exact Finset.sum_nonneg fun i _ => mul_self_nonneg _

theorem perp_cauchy (x y : Fin n → K) : perp b0 b1 x y ^ 2 ≤ perp b0 b1 x x * perp b0 b1 y y := by
  rw [perp_eq hp hN, perp_eq hp hN, perp_eq hp hN]
  simp only [dotProduct, ← sq]
  exact Finset.sum_mul_sq_le_sq_mul_sq _ _ _

theorem gsQ_perp (z z' : Fin n → K) : gsQ b0 b1 z ⬝ᵥ gsQ b0 b1 z' = perp b0 b1 z z' + coef (gs1 b0 b1) z *
    coef (gs1 b0 b1) z' * (coef b0 b1 ^ 2 * (b0 ⬝ᵥ b0) / (b1 ⬝ᵥ b1)) * (gs1 b0 b1 ⬝ᵥ gs1 b0 b1) := by
  have e : gsQ b0 b1 z' = z' - coef b0 z' • b0 - coef b1 (z' - coef b0 z' • b0) • b1 := rfl
  have hb : gsQ b0 b1 z ⬝ᵥ b1 = 0 := by
    have hr0 : b1 ⬝ᵥ b1 ≠ 0 := by rw [b1_norm hp]; positivity
    unfold gsQ
    rw [sub_dotProduct]
    generalize z - proj b0 z = u
    unfold proj
    rw [smul_dotProduct, smul_eq_mul]
    field_simp
    ring
  rw [e, dotProduct_sub, dotProduct_sub, dotProduct_smul, dotProduct_smul, hb, gsQ_dot hp hN z z', gsQ_dot hp hN z b0,
    perp_b0 hp, coef_self hp, coef_gs1_b0 hp]
  simp only [smul_eq_mul]
  ring

end

/-- `b₀, b₁` are reduced. -/
def Pair (b0 b1 : Fin n → K) : Prop :=
  0 < b0 ⬝ᵥ b0 ∧ 0 < gs1 b0 b1 ⬝ᵥ gs1 b0 b1 ∧ |coef b0 b1| ≤ 1 / 2 ∧
    (3 / 4 - coef b0 b1 ^ 2) * (b0 ⬝ᵥ b0) < gs1 b0 b1 ⬝ᵥ gs1 b0 b1

/-- `z` is size reduced against `b₀, b₁`. -/
def Sized (b0 b1 z : Fin n → K) : Prop := |coef b0 z| ≤ 1 / 2 ∧ |coef (gs1 b0 b1) z| ≤ 1 / 2

/-- `z` passes the test of `_lll` for `k = 2`. -/
def Passes (b0 b1 z : Fin n → K) : Prop :=
  (3 / 4 - coef (gs1 b0 b1) z ^ 2) * (gs1 b0 b1 ⬝ᵥ gs1 b0 b1) < gsQ b0 b1 z ⬝ᵥ gsQ b0 b1 z

/-- `A, X` fail the test of `_lll` for `k = 3`. -/
def Fails (b0 b1 A X : Fin n → K) : Prop :=
  (gsQ b0 b1 X - proj A (gsQ b0 b1 X)) ⬝ᵥ (gsQ b0 b1 X - proj A (gsQ b0 b1 X)) ≤
    (3 / 4 - coef (gsQ b0 b1 A) X ^ 2) * (gsQ b0 b1 A ⬝ᵥ gsQ b0 b1 A)

/-- The multiple of `X` subtracted from `A` in the length reduction. -/
def rounds [FloorRing K] (b0 b1 A X : Fin n → K) : ℤ :=
  if 1 / 2 < |coef (gsQ b0 b1 X) A| then rint (coef (gsQ b0 b1 X) A) else 0

theorem lll4_unnormalised (N p R μ α β γ m m' VA VX V QA QX AA T T' : K) (q n1 : ℤ) (hp : 0 < p) (hN : 0 < N)
    (hR : R = N + μ ^ 2 * p) (hRp : 3 / 4 * p < R) (hμ : μ ^ 2 ≤ 1 / 4) (hα : |α| ≤ 1 / 2) (hβ : |β| ≤ 1 / 2)
    (hγ : |γ| ≤ 1 / 2) (hm : m ^ 2 ≤ 1 / 4) (hm' : m' ^ 2 ≤ 1 / 4) (hVA : 0 ≤ VA) (hVX : 0 ≤ VX) (hV : V ^ 2 ≤ VX * VA)
    (qA : QA = VA + α * α * (μ ^ 2 * p / R) * N) (qX : QX = VX + β * β * (μ ^ 2 * p / R) * N)
    (eAA : AA = VA + α ^ 2 * N + m ^ 2 * p) (eT : T = V + β * (α * (μ ^ 2 * p / R) - μ * p * m / R) * N)
    (eT' : T' = V + α * (β * (μ ^ 2 * p / R) - μ * p * m' / R) * N)
    (hf : (QA * (QX - 3 / 4 * QA) + T' ^ 2) * AA ≤ T ^ 2 * QA) (pA : (3 / 4 - α ^ 2) * N < QA)
    (pX : (3 / 4 - β ^ 2) * N < QX) (hq : |T| ≤ QX / 2 ∧ q = 0 ∨ QX / 2 < |T| ∧ |T - q * QX| ≤ QX / 2)
    (hn : γ = α - q * β - n1)
    (pY : (3 / 4 - γ ^ 2) * N < VA - 2 * q * V + (q : K) ^ 2 * VX + γ * γ * (μ ^ 2 * p / R) * N) :
    QX < 999 / 1000 * QA := by
  have hR0 : 0 < R := by linarith
  have third : ∀ x : K, x ≤ 1 / 4 → x * p / R ≤ 1 / 3 := by
    intro x hx
    rw [div_le_iff₀ hR0]
    have := mul_le_mul_of_nonneg_right hx hp.le
    linarith
  have key := lll4_scalar (μ ^ 2 * p / R) α β γ (m ^ 2 * p / R) (m' ^ 2 * p / R) (μ * p * m / R) (μ * p * m' / R)
    (m ^ 2 * p / N) (VA / N) (VX / N) (V / N) (QA / N) (QX / N) (AA / N) (T / N) q n1 (by positivity) (third _ hμ) hα hβ hγ
    (by positivity) (third _ hm) (by positivity) (third _ hm') (by field_simp) (by field_simp)
    (by rw [hR]; field_simp; ring) (by positivity) (by positivity)
    (by
      have e : VA / N * (VX / N) = VX * VA / N ^ 2 := by field_simp
      rw [e, div_pow]; exact div_le_div_of_nonneg_right hV (by positivity))
    (by rw [qA]; field_simp) (by rw [qX]; field_simp) (by rw [eAA]; field_simp) (by rw [eT]; field_simp)
    (by
      have e1 : V / N + α * (μ ^ 2 * p / R * β - μ * p * m' / R) = T' / N := by rw [eT']; field_simp
      have e2 : (QA / N * (QX / N - 3 / 4 * (QA / N)) + (T' / N) ^ 2) * (AA / N) =
        (QA * (QX - 3 / 4 * QA) + T' ^ 2) * AA / N ^ 3 := by field_simp
      have e3 : (T / N) ^ 2 * (QA / N) = T ^ 2 * QA / N ^ 3 := by field_simp
      rw [e1, e2, e3]; exact div_le_div_of_nonneg_right hf (by positivity))
    (by rw [le_div_iff₀ hN]; exact pA.le) (by rw [le_div_iff₀ hN]; exact pX.le)
    (by
      rcases hq with ⟨h1, h2⟩ | ⟨h1, h2⟩
      · refine Or.inl ⟨?_, h2⟩
        rw [abs_div, abs_of_pos hN, div_le_iff₀ hN]
        have : QX / N / 2 * N = QX / 2 := by field_simp
        rw [this]; exact h1
      · refine Or.inr ⟨?_, ?_⟩
        · rw [abs_div, abs_of_pos hN, lt_div_iff₀ hN]
          have : QX / N / 2 * N = QX / 2 := by field_simp
          rw [this]; exact h1
        · have e : T / N - q * (QX / N) = (T - q * QX) / N := by field_simp
          rw [e, abs_div, abs_of_pos hN, div_le_iff₀ hN]
          have : QX / N / 2 * N = QX / 2 := by field_simp
          rw [this]; exact h2) hn
    (by
      have e : VA / N - 2 * q * (V / N) + (q : K) ^ 2 * (VX / N) + γ ^ 2 * (μ ^ 2 * p / R) =
        (VA - 2 * q * V + (q : K) ^ 2 * VX + γ * γ * (μ ^ 2 * p / R) * N) / N := by field_simp
      rw [e, le_div_iff₀ hN]; exact pY.le)
  have e : 999 / 1000 * (QA / N) = 999 / 1000 * QA / N := by ring
  rw [e, div_lt_div_iff_of_pos_right hN] at key
  exact key

theorem rounds_spec [FloorRing K] {b0 b1 A X : Fin n → K} (h : 0 < gsQ b0 b1 X ⬝ᵥ gsQ b0 b1 X) :
    |gsQ b0 b1 X ⬝ᵥ A| ≤ gsQ b0 b1 X ⬝ᵥ gsQ b0 b1 X / 2 ∧ rounds b0 b1 A X = 0 ∨
      gsQ b0 b1 X ⬝ᵥ gsQ b0 b1 X / 2 < |gsQ b0 b1 X ⬝ᵥ A| ∧
        |gsQ b0 b1 X ⬝ᵥ A - rounds b0 b1 A X * (gsQ b0 b1 X ⬝ᵥ gsQ b0 b1 X)| ≤ gsQ b0 b1 X ⬝ᵥ gsQ b0 b1 X / 2 := by
  have e : |coef (gsQ b0 b1 X) A| = |gsQ b0 b1 X ⬝ᵥ A| / (gsQ b0 b1 X ⬝ᵥ gsQ b0 b1 X) := by
    unfold coef; rw [abs_div, abs_of_pos h, dotProduct_comm]
  by_cases hc : 1 / 2 < |coef (gsQ b0 b1 X) A|
  · refine Or.inr ⟨?_, ?_⟩
    · rw [e, lt_div_iff₀ h] at hc; linarith
    · have hr : rounds b0 b1 A X = rint (coef (gsQ b0 b1 X) A) := if_pos hc
      have h1 := abs_sub_rint (coef (gsQ b0 b1 X) A)
      have h2 : gsQ b0 b1 X ⬝ᵥ A - rounds b0 b1 A X * (gsQ b0 b1 X ⬝ᵥ gsQ b0 b1 X) =
          (coef (gsQ b0 b1 X) A - rint (coef (gsQ b0 b1 X) A)) * (gsQ b0 b1 X ⬝ᵥ gsQ b0 b1 X) := by
        rw [hr, sub_mul]
        congr 1
        unfold coef
        rw [dotProduct_comm]
        field_simp
      rw [h2, abs_mul, abs_of_pos h]
      have := mul_le_mul_of_nonneg_right h1 h.le
      linarith
  · refine Or.inl ⟨?_, if_neg hc⟩
    rw [e, not_lt, div_le_iff₀ h] at hc
    linarith

theorem fails_mul {b0 b1 A X : Fin n → K} (hA : 0 < A ⬝ᵥ A) (hQ : 0 < gsQ b0 b1 A ⬝ᵥ gsQ b0 b1 A)
    (h : Fails b0 b1 A X) :
    ((gsQ b0 b1 A ⬝ᵥ gsQ b0 b1 A) * (gsQ b0 b1 X ⬝ᵥ gsQ b0 b1 X - 3 / 4 * (gsQ b0 b1 A ⬝ᵥ gsQ b0 b1 A))
      + (gsQ b0 b1 A ⬝ᵥ X) ^ 2) * (A ⬝ᵥ A) ≤ (gsQ b0 b1 X ⬝ᵥ A) ^ 2 * (gsQ b0 b1 A ⬝ᵥ gsQ b0 b1 A) := by
  unfold Fails proj coef at h
  simp only [sub_dotProduct, dotProduct_sub, smul_dotProduct, dotProduct_smul, smul_eq_mul] at h
  rw [dotProduct_comm X (gsQ b0 b1 A), dotProduct_comm A (gsQ b0 b1 X)] at h
  generalize gsQ b0 b1 X ⬝ᵥ gsQ b0 b1 X = qx at *
  generalize gsQ b0 b1 A ⬝ᵥ gsQ b0 b1 A = qa at *
  generalize gsQ b0 b1 A ⬝ᵥ X = t' at *
  generalize gsQ b0 b1 X ⬝ᵥ A = t at *
  generalize A ⬝ᵥ A = d at *
  have h2 := mul_le_mul_of_nonneg_left h (mul_pos hA hQ).le
  have e1 : d * qa * (qx - t / d * t - t / d * (t - t / d * d)) = d * qa * qx - t ^ 2 * qa := by field_simp; ring
  have e2 : d * qa * ((3 / 4 - (t' / qa) ^ 2) * qa) = 3 / 4 * qa ^ 2 * d - t' ^ 2 * d := by field_simp
  rw [e1, e2] at h2
  linarith

/-- If `A` is exchanged with `X` and then `X` with `Y`, the third Gram-Schmidt column gets shorter at the first
exchange. -/
theorem lll4_vector [FloorRing K] {b0 b1 A X Y : Fin n → K} (n0 n1 : ℤ) (hP : Pair b0 b1) (sA : Sized b0 b1 A)
    (sX : Sized b0 b1 X) (pA : Passes b0 b1 A) (pX : Passes b0 b1 X) (hf : Fails b0 b1 A X)
    (hY : Y = A - (rounds b0 b1 A X : K) • X - (n1 : K) • b1 - (n0 : K) • b0) (sY : Sized b0 b1 Y)
    (pY : Passes b0 b1 Y) : gsQ b0 b1 X ⬝ᵥ gsQ b0 b1 X < 999 / 1000 * (gsQ b0 b1 A ⬝ᵥ gsQ b0 b1 A) := by
  obtain ⟨hp, hN, hμ, hlov⟩ := hP
  have hR := b1_norm hp (b1 := b1)
  have hμ2 := sq_le_quarter hμ
  have hRp : 3 / 4 * (b0 ⬝ᵥ b0) < b1 ⬝ᵥ b1 := by rw [hR]; linarith
  have hR0 : 0 < b1 ⬝ᵥ b1 := by linarith
  have qA := gsQ_perp hp hN A A
  have qX := gsQ_perp hp hN X X
  have qY := gsQ_perp hp hN Y Y
  have dAX := gsQ_dot hp hN A X
  have dXA := gsQ_dot hp hN X A
  have cY : coef (gs1 b0 b1) Y = coef (gs1 b0 b1) A - rounds b0 b1 A X * coef (gs1 b0 b1) X - n1 := by
    rw [hY, coef_sub, coef_sub, coef_sub, coef_smul, coef_smul, coef_smul, coef_gs1_b1 hp hN, coef_gs1_b0 hp]; ring
  have pYY : perp b0 b1 Y Y = perp b0 b1 A A - 2 * rounds b0 b1 A X * perp b0 b1 X A
      + (rounds b0 b1 A X : K) ^ 2 * perp b0 b1 X X := by
    have h1 : ∀ z, perp b0 b1 z Y = perp b0 b1 z A - rounds b0 b1 A X * perp b0 b1 z X := by
      intro z
      rw [hY, perp_sub_right, perp_sub_right, perp_sub_right, perp_smul_right, perp_smul_right, perp_smul_right,
        perp_b1 hp hN, perp_b0 hp]; ring
    rw [h1 Y, perp_comm Y A, perp_comm Y X, h1 A, h1 X, perp_comm A X]; ring
  have nA := perp_nonneg hp hN A
  have nX := perp_nonneg hp hN X
  have cs := perp_cauchy hp hN X A
  have eAA : A ⬝ᵥ A = perp b0 b1 A A + coef (gs1 b0 b1) A ^ 2 * (gs1 b0 b1 ⬝ᵥ gs1 b0 b1) + coef b0 A ^ 2 * (b0 ⬝ᵥ b0) := by
    unfold perp; ring
  have hm0A := sq_le_quarter sA.1
  have hm0X := sq_le_quarter sX.1
  unfold Passes at pA pX pY
  have hQA0 : 0 < gsQ b0 b1 A ⬝ᵥ gsQ b0 b1 A := by
    have := mul_pos (show 0 < 3 / 4 - coef (gs1 b0 b1) A ^ 2 by linarith [sq_le_quarter sA.2]) hN
    linarith
  have hQX0 : 0 < gsQ b0 b1 X ⬝ᵥ gsQ b0 b1 X := by
    have := mul_pos (show 0 < 3 / 4 - coef (gs1 b0 b1) X ^ 2 by linarith [sq_le_quarter sX.2]) hN
    linarith
  have hq := rounds_spec hQX0 (b0 := b0) (b1 := b1) (A := A)
  have hD0 : 0 < A ⬝ᵥ A := by
    have h1 : 0 ≤ A ⬝ᵥ A := by simp only [dotProduct]; exact Finset.sum_nonneg fun i _ => mul_self_nonneg _
    rcases eq_or_lt_of_le h1 with h | h
    · exfalso
      have h2 : A = 0 := by
        have h3 : ∑ i, A i * A i = 0 := h.symm
        rw [Finset.sum_eq_zero_iff_of_nonneg fun i _ => mul_self_nonneg _] at h3
        funext i
        exact mul_self_eq_zero.1 (h3 i (Finset.mem_univ i))
      rw [h2] at hQA0
      simp [gsQ, proj] at hQA0
    · exact h
  have hf' := fails_mul hD0 hQA0 hf
  rw [pYY] at qY
  rw [qY] at pY
  exact lll4_unnormalised _ _ _ _ _ _ _ _ _ _ _ _ _ _ _ _ _ _ n1 hp hN hR hRp hμ2 sA.2 sX.2 sY.2 hm0A hm0X nA nX cs
    qA qX eAA dXA (by rw [dAX, perp_comm A X]) hf' pA pX hq cY pY

end Dreimac
