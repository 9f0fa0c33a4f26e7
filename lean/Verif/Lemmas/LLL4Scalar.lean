import Mathlib.Data.Int.Cast.Lemmas
import Mathlib.Algebra.Order.Ring.Cast
import Verif.Lemmas.LLL4Poly

/-!
# One exchange of the last two vectors in `_lll` with four classes, in coordinates

Lengths are in units of the second Gram-Schmidt column.  `α`, `β`, `γ` are the coefficients along it of the old vector,
the new vector and the vector after that; `sA`, `sX` are the squared lengths of the parts orthogonal to the first two
basis vectors; `r` is the squared sine of the angle between the second vector and its Gram-Schmidt column.
-/

namespace Dreimac

variable {K : Type} [Field K] [LinearOrder K] [IsStrictOrderedRing K]

/-- Three numbers of absolute value at most `1/2` with `α - β - γ` an integer. -/
theorem three_residues {α β γ : K} {n : ℤ} (hα : |α| ≤ 1 / 2) (hβ : |β| ≤ 1 / 2) (hγ : |γ| ≤ 1 / 2)
    (h : γ = α - β - n) : |γ| + |α| + |β| ≤ 1 ∧ γ ^ 2 ≤ (α - β) ^ 2 := by
  obtain ⟨a1, a2⟩ := abs_le.1 hα
  obtain ⟨b1, b2⟩ := abs_le.1 hβ
  obtain ⟨c1, c2⟩ := abs_le.1 hγ
  have n1 : n < 2 := by
    have : (n : K) < 2 := by linarith
    exact_mod_cast this
  have n2 : -2 < n := by
    have : (-2 : K) < n := by linarith
    exact_mod_cast this
  rcases (by omega : n = 0 ∨ n = 1 ∨ n = -1) with rfl | rfl | rfl
  · push_cast at h
    constructor
    · rcases abs_cases γ with ⟨e1, _⟩ | ⟨e1, _⟩ <;> rcases abs_cases α with ⟨e2, _⟩ | ⟨e2, _⟩ <;>
        rcases abs_cases β with ⟨e3, _⟩ | ⟨e3, _⟩ <;> rw [e1, e2, e3] <;> linarith
    · rw [h]; simp
  · push_cast at h
    constructor
    · rw [abs_of_nonpos (show γ ≤ 0 by linarith), abs_of_nonneg (show 0 ≤ α by linarith),
        abs_of_nonpos (show β ≤ 0 by linarith)]
      linarith
    · rw [h]; nlinarith
  · push_cast at h
    constructor
    · rw [abs_of_nonneg (show 0 ≤ γ by linarith), abs_of_nonpos (show α ≤ 0 by linarith),
        abs_of_nonneg (show 0 ≤ β by linarith)]
      linarith
    · rw [h]; nlinarith

/-- `x² ≤ (c y)²` gives `|x| ≤ c |y|`. -/
theorem abs_le_of_sq_bound {x y c : K} (hc : 0 ≤ c) (h : x ^ 2 ≤ c ^ 2 * y ^ 2) : |x| ≤ c * |y| := by
  have : |x| ≤ |c * y| := sq_le_sq.1 (by rw [mul_pow]; exact h)
  rwa [abs_mul, abs_of_nonneg hc] at this

theorem sq_le_quarter {x : K} (h : |x| ≤ 1 / 2) : x ^ 2 ≤ 1 / 4 := by
  rw [← sq_abs]; nlinarith [abs_nonneg x]

theorem two_sq_le_abs {x : K} (h : |x| ≤ 1 / 2) : 2 * x ^ 2 ≤ |x| := by
  rw [← sq_abs]; nlinarith [abs_nonneg x]

theorem no_reduction_bound {a b s : K} (ha : 1 / 2 ≤ a) (hb : 999 / 1000 * a ≤ b) :
    0 < s ^ 2 - b * s + (b - 3 / 4 * a) * (a + 9 / 2 * s ^ 2) := by
  have h1 : 0 < a - s + 9 / 2 * s ^ 2 := by nlinarith [sq_nonneg (s - 1 / 9)]
  have h2 := mul_nonneg (sub_nonneg.2 hb) h1.le
  have h3 : 0 < s ^ 2 - 999 / 1000 * a * s + 249 / 1000 * a * (a + 9 / 2 * s ^ 2) := by
    have h4 : 0 ≤ (a - 1 / 2) * s ^ 2 := mul_nonneg (by linarith) (sq_nonneg s)
    nlinarith [sq_nonneg (s - 32 / 100 * a)]
  linarith

theorem clamp_sq {T lam kap : K} (hT : 1 / 6 ≤ T) (hl : lam ≤ 1 / 6) (hk : -kap ≤ 1 / 6) :
    (T - max lam 0 - max (-kap) 0) ^ 2 ≤ (T - (lam - kap)) ^ 2 := by
  rcases max_cases lam 0 with ⟨e1, h1⟩ | ⟨e1, h1⟩ <;> rcases max_cases (-kap) 0 with ⟨e2, h2⟩ | ⟨e2, h2⟩ <;> rw [e1, e2]
  · exact le_of_eq (by ring)
  · apply pow_le_pow_left₀ <;> linarith
  · apply pow_le_pow_left₀ <;> linarith
  · apply pow_le_pow_left₀ <;> linarith

theorem max_sq_le (x : K) : max x 0 ^ 2 ≤ x ^ 2 := by
  rcases max_cases x 0 with ⟨e, _⟩ | ⟨e, _⟩ <;> rw [e]
  rw [zero_pow two_ne_zero]; exact sq_nonneg x

/-- The bounds on the corrections. -/
theorem correction_bounds {r α β h h' w w' H : K} (hr0 : 0 ≤ r) (hr : r ≤ 1 / 3) (hβ : |β| ≤ 1 / 2)
    (hh0 : 0 ≤ h) (hh : h ≤ 1 / 3) (hh'0 : 0 ≤ h') (hh' : h' ≤ 1 / 3) (hw : w ^ 2 = r * h) (hw' : w' ^ 2 = r * h')
    (hH : H * (1 - r) = h) : 0 ≤ H ∧ |α * w'| ≤ 1 / 3 * |α| ∧ |β * w| ≤ 1 / 3 * |β| ∧
      6 * (α * w') ^ 2 ≤ α ^ 2 * (1 - r) ∧ 18 * (β * w) ^ 2 ≤ H := by
  have hH0 : 0 ≤ H := by
    by_contra hc
    push Not at hc
    have := mul_neg_of_neg_of_pos hc (show 0 < 1 - r by linarith)
    linarith
  have hrh : r * h ≤ 1 / 3 * (1 / 3) := mul_le_mul hr hh hh0 (by norm_num)
  have hrh' : r * h' ≤ 1 / 3 * (1 / 3) := mul_le_mul hr hh' hh'0 (by norm_num)
  have hl2 : (α * w') ^ 2 = α ^ 2 * (r * h') := by rw [mul_pow, hw']
  have hk2 : (β * w) ^ 2 = β ^ 2 * (r * h) := by rw [mul_pow, hw]
  refine ⟨hH0, abs_le_of_sq_bound (by norm_num) ?_, abs_le_of_sq_bound (by norm_num) ?_, ?_, ?_⟩
  · rw [hl2]
    have := mul_le_mul_of_nonneg_left hrh' (sq_nonneg α)
    linarith
  · rw [hk2]
    have := mul_le_mul_of_nonneg_left hrh (sq_nonneg β)
    linarith
  · rw [hl2]
    have h1 : 6 * (r * h') ≤ 1 - r := by
      have : r * h' ≤ r * (1 / 3) := mul_le_mul_of_nonneg_left hh' hr0
      linarith
    have := mul_le_mul_of_nonneg_left h1 (sq_nonneg α)
    linarith
  · rw [hk2, ← hH]
    have h1 : r * (1 - r) ≤ 2 / 9 := by nlinarith
    have h2 : r * (H * (1 - r)) ≤ 2 / 9 * H := by
      calc r * (H * (1 - r)) = r * (1 - r) * H := by ring
        _ ≤ 2 / 9 * H := mul_le_mul_of_nonneg_right h1 hH0
    have h3 : 0 ≤ r * (H * (1 - r)) := by rw [hH]; exact mul_nonneg hr0 hh0
    have h4 := mul_le_mul_of_nonneg_right (sq_le_quarter hβ) h3
    linarith

set_option maxHeartbeats 1000000 in
/-- The contradiction, for a rounding coefficient that is not negative. -/
theorem lll4_scalar_pos (r α β γ h h' w w' H sA sX t a b D T : K) (q n : ℤ)
    (hr0 : 0 ≤ r) (hr : r ≤ 1 / 3) (hα : |α| ≤ 1 / 2) (hβ : |β| ≤ 1 / 2) (hγ : |γ| ≤ 1 / 2)
    (hh0 : 0 ≤ h) (hh : h ≤ 1 / 3) (hh'0 : 0 ≤ h') (hh' : h' ≤ 1 / 3) (hw : w ^ 2 = r * h) (hw' : w' ^ 2 = r * h')
    (hH : H * (1 - r) = h) (hsA : 0 ≤ sA) (hsX : 0 ≤ sX) (ht : t ^ 2 ≤ sA * sX)
    (ea : a = sA + α ^ 2 * r) (eb : b = sX + β ^ 2 * r) (eD : D = sA + α ^ 2 + H)
    (eT : T = t + β * (r * α - w)) (hT : 0 ≤ T)
    (hswap : (a * (b - 3 / 4 * a) + (t + α * (r * β - w')) ^ 2) * D ≤ T ^ 2 * a)
    (pA : 3 / 4 - α ^ 2 ≤ a) (pX : 3 / 4 - β ^ 2 ≤ b)
    (hq : T ≤ b / 2 ∧ q = 0 ∨ b / 2 < T ∧ |T - q * b| ≤ b / 2) (hn : γ = α - q * β - n)
    (pY : 3 / 4 - γ ^ 2 ≤ sA - 2 * q * t + q ^ 2 * sX + γ ^ 2 * r) : b < 999 / 1000 * a := by
  by_contra hba
  push Not at hba
  have ha : 1 / 2 ≤ a := by linarith [sq_le_quarter hα]
  have hb : 1 / 2 ≤ b := by linarith [sq_le_quarter hβ]
  obtain ⟨hH0, hl9, hk9, hE1, hE2⟩ := correction_bounds hr0 hr hβ hh0 hh hh'0 hh' hw hw' hH (α := α)
  set lam := α * w' with hlam
  set kap := β * w with hkap
  have eD' : D = a + (α ^ 2 * (1 - r) + H) := by rw [eD, ea]; ring
  set E := α ^ 2 * (1 - r) + H with hE
  have hEE : 6 * lam ^ 2 + 18 * kap ^ 2 ≤ E := by linarith
  have eT' : t + α * (r * β - w') = T - (lam - kap) := by rw [eT, hlam, hkap]; ring
  rw [eT', eD'] at hswap
  have hd : 0 < b - 3 / 4 * a := by linarith
  have had : 0 < a * (b - 3 / 4 * a) := mul_pos (by linarith) hd
  have hE0 : 0 ≤ E := le_trans (by positivity) hEE
  rcases hq with ⟨hTb, rfl⟩ | ⟨hTb, hqT⟩
  · -- no reduction: the swap inequality fails already
    have hEs : 9 / 2 * (lam - kap) ^ 2 ≤ E := by linarith [sq_nonneg (lam + 3 * kap)]
    clear_value E lam kap
    generalize lam - kap = s at *
    rcases le_total s 0 with hs | hs
    · have h1 : T ^ 2 ≤ (T - s) ^ 2 := pow_le_pow_left₀ hT (by linarith) 2
      have h2 : T ^ 2 * a < (a * (b - 3 / 4 * a) + (T - s) ^ 2) * (a + E) := by
        have h3 : T ^ 2 < a * (b - 3 / 4 * a) + (T - s) ^ 2 := by linarith
        calc T ^ 2 * a < (a * (b - 3 / 4 * a) + (T - s) ^ 2) * a := mul_lt_mul_of_pos_right h3 (by linarith)
          _ ≤ _ := mul_le_mul_of_nonneg_left (by linarith) (by positivity)
      linarith
    · have h1 : 0 ≤ E * (T - s) ^ 2 := mul_nonneg hE0 (sq_nonneg _)
      have h2 : 2 * T * (a * s) ≤ b * (a * s) := mul_le_mul_of_nonneg_right (by linarith) (by positivity)
      have h3 : a * (b - 3 / 4 * a) * (a + 9 / 2 * s ^ 2) ≤ a * (b - 3 / 4 * a) * (a + E) :=
        mul_le_mul_of_nonneg_left (by linarith) had.le
      have h4 : 0 < a * (s ^ 2 - b * s + (b - 3 / 4 * a) * (a + 9 / 2 * s ^ 2)) := by
        exact mul_pos (by linarith) (no_reduction_bound ha hba)
      linarith
  · have hkk : -kap ≤ 1 / 6 := by linarith [neg_le_of_abs_le hk9]
    have htt : t ≤ (sA + sX) / 2 :=
      le_of_abs_le (abs_le_of_sq_le_sq (by linarith [sq_nonneg (sA - sX)]) (by linarith))
    have hq1 : q = 1 := by
      have hT2 : T < 3 / 2 * b := by
        have : T = t + r * (α * β) - kap := by rw [eT, hkap]; ring
        linarith [mul_nonneg hr0 (sq_nonneg (α - β))]
      obtain ⟨q1, q2⟩ := abs_le.1 hqT
      have h1 : (0 : K) < q := by
        by_contra hc
        push Not at hc
        have := mul_nonpos_of_nonpos_of_nonneg hc (show 0 ≤ b by linarith)
        linarith
      have h2 : (q : K) < 2 := by
        by_contra hc
        push Not at hc
        have := mul_le_mul_of_nonneg_right hc (show 0 ≤ b by linarith)
        linarith
      have h1' : 0 < q := by exact_mod_cast h1
      have h2' : q < 2 := by exact_mod_cast h2
      omega
    subst hq1
    push_cast at hn pY
    rw [one_mul] at hn
    obtain ⟨g1, g2⟩ := three_residues hα hβ hγ hn
    have hU : 2 * (T + kap) ≤ a + b + γ ^ 2 - 3 / 4 := by
      have h1 : sA - 2 * 1 * t + 1 ^ 2 * sX = a + b - r * (α - β) ^ 2 - 2 * T - 2 * kap := by
        rw [eT, ea, eb, hkap]; ring
      have h2 := mul_le_mul_of_nonneg_left g2 hr0
      linarith
    have cor := lll4_core a b (max lam 0) (max (-kap) 0) (T - max lam 0 - max (-kap) 0) |γ| E ha hba
      (le_max_right _ _) (max_le (by linarith [le_of_abs_le hl9]) (by norm_num)) (le_max_right _ _) (max_le hkk (by norm_num))
      ?_ (abs_nonneg _) hγ ?_ ?_ ?_
    · -- conclusion
      have hsq : (T - max lam 0 - max (-kap) 0) ^ 2 ≤ (T - (lam - kap)) ^ 2 :=
        clamp_sq (by linarith) (by linarith [le_of_abs_le hl9]) hkk
      have h1 : (a * (b - 3 / 4 * a) + (T - max lam 0 - max (-kap) 0) ^ 2) * (a + E) ≤ T ^ 2 * a :=
        le_trans (mul_le_mul_of_nonneg_right (by linarith) (by linarith)) hswap
      linarith
    · have h1 := max_sq_le lam
      have h2 := max_sq_le (-kap)
      rw [neg_sq] at h2
      linarith
    · have h1 : max lam 0 ≤ 1 / 3 * |α| := max_le (by linarith [le_of_abs_le hl9]) (by positivity)
      have h2 : max (-kap) 0 ≤ 1 / 3 * |β| := max_le (by linarith [neg_le_of_abs_le hk9]) (by positivity)
      linarith
    · have h1 := two_sq_le_abs hα
      have h2 := two_sq_le_abs hβ
      linarith
    · have h1 : T - max (-kap) 0 ≤ T + kap := by linarith [le_max_left (-kap) 0]
      rw [sq_abs]
      linarith

theorem lll4_scalar (r α β γ h h' w w' H sA sX t a b D T : K) (q n : ℤ)
    (hr0 : 0 ≤ r) (hr : r ≤ 1 / 3) (hα : |α| ≤ 1 / 2) (hβ : |β| ≤ 1 / 2) (hγ : |γ| ≤ 1 / 2)
    (hh0 : 0 ≤ h) (hh : h ≤ 1 / 3) (hh'0 : 0 ≤ h') (hh' : h' ≤ 1 / 3) (hw : w ^ 2 = r * h) (hw' : w' ^ 2 = r * h')
    (hH : H * (1 - r) = h) (hsA : 0 ≤ sA) (hsX : 0 ≤ sX) (ht : t ^ 2 ≤ sA * sX)
    (ea : a = sA + α ^ 2 * r) (eb : b = sX + β ^ 2 * r) (eD : D = sA + α ^ 2 + H)
    (eT : T = t + β * (r * α - w))
    (hswap : (a * (b - 3 / 4 * a) + (t + α * (r * β - w')) ^ 2) * D ≤ T ^ 2 * a)
    (pA : 3 / 4 - α ^ 2 ≤ a) (pX : 3 / 4 - β ^ 2 ≤ b)
    (hq : |T| ≤ b / 2 ∧ q = 0 ∨ b / 2 < |T| ∧ |T - q * b| ≤ b / 2) (hn : γ = α - q * β - n)
    (pY : 3 / 4 - γ ^ 2 ≤ sA - 2 * q * t + q ^ 2 * sX + γ ^ 2 * r) : b < 999 / 1000 * a := by
  rcases le_total 0 T with hT | hT
  · rw [abs_of_nonneg hT] at hq
    exact lll4_scalar_pos r α β γ h h' w w' H sA sX t a b D T q n hr0 hr hα hβ hγ hh0 hh hh'0 hh' hw hw' hH hsA hsX ht
      ea eb eD eT hT hswap pA pX hq hn pY
  · rw [abs_of_nonpos hT] at hq
    refine lll4_scalar_pos r α (-β) γ h h' w (-w') H sA sX (-t) a b D (-T) (-q) n hr0 hr hα (by rwa [abs_neg]) hγ hh0 hh
      hh'0 hh' hw (by rwa [neg_sq]) hH hsA hsX (by rwa [neg_sq]) ea (by rwa [neg_sq]) eD (by rw [eT]; ring) (by linarith)
      ?_ pA (by rwa [neg_sq]) ?_ ?_ ?_
    · have e : -t + α * (r * -β - -w') = -(t + α * (r * β - w')) := by ring
      rw [e, neg_sq, neg_sq]; exact hswap
    · rcases hq with ⟨h1, h2⟩ | ⟨h1, h2⟩
      · exact Or.inl ⟨h1, by rw [h2]; rfl⟩
      · refine Or.inr ⟨h1, ?_⟩
        rw [← abs_neg]
        convert h2 using 2
        push_cast; ring
    · push_cast; rw [hn]; ring
    · push_cast
      have e : sA - 2 * -(q : K) * -t + (-(q : K)) ^ 2 * sX + γ ^ 2 * r = sA - 2 * q * t + q ^ 2 * sX + γ ^ 2 * r := by ring
      rw [e]; exact pY

end Dreimac
