import Mathlib.Analysis.Complex.ExponentialBounds
import Verif.Props.Float

/-!
# C96, C97 for NumPy's `float64`
-/

namespace Dreimac

open Fl

section
variable {K : Type} [Field K] [LinearOrder K] [IsStrictOrderedRing K] [FloorRing K]

/-- Numbers with at most 53 bits and a moderate exponent are machine numbers. -/
theorem machine_float64 {x : K} (m e : ℤ) (hx : x = m * 2 ^ e) (hm : |m| ≤ 2 ^ 53) (h1 : -1074 ≤ e) (h2 : e ≤ 970) :
    Machine float64 x := by
  have hb : |x| ≤ 2 ^ (e + 53) := by
    have hp : |(2 : K) ^ e| = 2 ^ e := abs_of_pos (two_zpow_pos e)
    rw [hx, abs_mul, hp, add_comm, zpow_add₀ two_ne_zero]
    apply mul_le_mul_of_nonneg_right _ (two_zpow_pos e).le
    rw [← Int.cast_abs]
    calc ((|m| : ℤ) : K) ≤ ((2 ^ 53 : ℤ) : K) := Int.cast_le.2 hm
      _ = 2 ^ (53 : ℤ) := by norm_num
  refine machine_binary_iff.2 ⟨roundUnbounded_of_form (by norm_num) (m := m) (e := e + 52) (by omega) ?_ ?_, ?_⟩
  · rw [hx]; congr 2; push_cast; ring
  · rw [show e + 52 + 1 = e + 53 by ring]; exact hb
  · exact hb.trans_lt (zpow_lt_zpow_right₀ one_lt_two (by omega))

/-- The bounds of `C96_weights_sum` in a simpler form. -/
theorem sum_bound_simple {u : K} {L : ℕ} (hL : 0 < L) (hu0 : 0 < u) (hLu : L * u ≤ 1 / 8) :
    (1 + u) ^ (L - 1) ≤ 2 ∧ 1 - L * u ≤ (1 - u) / (1 + u) ^ (L - 1) ∧
      (1 + u) / (1 - u) ^ (L - 1) ≤ 1 + 2 * L * u := by
  have hLK1 : (1 : K) ≤ L := by exact_mod_cast hL
  have hu1 : u ≤ 1 / 8 := by nlinarith
  have heL : ((L - 1 : ℕ) : K) = L - 1 := by push_cast [Nat.cast_sub hL]; ring
  have hlow : 1 - (L - 1) * u ≤ (1 - u) ^ (L - 1) := by
    have := one_add_mul_le_pow (a := -u) (by linarith) (L - 1)
    rw [heL] at this
    calc 1 - (L - 1) * u = 1 + (L - 1) * -u := by ring
      _ ≤ _ := this
      _ = _ := by ring
  have hQ : 0 < (1 - u) ^ (L - 1) := pow_pos (by linarith) _
  have hP : 0 < (1 + u) ^ (L - 1) := pow_pos (by linarith) _
  have hPQ : (1 + u) ^ (L - 1) * (1 - u) ^ (L - 1) ≤ 1 := by
    rw [← mul_pow]
    exact pow_le_one₀ (by nlinarith) (by nlinarith)
  refine ⟨?_, ?_, ?_⟩
  · have h3 : (1 / 2 : K) ≤ (1 - u) ^ (L - 1) := by nlinarith
    nlinarith
  · rw [le_div_iff₀ hP]
    have a1 : (1 - u) ^ (L - 1) * (1 + u) ^ (L - 1) ≤ 1 := by rw [mul_comm]; exact hPQ
    have a2 : (1 - (L - 1) * u) * (1 + u) ^ (L - 1) ≤ 1 :=
      (mul_le_mul_of_nonneg_right hlow hP.le).trans a1
    have a3 := mul_le_mul_of_nonneg_left a2 (by linarith : 0 ≤ 1 - u)
    have a4 : (1 - L * u) * (1 + u) ^ (L - 1) ≤ (1 - u) * ((1 - (L - 1) * u) * (1 + u) ^ (L - 1)) := by
      rw [← mul_assoc]
      apply mul_le_mul_of_nonneg_right _ hP.le
      have : 0 ≤ (L - 1) * u * u := mul_nonneg (mul_nonneg (by linarith) hu0.le) hu0.le
      nlinarith
    linarith
  · rw [div_le_iff₀ hQ]
    have h3 : (1 + 2 * L * u) * (1 - (L - 1) * u) ≤ (1 + 2 * L * u) * (1 - u) ^ (L - 1) :=
      mul_le_mul_of_nonneg_left hlow (by nlinarith)
    refine le_trans ?_ h3
    have h4 : (1 + 2 * L * u) * (1 - (L - 1) * u) = 1 + u + L * u * (1 - 2 * ((L - 1) * u)) := by ring
    rw [h4]
    have h5 : 0 ≤ L * u := by positivity
    have h6 : 0 ≤ 1 - 2 * ((L - 1) * u) := by nlinarith
    nlinarith

/-- **C96 (`float64`).** For at most `2^50` landmarks and bump values up to `2^900` the weights of every data point that are not
`nan` add up to 1 with an error of at most `(L + 1) 2⁻⁵²`. -/
theorem C96_float64_sum (order : SumTree) (L N : ℕ) (hL : 0 < L) (hL' : L ≤ 2 ^ 50)
    (ho : order.leaves.Perm (List.range L)) (dist : ℕ → ℕ → K)
    (hd : ∀ l i, 0 ≤ dist l i) (hm : ∀ l i, Machine float64 (dist l i)) (r : K) (bump : Fl K → Fl K → Fl K)
    (hb : FloatBump float64 bump r) (hbb : ∀ d v, 0 ≤ d → d < r → bump (fin d) (fin r) = fin v → v ≤ 2 ^ (900 : ℤ)) :
    ∃ C, getCoveringPartitionF float64 order L N (fun l i => fin (dist l i)) (fin r) bump = .ok C ∧
      ∀ i, (∃ l < L, C.varphi l i ≠ nan) →
        |∑ l ∈ Finset.range L, (C.varphi l i).toK - 1| ≤ (L + 1) * 2 ^ (-52 : ℤ) := by
  have hLK : (L : K) ≤ 2 ^ (50 : ℤ) := by exact_mod_cast hL'
  have hu0 : (0 : K) < 2 ^ (-53 : ℤ) := two_zpow_pos _
  have hu1 : (2 : K) ^ (-53 : ℤ) < 1 := by
    calc (2 : K) ^ (-53 : ℤ) < 2 ^ (0 : ℤ) := zpow_lt_zpow_right₀ one_lt_two (by norm_num)
      _ = 1 := zpow_zero _
  have hLu : (L : K) * 2 ^ (-53 : ℤ) ≤ 1 / 8 := by
    calc (L : K) * 2 ^ (-53 : ℤ) ≤ 2 ^ (50 : ℤ) * 2 ^ (-53 : ℤ) := mul_le_mul_of_nonneg_right hLK hu0.le
      _ = 2 ^ (-3 : ℤ) := by rw [← zpow_add₀ two_ne_zero]; norm_num
      _ = 1 / 8 := by norm_num
  have heta' : (L : K) * 2 ^ (-1075 : ℤ) ≤ 2 ^ (-53 : ℤ) := by
    calc (L : K) * 2 ^ (-1075 : ℤ) ≤ 2 ^ (50 : ℤ) * 2 ^ (-1075 : ℤ) := mul_le_mul_of_nonneg_right hLK (two_zpow_pos _).le
      _ = 2 ^ (-1025 : ℤ) := by rw [← zpow_add₀ two_ne_zero]; norm_num
      _ ≤ 2 ^ (-53 : ℤ) := zpow_le_zpow_right₀ one_le_two (by norm_num)
  have hB : Machine (float64 (K := K)) (2 ^ (951 : ℤ)) :=
    machine_float64 1 951 (by rw [Int.cast_one, one_mul]) (by norm_num) (by norm_num) (by norm_num)
  have h52 : (2 : K) ^ (-52 : ℤ) = 2 * 2 ^ (-53 : ℤ) := by
    rw [show (-52 : ℤ) = 1 + -53 by norm_num, zpow_add₀ two_ne_zero, zpow_one]
  have h951 : (2 : K) * (2 ^ (50 : ℤ) * 2 ^ (900 : ℤ)) = 2 ^ (951 : ℤ) := by
    rw [← zpow_add₀ two_ne_zero, ← zpow_one_add₀ two_ne_zero]; norm_num
  have h900 : (0 : K) < 2 ^ (900 : ℤ) := two_zpow_pos _
  have E := errorBound_float64 (K := K)
  rw [h52]
  generalize (2 : K) ^ (-53 : ℤ) = u at *
  generalize (2 : K) ^ (-1075 : ℤ) = eta at *
  generalize (2 : K) ^ (900 : ℤ) = b at *
  generalize (2 : K) ^ (951 : ℤ) = B at *
  generalize (2 : K) ^ (50 : ℤ) = c at *
  obtain ⟨hP2, k1, k2⟩ := sum_bound_simple hL hu0 hLu
  have hbB : (1 + u) ^ (L - 1) * (L * b) ≤ B := by
    rw [← h951]
    exact mul_le_mul hP2 (mul_le_mul_of_nonneg_right hLK h900.le) (by positivity) (by norm_num)
  obtain ⟨C, hC, h⟩ := C96_weights_sum rounding_float64 E hu0.le hu1 order L N hL ho dist hd hm r bump hb
    b B hB hbB h900.le hbb
  refine ⟨C, hC, fun i hi => ?_⟩
  obtain ⟨h1, h2⟩ := h i hi
  have h5 : 0 ≤ L * u := by positivity
  rw [abs_le]
  constructor <;> linarith

end

/-- Numbers far below the smallest positive machine number are rounded to 0. -/
theorem float64_tiny {x : ℝ} (h0 : 0 ≤ x) (h : x ≤ 2 ^ (-1076 : ℤ)) : float64 x = fin 0 := by
  have R := rounding_float64 (K := ℝ)
  have hz : float64 (2 ^ (-1076 : ℤ) : ℝ) = fin 0 := by
    have hr : roundUnbounded 53 (-1022) ((2 : ℝ) ^ (-1076 : ℤ)) = 0 := by
      have hne : ((2 : ℝ) ^ (-1076 : ℤ)) ≠ 0 := (two_zpow_pos _).ne'
      have he : expo (-1022) ((2 : ℝ) ^ (-1076 : ℤ)) = -1022 := by
        apply le_antisymm _ (le_max_left _ _)
        apply expo_of_abs_lt hne le_rfl
        rw [abs_of_pos (two_zpow_pos _)]
        exact zpow_lt_zpow_right₀ one_lt_two (by norm_num)
      unfold roundUnbounded
      rw [spacing_eq, he, ← zpow_sub₀ two_ne_zero]
      have : nearestEven ((2 : ℝ) ^ ((-1076 : ℤ) - (-1022 - (53 : ℕ) + 1))) = 0 := by
        norm_num [nearestEven, Int.fract]
      rw [this]; simp
    have := binary_of_lt (p := 53) (emin := -1022) (emax := 1023) (x := (2 : ℝ) ^ (-1076 : ℤ))
      (by rw [hr, abs_zero]; exact two_zpow_pos _)
    rw [hr] at this; exact this
  have m1 := R.mono _ _ h
  rw [hz] at m1
  rcases R.nonneg h0 with hp | ⟨w, w0, hw, -⟩
  · rw [hp] at m1; exact absurd m1 (by simp [Fl.Le])
  · rw [hw] at m1
    have : w ≤ 0 := m1
    rw [hw, le_antisymm this w0]

/-- The exponential bump function in `float64`: finite values in `[0, 1]`, if the square of the radius neither overflows nor
underflows. -/
theorem floatBump_exp {r : ℝ} (hr : Machine float64 r) (h1 : 2 ^ (-1021 : ℤ) ≤ r * r) (h2 : float64 (r * r) ≠ pinf) :
    FloatBump float64 (bumpExpF float64) r := by
  have R := rounding_float64 (K := ℝ)
  intro d md d0 h
  rcases R.nonneg (mul_self_nonneg r) with hq | ⟨b, b0, hb, mb⟩
  · exact absurd hq h2
  have hdd : d * d ≤ r * r := by nlinarith
  have ham := R.mono _ _ hdd
  rw [hb] at ham
  rcases R.nonneg (mul_self_nonneg d) with hq | ⟨a, a0, ha, ma⟩
  · rw [hq] at ham; exact absurd ham (by simp [Fl.Le])
  have hab : a < b := by
    have h3 := roundUnbounded_sq_lt (p := 53) (emin := -1022) (by norm_num) (by norm_num)
      (machine_binary_iff.1 md).1 (machine_binary_iff.1 hr).1 d0 h (by norm_num at h1 ⊢; exact h1)
    rw [← (binary_fin ha).1, ← (binary_fin hb).1] at h3
    exact h3
  obtain ⟨c, hc, hcb, hc0, -⟩ := R.between (R.machine_neg mb) R.zero (by linarith : -b ≤ a - b) (by linarith)
  have hcne : c ≠ 0 := by
    rintro rfl
    exact hab.ne (R.gradual a b ma mb hc)
  have hneg : b / c ≤ 0 := div_nonpos_of_nonneg_of_nonpos b0 hc0
  have hval : bumpExpF float64 (fin d) (fin r) = Fl.round float64 (Fl.exp (float64 (b / c))) := by
    unfold bumpExpF
    simp only [fin_mul, round_fin, hb, ha, fin_sub, hc]
    rw [fin_div _ _ hcne, round_fin]
  have hm := R.mono _ _ hneg
  rw [R.zero] at hm
  rw [hval]
  cases hx : float64 (b / c) with
  | nan => exact absurd hx (R.notNan _)
  | pinf => rw [hx] at hm; exact absurd hm (by simp [Fl.Le])
  | ninf => exact ⟨0, R.zero, le_rfl, R.zero⟩
  | fin x =>
    rw [hx] at hm
    have hx0 : x ≤ 0 := hm
    obtain ⟨y, hy, y0, -, my⟩ := R.between R.zero R.one (Real.exp_pos x).le (Real.exp_le_one_iff.2 hx0)
    exact ⟨y, hy, y0, my⟩

/-- **C97 is false (quadratic).** If the radius exceeds the distance to the only landmark by at most `2⁻⁵³⁸`, then the square
underflows: the point lies in the ball, but is reported as not covered and gets `nan` weights. -/
theorem C97_quadratic_loses_points (d r : ℝ) (h : d < r)
    (hs : r - d ≤ 2 ^ (-538 : ℤ)) :
    Covered 1 (fun _ _ => d) r 0 ∧
    ∃ C, getCoveringPartitionF float64 (.leaf 0) 1 1 (fun _ _ => fin d) (fin r) (bumpQuadraticF float64) = .ok C ∧
      C.warning = some 1 ∧ C.varphi 0 0 = nan := by
  have R := rounding_float64 (K := ℝ)
  refine ⟨⟨0, by norm_num, h⟩, ?_⟩
  have m538 : Machine (float64 (K := ℝ)) (2 ^ (-538 : ℤ)) :=
    machine_float64 1 (-538) (by simp) (by norm_num) (by norm_num) (by norm_num)
  obtain ⟨v, hv, v0, v1, mv⟩ := R.between R.zero m538 (by linarith : 0 ≤ r - d) hs
  have hsq : v * v ≤ 2 ^ (-1076 : ℤ) := by
    calc v * v ≤ 2 ^ (-538 : ℤ) * 2 ^ (-538 : ℤ) := mul_le_mul v1 v1 v0 (two_zpow_pos _).le
      _ = _ := by rw [← zpow_add₀ two_ne_zero]; norm_num
  have hzero : float64 (v * v) = fin 0 := float64_tiny (mul_nonneg v0 v0) hsq
  have hbump : bumpQuadraticF float64 (fin d) (fin r) = fin 0 := by
    unfold bumpQuadraticF; simp only [fin_sub, round_fin, hv, fin_mul, hzero]
  unfold getCoveringPartitionF
  simp only [lt_fin, h, decide_true, if_true, hbump, SumTree.eval]
  exact ⟨_, rfl, by simp [Fl.isZero], by simp [Fl.isZero]⟩

/-- **C97 is false (exponential).** With radius 1, a point at distance `4095/4096` from the only landmark is lost although it
lies well inside the ball: the bump value `exp(-2048.25)` underflows. -/
theorem C97_exponential_loses_points :
    Covered 1 (fun _ _ => (4095 / 4096 : ℝ)) 1 0 ∧ Machine float64 (4095 / 4096 : ℝ) ∧
    ∃ C, getCoveringPartitionF float64 (.leaf 0) 1 1 (fun _ _ => fin (4095 / 4096 : ℝ)) (fin 1) (bumpExpF float64) = .ok C ∧
      C.warning = some 1 ∧ C.varphi 0 0 = nan := by
  have R := rounding_float64 (K := ℝ)
  refine ⟨⟨0, by norm_num, by norm_num⟩, machine_float64 4095 (-12) (by norm_num) (by norm_num) (by norm_num) (by norm_num), ?_⟩
  have h1 : Machine float64 ((4095 / 4096 : ℝ) * (4095 / 4096)) :=
    machine_float64 16769025 (-24) (by norm_num) (by norm_num) (by norm_num) (by norm_num)
  have h2 : Machine float64 ((4095 / 4096 : ℝ) * (4095 / 4096) - 1) :=
    machine_float64 (-8191) (-24) (by norm_num) (by norm_num) (by norm_num) (by norm_num)
  have h3 : Machine float64 (-2048 : ℝ) := machine_float64 (-2048) 0 (by norm_num) (by norm_num) (by norm_num) (by norm_num)
  have h11 : float64 ((1 : ℝ) * 1) = fin 1 := by rw [one_mul]; exact R.one
  have hbump : bumpExpF float64 (fin (4095 / 4096)) (fin 1) = fin 0 := by
    unfold bumpExpF
    simp only [fin_mul, round_fin, h11]
    rw [h1]
    simp only [fin_sub, round_fin]
    rw [h2, fin_div _ _ (by norm_num), round_fin]
    have hm := R.mono (1 / ((4095 / 4096 : ℝ) * (4095 / 4096) - 1)) (-2048) (by norm_num)
    rw [h3] at hm
    cases hx : float64 (1 / ((4095 / 4096 : ℝ) * (4095 / 4096) - 1)) with
    | nan => exact absurd hx (R.notNan _)
    | pinf => rw [hx] at hm; exact absurd hm (by simp [Fl.Le])
    | ninf => exact R.zero
    | fin x =>
      rw [hx] at hm
      have hx0 : x ≤ -2048 := hm
      show float64 (Real.exp x) = fin 0
      refine float64_tiny (Real.exp_pos x).le ?_
      calc Real.exp x ≤ Real.exp (-2048) := Real.exp_le_exp.2 hx0
        _ = Real.exp (-1) ^ 2048 := by rw [← Real.exp_nat_mul]; norm_num
        _ ≤ (1 / 2) ^ 2048 := by
          apply pow_le_pow_left₀ (Real.exp_pos _).le
          have := Real.exp_neg_one_lt_half
          linarith
        _ = 2 ^ (-2048 : ℤ) := by rw [one_div, inv_pow, zpow_neg]; norm_cast
        _ ≤ _ := zpow_le_zpow_right₀ one_le_two (by norm_num)
  unfold getCoveringPartitionF
  have hlt : (4095 / 4096 : ℝ) < 1 := by norm_num
  simp only [lt_fin, hlt, decide_true, if_true, hbump, SumTree.eval]
  exact ⟨_, rfl, by simp [Fl.isZero], by simp [Fl.isZero]⟩

/-! ### Examples: two landmarks, two data points, `float64` -/

/-- Two landmarks at distance 1 of each other; the second data point is in the middle. -/
def pairDist : ℕ → ℕ → ℚ := fun l i => if i = 0 then l else 1 / 2

theorem pairDist_machine (l i : ℕ) (h : l ≤ 1) : Machine float64 (pairDist l i) := by
  unfold pairDist
  split
  · rcases (by omega : l = 0 ∨ l = 1) with rfl | rfl
    · exact_mod_cast rounding_float64.zero
    · exact_mod_cast rounding_float64.one
  · exact machine_float64 1 (-1) (by norm_num) (by norm_num) (by norm_num) (by norm_num)

/-- The two landmarks as rows `0` and `1` (further rows repeat row 1). -/
def pairDist' : ℕ → ℕ → ℚ := fun l i => pairDist (min l 1) i

theorem pairDist'_nonneg (l i : ℕ) : 0 ≤ pairDist' l i := by
  unfold pairDist' pairDist; split <;> positivity

theorem machine_three_quarters : Machine float64 (3 / 4 : ℚ) :=
  machine_float64 3 (-2) (by norm_num) (by norm_num) (by norm_num) (by norm_num)

/-- The hypotheses of `C96_weights_unit_interval`, `C96_float64_sum` and `C97_linear_partial` hold for the two landmarks. -/
example : ∃ C, getCoveringPartitionF float64 (.node (.leaf 1) (.leaf 0)) 2 2 (fun l i => fin (pairDist' l i)) (fin (3 / 4))
    (bumpLinearF float64) = .ok C ∧ ∀ i, (∃ l < 2, C.varphi l i ≠ nan) →
      |∑ l ∈ Finset.range 2, (C.varphi l i).toK - 1| ≤ ((2 : ℕ) + 1) * 2 ^ (-52 : ℤ) := by
  refine C96_float64_sum _ 2 2 (by norm_num) (by norm_num) (by decide) pairDist' pairDist'_nonneg
    (fun l i => pairDist_machine _ i (by omega)) _ _ (floatBump_linear rounding_float64 machine_three_quarters) ?_
  intro d v hd _ hv
  exact (bumpLinearF_le rounding_float64 machine_three_quarters d v hd hv).trans
    ((by norm_num : (3 / 4 : ℚ) ≤ 2 ^ (0 : ℤ)).trans (zpow_le_zpow_right₀ one_le_two (by norm_num)))

example : ∃ C, getCoveringPartitionF float64 (.node (.leaf 1) (.leaf 0)) 2 2 (fun l i => fin (pairDist' l i)) (fin (3 / 4))
    (bumpLinearF float64) = .ok C ∧ (∀ l i, C.varphi l i = nan ↔ ¬ Covered 2 pairDist' (3 / 4) i) ∧
      (∀ k, C.warning = some k ↔ 0 < k ∧ k = Set.ncard {i | i < 2 ∧ ¬ Covered 2 pairDist' (3 / 4) i}) :=
  C97_linear_partial rounding_float64 _ 2 2 (by norm_num) (by decide) pairDist' pairDist'_nonneg
    (fun l i => pairDist_machine _ i (by omega)) _ machine_three_quarters

example : ∃ C, getCoveringPartitionF float64 (.node (.leaf 1) (.leaf 0)) 2 2 (fun l i => fin (pairDist' l i)) (fin (3 / 4))
    (bumpQuadraticF float64) = .ok C ∧ ∀ i, (∀ l < 2, C.varphi l i = nan) ∨
        ∀ l < 2, ∃ w, C.varphi l i = fin w ∧ 0 ≤ w ∧ w ≤ 1 ∧ (3 / 4 ≤ pairDist' l i → w = 0) :=
  C96_weights_unit_interval rounding_float64 _ 2 2 (by norm_num)
    (fun l hl => by rcases (by omega : l = 0 ∨ l = 1) with rfl | rfl <;> simp [SumTree.leaves])
    pairDist' pairDist'_nonneg
    (fun l i => pairDist_machine _ i (by omega)) _ _
    (floatBump_quadratic rounding_float64 machine_three_quarters (by decide +kernel))

/-- Three equal weights in `float64`: each is the rounded `1/3`, and they do not add up to exactly 1. -/
example : ((getCoveringPartitionF (K := ℚ) float64 (.node (.node (.leaf 0) (.leaf 1)) (.leaf 2)) 3 1 (fun _ _ => fin 0) (fin 1)
    (bumpLinearF float64)).toOption.map fun C => (C.varphi 0 0, C.warning)) =
      some (fin (6004799503160661 / 2 ^ 54), none) := by decide +kernel

/-- The hypotheses of `floatBump_exp` and `C97_quadratic_loses_points` can be met. -/
example : FloatBump float64 (bumpExpF float64) (1 : ℝ) :=
  floatBump_exp rounding_float64.one
    (by rw [one_mul]; calc (2 : ℝ) ^ (-1021 : ℤ) ≤ 2 ^ (0 : ℤ) := zpow_le_zpow_right₀ one_le_two (by norm_num)
          _ = 1 := zpow_zero _)
    (by rw [one_mul, rounding_float64.one]; simp)

example : ∃ C, getCoveringPartitionF float64 (.leaf 0) 1 1 (fun _ _ => fin (0 : ℝ)) (fin (2 ^ (-600 : ℤ)))
    (bumpQuadraticF float64) = .ok C ∧ C.warning = some 1 ∧ C.varphi 0 0 = nan :=
  (C97_quadratic_loses_points 0 (2 ^ (-600 : ℤ)) (two_zpow_pos _)
    (by rw [sub_zero]; exact zpow_le_zpow_right₀ one_le_two (by norm_num))).2

end Dreimac
