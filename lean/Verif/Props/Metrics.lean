import Verif.Model.Geometry
import Mathlib.Analysis.InnerProductSpace.PiL2
import Mathlib.Geometry.Euclidean.Angle.Unoriented.TriangleInequality
import Mathlib.Tactic.Linarith

/-!
# Properties of the cross-similarity functions (C70, C71)
-/

namespace Dreimac

open Real

noncomputable section

/-- Row `x` as a vector of Euclidean space. -/
def euc (d : ℕ) (x : ℕ → ℝ) : EuclideanSpace ℝ (Fin d) := WithLp.toLp 2 fun k => x k

theorem euc_inner (d : ℕ) (x y : ℕ → ℝ) : inner ℝ (euc d x) (euc d y) = ∑ k ∈ Finset.range d, x k * y k := by
  rw [Finset.sum_range fun k => x k * y k, PiLp.inner_apply]
  exact Finset.sum_congr rfl fun k _ => by simp [euc, mul_comm]

theorem euc_normSq (d : ℕ) (x : ℕ → ℝ) : ‖euc d x‖ ^ 2 = ∑ k ∈ Finset.range d, x k ^ 2 := by
  rw [← real_inner_self_eq_norm_sq, euc_inner]
  exact Finset.sum_congr rfl fun k _ => by ring

/-- C70: entry `(i, j)` of `get_csm` is the square root of the sum of squared differences of the rows, i.e. their
Euclidean distance. -/
theorem C70_csm_euclidean (d m n : ℕ) (X Y : ℕ → ℕ → ℝ) (i j : ℕ) :
    getCsm d m X n Y i j = √(∑ k ∈ Finset.range d, (X i k - Y j k) ^ 2) ∧
      getCsm d m X n Y i j = dist (euc d (X i)) (euc d (Y j)) := by
  have hc : (∑ k ∈ Finset.range d, X i k ^ 2) + (∑ k ∈ Finset.range d, Y j k ^ 2)
      - 2 * ∑ k ∈ Finset.range d, X i k * Y j k = ∑ k ∈ Finset.range d, (X i k - Y j k) ^ 2 := by
    rw [Finset.mul_sum, ← Finset.sum_add_distrib, ← Finset.sum_sub_distrib]
    exact Finset.sum_congr rfl fun k _ => by ring
  have h1 : getCsm d m X n Y i j = √(∑ k ∈ Finset.range d, (X i k - Y j k) ^ 2) := by
    unfold getCsm
    simp only [hc]
    rw [if_neg (not_lt.mpr (Finset.sum_nonneg fun k _ => sq_nonneg _))]
  refine ⟨h1, ?_⟩
  rw [h1, EuclideanSpace.dist_eq, Finset.sum_range fun k => (X i k - Y j k) ^ 2]
  congr 1
  refine Finset.sum_congr rfl fun k _ => ?_
  rw [Real.dist_eq, sq_abs]
  rfl

/-- C70: the clipping of negative entries never changes the exact value. -/
theorem C70_clipping (d m n : ℕ) (X Y : ℕ → ℕ → ℝ) (i j : ℕ) :
    0 ≤ (∑ k ∈ Finset.range d, X i k ^ 2) + (∑ k ∈ Finset.range d, Y j k ^ 2) - 2 * ∑ k ∈ Finset.range d, X i k * Y j k ∧
      getCsm d m X n Y i j = √((∑ k ∈ Finset.range d, X i k ^ 2) + (∑ k ∈ Finset.range d, Y j k ^ 2)
        - 2 * ∑ k ∈ Finset.range d, X i k * Y j k) := by
  have hc : (∑ k ∈ Finset.range d, X i k ^ 2) + (∑ k ∈ Finset.range d, Y j k ^ 2)
      - 2 * ∑ k ∈ Finset.range d, X i k * Y j k = ∑ k ∈ Finset.range d, (X i k - Y j k) ^ 2 := by
    rw [Finset.mul_sum, ← Finset.sum_add_distrib, ← Finset.sum_sub_distrib]
    exact Finset.sum_congr rfl fun k _ => by ring
  exact ⟨by rw [hc]; exact Finset.sum_nonneg fun k _ => sq_nonneg _,
    by rw [hc]; exact (C70_csm_euclidean d m n X Y i j).1⟩

/-- C70: `get_ssm` is a pseudometric matrix: zero diagonal, symmetric, triangle inequality, zero exactly for equal rows. -/
theorem C70_ssm_metric (d m : ℕ) (X : ℕ → ℕ → ℝ) (i j k : ℕ) :
    getSsm d m X i i = 0 ∧ getSsm d m X i j = getSsm d m X j i ∧ getSsm d m X i k ≤ getSsm d m X i j + getSsm d m X j k ∧
      (getSsm d m X i j = 0 ↔ ∀ l < d, X i l = X j l) := by
  unfold getSsm
  simp only [(C70_csm_euclidean d m m X X _ _).2]
  refine ⟨dist_self _, dist_comm _ _, dist_triangle _ _ _, ?_⟩
  rw [dist_eq_zero]
  constructor
  · intro h l hl
    have := congrArg (fun v : EuclideanSpace ℝ (Fin d) => v ⟨l, hl⟩) h
    exact this
  · intro h
    ext ⟨l, hl⟩
    exact h l hl

/-! ### Projective arc length -/

theorem euc_norm_one {d : ℕ} {x : ℕ → ℝ} (hx : ∑ k ∈ Finset.range d, x k ^ 2 = 1) : ‖euc d x‖ = 1 := by
  have h := euc_normSq d x
  rw [hx] at h
  have h0 := norm_nonneg (euc d x)
  nlinarith

theorem abs_inner_le {d : ℕ} {x y : ℕ → ℝ} (hx : ∑ k ∈ Finset.range d, x k ^ 2 = 1)
    (hy : ∑ k ∈ Finset.range d, y k ^ 2 = 1) : |∑ k ∈ Finset.range d, x k * y k| ≤ 1 := by
  rw [← euc_inner]
  have h1 := euc_norm_one hx
  have h2 := euc_norm_one hy
  have := abs_real_inner_le_norm (euc d x) (euc d y)
  rwa [h1, h2, one_mul] at this

theorem projarc_eq {d m n : ℕ} {X Y : ℕ → ℕ → ℝ} {i j : ℕ} (hx : ∑ k ∈ Finset.range d, X i k ^ 2 = 1)
    (hy : ∑ k ∈ Finset.range d, Y j k ^ 2 = 1) :
    getCsmProjarc d m X n Y i j = arccos |∑ k ∈ Finset.range d, X i k * Y j k| := by
  have h := abs_inner_le hx hy
  have h0 := abs_nonneg (∑ k ∈ Finset.range d, X i k * Y j k)
  unfold getCsmProjarc
  simp only []
  rw [if_neg (by linarith : ¬ |∑ k ∈ Finset.range d, X i k * Y j k| < -1), if_neg (not_lt.mpr h), abs_abs]

/-- The projective arc length is the smaller of the angles to a vector and its opposite. -/
theorem arccos_abs_eq_min {d : ℕ} {x y : ℕ → ℝ} (hx : ∑ k ∈ Finset.range d, x k ^ 2 = 1)
    (hy : ∑ k ∈ Finset.range d, y k ^ 2 = 1) :
    arccos |∑ k ∈ Finset.range d, x k * y k| =
      min (InnerProductGeometry.angle (euc d x) (euc d y)) (InnerProductGeometry.angle (euc d x) (-euc d y)) := by
  unfold InnerProductGeometry.angle
  rw [norm_neg, euc_norm_one hx, euc_norm_one hy, inner_neg_right, euc_inner, one_mul, div_one, div_one]
  rcases le_total 0 (∑ k ∈ Finset.range d, x k * y k) with h | h
  · rw [abs_of_nonneg h, min_eq_left]
    exact arccos_le_arccos (by linarith)
  · rw [abs_of_nonpos h, min_eq_right]
    exact arccos_le_arccos (by linarith)

/-- C71: on unit vectors `get_csm_projarc` is a pseudometric on projective space: values in `[0, π/2]`, symmetric,
unchanged when a vector is replaced by its opposite, zero exactly for equal or opposite vectors, triangle inequality. -/
theorem C71_projarc_metric (d a b c : ℕ) (X Y Z : ℕ → ℕ → ℝ) (i j k : ℕ)
    (hx : ∑ l ∈ Finset.range d, X i l ^ 2 = 1) (hy : ∑ l ∈ Finset.range d, Y j l ^ 2 = 1)
    (hz : ∑ l ∈ Finset.range d, Z k l ^ 2 = 1) :
    (0 ≤ getCsmProjarc d a X b Y i j ∧ getCsmProjarc d a X b Y i j ≤ π / 2) ∧
      getCsmProjarc d a X b Y i j = getCsmProjarc d b Y a X j i ∧
      (∀ X' : ℕ → ℕ → ℝ, (∀ l < d, X' i l = - X i l) → getCsmProjarc d a X' b Y i j = getCsmProjarc d a X b Y i j) ∧
      (getCsmProjarc d a X b Y i j = 0 ↔ (∀ l < d, X i l = Y j l) ∨ ∀ l < d, X i l = - Y j l) ∧
      getCsmProjarc d a X c Z i k ≤ getCsmProjarc d a X b Y i j + getCsmProjarc d b Y c Z j k := by
  rw [projarc_eq hx hy, projarc_eq hy hx, projarc_eq hx hz, projarc_eq hy hz]
  refine ⟨⟨arccos_nonneg _, ?_⟩, ?_, ?_, ?_, ?_⟩
  · rw [arccos_le_pi_div_two]; exact abs_nonneg _
  · congr 2
    exact Finset.sum_congr rfl fun l _ => mul_comm _ _
  · intro X' hX'
    have hx' : ∑ l ∈ Finset.range d, X' i l ^ 2 = 1 := by
      rw [← hx]
      refine Finset.sum_congr rfl fun l hl => ?_
      rw [hX' l (Finset.mem_range.1 hl)]; ring
    rw [projarc_eq hx' hy]
    congr 1
    rw [← abs_neg, ← Finset.sum_neg_distrib]
    congr 1
    refine Finset.sum_congr rfl fun l hl => ?_
    rw [hX' l (Finset.mem_range.1 hl)]; ring
  · rw [arccos_eq_zero]
    have h1 := abs_inner_le hx hy
    have key : ∀ s : ℝ, s ^ 2 = 1 → (∑ l ∈ Finset.range d, X i l * Y j l = s) → ∀ l < d, X i l = s * Y j l := by
      intro s hs he
      have h0 : ∑ l ∈ Finset.range d, (X i l - s * Y j l) ^ 2 = 0 := by
        have : ∑ l ∈ Finset.range d, (X i l - s * Y j l) ^ 2 = ∑ l ∈ Finset.range d, X i l ^ 2
            - 2 * s * ∑ l ∈ Finset.range d, X i l * Y j l + s ^ 2 * ∑ l ∈ Finset.range d, Y j l ^ 2 := by
          rw [Finset.mul_sum, Finset.mul_sum, ← Finset.sum_sub_distrib, ← Finset.sum_add_distrib]
          exact Finset.sum_congr rfl fun l _ => by ring
        rw [this, hx, hy, he]
        linear_combination (-1) * hs
      intro l hl
      have := (Finset.sum_eq_zero_iff_of_nonneg fun l _ => sq_nonneg _).1 h0 l (Finset.mem_range.2 hl)
      have := pow_eq_zero_iff (two_ne_zero) |>.1 this
      linarith
    constructor
    · intro h
      have h2 : |∑ l ∈ Finset.range d, X i l * Y j l| = 1 := le_antisymm h1 h
      rcases (abs_eq (zero_le_one)).1 h2 with he | he
      · left
        intro l hl
        simpa using key 1 (by norm_num) he l hl
      · right
        intro l hl
        simpa using key (-1) (by norm_num) he l hl
    · rintro (h | h)
      · have : ∑ l ∈ Finset.range d, X i l * Y j l = 1 := by
          rw [← hx]
          refine Finset.sum_congr rfl fun l hl => ?_
          rw [← h l (Finset.mem_range.1 hl)]; ring
        rw [this, abs_one]
      · have : ∑ l ∈ Finset.range d, X i l * Y j l = -1 := by
          rw [← hx, ← Finset.sum_neg_distrib]
          refine Finset.sum_congr rfl fun l hl => ?_
          have := h l (Finset.mem_range.1 hl)
          rw [show Y j l = - X i l by linarith]; ring
        rw [this, abs_neg, abs_one]
  · rw [arccos_abs_eq_min hx hz, arccos_abs_eq_min hx hy, arccos_abs_eq_min hy hz]
    set x := euc d (X i)
    set y := euc d (Y j)
    set z := euc d (Z k)
    have t1 := InnerProductGeometry.angle_le_angle_add_angle x y z
    have t2 := InnerProductGeometry.angle_le_angle_add_angle x y (-z)
    have t3 := InnerProductGeometry.angle_le_angle_add_angle x (-y) z
    have t4 := InnerProductGeometry.angle_le_angle_add_angle x (-y) (-z)
    have e1 : InnerProductGeometry.angle (-y) z = InnerProductGeometry.angle y (-z) := by
      rw [← InnerProductGeometry.angle_neg_neg, neg_neg]
    rw [e1] at t3
    rw [InnerProductGeometry.angle_neg_neg] at t4
    rcases min_choice (InnerProductGeometry.angle x y) (InnerProductGeometry.angle x (-y)) with h | h <;>
    rcases min_choice (InnerProductGeometry.angle y z) (InnerProductGeometry.angle y (-z)) with h' | h' <;>
    rw [h, h']
    · exact (min_le_left _ _).trans t1
    · exact (min_le_right _ _).trans t2
    · exact (min_le_right _ _).trans t4
    · exact (min_le_left _ _).trans t3

/-- Unit vectors exist, and are not all projectively equal: two coordinate vectors are at the largest distance. -/
example : getCsmProjarc 2 1 (fun _ k => if k = 0 then 1 else 0) 1 (fun _ k => if k = 1 then 1 else 0) 0 0 = π / 2 := by
  rw [projarc_eq] <;> simp [Finset.sum_range_succ]

/-- C71: rows of any length (as after rounding): the entry is a number in `[0, π/2]`, symmetric, and it is zero as soon as
the product of the rows is at least 1 in absolute value. -/
theorem C71_clipping (d a b : ℕ) (X Y : ℕ → ℕ → ℝ) (i j : ℕ) :
    (0 ≤ getCsmProjarc d a X b Y i j ∧ getCsmProjarc d a X b Y i j ≤ π / 2) ∧
      getCsmProjarc d a X b Y i j = getCsmProjarc d b Y a X j i ∧
      (1 ≤ |∑ k ∈ Finset.range d, X i k * Y j k| → getCsmProjarc d a X b Y i j = 0) := by
  refine ⟨⟨arccos_nonneg _, ?_⟩, ?_, fun h => ?_⟩
  · unfold getCsmProjarc
    simp only []
    rw [arccos_le_pi_div_two]; exact abs_nonneg _
  · have e : ∑ k ∈ Finset.range d, X i k * Y j k = ∑ k ∈ Finset.range d, Y j k * X i k :=
      Finset.sum_congr rfl fun l _ => mul_comm _ _
    unfold getCsmProjarc
    simp only []
    rw [e]
  · unfold getCsmProjarc
    simp only []
    set c := |∑ k ∈ Finset.range d, X i k * Y j k| with hc
    rw [if_neg (by linarith : ¬ c < -1)]
    rcases h.lt_or_eq with h1 | h1
    · rw [if_pos h1, abs_one, arccos_one]
    · rw [if_neg (by linarith), ← h1, abs_one, arccos_one]

end

end Dreimac
