import Mathlib.Algebra.BigOperators.Field
import Verif.Spec.Winding
import Verif.Lemmas.Glued

/-! # Winding numbers of sequences of angles (no reference to the model) -/

namespace Dreimac

open Real

theorem sameAngle_iff_coe (x y : ℝ) : SameAngle x y ↔ (x : Real.Angle) = y := by
  rw [Real.Angle.angle_eq_iff_two_pi_dvd_sub]
  unfold SameAngle
  constructor <;> rintro ⟨k, hk⟩ <;> exact ⟨k, by rw [hk]; ring⟩

/-- A small difference of lifts is the step between the angles. -/
theorem angleStep_of_lift {x y u v : ℝ} (hx : SameAngle x u) (hy : SameAngle y v) (h : |v - u| < π) :
    angleStep x y = v - u := by
  unfold angleStep
  rw [sameAngle_iff_coe] at hx hy
  rw [Real.Angle.coe_sub, hx, hy, ← Real.Angle.coe_sub]
  rw [abs_lt] at h
  exact Real.Angle.toReal_coe_eq_self_iff.2 ⟨h.1, h.2.le⟩

/-- Steps depend only on the difference of the angles modulo `2π`. -/
theorem angleStep_congr {x y u v : ℝ} (h : SameAngle (y - x) (v - u)) : angleStep x y = angleStep u v := by
  unfold angleStep
  rw [(sameAngle_iff_coe _ _).1 h]

theorem sameAngle_angleStep (x y : ℝ) : SameAngle (angleStep x y) (y - x) := by
  rw [sameAngle_iff_coe]
  exact Real.Angle.coe_toReal _

theorem abs_angleStep_le (x y : ℝ) : |angleStep x y| ≤ π := Real.Angle.abs_toReal_le_pi _

variable {L : ℕ} {dist dll : ℕ → ℕ → ℝ} {r : ℝ} {w : ℕ → ℕ → ℝ} {c : ℕ → ℤ} {f : ℕ → ℝ} {θ : ℕ → Fl ℝ}

/-- Within one ball the lift changes by the harmonic form times the change of the weights. -/
theorem gluedLift_diff_le (ht : LandmarkTriangle L dist dll) (hw : IsPartitionOfUnity L dist r w) {M : ℝ}
    (hM : ∀ l s, |ripsForm L dll r c f l s| ≤ M) {l i i' : ℕ} (hl : InBall L dist r l i) (hl' : InBall L dist r l i') :
    |gluedLift L w c f l i' - gluedLift L w c f l i| ≤ M * ∑ s ∈ Finset.range L, |w s i' - w s i| := by
  rw [← coordFormula_eq_gluedLift (dll := dll) ht hw hl, ← coordFormula_eq_gluedLift (dll := dll) ht hw hl']
  have e : coordFormula L dll r w c f l i' - coordFormula L dll r w c f l i =
      ∑ s ∈ Finset.range L, ripsForm L dll r c f l s * (w s i' - w s i) := by
    unfold coordFormula
    simp only [mul_sub, Finset.sum_sub_distrib]; ring
  rw [e, Finset.mul_sum]
  refine (Finset.abs_sum_le_sum_abs _ _).trans (Finset.sum_le_sum fun s _ => ?_)
  rw [abs_mul]
  exact mul_le_mul_of_nonneg_right (hM l s) (abs_nonneg _)

/-- The turns made by a circle coordinate along a path of data points, each step inside one ball and small. -/
theorem IsCircleCoordinate.turns_path (h : IsCircleCoordinate L dist dll r w c f θ) (ht : LandmarkTriangle L dist dll)
    (hw : IsPartitionOfUnity L dist r w) (hc : IsCocycle1 L dll (2 * r) c) {M : ℝ}
    (hM : ∀ l s, |ripsForm L dll r c f l s| ≤ M) {n : ℕ} {i l : ℕ → ℕ} (hb : ∀ q < n, InBall L dist r (l q) (i q) ∧
      InBall L dist r (l q) (i (q + 1)))
    (hstep : ∀ q < n, M * ∑ s ∈ Finset.range L, |w s (i (q + 1)) - w s (i q)| < 1 / 2)
    {y : ℕ → ℝ} (hy : ∀ q ≤ n, θ (i q) = .fin (y q)) (hlast : InBall L dist r (l n) (i n)) :
    turns n y = gluedLift L w c f (l n) (i n) - gluedLift L w c f (l 0) (i 0) +
      ((∑ q ∈ Finset.range n, edgeVal c (l q) (l (q + 1)) : ℤ) : ℝ) := by
  have hpi := Real.pi_pos
  have hang : ∀ q ≤ n, ∀ m, InBall L dist r m (i q) → SameAngle (y q) (2 * π * gluedLift L w c f m (i q)) := by
    intro q hq m hm
    obtain ⟨z, hz, -, -, hs⟩ := h.every_ball ht hw hc hm
    rw [hy q hq] at hz
    injection hz with hz
    rw [hz]; exact hs
  have hin : ∀ q ≤ n, InBall L dist r (l q) (i q) := by
    intro q hq
    rcases hq.lt_or_eq with hq | rfl
    · exact (hb q hq).1
    · exact hlast
  have hone : ∀ q < n, angleStep (y q) (y (q + 1)) =
      2 * π * ((gluedLift L w c f (l (q + 1)) (i (q + 1)) - gluedLift L w c f (l q) (i q)) +
        (edgeVal c (l q) (l (q + 1)) : ℤ)) := by
    intro q hq
    have h1 := hang q hq.le _ (hb q hq).1
    have h2 := hang (q + 1) hq _ (hb q hq).2
    rw [angleStep_of_lift h1 h2, ← gluedLift_sub ht hw hc (hb q hq).2 (hin (q + 1) hq)]
    · ring
    · have h3 := gluedLift_diff_le (dll := dll) (f := f) ht hw hM (hb q hq).1 (hb q hq).2
      rw [← mul_sub, abs_mul, abs_of_pos two_pi_pos']
      have h4 := h3.trans_lt (hstep q hq)
      nlinarith
  unfold turns
  rw [Finset.sum_congr rfl fun q hq => hone q (Finset.mem_range.1 hq), ← Finset.mul_sum, mul_div_cancel_left₀ _ two_pi_pos'.ne',
    Finset.sum_add_distrib, Finset.sum_range_sub (fun q => gluedLift L w c f (l q) (i q))]
  push_cast; ring

/-- A closed path. -/
theorem IsCircleCoordinate.turns_loop (h : IsCircleCoordinate L dist dll r w c f θ) (ht : LandmarkTriangle L dist dll)
    (hw : IsPartitionOfUnity L dist r w) (hc : IsCocycle1 L dll (2 * r) c) {M : ℝ}
    (hM : ∀ l s, |ripsForm L dll r c f l s| ≤ M) {n : ℕ} {i l : ℕ → ℕ} (hi : i n = i 0) (hl : l n = l 0)
    (hb : ∀ q < n, InBall L dist r (l q) (i q) ∧ InBall L dist r (l q) (i (q + 1)))
    (hstep : ∀ q < n, M * ∑ s ∈ Finset.range L, |w s (i (q + 1)) - w s (i q)| < 1 / 2)
    {y : ℕ → ℝ} (hy : ∀ q ≤ n, θ (i q) = .fin (y q)) :
    turns n y = ((∑ q ∈ Finset.range n, edgeVal c (l q) (l (q + 1)) : ℤ) : ℝ) := by
  rcases Nat.eq_zero_or_pos n with rfl | hn
  · simp [turns]
  · rw [h.turns_path ht hw hc hM hb hstep hy (by rw [hi, hl]; exact (hb 0 hn).1), hi, hl]
    ring

end Dreimac
