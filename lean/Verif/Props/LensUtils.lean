import Verif.Model.ProjUtils
import Mathlib.Analysis.SpecialFunctions.Complex.Arg
import Mathlib.Tactic.Linarith
import Mathlib.Tactic.FieldSimp
import Mathlib.Tactic.LinearCombination
import Mathlib.Tactic.Positivity

/-!
# Properties of `lens_3D_to_disk_3D` (C68)
-/

namespace Dreimac

open Real

noncomputable section

theorem npMod_nonneg {m : ℝ} (hm : 0 < m) (x : ℝ) : 0 ≤ npMod x m := by
  unfold npMod
  have h := Int.floor_le (x / m)
  have := mul_le_mul_of_nonneg_left h hm.le
  rw [mul_div_cancel₀ _ hm.ne'] at this
  linarith

theorem npMod_lt {m : ℝ} (hm : 0 < m) (x : ℝ) : npMod x m < m := by
  unfold npMod
  have h := Int.lt_floor_add_one (x / m)
  have := mul_lt_mul_of_pos_left h hm
  rw [mul_div_cancel₀ _ hm.ne'] at this
  linarith

/-- The complex exponential of an angle. -/
def cis (t : ℝ) : ℂ := Complex.exp (t * Complex.I)

theorem cis_add (s t : ℝ) : cis (s + t) = cis s * cis t := by
  unfold cis
  rw [← Complex.exp_add]
  congr 1
  push_cast
  ring

theorem cis_ne_zero (t : ℝ) : cis t ≠ 0 := Complex.exp_ne_zero _

theorem cis_norm (t : ℝ) : ‖cis t‖ = 1 := Complex.norm_exp_ofReal_mul_I t

theorem cis_eq_cis {s t : ℝ} : cis s = cis t ↔ ∃ n : ℤ, s = t + n * (2 * π) := by
  unfold cis
  rw [Complex.exp_eq_exp_iff_exists_int]
  constructor
  · rintro ⟨n, hn⟩
    refine ⟨n, ?_⟩
    have h2 : ((s : ℂ)) * Complex.I = ((t + n * (2 * π) : ℝ) : ℂ) * Complex.I := by rw [hn]; push_cast; ring
    exact_mod_cast mul_right_cancel₀ Complex.I_ne_zero h2
  · rintro ⟨n, hn⟩
    exact ⟨n, by rw [hn]; push_cast; ring⟩

theorem cis_npMod (t : ℝ) : cis (npMod t (2 * π)) = cis t := by
  rw [cis_eq_cis]
  exact ⟨-⌊t / (2 * π)⌋, by unfold npMod; push_cast; ring⟩

theorem polar (z : ℂ) : z = ‖z‖ * cis (Complex.arg z) := (Complex.norm_mul_exp_arg_mul_I z).symm

/-- The data computed for a point. -/
def lensTheta (q : ℕ) (p : ℂ × ℂ) : ℝ := npMod (npMod (Complex.arg p.1) (2 * π)) (2 * π / q)

/-- The sector of a point. -/
def lensK (q : ℕ) (p : ℂ × ℂ) : ℤ := ⌊npMod (Complex.arg p.1) (2 * π) / (2 * π / q)⌋

/-- The angle of the image of a point. -/
def lensPhi (q : ℕ) (p : ℂ × ℂ) : ℝ := npMod (Complex.arg p.2) (2 * π) - 2 * lensK q p * π / q

theorem pointLens_eq {q : ℕ} (hq : 0 < q) (p : ℂ × ℂ) :
    pointLensToSphere q p = ((‖p.2‖ * cis (lensPhi q p)).re, (‖p.2‖ * cis (lensPhi q p)).im,
      (q / π) * (lensTheta q p - π / q) * √(1 - ‖p.2‖ ^ 2)) := by
  have hqr : (0 : ℝ) < q := by exact_mod_cast hq
  have hh : 0 < 2 * π / q := by positivity
  have hk : ⌊(npMod (Complex.arg p.1) (2 * π) - lensTheta q p) / (2 * π / q)⌋ = lensK q p := by
    unfold lensTheta lensK
    have : npMod (Complex.arg p.1) (2 * π) - npMod (npMod (Complex.arg p.1) (2 * π)) (2 * π / q)
        = (2 * π / q) * ⌊npMod (Complex.arg p.1) (2 * π) / (2 * π / q)⌋ := by
      rw [npMod.eq_1 (npMod (Complex.arg p.1) (2 * π))]; ring
    rw [this, mul_div_cancel_left₀ _ hh.ne', Int.floor_intCast]
  unfold pointLensToSphere
  simp only
  rw [show npMod (npMod (Complex.arg p.1) (2 * π)) (2 * π / q) = lensTheta q p from rfl, hk]
  rw [show npMod (Complex.arg p.2) (2 * π) - 2 * (lensK q p : ℝ) * π / q = lensPhi q p from rfl]
  refine Prod.ext ?_ (Prod.ext ?_ rfl)
  · show _ = (↑‖p.2‖ * cis (lensPhi q p)).re
    rw [Complex.re_ofReal_mul, cis, Complex.exp_ofReal_mul_I_re]
  · show _ = (↑‖p.2‖ * cis (lensPhi q p)).im
    rw [Complex.im_ofReal_mul, cis, Complex.exp_ofReal_mul_I_im]

/-- The normal form of a point. -/
theorem lens_normal {q : ℕ} (hq : 0 < q) (p : ℂ × ℂ) :
    p.1 = cis (lensK q p * (2 * π / q)) * (‖p.1‖ * cis (lensTheta q p)) ∧
      p.2 = cis (lensK q p * (2 * π / q)) * (‖p.2‖ * cis (lensPhi q p)) := by
  constructor
  · conv_lhs => rw [polar p.1, ← cis_npMod]
    have : npMod (Complex.arg p.1) (2 * π) = lensK q p * (2 * π / q) + lensTheta q p := by
      unfold lensTheta lensK
      rw [npMod.eq_1 (npMod (Complex.arg p.1) (2 * π))]; ring
    rw [this, cis_add]; ring
  · conv_lhs => rw [polar p.2, ← cis_npMod]
    have : npMod (Complex.arg p.2) (2 * π) = lensK q p * (2 * π / q) + lensPhi q p := by
      unfold lensPhi; ring
    rw [this, cis_add]; ring

theorem theta_bounds {q : ℕ} (hq : 0 < q) (p : ℂ × ℂ) : 0 ≤ lensTheta q p ∧ lensTheta q p < 2 * π / q := by
  have hqr : (0 : ℝ) < q := by exact_mod_cast hq
  have hh : 0 < 2 * π / q := by positivity
  exact ⟨npMod_nonneg hh _, npMod_lt hh _⟩

/-- C68: unit vectors of `ℂ²` go into the closed unit ball. -/
theorem C68_in_ball (q : ℕ) (hq : 0 < q) (n : ℕ) (X : ℕ → ℂ × ℂ) (hX : ∀ i < n, ‖(X i).1‖ ^ 2 + ‖(X i).2‖ ^ 2 = 1) :
    (lens3DToDisk3D q n X).length = n ∧
      ∀ v ∈ lens3DToDisk3D q n X, v.1 ^ 2 + v.2.1 ^ 2 + v.2.2 ^ 2 ≤ 1 := by
  refine ⟨by unfold lens3DToDisk3D; simp, ?_⟩
  intro v hv
  unfold lens3DToDisk3D at hv
  obtain ⟨i, hi, rfl⟩ := List.mem_map.1 hv
  have hp := hX i (List.mem_range.1 hi)
  have hqr : (0 : ℝ) < q := by exact_mod_cast hq
  rw [pointLens_eq hq]
  simp only
  have h1 : (↑‖(X i).2‖ * cis (lensPhi q (X i))).re ^ 2 + (↑‖(X i).2‖ * cis (lensPhi q (X i))).im ^ 2 = ‖(X i).2‖ ^ 2 := by
    have := Complex.normSq_apply (↑‖(X i).2‖ * cis (lensPhi q (X i)))
    rw [Complex.normSq_eq_norm_sq, norm_mul, cis_norm, Complex.norm_real, norm_norm, mul_one] at this
    rw [this]; ring
  rw [h1, mul_pow, Real.sq_sqrt (by nlinarith [sq_nonneg ‖(X i).1‖])]
  obtain ⟨t0, t1⟩ := theta_bounds hq (X i)
  have hs : ((q : ℝ) / π * (lensTheta q (X i) - π / q)) ^ 2 ≤ 1 := by
    have e : (q : ℝ) / π * (lensTheta q (X i) - π / q) = lensTheta q (X i) * q / π - 1 := by
      field_simp
    have a1 : 0 ≤ lensTheta q (X i) * q / π := by positivity
    have a2 : lensTheta q (X i) * q / π ≤ 2 := by
      rw [div_le_iff₀ pi_pos]
      rw [lt_div_iff₀ hqr] at t1
      exact t1.le
    rw [e]
    nlinarith
  have : 0 ≤ 1 - ‖(X i).2‖ ^ 2 := by nlinarith [sq_nonneg ‖(X i).1‖]
  nlinarith

/-- C68 (partial: points with non-zero first coordinate): two unit vectors have the same image exactly when one is obtained
from the other by multiplying both coordinates by a `q`-th root of unity, i.e. when they represent the same point of the
lens space.  Missing: points with first coordinate zero, for which it is false (`C68_not_invariant`). -/
theorem C68_lens_iff_partial (q : ℕ) (hq : 0 < q) (p p' : ℂ × ℂ) (hp : ‖p.1‖ ^ 2 + ‖p.2‖ ^ 2 = 1)
    (hp' : ‖p'.1‖ ^ 2 + ‖p'.2‖ ^ 2 = 1) (h0 : p.1 ≠ 0) :
    pointLensToSphere q p = pointLensToSphere q p' ↔ ∃ z : ℂ, z ^ q = 1 ∧ p'.1 = z * p.1 ∧ p'.2 = z * p.2 := by
  have hqr : (0 : ℝ) < q := by exact_mod_cast hq
  have hh : 0 < 2 * π / q := by positivity
  have hqh : (q : ℝ) * (2 * π / q) = 2 * π := by field_simp
  have root : ∀ m : ℤ, cis (m * (2 * π / q)) ^ q = 1 := by
    intro m
    unfold cis
    rw [← Complex.exp_nat_mul, Complex.exp_eq_one_iff]
    refine ⟨m, ?_⟩
    have hqc : (q : ℂ) ≠ 0 := by exact_mod_cast hq.ne'
    push_cast
    field_simp
  obtain ⟨n1, n2⟩ := lens_normal hq p
  obtain ⟨n1', n2'⟩ := lens_normal hq p'
  obtain ⟨t0, t1⟩ := theta_bounds hq p
  obtain ⟨t0', t1'⟩ := theta_bounds hq p'
  rw [pointLens_eq hq, pointLens_eq hq]
  constructor
  · intro h
    rw [Prod.mk.injEq, Prod.mk.injEq] at h
    obtain ⟨h1, h2, h3⟩ := h
    have hw : (‖p.2‖ : ℂ) * cis (lensPhi q p) = ‖p'.2‖ * cis (lensPhi q p') := Complex.ext h1 h2
    have hr : ‖p.2‖ = ‖p'.2‖ := by
      have := congrArg norm hw
      rwa [norm_mul, norm_mul, cis_norm, cis_norm, Complex.norm_real, Complex.norm_real, norm_norm, norm_norm, mul_one,
        mul_one] at this
    have hrho : ‖p.1‖ = ‖p'.1‖ := by
      have : ‖p.1‖ ^ 2 = ‖p'.1‖ ^ 2 := by rw [hr] at hp; linarith
      exact (pow_left_inj₀ (norm_nonneg _) (norm_nonneg _) two_ne_zero).1 this
    have hpos : 0 < √(1 - ‖p.2‖ ^ 2) := by
      rw [show 1 - ‖p.2‖ ^ 2 = ‖p.1‖ ^ 2 by linarith]
      rw [Real.sqrt_sq (norm_nonneg _)]
      exact norm_pos_iff.2 h0
    rw [← hr] at h3
    have h4 := mul_right_cancel₀ hpos.ne' h3
    have h5 : lensTheta q p = lensTheta q p' := by
      have hq0 : (q : ℝ) / π ≠ 0 := (by positivity : (0 : ℝ) < q / π).ne'
      have := mul_left_cancel₀ hq0 h4
      linarith
    refine ⟨cis (((lensK q p' - lensK q p : ℤ) : ℝ) * (2 * π / q)), root _, ?_, ?_⟩
    · conv_lhs => rw [n1', ← hrho, ← h5]
      conv_rhs => rw [n1]
      have : cis (lensK q p' * (2 * π / q))
          = cis (((lensK q p' - lensK q p : ℤ) : ℝ) * (2 * π / q)) * cis (lensK q p * (2 * π / q)) := by
        rw [← cis_add]; congr 1; push_cast; ring
      rw [this]
      ring
    · conv_lhs => rw [n2', ← hw]
      conv_rhs => rw [n2]
      have : cis (lensK q p' * (2 * π / q))
          = cis (((lensK q p' - lensK q p : ℤ) : ℝ) * (2 * π / q)) * cis (lensK q p * (2 * π / q)) := by
        rw [← cis_add]; congr 1; push_cast; ring
      rw [this]
      ring
  · rintro ⟨z, hz, e1, e2⟩
    have hzn : ‖z‖ = 1 := by
      have := congrArg norm hz
      rw [norm_pow, norm_one] at this
      exact (pow_eq_one_iff_of_nonneg (norm_nonneg _) hq.ne').1 this
    have hr : ‖p'.2‖ = ‖p.2‖ := by rw [e2, norm_mul, hzn, one_mul]
    have hrho : ‖p'.1‖ = ‖p.1‖ := by rw [e1, norm_mul, hzn, one_mul]
    -- the root of unity as an angle
    obtain ⟨m, hm⟩ : ∃ m : ℤ, z = cis (m * (2 * π / q)) := by
      have hza : z = cis (Complex.arg z) := by
        conv_lhs => rw [polar z, hzn]
        simp
      have : cis (q * Complex.arg z) = cis 0 := by
        have h2 : cis (q * Complex.arg z) = z ^ q := by
          conv_rhs => rw [hza]
          unfold cis
          rw [← Complex.exp_nat_mul]
          congr 1
          push_cast
          ring
        rw [h2, hz]
        simp [cis]
      obtain ⟨m, hm⟩ := cis_eq_cis.1 this
      refine ⟨m, ?_⟩
      rw [hza]
      congr 1
      field_simp
      linarith
    have hn1 : (‖p.1‖ : ℂ) ≠ 0 := by exact_mod_cast norm_ne_zero_iff.2 h0
    have key : cis (lensK q p' * (2 * π / q) + lensTheta q p') = cis ((m + lensK q p) * (2 * π / q) + lensTheta q p) := by
      have e : cis (lensK q p' * (2 * π / q)) * (‖p'.1‖ * cis (lensTheta q p'))
          = cis (m * (2 * π / q)) * (cis (lensK q p * (2 * π / q)) * (‖p.1‖ * cis (lensTheta q p))) := by
        rw [← n1', ← n1, ← hm, e1]
      rw [hrho] at e
      apply mul_left_cancel₀ hn1
      rw [cis_add, cis_add, add_mul, cis_add]
      linear_combination e
    obtain ⟨n, hn⟩ := cis_eq_cis.1 key
    have hdiff : lensTheta q p' - lensTheta q p = ((m + lensK q p - lensK q p' + n * q : ℤ) : ℝ) * (2 * π / q) := by
      push_cast
      have : (n : ℝ) * (2 * π) = n * q * (2 * π / q) := by rw [mul_assoc, hqh]
      rw [this] at hn
      linarith
    have hzero : m + lensK q p - lensK q p' + n * q = 0 := by
      set j : ℤ := m + lensK q p - lensK q p' + n * q
      have b1 : ((j : ℤ) : ℝ) * (2 * π / q) < 1 * (2 * π / q) := by rw [← hdiff]; linarith
      have b2 : (-1 : ℝ) * (2 * π / q) < ((j : ℤ) : ℝ) * (2 * π / q) := by rw [← hdiff]; linarith
      have c1 := lt_of_mul_lt_mul_right b1 hh.le
      have c2 := lt_of_mul_lt_mul_right b2 hh.le
      have d1 : j < 1 := by exact_mod_cast c1
      have d2 : -1 < j := by exact_mod_cast c2
      omega
    have hth : lensTheta q p' = lensTheta q p := by
      rw [hzero] at hdiff
      simp at hdiff
      linarith
    have hk : cis (lensK q p' * (2 * π / q)) = cis (m * (2 * π / q)) * cis (lensK q p * (2 * π / q)) := by
      rw [← cis_add, cis_eq_cis]
      refine ⟨n, ?_⟩
      have : (lensK q p' : ℝ) = m + lensK q p + n * q := by
        have : lensK q p' = m + lensK q p + n * q := by omega
        rw [this]; push_cast; ring
      rw [this]
      linear_combination (n : ℝ) * hqh
    have hw : (‖p'.2‖ : ℂ) * cis (lensPhi q p') = ‖p.2‖ * cis (lensPhi q p) := by
      have e : cis (lensK q p' * (2 * π / q)) * (‖p'.2‖ * cis (lensPhi q p'))
          = cis (m * (2 * π / q)) * (cis (lensK q p * (2 * π / q)) * (‖p.2‖ * cis (lensPhi q p))) := by
        rw [← n2', ← n2, ← hm, e2]
      rw [hk] at e
      apply mul_left_cancel₀ (mul_ne_zero (cis_ne_zero (m * (2 * π / q))) (cis_ne_zero (lensK q p * (2 * π / q))))
      linear_combination e
    rw [hw, hth, hr]

/-- C68 is false for points with first coordinate zero: the image of `(0, w)` is `w` itself, so it changes under every
non-trivial root of unity. -/
theorem C68_not_invariant (q : ℕ) (hq : 0 < q) (w : ℂ) (hw : ‖w‖ = 1) :
    pointLensToSphere q (0, w) = (w.re, w.im, 0) ∧
      ∀ z : ℂ, z ^ q = 1 → z ≠ 1 → pointLensToSphere q (z * 0, z * w) ≠ pointLensToSphere q (0, w) := by
  have aux : ∀ w : ℂ, ‖w‖ = 1 → pointLensToSphere q (0, w) = (w.re, w.im, 0) := by
    intro w hw
    rw [pointLens_eq hq]
    have hk : lensK q ((0 : ℂ), w) = 0 := by unfold lensK; simp [npMod]
    have h2 := (lens_normal hq ((0 : ℂ), w)).2
    rw [hk] at h2
    simp only at h2
    have e : cis (((0 : ℤ) : ℝ) * (2 * π / q)) = 1 := by simp [cis]
    rw [e, one_mul] at h2
    simp only
    rw [← h2, hw]
    simp
  refine ⟨aux w hw, fun z hz hne h => ?_⟩
  have hzn : ‖z‖ = 1 := by
    have := congrArg norm hz
    rw [norm_pow, norm_one] at this
    exact (pow_eq_one_iff_of_nonneg (norm_nonneg _) hq.ne').1 this
  rw [mul_zero, aux w hw, aux (z * w) (by rw [norm_mul, hzn, hw, one_mul]), Prod.mk.injEq, Prod.mk.injEq] at h
  have : z * w = w := Complex.ext h.1 h.2.1
  have hw0 : w ≠ 0 := by
    intro h0
    rw [h0, norm_zero] at hw
    exact zero_ne_one hw
  exact hne (mul_right_cancel₀ hw0 (by rw [this, one_mul]))

/-- The hypotheses of C68 are met: a unit vector with non-zero first coordinate, and a non-trivial root of unity. -/
example : ‖((3 / 5 : ℝ) : ℂ)‖ ^ 2 + ‖(((4 / 5 : ℝ)) : ℂ) * Complex.I‖ ^ 2 = 1 ∧ ((3 / 5 : ℝ) : ℂ) ≠ 0 ∧
    (-1 : ℂ) ^ 2 = 1 ∧ (-1 : ℂ) ≠ 1 := by
  refine ⟨?_, by norm_num, by norm_num, by norm_num⟩
  rw [norm_mul, Complex.norm_real, Complex.norm_real, Complex.norm_I]
  norm_num

end

end Dreimac
