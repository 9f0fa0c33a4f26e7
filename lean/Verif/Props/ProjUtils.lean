import Verif.Lemmas.ProjUtils
import Mathlib.Analysis.SpecialFunctions.Complex.Arg
import Mathlib.Tactic.Positivity
import Mathlib.Algebra.BigOperators.Field

/-!
# Properties of the projective and lens utilities (C64 - C69)
-/

namespace Dreimac

open Real Matrix

noncomputable section

/-! ### Rotation matrices (C65) -/

/-- C65 (partial): for non-zero vectors `rotmat` is a rotation matrix that takes the direction of `a` to the direction of
`b` (the last coordinate vector if `b` is omitted), unless the directions are within `1e-15` of being parallel or opposite;
it also does if the directions are equal.  Missing: nearly opposite directions, for which it is false
(`C65_opposite_wrong`), and nearly parallel ones, for which it holds up to `2e-15` (`C65_nearly_parallel`). -/
theorem C65_rotmat_partial (d : ℕ) (hd : 0 < d) (a : ℕ → ℝ) (b : Option (ℕ → ℝ)) (ha : NonzeroVec d a)
    (hb : NonzeroVec d (b.getD (lastVec d))) :
    IsRotationMat d (rotmat d a b) ∧
      ((1 / 10 ^ 15 ≤ distToLine d (direction d a) (direction d (b.getD (lastVec d))) ∨
          EqVec d (direction d a) (direction d (b.getD (lastVec d)))) →
        EqVec d (mulV d (rotmat d a b) (direction d a)) (direction d (b.getD (lastVec d)))) := by
  have hi := rotmat_iso hd ha hb
  refine ⟨⟨?_, hi.det⟩, ?_⟩
  · ext i j
    rw [Matrix.mul_apply, Matrix.one_apply]
    have := hi.orth i i.2 j j.2
    rw [dotP_fin] at this
    simp only [toMat, Matrix.transpose_apply, Matrix.of_apply, this, Fin.ext_iff]
  · intro h
    rcases rotmat_cases hd ha hb with ⟨h1, h2⟩ | ⟨h1, c, lam, beta, hc, h2, h3⟩
    · rcases h with h | h
      · exact absurd h1 (not_lt.mpr h)
      · rw [h2]
        intro k hk
        rw [idMat_apply _ hk]
        exact h k hk
    · rw [h2]
      intro k hk
      have e : direction d a = fun k => lam * direction d (rotTarget d b) k + beta * c k := funext h3
      have e2 : mulV d (coreRot (direction d (rotTarget d b)) c lam beta) (direction d a) k
          = lam * mulV d (coreRot (direction d (rotTarget d b)) c lam beta) (direction d (rotTarget d b)) k
            + beta * mulV d (coreRot (direction d (rotTarget d b)) c lam beta) c k := by
        rw [e]
        exact dotP_lin _ _ _ _ _ _
      rw [e2, coreRot_b hc hk, coreRot_c hc hk]
      show _ = direction d (rotTarget d b) k
      linear_combination (direction d (rotTarget d b) k) * hc.unit

/-- C65: if the angle between the vectors is not obtuse, the image of the direction of `a` is within `2e-15` of the
direction of `b`. -/
theorem C65_nearly_parallel (d : ℕ) (hd : 0 < d) (a b : ℕ → ℝ) (ha : NonzeroVec d a) (hb : NonzeroVec d b)
    (hab : 0 ≤ dotP d a b) (v : ℕ → ℝ)
    (hv : ∀ k, v k = mulV d (rotmat d a (some b)) (direction d a) k - direction d b k) :
    √(dotP d v v) ≤ 2 / 10 ^ 15 := by
  have hAu : dotP d (direction d a) (direction d a) = 1 := direction_unit ha
  have hBu : dotP d (direction d b) (direction d b) = 1 := direction_unit hb
  by_cases hlt : 1 / 10 ^ 15 ≤ distToLine d (direction d a) (direction d b)
  · have h := (C65_rotmat_partial d hd a (some b) ha hb).2 (Or.inl hlt)
    have h0 : dotP d v v = 0 := by
      refine Finset.sum_eq_zero fun k hk => ?_
      rw [hv k, h k (Finset.mem_range.1 hk)]
      simp
    rw [h0, Real.sqrt_zero]
    positivity
  · rcases rotmat_cases hd ha (b := some b) hb with ⟨h1, h2⟩ | ⟨h1, -⟩
    · set A := direction d a with hA
      set B := direction d b with hB
      have hlam : 0 ≤ dotP d A B := by
        have : dotP d A B = dotP d a b / (√(dotP d a a) * √(dotP d b b)) := by
          rw [hA, hB]
          unfold direction
          unfold dotP
          rw [Finset.sum_div]
          refine Finset.sum_congr rfl fun k _ => ?_
          rw [div_mul_div_comm]
        rw [this]
        positivity
      have hn2 : dotP d (fun k => A k - dotP d A B * B k) (fun k => A k - dotP d A B * B k) = 1 - dotP d A B ^ 2 := by
        have e : (fun k => A k - dotP d A B * B k) = fun k => 1 * A k + (-dotP d A B) * B k := by funext k; ring
        rw [e, dotP_comb, hAu, hBu]
        ring
      have hlt' : √(1 - dotP d A B ^ 2) < 1 / 10 ^ 15 := by
        have := not_le.mp hlt
        unfold distToLine at this
        rwa [hn2] at this
      have hvv : dotP d v v = 2 - 2 * dotP d A B := by
        have e : EqVec d v fun k => 1 * A k + (-1) * B k := by
          intro k hk
          rw [hv k, h2, idMat_apply _ hk]
          ring
        rw [dotP_congr e e, dotP_comb, hAu, hBu]
        ring
      have h1m : 0 ≤ 1 - dotP d A B := by
        have := dotP_self_nonneg d v
        rw [hvv] at this
        linarith
      have hle : dotP d v v ≤ (2 * √(1 - dotP d A B ^ 2)) ^ 2 := by
        rw [mul_pow, Real.sq_sqrt (by nlinarith), hvv]
        nlinarith
      calc √(dotP d v v) ≤ √((2 * √(1 - dotP d A B ^ 2)) ^ 2) := Real.sqrt_le_sqrt hle
        _ = 2 * √(1 - dotP d A B ^ 2) := Real.sqrt_sq (by positivity)
        _ ≤ 2 / 10 ^ 15 := by linarith
    · exact absurd h1 hlt

/-- C65 is false for opposite vectors: `rotmat(-b, b)` is the identity matrix, so the direction of `-b` is not taken to the
direction of `b`. -/
theorem C65_opposite_wrong (d : ℕ) (hd : 0 < d) (b : ℕ → ℝ) (hb : NonzeroVec d b) :
    (∀ i j, rotmat d (fun k => - b k) (some b) i j = if i = j then 1 else 0) ∧
      ¬ EqVec d (mulV d (rotmat d (fun k => - b k) (some b)) (direction d fun k => - b k)) (direction d b) := by
  have ha : NonzeroVec d fun k => - b k := by
    obtain ⟨k, hk, hne⟩ := hb
    exact ⟨k, hk, neg_ne_zero.2 hne⟩
  have hBu : dotP d (direction d b) (direction d b) = 1 := direction_unit hb
  have hdir : ∀ k, direction d (fun k => - b k) k = - direction d b k := by
    intro k
    unfold direction
    have : dotP d (fun k => - b k) (fun k => - b k) = dotP d b b := Finset.sum_congr rfl fun k _ => by ring
    rw [this, neg_div]
  have h0 : distToLine d (direction d fun k => - b k) (direction d b) = 0 := by
    unfold distToLine
    have e : direction d (fun k => - b k) = fun k => (-1) * direction d b k := by funext k; rw [hdir]; ring
    have e1 : dotP d (direction d fun k => - b k) (direction d b) = -1 := by
      rw [e, dotP_comm, dotP_smul, hBu]; ring
    rw [e1, Real.sqrt_eq_zero']
    apply le_of_eq
    refine Finset.sum_eq_zero fun k _ => ?_
    simp only [hdir]
    ring
  rcases rotmat_cases hd ha (b := some b) hb with ⟨-, h2⟩ | ⟨h1, -⟩
  · refine ⟨fun i j => by rw [h2]; rfl, fun h => ?_⟩
    obtain ⟨k, hk, hne⟩ := hb
    have := h k hk
    rw [h2, idMat_apply _ hk, hdir] at this
    have h3 : direction d b k = 0 := by linarith
    unfold direction at h3
    rcases div_eq_zero_iff.1 h3 with h4 | h4
    · exact hne h4
    · exact absurd h4 (Real.sqrt_pos.2 (NonzeroVec.pos ⟨k, hk, hne⟩)).ne'
  · exfalso
    have h1' : (1 : ℝ) / 10 ^ 15 ≤ distToLine d (direction d fun k => - b k) (direction d b) := h1
    rw [h0] at h1'
    norm_num at h1'

/-- The hypotheses of C65 are met: in the plane, the first coordinate vector is rotated to the second. -/
example : EqVec 2 (mulV 2 (rotmat 2 (fun k => if k = 0 then 1 else 0) none) (direction 2 fun k => if k = 0 then 1 else 0))
    (lastVec 2) := by
  have hd : direction 2 (fun k => if k = 0 then (1 : ℝ) else 0) = fun k => if k = 0 then 1 else 0 := by
    funext k
    simp [direction, dotP, Finset.sum_range_succ]
  have h := (C65_rotmat_partial 2 (by norm_num) (fun k => if k = 0 then 1 else 0) none ⟨0, by norm_num, by norm_num⟩
    (lastVec_nonzero (by norm_num))).2 ?_
  · rwa [Option.getD_none, direction_lastVec (by norm_num)] at h
  · left
    rw [Option.getD_none, direction_lastVec (by norm_num), hd]
    norm_num [distToLine, dotP, Finset.sum_range_succ, lastVec]

/-! ### Stereographic projections (C66, C67) -/

theorem rotmat_pole {d : ℕ} (hd : 0 < d) {u : ℕ → ℝ} (hu : NonzeroVec d u) :
    IsPole d u (rotmat d u none (d - 1)) := by
  have hb : NonzeroVec d (rotTarget d none) := lastVec_nonzero hd
  have hiso := rotmat_iso hd hu hb
  have hw : UnitVec d (rotmat d u none (d - 1)) := by
    have := hiso.orth (d - 1) (by omega) (d - 1) (by omega)
    rwa [if_pos rfl] at this
  have hT : direction d (rotTarget d none) = lastVec d := direction_lastVec hd
  refine ⟨hw, fun h => ?_, fun h => ?_⟩
  · have h1 := (C65_rotmat_partial d hd u none hu hb).2 (Or.inl (by
      rw [Option.getD_none, direction_lastVec hd]; exact h)) (d - 1) (by omega)
    rw [Option.getD_none, direction_lastVec hd] at h1
    refine eq_of_dot_one hw (direction_unit hu) ?_
    rw [show lastVec d (d - 1) = 1 by unfold lastVec; rw [if_pos (by omega)]] at h1
    exact h1
  · rcases rotmat_cases hd hu hb with ⟨-, h2⟩ | ⟨h1, -⟩
    · rw [h2]
      intro k hk
      unfold idMat lastVec
      exact if_congr (by omega) rfl rfl
    · rw [hT] at h1
      exact absurd h (not_lt.mpr h1)

/-- Sum of squares of all but the last coordinate. -/
theorem sq_split {d : ℕ} (hd : 0 < d) (y : ℕ → ℝ) :
    ∑ i ∈ Finset.range (d - 1), y i ^ 2 = dotP d y y - y (d - 1) ^ 2 := by
  obtain ⟨e, rfl⟩ := Nat.exists_eq_succ_of_ne_zero hd.ne'
  unfold dotP
  rw [Finset.sum_range_succ]
  simp only [Nat.succ_eq_add_one, Nat.add_sub_cancel]
  rw [show ∑ x ∈ Finset.range e, y x * y x = ∑ x ∈ Finset.range e, y x ^ 2 from
    Finset.sum_congr rfl fun k _ => by ring]
  ring

/-- The image of one point under the projective stereographic projection. -/
def stereoImage (d : ℕ) (R : ℕ → ℕ → ℝ) (x : ℕ → ℝ) : ℕ → ℝ := fun i =>
  (if mulV d R x (d - 1) < 0 then -1 else 1) * mulV d R x i / (1 + |mulV d R x (d - 1)|)

theorem getStereo_eq (eigh : (ℕ → ℕ → ℝ) → ℕ → ℕ → ℝ) (N d : ℕ) (pX : ℕ → ℕ → ℝ) (u : Option (ℕ → ℝ)) (n i : ℕ) :
    getStereoProjCodim1 eigh N d pX u n i
      = stereoImage d (rotmat d (u.getD fun i => eigh (fun i j => ∑ n ∈ Finset.range N, pX n i * pX n j) i 0) none)
        (pX n) i := by
  have aux : ∀ u' : ℕ → ℝ, (if npDot d (rotmat d u' none (d - 1)) (pX n) < 0
      then npDot d (rotmat d u' none i) (pX n) * -1 else npDot d (rotmat d u' none i) (pX n))
      / (1 + (if npDot d (rotmat d u' none (d - 1)) (pX n) < 0
      then npDot d (rotmat d u' none (d - 1)) (pX n) * -1 else npDot d (rotmat d u' none (d - 1)) (pX n)))
      = stereoImage d (rotmat d u' none) (pX n) i := by
    intro u'
    unfold stereoImage mulV
    change (if dotP d (rotmat d u' none (d - 1)) (pX n) < 0
      then dotP d (rotmat d u' none i) (pX n) * -1 else dotP d (rotmat d u' none i) (pX n))
      / (1 + (if dotP d (rotmat d u' none (d - 1)) (pX n) < 0
      then dotP d (rotmat d u' none (d - 1)) (pX n) * -1 else dotP d (rotmat d u' none (d - 1)) (pX n))) = _
    by_cases h : dotP d (rotmat d u' none (d - 1)) (pX n) < 0
    · simp only [if_pos h, abs_of_neg h]
      ring_nf
    · simp only [if_neg h, abs_of_nonneg (not_lt.mp h), one_mul]
  rw [← aux]
  cases u <;> · unfold getStereoProjCodim1; simp only [Option.getD]

theorem stereo_sum {d : ℕ} (hd : 0 < d) {R : ℕ → ℕ → ℝ} (hR : RotIso d R) {x : ℕ → ℝ} (hx : UnitVec d x) :
    ∑ i ∈ Finset.range (d - 1), stereoImage d R x i ^ 2
      = (1 - |mulV d R x (d - 1)|) / (1 + |mulV d R x (d - 1)|) := by
  have h1 : ∀ i, stereoImage d R x i ^ 2 = (1 / (1 + |mulV d R x (d - 1)|) ^ 2) * mulV d R x i ^ 2 := by
    intro i
    unfold stereoImage
    rw [div_pow, mul_pow]
    have : (if mulV d R x (d - 1) < 0 then (-1 : ℝ) else 1) ^ 2 = 1 := by split_ifs <;> norm_num
    rw [this]; ring
  rw [Finset.sum_congr rfl fun i _ => h1 i, ← Finset.mul_sum, sq_split hd, hR.iso,
    show dotP d x x = 1 from hx, ← sq_abs (mulV d R x (d - 1))]
  have : 0 < 1 + |mulV d R x (d - 1)| := by positivity
  field_simp
  ring

/-- C66: `get_stereo_proj_codim1` on unit vectors, for a non-zero north pole `u0` (given, or the eigenvector chosen):
with the pole `w`, images lie in the closed unit disk, and in the open one exactly off the equator of `w`; points with equal
images are equal or opposite; opposite points off the equator have the same image, and on the equator opposite images. -/
theorem C66_stereo (eigh : (ℕ → ℕ → ℝ) → ℕ → ℕ → ℝ) (N d : ℕ) (hd : 0 < d) (pX : ℕ → ℕ → ℝ) (u : Option (ℕ → ℝ))
    (u0 : ℕ → ℝ) (hu0 : u0 = u.getD fun i => eigh (fun i j => ∑ n ∈ Finset.range N, pX n i * pX n j) i 0)
    (hu : NonzeroVec d u0) :
    ∃ w, IsPole d u0 w ∧
      (∀ n, UnitVec d (pX n) → ∑ i ∈ Finset.range (d - 1), getStereoProjCodim1 eigh N d pX u n i ^ 2 ≤ 1 ∧
        (∑ i ∈ Finset.range (d - 1), getStereoProjCodim1 eigh N d pX u n i ^ 2 < 1 ↔ dotP d w (pX n) ≠ 0)) ∧
      (∀ n m, UnitVec d (pX n) → UnitVec d (pX m) →
        EqVec (d - 1) (getStereoProjCodim1 eigh N d pX u n) (getStereoProjCodim1 eigh N d pX u m) →
        EqVec d (pX n) (pX m) ∨ NegVec d (pX n) (pX m)) ∧
      (∀ n m, NegVec d (pX n) (pX m) →
        (dotP d w (pX n) ≠ 0 →
          EqVec (d - 1) (getStereoProjCodim1 eigh N d pX u n) (getStereoProjCodim1 eigh N d pX u m)) ∧
        (dotP d w (pX n) = 0 →
          NegVec (d - 1) (getStereoProjCodim1 eigh N d pX u n) (getStereoProjCodim1 eigh N d pX u m))) := by
  have hR : RotIso d (rotmat d u0 none) := rotmat_iso hd hu (lastVec_nonzero hd)
  refine ⟨rotmat d u0 none (d - 1), rotmat_pole hd hu, ?_, ?_, ?_⟩
  · intro n hn
    simp only [getStereo_eq, ← hu0]
    rw [stereo_sum hd hR hn]
    have h0 := abs_nonneg (mulV d (rotmat d u0 none) (pX n) (d - 1))
    have hp : 0 < 1 + |mulV d (rotmat d u0 none) (pX n) (d - 1)| := by positivity
    constructor
    · rw [div_le_one hp]; linarith
    · rw [div_lt_one hp]
      constructor
      · intro h he
        have : |mulV d (rotmat d u0 none) (pX n) (d - 1)| = 0 := by rw [abs_eq_zero]; exact he
        rw [this] at h
        linarith
      · intro hne
        have : 0 < |mulV d (rotmat d u0 none) (pX n) (d - 1)| := abs_pos.2 hne
        linarith
  · intro n m hn hm h
    have h' : ∀ i < d - 1, stereoImage d (rotmat d u0 none) (pX n) i = stereoImage d (rotmat d u0 none) (pX m) i := by
      intro i hi
      have := h i hi
      rwa [getStereo_eq, getStereo_eq, ← hu0] at this
    set R := rotmat d u0 none
    have hsum : ∑ i ∈ Finset.range (d - 1), stereoImage d R (pX n) i ^ 2
        = ∑ i ∈ Finset.range (d - 1), stereoImage d R (pX m) i ^ 2 :=
      Finset.sum_congr rfl fun i hi => by rw [h' i (Finset.mem_range.1 hi)]
    rw [stereo_sum hd hR hn, stereo_sum hd hR hm] at hsum
    have hpn : 0 < 1 + |mulV d R (pX n) (d - 1)| := by positivity
    have hpm : 0 < 1 + |mulV d R (pX m) (d - 1)| := by positivity
    rw [div_eq_div_iff hpn.ne' hpm.ne'] at hsum
    have hτ : |mulV d R (pX n) (d - 1)| = |mulV d R (pX m) (d - 1)| := by linarith
    set s : ℝ := if mulV d R (pX n) (d - 1) < 0 then -1 else 1 with hs
    set t : ℝ := if mulV d R (pX m) (d - 1) < 0 then -1 else 1 with ht
    have hsl : s * mulV d R (pX n) (d - 1) = |mulV d R (pX n) (d - 1)| := by
      rw [hs]
      split_ifs with hlt
      · rw [abs_of_neg hlt]; ring
      · rw [abs_of_nonneg (not_lt.mp hlt)]; ring
    have htl : t * mulV d R (pX m) (d - 1) = |mulV d R (pX m) (d - 1)| := by
      rw [ht]
      split_ifs with hlt
      · rw [abs_of_neg hlt]; ring
      · rw [abs_of_nonneg (not_lt.mp hlt)]; ring
    have hall : ∀ i < d, s * mulV d R (pX n) i = t * mulV d R (pX m) i := by
      intro i hi
      by_cases hil : i = d - 1
      · rw [hil, hsl, htl, hτ]
      · have := h' i (by omega)
        unfold stereoImage at this
        rw [← hs, ← ht, hτ, div_left_inj' hpm.ne'] at this
        exact this
    have hfin := hR.injective hall
    have hs2 : s = 1 ∨ s = -1 := by rw [hs]; split_ifs <;> simp
    have ht2 : t = 1 ∨ t = -1 := by rw [ht]; split_ifs <;> simp
    rcases hs2 with e | e <;> rcases ht2 with e' | e' <;> rw [e, e'] at hfin
    · left; intro k hk; have := hfin k hk; linarith
    · right; intro k hk; have := hfin k hk; linarith
    · right; intro k hk; have := hfin k hk; linarith
    · left; intro k hk; have := hfin k hk; linarith
  · intro n m hnm
    have hmul : ∀ i, mulV d (rotmat d u0 none) (pX m) i = - mulV d (rotmat d u0 none) (pX n) i := by
      intro i
      unfold mulV dotP
      rw [← Finset.sum_neg_distrib]
      refine Finset.sum_congr rfl fun k hk => ?_
      rw [hnm k (Finset.mem_range.1 hk)]; ring
    constructor
    · intro hne i hi
      rw [getStereo_eq, getStereo_eq, ← hu0]
      unfold stereoImage
      rw [hmul i, hmul (d - 1), abs_neg]
      congr 1
      have hne' : mulV d (rotmat d u0 none) (pX n) (d - 1) ≠ 0 := hne
      rcases lt_or_gt_of_ne hne' with hlt | hgt
      · rw [if_pos hlt, if_neg (by linarith)]; ring
      · rw [if_neg (by linarith), if_pos (by linarith)]; ring
    · intro he i hi
      rw [getStereo_eq, getStereo_eq, ← hu0]
      unfold stereoImage
      have he' : mulV d (rotmat d u0 none) (pX n) (d - 1) = 0 := he
      rw [hmul i, hmul (d - 1), he']
      simp

/-- The hypotheses of C66 are met: a unit vector and its opposite in space, with the default pole. -/
example : UnitVec 3 (fun k => if k = 0 then 3 / 5 else if k = 2 then 4 / 5 else 0) ∧ NonzeroVec 3 (lastVec 3) := by
  refine ⟨?_, lastVec_nonzero (by norm_num)⟩
  norm_num [UnitVec, dotP, Finset.sum_range_succ]

/-! ### Hemispheres (C67) -/

/-- `stereographic_projection_hemispheres`, by the sign of the last rotated coordinate. -/
theorem hemi_eq {d : ℕ} (center : Option (ℕ → ℝ)) (x : ℕ → ℝ) (R : ℕ → ℕ → ℝ)
    (hR : R = rotmat d (center.getD (northPole d)) none) (k : ℕ) (hk : k < d - 1) :
    stereographicProjectionHemispheres d center x k
      = mulV d R x k / (1 + |mulV d R x (d - 1)|)
        + (if mulV d R x (d - 1) < 0 then 0 else 5 / 2 * (if k = 0 then 1 else 0)) := by
  subst hR
  set R := rotmat d (center.getD (northPole d)) none
  unfold stereographicProjectionHemispheres
  change (if dotP d (R (d - 1)) x < 0 then stereoDown d (mulV d R x)
    else fun k => stereoDown d (fun i => if i = d - 1 then mulV d R x i * -1 else mulV d R x i) k
      + 2.5 * (if k = 0 then 1 else 0)) k = _
  by_cases h : dotP d (R (d - 1)) x < 0
  · have h' : mulV d R x (d - 1) < 0 := h
    rw [if_pos h, if_pos h', abs_of_neg h']
    unfold stereoDown
    rw [add_zero]
    ring_nf
  · have h' : ¬ mulV d R x (d - 1) < 0 := h
    rw [if_neg h, if_neg h', abs_of_nonneg (not_lt.mp h')]
    unfold stereoDown
    simp only [if_neg (show k ≠ d - 1 by omega), if_true]
    norm_num

/-- C67: `stereographic_projection_hemispheres` on unit vectors of dimension `d ≥ 2`, with the pole `w` of the centre: the
open lower hemisphere goes into the open unit disk at the origin, the closed upper hemisphere into the closed unit disk
centred at 2.5 on the first axis, these two disks are disjoint, and different points have different images. -/
theorem C67_hemispheres (d : ℕ) (hd : 2 ≤ d) (center : Option (ℕ → ℝ))
    (hc : NonzeroVec d (center.getD (lastVec d))) :
    ∃ w, IsPole d (center.getD (lastVec d)) w ∧
      (∀ x, UnitVec d x → dotP d w x < 0 →
        ∑ k ∈ Finset.range (d - 1), stereographicProjectionHemispheres d center x k ^ 2 < 1) ∧
      (∀ x, UnitVec d x → 0 ≤ dotP d w x →
        ∑ k ∈ Finset.range (d - 1),
          (stereographicProjectionHemispheres d center x k - if k = 0 then 5 / 2 else 0) ^ 2 ≤ 1) ∧
      (∀ v : ℕ → ℝ, ¬ (∑ k ∈ Finset.range (d - 1), v k ^ 2 < 1 ∧
        ∑ k ∈ Finset.range (d - 1), (v k - if k = 0 then 5 / 2 else 0) ^ 2 ≤ 1)) ∧
      (∀ x y, UnitVec d x → UnitVec d y →
        EqVec (d - 1) (stereographicProjectionHemispheres d center x) (stereographicProjectionHemispheres d center y) →
        EqVec d x y) := by
  have hd0 : 0 < d := by omega
  set u := center.getD (lastVec d) with hu
  have hR : RotIso d (rotmat d u none) := rotmat_iso hd0 hc (lastVec_nonzero hd0)
  have hRe : rotmat d u none = rotmat d (center.getD (northPole d)) none := by rw [northPole_eq hd0]
  have hH := fun x k (hk : k < d - 1) => hemi_eq center x (rotmat d u none) hRe k hk
  set R := rotmat d u none
  have hsum : ∀ x, UnitVec d x → ∑ k ∈ Finset.range (d - 1), (mulV d R x k / (1 + |mulV d R x (d - 1)|)) ^ 2
      = (1 - |mulV d R x (d - 1)|) / (1 + |mulV d R x (d - 1)|) := by
    intro x hx
    rw [← stereo_sum hd0 hR hx]
    refine Finset.sum_congr rfl fun k _ => ?_
    unfold stereoImage
    rw [div_pow, div_pow, mul_pow]
    have : (if mulV d R x (d - 1) < 0 then (-1 : ℝ) else 1) ^ 2 = 1 := by split_ifs <;> norm_num
    rw [this, one_mul]
  have hlow : ∀ x, UnitVec d x → mulV d R x (d - 1) < 0 →
        ∑ k ∈ Finset.range (d - 1), stereographicProjectionHemispheres d center x k ^ 2 < 1 := by
    intro x hx hlt
    rw [Finset.sum_congr rfl fun k hk => by rw [hH x k (Finset.mem_range.1 hk), if_pos hlt, add_zero], hsum x hx]
    rw [div_lt_one (by positivity)]
    have : 0 < |mulV d R x (d - 1)| := abs_pos.2 hlt.ne
    linarith
  have hup : ∀ x, UnitVec d x → 0 ≤ mulV d R x (d - 1) → ∑ k ∈ Finset.range (d - 1),
      (stereographicProjectionHemispheres d center x k - if k = 0 then 5 / 2 else 0) ^ 2 ≤ 1 := by
    intro x hx hge
    have e : ∀ k ∈ Finset.range (d - 1),
        (stereographicProjectionHemispheres d center x k - if k = 0 then 5 / 2 else 0) ^ 2
          = (mulV d R x k / (1 + |mulV d R x (d - 1)|)) ^ 2 := by
      intro k hk
      rw [hH x k (Finset.mem_range.1 hk), if_neg (not_lt.mpr hge)]
      congr 1
      by_cases h0 : k = 0 <;> simp [h0]
    rw [Finset.sum_congr rfl e, hsum x hx, div_le_one (by positivity)]
    have := abs_nonneg (mulV d R x (d - 1))
    linarith
  have hdisj : ∀ v : ℕ → ℝ, ¬ (∑ k ∈ Finset.range (d - 1), v k ^ 2 < 1 ∧
        ∑ k ∈ Finset.range (d - 1), (v k - if k = 0 then 5 / 2 else 0) ^ 2 ≤ 1) := by
    rintro v ⟨h1, h2⟩
    have m0 : (0 : ℕ) ∈ Finset.range (d - 1) := Finset.mem_range.2 (by omega)
    have a1 : v 0 ^ 2 ≤ ∑ k ∈ Finset.range (d - 1), v k ^ 2 :=
      Finset.single_le_sum (f := fun k => v k ^ 2) (fun k _ => sq_nonneg _) m0
    have a2 : (v 0 - 5 / 2) ^ 2 ≤ ∑ k ∈ Finset.range (d - 1), (v k - if k = 0 then 5 / 2 else 0) ^ 2 := by
      have := Finset.single_le_sum (f := fun k => (v k - if k = 0 then 5 / 2 else 0) ^ 2) (fun k _ => sq_nonneg _) m0
      simpa using this
    nlinarith
  refine ⟨R (d - 1), rotmat_pole hd0 hc, fun x hx h => hlow x hx h, fun x hx h => hup x hx h, hdisj, ?_⟩
  intro x y hx hy h
  have hsame : mulV d R x (d - 1) < 0 ↔ mulV d R y (d - 1) < 0 := by
    by_contra hne
    rcases lt_or_ge (mulV d R x (d - 1)) 0 with hx0 | hx0
    · rcases lt_or_ge (mulV d R y (d - 1)) 0 with hy0 | hy0
      · exact hne ⟨fun _ => hy0, fun _ => hx0⟩
      · refine hdisj _ ⟨hlow x hx hx0, ?_⟩
        refine le_of_eq_of_le (Finset.sum_congr rfl fun k hk => ?_) (hup y hy hy0)
        rw [h k (Finset.mem_range.1 hk)]
    · rcases lt_or_ge (mulV d R y (d - 1)) 0 with hy0 | hy0
      · refine hdisj _ ⟨hlow y hy hy0, ?_⟩
        refine le_of_eq_of_le (Finset.sum_congr rfl fun k hk => ?_) (hup x hx hx0)
        rw [h k (Finset.mem_range.1 hk)]
      · exact hne ⟨fun h => absurd h (not_lt.mpr hx0), fun h => absurd h (not_lt.mpr hy0)⟩
  have h' : ∀ k < d - 1, mulV d R x k / (1 + |mulV d R x (d - 1)|) = mulV d R y k / (1 + |mulV d R y (d - 1)|) := by
    intro k hk
    have := h k hk
    rw [hH x k hk, hH y k hk] at this
    by_cases hx0 : mulV d R x (d - 1) < 0
    · rw [if_pos hx0, if_pos (hsame.1 hx0)] at this
      linarith
    · rw [if_neg hx0, if_neg (fun hh => hx0 (hsame.2 hh))] at this
      linarith
  have hs2 : ∑ k ∈ Finset.range (d - 1), (mulV d R x k / (1 + |mulV d R x (d - 1)|)) ^ 2
      = ∑ k ∈ Finset.range (d - 1), (mulV d R y k / (1 + |mulV d R y (d - 1)|)) ^ 2 :=
    Finset.sum_congr rfl fun k hk => by rw [h' k (Finset.mem_range.1 hk)]
  rw [hsum x hx, hsum y hy] at hs2
  have hpn : 0 < 1 + |mulV d R x (d - 1)| := by positivity
  have hpm : 0 < 1 + |mulV d R y (d - 1)| := by positivity
  rw [div_eq_div_iff hpn.ne' hpm.ne'] at hs2
  have hτ : |mulV d R x (d - 1)| = |mulV d R y (d - 1)| := by linarith
  have hlast : mulV d R x (d - 1) = mulV d R y (d - 1) := by
    by_cases hx0 : mulV d R x (d - 1) < 0
    · rw [abs_of_neg hx0, abs_of_neg (hsame.1 hx0)] at hτ
      linarith
    · rwa [abs_of_nonneg (not_lt.mp hx0), abs_of_nonneg (not_lt.mp fun hh => hx0 (hsame.2 hh))] at hτ
  have hall : ∀ i < d, 1 * mulV d R x i = 1 * mulV d R y i := by
    intro i hi
    by_cases hil : i = d - 1
    · rw [hil, hlast]
    · have := h' i (by omega)
      rw [hτ, div_left_inj' hpm.ne'] at this
      rw [this]
  intro k hk
  have := hR.injective hall k hk
  linarith

/-! ### Circle to the upper hemisphere (C69) -/

/-- C69: the returned point of the plane is the input if it lies in the closed unit disk, and otherwise the input divided by
its length; the returned vector is the unit vector with non-negative third coordinate above it. -/
theorem C69_northpole (x : ℝ × ℝ) :
    let r := circleTo3dNorthpole x
    (x.1 ^ 2 + x.2 ^ 2 ≤ 1 → r.1 = x) ∧
      (1 < x.1 ^ 2 + x.2 ^ 2 → r.1 = (x.1 / √(x.1 ^ 2 + x.2 ^ 2), x.2 / √(x.1 ^ 2 + x.2 ^ 2)) ∧ r.1.1 ^ 2 + r.1.2 ^ 2 = 1) ∧
      r.1.1 ^ 2 + r.1.2 ^ 2 ≤ 1 ∧
      r.2.1 = r.1.1 ∧ r.2.2.1 = r.1.2 ∧ 0 ≤ r.2.2.2 ∧ r.2.1 ^ 2 + r.2.2.1 ^ 2 + r.2.2.2 ^ 2 = 1 := by
  intro r
  by_cases h : 1 < x.1 ^ 2 + x.2 ^ 2
  · have hr : r = ((x.1 / √(x.1 ^ 2 + x.2 ^ 2), x.2 / √(x.1 ^ 2 + x.2 ^ 2)),
        (x.1 / √(x.1 ^ 2 + x.2 ^ 2), x.2 / √(x.1 ^ 2 + x.2 ^ 2), √(1 - 1))) := by
      show circleTo3dNorthpole x = _
      unfold circleTo3dNorthpole
      simp only [if_pos h]
    have hu : (x.1 / √(x.1 ^ 2 + x.2 ^ 2)) ^ 2 + (x.2 / √(x.1 ^ 2 + x.2 ^ 2)) ^ 2 = 1 := by
      rw [div_pow, div_pow, Real.sq_sqrt (by linarith), ← add_div, div_self (by linarith)]
    rw [hr]
    refine ⟨fun hle => absurd h (not_lt.mpr hle), fun _ => ⟨rfl, hu⟩, hu.le, rfl, rfl, Real.sqrt_nonneg _, ?_⟩
    simp only [sub_self, Real.sqrt_zero]
    linarith
  · have hr : r = (x, (x.1, x.2, √(1 - (x.1 ^ 2 + x.2 ^ 2)))) := by
      show circleTo3dNorthpole x = _
      unfold circleTo3dNorthpole
      simp only [if_neg h]
    rw [hr]
    refine ⟨fun _ => rfl, fun hlt => absurd hlt h, not_lt.mp h, rfl, rfl, Real.sqrt_nonneg _, ?_⟩
    simp only
    rw [Real.sq_sqrt (by linarith)]
    ring

/-! ### The array of the caller (C109) -/

/-- **C109 (partial).** A point of the closed unit disk is left alone, whatever the type of the array, and the call returns it and
the vector above it; for an array of floats the call returns the point and the vector of C69, for every point.  Missing: points
outside the disk, where the argument is overwritten (`C109_overwritten`) or, for integers, an exception is raised
(`C109_integer_array_raises`). -/
theorem C109_northpole_argument_partial (dt : DType) (x : ℝ × ℝ) :
    (x.1 ^ 2 + x.2 ^ 2 ≤ 1 → circleTo3dNorthpoleCall dt x = (x, .ok (circleTo3dNorthpole x))) ∧
      (circleTo3dNorthpoleCall .float x).2 = .ok (circleTo3dNorthpole x) := by
  constructor
  · intro h
    simp [circleTo3dNorthpoleCall, circleTo3dNorthpole, if_neg (not_lt.2 h)]
  · by_cases h : 1 < x.1 ^ 2 + x.2 ^ 2 <;> simp [circleTo3dNorthpoleCall, circleTo3dNorthpole, h]

/-- **C109 is false.** For every point outside the closed unit disk the array of floats that is passed contains another point after
the call, namely the returned one on the unit circle: the selected point is lost.  (A second call with the array returns the same.) -/
theorem C109_overwritten (x : ℝ × ℝ) (h : 1 < x.1 ^ 2 + x.2 ^ 2) :
    let y := (circleTo3dNorthpoleCall .float x).1
    y ≠ x ∧ y.1 ^ 2 + y.2 ^ 2 = 1 ∧ (∃ u, (circleTo3dNorthpoleCall .float x).2 = .ok (y, u)) ∧
      circleTo3dNorthpoleCall .float y = circleTo3dNorthpoleCall .float x := by
  intro y
  have hy : y = (x.1 / √(x.1 ^ 2 + x.2 ^ 2), x.2 / √(x.1 ^ 2 + x.2 ^ 2)) := by
    show (circleTo3dNorthpoleCall .float x).1 = _
    simp only [circleTo3dNorthpoleCall, if_pos h]
  have h1 : y.1 ^ 2 + y.2 ^ 2 = 1 := by
    rw [hy]
    simp only
    rw [div_pow, div_pow, Real.sq_sqrt (by linarith), ← add_div, div_self (by linarith)]
  refine ⟨fun e => ?_, h1, ⟨(y.1, y.2, √(1 - 1)), ?_⟩, ?_⟩
  · rw [e] at h1; linarith
  · rw [hy]; simp only [circleTo3dNorthpoleCall, if_pos h]
  · have e : circleTo3dNorthpoleCall .float x = (y, .ok (y, (y.1, y.2, √(1 - 1)))) := by
      rw [hy]; simp only [circleTo3dNorthpoleCall, if_pos h]
    rw [e]
    simp only [circleTo3dNorthpoleCall, h1, lt_irrefl, if_false]

/-- **C109 is false (integers).** For every array of integers outside the closed unit disk the call raises a `TypeError`. -/
theorem C109_integer_array_raises (a b : ℤ) (h : 1 < a ^ 2 + b ^ 2) :
    circleTo3dNorthpoleCall .int ((a : ℝ), (b : ℝ)) = (((a : ℝ), (b : ℝ)), .error .typeError) := by
  have h' : (1 : ℝ) < (a : ℝ) ^ 2 + (b : ℝ) ^ 2 := by exact_mod_cast h
  simp only [circleTo3dNorthpoleCall, if_pos h']

/-- The point `(3, 4)` becomes `(3/5, 4/5)`. -/
example : (circleTo3dNorthpoleCall .float (3, 4)).1 = (3 / 5, 4 / 5) := by
  have h : √((3 : ℝ) ^ 2 + 4 ^ 2) = 5 := by
    rw [show ((3 : ℝ) ^ 2 + 4 ^ 2) = 5 ^ 2 by norm_num]; exact Real.sqrt_sq (by norm_num)
  simp only [circleTo3dNorthpoleCall, if_pos (show (1 : ℝ) < 3 ^ 2 + 4 ^ 2 by norm_num), h]

/-! ### The Hopf map (C64) -/

/-- C64: unit vectors of `ℂ²` go to unit vectors of `ℝ³`, and two of them have the same image iff they differ by a complex
factor of absolute value 1. -/
theorem C64_hopf (p p' : ℂ × ℂ) (hp : ‖p.1‖ ^ 2 + ‖p.2‖ ^ 2 = 1) (hp' : ‖p'.1‖ ^ 2 + ‖p'.2‖ ^ 2 = 1) :
    ((hopfMap p).1 ^ 2 + (hopfMap p).2.1 ^ 2 + (hopfMap p).2.2 ^ 2 = 1) ∧
      (hopfMap p = hopfMap p' ↔ ∃ z : ℂ, ‖z‖ = 1 ∧ p'.1 = z * p.1 ∧ p'.2 = z * p.2) := by
  have key : ∀ q : ℂ × ℂ, hopfMap q = ((2 * (q.1 * (starRingEnd ℂ) q.2)).re, (2 * (q.1 * (starRingEnd ℂ) q.2)).im,
      ‖q.1‖ ^ 2 - ‖q.2‖ ^ 2) := by
    intro q
    unfold hopfMap
    refine Prod.ext ?_ (Prod.ext ?_ ?_)
    · simp [Complex.mul_re]
    · simp [Complex.mul_re]; ring
    · rw [← Complex.normSq_eq_norm_sq, ← Complex.normSq_eq_norm_sq, Complex.normSq_apply, Complex.normSq_apply]
      simp
      ring
  constructor
  · rw [key]
    simp only
    have h1 : (2 * (p.1 * (starRingEnd ℂ) p.2)).re ^ 2 + (2 * (p.1 * (starRingEnd ℂ) p.2)).im ^ 2
        = 4 * (‖p.1‖ ^ 2 * ‖p.2‖ ^ 2) := by
      rw [← Complex.normSq_eq_norm_sq, ← Complex.normSq_eq_norm_sq, Complex.normSq_apply, Complex.normSq_apply]
      simp
      ring
    rw [h1]
    have : ‖p.2‖ ^ 2 = 1 - ‖p.1‖ ^ 2 := by linarith
    rw [this]
    ring
  · constructor
    · intro h
      rw [key, key, Prod.mk.injEq, Prod.mk.injEq] at h
      obtain ⟨h1, h2, h3⟩ := h
      have hc : p.1 * (starRingEnd ℂ) p.2 = p'.1 * (starRingEnd ℂ) p'.2 := by
        have : 2 * (p.1 * (starRingEnd ℂ) p.2) = 2 * (p'.1 * (starRingEnd ℂ) p'.2) := Complex.ext h1 h2
        exact mul_left_cancel₀ two_ne_zero this
      have n1 : ‖p.1‖ = ‖p'.1‖ := by
        have : ‖p.1‖ ^ 2 = ‖p'.1‖ ^ 2 := by linarith
        exact (pow_left_inj₀ (norm_nonneg _) (norm_nonneg _) two_ne_zero).1 this
      have n2 : ‖p.2‖ = ‖p'.2‖ := by
        have : ‖p.2‖ ^ 2 = ‖p'.2‖ ^ 2 := by linarith
        exact (pow_left_inj₀ (norm_nonneg _) (norm_nonneg _) two_ne_zero).1 this
      by_cases h0 : p.1 = 0
      · have hne : p.2 ≠ 0 := by
          intro hz
          rw [h0, hz] at hp
          simp at hp
        have h0' : p'.1 = 0 := by rw [h0, norm_zero] at n1; exact norm_eq_zero.1 n1.symm
        refine ⟨p'.2 / p.2, ?_, ?_, ?_⟩
        · rw [norm_div, n2, div_self]
          rw [← n2]; exact norm_ne_zero_iff.2 hne
        · rw [h0, h0', mul_zero]
        · field_simp
      · refine ⟨p'.1 / p.1, ?_, ?_, ?_⟩
        · rw [norm_div, n1, div_self]
          rw [← n1]; exact norm_ne_zero_iff.2 h0
        · field_simp
        · have h0' : p'.1 ≠ 0 := by
            intro hz
            rw [hz, norm_zero] at n1
            exact h0 (norm_eq_zero.1 n1)
          have hcc : (starRingEnd ℂ) p.1 * p.2 = (starRingEnd ℂ) p'.1 * p'.2 := by
            have := congrArg (starRingEnd ℂ) hc
            simpa using this
          have hns : p.1 * (starRingEnd ℂ) p.1 = p'.1 * (starRingEnd ℂ) p'.1 := by
            rw [Complex.mul_conj, Complex.mul_conj, Complex.normSq_eq_norm_sq, Complex.normSq_eq_norm_sq, n1]
          have hconj : (starRingEnd ℂ) p'.1 ≠ 0 := by
            intro hz
            exact h0' (by simpa using hz)
          have : p'.1 * (starRingEnd ℂ) p'.1 * p'.2 = p.1 * (starRingEnd ℂ) p'.1 * p'.2 * (p'.1 / p.1) := by
            field_simp
          rw [div_mul_eq_mul_div, eq_div_iff h0]
          apply mul_left_cancel₀ hconj
          linear_combination (-p.1) * hcc + p.2 * hns
    · rintro ⟨z, hz, h1, h2⟩
      rw [key, key]
      have hzz : z * (starRingEnd ℂ) z = 1 := by
        rw [Complex.mul_conj, Complex.normSq_eq_norm_sq, hz]; norm_num
      have e : p'.1 * (starRingEnd ℂ) p'.2 = p.1 * (starRingEnd ℂ) p.2 := by
        rw [h1, h2, map_mul]
        linear_combination (p.1 * (starRingEnd ℂ) p.2) * hzz
      rw [e, h1, h2, norm_mul, norm_mul, hz, one_mul, one_mul]

/-- The hypotheses of C64 are met. -/
example : ‖((3 / 5 : ℝ) : ℂ)‖ ^ 2 + ‖(((4 / 5 : ℝ)) : ℂ) * Complex.I‖ ^ 2 = 1 := by
  rw [norm_mul, Complex.norm_real, Complex.norm_real, Complex.norm_I]
  norm_num

end

end Dreimac
