import Mathlib.Analysis.SpecialFunctions.Complex.Arg
import Verif.Spec.Reduced
import Verif.Props.PpcaSpectral

/-! # Inner products after a reduction that loses something -/

namespace Dreimac

open Real

variable {𝕜 : Type} [RCLike 𝕜]

section projection
variable {D d N : ℕ} {v a y : ℕ → ℕ → 𝕜} {s : ℕ → ℝ}

/-- The inner product of the residuals. -/
theorem residual_inner (h : IsNormalizedProjection D d N v a y s) {i j : ℕ} (hi : i < N) (hj : j < N) :
    ∑ m ∈ Finset.range d, star (a i m - ∑ k ∈ Finset.range D, (s i : 𝕜) * y i k * v k m) *
        (a j m - ∑ k ∈ Finset.range D, (s j : 𝕜) * y j k * v k m) =
      ∑ m ∈ Finset.range d, star (a i m) * a j m - (s i : 𝕜) * s j * ∑ k ∈ Finset.range D, star (y i k) * y j k := by
  have hs : ∀ i, star (s i : 𝕜) = s i := fun i => RCLike.conj_ofReal _
  have e1 : ∑ m ∈ Finset.range d, star (a i m) * ∑ k ∈ Finset.range D, (s j : 𝕜) * y j k * v k m =
      (s i : 𝕜) * s j * ∑ k ∈ Finset.range D, star (y i k) * y j k := by
    simp only [Finset.mul_sum]
    rw [Finset.sum_comm]
    refine Finset.sum_congr rfl fun k hk => ?_
    have := congrArg star (h.comp i hi k (Finset.mem_range.1 hk))
    rw [star_sum, star_mul', hs] at this
    simp only [star_mul', star_star] at this
    calc ∑ m ∈ Finset.range d, star (a i m) * ((s j : 𝕜) * y j k * v k m) =
        (s j : 𝕜) * y j k * ∑ m ∈ Finset.range d, v k m * star (a i m) := by
          rw [Finset.mul_sum]; exact Finset.sum_congr rfl fun m _ => by ring
      _ = _ := by rw [this]; ring
  have e2 : ∑ m ∈ Finset.range d, star (∑ k ∈ Finset.range D, (s i : 𝕜) * y i k * v k m) * a j m =
      (s i : 𝕜) * s j * ∑ k ∈ Finset.range D, star (y i k) * y j k := by
    simp only [star_sum, Finset.sum_mul, Finset.mul_sum]
    rw [Finset.sum_comm]
    refine Finset.sum_congr rfl fun k hk => ?_
    have := h.comp j hj k (Finset.mem_range.1 hk)
    calc ∑ m ∈ Finset.range d, star ((s i : 𝕜) * y i k * v k m) * a j m =
        (s i : 𝕜) * star (y i k) * ∑ m ∈ Finset.range d, star (v k m) * a j m := by
          rw [Finset.mul_sum]
          exact Finset.sum_congr rfl fun m _ => by rw [star_mul', star_mul', hs]; ring
      _ = _ := by rw [this]; ring
  have e3 : ∑ m ∈ Finset.range d, star (∑ k ∈ Finset.range D, (s i : 𝕜) * y i k * v k m) *
      (∑ k ∈ Finset.range D, (s j : 𝕜) * y j k * v k m) =
      (s i : 𝕜) * s j * ∑ k ∈ Finset.range D, star (y i k) * y j k := by
    have : ∀ k < D, ∑ m ∈ Finset.range d, star (v k m) * ∑ k' ∈ Finset.range D, (s j : 𝕜) * y j k' * v k' m =
        (s j : 𝕜) * y j k := by
      intro k hk
      simp only [Finset.mul_sum]
      rw [Finset.sum_comm, Finset.sum_eq_single k]
      · have := h.ortho k hk k hk
        rw [if_pos rfl] at this
        calc _ = (s j : 𝕜) * y j k * ∑ m ∈ Finset.range d, star (v k m) * v k m := by
              rw [Finset.mul_sum]; exact Finset.sum_congr rfl fun m _ => by ring
          _ = _ := by rw [this, mul_one]
      · intro k' hk' hne
        have := h.ortho k hk k' (Finset.mem_range.1 hk')
        rw [if_neg (Ne.symm hne)] at this
        calc _ = (s j : 𝕜) * y j k' * ∑ m ∈ Finset.range d, star (v k m) * v k' m := by
              rw [Finset.mul_sum]; exact Finset.sum_congr rfl fun m _ => by ring
          _ = _ := by rw [this, mul_zero]
      · intro hk'; exact absurd (Finset.mem_range.2 hk) hk'
    simp only [star_sum, Finset.sum_mul]
    rw [Finset.sum_comm, Finset.mul_sum]
    refine Finset.sum_congr rfl fun k hk => ?_
    calc _ = (s i : 𝕜) * star (y i k) * ∑ m ∈ Finset.range d, star (v k m) * ∑ k' ∈ Finset.range D, (s j : 𝕜) * y j k' * v k' m := by
          rw [Finset.mul_sum]
          exact Finset.sum_congr rfl fun m _ => by rw [star_mul', star_mul', hs]; ring
      _ = _ := by rw [this k (Finset.mem_range.1 hk)]; ring
  simp only [star_sub, sub_mul, mul_sub, Finset.sum_sub_distrib, e1, e2, e3]
  ring

theorem norm_inner_le (d : ℕ) (f g : ℕ → 𝕜) :
    ‖∑ m ∈ Finset.range d, star (f m) * g m‖ ≤ √(∑ m ∈ Finset.range d, ‖f m‖ ^ 2) * √(∑ m ∈ Finset.range d, ‖g m‖ ^ 2) := by
  refine (norm_sum_le _ _).trans ?_
  simp only [norm_mul, norm_star]
  exact Real.sum_mul_le_sqrt_mul_sqrt _ _ _

/-- The length of the residual of a unit vector. -/
theorem residual_norm (h : IsNormalizedProjection D d N v a y s) {i : ℕ} (hi : i < N)
    (hu : ∑ m ∈ Finset.range d, ‖a i m‖ ^ 2 = 1) :
    ∑ m ∈ Finset.range d, ‖a i m - ∑ k ∈ Finset.range D, (s i : 𝕜) * y i k * v k m‖ ^ 2 = 1 - s i ^ 2 := by
  have := residual_inner h hi hi
  simp only [star_mul_self_rclike] at this
  rw [← RCLike.ofReal_sum, ← RCLike.ofReal_sum, ← RCLike.ofReal_sum, hu, h.unit i hi] at this
  have e : ((∑ m ∈ Finset.range d, ‖a i m - ∑ k ∈ Finset.range D, (s i : 𝕜) * y i k * v k m‖ ^ 2 : ℝ) : 𝕜) = ((1 - s i ^ 2 : ℝ) : 𝕜) := by
    rw [this]; push_cast; ring
  exact_mod_cast e

/-- The inner products of unit vectors, before and after a normalised projection. -/
theorem projection_inner (h : IsNormalizedProjection D d N v a y s) {i j : ℕ} (hi : i < N) (hj : j < N)
    (hui : ∑ m ∈ Finset.range d, ‖a i m‖ ^ 2 = 1) (huj : ∑ m ∈ Finset.range d, ‖a j m‖ ^ 2 = 1) :
    ‖(s i : 𝕜) * s j * ∑ k ∈ Finset.range D, star (y i k) * y j k - ∑ m ∈ Finset.range d, star (a i m) * a j m‖ ≤
      lost (s i) * lost (s j) := by
  rw [norm_sub_rev, ← residual_inner h hi hj]
  refine (norm_inner_le _ _ _).trans ?_
  rw [residual_norm h hi hui, residual_norm h hj huj]
  exact le_rfl

end projection

/-! ### The reduction is a normalised projection -/

/-- Nothing is lost if there is no reduction. -/
theorem lost_full {d N : ℕ} {v a y : ℕ → ℕ → 𝕜} {s : ℕ → ℝ} (h : IsNormalizedProjection d d N v a y s) {i : ℕ} (hi : i < N)
    (hu : ∑ m ∈ Finset.range d, ‖a i m‖ ^ 2 = 1) : lost (s i) = 0 := by
  let V : Matrix (Fin d) (Fin d) 𝕜 := Matrix.of fun m k => v k m
  have hV : V.conjTranspose * V = 1 := by
    ext j k
    rw [Matrix.mul_apply, Matrix.one_apply]
    have := h.ortho j j.2 k k.2
    rw [Finset.sum_range] at this
    refine Eq.trans this ?_
    simp only [Fin.val_inj]
  have hV' : V * V.conjTranspose = 1 := mul_eq_one_comm.1 hV
  let x : Fin d → 𝕜 := fun m => a i m
  have h1 : V.conjTranspose.mulVec x = fun (k : Fin d) => (s i : 𝕜) * y i k := by
    ext k
    have := h.comp i hi k k.2
    rw [Finset.sum_range] at this
    exact this
  have h2 : star (V.conjTranspose.mulVec x) ⬝ᵥ V.conjTranspose.mulVec x = star x ⬝ᵥ x := by
    rw [Matrix.star_mulVec, Matrix.conjTranspose_conjTranspose, Matrix.dotProduct_mulVec, Matrix.vecMul_vecMul, hV', Matrix.vecMul_one]
  rw [h1] at h2
  have h3 : star x ⬝ᵥ x = (1 : 𝕜) := by
    have : ∀ m : Fin d, star (a i m) * a i m = ((‖a i m‖ ^ 2 : ℝ) : 𝕜) := fun m => star_mul_self_rclike _
    show ∑ m : Fin d, star (a i m) * a i m = 1
    rw [Finset.sum_congr rfl fun m _ => this m, ← RCLike.ofReal_sum, ← Finset.sum_range (fun m => ‖a i m‖ ^ 2), hu, RCLike.ofReal_one]
  rw [h3] at h2
  have h4 : (∑ k : Fin d, star ((s i : 𝕜) * y i k) * ((s i : 𝕜) * y i k)) = ((s i ^ 2 : ℝ) : 𝕜) := by
    have : ∀ k : Fin d, star ((s i : 𝕜) * y i k) * ((s i : 𝕜) * y i k) = ((s i ^ 2 * ‖y i k‖ ^ 2 : ℝ) : 𝕜) := by
      intro k
      rw [star_mul_self_rclike, norm_mul, RCLike.norm_ofReal, mul_pow, sq_abs]
    rw [Finset.sum_congr rfl fun m _ => this m, ← RCLike.ofReal_sum, ← Finset.mul_sum, ← Finset.sum_range (fun m => ‖y i m‖ ^ 2),
      h.unit i hi, mul_one]
  have h5 : ((s i ^ 2 : ℝ) : 𝕜) = ((1 : ℝ) : 𝕜) := by
    rw [← h4, RCLike.ofReal_one]; exact h2
  have h6 : s i ^ 2 = 1 := RCLike.ofReal_injective h5
  unfold lost
  rw [h6, sub_self, Real.sqrt_zero]

theorem sliceLen_le (n : ℕ) (k : ℤ) : sliceLen n k ≤ n := by unfold sliceLen; split <;> omega

theorem oneStep_finite {eigh : Eigh 𝕜} {Z : Arr 𝕜} {k : ℤ} (hpos : 0 < sliceLen Z.rows k) {n : ℕ} {x : 𝕜}
    (h : (oneStep eigh Z k).at' 0 n = some x) (i : ℕ) (hi : i < Z.rows) : ∃ z, Z.at' i n = some z := by
  have h : oDivNorm ((rotateArr (eigBasis eigh Z) Z).at' 0 n) _ = some x := h
  rcases e : (rotateArr (eigBasis eigh Z) Z).at' 0 n with _ | t
  · rw [e] at h; cases h
  · rcases hz : Z.at' i n with _ | z
    · rw [show (rotateArr (eigBasis eigh Z) Z).at' 0 n = oSum ((List.range Z.rows).map fun i =>
        oMul (oConj (eigBasis eigh Z i 0)) (Z.at' i n)) from rfl,
        oSum_none hi (by rw [hz]; cases oConj (eigBasis eigh Z i 0) <;> rfl)] at e
      cases e
    · exact ⟨z, rfl⟩

/-- Every stage of the reduction that is finite is a normalised orthogonal projection of the data. -/
theorem stage_projection {eigh : Eigh 𝕜} (he : EighSpec eigh) {total : ℤ} (ht : 1 ≤ total) {X Y : Arr 𝕜}
    (hs : ReductionStage eigh total X Y) {a : ℕ → ℕ → 𝕜} (hX : ∀ i < X.rows, ∀ n < X.cols, X.at' i n = some (a n i))
    (hunit : ∀ n < X.cols, ∑ i ∈ Finset.range X.rows, ‖a n i‖ ^ 2 = 1) :
    Y.cols = X.cols ∧ ∀ y : ℕ → ℕ → 𝕜, (∀ k < Y.rows, ∀ n < X.cols, Y.at' k n = some (y n k)) →
      ∃ v s, IsNormalizedProjection Y.rows X.rows X.cols v a y s := by
  induction hs with
  | start =>
    refine ⟨rfl, fun y hy => ⟨fun k i => if i = k then 1 else 0, fun _ => 1, ?_, fun _ _ => one_pos, ?_, ?_⟩⟩
    · intro j hj k hk
      rw [Finset.sum_eq_single j]
      · simp
      · intro i _ hij; simp [hij]
      · intro hj'; exact absurd (Finset.mem_range.2 hj) hj'
    · intro n hn
      rw [← hunit n hn]
      refine Finset.sum_congr rfl fun k hk => ?_
      have := (hX k (Finset.mem_range.1 hk) n hn).symm.trans (hy k (Finset.mem_range.1 hk) n hn)
      injection this with this
      rw [this]
    · intro n hn k hk
      have := (hX k hk n hn).symm.trans (hy k hk n hn)
      injection this with this
      rw [← this, Finset.sum_eq_single k]
      · simp
      · intro i _ hik; simp [hik]
      · intro hk'; exact absurd (Finset.mem_range.2 hk) hk'
  | @step Z k hZ hk ih =>
    obtain ⟨hcols, ih⟩ := ih
    refine ⟨hcols, fun y hy => ?_⟩
    have hpos : 0 < sliceLen Z.rows k := by omega
    have hrows : (oneStep eigh Z k).rows = sliceLen Z.rows k := rfl
    have hfin : ∀ i n, ∃ z, i < Z.rows → n < X.cols → Z.at' i n = some z := by
      intro i n
      by_cases h : i < Z.rows ∧ n < X.cols
      · obtain ⟨z, hz⟩ := oneStep_finite hpos (hy 0 hpos n h.2) i h.1
        exact ⟨z, fun _ _ => hz⟩
      · exact ⟨0, fun h1 h2 => absurd ⟨h1, h2⟩ h⟩
    choose z hz using hfin
    obtain ⟨v, s, hv⟩ := ih (fun n i => z i n) fun i hi n hn => hz i n hi hn
    obtain ⟨-, -, hstep⟩ := oneStep_principal he Z k
    obtain ⟨v', hon, -, hv'⟩ := hstep (fun n i => z i n) fun n hn i hi => hz i n hi (by rw [← hcols]; exact hn)
    rw [show Z.T.cols = Z.rows from rfl] at hon hv'
    -- the scale of the step
    have hsc : ∀ n, ∃ s' : ℝ, n < X.cols → 0 < s' ∧ (∑ q ∈ Finset.range (sliceLen Z.rows k), ‖y n q‖ ^ 2 = 1) ∧
        ∀ q < sliceLen Z.rows k, ∑ i ∈ Finset.range Z.rows, star (v' q i) * z i n = (s' : 𝕜) * y n q := by
      intro n
      by_cases hn : n < X.cols
      · rcases hv' n (by rw [← hcols] at hn; exact hn) with ⟨y', s', h1, h2, h3⟩ | h
        · have hyy : ∀ q < sliceLen Z.rows k, y' q = y n q := by
            intro q hq
            have := (h3 q hq).1.symm.trans (hy q hq n hn)
            injection this
          refine ⟨s', fun _ => ⟨h1, ?_, fun q hq => ?_⟩⟩
          · rw [← h2]
            exact Finset.sum_congr rfl fun q hq => by rw [hyy q (Finset.mem_range.1 hq)]
          · rw [← hyy q hq]; exact (h3 q hq).2
        · have := (h 0 hpos).1.symm.trans (hy 0 hpos n hn)
          cases this
      · exact ⟨0, fun h => absurd h hn⟩
    choose s' hs' using hsc
    refine ⟨fun q i => ∑ j ∈ Finset.range Z.rows, v' q j * v j i, fun n => s n * s' n, ?_, ?_, ?_, ?_⟩
    · intro q hq q' hq'
      rw [hrows] at hq hq'
      have hle := sliceLen_le Z.rows k
      have key : ∀ j < Z.rows, ∑ i ∈ Finset.range X.rows, star (v j i) * ∑ j' ∈ Finset.range Z.rows, v' q' j' * v j' i = v' q' j := by
        intro j hj
        simp only [Finset.mul_sum]
        rw [Finset.sum_comm, Finset.sum_eq_single j]
        · have := hv.ortho j hj j hj
          rw [if_pos rfl] at this
          calc _ = v' q' j * ∑ i ∈ Finset.range X.rows, star (v j i) * v j i := by
                rw [Finset.mul_sum]; exact Finset.sum_congr rfl fun i _ => by ring
            _ = _ := by rw [this, mul_one]
        · intro j' hj' hne
          have := hv.ortho j hj j' (Finset.mem_range.1 hj')
          rw [if_neg (Ne.symm hne)] at this
          calc _ = v' q' j' * ∑ i ∈ Finset.range X.rows, star (v j i) * v j' i := by
                rw [Finset.mul_sum]; exact Finset.sum_congr rfl fun i _ => by ring
            _ = _ := by rw [this, mul_zero]
        · intro hj'; exact absurd (Finset.mem_range.2 hj) hj'
      rw [← hon q hq q' hq']
      simp only [star_sum, Finset.sum_mul]
      rw [Finset.sum_comm]
      refine Finset.sum_congr rfl fun j hj => ?_
      rw [← key j (Finset.mem_range.1 hj), Finset.mul_sum]
      exact Finset.sum_congr rfl fun i _ => by rw [star_mul']; ring
    · exact fun n hn => mul_pos (hv.pos n hn) (hs' n hn).1
    · exact fun n hn => (hs' n hn).2.1
    · intro n hn q hq
      simp only [star_sum, Finset.sum_mul]
      rw [Finset.sum_comm]
      calc _ = ∑ j ∈ Finset.range Z.rows, star (v' q j) * ∑ i ∈ Finset.range X.rows, star (v j i) * a n i := by
            refine Finset.sum_congr rfl fun j _ => ?_
            rw [Finset.mul_sum]
            exact Finset.sum_congr rfl fun i _ => by rw [star_mul']; ring
        _ = ∑ j ∈ Finset.range Z.rows, (s n : 𝕜) * (star (v' q j) * z j n) := by
            refine Finset.sum_congr rfl fun j hj => ?_
            rw [hv.comp n hn j (Finset.mem_range.1 hj)]; ring
        _ = _ := by
            rw [← Finset.mul_sum, (hs' n hn).2.2 q hq]; push_cast; ring

/-! ### Arguments of complex numbers -/

theorem abs_arg_lt {z : ℂ} {ov φ : ℝ} (hov : 0 < ov) (h0 : 0 ≤ φ) (hφ : φ ≤ π / 2) (h : ‖z - ov‖ < ov * sin φ) : |z.arg| < φ := by
  have hpi := Real.pi_pos
  have hs1 : sin φ ≤ 1 := sin_le_one φ
  have hre : 0 < z.re := by
    have h1 := Complex.abs_re_le_norm (z - ov)
    have h2 := (abs_le.1 h1).1
    simp only [Complex.sub_re, Complex.ofReal_re] at h2
    have : ov * sin φ ≤ ov := mul_le_of_le_one_right hov.le hs1
    linarith
  have hz : z ≠ 0 := by rintro rfl; simp at hre
  have hnz : 0 < ‖z‖ := norm_pos_iff.2 hz
  have harg := Complex.abs_arg_lt_pi_div_two_iff.2 (Or.inl hre)
  have harg' := abs_lt.1 harg
  -- |Im z| cos φ < Re z sin φ
  have hcs : ∀ x y c s : ℝ, c ^ 2 + s ^ 2 = 1 → x * c + y * s ≤ √(x ^ 2 + y ^ 2) := by
    intro x y c s hcs
    refine Real.le_sqrt_of_sq_le ?_
    have : (x ^ 2 + y ^ 2) - (x * c + y * s) ^ 2 = (x * s - y * c) ^ 2 := by
      linear_combination (-(x ^ 2) - y ^ 2) * hcs
    nlinarith [sq_nonneg (x * s - y * c)]
  have hnorm : ‖z - ov‖ = √((z.re - ov) ^ 2 + z.im ^ 2) := by
    rw [Complex.norm_eq_sqrt_sq_add_sq]; simp
  have hc2 := Real.sin_sq_add_cos_sq φ
  have k1 := hcs (z.re - ov) z.im (-sin φ) (cos φ) (by linarith [hc2, neg_sq (sin φ)])
  have k2 := hcs (z.re - ov) z.im (-sin φ) (-cos φ) (by linarith [hc2, neg_sq (sin φ), neg_sq (cos φ)])
  rw [← hnorm] at k1 k2
  have i1 : z.im * cos φ - z.re * sin φ < 0 := by linarith
  have i2 : z.im * cos φ + z.re * sin φ > 0 := by linarith
  have cre : z.re = ‖z‖ * cos z.arg := by rw [Complex.norm_mul_cos_arg]
  have cim : z.im = ‖z‖ * sin z.arg := by rw [Complex.norm_mul_sin_arg]
  have j1 : sin (z.arg - φ) < 0 := by
    have : ‖z‖ * sin (z.arg - φ) < 0 := by
      rw [sin_sub]
      calc _ = z.im * cos φ - z.re * sin φ := by rw [cre, cim]; ring
        _ < 0 := i1
    exact (mul_neg_iff.1 this).elim (fun h => h.2) fun h => absurd h.1 hnz.not_gt
  have j2 : 0 < sin (z.arg + φ) := by
    have : 0 < ‖z‖ * sin (z.arg + φ) := by
      rw [sin_add]
      calc 0 < z.im * cos φ + z.re * sin φ := i2
        _ = _ := by rw [cre, cim]; ring
    exact (mul_pos_iff.1 this).elim (fun h => h.2) fun h => absurd h.1 hnz.not_gt
  rw [abs_lt]
  constructor
  · by_contra hc
    have := sin_nonpos_of_nonpos_of_neg_pi_le (x := z.arg + φ) (by linarith) (by linarith)
    linarith
  · by_contra hc
    have := sin_nonneg_of_nonneg_of_le_pi (x := z.arg - φ) (by linarith) (by linarith)
    linarith

end Dreimac
