import Mathlib.Analysis.Matrix.Spectrum
import Verif.Lemmas.Spectral
import Verif.Spec.Eigh
import Verif.Props.Ppca

/-!
# The reduction keeps the principal components (C103, C104)
-/

namespace Dreimac

open Matrix

variable {𝕜 : Type} [RCLike 𝕜]

/-- The matrix of the data of an array with finite entries `z`. -/
def dataMat (d N : ℕ) (z : ℕ → ℕ → 𝕜) : Matrix (Fin d) (Fin N) 𝕜 := Matrix.of fun i n => z i n

/-- The basis used by a step consists of eigenvectors, most important first. -/
theorem eigBasis_principal {eigh : Eigh 𝕜} (he : EighSpec eigh) (Z : Arr 𝕜) (z : ℕ → ℕ → 𝕜)
    (hz : ∀ i < Z.rows, ∀ n < Z.cols, Z.at' i n = some (z i n)) :
    ∃ (V : Matrix (Fin Z.rows) (Fin Z.rows) 𝕜) (mu : Fin Z.rows → ℝ),
      (∀ i k : Fin Z.rows, eigBasis eigh Z i k = some (V i k)) ∧ Vᴴ * V = 1 ∧
        dataMat Z.rows Z.cols z * (dataMat Z.rows Z.cols z)ᴴ * V = V * diagonal (fun k => (mu k : 𝕜)) ∧ Antitone mu := by
  have hG : ∀ i < Z.rows, ∀ j < Z.rows, gramArr Z i j = some (∑ n ∈ Finset.range Z.cols, z i n * star (z j n)) := by
    intro i hi j hj
    exact oSum_congr_some _ fun n hn => by rw [hz i hi n hn, hz j hj n hn]; rfl
  obtain ⟨U, u, lam, e, hU, hon, heig, hmono⟩ := he Z.rows (gramArr Z) _ hG (by
    intro i _ j _
    rw [star_sum]
    exact Finset.sum_congr rfl fun n _ => by rw [star_mul, star_star])
  refine ⟨Matrix.of fun i k => u i (Z.rows - 1 - k), fun k => lam (Z.rows - 1 - k), ?_, ?_, ?_, ?_⟩
  · intro i k
    unfold eigBasis
    rw [e]
    exact hU i i.2 _ (by have := k.2; omega)
  · ext j k
    have hj := j.2
    have hk := k.2
    have := hon (Z.rows - 1 - j) (by omega) (Z.rows - 1 - k) (by omega)
    rw [Finset.sum_range] at this
    rw [Matrix.mul_apply, Matrix.one_apply]
    simp only [conjTranspose_apply, of_apply]
    rw [this]
    congr 1
    rw [Fin.ext_iff, eq_iff_iff]
    omega
  · ext i k
    have hk := k.2
    have := heig (Z.rows - 1 - k) (by omega) i i.2
    rw [Finset.sum_range] at this
    rw [Matrix.mul_apply, Matrix.mul_diagonal]
    simp only [of_apply]
    rw [mul_comm (u _ _), ← this]
    refine Finset.sum_congr rfl fun j _ => ?_
    rw [Matrix.mul_apply, Finset.sum_range]
    simp [dataMat, conjTranspose_apply]
  · intro j k hjk
    have hj := j.2
    have := Fin.le_def.1 hjk
    exact hmono _ _ (by omega) (by omega)

/-- The array before scaling: components along the eigenvectors. -/
theorem rotate_entry {eigh : Eigh 𝕜} (Z : Arr 𝕜) (z : ℕ → ℕ → 𝕜)
    (hz : ∀ i < Z.rows, ∀ n < Z.cols, Z.at' i n = some (z i n)) (V : Matrix (Fin Z.rows) (Fin Z.rows) 𝕜)
    (hV : ∀ i k : Fin Z.rows, eigBasis eigh Z i k = some (V i k)) (k : Fin Z.rows) (n : Fin Z.cols) :
    (rotateArr (eigBasis eigh Z) Z).at' k n = some ((Vᴴ * dataMat Z.rows Z.cols z) k n) := by
  have h := oSum_congr_some (n := Z.rows) (g := fun i => oMul (oConj (eigBasis eigh Z i k)) (Z.at' i n))
    (fun i => if h : i < Z.rows then star (V ⟨i, h⟩ k) * z i n else 0) (by
      intro i hi
      have := hV ⟨i, hi⟩ k
      simp only at this
      rw [this, hz i hi n n.2, dif_pos hi]
      rfl)
  refine h.trans ?_
  congr 1
  rw [Finset.sum_range, Matrix.mul_apply]
  refine Finset.sum_congr rfl fun i _ => ?_
  rw [dif_pos i.2, conjTranspose_apply]
  rfl

theorem normalizeCols_one {Y : Arr 𝕜} {n : ℕ} (f : ℕ → 𝕜) (h : ∀ i < Y.rows, Y.at' i n = some (f i))
    (h1 : ∑ i ∈ Finset.range Y.rows, ‖f i‖ ^ 2 = 1) (i : ℕ) (hi : i < Y.rows) :
    (normalizeCols Y).at' i n = some (f i) := by
  have hn : colNorm Y n = some 1 := by
    unfold colNorm
    rw [oSum_congr_some (fun i => ‖f i‖ ^ 2) (fun i hi => by simp [h i hi]), h1]
    simp
  simp [normalizeCols, hn, h i hi, oDivNorm]

/-! ### C103 -/

/-- The invariant of the reduction for data that lie in the span of `r` vectors. -/
def LowRank (r N : ℕ) (gram : ℕ → ℕ → 𝕜) (Z : Arr 𝕜) : Prop :=
  Z.cols = N ∧ ∃ z : ℕ → ℕ → 𝕜, (∀ i < Z.rows, ∀ n < Z.cols, Z.at' i n = some (z i n)) ∧
    (∀ n < N, ∀ m < N, ∑ i ∈ Finset.range Z.rows, star (z i n) * z i m = gram n m) ∧
    ∃ w c : ℕ → ℕ → 𝕜, ∀ i < Z.rows, ∀ n < N, z i n = ∑ k ∈ Finset.range r, w i k * c k n

theorem lowRank_step {eigh : Eigh 𝕜} (he : EighSpec eigh) (r N : ℕ) (gram : ℕ → ℕ → 𝕜) (hg : ∀ n < N, gram n n = 1)
    (Z : Arr 𝕜) (hZ : LowRank r N gram Z) (k : ℤ) (hk : r ≤ sliceLen Z.rows k) : LowRank r N gram (oneStep eigh Z k) := by
  obtain ⟨hN, z, hz, hgram, w, c, hwc⟩ := hZ
  subst hN
  obtain ⟨V, mu, hV, hV1, hG, hmu⟩ := eigBasis_principal he Z z hz
  have hrot := rotate_entry Z z hz V hV
  set X := dataMat Z.rows Z.cols z with hX
  have hXwc : X = (Matrix.of fun (i : Fin Z.rows) (k : Fin r) => w i k) * (Matrix.of fun (k : Fin r) (n : Fin Z.cols) => c k n) := by
    ext i n
    rw [Matrix.mul_apply]
    have := hwc i i.2 n n.2
    rw [Finset.sum_range] at this
    exact this
  have hzero := fun q hq n => spectral_lossless hV1 hG hmu _ _ hXwc q hq n
  have hle : sliceLen Z.rows k ≤ Z.rows := by unfold sliceLen; split <;> omega
  have hV2 : V * Vᴴ = 1 := mul_eq_one_comm.1 hV1
  -- the new entries
  let y : ℕ → ℕ → 𝕜 := fun q n => if h : q < Z.rows ∧ n < Z.cols then (Vᴴ * X) ⟨q, h.1⟩ ⟨n, h.2⟩ else 0
  have hy : ∀ (q : Fin Z.rows) (n : Fin Z.cols), y q n = (Vᴴ * X) q n := fun q n => dif_pos ⟨q.2, n.2⟩
  have htrunc : ∀ n < Z.cols, ∀ m < Z.cols, ∑ q ∈ Finset.range (sliceLen Z.rows k), star (y q n) * y q m = gram n m := by
    intro n hn m hm
    have h1 : ∑ q ∈ Finset.range (sliceLen Z.rows k), star (y q n) * y q m = ∑ q ∈ Finset.range Z.rows, star (y q n) * y q m := by
      refine Finset.sum_subset (Finset.range_subset_range.2 hle) fun q hq hq' => ?_
      rw [Finset.mem_range] at hq hq'
      have := hzero ⟨q, hq⟩ (by simp only; omega) ⟨m, hm⟩
      rw [show y q m = 0 from (hy ⟨q, hq⟩ ⟨m, hm⟩).trans this, mul_zero]
    rw [h1, Finset.sum_range]
    have h2 : (Vᴴ * X)ᴴ * (Vᴴ * X) = Xᴴ * X := by
      rw [conjTranspose_mul, conjTranspose_conjTranspose]
      calc Xᴴ * V * (Vᴴ * X) = Xᴴ * (V * Vᴴ) * X := by simp only [Matrix.mul_assoc]
        _ = Xᴴ * X := by rw [hV2, Matrix.mul_one]
    have h3 := congrFun (congrFun h2 ⟨n, hn⟩) ⟨m, hm⟩
    rw [Matrix.mul_apply, Matrix.mul_apply] at h3
    rw [← hgram n hn m hm, Finset.sum_range]
    simp only [conjTranspose_apply] at h3
    refine Eq.trans (Finset.sum_congr rfl fun q _ => ?_) (h3.trans (Finset.sum_congr rfl fun i _ => rfl))
    rw [hy q ⟨n, hn⟩, hy q ⟨m, hm⟩]
  refine ⟨rfl, y, ?_, htrunc, ?_⟩
  · intro q hq n hn
    have hq : q < sliceLen Z.rows k := hq
    have hn : n < Z.cols := hn
    refine normalizeCols_one (Y := ⟨sliceLen Z.rows k, Z.cols, (rotateArr (eigBasis eigh Z) Z).at'⟩) (n := n) (fun q => y q n)
      (fun q hq => ?_) ?_ q hq
    · have hq : q < sliceLen Z.rows k := hq
      exact (hrot ⟨q, by omega⟩ ⟨n, hn⟩).trans (congrArg some (hy ⟨q, by omega⟩ ⟨n, hn⟩).symm)
    · have := (htrunc n hn n hn).trans (hg n hn)
      simp only [star_mul_self_rclike] at this
      rw [← RCLike.ofReal_sum] at this
      exact_mod_cast this
  · refine ⟨fun q k => if h : q < Z.rows then ∑ i : Fin Z.rows, star (V i ⟨q, h⟩) * w i k else 0, c, ?_⟩
    intro q hq n hn
    have hq : q < sliceLen Z.rows k := hq
    rw [show y q n = _ from hy ⟨q, by omega⟩ ⟨n, hn⟩, Matrix.mul_apply]
    have : ∀ i : Fin Z.rows, Vᴴ ⟨q, by omega⟩ i * X i ⟨n, hn⟩ =
        ∑ k ∈ Finset.range r, star (V i ⟨q, by omega⟩) * w i k * c k n := by
      intro i
      rw [conjTranspose_apply, show X i ⟨n, hn⟩ = _ from hwc i i.2 n hn, Finset.mul_sum]
      exact Finset.sum_congr rfl fun k _ => by ring
    rw [Finset.sum_congr rfl fun i _ => this i, Finset.sum_comm]
    refine Finset.sum_congr rfl fun k _ => ?_
    beta_reduce
    rw [dif_pos (show q < Z.rows by omega), Finset.sum_mul]

/-- **C103.** If all data points (unit vectors) lie in a linear subspace spanned by `projDim + 1` vectors `w`, the reduction to
`projDim + 1` dimensions loses nothing, in every mode: the returned vectors are finite and have the same inner products as
the data points, so they are the same configuration of points of the projective (or lens) space up to a unitary map. -/
theorem C103_lossless (eigh : Eigh 𝕜) (he : EighSpec eigh) (fuel : ℕ) (A : Arr 𝕜) (a : ℕ → ℕ → 𝕜)
    (hA : ∀ n < A.rows, ∀ i < A.cols, A.at' n i = some (a n i))
    (hunit : ∀ n < A.rows, ∑ i ∈ Finset.range A.cols, ‖a n i‖ ^ 2 = 1) (projDim : ℕ) (hp : projDim < A.cols)
    (w c : ℕ → ℕ → 𝕜) (hspan : ∀ n < A.rows, ∀ i < A.cols, a n i = ∑ k ∈ Finset.range (projDim + 1), c n k * w k i)
    (mode : RedMode) (R : PpcaResult 𝕜) (h : ppca eigh fuel A projDim mode = .ok R) :
    R.X.rows = A.rows ∧ ∃ y : ℕ → ℕ → 𝕜, (∀ n < A.rows, ∀ k < R.X.cols, R.X.at' n k = some (y n k)) ∧
      ∀ n < A.rows, ∀ m < A.rows,
        ∑ k ∈ Finset.range R.X.cols, star (y n k) * y m k = ∑ i ∈ Finset.range A.cols, star (a n i) * a m i := by
  obtain ⟨Y, hY, hs⟩ := ppca_stage eigh fuel A projDim hp mode R h
  have hinv : LowRank (projDim + 1) A.rows (fun n m => ∑ i ∈ Finset.range A.cols, star (a n i) * a m i) Y := by
    clear hY h
    induction hs with
    | start =>
      refine ⟨rfl, fun i n => a n i, fun i hi n hn => hA n hn i hi, fun n _ m _ => rfl, fun i k => w k i, fun k n => c n k, ?_⟩
      intro i hi n hn
      beta_reduce
      rw [hspan n hn i hi]
      exact Finset.sum_congr rfl fun k _ => mul_comm _ _
    | @step Z k hZ hk ih =>
      exact lowRank_step he _ _ _ (fun n hn => by
        simp only [star_mul_self_rclike]
        rw [← RCLike.ofReal_sum, hunit n hn]; simp) Z ih k (by exact_mod_cast hk)
  obtain ⟨hN, z, hz, hg, -⟩ := hinv
  rw [hY]
  exact ⟨hN, fun n k => z k n, fun n hn k hk => hz k hk n (by omega), hg⟩

/-! ### C104 -/

theorem captured_eq (m d N : ℕ) (w a : ℕ → ℕ → 𝕜) :
    capturedEnergy m d N w a =
      ∑ j : Fin m, ∑ n : Fin N, ‖((Matrix.of fun (i : Fin d) (k : Fin m) => w k i)ᴴ * dataMat d N fun i n => a n i) j n‖ ^ 2 := by
  unfold capturedEnergy
  rw [Finset.sum_range]
  refine Finset.sum_congr rfl fun k _ => ?_
  rw [Finset.sum_range]
  refine Finset.sum_congr rfl fun n _ => ?_
  rw [Finset.sum_range, Matrix.mul_apply]
  rfl

theorem orthonormalVecs_iff (m d : ℕ) (w : ℕ → ℕ → 𝕜) :
    OrthonormalVecs m d w ↔ (Matrix.of fun (i : Fin d) (k : Fin m) => w k i)ᴴ * (Matrix.of fun (i : Fin d) (k : Fin m) => w k i) = 1 := by
  constructor
  · intro h
    ext j k
    have := h j j.2 k k.2
    rw [Finset.sum_range] at this
    rw [Matrix.mul_apply, Matrix.one_apply]
    refine Eq.trans (Finset.sum_congr rfl fun i _ => rfl) (this.trans ?_)
    congr 1
    rw [Fin.ext_iff]
  · intro h j hj k hk
    have := congrFun (congrFun h ⟨j, hj⟩) ⟨k, hk⟩
    rw [Matrix.mul_apply, Matrix.one_apply] at this
    rw [Finset.sum_range]
    refine Eq.trans (Finset.sum_congr rfl fun i _ => rfl) (this.trans ?_)
    congr 1
    rw [Fin.ext_iff]

theorem oneStep_principal {eigh : Eigh 𝕜} (he : EighSpec eigh) (Z : Arr 𝕜) (k : ℤ) :
    IsPrincipalStep (sliceLen Z.rows k) Z.T (oneStep eigh Z k).T := by
  refine ⟨rfl, rfl, fun a ha => ?_⟩
  have hz : ∀ i < Z.rows, ∀ n < Z.cols, Z.at' i n = some (a n i) := fun i hi n hn => ha n hn i hi
  have hle : sliceLen Z.rows k ≤ Z.rows := by unfold sliceLen; split <;> omega
  generalize hm : sliceLen Z.rows k = m at hle
  obtain ⟨V, mu, hV, hV1, hG, hmu⟩ := eigBasis_principal he Z (fun i n => a n i) hz
  have hrot := rotate_entry Z (fun i n => a n i) hz V hV
  let v : ℕ → ℕ → 𝕜 := fun k i => if h : k < Z.rows ∧ i < Z.rows then V ⟨i, h.2⟩ ⟨k, h.1⟩ else 0
  have hv : ∀ i k : Fin Z.rows, v k i = V i k := fun i k => dif_pos ⟨k.2, i.2⟩
  have hcomp : ∀ (q : Fin Z.rows) (n : Fin Z.cols), ∑ i ∈ Finset.range Z.rows, star (v q i) * a n i =
      (Vᴴ * dataMat Z.rows Z.cols fun i n => a n i) q n := by
    intro q n
    rw [Finset.sum_range, Matrix.mul_apply]
    exact Finset.sum_congr rfl fun i _ => by rw [hv]; rfl
  have hon : OrthonormalVecs m Z.rows v := by
    intro j hj q hq
    have := congrFun (congrFun hV1 ⟨j, by omega⟩) ⟨q, by omega⟩
    rw [Matrix.mul_apply, Matrix.one_apply] at this
    rw [Finset.sum_range]
    refine Eq.trans (Finset.sum_congr rfl fun i _ => ?_) (this.trans ?_)
    · rw [show v j i = _ from hv i ⟨j, by omega⟩, show v q i = _ from hv i ⟨q, by omega⟩]; rfl
    · congr 1
      rw [Fin.ext_iff]
  refine ⟨v, hon, fun w hw => ?_, fun n hn => ?_⟩
  · show capturedEnergy m Z.rows Z.cols w a ≤ capturedEnergy m Z.rows Z.cols v a
    have hw' := (orthonormalVecs_iff m Z.rows w).1 hw
    have := spectral_optimal hV1 hG hmu _ hw' hle
    rw [captured_eq]
    refine this.trans (le_of_eq ?_)
    unfold capturedEnergy
    rw [Finset.sum_range]
    refine Finset.sum_congr rfl fun q _ => ?_
    rw [Finset.sum_range]
    refine Finset.sum_congr rfl fun n _ => ?_
    rw [← hcomp]
    rfl
  · have hn : n < Z.cols := hn
    have hent : ∀ q < m, (rotateArr (eigBasis eigh Z) Z).at' q n = some (∑ i ∈ Finset.range Z.rows, star (v q i) * a n i) :=
      fun q hq => (hrot ⟨q, by omega⟩ ⟨n, hn⟩).trans (congrArg some (hcomp ⟨q, by omega⟩ ⟨n, hn⟩).symm)
    have hB : ∀ q, (oneStep eigh Z k).T.at' n q =
        (normalizeCols ⟨m, Z.cols, (rotateArr (eigBasis eigh Z) Z).at'⟩).at' q n := fun q => by rw [← hm]; rfl
    rcases normalizeCols_some (Y := ⟨m, Z.cols, (rotateArr (eigBasis eigh Z) Z).at'⟩) (n := n) _ hent with
      ⟨-, y, h1, h2, s, hs, h3⟩ | ⟨h1, h2⟩
    · exact Or.inl ⟨y, s, hs, h2, fun q hq => ⟨(hB q).trans (h1 q hq), h3 q⟩⟩
    · exact Or.inr fun q hq => ⟨(hB q).trans (h2 q hq), h1 q hq⟩

/-- **C104 (direct).** In mode "direct" the result is one principal component reduction to `projDim + 1` dimensions. -/
theorem C104_direct (eigh : Eigh 𝕜) (he : EighSpec eigh) (fuel : ℕ) (A : Arr 𝕜) (projDim : ℕ) (hp : projDim < A.cols)
    (R : PpcaResult 𝕜) (h : ppca eigh fuel A projDim .direct = .ok R) : IsPrincipalStep (projDim + 1) A R.X := by
  rw [ppca_direct _ _ _ _ (by omega)] at h
  injection h with h; subst h
  have := oneStep_principal he A.T ((projDim : ℤ) + 1)
  rw [sliceLen_nonneg _ (by omega), show min A.T.rows ((projDim : ℤ) + 1).toNat = projDim + 1 by
    rw [show A.T.rows = A.cols from rfl]; omega] at this
  exact this

/-- **C104 (one-by-one).** In mode "one-by-one" the result is obtained by principal component reductions that drop one
dimension each: to `n_dim - 1`, `n_dim - 2`, ..., `projDim + 1` dimensions. -/
theorem C104_one_by_one (eigh : Eigh 𝕜) (he : EighSpec eigh) (fuel : ℕ) (A : Arr 𝕜) (projDim : ℕ) (hp : projDim < A.cols)
    (R : PpcaResult 𝕜) (h : ppca eigh fuel A projDim .oneByOne = .ok R) :
    PrincipalReduction ((List.range (A.cols - (projDim + 1))).map fun i => A.cols - 1 - i) A R.X := by
  have hr : A.T.rows = A.cols := rfl
  rw [ppca_oneByOne _ _ _ _ (by omega), oboLoop_eq] at h
  simp only [hr] at h
  split at h
  · cases h
  · rename_i Y hY
    injection h with h; subst h
    split at hY
    · injection hY with hY; subst hY
      have : ∀ i ≤ A.cols, PrincipalReduction ((List.range i).map fun i => A.cols - 1 - i) A (oboStage eigh A.T i).T := by
        intro i hi
        induction i with
        | zero => exact .nil A
        | succ i ih =>
          rw [List.range_succ, List.map_append]
          refine .snoc _ (ih (by omega)) ?_
          have := oneStep_principal he (oboStage eigh A.T i) (-1)
          have e : sliceLen (oboStage eigh A.T i).rows (-1) = A.cols - 1 - i := by
            unfold sliceLen
            rw [if_pos (by norm_num), (oboStage_rows eigh A.T i).1, hr]
            omega
          rw [e] at this
          exact this
      have e : ((A.cols : ℤ) - projDim - 1).toNat = A.cols - (projDim + 1) := by omega
      have h2 := this (A.cols - (projDim + 1)) (by omega)
      rw [← e] at h2 ⊢
      exact h2
    · cases hY

theorem expLoop_principal {eigh : Eigh 𝕜} (he : EighSpec eigh) (A : Arr 𝕜) (p e : ℕ) (hA : A.cols = p + 1 + e) (fuel i : ℕ)
    (Z Y : Arr 𝕜) (hi : i ≤ Nat.log 2 e)
    (hZ : PrincipalReduction ((List.range i).map fun i => p + 1 + e / 2 ^ (i + 1)) A Z.T) (hr : Z.rows = p + 1 + e / 2 ^ i)
    (h : expLoop eigh ((p : ℤ) + 1) fuel ((e / 2 ^ (i + 1) : ℕ) : ℤ) Z = some Y) :
    PrincipalReduction ((List.range (Nat.log 2 e)).map fun i => p + 1 + e / 2 ^ (i + 1)) A Y.T ∧
      Y.rows = p + 1 + e / 2 ^ Nat.log 2 e := by
  have hstop : e / 2 ^ (i + 1) = 0 → i = Nat.log 2 e := by
    intro h0
    rcases Nat.eq_zero_or_pos e with rfl | he0
    · simp at hi ⊢; omega
    · have h1 : e < 2 ^ (i + 1) := by
        rcases Nat.div_eq_zero_iff.1 h0 with h | h
        · exact absurd h (by positivity)
        · exact h
      have := Nat.log_lt_of_lt_pow he0.ne' h1
      omega
  have hgo : 0 < e / 2 ^ (i + 1) → i + 1 ≤ Nat.log 2 e := by
    intro h0
    have h1 : 2 ^ (i + 1) ≤ e := by
      by_contra hc
      rw [Nat.div_eq_of_lt (by omega)] at h0
      omega
    exact Nat.le_log_of_pow_le (by norm_num) h1
  induction fuel generalizing i Z with
  | zero =>
    unfold expLoop at h
    split at h
    · cases h
    · injection h with h; subst h
      have := hstop (Nat.eq_zero_of_not_pos fun hp => by rename_i hn; exact hn (by exact_mod_cast hp))
      subst this
      exact ⟨hZ, hr⟩
  | succ f ih =>
    unfold expLoop at h
    split at h
    · rename_i hpos
      have hi' := hgo (by omega)
      have hle : e / 2 ^ (i + 1) ≤ e / 2 ^ i := Nat.div_le_div_left (Nat.pow_le_pow_right (by norm_num) (by omega)) (by positivity)
      have hs : sliceLen Z.rows ((p : ℤ) + 1 + ((e / 2 ^ (i + 1) : ℕ) : ℤ)) = p + 1 + e / 2 ^ (i + 1) := by
        rw [sliceLen_nonneg _ (by omega), hr]; omega
      have hdiv : (((e / 2 ^ (i + 1) : ℕ) : ℤ)) / 2 = ((e / 2 ^ (i + 1 + 1) : ℕ) : ℤ) := by
        rw [pow_succ 2 (i + 1), ← Nat.div_div_eq_div_mul]; norm_cast
      rw [hdiv] at h
      refine ih (i + 1) _ hi' ?_ hs h ?_ ?_
      · rw [List.range_succ, List.map_append]
        refine .snoc _ hZ ?_
        have := oneStep_principal he Z ((p : ℤ) + 1 + ((e / 2 ^ (i + 1) : ℕ) : ℤ))
        rw [hs] at this
        exact this
      · intro h0
        rcases Nat.eq_zero_or_pos e with rfl | he0
        · simp at hpos
        · have h1 : e < 2 ^ (i + 1 + 1) := by
            rcases Nat.div_eq_zero_iff.1 h0 with h | h
            · exact absurd h (by positivity)
            · exact h
          have := Nat.log_lt_of_lt_pow he0.ne' h1
          omega
      · intro h0
        have h1 : 2 ^ (i + 1 + 1) ≤ e := by
          by_contra hc
          rw [Nat.div_eq_of_lt (by omega)] at h0
          omega
        exact Nat.le_log_of_pow_le (by norm_num) h1
    · injection h with h; subst h
      have := hstop (Nat.eq_zero_of_not_pos fun hp => by rename_i hn; exact hn (by exact_mod_cast hp))
      subst this
      exact ⟨hZ, hr⟩

/-- **C104 (exponential).** In mode "exponential" the result is obtained by principal component reductions that halve the
number `e = n_dim - (projDim + 1)` of superfluous dimensions (rounded down) as long as possible; a last one goes to
`projDim + 1` dimensions. -/
theorem C104_exponential (eigh : Eigh 𝕜) (he : EighSpec eigh) (fuel : ℕ) (A : Arr 𝕜) (projDim e : ℕ)
    (hA : A.cols = projDim + 1 + e) (R : PpcaResult 𝕜) (h : ppca eigh fuel A projDim .exponential = .ok R) :
    PrincipalReduction (((List.range (Nat.log 2 e)).map fun i => projDim + 1 + e / 2 ^ (i + 1)) ++
      if e = 0 then [] else [projDim + 1]) A R.X := by
  rw [ppca_exponential _ _ _ _ (by omega)] at h
  rcases hY : exponentialMode eigh fuel A.T ((projDim : ℤ) + 1) with _ | Y
  · rw [hY] at h; cases h
  · rw [hY] at h
    injection h with h; subst h
    unfold exponentialMode at hY
    obtain ⟨Z, hZ, hY⟩ := Option.map_eq_some_iff.1 hY
    have hr : A.T.rows = projDim + 1 + e := hA
    have hk : ((A.T.rows : ℤ) - ((projDim : ℤ) + 1)) / 2 = ((e / 2 ^ (0 + 1) : ℕ) : ℤ) := by
      rw [hr]; push_cast
      rw [show ((projDim : ℤ) + 1 + e - (projDim + 1)) = e by ring]
    rw [hk] at hZ
    obtain ⟨h1, h2⟩ := expLoop_principal he A projDim e hA fuel 0 A.T Z (Nat.zero_le _) (.nil A) (by rw [hr]; simp) hZ
    subst hY
    by_cases he0 : e = 0
    · subst he0
      rw [if_pos rfl, List.append_nil]
      rw [if_neg (by rw [h2]; simp)]
      exact h1
    · have hpos : 0 < e / 2 ^ Nat.log 2 e := Nat.div_pos (Nat.pow_log_le_self 2 he0) (by positivity)
      rw [if_neg he0, if_pos (by rw [h2]; exact_mod_cast (by omega : projDim + 1 < projDim + 1 + e / 2 ^ Nat.log 2 e))]
      refine .snoc _ h1 ?_
      have := oneStep_principal he Z ((projDim : ℤ) + 1)
      rw [sliceLen_nonneg _ (by omega), h2, show min (projDim + 1 + e / 2 ^ Nat.log 2 e) ((projDim : ℤ) + 1).toNat = projDim + 1 by
        omega] at this
      exact this

/-! ### Eigenvector routines that keep the promise exist -/

theorem eigh_exists (n : ℕ) (g : ℕ → ℕ → 𝕜) (hg : ∀ i < n, ∀ j < n, star (g i j) = g j i) :
    ∃ (u : ℕ → ℕ → 𝕜) (lam : ℕ → ℝ), OrthonormalVecs n n (fun j i => u i j) ∧
      (∀ j < n, ∀ i < n, ∑ k ∈ Finset.range n, g i k * u k j = (lam j : 𝕜) * u i j) ∧
      ∀ j k, j ≤ k → k < n → lam j ≤ lam k := by
  have hH : (Matrix.of fun (i j : Fin n) => g i j).IsHermitian := by
    ext i j
    exact hg j j.2 i i.2
  set G := Matrix.of fun (i j : Fin n) => g i j with hG
  let e : Fin (Fintype.card (Fin n)) ≃ Fin n := Fintype.equivOfCardEq (Fintype.card_fin _)
  have hc : Fintype.card (Fin n) = n := Fintype.card_fin n
  have hlt : ∀ j < n, n - 1 - j < Fintype.card (Fin n) := fun j hj => by rw [hc]; omega
  let u : ℕ → ℕ → 𝕜 := fun i j => if h : i < n ∧ j < n then hH.eigenvectorBasis (e ⟨n - 1 - j, hlt j h.2⟩) ⟨i, h.1⟩ else 0
  let lam : ℕ → ℝ := fun j => if h : j < n then hH.eigenvalues₀ ⟨n - 1 - j, hlt j h⟩ else 0
  have hu : ∀ (i : Fin n) (j : ℕ) (hj : j < n), u i j = hH.eigenvectorBasis (e ⟨n - 1 - j, hlt j hj⟩) i :=
    fun i j hj => dif_pos ⟨i.2, hj⟩
  have hl : ∀ j (hj : j < n), lam j = hH.eigenvalues (e ⟨n - 1 - j, hlt j hj⟩) := by
    intro j hj
    simp only [lam, dif_pos hj, Matrix.IsHermitian.eigenvalues, e, Equiv.symm_apply_apply]
  refine ⟨u, lam, ?_, ?_, ?_⟩
  · intro j hj k hk
    have h1 := congrFun (congrFun (Matrix.mem_unitaryGroup_iff'.1 hH.eigenvectorUnitary.2) (e ⟨n - 1 - j, hlt j hj⟩)) (e ⟨n - 1 - k, hlt k hk⟩)
    rw [Matrix.mul_apply, Matrix.one_apply] at h1
    rw [Finset.sum_range]
    refine Eq.trans (Finset.sum_congr rfl fun i _ => ?_) (h1.trans ?_)
    · simp only [hu i j hj, hu i k hk]
      rfl
    · congr 1
      rw [e.injective.eq_iff, Fin.mk.injEq, eq_iff_iff]
      omega
  · intro j hj i hi
    have h1 := congrFun (hH.mulVec_eigenvectorBasis (e ⟨n - 1 - j, hlt j hj⟩)) ⟨i, hi⟩
    rw [Matrix.mulVec, dotProduct] at h1
    rw [Finset.sum_range]
    refine Eq.trans (Finset.sum_congr rfl fun k _ => ?_) (h1.trans ?_)
    · rw [hu k j hj]; rfl
    · rw [Pi.smul_apply, RCLike.real_smul_eq_coe_mul, hl j hj, show u i j = _ from hu ⟨i, hi⟩ j hj]
  · intro j k hjk hk
    simp only [lam, dif_pos hk, dif_pos (lt_of_le_of_lt hjk hk)]
    exact hH.eigenvalues₀_antitone (Fin.le_def.2 (by simp; omega))

/-- There is an eigenvector routine that keeps the promise. -/
theorem exists_eighSpec : ∃ eigh : Eigh 𝕜, EighSpec eigh := by
  classical
  refine ⟨fun n G => if h : ∀ i < n, ∀ j < n, star ((G i j).getD 0) = (G j i).getD 0 then
    some fun i j => some ((eigh_exists n (fun i j => (G i j).getD 0) h).choose i j) else none, ?_⟩
  intro n G g hG hg
  have hGd : ∀ i < n, ∀ j < n, (G i j).getD 0 = g i j := fun i hi j hj => by rw [hG i hi j hj]; rfl
  have h : ∀ i < n, ∀ j < n, star ((G i j).getD 0) = (G j i).getD 0 := fun i hi j hj => by
    rw [hGd i hi j hj, hGd j hj i hi, hg i hi j hj]
  obtain ⟨lam, h1, h2, h3⟩ := (eigh_exists n (fun i j => (G i j).getD 0) h).choose_spec
  refine ⟨_, (eigh_exists n (fun i j => (G i j).getD 0) h).choose, lam, by beta_reduce; rw [dif_pos h], fun i _ j _ => rfl, h1, ?_, h3⟩
  intro j hj i hi
  rw [← h2 j hj i hi]
  exact Finset.sum_congr rfl fun k hk => by rw [hGd i hi k (Finset.mem_range.1 hk)]

/-- The hypotheses of C103 and C104 are met, by any correct eigenvector routine: three data points `e₀, e₀, e₁` in three
dimensions span a plane, and the reduction to two dimensions returns two equal unit vectors and one orthogonal to them, in
every mode. -/
example : ∃ eigh : Eigh ℝ, EighSpec eigh ∧ ∀ mode, mode ≠ .other → ∃ R, ppca eigh 3 basisData 1 mode = .ok R ∧
    R.X.cols = 2 ∧ ∃ y : ℕ → ℕ → ℝ, (∀ n < 3, ∀ k < 2, R.X.at' n k = some (y n k)) ∧
      y 0 0 * y 1 0 + y 0 1 * y 1 1 = 1 ∧ y 0 0 * y 2 0 + y 0 1 * y 2 1 = 0 ∧ y 2 0 * y 2 0 + y 2 1 * y 2 1 = 1 := by
  obtain ⟨eigh, he⟩ := exists_eighSpec (𝕜 := ℝ)
  refine ⟨eigh, he, fun mode hm => ?_⟩
  obtain ⟨R, hR, h1, h2⟩ := C55_shape_partial eigh basisData 1 (le_refl 1) (by decide) mode hm 3 (by decide)
  obtain ⟨-, y, hy, hg⟩ := C103_lossless eigh he 3 basisData (fun n i => if i = (if n = 2 then 1 else 0) then 1 else 0)
    (fun n _ i _ => rfl) (by
      intro n hn
      have hn : n < 3 := hn
      show ∑ i ∈ Finset.range 3, _ = _
      interval_cases n <;> norm_num [Finset.sum_range_succ]) 1 (by decide)
    (fun k i => if i = k then 1 else 0) (fun n k => if k = (if n = 2 then 1 else 0) then 1 else 0) (by
      intro n hn i hi
      have hn : n < 3 := hn
      have hi : i < 3 := hi
      interval_cases n <;> interval_cases i <;> norm_num [Finset.sum_range_succ]) mode R hR
  rw [show 1 + 1 = 2 from rfl] at h2
  refine ⟨R, hR, h2, y, fun n hn k hk => hy n hn k (by omega), ?_, ?_, ?_⟩
  · have := hg 0 (by decide) 1 (by decide)
    rw [h2, show basisData.cols = 3 from rfl] at this
    simpa [Finset.sum_range_succ] using this
  · have := hg 0 (by decide) 2 (by decide)
    rw [h2, show basisData.cols = 3 from rfl] at this
    simpa [Finset.sum_range_succ] using this
  · have := hg 2 (by decide) 2 (by decide)
    rw [h2, show basisData.cols = 3 from rfl] at this
    simpa [Finset.sum_range_succ] using this

/-- C104 on the same data: each mode performs one reduction, to two dimensions, and the directions it uses capture all of the
energy (3). -/
example (eigh : Eigh ℝ) (he : EighSpec eigh) (R : PpcaResult ℝ) (h : ppca eigh 3 basisData 1 .direct = .ok R) :
    IsPrincipalStep 2 basisData R.X ∧ capturedEnergy 2 3 3 (fun k i => if i = k then (1 : ℝ) else 0)
      (fun n i => if i = (if n = 2 then 1 else 0) then 1 else 0) = 3 := by
  refine ⟨C104_direct eigh he 3 basisData 1 (by decide) R h, ?_⟩
  norm_num [capturedEnergy, Finset.sum_range_succ]

end Dreimac
