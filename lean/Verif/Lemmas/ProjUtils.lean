import Verif.Model.ProjUtils
import Verif.Spec.ProjUtils
import Mathlib.LinearAlgebra.Matrix.SchurComplement
import Mathlib.LinearAlgebra.Matrix.NonsingularInverse
import Mathlib.Data.Matrix.Mul
import Mathlib.Tactic.Linarith
import Mathlib.Tactic.FieldSimp
import Mathlib.Tactic.LinearCombination

/-!
# Lemmas about `rotmat`
-/

namespace Dreimac

open Matrix

noncomputable section

theorem dotP_comm (d : ℕ) (x y : ℕ → ℝ) : dotP d x y = dotP d y x :=
  Finset.sum_congr rfl fun k _ => mul_comm _ _

theorem dotP_congr {d : ℕ} {x x' y y' : ℕ → ℝ} (h : EqVec d x x') (h' : EqVec d y y') : dotP d x y = dotP d x' y' :=
  Finset.sum_congr rfl fun k hk => by rw [h k (Finset.mem_range.1 hk), h' k (Finset.mem_range.1 hk)]

theorem dotP_lin (d : ℕ) (z x y : ℕ → ℝ) (s t : ℝ) :
    dotP d z (fun k => s * x k + t * y k) = s * dotP d z x + t * dotP d z y := by
  unfold dotP
  rw [Finset.mul_sum, Finset.mul_sum, ← Finset.sum_add_distrib]
  exact Finset.sum_congr rfl fun k _ => by ring

theorem dotP_smul (d : ℕ) (z x : ℕ → ℝ) (s : ℝ) : dotP d z (fun k => s * x k) = s * dotP d z x := by
  unfold dotP
  rw [Finset.mul_sum]
  exact Finset.sum_congr rfl fun k _ => by ring

theorem dotP_self_nonneg (d : ℕ) (x : ℕ → ℝ) : 0 ≤ dotP d x x := Finset.sum_nonneg fun k _ => mul_self_nonneg _

theorem dotP_self_eq_zero {d : ℕ} {x : ℕ → ℝ} (h : dotP d x x = 0) : ∀ k < d, x k = 0 := fun k hk =>
  mul_self_eq_zero.1 ((Finset.sum_eq_zero_iff_of_nonneg fun k _ => mul_self_nonneg _).1 h k (Finset.mem_range.2 hk))

theorem NonzeroVec.pos {d : ℕ} {x : ℕ → ℝ} (h : NonzeroVec d x) : 0 < dotP d x x := by
  obtain ⟨k, hk, hne⟩ := h
  refine lt_of_le_of_ne (dotP_self_nonneg d x) fun he => hne (dotP_self_eq_zero he.symm k hk)

theorem npNorm_eq (d : ℕ) (x : ℕ → ℝ) : npNorm d x = √(dotP d x x) := by
  unfold npNorm dotP
  congr 1
  exact Finset.sum_congr rfl fun k _ => by ring

theorem direction_unit {d : ℕ} {x : ℕ → ℝ} (h : NonzeroVec d x) : UnitVec d (direction d x) := by
  have hp := h.pos
  have hs : √(dotP d x x) ≠ 0 := (Real.sqrt_pos.2 hp).ne'
  have h1 : dotP d (direction d x) (direction d x) = (1 / √(dotP d x x)) * ((1 / √(dotP d x x)) * dotP d x x) := by
    unfold direction
    have : (fun k => x k / √(dotP d x x)) = fun k => (1 / √(dotP d x x)) * x k := by funext k; ring
    rw [this, dotP_smul, dotP_comm d (fun k => 1 / √(dotP d x x) * x k) x, dotP_smul]
  unfold UnitVec
  rw [h1]
  have := Real.mul_self_sqrt hp.le
  field_simp
  rw [sq, this]

theorem dotP_comb (d : ℕ) (x y : ℕ → ℝ) (s t : ℝ) :
    dotP d (fun k => s * x k + t * y k) (fun k => s * x k + t * y k)
      = s ^ 2 * dotP d x x + 2 * s * t * dotP d x y + t ^ 2 * dotP d y y := by
  rw [dotP_lin, dotP_comm d (fun k => s * x k + t * y k) x, dotP_comm d (fun k => s * x k + t * y k) y, dotP_lin, dotP_lin,
    dotP_comm d y x]
  ring

/-- Unit vectors with inner product 1 are equal. -/
theorem eq_of_dot_one {d : ℕ} {x y : ℕ → ℝ} (hx : UnitVec d x) (hy : UnitVec d y) (h : dotP d x y = 1) : EqVec d x y := by
  have h0 : dotP d (fun k => 1 * x k + (-1) * y k) (fun k => 1 * x k + (-1) * y k) = 0 := by
    rw [dotP_lin, dotP_comm d _ x, dotP_comm d _ y, dotP_lin, dotP_lin, dotP_comm d y x, h, hx, hy]
    ring
  intro k hk
  have := dotP_self_eq_zero h0 k hk
  linarith

/-- The matrix computed by `rotmat` from an orthonormal pair. -/
def coreRot (b c : ℕ → ℝ) (lam beta : ℝ) : ℕ → ℕ → ℝ := fun i j =>
  (if i = j then 1 else 0) - (1 - lam) * (c i * c j) - (1 - lam) * (b i * b j) + beta * (b i * c j - c i * b j)

theorem coreRot_apply {d : ℕ} (b c : ℕ → ℝ) (lam beta : ℝ) (x : ℕ → ℝ) {i : ℕ} (hi : i < d) :
    mulV d (coreRot b c lam beta) x i = x i - (1 - lam) * (c i * dotP d c x) - (1 - lam) * (b i * dotP d b x)
      + beta * (b i * dotP d c x - c i * dotP d b x) := by
  have h1 : ∑ k ∈ Finset.range d, (if i = k then (1 : ℝ) else 0) * x k = x i := by
    rw [Finset.sum_eq_single i]
    · simp
    · intro k _ hk; rw [if_neg (Ne.symm hk), zero_mul]
    · intro h; exact absurd (Finset.mem_range.2 hi) h
  unfold mulV dotP coreRot
  have h2 : ∀ k, ((if i = k then (1 : ℝ) else 0) - (1 - lam) * (c i * c k) - (1 - lam) * (b i * b k)
      + beta * (b i * c k - c i * b k)) * x k = (if i = k then (1 : ℝ) else 0) * x k
      + ((-(1 - lam) * c i + beta * b i) * (c k * x k) + (-(1 - lam) * b i - beta * c i) * (b k * x k)) := by
    intro k; ring
  rw [Finset.sum_congr rfl fun k _ => h2 k, Finset.sum_add_distrib, Finset.sum_add_distrib, h1, ← Finset.mul_sum,
    ← Finset.mul_sum]
  ring

/-- `b`, `c` orthonormal and `lam ^ 2 + beta ^ 2 = 1`. -/
structure CoreHyp (d : ℕ) (b c : ℕ → ℝ) (lam beta : ℝ) : Prop where
  bb : dotP d b b = 1
  cc : dotP d c c = 1
  bc : dotP d b c = 0
  unit : lam ^ 2 + beta ^ 2 = 1

theorem coreRot_c {d : ℕ} {b c : ℕ → ℝ} {lam beta : ℝ} (h : CoreHyp d b c lam beta) {i : ℕ} (hi : i < d) :
    mulV d (coreRot b c lam beta) c i = lam * c i + beta * b i := by
  rw [coreRot_apply b c lam beta c hi, h.cc, h.bc]; ring

theorem coreRot_b {d : ℕ} {b c : ℕ → ℝ} {lam beta : ℝ} (h : CoreHyp d b c lam beta) {i : ℕ} (hi : i < d) :
    mulV d (coreRot b c lam beta) b i = lam * b i - beta * c i := by
  rw [coreRot_apply b c lam beta b hi, h.bb, dotP_comm d c b, h.bc]; ring

theorem coreRot_orth {d : ℕ} {b c : ℕ → ℝ} {lam beta : ℝ} (h : CoreHyp d b c lam beta) {i j : ℕ} (hi : i < d)
    (hj : j < d) :
    dotP d (coreRot b c lam beta i) (coreRot b c lam beta j) = if i = j then 1 else 0 := by
  have h1 := coreRot_apply (d := d) b c lam beta (coreRot b c lam beta j) hi
  have hc : dotP d c (coreRot b c lam beta j) = lam * c j + beta * b j := by
    rw [dotP_comm]; exact coreRot_c h hj
  have hb : dotP d b (coreRot b c lam beta j) = lam * b j - beta * c j := by
    rw [dotP_comm]; exact coreRot_b h hj
  rw [hc, hb] at h1
  have h2 : dotP d (coreRot b c lam beta i) (coreRot b c lam beta j)
      = mulV d (coreRot b c lam beta) (coreRot b c lam beta j) i := rfl
  rw [h2, h1]
  have h3 : coreRot b c lam beta j i = (if i = j then 1 else 0) - (1 - lam) * (c j * c i) - (1 - lam) * (b j * b i)
      + beta * (b j * c i - c j * b i) := by
    unfold coreRot
    congr 3
    exact if_congr eq_comm rfl rfl
  rw [h3]
  linear_combination (c i * c j + b i * b j) * h.unit

theorem dotP_fin (d : ℕ) (x y : ℕ → ℝ) : dotP d x y = ∑ k : Fin d, x k * y k :=
  Finset.sum_range fun k => x k * y k

theorem coreRot_det {d : ℕ} {b c : ℕ → ℝ} {lam beta : ℝ} (h : CoreHyp d b c lam beta) :
    (toMat d (coreRot b c lam beta)).det = 1 := by
  let U : Matrix (Fin d) (Fin 2) ℝ := Matrix.of fun i s => if s = 0 then c i else b i
  let V : Matrix (Fin 2) (Fin d) ℝ :=
    Matrix.of fun s j => if s = 0 then -(1 - lam) * c j - beta * b j else -(1 - lam) * b j + beta * c j
  have h1 : toMat d (coreRot b c lam beta) = 1 + U * V := by
    ext i j
    rw [Matrix.add_apply, Matrix.mul_apply, Fin.sum_univ_two, Matrix.one_apply]
    simp only [toMat, coreRot, U, V, Matrix.of_apply, Fin.ext_iff]
    simp
    ring
  have hVU : ∀ s t, (V * U) s t = if s = 0 then (if t = 0 then -(1 - lam) else -beta)
      else (if t = 0 then beta else -(1 - lam)) := by
    have hcc : ∑ k : Fin d, c k * c k = 1 := by rw [← dotP_fin]; exact h.cc
    have hbb : ∑ k : Fin d, b k * b k = 1 := by rw [← dotP_fin]; exact h.bb
    have hbc : ∑ k : Fin d, b k * c k = 0 := by rw [← dotP_fin]; exact h.bc
    have e : ∀ (x y z w : ℝ), ∑ k : Fin d, (x * c k + y * b k) * (z * c k + w * b k) = x * z + y * w := by
      intro x y z w
      have : ∀ k : Fin d, (x * c k + y * b k) * (z * c k + w * b k)
          = (x * z) * (c k * c k) + (y * w) * (b k * b k) + (x * w + y * z) * (b k * c k) := fun k => by ring
      rw [Finset.sum_congr rfl fun k _ => this k, Finset.sum_add_distrib, Finset.sum_add_distrib, ← Finset.mul_sum,
        ← Finset.mul_sum, ← Finset.mul_sum, hcc, hbb, hbc]
      ring
    intro s t
    rw [Matrix.mul_apply]
    fin_cases s <;> fin_cases t
    · refine Eq.trans (Finset.sum_congr rfl fun k _ => ?_) ((e (-(1 - lam)) (-beta) 1 0).trans (by simp))
      simp only [U, V, Matrix.of_apply, Fin.zero_eta, Fin.mk_one, Fin.isValue, one_ne_zero, ↓reduceIte]
      ring
    · refine Eq.trans (Finset.sum_congr rfl fun k _ => ?_) ((e (-(1 - lam)) (-beta) 0 1).trans (by simp))
      simp only [U, V, Matrix.of_apply, Fin.zero_eta, Fin.mk_one, Fin.isValue, one_ne_zero, ↓reduceIte]
      ring
    · refine Eq.trans (Finset.sum_congr rfl fun k _ => ?_) ((e beta (-(1 - lam)) 1 0).trans (by simp))
      simp only [U, V, Matrix.of_apply, Fin.zero_eta, Fin.mk_one, Fin.isValue, one_ne_zero, ↓reduceIte]
      ring
    · refine Eq.trans (Finset.sum_congr rfl fun k _ => ?_) ((e beta (-(1 - lam)) 0 1).trans (by simp))
      simp only [U, V, Matrix.of_apply, Fin.zero_eta, Fin.mk_one, Fin.isValue, one_ne_zero, ↓reduceIte]
      ring
  rw [h1, Matrix.det_one_add_mul_comm, Matrix.det_fin_two]
  simp only [Matrix.add_apply, hVU, Matrix.one_apply]
  simp
  linear_combination h.unit

/-! ### The two cases of `rotmat` -/

/-- The second argument of `rotmat`. -/
def rotTarget (d : ℕ) (b : Option (ℕ → ℝ)) : ℕ → ℝ := b.getD (lastVec d)

theorem northPole_eq {d : ℕ} (hd : 0 < d) : northPole d = lastVec d := by
  funext k
  unfold northPole lastVec
  exact if_congr (by omega) rfl rfl

theorem lastVec_unit {d : ℕ} (hd : 0 < d) : UnitVec d (lastVec d) := by
  unfold UnitVec dotP lastVec
  rw [Finset.sum_eq_single (d - 1)]
  · rw [if_pos (by omega)]; ring
  · intro k hk hne
    rw [Finset.mem_range] at hk
    rw [if_neg (by omega)]; ring
  · intro h; exact absurd (Finset.mem_range.2 (by omega)) h

theorem lastVec_nonzero {d : ℕ} (hd : 0 < d) : NonzeroVec d (lastVec d) :=
  ⟨d - 1, by omega, by unfold lastVec; rw [if_pos (by omega)]; exact one_ne_zero⟩

theorem direction_lastVec {d : ℕ} (hd : 0 < d) : direction d (lastVec d) = lastVec d := by
  unfold direction
  rw [show dotP d (lastVec d) (lastVec d) = 1 from lastVec_unit hd]
  funext k; simp

/-- The identity matrix. -/
def idMat : ℕ → ℕ → ℝ := fun i j => if i = j then 1 else 0

theorem idMat_apply {d : ℕ} (x : ℕ → ℝ) {i : ℕ} (hi : i < d) : mulV d idMat x i = x i := by
  unfold mulV dotP idMat
  rw [Finset.sum_eq_single i]
  · simp
  · intro k _ hk; rw [if_neg (Ne.symm hk), zero_mul]
  · intro h; exact absurd (Finset.mem_range.2 hi) h

open Classical in
/-- `rotmat` after normalisation. -/
def rotmatN (d : ℕ) (a b : ℕ → ℝ) : ℕ → ℕ → ℝ :=
  let c := fun k => a k - npDot d b a * b k
  if npNorm d c < 1 / 10 ^ 15 then fun i j => if i = j then 1 else 0
  else
    let c := fun k => c k / npNorm d c
    let lam := npDot d b a
    let beta := √(1 - |lam| ^ 2)
    fun i j => (if i = j then 1 else 0) - (1 - lam) * (c i * c j) - (1 - lam) * (b i * b j)
      + beta * (b i * c j - c i * b j)

theorem rotmat_eq_N (d : ℕ) (a : ℕ → ℝ) (b : Option (ℕ → ℝ)) :
    rotmat d a b = rotmatN d (fun k => a k / npNorm d a)
      (fun k => (b.getD (northPole d)) k / npNorm d (b.getD (northPole d))) := rfl

theorem rotmat_cases {d : ℕ} (hd : 0 < d) {a : ℕ → ℝ} {b : Option (ℕ → ℝ)} (ha : NonzeroVec d a)
    (hb : NonzeroVec d (rotTarget d b)) :
    (distToLine d (direction d a) (direction d (rotTarget d b)) < 1 / 10 ^ 15 ∧ rotmat d a b = idMat) ∨
    (1 / 10 ^ 15 ≤ distToLine d (direction d a) (direction d (rotTarget d b)) ∧
      ∃ c lam beta, CoreHyp d (direction d (rotTarget d b)) c lam beta ∧
        rotmat d a b = coreRot (direction d (rotTarget d b)) c lam beta ∧
        ∀ k, direction d a k = lam * direction d (rotTarget d b) k + beta * c k) := by
  set A := direction d a with hA
  set B := direction d (rotTarget d b) with hB
  have hAu : dotP d A A = 1 := direction_unit ha
  have hBu : dotP d B B = 1 := direction_unit hb
  have eA : (fun k => a k / npNorm d a) = A := by rw [npNorm_eq]; rfl
  have eB : (fun k => (b.getD (northPole d)) k / npNorm d (b.getD (northPole d))) = B := by
    rw [npNorm_eq, northPole_eq hd]; rfl
  have eC : npNorm d (fun k => A k - npDot d B A * B k) = distToLine d A B := by
    rw [npNorm_eq, show npDot d B A = dotP d A B from dotP_comm d B A]; rfl
  set lam := dotP d A B with hlam
  have hn2 : dotP d (fun k => A k - lam * B k) (fun k => A k - lam * B k) = 1 - lam ^ 2 := by
    have e : (fun k => A k - lam * B k) = fun k => 1 * A k + (-lam) * B k := by funext k; ring
    rw [e, dotP_lin, dotP_comm d _ A, dotP_comm d _ B, dotP_lin, dotP_lin, hAu, hBu, dotP_comm d B A, ← hlam]
    ring
  have hdl : distToLine d A B = √(1 - lam ^ 2) := by unfold distToLine; rw [← hlam, hn2]
  by_cases hlt : distToLine d A B < 1 / 10 ^ 15
  · left
    refine ⟨hlt, ?_⟩
    rw [rotmat_eq_N, eA, eB]
    unfold rotmatN
    simp only [eC]
    rw [if_pos hlt]
    funext i j
    unfold idMat
    by_cases h : i = j <;> simp [h]
  · right
    refine ⟨not_lt.mp hlt, ?_⟩
    set n := distToLine d A B with hn
    have hnpos : 0 < n := lt_of_lt_of_le (by positivity) (not_lt.mp hlt)
    have hn1 : n ^ 2 = 1 - lam ^ 2 := by
      rw [hdl, Real.sq_sqrt]
      rw [hdl] at hnpos
      exact (Real.sqrt_pos.1 hnpos).le
    refine ⟨fun k => (A k - lam * B k) / n, lam, n, ⟨hBu, ?_, ?_, by linarith⟩, ?_, ?_⟩
    · have e : (fun k => (A k - lam * B k) / n) = fun k => (1 / n) * (A k - lam * B k) := by funext k; ring
      rw [e, dotP_smul, dotP_comm, dotP_smul, hn2, ← hn1]
      field_simp
    · have e : (fun k => (A k - lam * B k) / n) = fun k => (1 / n) * A k + (-(lam / n)) * B k := by funext k; ring
      rw [e, dotP_lin, hBu, dotP_comm d B A, ← hlam]
      ring
    · rw [rotmat_eq_N, eA, eB]
      unfold rotmatN
      simp only [eC]
      rw [if_neg hlt]
      have e1 : npDot d B A = lam := dotP_comm d B A
      rw [e1]
      have e2 : √(1 - |lam| ^ 2) = n := by rw [sq_abs, ← hdl]
      rw [e2]
      rfl
    · intro k
      field_simp
      ring

/-- A matrix that acts as an isometry with orthonormal rows. -/
structure RotIso (d : ℕ) (R : ℕ → ℕ → ℝ) : Prop where
  orth : ∀ i < d, ∀ j < d, dotP d (R i) (R j) = if i = j then 1 else 0
  det : (toMat d R).det = 1
  iso : ∀ x, dotP d (mulV d R x) (mulV d R x) = dotP d x x

theorem RotIso.of_orth {d : ℕ} {R : ℕ → ℕ → ℝ} (orth : ∀ i < d, ∀ j < d, dotP d (R i) (R j) = if i = j then 1 else 0)
    (det : (toMat d R).det = 1) : RotIso d R := by
  refine ⟨orth, det, fun x => ?_⟩
  have h1 : toMat d R * (toMat d R)ᵀ = 1 := by
    ext i j
    rw [Matrix.mul_apply, Matrix.one_apply]
    have := orth i i.2 j j.2
    rw [dotP_fin] at this
    simp only [toMat, Matrix.transpose_apply, Matrix.of_apply, this, Fin.ext_iff]
  have h2 : (toMat d R)ᵀ * toMat d R = 1 := mul_eq_one_comm.1 h1
  have h3 : ∀ i : Fin d, mulV d R x i = (toMat d R *ᵥ fun k : Fin d => x k) i := by
    intro i
    unfold mulV
    rw [dotP_fin]
    rfl
  rw [dotP_fin, dotP_fin]
  simp only [h3]
  show (toMat d R *ᵥ fun k : Fin d => x k) ⬝ᵥ (toMat d R *ᵥ fun k : Fin d => x k) = (fun k : Fin d => x k) ⬝ᵥ (fun k : Fin d => x k)
  rw [Matrix.dotProduct_mulVec, Matrix.vecMul_mulVec, h2, Matrix.vecMul_one]

theorem rotmat_iso {d : ℕ} (hd : 0 < d) {a : ℕ → ℝ} {b : Option (ℕ → ℝ)} (ha : NonzeroVec d a)
    (hb : NonzeroVec d (rotTarget d b)) : RotIso d (rotmat d a b) := by
  rcases rotmat_cases hd ha hb with ⟨-, h⟩ | ⟨-, c, lam, beta, hc, h, -⟩
  · rw [h]
    refine RotIso.of_orth (fun i hi j hj => ?_) ?_
    · have := idMat_apply (d := d) (idMat j) hi
      unfold mulV at this
      rw [this]
      unfold idMat
      exact if_congr eq_comm rfl rfl
    · have : toMat d idMat = 1 := by
        ext i j
        simp [toMat, idMat, Matrix.one_apply, Fin.ext_iff]
      rw [this, Matrix.det_one]
  · rw [h]
    exact RotIso.of_orth (fun i hi j hj => coreRot_orth hc hi hj) (coreRot_det hc)

theorem RotIso.injective {d : ℕ} {R : ℕ → ℕ → ℝ} (h : RotIso d R) {x y : ℕ → ℝ} {s t : ℝ}
    (he : ∀ i < d, s * mulV d R x i = t * mulV d R y i) : ∀ k < d, s * x k = t * y k := by
  have h1 := h.iso fun k => s * x k + (-t) * y k
  have h2 : ∀ i < d, mulV d R (fun k => s * x k + (-t) * y k) i = 0 := by
    intro i hi
    unfold mulV
    rw [dotP_lin]
    have := he i hi
    unfold mulV at this
    linarith
  have h3 : dotP d (mulV d R fun k => s * x k + (-t) * y k) (mulV d R fun k => s * x k + (-t) * y k) = 0 :=
    Finset.sum_eq_zero fun i hi => by rw [h2 i (Finset.mem_range.1 hi)]; ring
  rw [h3] at h1
  intro k hk
  have := dotP_self_eq_zero h1.symm k hk
  linarith

end

end Dreimac
