import Mathlib.LinearAlgebra.Matrix.Determinant.Basic
import Mathlib.Data.Matrix.Basic
import Mathlib.Tactic.Linarith
import Mathlib.Tactic.FieldSimp
import Mathlib.Tactic.Ring
import Mathlib.Tactic.NoncommRing
import Mathlib.Tactic.LinearCombination
import Mathlib.Tactic.Positivity
import Verif.Model.LLL

namespace Dreimac

open Matrix

section rint
variable {F : Type} [Field F] [LinearOrder F] [IsStrictOrderedRing F] [FloorRing F]

theorem abs_sub_rint (x : F) : |x - rint x| ≤ 1 / 2 := by
  have hfl := Int.floor_le x
  have hlt := Int.lt_floor_add_one x
  have hfr : Int.fract x = x - ⌊x⌋ := rfl
  unfold rint
  rw [hfr]
  split
  · rw [abs_le]; constructor <;> linarith
  · split
    · push_cast; rw [abs_le]; constructor <;> linarith
    · have : x - ⌊x⌋ = 1 / 2 := by
        rename_i h1 h2; linarith [not_lt.1 h1, not_lt.1 h2]
      split
      · rw [abs_le]; constructor <;> linarith
      · push_cast; rw [abs_le]; constructor <;> linarith

end rint

section unimodular
variable {K : Type} [Field K] [LinearOrder K] [IsStrictOrderedRing K] [FloorRing K] {n : ℕ}

/-- `C` is an integral matrix of determinant `±1` and `B = B₀ C`. -/
def Unimodular (B₀ B C : Matrix (Fin n) (Fin n) K) : Prop :=
  ∃ U : Matrix (Fin n) (Fin n) ℤ, C = U.map (fun z => (z : K)) ∧ (U.det = 1 ∨ U.det = -1) ∧ B = B₀ * C

theorem mul_col (A B : Matrix (Fin n) (Fin n) K) (j : Fin n) : (A * B).col j = A *ᵥ B.col j := by
  ext i; simp [Matrix.mul_apply, Matrix.mulVec, dotProduct]

theorem unimodular_reduce {B₀ B C : Matrix (Fin n) (Fin n) K} (h : Unimodular B₀ B C) {k j : Fin n} (hkj : k ≠ j)
    (r : ℤ) : Unimodular B₀ (B.updateCol k (B.col k - (r : K) • B.col j)) (C.updateCol k (C.col k - (r : K) • C.col j)) := by
  obtain ⟨U, hC, hdet, hB⟩ := h
  refine ⟨U.updateCol k (fun i => U i k + (-r) • U i j), ?_, ?_, ?_⟩
  · rw [Matrix.map_updateCol, hC]
    congr 1
    ext i
    simp; ring
  · rw [Matrix.det_updateCol_add_smul_self U hkj]; exact hdet
  · rw [Matrix.mul_updateCol, ← hB, Matrix.mulVec_sub, Matrix.mulVec_smul, ← mul_col, ← mul_col, ← hB]

theorem swapCols_eq {R : Type} (B : Matrix (Fin n) (Fin n) R) {k k1 : Fin n} (h : k ≠ k1) :
    swapCols B k k1 = B.submatrix id (Equiv.swap k k1) := by
  ext i j
  unfold swapCols
  rw [Matrix.submatrix_apply]
  by_cases h1 : j = k1
  · subst h1; rw [Matrix.updateCol_self, Equiv.swap_apply_right]; rfl
  · rw [Matrix.updateCol_ne h1]
    by_cases h2 : j = k
    · subst h2; rw [Matrix.updateCol_self, Equiv.swap_apply_left]; rfl
    · rw [Matrix.updateCol_ne h2, Equiv.swap_apply_of_ne_of_ne h2 h1]; rfl

theorem unimodular_swap {B₀ B C : Matrix (Fin n) (Fin n) K} (h : Unimodular B₀ B C) {k k1 : Fin n} (hk : k ≠ k1) :
    Unimodular B₀ (swapCols B k k1) (swapCols C k k1) := by
  obtain ⟨U, hC, hdet, hB⟩ := h
  refine ⟨swapCols U k k1, ?_, ?_, ?_⟩
  · rw [swapCols_eq C hk, swapCols_eq U hk, hC]; rfl
  · rw [swapCols_eq U hk, Matrix.det_permute', Equiv.Perm.sign_swap hk]
    rcases hdet with h | h <;> simp [h]
  · rw [swapCols_eq B hk, swapCols_eq C hk, hB]
    ext i j; simp [Matrix.mul_apply]

theorem unimodular_lengthReduce {B₀ : Matrix (Fin n) (Fin n) K} {s} (h : Unimodular B₀ s.1 s.2) {k j : Fin n}
    (hkj : j < k) : Unimodular B₀ (lengthReduce k s j).1 (lengthReduce k s j).2 := by
  unfold lengthReduce
  split
  · exact unimodular_reduce h (ne_of_gt hkj) _
  · exact h

theorem unimodular_foldl {B₀ : Matrix (Fin n) (Fin n) K} {k : Fin n} (l : List (Fin n)) (hl : ∀ j ∈ l, j < k) (s)
    (h : Unimodular B₀ s.1 s.2) :
    Unimodular B₀ (l.foldl (lengthReduce k) s).1 (l.foldl (lengthReduce k) s).2 := by
  induction l generalizing s with
  | nil => exact h
  | cons j l ih =>
    rw [List.foldl_cons]
    exact ih (fun i hi => hl i (by simp [hi])) _ (unimodular_lengthReduce h (hl j (by simp)))

theorem unimodular_step (delta : K) {B₀ : Matrix (Fin n) (Fin n) K} {s : LLLState K n} (hk : 1 ≤ s.k)
    (h : Unimodular B₀ s.B s.change) :
    1 ≤ (lllStep delta s).k ∧ Unimodular B₀ (lllStep delta s).B (lllStep delta s).change := by
  unfold lllStep
  split
  · rename_i hlt
    have hf := unimodular_foldl (B₀ := B₀) (k := ⟨s.k, hlt⟩) (below ⟨s.k, hlt⟩).reverse
      (fun j hj => by simpa [below] using hj) (s.B, s.change) h
    simp only
    split
    · exact ⟨by simp, hf⟩
    · refine ⟨le_max_right _ _, unimodular_swap hf ?_⟩
      rw [Ne, Fin.mk.injEq]; omega
  · exact ⟨hk, h⟩

theorem unimodular_run (delta : K) (m : ℕ) (B₀ : Matrix (Fin n) (Fin n) K) :
    1 ≤ (lllRun delta m (lllInit B₀)).k ∧
      Unimodular B₀ (lllRun delta m (lllInit B₀)).B (lllRun delta m (lllInit B₀)).change := by
  induction m with
  | zero => exact ⟨le_refl _, 1, by simp [lllRun, lllInit], Or.inl (by simp), by simp [lllRun, lllInit]⟩
  | succ m ih =>
    unfold lllRun at ih ⊢
    rw [Function.iterate_succ_apply']
    exact unimodular_step delta ih.1 ih.2

end unimodular

/-! ### Two classes -/

section two
variable {K : Type} [Field K] [LinearOrder K] [IsStrictOrderedRing K] [FloorRing K]

/-- Gram entries of the two columns. -/
def gram2 (B : Matrix (Fin 2) (Fin 2) K) (i j : Fin 2) : K := B.col i ⬝ᵥ B.col j

theorem below_zero : below (0 : Fin 2) = [] := by decide
theorem below_one : below (1 : Fin 2) = [0] := by decide

theorem gs2_zero (B : Matrix (Fin 2) (Fin 2) K) : (gramSchmidt B).col 0 = B.col 0 := by
  ext r; simp [gramSchmidt, below_zero, Matrix.col]

theorem gs2_one (B : Matrix (Fin 2) (Fin 2) K) : (gramSchmidt B).col 1 = B.col 1 - proj (B.col 0) (B.col 1) := by
  ext r; simp [gramSchmidt, below_one, Matrix.col]

theorem mu2 (B : Matrix (Fin 2) (Fin 2) K) : lllMu B 1 0 = gram2 B 1 0 / gram2 B 0 0 := by
  unfold lllMu gram2; rw [gs2_zero]

theorem gram2_comm (B : Matrix (Fin 2) (Fin 2) K) : gram2 B 0 1 = gram2 B 1 0 := dotProduct_comm _ _

theorem gs2_norm (B : Matrix (Fin 2) (Fin 2) K) (h : gram2 B 0 0 ≠ 0) :
    (gramSchmidt B).col 1 ⬝ᵥ (gramSchmidt B).col 1 = gram2 B 1 1 - gram2 B 1 0 ^ 2 / gram2 B 0 0 := by
  rw [gs2_one]
  unfold proj
  simp only [sub_dotProduct, dotProduct_sub, smul_dotProduct, dotProduct_smul, smul_eq_mul]
  have e1 : B.col 0 ⬝ᵥ B.col 1 = gram2 B 1 0 := gram2_comm B
  have e2 : B.col 1 ⬝ᵥ B.col 0 = gram2 B 1 0 := rfl
  have e3 : B.col 0 ⬝ᵥ B.col 0 = gram2 B 0 0 := rfl
  have e4 : B.col 1 ⬝ᵥ B.col 1 = gram2 B 1 1 := rfl
  rw [e1, e2, e3, e4]
  field_simp
  ring

theorem det_sq (B : Matrix (Fin 2) (Fin 2) K) : gram2 B 0 0 * gram2 B 1 1 - gram2 B 1 0 ^ 2 = B.det ^ 2 := by
  simp only [gram2, dotProduct, Fin.sum_univ_two, Matrix.det_fin_two, Matrix.col_apply]
  ring

theorem gram2_pos (B : Matrix (Fin 2) (Fin 2) K) (h : B.det ≠ 0) : 0 < gram2 B 0 0 := by
  have h1 : 0 ≤ gram2 B 0 0 := by
    simp only [gram2, dotProduct, Fin.sum_univ_two]
    nlinarith [mul_self_nonneg (B.col 0 0), mul_self_nonneg (B.col 0 1)]
  rcases h1.lt_or_eq with h2 | h2
  · exact h2
  · have := det_sq B
    rw [← h2] at this
    have h3 : 0 < B.det ^ 2 := by positivity
    nlinarith [sq_nonneg (gram2 B 1 0)]

/-- The result of the length reduction of column 1 by column 0. -/
theorem reduce2 (B C : Matrix (Fin 2) (Fin 2) K) (h : B.det ≠ 0) :
    ∃ B' C', lengthReduce 1 (B, C) 0 = (B', C') ∧ gram2 B' 0 0 = gram2 B 0 0 ∧ B'.det = B.det ∧
      |lllMu B' 1 0| ≤ 1 / 2 ∧ gram2 B' 1 1 ≤ gram2 B 1 1 := by
  have hp := gram2_pos B h
  unfold lengthReduce
  split
  · rename_i hmu
    simp only at hmu
    set r := rint (lllMu B 1 0) with hr
    refine ⟨_, _, rfl, ?_, ?_, ?_, ?_⟩
    · simp [gram2, dotProduct, Matrix.updateCol_apply]
    · simp only [Matrix.det_fin_two]
      simp [Matrix.updateCol_apply]; ring
    · rw [mu2]
      have e0 : gram2 (B.updateCol 1 (B.col 1 - (r : K) • B.col 0)) 0 0 = gram2 B 0 0 := by
        simp [gram2, dotProduct, Matrix.updateCol_apply]
      have e1 : gram2 (B.updateCol 1 (B.col 1 - (r : K) • B.col 0)) 1 0 = gram2 B 1 0 - r * gram2 B 0 0 := by
        simp [gram2, dotProduct, Matrix.updateCol_apply]; ring
      rw [e0, e1, sub_div, mul_div_assoc, div_self hp.ne', mul_one, ← mu2]
      exact abs_sub_rint _
    · have e1 : gram2 (B.updateCol 1 (B.col 1 - (r : K) • B.col 0)) 1 1 =
          gram2 B 1 1 - 2 * r * gram2 B 1 0 + r ^ 2 * gram2 B 0 0 := by
        simp [gram2, dotProduct, Matrix.updateCol_apply]; ring
      simp only
      rw [e1]
      have hx : gram2 B 1 0 = lllMu B 1 0 * gram2 B 0 0 := by rw [mu2]; field_simp
      have h3 := abs_sub_rint (lllMu B 1 0)
      rw [← hr] at h3
      set x := lllMu B 1 0
      rw [hx]
      have h4 : (x - r) ^ 2 ≤ x ^ 2 := by
        rw [sq_le_sq]; exact h3.trans hmu.le
      have : (x - r) ^ 2 * gram2 B 0 0 ≤ x ^ 2 * gram2 B 0 0 := mul_le_mul_of_nonneg_right h4 hp.le
      nlinarith
  · rename_i hmu
    exact ⟨B, C, rfl, rfl, rfl, not_lt.1 hmu, le_refl _⟩

/-- One iteration for two classes. -/
theorem step2 (B C : Matrix (Fin 2) (Fin 2) K) (h : B.det ≠ 0) :
    ∃ B' C', gram2 B' 0 0 + gram2 B' 1 1 ≤ gram2 B 0 0 + gram2 B 1 1 ∧ B'.det ^ 2 = B.det ^ 2 ∧
      ((lllStep (3 / 4) (⟨B, C, 1⟩ : LLLState K 2) = ⟨B', C', 2⟩ ∧ |lllMu B' 1 0| ≤ 1 / 2 ∧
        (3 / 4 - lllMu B' 1 0 ^ 2) * ((gramSchmidt B').col 0 ⬝ᵥ (gramSchmidt B').col 0) <
          (gramSchmidt B').col 1 ⬝ᵥ (gramSchmidt B').col 1) ∨
      (lllStep (3 / 4) (⟨B, C, 1⟩ : LLLState K 2) = ⟨B', C', 1⟩ ∧ gram2 B' 0 0 ≤ 3 / 4 * gram2 B 0 0 ∧
        B.det ^ 2 ≤ gram2 B 0 0 ^ 2)) := by
  obtain ⟨B1, C1, hred, h0, hdet, hmu, h11⟩ := reduce2 B C h
  have hd1 : B1.det ≠ 0 := by rw [hdet]; exact h
  have hp := gram2_pos B1 hd1
  have hstep : lllStep (3 / 4) (⟨B, C, 1⟩ : LLLState K 2) =
      if (3 / 4 - lllMu B1 1 0 ^ 2) * ((gramSchmidt B1).col 0 ⬝ᵥ (gramSchmidt B1).col 0) <
          (gramSchmidt B1).col 1 ⬝ᵥ (gramSchmidt B1).col 1 then ⟨B1, C1, 2⟩
      else ⟨swapCols B1 1 0, swapCols C1 1 0, 1⟩ := by
    have hk : (⟨1, by omega⟩ : Fin 2) = 1 := rfl
    have hk1 : (⟨1 - 1, by omega⟩ : Fin 2) = 0 := rfl
    have hb : (below (1 : Fin 2)).reverse = [0] := by rw [below_one]; rfl
    unfold lllStep
    simp only [Nat.one_lt_ofNat, dite_true, hk, hk1, hb, List.foldl_cons, List.foldl_nil, hred]
    rfl
  rw [hstep]
  split
  · rename_i hc
    exact ⟨B1, C1, by rw [h0]; linarith, by rw [hdet], Or.inl ⟨rfl, hmu, hc⟩⟩
  · rename_i hc
    have hc' := not_lt.1 hc
    rw [gs2_norm B1 hp.ne', gs2_zero] at hc'
    have e3 : B1.col 0 ⬝ᵥ B1.col 0 = gram2 B1 0 0 := rfl
    rw [e3] at hc'
    have hx : gram2 B1 1 0 = lllMu B1 1 0 * gram2 B1 0 0 := by rw [mu2]; field_simp
    have hq : gram2 B1 1 0 ^ 2 / gram2 B1 0 0 = lllMu B1 1 0 ^ 2 * gram2 B1 0 0 := by
      rw [hx]; field_simp
    rw [hq] at hc'
    have hs : gram2 B1 1 1 ≤ 3 / 4 * gram2 B1 0 0 := by nlinarith
    have g0 : gram2 (swapCols B1 1 0) 0 0 = gram2 B1 1 1 := by
      rw [swapCols_eq B1 (by decide)]; simp [gram2, dotProduct]
    have g1 : gram2 (swapCols B1 1 0) 1 1 = gram2 B1 0 0 := by
      rw [swapCols_eq B1 (by decide)]; simp [gram2, dotProduct]
    refine ⟨swapCols B1 1 0, swapCols C1 1 0, ?_, ?_, Or.inr ⟨rfl, ?_, ?_⟩⟩
    · rw [g0, g1, h0]; linarith
    · rw [swapCols_eq B1 (by decide), Matrix.det_permute', Equiv.Perm.sign_swap (by decide), ← hdet]; simp
    · rw [g0, ← h0]; exact hs
    · have := det_sq B1
      rw [← hdet, ← this, ← h0]
      nlinarith [sq_nonneg (gram2 B1 1 0)]

end two

end Dreimac
