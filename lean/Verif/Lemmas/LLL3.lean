import Mathlib.LinearAlgebra.Matrix.Adjugate
import Mathlib.LinearAlgebra.Matrix.NonsingularInverse
import Mathlib.Algebra.Order.BigOperators.Ring.Finset
import Mathlib.Tactic.FinCases
import Verif.Lemmas.LLL

namespace Dreimac

open Matrix

variable {K : Type} [Field K] [LinearOrder K] [IsStrictOrderedRing K] [FloorRing K]

omit [FloorRing K] in
/-- Discreteness of the lattice spanned by the columns of an invertible matrix. -/
theorem lattice_lower_bound {n : ℕ} (M : Matrix (Fin n) (Fin n) K) (h : M.det ≠ 0) :
    ∃ c : K, 0 < c ∧ ∀ w : Fin n → ℤ, w ≠ 0 →
      c ≤ (M *ᵥ fun i => (w i : K)) ⬝ᵥ (M *ᵥ fun i => (w i : K)) := by
  set F : K := ∑ i, ∑ j, M⁻¹ i j ^ 2 with hF
  have hF0 : 0 ≤ F := Finset.sum_nonneg fun i _ => Finset.sum_nonneg fun j _ => sq_nonneg _
  refine ⟨1 / (F + 1), by positivity, fun w hw => ?_⟩
  set x : Fin n → K := fun i => (w i : K) with hx
  set y := M *ᵥ x with hy
  have hxy : x = M⁻¹ *ᵥ y := by
    rw [hy, Matrix.mulVec_mulVec, Matrix.nonsing_inv_mul M (by simpa using h), Matrix.one_mulVec]
  have hyy : y ⬝ᵥ y = ∑ j, y j ^ 2 := by simp [dotProduct, sq]
  have h0 : 0 ≤ y ⬝ᵥ y := by rw [hyy]; exact Finset.sum_nonneg fun j _ => sq_nonneg _
  have h1 : ∑ i, x i ^ 2 ≤ F * (y ⬝ᵥ y) := by
    rw [hF, Finset.sum_mul, hyy]
    apply Finset.sum_le_sum
    intro i _
    rw [hxy]
    simp only [Matrix.mulVec, dotProduct]
    exact Finset.sum_mul_sq_le_sq_mul_sq _ _ _
  obtain ⟨i, hi⟩ : ∃ i, w i ≠ 0 := by
    by_contra hc; push Not at hc; exact hw (funext hc)
  have h2 : (1 : K) ≤ x i ^ 2 := by
    have : (1 : ℤ) ≤ w i ^ 2 := by have := Int.one_le_abs hi; nlinarith [sq_abs (w i)]
    simp only [hx]; exact_mod_cast this
  have h3 : x i ^ 2 ≤ ∑ i, x i ^ 2 := Finset.single_le_sum (f := fun i => x i ^ 2) (fun j _ => sq_nonneg _) (Finset.mem_univ i)
  rw [div_le_iff₀ (by positivity)]
  nlinarith

/-- `|b₀|²`. -/
def pp (B : Matrix (Fin 3) (Fin 3) K) : K := B.col 0 ⬝ᵥ B.col 0

/-- The Gram determinant of `b₀, b₁`. -/
def dd (B : Matrix (Fin 3) (Fin 3) K) : K :=
  (B.col 0 ⬝ᵥ B.col 0) * (B.col 1 ⬝ᵥ B.col 1) - (B.col 0 ⬝ᵥ B.col 1) ^ 2

theorem pp_dd_lower (B₀ : Matrix (Fin 3) (Fin 3) K) (h : B₀.det ≠ 0) :
    ∃ c : K, 0 < c ∧ ∀ B C, Unimodular B₀ B C → c ≤ pp B ∧ c ≤ dd B := by
  obtain ⟨c1, hc1, h1⟩ := lattice_lower_bound B₀ h
  obtain ⟨c2, hc2, h2⟩ := lattice_lower_bound (B₀.adjugateᵀ) (by
    rw [Matrix.det_transpose, Matrix.det_adjugate]; exact pow_ne_zero _ h)
  refine ⟨min c1 c2, lt_min hc1 hc2, ?_⟩
  rintro B C ⟨U, hC, hU, hB⟩
  have hdet := Matrix.det_fin_three U
  constructor
  · refine (min_le_left _ _).trans ?_
    have hne : U.col 0 ≠ 0 := by
      intro h0
      have e := fun i => congrFun h0 i
      simp only [Matrix.col_apply, Pi.zero_apply] at e
      rw [e 0, e 1, e 2] at hdet
      rcases hU with hU | hU <;> rw [hU] at hdet <;> simp at hdet
    have := h1 (U.col 0) hne
    have e : B.col 0 = B₀ *ᵥ fun i => ((U.col 0 i : ℤ) : K) := by
      rw [hB, mul_col, hC]; rfl
    unfold pp; rw [e]; exact this
  · refine (min_le_right _ _).trans ?_
    set w : Fin 3 → ℤ := ![U 1 0 * U 2 1 - U 2 0 * U 1 1, U 2 0 * U 0 1 - U 0 0 * U 2 1, U 0 0 * U 1 1 - U 1 0 * U 0 1]
      with hw
    have hne : w ≠ 0 := by
      intro h0
      have e := fun i => congrFun h0 i
      have e0 := e 0
      have e1 := e 1
      have e2 := e 2
      simp [hw] at e0 e1 e2
      have : U.det = 0 := by rw [hdet]; linear_combination U 0 2 * e0 + U 1 2 * e1 + U 2 2 * e2
      rcases hU with hU | hU <;> rw [hU] at this <;> simp at this
    have := h2 w hne
    refine this.trans_eq ?_
    rw [hB, hC]
    unfold dd
    rw [Matrix.adjugate_fin_three]
    simp [hw, Matrix.mulVec, dotProduct, Fin.sum_univ_three, Matrix.mul_apply, Matrix.transpose_apply]
    ring

theorem below3_zero : below (0 : Fin 3) = [] := by decide
theorem below3_one : below (1 : Fin 3) = [0] := by decide
theorem below3_two : below (2 : Fin 3) = [0, 1] := by decide

theorem gs3_zero (B : Matrix (Fin 3) (Fin 3) K) : (gramSchmidt B).col 0 = B.col 0 := by
  ext r; simp [gramSchmidt, below3_zero, Matrix.col]

theorem gs3_one (B : Matrix (Fin 3) (Fin 3) K) : (gramSchmidt B).col 1 = B.col 1 - proj (B.col 0) (B.col 1) := by
  ext r; simp [gramSchmidt, below3_one, Matrix.col]

theorem gs3_two (B : Matrix (Fin 3) (Fin 3) K) : (gramSchmidt B).col 2 =
    B.col 2 - proj (B.col 0) (B.col 2) - proj (B.col 1) (B.col 2 - proj (B.col 0) (B.col 2)) := by
  ext r; simp [gramSchmidt, below3_two, Matrix.col]

/-- `|b₁*|² = d / p`. -/
theorem gs3_one_norm (B : Matrix (Fin 3) (Fin 3) K) (h : pp B ≠ 0) :
    (gramSchmidt B).col 1 ⬝ᵥ (gramSchmidt B).col 1 = dd B / pp B := by
  rw [gs3_one]
  unfold proj dd pp at *
  simp only [sub_dotProduct, dotProduct_sub, smul_dotProduct, dotProduct_smul, smul_eq_mul]
  rw [dotProduct_comm (B.col 1) (B.col 0)]
  field_simp
  ring

theorem mu3_10 (B : Matrix (Fin 3) (Fin 3) K) : lllMu B 1 0 = (B.col 0 ⬝ᵥ B.col 1) / pp B := by
  unfold lllMu pp; rw [gs3_zero, dotProduct_comm]

theorem mu3_20 (B : Matrix (Fin 3) (Fin 3) K) : lllMu B 2 0 = (B.col 0 ⬝ᵥ B.col 2) / pp B := by
  unfold lllMu pp; rw [gs3_zero, dotProduct_comm]

/-- The numerator of `μ₂₁`, times `p`. -/
def tt (B : Matrix (Fin 3) (Fin 3) K) : K :=
  pp B * (B.col 1 ⬝ᵥ B.col 2) - (B.col 0 ⬝ᵥ B.col 1) * (B.col 0 ⬝ᵥ B.col 2)

theorem mu3_21 (B : Matrix (Fin 3) (Fin 3) K) (h : pp B ≠ 0) : lllMu B 2 1 = tt B / dd B := by
  unfold lllMu
  rw [gs3_one_norm B h, gs3_one]
  unfold proj tt
  simp only [dotProduct_sub, dotProduct_smul, smul_eq_mul]
  rw [dotProduct_comm (B.col 2) (B.col 0), dotProduct_comm (B.col 2) (B.col 1), dotProduct_comm (B.col 1) (B.col 0)]
  change (B.col 1 ⬝ᵥ B.col 2 - (B.col 0 ⬝ᵥ B.col 1) / pp B * (B.col 0 ⬝ᵥ B.col 2)) / (dd B / pp B) = _
  by_cases hd : dd B = 0
  · rw [hd]; simp
  · field_simp

/-- `|Q₂|²`, the squared length of the third column computed by `_gram_schmidt`. -/
theorem gs3_two_norm (B : Matrix (Fin 3) (Fin 3) K) (h : pp B ≠ 0) (h1 : B.col 1 ⬝ᵥ B.col 1 ≠ 0) :
    (gramSchmidt B).col 2 ⬝ᵥ (gramSchmidt B).col 2 =
      (B.col 2 ⬝ᵥ B.col 2 - (B.col 0 ⬝ᵥ B.col 2) ^ 2 / pp B) - (tt B / pp B) ^ 2 / (B.col 1 ⬝ᵥ B.col 1) := by
  rw [gs3_two]
  unfold proj tt pp at *
  simp only [sub_dotProduct, dotProduct_sub, smul_dotProduct, dotProduct_smul, smul_eq_mul]
  rw [dotProduct_comm (B.col 1) (B.col 0), dotProduct_comm (B.col 2) (B.col 0), dotProduct_comm (B.col 2) (B.col 1)]
  field_simp
  ring

/-- `b₀, b₁` are reduced. -/
def Red1 (B : Matrix (Fin 3) (Fin 3) K) : Prop :=
  2 * |B.col 0 ⬝ᵥ B.col 1| ≤ B.col 0 ⬝ᵥ B.col 0 ∧ 3 / 4 * (B.col 0 ⬝ᵥ B.col 0) < B.col 1 ⬝ᵥ B.col 1

/-- `b₂` is size reduced. -/
def Red2 (B : Matrix (Fin 3) (Fin 3) K) : Prop :=
  2 * |B.col 0 ⬝ᵥ B.col 2| ≤ pp B ∧ 2 * |tt B| ≤ dd B

omit [IsStrictOrderedRing K] [FloorRing K] in
theorem col_updateCol_ne {n : ℕ} (B : Matrix (Fin n) (Fin n) K) {k j : Fin n} (h : j ≠ k) (v : Fin n → K) :
    (B.updateCol k v).col j = B.col j := by
  ext i; simp [Matrix.col, Matrix.updateCol_apply, h]

omit [IsStrictOrderedRing K] [FloorRing K] in
theorem col_updateCol_self {n : ℕ} (B : Matrix (Fin n) (Fin n) K) (k : Fin n) (v : Fin n → K) :
    (B.updateCol k v).col k = v := by
  ext i; simp [Matrix.col]

omit [IsStrictOrderedRing K] [FloorRing K] in
theorem col_swapCols {n : ℕ} (B : Matrix (Fin n) (Fin n) K) {k k1 : Fin n} (h : k ≠ k1) :
    (swapCols B k k1).col k = B.col k1 ∧ (swapCols B k k1).col k1 = B.col k ∧
      ∀ j, j ≠ k → j ≠ k1 → (swapCols B k k1).col j = B.col j := by
  unfold swapCols
  refine ⟨?_, ?_, ?_⟩
  · rw [col_updateCol_ne _ h, col_updateCol_self]
  · rw [col_updateCol_self]
  · intro j h1 h2; rw [col_updateCol_ne _ h2, col_updateCol_ne _ h1]

theorem step3_one (B C : Matrix (Fin 3) (Fin 3) K) (hp : 0 < pp B) (hd : 0 < dd B) :
    ∃ B' C', (lllStep (3 / 4) (⟨B, C, 1⟩ : LLLState K 3) = ⟨B', C', 2⟩ ∧ pp B' = pp B ∧ dd B' = dd B ∧ Red1 B') ∨
      (lllStep (3 / 4) (⟨B, C, 1⟩ : LLLState K 3) = ⟨B', C', 1⟩ ∧ pp B' ≤ 3 / 4 * pp B ∧ dd B' = dd B) := by
  -- length reduction
  obtain ⟨B1, C1, hred, hp1, hd1, hmu⟩ : ∃ B1 C1, lengthReduce 1 (B, C) 0 = (B1, C1) ∧ pp B1 = pp B ∧ dd B1 = dd B ∧
      |lllMu B1 1 0| ≤ 1 / 2 := by
    unfold lengthReduce
    split
    · set r := rint (lllMu (B, C).1 1 0) with hr
      have c0 : ∀ v, (B.updateCol 1 v).col 0 = B.col 0 := fun v => col_updateCol_ne B (by decide) v
      refine ⟨_, _, rfl, ?_, ?_, ?_⟩
      · unfold pp; simp only [c0]
      · unfold dd; simp only [c0, col_updateCol_self, sub_dotProduct, dotProduct_sub, smul_dotProduct, dotProduct_smul, smul_eq_mul]
        rw [dotProduct_comm (B.col 1) (B.col 0)]; ring
      · rw [mu3_10]
        unfold pp
        simp only [c0, col_updateCol_self, dotProduct_sub, dotProduct_smul, smul_eq_mul]
        have e := mu3_10 B
        unfold pp at e hp
        rw [sub_div, ← e, mul_div_assoc, div_self hp.ne', mul_one]
        exact abs_sub_rint _
    · rename_i hmu
      exact ⟨B, C, rfl, rfl, rfl, not_lt.1 hmu⟩
  have hstep : lllStep (3 / 4) (⟨B, C, 1⟩ : LLLState K 3) =
      if (3 / 4 - lllMu B1 1 0 ^ 2) * ((gramSchmidt B1).col 0 ⬝ᵥ (gramSchmidt B1).col 0) <
          (gramSchmidt B1).col 1 ⬝ᵥ (gramSchmidt B1).col 1 then ⟨B1, C1, 2⟩
      else ⟨swapCols B1 1 0, swapCols C1 1 0, 1⟩ := by
    have hk : (⟨1, by omega⟩ : Fin 3) = 1 := rfl
    have hk1 : (⟨1 - 1, by omega⟩ : Fin 3) = 0 := rfl
    have hb : (below (1 : Fin 3)).reverse = [0] := by rw [below3_one]; rfl
    unfold lllStep
    simp only [Nat.one_lt_ofNat, dite_true, hk, hk1, hb, List.foldl_cons, List.foldl_nil, hred]
    rfl
  have hp1' : 0 < pp B1 := by rw [hp1]; exact hp
  have hx : B1.col 0 ⬝ᵥ B1.col 1 = lllMu B1 1 0 * pp B1 := by rw [mu3_10]; field_simp
  have hn0 : (gramSchmidt B1).col 0 ⬝ᵥ (gramSchmidt B1).col 0 = pp B1 := by rw [gs3_zero]; rfl
  have hn1 : (gramSchmidt B1).col 1 ⬝ᵥ (gramSchmidt B1).col 1 =
      B1.col 1 ⬝ᵥ B1.col 1 - lllMu B1 1 0 ^ 2 * pp B1 := by
    rw [gs3_one_norm B1 hp1'.ne']
    unfold dd
    rw [hx]
    change (pp B1 * _ - _) / _ = _
    field_simp
  rw [hstep, hn0, hn1]
  split
  · rename_i hc
    refine ⟨B1, C1, Or.inl ⟨rfl, hp1, hd1, ?_, ?_⟩⟩
    · rw [hx, abs_mul, abs_of_pos hp1']
      change _ ≤ pp B1
      nlinarith
    · change 3 / 4 * pp B1 < _
      nlinarith
  · rename_i hc
    obtain ⟨s1, s2, _⟩ := col_swapCols B1 (k := 1) (k1 := 0) (by decide)
    refine ⟨swapCols B1 1 0, swapCols C1 1 0, Or.inr ⟨rfl, ?_, ?_⟩⟩
    · unfold pp at *; rw [s2, ← hp1]; nlinarith [not_lt.1 hc]
    · rw [← hd1]; unfold dd; rw [s1, s2, dotProduct_comm (B1.col 1) (B1.col 0)]; ring

/-- Replacing `b₂` changes neither `p` nor `d`. -/
theorem reduce3_two (B C : Matrix (Fin 3) (Fin 3) K) (hp : 0 < pp B) (hd : 0 < dd B) :
    ∃ B1 C1, [1, 0].foldl (lengthReduce 2) (B, C) = (B1, C1) ∧ B1.col 0 = B.col 0 ∧ B1.col 1 = B.col 1 ∧
      |lllMu B1 2 0| ≤ 1 / 2 ∧ |lllMu B1 2 1| ≤ 1 / 2 := by
  have c0 : ∀ (B : Matrix (Fin 3) (Fin 3) K) v, (B.updateCol 2 v).col 0 = B.col 0 := fun B v => col_updateCol_ne B (by decide) v
  have c1 : ∀ (B : Matrix (Fin 3) (Fin 3) K) v, (B.updateCol 2 v).col 1 = B.col 1 := fun B v => col_updateCol_ne B (by decide) v
  -- first pass
  obtain ⟨B1, C1, hred, e0, e1, hmu⟩ : ∃ B1 C1, lengthReduce 2 (B, C) 1 = (B1, C1) ∧ B1.col 0 = B.col 0 ∧ B1.col 1 = B.col 1 ∧
      |lllMu B1 2 1| ≤ 1 / 2 := by
    unfold lengthReduce
    split
    · set r := rint (lllMu (B, C).1 2 1) with hr
      refine ⟨_, _, rfl, c0 _ _, c1 _ _, ?_⟩
      have e1 := mu3_21 B hp.ne'
      have hp' : pp ((B, C).1.updateCol 2 ((B, C).1.col 2 - (r : K) • (B, C).1.col 1)) = pp B := by
        unfold pp; simp only [c0]
      rw [mu3_21 _ (by rw [hp']; exact hp.ne')]
      have ht : tt ((B, C).1.updateCol 2 ((B, C).1.col 2 - (r : K) • (B, C).1.col 1)) = tt B - r * dd B := by
        unfold tt
        rw [hp']
        unfold dd pp
        simp only [c0, c1, col_updateCol_self, dotProduct_sub, dotProduct_smul, smul_eq_mul]
        ring
      have hd' : dd ((B, C).1.updateCol 2 ((B, C).1.col 2 - (r : K) • (B, C).1.col 1)) = dd B := by
        unfold dd; simp only [c0, c1]
      rw [ht, hd', sub_div, ← e1, mul_div_assoc, div_self hd.ne', mul_one]
      exact abs_sub_rint _
    · rename_i hmu
      exact ⟨B, C, rfl, rfl, rfl, not_lt.1 hmu⟩
  have hp1 : pp B1 = pp B := by unfold pp; rw [e0]
  have hd1 : dd B1 = dd B := by unfold dd; rw [e0, e1]
  obtain ⟨B2, C2, hred2, f0, f1, g0, g1⟩ : ∃ B2 C2, lengthReduce 2 (B1, C1) 0 = (B2, C2) ∧ B2.col 0 = B1.col 0 ∧
      B2.col 1 = B1.col 1 ∧ |lllMu B2 2 0| ≤ 1 / 2 ∧ |lllMu B2 2 1| ≤ 1 / 2 := by
    unfold lengthReduce
    split
    · set r := rint (lllMu (B1, C1).1 2 0) with hr
      have e1 := mu3_20 B1
      have hp' : pp ((B1, C1).1.updateCol 2 ((B1, C1).1.col 2 - (r : K) • (B1, C1).1.col 0)) = pp B1 := by
        unfold pp; simp only [c0]
      refine ⟨_, _, rfl, c0 _ _, c1 _ _, ?_, ?_⟩
      · rw [mu3_20, hp']
        simp only [c0, col_updateCol_self, dotProduct_sub, dotProduct_smul, smul_eq_mul]
        have e2 : B1.col 0 ⬝ᵥ B1.col 0 = pp B1 := rfl
        rw [e2, sub_div, ← e1, mul_div_assoc, div_self (by rw [hp1]; exact hp.ne'), mul_one]
        exact abs_sub_rint _
      · rw [mu3_21 _ (by rw [hp', hp1]; exact hp.ne')]
        have ht : tt ((B1, C1).1.updateCol 2 ((B1, C1).1.col 2 - (r : K) • (B1, C1).1.col 0)) = tt B1 := by
          unfold tt
          rw [hp']
          unfold pp
          simp only [c0, c1, col_updateCol_self, dotProduct_sub, dotProduct_smul, smul_eq_mul]
          rw [dotProduct_comm (B1.col 1) (B1.col 0)]
          ring
        have hd' : dd ((B1, C1).1.updateCol 2 ((B1, C1).1.col 2 - (r : K) • (B1, C1).1.col 0)) = dd B1 := by
          unfold dd; simp only [c0, c1]
        rw [ht, hd', ← mu3_21 B1 (by rw [hp1]; exact hp.ne')]
        exact hmu
    · rename_i hmu2
      exact ⟨B1, C1, rfl, rfl, rfl, not_lt.1 hmu2, hmu⟩
  exact ⟨B2, C2, by rw [List.foldl_cons, hred, List.foldl_cons, hred2, List.foldl_nil], f0.trans e0, f1.trans e1, g0, g1⟩

theorem step3_two (B C : Matrix (Fin 3) (Fin 3) K) (hp : 0 < pp B) (hd : 0 < dd B) (hr : Red1 B) :
    ∃ B' C', (lllStep (3 / 4) (⟨B, C, 2⟩ : LLLState K 3) = ⟨B', C', 3⟩ ∧ Red1 B' ∧ Red2 B') ∨
      (lllStep (3 / 4) (⟨B, C, 2⟩ : LLLState K 3) = ⟨B', C', 1⟩ ∧ pp B' = pp B ∧ dd B' ≤ 3 / 4 * dd B) := by
  obtain ⟨B1, C1, hred, e0, e1, hm0, hm1⟩ := reduce3_two B C hp hd
  have hp1 : pp B1 = pp B := by unfold pp; rw [e0]
  have hd1 : dd B1 = dd B := by unfold dd; rw [e0, e1]
  have hstep : lllStep (3 / 4) (⟨B, C, 2⟩ : LLLState K 3) =
      if (3 / 4 - lllMu B1 2 1 ^ 2) * ((gramSchmidt B1).col 1 ⬝ᵥ (gramSchmidt B1).col 1) <
          (gramSchmidt B1).col 2 ⬝ᵥ (gramSchmidt B1).col 2 then ⟨B1, C1, 3⟩
      else ⟨swapCols B1 2 1, swapCols C1 2 1, 1⟩ := by
    have hk : (⟨2, by omega⟩ : Fin 3) = 2 := rfl
    have hk1 : (⟨2 - 1, by omega⟩ : Fin 3) = 1 := rfl
    have hb : (below (2 : Fin 3)).reverse = [1, 0] := by rw [below3_two]; rfl
    unfold lllStep
    simp only [show (2 : ℕ) < 3 by norm_num, dite_true, hk, hk1, hb, hred]
    rfl
  have hp1' : 0 < pp B1 := by rw [hp1]; exact hp
  have hd1' : 0 < dd B1 := by rw [hd1]; exact hd
  have hr1 : Red1 B1 := by unfold Red1; rw [e0, e1]; exact hr
  have he : 0 < B1.col 1 ⬝ᵥ B1.col 1 := by
    have h2 := hr1.2
    have h3 : 0 < B1.col 0 ⬝ᵥ B1.col 0 := hp1'
    linarith
  rw [hstep]
  split
  · refine ⟨B1, C1, Or.inl ⟨rfl, hr1, ?_, ?_⟩⟩
    · rw [mu3_20, abs_div, abs_of_pos hp1', div_le_iff₀ hp1'] at hm0; linarith
    · rw [mu3_21 _ hp1'.ne', abs_div, abs_of_pos hd1', div_le_iff₀ hd1'] at hm1; linarith
  · rename_i hc
    have hc' := not_lt.1 hc
    rw [gs3_one_norm _ hp1'.ne', gs3_two_norm _ hp1'.ne' he.ne', mu3_21 _ hp1'.ne'] at hc'
    obtain ⟨s1, s2, s3⟩ := col_swapCols B1 (k := 2) (k1 := 1) (by decide)
    have s4 := s3 0 (by decide) (by decide)
    refine ⟨swapCols B1 2 1, swapCols C1 2 1, Or.inr ⟨rfl, ?_, ?_⟩⟩
    · rw [← hp1]; unfold pp; rw [s4]
    · rw [← hd1]
      have e3 : dd (swapCols B1 2 1) = pp B1 * (B1.col 2 ⬝ᵥ B1.col 2) - (B1.col 0 ⬝ᵥ B1.col 2) ^ 2 := by
        unfold dd pp; rw [s4, s2]
      rw [e3]
      have hde : dd B1 ≤ pp B1 * (B1.col 1 ⬝ᵥ B1.col 1) := by
        unfold dd pp; linarith [sq_nonneg (B1.col 0 ⬝ᵥ B1.col 1)]
      set p := pp B1
      set d := dd B1
      set t := tt B1
      set e := B1.col 1 ⬝ᵥ B1.col 1
      set f := B1.col 2 ⬝ᵥ B1.col 2
      set y := B1.col 0 ⬝ᵥ B1.col 2
      -- (t/p)²/e ≤ (t/d)² * (d/p)
      have h5 : (t / p) ^ 2 / e ≤ (t / d) ^ 2 * (d / p) := by
        have e5 : (t / d) ^ 2 * (d / p) = t ^ 2 / (p * d) := by field_simp
        have e6 : (t / p) ^ 2 / e = t ^ 2 / (p * (p * e)) := by field_simp
        rw [e5, e6]
        apply div_le_div_of_nonneg_left (sq_nonneg t) (by positivity)
        exact mul_le_mul_of_nonneg_left hde hp1'.le
      have h6 : f - y ^ 2 / p ≤ 3 / 4 * (d / p) := by nlinarith
      have h7 : p * (f - y ^ 2 / p) ≤ p * (3 / 4 * (d / p)) := mul_le_mul_of_nonneg_left h6 hp1'.le
      have e7 : p * (f - y ^ 2 / p) = p * f - y ^ 2 := by field_simp
      have e8 : p * (3 / 4 * (d / p)) = 3 / 4 * d := by field_simp
      rw [e7, e8] at h7
      exact h7

end Dreimac
