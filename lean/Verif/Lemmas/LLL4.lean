import Verif.Lemmas.LLL4Vec
import Mathlib.LinearAlgebra.Matrix.Nondegenerate
import Mathlib.Algebra.Order.Archimedean.Basic

/-!
# The steps of `_lll` with four classes
-/

namespace Dreimac

open Matrix

variable {K : Type} [Field K] [LinearOrder K] [IsStrictOrderedRing K] [FloorRing K] {n : ℕ}

/-- The integer subtracted in a length reduction with coefficient `x`. -/
def roundOff (x : K) : ℤ := if 1 / 2 < |x| then rint x else 0

theorem abs_sub_roundOff (x : K) : |x - roundOff x| ≤ 1 / 2 := by
  unfold roundOff
  split
  · exact abs_sub_rint x
  · rename_i h
    rw [Int.cast_zero, sub_zero]; exact not_lt.1 h

theorem roundOff_zero {x : K} (h : |x| ≤ 1 / 2) : roundOff x = 0 := if_neg (not_lt.2 h)

theorem lengthReduce_col (B C : Matrix (Fin n) (Fin n) K) {k j : Fin n} :
    ∃ B1 C1, lengthReduce k (B, C) j = (B1, C1) ∧ (∀ i, i ≠ k → B1.col i = B.col i) ∧
      B1.col k = B.col k - (roundOff (lllMu B k j) : K) • B.col j := by
  unfold lengthReduce roundOff
  split
  · exact ⟨_, _, rfl, fun i hi => col_updateCol_ne _ hi _, col_updateCol_self _ _ _⟩
  · refine ⟨B, C, rfl, fun _ _ => rfl, ?_⟩
    simp

/-- The Gram determinant of two vectors. -/
def dv (b0 b1 : Fin n → K) : K := (b0 ⬝ᵥ b0) * (b1 ⬝ᵥ b1) - (b0 ⬝ᵥ b1) ^ 2

omit [FloorRing K] in
theorem gs1_norm {b0 b1 : Fin n → K} (hp : 0 < b0 ⬝ᵥ b0) : gs1 b0 b1 ⬝ᵥ gs1 b0 b1 = dv b0 b1 / (b0 ⬝ᵥ b0) := by
  have h := b1_norm hp (b1 := b1)
  have h2 := coef_b0 hp b1
  unfold dv
  rw [eq_div_iff hp.ne', h2, h]
  ring

omit [LinearOrder K] [IsStrictOrderedRing K] [FloorRing K] in
theorem dv_sub (b0 b1 : Fin n → K) (c : K) : dv b0 (b1 - c • b0) = dv b0 b1 := by
  unfold dv
  simp only [sub_dotProduct, dotProduct_sub, smul_dotProduct, dotProduct_smul, smul_eq_mul]
  rw [dotProduct_comm b1 b0]; ring

omit [LinearOrder K] [IsStrictOrderedRing K] [FloorRing K] in
theorem dv_comm (b0 b1 : Fin n → K) : dv b0 b1 = dv b1 b0 := by
  unfold dv; rw [dotProduct_comm b1 b0]; ring

omit [FloorRing K] in
theorem dot_self_pos {v : Fin n → K} (h : v ≠ 0) : 0 < v ⬝ᵥ v := by
  have h1 : 0 ≤ v ⬝ᵥ v := by simp only [dotProduct]; exact Finset.sum_nonneg fun i _ => mul_self_nonneg _
  refine lt_of_le_of_ne h1 fun h2 => h ?_
  have h3 : ∑ i, v i * v i = 0 := h2.symm
  rw [Finset.sum_eq_zero_iff_of_nonneg fun i _ => mul_self_nonneg _] at h3
  funext i
  exact mul_self_eq_zero.1 (h3 i (Finset.mem_univ i))

/-- Two lattice vectors span at least a fixed area. -/
theorem area_lower_bound (M : Matrix (Fin n) (Fin n) K) (c : K) (hc : 0 < c)
    (hlow : ∀ w : Fin n → ℤ, w ≠ 0 → c ≤ (M *ᵥ fun i => (w i : K)) ⬝ᵥ (M *ᵥ fun i => (w i : K))) (m : ℕ) :
    ∀ w0 w1 : Fin n → ℤ, 0 < dv (M *ᵥ fun i => (w0 i : K)) (M *ᵥ fun i => (w1 i : K)) →
      ((M *ᵥ fun i => (w0 i : K)) ⬝ᵥ (M *ᵥ fun i => (w0 i : K))) * (3 / 4) ^ m < c →
      c ^ 2 / 2 ≤ dv (M *ᵥ fun i => (w0 i : K)) (M *ᵥ fun i => (w1 i : K)) := by
  have ne : ∀ w0 w1 : Fin n → ℤ, 0 < dv (M *ᵥ fun i => (w0 i : K)) (M *ᵥ fun i => (w1 i : K)) → w0 ≠ 0 := by
    rintro w0 w1 h rfl
    have e : (M *ᵥ fun i => (((0 : Fin n → ℤ) i : ℤ) : K)) = 0 := by
      have : (fun i : Fin n => (((0 : Fin n → ℤ) i : ℤ) : K)) = 0 := by funext i; simp
      rw [this, Matrix.mulVec_zero]
    rw [e] at h
    simp [dv] at h
  induction m with
  | zero =>
    intro w0 w1 h hm
    have := hlow w0 (ne w0 w1 h)
    rw [pow_zero, mul_one] at hm
    exact absurd this (not_le.2 hm)
  | succ m ih =>
    intro w0 w1 h hm
    by_contra hd
    push Not at hd
    have hp := hlow w0 (ne w0 w1 h)
    set b0 := M *ᵥ fun i => (w0 i : K) with hb0
    set b1 := M *ᵥ fun i => (w1 i : K) with hb1
    have hp0 : 0 < b0 ⬝ᵥ b0 := hc.trans_le hp
    set r := rint (coef b0 b1) with hr
    have e : (M *ᵥ fun i => (((w1 - r • w0) i : ℤ) : K)) = b1 - (r : K) • b0 := by
      rw [hb0, hb1, ← Matrix.mulVec_smul, ← Matrix.mulVec_sub]
      congr 1
      funext i
      simp
    have hnorm : (b1 - (r : K) • b0) ⬝ᵥ (b1 - (r : K) • b0) ≤ 3 / 4 * (b0 ⬝ᵥ b0) := by
      have h1 := b1_norm hp0 (b1 := b1 - (r : K) • b0)
      rw [gs1_norm hp0, dv_sub, coef_sub, coef_smul, coef_self hp0, mul_one] at h1
      have h2 := sq_le_quarter (abs_sub_rint (coef b0 b1))
      have h3 := mul_le_mul_of_nonneg_right h2 hp0.le
      have h4 : dv b0 b1 / (b0 ⬝ᵥ b0) ≤ 1 / 2 * (b0 ⬝ᵥ b0) := by
        rw [div_le_iff₀ hp0]
        have : c ^ 2 ≤ (b0 ⬝ᵥ b0) ^ 2 := pow_le_pow_left₀ hc.le hp 2
        nlinarith
      rw [h1]
      linarith
    have h5 := ih (w1 - r • w0) w0 (by rw [e, dv_comm, ← hb0, dv_sub]; exact h) (by
      rw [e]
      calc _ ≤ 3 / 4 * (b0 ⬝ᵥ b0) * (3 / 4) ^ m := mul_le_mul_of_nonneg_right hnorm (by positivity)
        _ = (b0 ⬝ᵥ b0) * (3 / 4) ^ (m + 1) := by ring
        _ < c := hm)
    rw [e, dv_comm, ← hb0, dv_sub] at h5
    exact absurd h5 (not_le.2 hd)

/-- The lower bounds for the potential, for four vectors. -/
theorem potential_lower (B₀ : Matrix (Fin 4) (Fin 4) K) (h : B₀.det ≠ 0) :
    ∃ c : K, 0 < c ∧ ∀ B C, Unimodular B₀ B C → c ≤ B.col 0 ⬝ᵥ B.col 0 ∧ c ≤ dv (B.col 0) (B.col 1) := by
  obtain ⟨c, hc, hlow⟩ := lattice_lower_bound B₀ h
  refine ⟨min c (c ^ 2 / 2), lt_min hc (by positivity), ?_⟩
  rintro B C ⟨U, hC, hU, hB⟩
  have hcol : ∀ j, B.col j = B₀ *ᵥ fun i => ((U.col j i : ℤ) : K) := by
    intro j; rw [hB, mul_col, hC]; rfl
  have hdet : B.det ≠ 0 := by
    rw [hB, Matrix.det_mul, hC]
    have : (U.map fun z => (z : K)).det = ((U.det : ℤ) : K) := by
      have := (Int.castRingHom K).map_det U
      simpa using this.symm
    rw [this]
    refine mul_ne_zero h ?_
    rcases hU with hU | hU <;> rw [hU] <;> simp
  have inj : ∀ v : Fin 4 → K, v ≠ 0 → B *ᵥ v ≠ 0 := fun v hv h0 => hv (Matrix.eq_zero_of_mulVec_eq_zero hdet h0)
  have comb : ∀ x y : K, B *ᵥ ![x, y, 0, 0] = x • B.col 0 + y • B.col 1 := by
    intro x y
    ext i
    simp [Matrix.mulVec, dotProduct, Fin.sum_univ_four]
    ring
  have hp : 0 < B.col 0 ⬝ᵥ B.col 0 := by
    apply dot_self_pos
    have := inj ![1, 0, 0, 0] (by intro h0; have := congrFun h0 0; simp at this)
    rw [comb] at this
    simpa using this
  have hN : 0 < gs1 (B.col 0) (B.col 1) ⬝ᵥ gs1 (B.col 0) (B.col 1) := by
    apply dot_self_pos
    have := inj ![-coef (B.col 0) (B.col 1), 1, 0, 0] (by intro h0; have := congrFun h0 1; simp at this)
    rw [comb] at this
    intro h0
    apply this
    rw [← h0]
    ext i
    simp [gs1, proj, coef]
    ring
  have hd : 0 < dv (B.col 0) (B.col 1) := by
    rw [gs1_norm hp] at hN
    exact (div_pos_iff_of_pos_right hp).1 hN
  have hne : U.col 0 ≠ 0 := by
    intro h0
    rw [hcol 0, h0] at hp
    have : (fun i : Fin 4 => (((0 : Fin 4 → ℤ) i : ℤ) : K)) = 0 := by funext i; simp
    rw [this, Matrix.mulVec_zero] at hp
    simp at hp
  refine ⟨(min_le_left _ _).trans ?_, (min_le_right _ _).trans ?_⟩
  · rw [hcol 0]; exact hlow _ hne
  · obtain ⟨m, hm⟩ := exists_pow_lt_of_lt_one (x := c / (B.col 0 ⬝ᵥ B.col 0)) (y := (3 / 4 : K)) (by positivity) (by norm_num)
    rw [lt_div_iff₀ hp, mul_comm] at hm
    have := area_lower_bound B₀ c hc hlow m (U.col 0) (U.col 1)
    rw [← hcol 0, ← hcol 1] at this
    exact this hd hm

theorem below4_zero : below (0 : Fin 4) = [] := by decide
theorem below4_one : below (1 : Fin 4) = [0] := by decide
theorem below4_two : below (2 : Fin 4) = [0, 1] := by decide
theorem below4_three : below (3 : Fin 4) = [0, 1, 2] := by decide

variable (B C : Matrix (Fin 4) (Fin 4) K)

theorem gs4_zero : (gramSchmidt B).col 0 = B.col 0 := by
  ext r; simp [gramSchmidt, below4_zero, Matrix.col]

theorem gs4_one : (gramSchmidt B).col 1 = gs1 (B.col 0) (B.col 1) := by
  ext r; simp [gramSchmidt, below4_one, Matrix.col, gs1]

theorem gs4_two : (gramSchmidt B).col 2 = gsQ (B.col 0) (B.col 1) (B.col 2) := by
  ext r; simp [gramSchmidt, below4_two, Matrix.col, gsQ]

theorem gs4_three : (gramSchmidt B).col 3 = gsQ (B.col 0) (B.col 1) (B.col 3)
    - proj (B.col 2) (gsQ (B.col 0) (B.col 1) (B.col 3)) := by
  ext r; simp [gramSchmidt, below4_three, Matrix.col, gsQ]

theorem mu4_0 (k : Fin 4) : lllMu B k 0 = coef (B.col 0) (B.col k) := by unfold lllMu coef; rw [gs4_zero]
theorem mu4_1 (k : Fin 4) : lllMu B k 1 = coef (gs1 (B.col 0) (B.col 1)) (B.col k) := by unfold lllMu coef; rw [gs4_one]
theorem mu4_2 (k : Fin 4) : lllMu B k 2 = coef (gsQ (B.col 0) (B.col 1) (B.col 2)) (B.col k) := by
  unfold lllMu coef; rw [gs4_two]

/-- The step for `k = 1`. -/
theorem step4_one (hp : 0 < B.col 0 ⬝ᵥ B.col 0) (hd : 0 < dv (B.col 0) (B.col 1)) :
    ∃ B' C', (lllStep (3 / 4) (⟨B, C, 1⟩ : LLLState K 4) = ⟨B', C', 2⟩ ∧ B'.col 0 = B.col 0 ∧
        dv (B'.col 0) (B'.col 1) = dv (B.col 0) (B.col 1) ∧ Pair (B'.col 0) (B'.col 1)) ∨
      (lllStep (3 / 4) (⟨B, C, 1⟩ : LLLState K 4) = ⟨B', C', 1⟩ ∧
        B'.col 0 ⬝ᵥ B'.col 0 ≤ 3 / 4 * (B.col 0 ⬝ᵥ B.col 0) ∧ dv (B'.col 0) (B'.col 1) = dv (B.col 0) (B.col 1)) := by
  obtain ⟨B1, C1, hred, hcol, hnew⟩ := lengthReduce_col B C (k := 1) (j := 0)
  have h0 := hcol 0 (by decide)
  have hstep : lllStep (3 / 4) (⟨B, C, 1⟩ : LLLState K 4) =
      if (3 / 4 - lllMu B1 1 0 ^ 2) * ((gramSchmidt B1).col 0 ⬝ᵥ (gramSchmidt B1).col 0) <
          (gramSchmidt B1).col 1 ⬝ᵥ (gramSchmidt B1).col 1 then ⟨B1, C1, 2⟩
      else ⟨swapCols B1 1 0, swapCols C1 1 0, 1⟩ := by
    have hk : (⟨1, by omega⟩ : Fin 4) = 1 := rfl
    have hk1 : (⟨1 - 1, by omega⟩ : Fin 4) = 0 := rfl
    have hb : (below (1 : Fin 4)).reverse = [0] := by rw [below4_one]; rfl
    unfold lllStep
    simp only [Nat.one_lt_ofNat, dite_true, hk, hk1, hb, List.foldl_cons, List.foldl_nil, hred]
    rfl
  have hmu : |coef (B1.col 0) (B1.col 1)| ≤ 1 / 2 := by
    rw [hnew, h0, coef_sub, coef_smul, coef_self hp, mul_one, mu4_0]
    exact abs_sub_roundOff _
  have hdv : dv (B1.col 0) (B1.col 1) = dv (B.col 0) (B.col 1) := by rw [hnew, h0, dv_sub]
  have hp1 : 0 < B1.col 0 ⬝ᵥ B1.col 0 := by rw [h0]; exact hp
  have hN : 0 < gs1 (B1.col 0) (B1.col 1) ⬝ᵥ gs1 (B1.col 0) (B1.col 1) := by
    rw [gs1_norm hp1, hdv]; exact div_pos hd hp1
  rw [hstep, gs4_zero, gs4_one, mu4_0]
  split
  · rename_i hc
    exact ⟨B1, C1, Or.inl ⟨rfl, h0, hdv, hp1, hN, hmu, hc⟩⟩
  · rename_i hc
    obtain ⟨s1, s2, _⟩ := col_swapCols B1 (k := 1) (k1 := 0) (by decide)
    refine ⟨swapCols B1 1 0, swapCols C1 1 0, Or.inr ⟨rfl, ?_, ?_⟩⟩
    · rw [s2, b1_norm hp1 (b1 := B1.col 1), ← h0]
      have := not_lt.1 hc
      linarith
    · rw [s1, s2, dv_comm]; exact hdv

/-- The step for `k = 2`. -/
theorem step4_two (hP : Pair (B.col 0) (B.col 1)) :
    ∃ B' C', (lllStep (3 / 4) (⟨B, C, 2⟩ : LLLState K 4) = ⟨B', C', 3⟩ ∧ B'.col 0 = B.col 0 ∧ B'.col 1 = B.col 1 ∧
        B'.col 3 = B.col 3 ∧ Sized (B.col 0) (B.col 1) (B'.col 2) ∧ Passes (B.col 0) (B.col 1) (B'.col 2) ∧
        (Sized (B.col 0) (B.col 1) (B.col 2) → B'.col 2 = B.col 2)) ∨
      (lllStep (3 / 4) (⟨B, C, 2⟩ : LLLState K 4) = ⟨B', C', 1⟩ ∧ B'.col 0 = B.col 0 ∧
        dv (B'.col 0) (B'.col 1) ≤ 3 / 4 * dv (B.col 0) (B.col 1)) := by
  have hP' := hP
  obtain ⟨hp, hN, hμ, hlov⟩ := hP'
  obtain ⟨B1, C1, hred1, hcol1, hnew1⟩ := lengthReduce_col B C (k := 2) (j := 1)
  obtain ⟨B2, C2, hred2, hcol2, hnew2⟩ := lengthReduce_col B1 C1 (k := 2) (j := 0)
  have c0 : B2.col 0 = B.col 0 := (hcol2 0 (by decide)).trans (hcol1 0 (by decide))
  have c1 : B2.col 1 = B.col 1 := (hcol2 1 (by decide)).trans (hcol1 1 (by decide))
  have c3 : B2.col 3 = B.col 3 := (hcol2 3 (by decide)).trans (hcol1 3 (by decide))
  rw [hcol1 0 (by decide), mu4_0, hcol1 0 (by decide)] at hnew2
  rw [mu4_1] at hnew1
  have hsz : Sized (B.col 0) (B.col 1) (B2.col 2) := by
    constructor
    · rw [hnew2, coef_sub, coef_smul, coef_self hp, mul_one]; exact abs_sub_roundOff _
    · rw [hnew2, coef_sub, coef_smul, coef_gs1_b0 hp, mul_zero, sub_zero, hnew1, coef_sub, coef_smul, coef_gs1_b1 hp hN,
        mul_one]
      exact abs_sub_roundOff _
  have hsame : Sized (B.col 0) (B.col 1) (B.col 2) → B2.col 2 = B.col 2 := by
    intro hs
    rw [roundOff_zero hs.2] at hnew1
    have e : B1.col 2 = B.col 2 := by rw [hnew1]; simp
    rw [e, roundOff_zero hs.1] at hnew2
    rw [hnew2]; simp
  have hstep : lllStep (3 / 4) (⟨B, C, 2⟩ : LLLState K 4) =
      if (3 / 4 - lllMu B2 2 1 ^ 2) * ((gramSchmidt B2).col 1 ⬝ᵥ (gramSchmidt B2).col 1) <
          (gramSchmidt B2).col 2 ⬝ᵥ (gramSchmidt B2).col 2 then ⟨B2, C2, 3⟩
      else ⟨swapCols B2 2 1, swapCols C2 2 1, 1⟩ := by
    have hk : (⟨2, by omega⟩ : Fin 4) = 2 := rfl
    have hk1 : (⟨2 - 1, by omega⟩ : Fin 4) = 1 := rfl
    have hb : (below (2 : Fin 4)).reverse = [1, 0] := by rw [below4_two]; rfl
    unfold lllStep
    simp only [show (2 : ℕ) < 4 by norm_num, dite_true, hk, hk1, hb, List.foldl_cons, List.foldl_nil, hred1, hred2]
    rfl
  rw [hstep, gs4_one, gs4_two, mu4_1, c0, c1]
  split
  · rename_i hc
    exact ⟨B2, C2, Or.inl ⟨rfl, c0, c1, c3, hsz, hc, hsame⟩⟩
  · rename_i hc
    obtain ⟨s1, s2, s3⟩ := col_swapCols B2 (k := 2) (k1 := 1) (by decide)
    have s4 := s3 0 (by decide) (by decide)
    refine ⟨swapCols B2 2 1, swapCols C2 2 1, Or.inr ⟨rfl, by rw [s4, c0], ?_⟩⟩
    rw [s2, s4, c0]
    have hc' := not_lt.1 hc
    rw [gsQ_perp hp hN] at hc'
    set z := B2.col 2
    have e1 : dv (B.col 0) z = (B.col 0 ⬝ᵥ B.col 0) * (perp (B.col 0) (B.col 1) z z +
        coef (gs1 (B.col 0) (B.col 1)) z ^ 2 * (gs1 (B.col 0) (B.col 1) ⬝ᵥ gs1 (B.col 0) (B.col 1))) := by
      unfold dv perp
      rw [coef_b0 hp z]; ring
    have e2 : dv (B.col 0) (B.col 1) = (B.col 0 ⬝ᵥ B.col 0) * (gs1 (B.col 0) (B.col 1) ⬝ᵥ gs1 (B.col 0) (B.col 1)) := by
      rw [gs1_norm hp]; field_simp
    have hr : 0 ≤ coef (gs1 (B.col 0) (B.col 1)) z * coef (gs1 (B.col 0) (B.col 1)) z *
        (coef (B.col 0) (B.col 1) ^ 2 * (B.col 0 ⬝ᵥ B.col 0) / (B.col 1 ⬝ᵥ B.col 1)) *
        (gs1 (B.col 0) (B.col 1) ⬝ᵥ gs1 (B.col 0) (B.col 1)) := by
      have hR : 0 ≤ B.col 1 ⬝ᵥ B.col 1 := by rw [b1_norm hp (b1 := B.col 1)]; positivity
      exact mul_nonneg (mul_nonneg (mul_self_nonneg _) (div_nonneg (by positivity) hR)) hN.le
    rw [e1, e2]
    have h5 : perp (B.col 0) (B.col 1) z z + coef (gs1 (B.col 0) (B.col 1)) z ^ 2 *
        (gs1 (B.col 0) (B.col 1) ⬝ᵥ gs1 (B.col 0) (B.col 1)) ≤
        3 / 4 * (gs1 (B.col 0) (B.col 1) ⬝ᵥ gs1 (B.col 0) (B.col 1)) := by linarith
    have := mul_le_mul_of_nonneg_left h5 hp.le
    linarith

/-- The step for `k = 3`. -/
theorem step4_three (hP : Pair (B.col 0) (B.col 1)) :
    ∃ B' C', (lllStep (3 / 4) (⟨B, C, 3⟩ : LLLState K 4) = ⟨B', C', 4⟩ ∧ B'.col 0 = B.col 0 ∧ B'.col 1 = B.col 1 ∧
        B'.col 2 = B.col 2 ∧ Sized (B.col 0) (B.col 1) (B'.col 3)) ∨
      (lllStep (3 / 4) (⟨B, C, 3⟩ : LLLState K 4) = ⟨B', C', 2⟩ ∧ B'.col 0 = B.col 0 ∧ B'.col 1 = B.col 1 ∧
        B'.col 3 = B.col 2 ∧ Sized (B.col 0) (B.col 1) (B'.col 2) ∧ Fails (B.col 0) (B.col 1) (B.col 2) (B'.col 2) ∧
        ∃ n1 n0 : ℤ, B'.col 2 = B.col 3 - (rounds (B.col 0) (B.col 1) (B.col 3) (B.col 2) : K) • B.col 2
          - (n1 : K) • B.col 1 - (n0 : K) • B.col 0) := by
  have hP' := hP
  obtain ⟨hp, hN, hμ, hlov⟩ := hP'
  obtain ⟨B0, C0, hred0, hcol0, hnew0⟩ := lengthReduce_col B C (k := 3) (j := 2)
  obtain ⟨B1, C1, hred1, hcol1, hnew1⟩ := lengthReduce_col B0 C0 (k := 3) (j := 1)
  obtain ⟨B2, C2, hred2, hcol2, hnew2⟩ := lengthReduce_col B1 C1 (k := 3) (j := 0)
  have d0 : B1.col 0 = B.col 0 := (hcol1 0 (by decide)).trans (hcol0 0 (by decide))
  have c0 : B2.col 0 = B.col 0 := (hcol2 0 (by decide)).trans d0
  have c1 : B2.col 1 = B.col 1 := ((hcol2 1 (by decide)).trans (hcol1 1 (by decide))).trans (hcol0 1 (by decide))
  have c2 : B2.col 2 = B.col 2 := ((hcol2 2 (by decide)).trans (hcol1 2 (by decide))).trans (hcol0 2 (by decide))
  rw [mu4_0, d0] at hnew2
  rw [mu4_1, hcol0 0 (by decide), hcol0 1 (by decide)] at hnew1
  rw [mu4_2] at hnew0
  have hsz : Sized (B.col 0) (B.col 1) (B2.col 3) := by
    constructor
    · rw [hnew2, coef_sub, coef_smul, coef_self hp, mul_one]; exact abs_sub_roundOff _
    · rw [hnew2, coef_sub, coef_smul, coef_gs1_b0 hp, mul_zero, sub_zero, hnew1, coef_sub, coef_smul, coef_gs1_b1 hp hN,
        mul_one]
      exact abs_sub_roundOff _
  have hstep : lllStep (3 / 4) (⟨B, C, 3⟩ : LLLState K 4) =
      if (3 / 4 - lllMu B2 3 2 ^ 2) * ((gramSchmidt B2).col 2 ⬝ᵥ (gramSchmidt B2).col 2) <
          (gramSchmidt B2).col 3 ⬝ᵥ (gramSchmidt B2).col 3 then ⟨B2, C2, 4⟩
      else ⟨swapCols B2 3 2, swapCols C2 3 2, 2⟩ := by
    have hk : (⟨3, by omega⟩ : Fin 4) = 3 := rfl
    have hk1 : (⟨3 - 1, by omega⟩ : Fin 4) = 2 := rfl
    have hb : (below (3 : Fin 4)).reverse = [2, 1, 0] := by rw [below4_three]; rfl
    unfold lllStep
    simp only [show (3 : ℕ) < 4 by norm_num, dite_true, hk, hk1, hb, List.foldl_cons, List.foldl_nil, hred0, hred1, hred2]
    rfl
  rw [hstep, gs4_two, gs4_three, mu4_2, c0, c1, c2]
  split
  · exact ⟨B2, C2, Or.inl ⟨rfl, c0, c1, c2, hsz⟩⟩
  · rename_i hc
    obtain ⟨s1, s2, s3⟩ := col_swapCols B2 (k := 3) (k1 := 2) (by decide)
    refine ⟨swapCols B2 3 2, swapCols C2 3 2, Or.inr ⟨rfl, ?_, ?_, ?_, ?_, ?_, ?_⟩⟩
    · rw [s3 0 (by decide) (by decide), c0]
    · rw [s3 1 (by decide) (by decide), c1]
    · rw [s1, c2]
    · rw [s2]; exact hsz
    · rw [s2]; exact not_lt.1 hc
    · exact ⟨roundOff (coef (gs1 (B.col 0) (B.col 1)) (B0.col 3)), roundOff (coef (B.col 0) (B1.col 3)), by
        rw [s2, hnew2, hnew1, hnew0]; rfl⟩

end Dreimac
