import Mathlib.LinearAlgebra.Matrix.Notation
import Mathlib.LinearAlgebra.Matrix.Trace
import Mathlib.LinearAlgebra.Matrix.Charpoly.Coeff
import Mathlib.Algebra.Order.Archimedean.Basic
import Mathlib.Data.Rat.Floor
import Verif.Lemmas.LLL
import Verif.Lemmas.LLL3
import Verif.Lemmas.LLLGram

/-!
# C40, C42, C43, C44: lattice reduction
-/

namespace Dreimac

open Matrix

variable {K : Type} [Field K] [LinearOrder K] [IsStrictOrderedRing K] [FloorRing K] {n : ℕ}

/-- C40: whatever the number `m` of iterations performed, the change of basis matrix is an integer matrix of
determinant 1 or -1, and the current basis is the input basis times it. -/
theorem C40_invariant (B : Matrix (Fin n) (Fin n) K) (m : ℕ) :
    ∃ U : Matrix (Fin n) (Fin n) ℤ, (lllRun (3 / 4) m (lllInit B)).change = U.map (fun z => (z : K)) ∧
      (U.det = 1 ∨ U.det = -1) ∧
      (lllRun (3 / 4) m (lllInit B)).B = B * (lllRun (3 / 4) m (lllInit B)).change :=
  (unimodular_run (3 / 4) m B).2

/-- C40, for the value returned: any result of `_lll` is the input basis times an integer matrix of determinant 1 or -1,
namely the second component. -/
theorem C40_result (B B' C : Matrix (Fin n) (Fin n) K) (fuel : ℕ) (h : lll fuel B = some (B', C)) :
    ∃ U : Matrix (Fin n) (Fin n) ℤ, C = U.map (fun z => (z : K)) ∧ (U.det = 1 ∨ U.det = -1) ∧ B' = B * C := by
  have := (unimodular_run (3 / 4) fuel B).2
  unfold lll at h
  simp only at h
  split at h
  · cases h
  · simp only [Option.some.injEq, Prod.mk.injEq] at h
    rw [← h.1, ← h.2]; exact this

theorem lllStep_done (delta : K) (s : LLLState K n) (h : n ≤ s.k) : lllStep delta s = s := by
  unfold lllStep; rw [dif_neg (by omega)]

theorem lllRun_done (delta : K) (s : LLLState K n) (h : n ≤ s.k) (m : ℕ) : lllRun delta m s = s := by
  induction m with
  | zero => rfl
  | succ m ih => unfold lllRun at ih ⊢; rw [Function.iterate_succ_apply, lllStep_done delta s h, ih]

theorem lllRun_add (delta : K) (s : LLLState K n) (a b : ℕ) : lllRun delta (a + b) s = lllRun delta b (lllRun delta a s) := by
  unfold lllRun; rw [Nat.add_comm, Function.iterate_add_apply]

theorem lllRun_succ (delta : K) (s : LLLState K n) (a : ℕ) : lllRun delta (a + 1) s = lllRun delta a (lllStep delta s) := by
  unfold lllRun; rw [Function.iterate_succ_apply]

theorem lll_of_run {fuel : ℕ} {B B' C : Matrix (Fin n) (Fin n) K} {k : ℕ}
    (h : lllRun (3 / 4) fuel (lllInit B) = ⟨B', C, k⟩) (hk : n ≤ k) : lll fuel B = some (B', C) := by
  unfold lll
  simp only [h]
  rw [if_neg (by omega)]

/-- The basis `b₀, b₁` (columns) is reduced: `|μ| ≤ 1/2` and the Lovász condition with `δ = 3/4`. -/
def Reduced2 (B : Matrix (Fin 2) (Fin 2) K) : Prop :=
  2 * |B.col 0 ⬝ᵥ B.col 1| ≤ B.col 0 ⬝ᵥ B.col 0 ∧
    3 / 4 * (B.col 0 ⬝ᵥ B.col 0) < B.col 1 ⬝ᵥ B.col 1

theorem reduced2_of (B : Matrix (Fin 2) (Fin 2) K) (hd : B.det ≠ 0) (hmu : |lllMu B 1 0| ≤ 1 / 2)
    (hl : (3 / 4 - lllMu B 1 0 ^ 2) * ((gramSchmidt B).col 0 ⬝ᵥ (gramSchmidt B).col 0) <
          (gramSchmidt B).col 1 ⬝ᵥ (gramSchmidt B).col 1) : Reduced2 B := by
  have hp := gram2_pos B hd
  have hx : gram2 B 1 0 = lllMu B 1 0 * gram2 B 0 0 := by rw [mu2]; field_simp
  have hq : gram2 B 1 0 ^ 2 / gram2 B 0 0 = lllMu B 1 0 ^ 2 * gram2 B 0 0 := by rw [hx]; field_simp
  rw [gs2_norm B hp.ne', gs2_zero, hq] at hl
  have e : B.col 0 ⬝ᵥ B.col 0 = gram2 B 0 0 := rfl
  rw [e] at hl
  constructor
  · have : B.col 0 ⬝ᵥ B.col 1 = gram2 B 1 0 := gram2_comm B
    rw [this, e, hx, abs_mul, abs_of_pos hp]
    nlinarith
  · have e1 : B.col 1 ⬝ᵥ B.col 1 = gram2 B 1 1 := rfl
    rw [e, e1]
    nlinarith

/-- The potential argument for two classes. -/
theorem lll2_terminates (m : ℕ) : ∀ (B C : Matrix (Fin 2) (Fin 2) K), B.det ≠ 0 →
    gram2 B 0 0 ^ 2 * (9 / 16) ^ m < B.det ^ 2 →
    ∃ B' C', lllRun (3 / 4) (m + 1) (⟨B, C, 1⟩ : LLLState K 2) = ⟨B', C', 2⟩ ∧ Reduced2 B' ∧
      gram2 B' 0 0 + gram2 B' 1 1 ≤ gram2 B 0 0 + gram2 B 1 1 := by
  induction m with
  | zero =>
    intro B C hd hm
    obtain ⟨B', C', htr, hdet, h | h⟩ := step2 B C hd
    · have hd' : B'.det ≠ 0 := by
        intro h0; rw [h0] at hdet; exact hd (by simpa using hdet.symm)
      exact ⟨B', C', by rw [lllRun_succ, h.1]; rfl, reduced2_of B' hd' h.2.1 h.2.2, htr⟩
    · exact absurd h.2.2 (by simpa using hm)
  | succ m ih =>
    intro B C hd hm
    obtain ⟨B', C', htr, hdet, h | h⟩ := step2 B C hd
    all_goals
      have hd' : B'.det ≠ 0 := by
        intro h0; rw [h0] at hdet; exact hd (by simpa using hdet.symm)
    · exact ⟨B', C', by rw [lllRun_succ, h.1, lllRun_done _ _ (le_refl _)], reduced2_of B' hd' h.2.1 h.2.2, htr⟩
    · obtain ⟨B2, C2, h1, h2, h3⟩ := ih B' C' hd' (by
        rw [hdet]
        refine lt_of_le_of_lt ?_ hm
        have hp := gram2_pos B' hd'
        have : gram2 B' 0 0 ^ 2 ≤ gram2 B 0 0 ^ 2 * (9 / 16) := by nlinarith [h.2.1]
        calc gram2 B' 0 0 ^ 2 * (9 / 16) ^ m ≤ gram2 B 0 0 ^ 2 * (9 / 16) * (9 / 16) ^ m :=
              mul_le_mul_of_nonneg_right this (by positivity)
          _ = _ := by ring)
      exact ⟨B2, C2, by rw [lllRun_succ, h.1, h1], h2, h3.trans htr⟩

/-- C42: for two linearly independent vectors (this is what a successful Cholesky decomposition delivers) `_lll` ends,
and the basis returned is reduced.  (`lll fuel B = some r` for all `fuel ≥ N` says that the loop ends after at most `N`
iterations with the result `r`.) -/
theorem C42_two_classes (B : Matrix (Fin 2) (Fin 2) K) (h : B.det ≠ 0) :
    ∃ (N : ℕ) (B' C : Matrix (Fin 2) (Fin 2) K), (∀ fuel, N ≤ fuel → lll fuel B = some (B', C)) ∧
      2 * |B'.col 0 ⬝ᵥ B'.col 1| ≤ B'.col 0 ⬝ᵥ B'.col 0 ∧
      3 / 4 * (B'.col 0 ⬝ᵥ B'.col 0) < B'.col 1 ⬝ᵥ B'.col 1 := by
  have hp := gram2_pos B h
  have hd : 0 < B.det ^ 2 := by positivity
  obtain ⟨m, hm⟩ := exists_pow_lt_of_lt_one (x := B.det ^ 2 / gram2 B 0 0 ^ 2) (y := (9 / 16 : K))
    (by positivity) (by norm_num)
  obtain ⟨B', C, h1, h2, h3⟩ := lll2_terminates m B 1 h (by
    rw [lt_div_iff₀ (by positivity)] at hm; linarith)
  refine ⟨m + 1, B', C, fun fuel hf => ?_, h2.1, h2.2⟩
  obtain ⟨e, rfl⟩ := Nat.exists_eq_add_of_le hf
  have e1 : lllRun (3 / 4) (m + 1 + e) (lllInit B) = ⟨B', C, 2⟩ := by
    rw [lllRun_add, lllInit, h1, lllRun_done _ _ (le_refl _)]
  exact lll_of_run e1 (le_refl _)

/-- C42: consequently the first vector of the basis returned is, up to a factor `√2`, a shortest non-zero vector of the
lattice. -/
theorem C42_short_vector (B B' C : Matrix (Fin 2) (Fin 2) K) (h : B.det ≠ 0) (fuel : ℕ)
    (hr : lll fuel B = some (B', C)) (x : Fin 2 → ℤ) (hx : x ≠ 0) :
    B'.col 0 ⬝ᵥ B'.col 0 ≤ 2 * ((B *ᵥ fun i => (x i : K)) ⬝ᵥ (B *ᵥ fun i => (x i : K))) := by
  obtain ⟨N, B2, C2, hN, hr1, hr2⟩ := C42_two_classes B h
  have e : (B2, C2) = (B', C) := by
    have e1 := hN (max N fuel) (le_max_left _ _)
    have e2 : lll (max N fuel) B = some (B', C) := by
      have h3 := hr
      unfold lll at h3 ⊢
      simp only at h3 ⊢
      split at h3
      · cases h3
      · rename_i hk
        obtain ⟨e, he⟩ := Nat.exists_eq_add_of_le (le_max_right N fuel)
        rw [he, lllRun_add, lllRun_done _ _ (by omega), if_neg hk]; exact h3
    rw [e1] at e2; exact Option.some.inj e2
  obtain ⟨rfl, rfl⟩ := Prod.mk.inj e
  obtain ⟨U, hC, hU, hB⟩ := C40_result B B2 C2 fuel hr
  -- coordinates of the vector in the new basis
  have hUU : IsUnit U.det := by rcases hU with hU | hU <;> simp [hU]
  set y : Fin 2 → ℤ := U⁻¹ *ᵥ x with hy
  have hxy : x = U *ᵥ y := by rw [hy, Matrix.mulVec_mulVec, Matrix.mul_nonsing_inv U hUU, Matrix.one_mulVec]
  have hy0 : y ≠ 0 := by rintro h0; rw [h0, Matrix.mulVec_zero] at hxy; exact hx hxy
  have hv : (B *ᵥ fun i => (x i : K)) = B2 *ᵥ fun i => (y i : K) := by
    rw [hB, ← Matrix.mulVec_mulVec, hC]
    congr 1
    ext i
    rw [hxy]
    simp [Matrix.mulVec, dotProduct]
  rw [hv]
  have e3 : (B2 *ᵥ fun i => (y i : K)) ⬝ᵥ (B2 *ᵥ fun i => (y i : K)) =
      (y 0 : K) ^ 2 * (B2.col 0 ⬝ᵥ B2.col 0) + 2 * (y 0 * y 1) * (B2.col 0 ⬝ᵥ B2.col 1)
        + (y 1 : K) ^ 2 * (B2.col 1 ⬝ᵥ B2.col 1) := by
    simp [Matrix.mulVec, dotProduct, Fin.sum_univ_two]; ring
  rw [e3]
  set p := B2.col 0 ⬝ᵥ B2.col 0
  set q := B2.col 0 ⬝ᵥ B2.col 1
  set r := B2.col 1 ⬝ᵥ B2.col 1
  have hp0 : 0 ≤ p := by
    have := abs_nonneg q; linarith
  obtain ⟨hq1, hq2⟩ := abs_le.1 (show |q| ≤ p / 2 by linarith)
  by_cases h1 : y 1 = 0
  · have h0 : y 0 ≠ 0 := by
      rintro h0; exact hy0 (by ext i; fin_cases i <;> simpa)
    have : (1 : K) ≤ (y 0 : K) ^ 2 := by
      have : (1 : ℤ) ≤ y 0 ^ 2 := by have := Int.one_le_abs h0; nlinarith [sq_abs (y 0)]
      exact_mod_cast this
    rw [h1]; push_cast
    nlinarith
  · have hb : (1 : K) ≤ (y 1 : K) ^ 2 := by
      have : (1 : ℤ) ≤ y 1 ^ 2 := by have := Int.one_le_abs h1; nlinarith [sq_abs (y 1)]
      exact_mod_cast this
    set a : K := (y 0 : K)
    set b : K := (y 1 : K)
    -- a² p + 2ab q + b² r ≥ a² p - |ab| p + 3/4 b² p ≥ b² p / 2
    have h4 : -(|a * b| * p) ≤ 2 * (a * b) * q := by
      have : |2 * (a * b) * q| ≤ |a * b| * p := by
        rw [abs_mul, abs_mul, abs_of_pos (by norm_num : (0 : K) < 2)]
        have : |q| * 2 ≤ p := by linarith
        nlinarith [abs_nonneg (a * b)]
      linarith [neg_le_of_abs_le this]
    have h5 : |a * b| = |a| * |b| := abs_mul a b
    have h6 : a ^ 2 = |a| ^ 2 := (sq_abs a).symm
    have h7 : b ^ 2 = |b| ^ 2 := (sq_abs b).symm
    have h8 : 0 ≤ (|a| - |b| / 2) ^ 2 := sq_nonneg _
    have h9 : 0 ≤ (|a| - |b| / 2) ^ 2 * p := mul_nonneg h8 hp0
    have h10 : 3 / 4 * p * b ^ 2 ≤ b ^ 2 * r := by nlinarith
    rw [h7] at h10 hb ⊢
    rw [h6]
    rw [h5] at h4
    nlinarith

/-- The potential argument for three classes: `Φ = |b₀|² · det Gram(b₀, b₁)` drops by a quarter at every swap and is
bounded below. -/
theorem lll3_terminates (B₀ : Matrix (Fin 3) (Fin 3) K) (c : K) (hc : 0 < c)
    (hlow : ∀ B C, Unimodular B₀ B C → c ≤ pp B ∧ c ≤ dd B) (m : ℕ) :
    ∀ (s : LLLState K 3), Unimodular B₀ s.B s.change → (s.k = 1 ∨ s.k = 2 ∧ Red1 s.B) →
      pp s.B * dd s.B * (3 / 4) ^ m < c * c →
      ∃ N, (lllRun (3 / 4) N s).k = 3 ∧ Red1 (lllRun (3 / 4) N s).B ∧ Red2 (lllRun (3 / 4) N s).B := by
  have lowprod : ∀ B C, Unimodular B₀ B C → c * c ≤ pp B * dd B := fun B C h =>
    mul_le_mul (hlow B C h).1 (hlow B C h).2 hc.le (hc.le.trans (hlow B C h).1)
  have uni : ∀ (s : LLLState K 3), 1 ≤ s.k → Unimodular B₀ s.B s.change →
      Unimodular B₀ (lllStep (3 / 4) s).B (lllStep (3 / 4) s).change := fun s hk h => (unimodular_step _ hk h).2
  have pre : ∀ (s : LLLState K 3), (∃ N, (lllRun (3 / 4) N (lllStep (3 / 4) s)).k = 3 ∧
      Red1 (lllRun (3 / 4) N (lllStep (3 / 4) s)).B ∧ Red2 (lllRun (3 / 4) N (lllStep (3 / 4) s)).B) →
      ∃ N, (lllRun (3 / 4) N s).k = 3 ∧ Red1 (lllRun (3 / 4) N s).B ∧ Red2 (lllRun (3 / 4) N s).B := by
    rintro s ⟨N, hN⟩; exact ⟨N + 1, by rw [lllRun_succ]; exact hN⟩
  -- a state at k = 2, given the claim for states reached by swaps
  have two : ∀ (s : LLLState K 3), Unimodular B₀ s.B s.change → s.k = 2 → Red1 s.B →
      (∀ s' : LLLState K 3, Unimodular B₀ s'.B s'.change → s'.k = 1 →
        pp s'.B * dd s'.B ≤ 3 / 4 * (pp s.B * dd s.B) →
        ∃ N, (lllRun (3 / 4) N s').k = 3 ∧ Red1 (lllRun (3 / 4) N s').B ∧ Red2 (lllRun (3 / 4) N s').B) →
      ∃ N, (lllRun (3 / 4) N s).k = 3 ∧ Red1 (lllRun (3 / 4) N s).B ∧ Red2 (lllRun (3 / 4) N s).B := by
    rintro ⟨B, C, k⟩ hu hk hr hnext
    simp only at hu hk hr hnext
    subst hk
    have hu' := uni ⟨B, C, 2⟩ (by simp) hu
    have hp := hc.trans_le (hlow B C hu).1
    have hd := hc.trans_le (hlow B C hu).2
    apply pre
    obtain ⟨B', C', h | h⟩ := step3_two B C hp hd hr
    · rw [h.1]; exact ⟨0, rfl, h.2.1, h.2.2⟩
    · rw [h.1] at hu' ⊢
      refine hnext _ hu' rfl ?_
      simp only [h.2.1]
      nlinarith [h.2.2]
  have one : ∀ (s : LLLState K 3), Unimodular B₀ s.B s.change → s.k = 1 →
      (∀ s' : LLLState K 3, Unimodular B₀ s'.B s'.change → s'.k = 1 →
        pp s'.B * dd s'.B ≤ 3 / 4 * (pp s.B * dd s.B) →
        ∃ N, (lllRun (3 / 4) N s').k = 3 ∧ Red1 (lllRun (3 / 4) N s').B ∧ Red2 (lllRun (3 / 4) N s').B) →
      ∃ N, (lllRun (3 / 4) N s).k = 3 ∧ Red1 (lllRun (3 / 4) N s).B ∧ Red2 (lllRun (3 / 4) N s).B := by
    rintro ⟨B, C, k⟩ hu hk hnext
    simp only at hu hk hnext
    subst hk
    have hu' := uni ⟨B, C, 1⟩ (by simp) hu
    have hp := hc.trans_le (hlow B C hu).1
    have hd := hc.trans_le (hlow B C hu).2
    apply pre
    obtain ⟨B', C', h | h⟩ := step3_one B C hp hd
    · rw [h.1] at hu' ⊢
      refine two _ hu' rfl h.2.2.2 fun s' h1 h2 h3 => hnext s' h1 h2 ?_
      simpa only [h.2.1, h.2.2.1] using h3
    · rw [h.1] at hu' ⊢
      refine hnext _ hu' rfl ?_
      simp only [h.2.2]
      nlinarith [h.2.1]
  induction m with
  | zero =>
    intro s hu hk hm
    exact absurd (lowprod _ _ hu) (not_le.2 (by simpa using hm))
  | succ m ih =>
    intro s hu hk hm
    have next : ∀ s' : LLLState K 3, Unimodular B₀ s'.B s'.change → s'.k = 1 →
        pp s'.B * dd s'.B ≤ 3 / 4 * (pp s.B * dd s.B) →
        ∃ N, (lllRun (3 / 4) N s').k = 3 ∧ Red1 (lllRun (3 / 4) N s').B ∧ Red2 (lllRun (3 / 4) N s').B := by
      intro s' h1 h2 h3
      refine ih s' h1 (Or.inl h2) (lt_of_le_of_lt ?_ hm)
      calc pp s'.B * dd s'.B * (3 / 4) ^ m ≤ 3 / 4 * (pp s.B * dd s.B) * (3 / 4) ^ m :=
            mul_le_mul_of_nonneg_right h3 (by positivity)
        _ = _ := by ring
    rcases hk with hk | ⟨hk, hr⟩
    · exact one s hu hk next
    · exact two s hu hk hr next

/-- C82: for three linearly independent vectors `_lll` ends, although its Gram-Schmidt vectors are not orthogonal.  In the
basis returned `b₀, b₁` are reduced and `b₂` is size reduced: `|b₀·b₂| ≤ |b₀|²/2` and the component of `b₂` along the part
of `b₁` orthogonal to `b₀` is at most half of that part. -/
theorem C82_three_classes_partial (B : Matrix (Fin 3) (Fin 3) K) (h : B.det ≠ 0) :
    ∃ (N : ℕ) (B' C : Matrix (Fin 3) (Fin 3) K), (∀ fuel, N ≤ fuel → lll fuel B = some (B', C)) ∧
      2 * |B'.col 0 ⬝ᵥ B'.col 1| ≤ B'.col 0 ⬝ᵥ B'.col 0 ∧
      3 / 4 * (B'.col 0 ⬝ᵥ B'.col 0) < B'.col 1 ⬝ᵥ B'.col 1 ∧
      2 * |B'.col 0 ⬝ᵥ B'.col 2| ≤ B'.col 0 ⬝ᵥ B'.col 0 ∧
      2 * |(B'.col 0 ⬝ᵥ B'.col 0) * (B'.col 1 ⬝ᵥ B'.col 2) - (B'.col 0 ⬝ᵥ B'.col 1) * (B'.col 0 ⬝ᵥ B'.col 2)| ≤
        (B'.col 0 ⬝ᵥ B'.col 0) * (B'.col 1 ⬝ᵥ B'.col 1) - (B'.col 0 ⬝ᵥ B'.col 1) ^ 2 := by
  obtain ⟨c, hc, hlow⟩ := pp_dd_lower B h
  have hu := (unimodular_run (3 / 4) 0 B).2
  have h0 : 0 < pp B * dd B := by
    have := hlow _ _ hu
    exact mul_pos (hc.trans_le this.1) (hc.trans_le this.2)
  obtain ⟨m, hm⟩ := exists_pow_lt_of_lt_one (x := c * c / (pp B * dd B)) (y := (3 / 4 : K)) (by positivity) (by norm_num)
  rw [lt_div_iff₀ h0] at hm
  obtain ⟨N, hk, hr1, hr2⟩ := lll3_terminates B c hc hlow m (lllInit B) hu (Or.inl rfl) (by
    simpa only [lllInit, mul_comm] using hm)
  refine ⟨N, (lllRun (3 / 4) N (lllInit B)).B, (lllRun (3 / 4) N (lllInit B)).change, fun fuel hf => ?_,
    hr1.1, hr1.2, hr2.1, hr2.2⟩
  obtain ⟨e, rfl⟩ := Nat.exists_eq_add_of_le hf
  refine lll_of_run (k := (lllRun (3 / 4) N (lllInit B)).k) ?_ hk.ge
  rw [lllRun_add, lllRun_done _ _ hk.ge]

/-! A run of period four for five classes. -/

def cyc0 : Matrix (Fin 5) (Fin 5) ℚ :=
  !![-2, 1, -1, 0, -1; 1, 2, -2, 2, 0; -2, 1, 1, 0, -1; 0, -1, -1, -1, 0; -2, 2, 2, -2, 2]
def cyc1 : Matrix (Fin 5) (Fin 5) ℚ :=
  !![-2, 1, -1, -1, -1; 1, 2, -2, 0, 0; -2, 1, 1, 1, -1; 0, -1, -1, -2, 0; -2, 2, 2, 0, 2]
def cyc2 : Matrix (Fin 5) (Fin 5) ℚ :=
  !![-2, 1, -1, 0, -1; 1, 2, -2, 2, 0; -2, 1, 1, -2, 1; 0, -1, -1, 1, -2; -2, 2, 2, 0, 0]
def cyc3 : Matrix (Fin 5) (Fin 5) ℚ :=
  !![-2, 1, -1, -1, -1; 1, 2, -2, 0, 0; -2, 1, 1, -1, 1; 0, -1, -1, 0, -2; -2, 2, 2, 2, 0]
def chg1 : Matrix (Fin 5) (Fin 5) ℚ :=
  !![1, 0, 0, 0, 0; 0, 1, 0, 0, 0; 0, 0, 1, 1, 0; 0, 0, 0, 1, 0; 0, 0, 0, 0, 1]
def chg2 : Matrix (Fin 5) (Fin 5) ℚ :=
  !![1, 0, 0, 0, 0; 0, 1, 0, 0, 0; 0, 0, 1, -1, 1; 0, 0, 0, 0, 1; 0, 0, 0, 1, 0]
def chg3 : Matrix (Fin 5) (Fin 5) ℚ :=
  !![1, 0, 0, 0, 0; 0, 1, 0, 0, 0; 0, 0, 1, 0, 1; 0, 0, 0, 0, 1; 0, 0, 0, 1, 0]

def stateEq (s t : LLLState ℚ 5) : Bool :=
  (List.finRange 5).all (fun i => (List.finRange 5).all fun j => decide (s.B i j = t.B i j) && decide (s.change i j = t.change i j))
    && s.k == t.k

theorem state_ext {s t : LLLState ℚ 5} (h : stateEq s t = true) : s = t := by
  obtain ⟨B, C, k⟩ := s
  obtain ⟨B', C', k'⟩ := t
  simp only [stateEq, Bool.and_eq_true, List.all_eq_true, List.mem_finRange, decide_eq_true_eq, forall_const,
    beq_iff_eq] at h
  rw [show B = B' from Matrix.ext fun i j => (h.1 i j).1, show C = C' from Matrix.ext fun i j => (h.1 i j).2, h.2]

set_option maxRecDepth 100000 in
theorem cyc_steps :
    lllStep (3 / 4) (⟨cyc0, 1, 1⟩ : LLLState ℚ 5) = ⟨cyc0, 1, 2⟩ ∧
    lllStep (3 / 4) (⟨cyc0, 1, 2⟩ : LLLState ℚ 5) = ⟨cyc0, 1, 3⟩ ∧
    lllStep (3 / 4) (⟨cyc0, 1, 3⟩ : LLLState ℚ 5) = ⟨cyc1, chg1, 4⟩ ∧
    lllStep (3 / 4) (⟨cyc1, chg1, 4⟩ : LLLState ℚ 5) = ⟨cyc2, chg2, 3⟩ ∧
    lllStep (3 / 4) (⟨cyc2, chg2, 3⟩ : LLLState ℚ 5) = ⟨cyc3, chg3, 4⟩ ∧
    lllStep (3 / 4) (⟨cyc3, chg3, 4⟩ : LLLState ℚ 5) = ⟨cyc0, 1, 3⟩ := by
  refine ⟨state_ext ?_, state_ext ?_, state_ext ?_, state_ext ?_, state_ext ?_, state_ext ?_⟩ <;> decide +kernel

theorem cyc_run (m : ℕ) : (lllRun (3 / 4) m (⟨cyc0, 1, 3⟩ : LLLState ℚ 5)).k < 5 ∧
    (lllRun (3 / 4) m (⟨cyc1, chg1, 4⟩ : LLLState ℚ 5)).k < 5 ∧
    (lllRun (3 / 4) m (⟨cyc2, chg2, 3⟩ : LLLState ℚ 5)).k < 5 ∧
    (lllRun (3 / 4) m (⟨cyc3, chg3, 4⟩ : LLLState ℚ 5)).k < 5 := by
  obtain ⟨_, _, h0, h1, h2, h3⟩ := cyc_steps
  induction m with
  | zero => unfold lllRun; simp
  | succ m ih =>
    rw [lllRun_succ, lllRun_succ, lllRun_succ, lllRun_succ, h0, h1, h2, h3]
    exact ⟨ih.2.1, ih.2.2.1, ih.2.2.2, ih.1⟩

theorem cyc0_det : cyc0.det = 12 := by
  simp [cyc0, Matrix.det_succ_row_zero, Fin.sum_univ_succ, Fin.succAbove]; norm_num

theorem cyc0_run (m : ℕ) : (lllRun (3 / 4) m (lllInit cyc0)).k < 5 := by
  obtain ⟨h0, h1, _⟩ := cyc_steps
  rcases m with _ | _ | m
  · decide
  · rw [lllRun_succ, lllInit, h0]; decide
  · rw [lllRun_succ, lllRun_succ, lllInit, h0, h1]; exact (cyc_run m).1

/-- C82 fails for five classes, and for every larger number `n` of classes: there is an invertible matrix for which `_lll`
never ends, and neither does it for any other basis with the same Gram matrix, such as the transposed Cholesky factor that
`_reduce_circular_coordinates` computes. -/
theorem C82_five_classes_diverge (n : ℕ) (hn : 5 ≤ n) :
    ∃ B₀ : Matrix (Fin n) (Fin n) ℚ, B₀.det ≠ 0 ∧ (∀ fuel, lll fuel B₀ = none) ∧
      ∀ B : Matrix (Fin n) (Fin n) K, Bᵀ * B = (B₀ᵀ * B₀).map (fun q => (q : K)) → ∀ fuel, lll fuel B = none := by
  obtain ⟨m, rfl⟩ := Nat.exists_eq_add_of_le hn
  have key : ∀ {K' : Type} [Field K'] [LinearOrder K'] [IsStrictOrderedRing K'] [FloorRing K']
      (B : Matrix (Fin (5 + m)) (Fin (5 + m)) K'), SameGram hn cyc0 B → ∀ fuel, lll fuel B = none := by
    intro K' _ _ _ _ B hg fuel
    have := sameGram_run (K := K') fuel (lllInit cyc0) (lllInit B) hg rfl (le_refl _) fun l _ => cyc0_run l
    unfold lll; simp only; rw [if_pos]
    rw [this]
    have := cyc0_run fuel
    omega
  have hcol : ∀ i j : Fin 5,
      (reindex finSumFinEquiv finSumFinEquiv (fromBlocks cyc0 0 0 (1 : Matrix (Fin m) (Fin m) ℚ))).col (Fin.castLE hn i) ⬝ᵥ
        (reindex finSumFinEquiv finSumFinEquiv (fromBlocks cyc0 0 0 (1 : Matrix (Fin m) (Fin m) ℚ))).col (Fin.castLE hn j) =
      cyc0.col i ⬝ᵥ cyc0.col j := by
    intro i j
    have e : ∀ i : Fin 5, Fin.castLE hn i = Fin.castAdd m i := fun i => rfl
    simp only [dotProduct, Matrix.col_apply, Matrix.reindex_apply, Matrix.submatrix_apply, e]
    rw [Fin.sum_univ_add]
    simp
  refine ⟨reindex finSumFinEquiv finSumFinEquiv (fromBlocks cyc0 0 0 1), ?_, ?_, fun B hB => ?_⟩
  · rw [Matrix.det_reindex_self, Matrix.det_fromBlocks_zero₂₁, Matrix.det_one, cyc0_det]; norm_num
  · refine key _ fun i j => ?_
    rw [hcol, Rat.cast_id]
  · refine key B fun i j => ?_
    have := congrFun (congrFun hB (Fin.castLE hn i)) (Fin.castLE hn j)
    have h2 := hcol i j
    simp only [Matrix.mul_apply, Matrix.transpose_apply, Matrix.map_apply] at this
    rw [← h2]
    simpa [dotProduct, Matrix.col] using this

/-- Non-vacuity of C82: a basis for which swaps are needed. -/
example : (!![9, 4, 0; 0, 9, 5; 0, 0, 3] : Matrix (Fin 3) (Fin 3) ℚ).det ≠ 0 ∧
    (lll 3 (!![9, 4, 0; 0, 9, 5; 0, 0, 3] : Matrix (Fin 3) (Fin 3) ℚ)).isNone := by
  constructor <;> decide +kernel

/-- C43: for two classes the total energy (the trace of the Gram matrix) of the reduced basis is at most the one before,
at any iteration.  The full claim (any number of classes) is false, see `C43_three_classes_increase`. -/
theorem C43_two_classes_partial (B B' C : Matrix (Fin 2) (Fin 2) K) (h : B.det ≠ 0) (fuel : ℕ)
    (hr : lll fuel B = some (B', C)) : (B'ᵀ * B').trace ≤ (Bᵀ * B).trace := by
  have tr : ∀ A : Matrix (Fin 2) (Fin 2) K, (Aᵀ * A).trace = gram2 A 0 0 + gram2 A 1 1 := by
    intro A; simp [Matrix.trace, Matrix.mul_apply, gram2, dotProduct, Fin.sum_univ_two]
  have hp := gram2_pos B h
  have hd : 0 < B.det ^ 2 := by positivity
  obtain ⟨m, hm⟩ := exists_pow_lt_of_lt_one (x := B.det ^ 2 / gram2 B 0 0 ^ 2) (y := (9 / 16 : K))
    (by positivity) (by norm_num)
  obtain ⟨B2, C2, h1, h2, h3⟩ := lll2_terminates m B 1 h (by
    rw [lt_div_iff₀ (by positivity)] at hm; linarith)
  have e : B2 = B' := by
    unfold lll at hr
    simp only at hr
    split at hr
    · cases hr
    · rename_i hk
      simp only [Option.some.injEq, Prod.mk.injEq] at hr
      have a1 := lllRun_add (3 / 4 : K) (lllInit B) fuel (m + 1)
      rw [lllRun_done _ (lllRun (3 / 4) fuel (lllInit B)) (by omega), Nat.add_comm, lllRun_add] at a1
      unfold lllInit at a1 hr
      rw [h1, lllRun_done _ _ (le_refl _)] at a1
      rw [← a1] at hr
      exact hr.1
  rw [tr, tr, ← e]
  exact h3

/-- C43 fails for three classes: here the trace of the Gram matrix goes from 284 to 291. -/
theorem C43_three_classes_increase :
    ∃ (B B' C : Matrix (Fin 3) (Fin 3) ℚ), B.det ≠ 0 ∧ lll 10 B = some (B', C) ∧ (Bᵀ * B).trace < (B'ᵀ * B').trace := by
  have h : ((lll 10 (!![9, 4, 0; 0, 9, 5; 0, 0, 9] : Matrix (Fin 3) (Fin 3) ℚ)).any fun r =>
    decide ((((!![9, 4, 0; 0, 9, 5; 0, 0, 9] : Matrix (Fin 3) (Fin 3) ℚ))ᵀ * !![9, 4, 0; 0, 9, 5; 0, 0, 9]).trace < (r.1ᵀ * r.1).trace)) = true := by
    decide +kernel
  rw [Option.any_eq_true] at h
  obtain ⟨r, hr, ht⟩ := h
  refine ⟨_, r.1, r.2, ?_, hr, by simpa using ht⟩
  decide +kernel

/-- C44: the columns of the result of `_gram_schmidt` differ from those of the input by combinations of the earlier
input columns (so the flags agree), and for two columns they are orthogonal.  Orthogonality for more columns fails,
see `C44_not_orthogonal`. -/
theorem C44_flags_partial (B : Matrix (Fin n) (Fin n) K) (i : Fin n) :
    (gramSchmidt B).col i - B.col i ∈ Submodule.span K {v | ∃ j, j < i ∧ v = B.col j} := by
  have key : ∀ (l : List (Fin n)), (∀ j ∈ l, j < i) → ∀ v : Fin n → K,
      l.foldl (fun Ai j => Ai - proj (B.col j) Ai) v - v ∈ Submodule.span K {v | ∃ j, j < i ∧ v = B.col j} := by
    intro l
    induction l with
    | nil => intro _ v; simp
    | cons j l ih =>
      intro hl v
      rw [List.foldl_cons]
      have h1 := ih (fun a ha => hl a (by simp [ha])) (v - proj (B.col j) v)
      have h2 : proj (B.col j) v ∈ Submodule.span K {v | ∃ j, j < i ∧ v = B.col j} :=
        Submodule.smul_mem _ _ (Submodule.subset_span ⟨j, hl j (by simp), rfl⟩)
      have := Submodule.sub_mem _ h1 h2
      convert this using 1
      abel
  exact key (below i) (fun j hj => by simpa [below] using hj) (B.col i)

/-- C44, two columns: orthogonal. -/
theorem C44_two_columns_partial (B : Matrix (Fin 2) (Fin 2) K) (h : B.det ≠ 0) :
    (gramSchmidt B).col 0 ⬝ᵥ (gramSchmidt B).col 1 = 0 := by
  rw [gs2_zero, gs2_one]
  have hp := gram2_pos B h
  unfold proj
  rw [dotProduct_sub, dotProduct_smul, smul_eq_mul, dotProduct_comm (B.col 1)]
  have : B.col 0 ⬝ᵥ B.col 0 ≠ 0 := hp.ne'
  field_simp
  ring

/-- C44 fails for three columns. -/
theorem C44_not_orthogonal : ∃ B : Matrix (Fin 3) (Fin 3) ℚ, B.det ≠ 0 ∧
    (gramSchmidt B).col 0 ⬝ᵥ (gramSchmidt B).col 2 ≠ 0 := by
  refine ⟨!![1, 1, 0; 0, 1, 1; 0, 0, 1], ?_, ?_⟩ <;> decide +kernel

/-- Non-vacuity of C42/C43 (and of the hypothesis of C40_result): a basis for which several iterations are needed. -/
example : ((!![2, 7; 1, 3] : Matrix (Fin 2) (Fin 2) ℚ).det ≠ 0) ∧
    (lll 1 (!![2, 7; 1, 3] : Matrix (Fin 2) (Fin 2) ℚ)).isNone ∧
    (lll 5 (!![2, 7; 1, 3] : Matrix (Fin 2) (Fin 2) ℚ)).isSome := by
  refine ⟨?_, ?_, ?_⟩ <;> decide +kernel

end Dreimac
