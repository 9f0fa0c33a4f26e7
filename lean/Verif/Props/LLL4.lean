import Verif.Lemmas.LLL4
import Verif.Props.LLL

/-!
# C82 for four classes

`_lll` (dreimac/toroidalcoords.py 383-424) ends for four linearly independent vectors.  Swaps of `b₀, b₁` and of `b₁, b₂`
decrease the usual potential; a swap of `b₂, b₃` that is not followed by one of those decreases the part of `b₂` that the
(non orthogonal) Gram-Schmidt vector `q₂` keeps, and that part cannot become small, because `b₂` has passed the test
against `b₁`.
-/

namespace Dreimac

open Matrix

variable {K : Type} [Field K] [LinearOrder K] [IsStrictOrderedRing K] [FloorRing K]

/-- The run from `s` ends with `b₀, b₁` reduced and `b₂, b₃` size reduced. -/
def Ends4 (s : LLLState K 4) : Prop :=
  ∃ N, (lllRun (3 / 4) N s).k = 4 ∧ Pair ((lllRun (3 / 4) N s).B.col 0) ((lllRun (3 / 4) N s).B.col 1) ∧
    Sized ((lllRun (3 / 4) N s).B.col 0) ((lllRun (3 / 4) N s).B.col 1) ((lllRun (3 / 4) N s).B.col 2) ∧
    Sized ((lllRun (3 / 4) N s).B.col 0) ((lllRun (3 / 4) N s).B.col 1) ((lllRun (3 / 4) N s).B.col 3)

theorem ends4_step {s s' : LLLState K 4} (h : lllStep (3 / 4) s = s') (h' : Ends4 s') : Ends4 s := by
  obtain ⟨N, hN⟩ := h'
  exact ⟨N + 1, by rw [lllRun_succ, h]; exact hN⟩

/-- The potential. -/
def pot4 (B : Matrix (Fin 4) (Fin 4) K) : K := (B.col 0 ⬝ᵥ B.col 0) * dv (B.col 0) (B.col 1)

omit [FloorRing K] in
/-- A column that passes the test against `b₁` keeps at least half of `|b₁*|²`. -/
theorem passes_lower {b0 b1 z : Fin 4 → K} (hP : Pair b0 b1) (hs : Sized b0 b1 z) (hp : Passes b0 b1 z) :
    (gs1 b0 b1 ⬝ᵥ gs1 b0 b1) / 2 < gsQ b0 b1 z ⬝ᵥ gsQ b0 b1 z := by
  have hN := hP.2.1
  have h1 := sq_le_quarter hs.2
  have h2 : (gs1 b0 b1 ⬝ᵥ gs1 b0 b1) / 2 ≤ (3 / 4 - coef (gs1 b0 b1) z ^ 2) * (gs1 b0 b1 ⬝ᵥ gs1 b0 b1) := by
    have := mul_le_mul_of_nonneg_right h1 hN.le
    linarith
  exact h2.trans_lt hp

/-- The loop between `k = 3` and `k = 2` with `b₀, b₁` fixed, at a state just after a swap of `b₂, b₃` that the test
against `b₁` let through. -/
theorem ends4_inner {B₀ : Matrix (Fin 4) (Fin 4) K} {b0 b1 : Fin 4 → K} (hP : Pair b0 b1)
    (next : ∀ s : LLLState K 4, Unimodular B₀ s.B s.change → s.k = 1 → pot4 s.B ≤ 3 / 4 * ((b0 ⬝ᵥ b0) * dv b0 b1) → Ends4 s)
    (j : ℕ) : ∀ (B C : Matrix (Fin 4) (Fin 4) K), Unimodular B₀ B C → B.col 0 = b0 → B.col 1 = b1 →
      Sized b0 b1 (B.col 2) → Sized b0 b1 (B.col 3) → Passes b0 b1 (B.col 2) → Passes b0 b1 (B.col 3) →
      Fails b0 b1 (B.col 3) (B.col 2) →
      gsQ b0 b1 (B.col 3) ⬝ᵥ gsQ b0 b1 (B.col 3) * (999 / 1000) ^ j ≤ (gs1 b0 b1 ⬝ᵥ gs1 b0 b1) / 2 →
      Ends4 (⟨B, C, 3⟩ : LLLState K 4) := by
  induction j with
  | zero =>
    intro B C _ _ _ _ sA _ pA _ hj
    rw [pow_zero, mul_one] at hj
    exact absurd (passes_lower hP sA pA) (not_lt.2 hj)
  | succ j ih =>
    intro B C hu e0 e1 sX sA pX pA hf hj
    have hP0 : Pair (B.col 0) (B.col 1) := by rw [e0, e1]; exact hP
    have hu1 := (unimodular_step (s := (⟨B, C, 3⟩ : LLLState K 4)) (3 / 4) (by simp) hu).2
    obtain ⟨B1, C1, ⟨hs, f0, f1, f2, f3⟩ | ⟨hs, f0, f1, f3, f2, ff, n1, n0, hY⟩⟩ := step4_three B C hP0
    · refine ends4_step hs ⟨0, rfl, ?_, ?_, ?_⟩
      · change Pair (B1.col 0) (B1.col 1); rw [f0, f1]; exact hP0
      · change Sized (B1.col 0) (B1.col 1) (B1.col 2); rw [f0, f1, f2, e0, e1]; exact sX
      · change Sized (B1.col 0) (B1.col 1) (B1.col 3); rw [f0, f1]; exact f3
    · rw [hs] at hu1
      simp only at hu1
      refine ends4_step hs ?_
      have hP1 : Pair (B1.col 0) (B1.col 1) := by rw [f0, f1]; exact hP0
      have hu2 := (unimodular_step (s := (⟨B1, C1, 2⟩ : LLLState K 4)) (3 / 4) (by simp) hu1).2
      obtain ⟨B2, C2, ⟨ht, g0, g1, g3, gs, gp, gsame⟩ | ⟨ht, g0, gd⟩⟩ := step4_two B1 C1 hP1
      · rw [ht] at hu2
        simp only at hu2
        rw [f0] at g0
        rw [f1] at g1
        rw [f0, f1] at gs gp gsame
        rw [e0, e1] at gs gp gsame hY f2 ff
        have g2 := gsame f2
        rw [g2] at gp gs
        have dec := lll4_vector n0 n1 hP sA sX pA pX hf hY f2 gp
        refine ends4_step ht (ih B2 C2 hu2 (by rw [g0, e0]) (by rw [g1, e1]) ?_ ?_ ?_ ?_ ?_ ?_)
        · rw [g2]; exact gs
        · rw [g3, f3]; exact sX
        · rw [g2]; exact gp
        · rw [g3, f3]; exact pX
        · rw [g2, g3, f3]; exact ff
        · rw [g3, f3]
          refine le_trans ?_ hj
          have hpow : (0 : K) ≤ (999 / 1000) ^ j := by positivity
          have := mul_le_mul_of_nonneg_right dec.le hpow
          rw [pow_succ]
          linarith
      · rw [ht] at hu2
        simp only at hu2
        refine ends4_step ht (next _ hu2 rfl ?_)
        simp only [pot4, g0, f0, e0]
        rw [g0, f0, f1, e0, e1] at gd
        have := mul_le_mul_of_nonneg_left gd hP.1.le
        linarith

/-- A state at `k = 3` that the test against `b₁` let through. -/
theorem ends4_three {B₀ : Matrix (Fin 4) (Fin 4) K} (B C : Matrix (Fin 4) (Fin 4) K) (hu : Unimodular B₀ B C)
    (hP : Pair (B.col 0) (B.col 1))
    (next : ∀ s : LLLState K 4, Unimodular B₀ s.B s.change → s.k = 1 → pot4 s.B ≤ 3 / 4 * pot4 B → Ends4 s)
    (sA : Sized (B.col 0) (B.col 1) (B.col 2)) (pA : Passes (B.col 0) (B.col 1) (B.col 2)) :
    Ends4 (⟨B, C, 3⟩ : LLLState K 4) := by
  have hu1 := (unimodular_step (s := (⟨B, C, 3⟩ : LLLState K 4)) (3 / 4) (by simp) hu).2
  obtain ⟨B1, C1, ⟨hs, f0, f1, f2, f3⟩ | ⟨hs, f0, f1, f3, f2, ff, -⟩⟩ := step4_three B C hP
  · refine ends4_step hs ⟨0, rfl, ?_, ?_, ?_⟩
    · change Pair (B1.col 0) (B1.col 1); rw [f0, f1]; exact hP
    · change Sized (B1.col 0) (B1.col 1) (B1.col 2); rw [f0, f1, f2]; exact sA
    · change Sized (B1.col 0) (B1.col 1) (B1.col 3); rw [f0, f1]; exact f3
  · rw [hs] at hu1
    simp only at hu1
    refine ends4_step hs ?_
    have hP1 : Pair (B1.col 0) (B1.col 1) := by rw [f0, f1]; exact hP
    have hu2 := (unimodular_step (s := (⟨B1, C1, 2⟩ : LLLState K 4)) (3 / 4) (by simp) hu1).2
    obtain ⟨B2, C2, ⟨ht, g0, g1, g3, gs, gp, gsame⟩ | ⟨ht, g0, gd⟩⟩ := step4_two B1 C1 hP1
    · rw [ht] at hu2
      simp only at hu2
      rw [f0] at g0
      rw [f1] at g1
      rw [f0, f1] at gs gp gsame
      have g2 := gsame f2
      have hq := passes_lower hP sA pA
      have hpos : 0 < (gs1 (B.col 0) (B.col 1) ⬝ᵥ gs1 (B.col 0) (B.col 1)) / 2 := half_pos hP.2.1
      obtain ⟨j, hj⟩ := exists_pow_lt_of_lt_one (x := (gs1 (B.col 0) (B.col 1) ⬝ᵥ gs1 (B.col 0) (B.col 1)) / 2 /
        (gsQ (B.col 0) (B.col 1) (B.col 2) ⬝ᵥ gsQ (B.col 0) (B.col 1) (B.col 2))) (y := (999 / 1000 : K))
        (div_pos hpos (hpos.trans hq)) (by norm_num)
      rw [lt_div_iff₀ (hpos.trans hq), mul_comm] at hj
      refine ends4_step ht (ends4_inner (B₀ := B₀) hP next j B2 C2 hu2 g0 g1 gs ?_ gp ?_ ?_ ?_)
      · rw [g3, f3]; exact sA
      · rw [g3, f3]; exact pA
      · rw [g2, g3, f3]; exact ff
      · rw [g3, f3]; exact hj.le
    · rw [ht] at hu2
      simp only at hu2
      refine ends4_step ht (next _ hu2 rfl ?_)
      simp only [pot4, g0, f0]
      rw [g0, f0, f1] at gd
      have := mul_le_mul_of_nonneg_left gd hP.1.le
      linarith

/-- A state at `k = 1`. -/
theorem lll4_terminates (B₀ : Matrix (Fin 4) (Fin 4) K) (c : K) (hc : 0 < c)
    (hlow : ∀ B C, Unimodular B₀ B C → c ≤ B.col 0 ⬝ᵥ B.col 0 ∧ c ≤ dv (B.col 0) (B.col 1)) (m : ℕ) :
    ∀ s : LLLState K 4, Unimodular B₀ s.B s.change → s.k = 1 → pot4 s.B * (3 / 4) ^ m < c * c → Ends4 s := by
  induction m with
  | zero =>
    intro s hu _ hm
    have := mul_le_mul (hlow _ _ hu).1 (hlow _ _ hu).2 hc.le (hc.le.trans (hlow _ _ hu).1)
    rw [pow_zero, mul_one] at hm
    exact absurd this (not_le.2 hm)
  | succ m ih =>
    rintro ⟨B, C, k⟩ hu hk hm
    simp only at hu hk hm
    subst hk
    have next : ∀ s : LLLState K 4, Unimodular B₀ s.B s.change → s.k = 1 → pot4 s.B ≤ 3 / 4 * pot4 B → Ends4 s := by
      intro s h1 h2 h3
      refine ih s h1 h2 (lt_of_le_of_lt ?_ hm)
      calc pot4 s.B * (3 / 4) ^ m ≤ 3 / 4 * pot4 B * (3 / 4) ^ m := mul_le_mul_of_nonneg_right h3 (by positivity)
        _ = _ := by ring
    have hp := hc.trans_le (hlow B C hu).1
    have hd := hc.trans_le (hlow B C hu).2
    have hu1 := (unimodular_step (s := (⟨B, C, 1⟩ : LLLState K 4)) (3 / 4) (by simp) hu).2
    obtain ⟨B1, C1, ⟨hs, f0, fd, hP⟩ | ⟨hs, f0, fd⟩⟩ := step4_one B C hp hd
    · rw [hs] at hu1
      simp only at hu1
      have hpot : pot4 B1 = pot4 B := by unfold pot4; rw [fd, f0]
      refine ends4_step hs ?_
      have hu2 := (unimodular_step (s := (⟨B1, C1, 2⟩ : LLLState K 4)) (3 / 4) (by simp) hu1).2
      obtain ⟨B2, C2, ⟨ht, g0, g1, -, gs, gp, -⟩ | ⟨ht, g0, gd⟩⟩ := step4_two B1 C1 hP
      · rw [ht] at hu2
        simp only at hu2
        have hpot2 : pot4 B2 = pot4 B := by rw [← hpot]; unfold pot4; rw [g0, g1]
        refine ends4_step ht (ends4_three (B₀ := B₀) B2 C2 hu2 ?_ ?_ ?_ ?_)
        · rw [g0, g1]; exact hP
        · rw [hpot2]; exact next
        · rw [g0, g1]; exact gs
        · rw [g0, g1]; exact gp
      · rw [ht] at hu2
        simp only at hu2
        refine ends4_step ht (next _ hu2 rfl ?_)
        rw [← hpot]
        simp only [pot4, g0]
        rw [g0] at gd
        have := mul_le_mul_of_nonneg_left gd hP.1.le
        linarith
    · rw [hs] at hu1
      simp only at hu1
      refine ends4_step hs (next _ hu1 rfl ?_)
      simp only [pot4, fd]
      have := mul_le_mul_of_nonneg_right f0 hd.le
      linarith

omit [FloorRing K] in
theorem sized_b0 {b0 b1 z : Fin 4 → K} (hp : 0 < b0 ⬝ᵥ b0) (h : |coef b0 z| ≤ 1 / 2) : 2 * |b0 ⬝ᵥ z| ≤ b0 ⬝ᵥ b0 := by
  rw [coef_b0 hp z, abs_mul, abs_of_pos hp]
  have := mul_le_mul_of_nonneg_right h hp.le
  linarith

omit [FloorRing K] in
theorem sized_b1 {b0 b1 z : Fin 4 → K} (hP : Pair b0 b1) (h : |coef (gs1 b0 b1) z| ≤ 1 / 2) :
    2 * |(b0 ⬝ᵥ b0) * (b1 ⬝ᵥ z) - (b0 ⬝ᵥ b1) * (b0 ⬝ᵥ z)| ≤ (b0 ⬝ᵥ b0) * (b1 ⬝ᵥ b1) - (b0 ⬝ᵥ b1) ^ 2 := by
  obtain ⟨hp, hN, -, -⟩ := hP
  have e1 : (b0 ⬝ᵥ b0) * (b1 ⬝ᵥ z) - (b0 ⬝ᵥ b1) * (b0 ⬝ᵥ z) =
      (b0 ⬝ᵥ b0) * (coef (gs1 b0 b1) z * (gs1 b0 b1 ⬝ᵥ gs1 b0 b1)) := by
    rw [b1_eq hp (b1 := b1) z, coef_gs1 hN z, coef_b0 hp b1]; ring
  have e2 : (b0 ⬝ᵥ b0) * (b1 ⬝ᵥ b1) - (b0 ⬝ᵥ b1) ^ 2 = (b0 ⬝ᵥ b0) * (gs1 b0 b1 ⬝ᵥ gs1 b0 b1) := by
    rw [b1_norm hp (b1 := b1), coef_b0 hp b1]; ring
  rw [e1, e2, abs_mul, abs_mul, abs_of_pos hp, abs_of_pos hN]
  have := mul_le_mul_of_nonneg_right h (mul_pos hp hN).le
  linarith

/-- C82: for four linearly independent vectors `_lll` ends, although its Gram-Schmidt vectors are not orthogonal.  In the
basis returned `b₀, b₁` are reduced and `b₂, b₃` are size reduced against them: `|b₀·bᵢ| ≤ |b₀|²/2` and the component of
`bᵢ` along the part of `b₁` orthogonal to `b₀` is at most half of that part.  (For five or more vectors it may not end,
see `C82_five_classes_diverge`.) -/
theorem C82_four_classes_partial (B : Matrix (Fin 4) (Fin 4) K) (h : B.det ≠ 0) :
    ∃ (N : ℕ) (B' C : Matrix (Fin 4) (Fin 4) K), (∀ fuel, N ≤ fuel → lll fuel B = some (B', C)) ∧
      2 * |B'.col 0 ⬝ᵥ B'.col 1| ≤ B'.col 0 ⬝ᵥ B'.col 0 ∧
      3 / 4 * (B'.col 0 ⬝ᵥ B'.col 0) < B'.col 1 ⬝ᵥ B'.col 1 ∧
      ∀ i, 2 ≤ i → 2 * |B'.col 0 ⬝ᵥ B'.col i| ≤ B'.col 0 ⬝ᵥ B'.col 0 ∧
        2 * |(B'.col 0 ⬝ᵥ B'.col 0) * (B'.col 1 ⬝ᵥ B'.col i) - (B'.col 0 ⬝ᵥ B'.col 1) * (B'.col 0 ⬝ᵥ B'.col i)| ≤
          (B'.col 0 ⬝ᵥ B'.col 0) * (B'.col 1 ⬝ᵥ B'.col 1) - (B'.col 0 ⬝ᵥ B'.col 1) ^ 2 := by
  obtain ⟨c, hc, hlow⟩ := potential_lower B h
  have hu := (unimodular_run (3 / 4) 0 B).2
  have h0 : 0 < pot4 B := by
    have := hlow _ _ hu
    exact mul_pos (hc.trans_le this.1) (hc.trans_le this.2)
  obtain ⟨m, hm⟩ := exists_pow_lt_of_lt_one (x := c * c / pot4 B) (y := (3 / 4 : K)) (by positivity) (by norm_num)
  rw [lt_div_iff₀ h0, mul_comm] at hm
  obtain ⟨N, hk, hP, s2, s3⟩ := lll4_terminates B c hc hlow m (lllInit B) hu rfl hm
  generalize hr : lllRun (3 / 4) N (lllInit B) = r at hk hP s2 s3
  refine ⟨N, r.B, r.change, fun fuel hf => ?_, sized_b0 (b1 := r.B.col 1) hP.1 hP.2.2.1, ?_, ?_⟩
  · obtain ⟨e, rfl⟩ := Nat.exists_eq_add_of_le hf
    refine lll_of_run (k := r.k) ?_ hk.ge
    rw [lllRun_add, hr, lllRun_done _ _ hk.ge]
  · rw [b1_norm hP.1 (b1 := r.B.col 1)]
    have := hP.2.2.2
    linarith
  · intro i hi
    have : i = 2 ∨ i = 3 := by revert hi; revert i; decide
    rcases this with rfl | rfl
    · exact ⟨sized_b0 (b1 := r.B.col 1) hP.1 s2.1, sized_b1 hP s2.2⟩
    · exact ⟨sized_b0 (b1 := r.B.col 1) hP.1 s3.1, sized_b1 hP s3.2⟩

/-- Non-vacuity of C82 for four classes: a basis for which swaps are needed. -/
example : (!![9, 4, 0, 1; 0, 9, 5, 2; 0, 0, 3, 1; 0, 0, 0, 1] : Matrix (Fin 4) (Fin 4) ℚ).det ≠ 0 ∧
    (lll 4 (!![9, 4, 0, 1; 0, 9, 5, 2; 0, 0, 3, 1; 0, 0, 0, 1] : Matrix (Fin 4) (Fin 4) ℚ)).isNone := by
  constructor <;> decide +kernel

end Dreimac
