import Verif.Props.FloatLLL

/-!
# The rounded lattice reduction agrees with the exact one if nothing is rounded

A consistency check of `Model/LLLFloat` against `Model/LLL`.
-/

namespace Dreimac

open Fl Matrix

section
variable {K : Type} [Field K] [LinearOrder K] [IsStrictOrderedRing K] [FloorRing K] {n : ℕ}

/-- A matrix of numbers as a matrix of floats. -/
def liftMat (A : Matrix (Fin n) (Fin n) K) : FMat K n := fun r c => fin (A r c)

/-- No denominator of the reduction of `B` vanishes. -/
def NonDegenerate (B : Matrix (Fin n) (Fin n) K) : Prop :=
  (∀ j, B.col j ⬝ᵥ B.col j ≠ 0) ∧ ∀ j, (gramSchmidt B).col j ⬝ᵥ (gramSchmidt B).col j ≠ 0

variable {dot : (Fin n → Fl K) → (Fin n → Fl K) → Fl K} (hdot : ∀ u v, dot (fun r => fin (u r)) (fun r => fin (v r)) = fin (u ⬝ᵥ v))

include hdot

theorem projF_exact (v1 v2 : Fin n → K) (h : v1 ⬝ᵥ v1 ≠ 0) :
    projF fin dot (fun r => fin (v1 r)) (fun r => fin (v2 r)) = fun r => fin (proj v1 v2 r) := by
  funext r
  unfold projF proj
  rw [hdot, hdot, fin_div _ _ h, round_exact, round_exact]
  simp

theorem gramSchmidtF_exact {B : Matrix (Fin n) (Fin n) K} (h : ∀ j, B.col j ⬝ᵥ B.col j ≠ 0) :
    gramSchmidtF fin dot (liftMat B) = liftMat (gramSchmidt B) := by
  funext r i
  unfold gramSchmidtF liftMat gramSchmidt
  have : ∀ (l : List (Fin n)) (v : Fin n → K),
      l.foldl (fun Ai j => fun r => Fl.round fin (Ai r - projF fin dot ((liftMat B).col j) Ai r)) (fun r => fin (v r)) =
        fun r => fin (l.foldl (fun Ai j => Ai - proj (B.col j) Ai) v r) := by
    intro l
    induction l with
    | nil => intro v; rfl
    | cons j l ih =>
      intro v
      simp only [List.foldl_cons]
      rw [← ih]
      congr 1
      funext r
      have := projF_exact hdot (B.col j) v (h j)
      have hc : (liftMat B).col j = fun r => fin (B.col j r) := rfl
      rw [hc, this, round_exact, fin_sub]; rfl
  exact congrFun (this (below i) (B.col i)) r

theorem muF_exact {B : Matrix (Fin n) (Fin n) K} (h : NonDegenerate B) (i j : Fin n) :
    muF fin dot (liftMat B) i j = fin (lllMu B i j) := by
  unfold muF lllMu
  simp only [gramSchmidtF_exact hdot h.1]
  have hc : ∀ (A : Matrix (Fin n) (Fin n) K) k, (liftMat A).col k = fun r => fin (A.col k r) := fun _ _ => rfl
  rw [hc, hc, hdot, hdot, fin_div _ _ (h.2 j), round_exact]

theorem lengthReduceF_exact {s : Matrix (Fin n) (Fin n) K × Matrix (Fin n) (Fin n) K} (h : NonDegenerate s.1) (k j : Fin n)
    (tr : List (ColOp n)) : ∃ tr', lengthReduceF fin dot k ⟨liftMat s.1, liftMat s.2, tr⟩ j =
      .ok ⟨liftMat (lengthReduce k s j).1, liftMat (lengthReduce k s j).2, tr'⟩ := by
  have hsub : ∀ (A : Matrix (Fin n) (Fin n) K) (z : ℤ), subCol fin (liftMat A) k j z =
      liftMat (A.updateCol k (A.col k - (z : K) • A.col j)) := by
    intro A z
    funext r c
    unfold subCol FMat.setCol liftMat
    by_cases hc : c = k
    · subst hc; simp [round_exact]
    · simp [hc]
  unfold lengthReduceF lengthReduce
  simp only [muF_exact hdot h, Fl.abs', lt_fin, decide_eq_true_eq]
  split
  · exact ⟨tr ++ [.reduce k j (rint (lllMu s.1 k j))], by simp only [hsub]⟩
  · exact ⟨tr, rfl⟩

theorem lengthReduceF_foldl {B₀ : Matrix (Fin n) (Fin n) K} (H : ∀ B C, Unimodular B₀ B C → NonDegenerate B) {k : Fin n}
    (l : List (Fin n)) (hl : ∀ j ∈ l, j < k) (s : Matrix (Fin n) (Fin n) K × Matrix (Fin n) (Fin n) K)
    (hs : Unimodular B₀ s.1 s.2) (tr : List (ColOp n)) :
    ∃ tr', l.foldlM (lengthReduceF fin dot k) ⟨liftMat s.1, liftMat s.2, tr⟩ =
      .ok ⟨liftMat (l.foldl (lengthReduce k) s).1, liftMat (l.foldl (lengthReduce k) s).2, tr'⟩ := by
  induction l generalizing s tr with
  | nil => exact ⟨tr, rfl⟩
  | cons j l ih =>
    obtain ⟨t1, h1⟩ := lengthReduceF_exact hdot (H _ _ hs) k j tr
    simp only [List.foldlM_cons, List.foldl_cons, h1, bind, Except.bind]
    exact ih (fun i hi => hl i (by simp [hi])) _ (unimodular_lengthReduce hs (hl j (by simp))) t1

theorem lllStepF_exact {B₀ : Matrix (Fin n) (Fin n) K} (H : ∀ B C, Unimodular B₀ B C → NonDegenerate B) (delta : K)
    {s : LLLState K n} (hs : Unimodular B₀ s.B s.change) (tr : List (ColOp n)) :
    ∃ tr', lllStepF fin dot delta (⟨liftMat s.B, liftMat s.change, tr⟩, s.k) =
      .ok (⟨liftMat (lllStep delta s).B, liftMat (lllStep delta s).change, tr'⟩, (lllStep delta s).k) := by
  unfold lllStepF lllStep
  split
  · rename_i hlt
    simp only at hlt
    obtain ⟨t1, h1⟩ := lengthReduceF_foldl hdot H (k := ⟨s.k, hlt⟩) (below ⟨s.k, hlt⟩).reverse
      (fun j hj => by simpa [below] using hj) (s.B, s.change) hs tr
    have hu := unimodular_foldl (B₀ := B₀) (k := ⟨s.k, hlt⟩) (below ⟨s.k, hlt⟩).reverse
      (fun j hj => by simpa [below] using hj) (s.B, s.change) hs
    simp only at h1
    simp only [h1, bind, Except.bind, pure, Except.pure]
    generalize (below (⟨s.k, hlt⟩ : Fin n)).reverse.foldl (lengthReduce ⟨s.k, hlt⟩) (s.B, s.change) = w at *
    have hN := H _ _ hu
    have hc : ∀ (A : Matrix (Fin n) (Fin n) K) k, (liftMat A).col k = fun r => fin (A.col k r) := fun _ _ => rfl
    have hsw : ∀ (A : Matrix (Fin n) (Fin n) K) k k1, swapColsF (liftMat A) k k1 = liftMat (swapCols A k k1) := by
      intro A k k1
      funext r c
      unfold swapColsF swapCols FMat.setCol FMat.col liftMat
      simp only [Matrix.updateCol_apply, Matrix.col_apply]
      split_ifs <;> rfl
    simp only [muF_exact hdot hN, gramSchmidtF_exact hdot hN.1, hc, hdot, round_exact, fin_mul, fin_sub, lt_fin,
      decide_eq_true_eq, hsw, ← sq]
    split <;> exact ⟨_, rfl⟩
  · exact ⟨tr, rfl⟩

/-- If no operation is rounded and no denominator vanishes, the rounded reduction performs the same steps as the exact one. -/
theorem lllRunF_exact {B₀ : Matrix (Fin n) (Fin n) K} (H : ∀ B C, Unimodular B₀ B C → NonDegenerate B) (delta : K) (m : ℕ) :
    ∃ tr, lllRunF fin dot delta m (lllInitF (liftMat B₀)) =
      .ok (⟨liftMat (lllRun delta m (lllInit B₀)).B, liftMat (lllRun delta m (lllInit B₀)).change, tr⟩,
        (lllRun delta m (lllInit B₀)).k) := by
  suffices S : ∀ (s : LLLState K n) (tr : List (ColOp n)), 1 ≤ s.k → Unimodular B₀ s.B s.change →
      ∃ tr', lllRunF fin dot delta m (⟨liftMat s.B, liftMat s.change, tr⟩, s.k) =
        .ok (⟨liftMat (lllRun delta m s).B, liftMat (lllRun delta m s).change, tr'⟩, (lllRun delta m s).k) by
    have h0 := unimodular_run delta 0 B₀
    obtain ⟨tr, h⟩ := S (lllInit B₀) [] h0.1 h0.2
    refine ⟨tr, ?_⟩
    rw [← h]
    have he : (eyeF : FMat K n) = liftMat 1 := by
      funext r c; unfold eyeF liftMat; rw [Matrix.one_apply]; split_ifs <;> rfl
    simp only [lllInitF, lllInit, he]
  induction m with
  | zero => intro s tr _ _; exact ⟨tr, rfl⟩
  | succ m ih =>
    intro s tr hk hs
    obtain ⟨t1, h1⟩ := lllStepF_exact hdot H delta hs tr
    obtain ⟨k1, u1⟩ := unimodular_step delta hk hs
    obtain ⟨t2, h2⟩ := ih (lllStep delta s) t1 k1 u1
    refine ⟨t2, ?_⟩
    simp only [lllRunF, h1, bind, Except.bind, h2, lllRun, Function.iterate_succ_apply]

end

/-- Two linearly independent vectors satisfy the hypothesis of `lllRunF_exact`. -/
theorem nonDegenerate_two {K : Type} [Field K] [LinearOrder K] [IsStrictOrderedRing K] [FloorRing K]
    {B₀ : Matrix (Fin 2) (Fin 2) K} (h : B₀.det ≠ 0) (B C : Matrix (Fin 2) (Fin 2) K) (hu : Unimodular B₀ B C) :
    NonDegenerate B := by
  obtain ⟨U, hC, hdet, hB⟩ := hu
  have hd : B.det ≠ 0 := by
    rw [hB, Matrix.det_mul]
    refine mul_ne_zero h ?_
    have : C.det = ((U.det : ℤ) : K) := by
      rw [hC]; exact (Int.cast_det U).symm
    rw [this]
    rcases hdet with e | e <;> rw [e] <;> simp
  have hp := gram2_pos B hd
  have hds := det_sq B
  have hd2 : 0 < B.det ^ 2 := by positivity
  have h11 : gram2 B 1 1 ≠ 0 := by
    intro e
    rw [e] at hds
    nlinarith [sq_nonneg (gram2 B 1 0)]
  refine ⟨fun j => ?_, fun j => ?_⟩
  · fin_cases j
    · exact hp.ne'
    · exact h11
  · fin_cases j
    · show (gramSchmidt B).col 0 ⬝ᵥ (gramSchmidt B).col 0 ≠ 0
      rw [gs2_zero]; exact hp.ne'
    · show (gramSchmidt B).col 1 ⬝ᵥ (gramSchmidt B).col 1 ≠ 0
      rw [gs2_norm B hp.ne']
      intro e
      field_simp at e
      rw [mul_comm, hds, mul_zero] at e
      exact hd2.ne' e

/-- The exact reduction is the rounded one without rounding, for two linearly independent vectors. -/
example (B₀ : Matrix (Fin 2) (Fin 2) ℚ) (h : B₀.det ≠ 0) (m : ℕ) :
    ∃ tr, lllRunF fin (fun u v => u 0 * v 0 + u 1 * v 1) (3 / 4) m (lllInitF (liftMat B₀)) =
      .ok (⟨liftMat (lllRun (3 / 4) m (lllInit B₀)).B, liftMat (lllRun (3 / 4) m (lllInit B₀)).change, tr⟩,
        (lllRun (3 / 4) m (lllInit B₀)).k) :=
  lllRunF_exact (fun u v => by simp [dotProduct, Fin.sum_univ_two]) (nonDegenerate_two h) (3 / 4) m

end Dreimac
