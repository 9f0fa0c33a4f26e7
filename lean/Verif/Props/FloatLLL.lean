import Mathlib.LinearAlgebra.Matrix.Determinant.Basic
import Verif.Lemmas.LLL
import Verif.Model.LLLFloat
import Verif.Props.Float64

/-!
# C101: the lattice reduction in floating point arithmetic is an integral change of basis
-/

namespace Dreimac

open Fl Matrix

variable {n : ℕ}

/-- The exact effect of a column operation on an integer matrix. -/
def ColOp.apply : ColOp n → Matrix (Fin n) (Fin n) ℤ → Matrix (Fin n) (Fin n) ℤ
  | .reduce k j z, C => fun r c => if c = k then C r k - z * C r j else C r c
  | .swap k j, C => fun r c => if c = j then C r k else if c = k then C r j else C r c

/-- The operation produces only integers of absolute value at most `M` (intermediate products included). -/
def ColOp.Small (M : ℤ) : ColOp n → Matrix (Fin n) (Fin n) ℤ → Prop
  | .reduce k j z, C => ∀ r, |z * C r j| ≤ M ∧ |C r k - z * C r j| ≤ M
  | .swap _ _, _ => True

/-- All operations of a list, one after the other, produce only integers of absolute value at most `M`. -/
def Fits (M : ℤ) : List (ColOp n) → Matrix (Fin n) (Fin n) ℤ → Prop
  | [], _ => True
  | op :: ops, C => op.Small M C ∧ Fits M ops (op.apply C)

/-- The result of a list of operations. -/
def applyAll (ops : List (ColOp n)) (C : Matrix (Fin n) (Fin n) ℤ) : Matrix (Fin n) (Fin n) ℤ :=
  ops.foldl (fun C op => op.apply C) C

theorem applyAll_append (l : List (ColOp n)) (op : ColOp n) (C : Matrix (Fin n) (Fin n) ℤ) :
    applyAll (l ++ [op]) C = op.apply (applyAll l C) := by simp [applyAll]

theorem fits_append (M : ℤ) (l : List (ColOp n)) (op : ColOp n) (C : Matrix (Fin n) (Fin n) ℤ) :
    Fits M (l ++ [op]) C ↔ Fits M l C ∧ op.Small M (applyAll l C) := by
  induction l generalizing C with
  | nil => simp [Fits, applyAll]
  | cons a l ih => simp only [List.cons_append, Fits, ih, and_assoc]; rfl

theorem det_apply_reduce (C : Matrix (Fin n) (Fin n) ℤ) {k j : Fin n} (h : k ≠ j) (z : ℤ) :
    ((ColOp.reduce k j z).apply C).det = C.det := by
  rw [← Matrix.det_updateCol_add_smul_self C h (-z)]
  congr 1
  ext r c
  by_cases hc : c = k
  · subst hc; simp [ColOp.apply]; ring
  · simp [ColOp.apply, hc]

theorem det_apply_swap (C : Matrix (Fin n) (Fin n) ℤ) {k j : Fin n} (h : k ≠ j) :
    ((ColOp.swap k j).apply C).det = -C.det := by
  have he : (ColOp.swap k j).apply C = C.submatrix id (Equiv.swap k j) := by
    ext r c
    simp only [ColOp.apply, Matrix.submatrix_apply, id_eq]
    by_cases hj : c = j
    · simp [hj, Equiv.swap_apply_right]
    · by_cases hk : c = k
      · subst hk; simp [h, Equiv.swap_apply_left]
      · simp [hj, hk, Equiv.swap_apply_of_ne_of_ne hk hj]
  rw [he, Matrix.det_permute', Equiv.Perm.sign_swap h]; simp

section
variable {K : Type} [Field K] [LinearOrder K] [IsStrictOrderedRing K] [FloorRing K]
variable {rnd : K → Fl K} {dot : (Fin n → Fl K) → (Fin n → Fl K) → Fl K} {M : ℤ}

/-- The invariant of the loop. -/
def LLLInvF (M : ℤ) (s : LLLVarsF K n) : Prop :=
  ((applyAll s.trace 1).det = 1 ∨ (applyAll s.trace 1).det = -1) ∧
    (Fits M s.trace 1 → ∀ r c, s.change r c = .fin ((applyAll s.trace 1 r c : ℤ) : K))

theorem lllInvF_reduce (hM : ∀ z : ℤ, |z| ≤ M → Machine rnd (z : K)) {k j : Fin n} (h : k ≠ j) {s t : LLLVarsF K n}
    (hs : LLLInvF M s) (ht : lengthReduceF rnd dot k s j = .ok t) : LLLInvF M t := by
  unfold lengthReduceF at ht
  generalize muF rnd dot s.B k j = m at ht
  simp only at ht
  split at ht
  · cases m with
    | fin x =>
      injection ht with ht
      subst ht
      refine ⟨?_, ?_⟩
      · simp only [applyAll_append, det_apply_reduce _ h]; exact hs.1
      · simp only [fits_append, applyAll_append]
        rintro ⟨hf, hsm⟩ r c
        have hc := hs.2 hf
        by_cases hck : c = k
        · subst hck
          obtain ⟨h1, h2⟩ := hsm r
          have e1 := hM _ h1
          have e2 := hM _ h2
          unfold Machine at e1 e2
          push_cast at e1 e2
          have m1 : (Fl.fin ((rint x : ℤ) : K) * Fl.fin ((applyAll s.trace 1 r j : ℤ) : K)) =
            Fl.fin (((rint x : ℤ) : K) * ((applyAll s.trace 1 r j : ℤ) : K)) := rfl
          simp only [subCol, FMat.setCol, if_true, hc, m1, Fl.round, e1, ColOp.apply, Fl.fin_sub]
          push_cast
          exact e2
        · simp only [subCol, FMat.setCol, if_neg hck, hc, ColOp.apply]
    | _ => simp at ht
  · injection ht with ht; subst ht; exact hs

theorem lllInvF_foldl (hM : ∀ z : ℤ, |z| ≤ M → Machine rnd (z : K)) {k : Fin n} (l : List (Fin n)) (hl : ∀ j ∈ l, j < k)
    {s t : LLLVarsF K n} (hs : LLLInvF M s) (ht : l.foldlM (lengthReduceF rnd dot k) s = .ok t) : LLLInvF M t := by
  induction l generalizing s with
  | nil => simp only [List.foldlM_nil, pure, Except.pure] at ht; injection ht with ht; subst ht; exact hs
  | cons j l ih =>
    simp only [List.foldlM_cons, bind, Except.bind] at ht
    cases hr : lengthReduceF rnd dot k s j with
    | error e => simp [hr] at ht
    | ok u =>
      simp only [hr] at ht
      exact ih (fun i hi => hl i (List.mem_cons_of_mem _ hi))
        (lllInvF_reduce hM (ne_of_gt (hl j List.mem_cons_self)) hs hr) ht

theorem lllInvF_step (hM : ∀ z : ℤ, |z| ≤ M → Machine rnd (z : K)) {delta : K} {s t : LLLVarsF K n × ℕ} (hk : 1 ≤ s.2)
    (hs : LLLInvF M s.1) (ht : lllStepF rnd dot delta s = .ok t) : LLLInvF M t.1 ∧ 1 ≤ t.2 := by
  unfold lllStepF at ht
  split at ht
  · rename_i h
    simp only [bind, Except.bind, pure, Except.pure] at ht
    cases hr : (below (⟨s.2, h⟩ : Fin n)).reverse.foldlM (lengthReduceF rnd dot ⟨s.2, h⟩) s.1 with
    | error e => simp [hr] at ht
    | ok v =>
      simp only [hr] at ht
      have hv : LLLInvF M v := lllInvF_foldl hM _ (by
        intro j hj; rw [List.mem_reverse] at hj; simpa [below] using hj) hs hr
      split at ht
      · injection ht with ht; subst ht; exact ⟨hv, by simp⟩
      · injection ht with ht; subst ht
        have hne : (⟨s.2, h⟩ : Fin n) ≠ ⟨s.2 - 1, by omega⟩ := by
          intro e; have := congrArg Fin.val e; simp at this; omega
        refine ⟨⟨?_, ?_⟩, le_max_right _ _⟩
        · simp only [applyAll_append, det_apply_swap _ hne]
          rcases hv.1 with e | e <;> simp [e]
        · simp only [fits_append, applyAll_append]
          rintro ⟨hf, -⟩ r c
          have hc := hv.2 hf
          simp only [swapColsF, FMat.setCol, FMat.col, ColOp.apply, hc]
          split_ifs <;> rfl
  · simp only [pure, Except.pure] at ht; injection ht with ht; subst ht; exact ⟨hs, hk⟩

theorem lllInvF_run (hM : ∀ z : ℤ, |z| ≤ M → Machine rnd (z : K)) {delta : K} (m : ℕ) {s t : LLLVarsF K n × ℕ}
    (hk : 1 ≤ s.2) (hs : LLLInvF M s.1) (ht : lllRunF rnd dot delta m s = .ok t) : LLLInvF M t.1 := by
  induction m generalizing s with
  | zero => simp only [lllRunF, pure, Except.pure] at ht; injection ht with ht; subst ht; exact hs
  | succ m ih =>
    simp only [lllRunF, bind, Except.bind] at ht
    cases hr : lllStepF rnd dot delta s with
    | error e => simp [hr] at ht
    | ok u =>
      simp only [hr] at ht
      obtain ⟨h1, h2⟩ := lllInvF_step hM hk hs hr
      exact ih h2 h1 ht

/-- **C101** The lattice reduction, whatever the rounding errors in `B`, in the Gram-Schmidt vectors and in the inner products:
if it returns, the operations it performed form an integer matrix of determinant 1 or -1, and as long as the integers that occur
stay below the bound up to which the format represents all integers, the returned `change` is exactly that matrix. -/
theorem C101_change_integral {rnd : K → Fl K} (hM : ∀ z : ℤ, |z| ≤ M → Machine rnd (z : K))
    (dot : (Fin n → Fl K) → (Fin n → Fl K) → Fl K) (delta : K) (B : FMat K n) (m : ℕ) {s : LLLVarsF K n × ℕ}
    (h : lllRunF rnd dot delta m (lllInitF B) = .ok s) :
    ((applyAll s.1.trace 1).det = 1 ∨ (applyAll s.1.trace 1).det = -1) ∧
      (Fits M s.1.trace 1 → ∀ r c, s.1.change r c = .fin ((applyAll s.1.trace 1 r c : ℤ) : K)) := by
  refine lllInvF_run hM m (s := lllInitF B) le_rfl ⟨?_, fun _ r c => ?_⟩ h
  · left; simp [lllInitF, applyAll]
  · simp only [lllInitF, eyeF, applyAll, List.foldl_nil, Matrix.one_apply]
    split_ifs <;> simp

/-- **C101** For `float64` the bound is `2 ^ 53`. -/
theorem C101_float64_integral (dot : (Fin n → Fl K) → (Fin n → Fl K) → Fl K) (delta : K) (B : FMat K n) (m : ℕ)
    {s : LLLVarsF K n × ℕ} (h : lllRunF float64 dot delta m (lllInitF B) = .ok s) (hf : Fits (2 ^ 53) s.1.trace 1) :
    ∃ C : Matrix (Fin n) (Fin n) ℤ, IsUnit C.det ∧ ∀ r c, s.1.change r c = .fin (C r c : K) := by
  obtain ⟨h1, h2⟩ := C101_change_integral (M := 2 ^ 53)
    (fun z hz => machine_float64 z 0 (by simp) hz (by norm_num) (by norm_num)) dot delta B m h
  exact ⟨_, Int.isUnit_iff.2 h1, h2 hf⟩

end

/-- `np.dot` of two vectors of length 2, every operation rounded. -/
def dot2F {K : Type} [Field K] [LinearOrder K] [IsStrictOrderedRing K] [FloorRing K] (u v : Fin 2 → Fl K) : Fl K :=
  Fl.round float64 (Fl.round float64 (u 0 * v 0) + Fl.round float64 (u 1 * v 1))

/-- Columns `(1, 0)` and `(2.5, 0.1)` (the machine number nearest to 0.1). -/
def skewF : FMat ℚ 2 := fun r c =>
  if c = 0 then (if r = 0 then .fin 1 else .fin 0) else (if r = 0 then .fin (5 / 2) else float64 (1 / 10))

/-- The trace of the run, as a list of numbers. -/
def ColOp.code : ColOp 2 → ℤ × ℤ × ℤ
  | .reduce k j z => (k.val, j.val, z)
  | .swap k j => (k.val, j.val, 0)

/-- What a run returns: the entries of `change`, the counter `k`, the operations. -/
def showRun (r : Except PyErr (LLLVarsF ℚ 2 × ℕ)) : Option (List (Fl ℚ) × ℕ × List (ℤ × ℤ × ℤ)) :=
  match r with
  | .ok s => some ([s.1.change 0 0, s.1.change 0 1, s.1.change 1 0, s.1.change 1 1], s.2, s.1.trace.map ColOp.code)
  | .error _ => none

/-- The hypotheses of C101 hold for a run which performs two reductions by 2 and two exchanges. -/
example : showRun (lllRunF float64 dot2F (3 / 4) 20 (lllInitF skewF)) =
    some ([.fin 5, .fin (-2), .fin (-2), .fin 1], 2, [(1, 0, 2), (1, 0, 0), (1, 0, 2), (1, 0, 0)]) := by decide +kernel

instance (M : ℤ) (op : ColOp n) (C : Matrix (Fin n) (Fin n) ℤ) : Decidable (op.Small M C) := by
  cases op <;> unfold ColOp.Small <;> infer_instance

instance fitsDecidable (M : ℤ) : (l : List (ColOp n)) → (C : Matrix (Fin n) (Fin n) ℤ) → Decidable (Fits M l C)
  | [], _ => .isTrue trivial
  | op :: l, C => by
    have := fitsDecidable M l (op.apply C)
    unfold Fits; infer_instance

/-- The integers of a run fit. -/
def fitsRun (r : Except PyErr (LLLVarsF ℚ 2 × ℕ)) : Bool :=
  match r with
  | .ok s => decide (Fits (2 ^ 53) s.1.trace 1)
  | .error _ => false

/-- ... and its integers fit. -/
example : ∃ s, lllRunF float64 dot2F (3 / 4) 20 (lllInitF skewF) = .ok s ∧ Fits (2 ^ 53) s.1.trace 1 := by
  have h : fitsRun (lllRunF float64 dot2F (3 / 4) 20 (lllInitF skewF)) = true := by decide +kernel
  generalize lllRunF float64 dot2F (3 / 4) 20 (lllInitF skewF) = r at h
  cases r with
  | error e => simp [fitsRun] at h
  | ok s => exact ⟨s, rfl, by simpa [fitsRun] using h⟩

/-- Two orthogonal vectors whose squared length is the smallest positive `float64` (`swapped` exchanges them). -/
def tinyF (swapped : Bool) : FMat ℚ 2 := fun r c =>
  if (r = c) = (swapped = false) then .fin (2 ^ (-537 : ℤ)) else .fin 0

theorem tinyF_mu (b : Bool) : muF float64 dot2F (tinyF b) 1 0 = .fin 0 := by cases b <;> decide +kernel

theorem tinyF_test (b : Bool) : Fl.lt
    (Fl.round float64 (Fl.round float64 (Fl.fin (3 / 4) - Fl.round float64 (Fl.fin 0 * Fl.fin 0)) *
      dot2F ((gramSchmidtF float64 dot2F (tinyF b)).col 0) ((gramSchmidtF float64 dot2F (tinyF b)).col 0)))
    (dot2F ((gramSchmidtF float64 dot2F (tinyF b)).col 1) ((gramSchmidtF float64 dot2F (tinyF b)).col 1)) = false := by
  cases b <;> decide +kernel

theorem tinyF_swap (b : Bool) : swapColsF (tinyF b) 1 0 = tinyF (!b) := by
  funext r c; revert r c; cases b <;> decide +kernel

theorem tinyF_step (b : Bool) (C : FMat ℚ 2) (tr : List (ColOp 2)) :
    ∃ C' tr', lllStepF float64 dot2F (3 / 4) (⟨tinyF b, C, tr⟩, 1) = .ok (⟨tinyF (!b), C', tr'⟩, 1) := by
  have hr : lengthReduceF float64 dot2F 1 ⟨tinyF b, C, tr⟩ 0 = .ok ⟨tinyF b, C, tr⟩ := by
    unfold lengthReduceF; simp only [tinyF_mu]; rw [if_neg (by decide +kernel)]
  refine ⟨swapColsF C 1 0, tr ++ [.swap 1 0], ?_⟩
  unfold lllStepF
  rw [dif_pos (by norm_num)]
  have hb : (below (1 : Fin 2)).reverse = [0] := by decide
  have e0 : (⟨1 - 1, by omega⟩ : Fin 2) = 0 := rfl
  have e1 : (⟨1, by omega⟩ : Fin 2) = 1 := rfl
  simp only [hb, List.foldlM_cons, List.foldlM_nil, e1, e0, hr, bind, Except.bind, pure, Except.pure, tinyF_mu,
    tinyF_test, tinyF_swap, Nat.sub_self, Nat.zero_max, Bool.false_eq_true, if_false]

/-- **C82 is false in floating point.** The reduction of the (orthogonal, already reduced) basis of two vectors of squared length
`2 ^ (-1074)`, the smallest positive `float64`, does not terminate: `0.75 * 2 ^ (-1074)` is rounded up, the comparison in the
loop fails, the two vectors are exchanged, and so on for ever. -/
theorem C82_float64_never_terminates (m : ℕ) :
    ∃ s, lllRunF float64 dot2F (3 / 4) m (lllInitF (tinyF false)) = .ok s ∧ s.2 = 1 := by
  suffices H : ∀ (b : Bool) (C : FMat ℚ 2) (tr : List (ColOp 2)),
      ∃ s, lllRunF float64 dot2F (3 / 4) m (⟨tinyF b, C, tr⟩, 1) = .ok s ∧ s.2 = 1 from H false _ _
  induction m with
  | zero => exact fun b C tr => ⟨_, rfl, rfl⟩
  | succ m ih =>
    intro b C tr
    obtain ⟨C', tr', h⟩ := tinyF_step b C tr
    simp only [lllRunF, h, bind, Except.bind]
    exact ih _ _ _

end Dreimac
