import Mathlib.Algebra.BigOperators.Group.Finset.Basic
import Mathlib.Algebra.BigOperators.Ring.Finset
import Mathlib.Algebra.BigOperators.Field
import Mathlib.Algebra.Order.BigOperators.Group.List
import Verif.Lemmas.Rounding
import Verif.Model.Float

/-!
# Lemmas about rounded arithmetic
-/

namespace Dreimac

open Fl

section
variable {K : Type} [Field K] [LinearOrder K] [IsStrictOrderedRing K] {rnd : K → Fl K}

theorem Rounding.nonneg (R : Rounding rnd) {x : K} (h : 0 ≤ x) :
    rnd x = pinf ∨ ∃ y, 0 ≤ y ∧ rnd x = fin y ∧ Machine rnd y := by
  have hm := R.mono 0 x h
  rw [R.zero] at hm
  cases hx : rnd x with
  | nan => exact absurd hx (R.notNan x)
  | ninf => rw [hx] at hm; exact absurd hm (by simp [Fl.Le])
  | pinf => left; rfl
  | fin y => rw [hx] at hm; exact Or.inr ⟨y, hm, rfl, R.idem x y hx⟩

/-- Between two machine numbers the result is finite and stays between them. -/
theorem Rounding.between (R : Rounding rnd) {a x b : K} (ha : Machine rnd a) (hb : Machine rnd b) (h1 : a ≤ x)
    (h2 : x ≤ b) : ∃ y, rnd x = fin y ∧ a ≤ y ∧ y ≤ b ∧ Machine rnd y := by
  have m1 := R.mono a x h1
  have m2 := R.mono x b h2
  rw [ha] at m1
  rw [hb] at m2
  cases hx : rnd x with
  | nan => exact absurd hx (R.notNan x)
  | ninf => rw [hx] at m1; exact absurd m1 (by simp [Fl.Le])
  | pinf => rw [hx] at m2; exact absurd m2 (by simp [Fl.Le])
  | fin y => rw [hx] at m1 m2; exact ⟨y, rfl, m1, m2, R.idem x y hx⟩

theorem Rounding.le_of_machine (R : Rounding rnd) {a x y : K} (ha : Machine rnd a) (h : a ≤ x) (hx : rnd x = fin y) :
    a ≤ y := by
  have m1 := R.mono a x h
  rw [ha, hx] at m1
  exact m1

theorem Rounding.machine_neg (R : Rounding rnd) {a : K} (ha : Machine rnd a) : Machine rnd (-a) := by
  unfold Machine; rw [R.neg, ha]; rfl

@[simp] theorem round_fin (x : K) : Fl.round rnd (fin x) = rnd x := rfl
@[simp] theorem round_pinf : Fl.round rnd pinf = pinf := rfl
@[simp] theorem round_nan : Fl.round rnd nan = nan := rfl

theorem round_exact (v : Fl K) : Fl.round fin v = v := by cases v <;> rfl

/-! ### Sums -/

/-- A sum of non-negative machine numbers: infinite, or a machine number not less than each of the summands, and zero only
if all of them are. -/
theorem SumTree.eval_nonneg (R : Rounding rnd) (f : ℕ → K) (h0 : ∀ l, 0 ≤ f l) (hm : ∀ l, Machine rnd (f l)) (t : SumTree) :
    t.eval rnd (fun l => fin (f l)) = pinf ∨ ∃ s, t.eval rnd (fun l => fin (f l)) = fin s ∧ Machine rnd s ∧ 0 ≤ s ∧
      (∀ l ∈ t.leaves, f l ≤ s) ∧ ((∀ l ∈ t.leaves, f l = 0) → s = 0) ∧ (s = 0 → ∀ l ∈ t.leaves, f l = 0) := by
  induction t with
  | leaf l =>
    right
    refine ⟨f l, rfl, hm l, h0 l, ?_, ?_, ?_⟩ <;> simp [leaves]
  | node s t ihs iht =>
    simp only [eval]
    rcases ihs with hs | ⟨a, hs, ma, a0, al, az, az'⟩
    · rcases iht with ht | ⟨b, ht, -⟩ <;> rw [hs, ht] <;> left <;> rfl
    · rcases iht with ht | ⟨b, ht, mb, b0, bl, bz, bz'⟩
      · rw [hs, ht]; left; rfl
      · rw [hs, ht, fin_add, round_fin]
        rcases R.nonneg (add_nonneg a0 b0) with h | ⟨c, c0, hc, mc⟩
        · left; exact h
        · right
          have hac : a ≤ c := R.le_of_machine ma (by linarith) hc
          have hbc : b ≤ c := R.le_of_machine mb (by linarith) hc
          refine ⟨c, hc, mc, c0, ?_, ?_, ?_⟩
          · intro l hl
            rcases List.mem_append.1 hl with hl | hl
            · exact (al l hl).trans hac
            · exact (bl l hl).trans hbc
          · intro h
            have ea := az fun l hl => h l (List.mem_append.2 (Or.inl hl))
            have eb := bz fun l hl => h l (List.mem_append.2 (Or.inr hl))
            rw [ea, eb, add_zero, R.zero] at hc
            injection hc with hc; exact hc.symm
          · rintro rfl l hl
            have h1 : a = 0 := le_antisymm hac a0
            have h2 : b = 0 := le_antisymm hbc b0
            rcases List.mem_append.1 hl with hl | hl
            · exact az' h1 l hl
            · exact bz' h2 l hl

theorem SumTree.length_pos (t : SumTree) : 0 < t.leaves.length := by
  induction t with
  | leaf l => simp [leaves]
  | node s t ihs iht => simp only [leaves, List.length_append]; omega

/-- Forward error bound for a sum of non-negative machine numbers, and a condition for the absence of overflow. -/
theorem SumTree.eval_error (R : Rounding rnd) {u eta : K} (E : ErrorBound rnd u eta) (hu : 0 ≤ u) (hu1 : u ≤ 1) (f : ℕ → K)
    (h0 : ∀ l, 0 ≤ f l) (hm : ∀ l, Machine rnd (f l)) (t : SumTree) :
    ∀ B, Machine rnd B → (1 + u) ^ (t.leaves.length - 1) * (t.leaves.map f).sum ≤ B →
    ∃ s, t.eval rnd (fun l => fin (f l)) = fin s ∧ Machine rnd s ∧ 0 ≤ s ∧
      (1 - u) ^ (t.leaves.length - 1) * (t.leaves.map f).sum ≤ s ∧
      s ≤ (1 + u) ^ (t.leaves.length - 1) * (t.leaves.map f).sum := by
  induction t with
  | leaf l => intro B _ _; refine ⟨f l, rfl, hm l, h0 l, ?_, ?_⟩ <;> simp [leaves]
  | node s t ihs iht =>
    intro B mB hB
    simp only [leaves, List.length_append, List.map_append, List.sum_append] at hB ⊢
    have ls := s.length_pos
    have lt := t.length_pos
    have hA0 : 0 ≤ (s.leaves.map f).sum := List.sum_nonneg (by simpa using fun l _ => h0 l)
    have hC0 : 0 ≤ (t.leaves.map f).sum := List.sum_nonneg (by simpa using fun l _ => h0 l)
    generalize (s.leaves.map f).sum = A at *
    generalize (t.leaves.map f).sum = C at *
    set n := s.leaves.length
    set m := t.leaves.length
    have hup : ∀ k, k + 1 ≤ n + m - 1 → (1 + u) * (1 + u) ^ k ≤ (1 + u) ^ (n + m - 1) := by
      intro k hk
      rw [← pow_succ']
      exact pow_le_pow_right₀ (by linarith) hk
    have hup' : ∀ k, k + 1 ≤ n + m - 1 → (1 + u) ^ k ≤ (1 + u) ^ (n + m - 1) :=
      fun k hk => pow_le_pow_right₀ (by linarith) (by omega)
    have hlo : ∀ k, k + 1 ≤ n + m - 1 → (1 - u) ^ (n + m - 1) ≤ (1 - u) * (1 - u) ^ k := by
      intro k hk
      rw [← pow_succ']
      exact pow_le_pow_of_le_one (by linarith) (by linarith) hk
    have hP : (0 : K) ≤ (1 + u) ^ (n + m - 1) := pow_nonneg (by linarith) _
    have b1 : (1 + u) ^ (n - 1) * A ≤ B := by
      have := mul_le_mul_of_nonneg_right (hup' (n - 1) (by omega)) hA0
      have h2 := mul_nonneg hP hC0
      linarith [mul_add ((1 + u) ^ (n + m - 1)) A C]
    have b2 : (1 + u) ^ (m - 1) * C ≤ B := by
      have := mul_le_mul_of_nonneg_right (hup' (m - 1) (by omega)) hC0
      have h2 := mul_nonneg hP hA0
      linarith [mul_add ((1 + u) ^ (n + m - 1)) A C]
    obtain ⟨a, ea, ma, a0, al, au⟩ := ihs B mB b1
    obtain ⟨c, ec, mc, c0, cl, cu⟩ := iht B mB b2
    have hs : (1 + u) * (a + c) ≤ (1 + u) ^ (n + m - 1) * (A + C) := by
      have k1 := mul_le_mul_of_nonneg_right (hup (n - 1) (by omega)) hA0
      have k2 := mul_le_mul_of_nonneg_right (hup (m - 1) (by omega)) hC0
      have k3 := mul_le_mul_of_nonneg_left au (by linarith : 0 ≤ 1 + u)
      have k4 := mul_le_mul_of_nonneg_left cu (by linarith : 0 ≤ 1 + u)
      rw [mul_add, mul_add]
      rw [← mul_assoc] at k3 k4
      linarith
    have hl : (1 - u) ^ (n + m - 1) * (A + C) ≤ (1 - u) * (a + c) := by
      have k1 := mul_le_mul_of_nonneg_right (hlo (n - 1) (by omega)) hA0
      have k2 := mul_le_mul_of_nonneg_right (hlo (m - 1) (by omega)) hC0
      have k3 := mul_le_mul_of_nonneg_left al (by linarith : 0 ≤ 1 - u)
      have k4 := mul_le_mul_of_nonneg_left cl (by linarith : 0 ≤ 1 - u)
      rw [mul_add, mul_add]
      rw [← mul_assoc] at k3 k4
      linarith
    have hac : a + c ≤ B := by
      have : 0 ≤ u * (a + c) := mul_nonneg hu (by linarith)
      linarith
    obtain ⟨v, hv, v0, -, mv⟩ := R.between R.zero mB (by linarith : 0 ≤ a + c) hac
    have he := E.sum a c v ma mc hv
    rw [abs_of_nonneg (by linarith : 0 ≤ a + c), abs_le] at he
    refine ⟨v, ?_, mv, v0, ?_, ?_⟩
    · simp only [eval]; rw [ea, ec, fin_add, round_fin, hv]
    · linarith [he.1]
    · linarith [he.2]

/-- The sum over the indices `0, …, L - 1`. -/
theorem sum_leaves (f : ℕ → K) {t : SumTree} {L : ℕ} (h : t.leaves.Perm (List.range L)) :
    (t.leaves.map f).sum = ∑ l ∈ Finset.range L, f l := by
  rw [(h.map f).sum_eq]
  clear h
  induction L with
  | zero => simp
  | succ n ih => rw [List.range_succ, List.map_append, List.sum_append, ih, Finset.sum_range_succ]; simp

end

end Dreimac
