import Mathlib.Algebra.BigOperators.Ring.Finset
import Mathlib.Tactic.Ring
import Mathlib.Tactic.Linarith
import Mathlib.Data.EReal.Basic
import Verif.Spec.Cech
import Verif.Props.Cocycle

/-! # Čech-type computations behind the circular coordinates -/

namespace Dreimac

section
variable {K : Type} [LinearOrder K] {n : ℕ} {dist : ℕ → ℕ → K} {t : K}

theorem edgeVal_antisymm {R : Type} [Ring R] (c : ℕ → R) (l m : ℕ) : edgeVal c m l = - edgeVal c l m := by
  unfold edgeVal
  rcases lt_trichotomy l m with h | h | h
  · simp [h, not_lt_of_gt h]
  · subst h; simp
  · simp [h, not_lt_of_gt h]

theorem edgeVal_self {R : Type} [Ring R] (c : ℕ → R) (l : ℕ) : edgeVal c l l = 0 := by simp [edgeVal]

theorem edgeVal_cast (c : ℕ → ℤ) (l m : ℕ) : edgeVal (fun e => (c e : ℝ)) l m = ((edgeVal c l m : ℤ) : ℝ) := by
  unfold edgeVal
  split_ifs <;> simp

omit [LinearOrder K] in
theorem RipsRel.symm [LT K] {l m : ℕ} (h : RipsRel n dist t l m) : RipsRel n dist t m l := by
  rcases h with rfl | h | h
  · exact Or.inl rfl
  · exact Or.inr (Or.inr h)
  · exact Or.inr (Or.inl h)

theorem ripsRel_of_lt {l m : ℕ} (h : RipsRel n dist t l m) (hlm : l < m) : RipsEdge n dist t l m := by
  rcases h with rfl | h | h
  · exact absurd hlm (lt_irrefl _)
  · exact h
  · exact absurd h.1 (by omega)

/-- The cocycle condition for vertices in any order. -/
theorem edgeVal_cocycle {c : ℕ → ℤ} (hc : IsCocycle1 n dist t c) {a b d : ℕ} (h1 : RipsRel n dist t a b)
    (h2 : RipsRel n dist t b d) (h3 : RipsRel n dist t a d) : edgeVal c a b + edgeVal c b d = edgeVal c a d := by
  have key : ∀ i j k, i < j → j < k → RipsRel n dist t i j → RipsRel n dist t j k → RipsRel n dist t i k →
      c (edgeIdx i j) + c (edgeIdx j k) - c (edgeIdx i k) = 0 := fun i j k hij hjk e1 e2 e3 =>
    hc i j k ⟨ripsRel_of_lt e1 hij, ripsRel_of_lt e2 hjk, ripsRel_of_lt e3 (hij.trans hjk)⟩
  rcases lt_trichotomy a b with h | h | h
  · rcases lt_trichotomy b d with h' | h' | h'
    · have := key a b d h h' h1 h2 h3
      simp only [edgeVal, h, h', h.trans h', if_true]; omega
    · subst h'; rw [edgeVal_self, add_zero]
    · rcases lt_trichotomy a d with h'' | h'' | h''
      · have := key a d b h'' h' h3 h2.symm h1
        simp only [edgeVal, h, h', h'', if_true, not_lt_of_gt h', if_false]; omega
      · subst h''; rw [edgeVal_antisymm c a b, edgeVal_self]; omega
      · have := key d a b h'' h h3.symm h1 h2.symm
        simp only [edgeVal, h, h', h'', if_true, not_lt_of_gt h', not_lt_of_gt h'', if_false]; omega
  · subst h; rw [edgeVal_self, zero_add]
  · rcases lt_trichotomy b d with h' | h' | h'
    · rcases lt_trichotomy a d with h'' | h'' | h''
      · have := key b a d h h'' h1.symm h3 h2
        simp only [edgeVal, h, h', h'', if_true, not_lt_of_gt h, if_false]; omega
      · subst h''; rw [edgeVal_antisymm c a b, edgeVal_self]; omega
      · have := key b d a h' h'' h2 h3.symm h1.symm
        simp only [edgeVal, h, h', h'', if_true, not_lt_of_gt h, not_lt_of_gt h'', if_false]; omega
    · subst h'; rw [edgeVal_self, add_zero]
    · have := key d b a h' h h2.symm h1.symm h3.symm
      simp only [edgeVal, h, h', h'.trans h, if_true, not_lt_of_gt h, not_lt_of_gt h', not_lt_of_gt (h'.trans h), if_false]
      omega

theorem edgeVal_cohomologous {c η f : ℕ → ℝ} (h : CohomologousVia n dist t c η f) {l m : ℕ}
    (hr : RipsRel n dist t l m) : edgeVal η l m = edgeVal c l m - (f l - f m) := by
  rcases lt_trichotomy l m with hl | hl | hl
  · simp only [edgeVal, hl, if_true]; exact h l m (ripsRel_of_lt hr hl)
  · subst hl; rw [edgeVal_self, edgeVal_self]; ring
  · simp only [edgeVal, hl, if_true, not_lt_of_gt hl, if_false, h m l (ripsRel_of_lt hr.symm hl)]; ring

/-- The lifts over two balls containing a point differ by the cocycle. -/
theorem ballLift_sub {c : ℕ → ℤ} (hc : IsCocycle1 n dist t c) {η f : ℕ → ℝ}
    (h : CohomologousVia n dist t (fun e => (c e : ℝ)) η f) {L : ℕ} {w : ℕ → ℝ}
    (hw : ∑ s ∈ Finset.range L, w s = 1) {l m : ℕ} (hlm : RipsRel n dist t l m)
    (hl : ∀ s < L, w s ≠ 0 → RipsRel n dist t l s) (hm : ∀ s < L, w s ≠ 0 → RipsRel n dist t m s) :
    ballLift L η f w l - ballLift L η f w m = (edgeVal c l m : ℤ) := by
  have key : ∀ s ∈ Finset.range L, edgeVal η l s * w s - edgeVal η m s * w s =
      ((edgeVal c l m : ℤ) - (f l - f m)) * w s := by
    intro s hs
    have hs' := Finset.mem_range.1 hs
    by_cases h0 : w s = 0
    · simp [h0]
    · rw [edgeVal_cohomologous h (hl s hs' h0), edgeVal_cohomologous h (hm s hs' h0), edgeVal_cast, edgeVal_cast]
      have hz := edgeVal_cocycle hc (hl s hs' h0) (hm s hs' h0).symm hlm
      rw [edgeVal_antisymm c m s] at hz
      have hz' : ((edgeVal c l s : ℤ) : ℝ) - ((edgeVal c m s : ℤ) : ℝ) = ((edgeVal c l m : ℤ) : ℝ) := by
        rw [← hz]; push_cast; ring
      rw [← sub_mul, ← hz']; ring
  unfold ballLift
  rw [show ∀ a b x y : ℝ, a + x - (b + y) = (a - b) + (x - y) from fun a b x y => by ring,
    ← Finset.sum_sub_distrib, Finset.sum_congr rfl key, ← Finset.mul_sum, hw]
  ring

end

/-! ### real distances -/

theorem ripsEdge_coe (n : ℕ) (dist : ℕ → ℕ → ℝ) (t : ℝ) (i j : ℕ) :
    RipsEdge n (fun l m => (dist l m : EReal)) (t : EReal) i j ↔ RipsEdge n dist t i j := by
  unfold RipsEdge; rw [EReal.coe_lt_coe_iff]

theorem isCocycle1_coe (n : ℕ) (dist : ℕ → ℕ → ℝ) (t : ℝ) (c : ℕ → ℤ) :
    IsCocycle1 n (fun l m => (dist l m : EReal)) (t : EReal) c ↔ IsCocycle1 n dist t c := by
  unfold IsCocycle1 RipsTriangle; simp only [ripsEdge_coe]

theorem isCocycle1Mod_coe (p : ℤ) (n : ℕ) (dist : ℕ → ℕ → ℝ) (t : ℝ) (c : ℕ → ℤ) :
    IsCocycle1Mod p n (fun l m => (dist l m : EReal)) (t : EReal) c ↔ IsCocycle1Mod p n dist t c := by
  unfold IsCocycle1Mod RipsTriangle; simp only [ripsEdge_coe]

/-! ### sums over edges -/

theorem choose_two_succ (n : ℕ) : Nat.choose (n + 1) 2 = Nat.choose n 2 + n := by
  rw [Nat.choose_succ_succ' n 1, Nat.choose_one_right, add_comm]

/-- A sum over the slots of a dense cochain is a sum over the edges. -/
theorem sum_slots {R : Type} [AddCommMonoid R] (n : ℕ) (g : ℕ → R) :
    ∑ e ∈ Finset.range (Nat.choose n 2), g e =
      ∑ i ∈ Finset.range n, ∑ j ∈ Finset.range n, if i < j then g (edgeIdx i j) else 0 := by
  induction n with
  | zero => simp
  | succ n ih =>
    rw [choose_two_succ, Finset.sum_range_add, ih, Finset.sum_range_succ _ n]
    have h1 : (∑ j ∈ Finset.range (n + 1), if n < j then g (edgeIdx n j) else 0) = 0 := by
      apply Finset.sum_eq_zero
      intro j hj
      rw [if_neg (by have := Finset.mem_range.1 hj; omega)]
    rw [h1, add_zero]
    have h2 : ∀ i ∈ Finset.range n, (∑ j ∈ Finset.range (n + 1), if i < j then g (edgeIdx i j) else 0) =
        (∑ j ∈ Finset.range n, if i < j then g (edgeIdx i j) else 0) + g (Nat.choose n 2 + i) := by
      intro i hi
      rw [Finset.sum_range_succ, if_pos (Finset.mem_range.1 hi)]
      congr 2
      unfold edgeIdx
      rw [Nat.choose_one_right, add_comm]
    rw [Finset.sum_congr rfl h2, Finset.sum_add_distrib]

theorem choose_three_succ (n : ℕ) : Nat.choose (n + 1) 3 = Nat.choose n 3 + Nat.choose n 2 := by
  rw [Nat.choose_succ_succ' n 2, add_comm]

/-- A sum over the slots of a dense 2-cochain is a sum over the triangles. -/
theorem sum_slots3 {R : Type} [AddCommMonoid R] (n : ℕ) (g : ℕ → R) :
    ∑ e ∈ Finset.range (Nat.choose n 3), g e =
      ∑ i ∈ Finset.range n, ∑ j ∈ Finset.range n, ∑ k ∈ Finset.range n,
        if i < j ∧ j < k then g (triIdx i j k) else 0 := by
  induction n with
  | zero => simp
  | succ n ih =>
    rw [choose_three_succ, Finset.sum_range_add, ih, sum_slots n, Finset.sum_range_succ _ n]
    have h1 : (∑ j ∈ Finset.range (n + 1), ∑ k ∈ Finset.range (n + 1), if n < j ∧ j < k then g (triIdx n j k) else 0) = 0 := by
      apply Finset.sum_eq_zero
      intro j hj
      apply Finset.sum_eq_zero
      intro k _
      rw [if_neg (by have := Finset.mem_range.1 hj; omega)]
    rw [h1, add_zero, ← Finset.sum_add_distrib]
    apply Finset.sum_congr rfl
    intro i hi
    rw [Finset.sum_range_succ _ n]
    have h2 : (∑ k ∈ Finset.range (n + 1), if i < n ∧ n < k then g (triIdx i n k) else 0) = 0 := by
      apply Finset.sum_eq_zero
      intro k hk
      rw [if_neg (by have := Finset.mem_range.1 hk; omega)]
    rw [h2, add_zero, ← Finset.sum_add_distrib]
    apply Finset.sum_congr rfl
    intro j hj
    rw [Finset.sum_range_succ _ n]
    have hjn := Finset.mem_range.1 hj
    congr 1
    by_cases h : i < j
    · rw [if_pos h, if_pos ⟨h, hjn⟩]
      congr 1
      unfold triIdx edgeIdx
      omega
    · rw [if_neg h, if_neg (fun h' => h h'.1)]

end Dreimac
