import Mathlib.Algebra.Order.BigOperators.Ring.Finset
import Verif.Spec.Winding
import Verif.Lemmas.ClassMap

/-! # Products of inner products around a loop (no reference to the model) -/

namespace Dreimac

open Real

variable {𝕜 : Type} [RCLike 𝕜] {p : ℤ} {χ : ℤ → 𝕜} {x : ℕ → ℕ → ℤ} {w : ℕ → ℕ → ℝ} {L : ℕ} {dist dll : ℕ → ℕ → ℝ} {r : ℝ}

theorem IsCharacter.star (h : IsCharacter p χ) (a : ℤ) : star (χ a) = χ (-a) := by
  have h1 : χ a * χ (-a) = 1 := by rw [← h.add, add_neg_cancel, h.zero]
  have h2 : Star.star (χ a) * χ a = 1 := by
    rw [RCLike.star_def, RCLike.conj_mul, h.norm]; simp
  calc Star.star (χ a) = Star.star (χ a) * (χ a * χ (-a)) := by rw [h1, mul_one]
    _ = χ (-a) := by rw [← mul_assoc, h2, one_mul]

theorem IsCharacter.sum (h : IsCharacter p χ) (n : ℕ) (g : ℕ → ℤ) :
    χ (∑ q ∈ Finset.range n, g q) = ∏ q ∈ Finset.range n, χ (g q) := by
  induction n with
  | zero => simp [h.zero]
  | succ n ih => rw [Finset.sum_range_succ, Finset.prod_range_succ, h.add, ih]

theorem IsCharacter.congr (h : IsCharacter p χ) {a b : ℤ} (hab : p ∣ a - b) : χ a = χ b := by
  rw [show a = (a - b) + b by ring, h.add, h.trivial _ hab, one_mul]

/-- The inner product of the vectors of two data points in the ball of `l`, each computed with its own ball. -/
theorem charVector_inner (hχ : IsCharacter p χ) (hx : ∀ l m, x m l = -x l m) (ht : LandmarkTriangle L dist dll)
    (hw : IsPartitionOfUnity L dist r w) (hc : PairCocycleMod p L dll (2 * r) x) {l b b' i i' : ℕ}
    (hl : InBall L dist r l i) (hl' : InBall L dist r l i') (hb : InBall L dist r b i) (hb' : InBall L dist r b' i') :
    ∑ m ∈ Finset.range L, star (((√(w m i) : ℝ) : 𝕜) * χ (x b m)) * (((√(w m i') : ℝ) : 𝕜) * χ (x b' m)) =
      ((∑ m ∈ Finset.range L, √(w m i) * √(w m i') : ℝ) : 𝕜) * χ (x l b - x l b') := by
  have key : ∀ m ∈ Finset.range L,
      star (((√(w m i) : ℝ) : 𝕜) * χ (x b m)) * (((√(w m i') : ℝ) : 𝕜) * χ (x b' m)) =
        ((√(w m i) * √(w m i') : ℝ) : 𝕜) * χ (x l b - x l b') := by
    intro m hm
    rw [charVector_twist hχ hx ht hw hc hl hb (Finset.mem_range.1 hm),
      charVector_twist hχ hx ht hw hc hl' hb' (Finset.mem_range.1 hm)]
    have e1 : star (χ (x l m)) * χ (x l m) = 1 := by
      rw [RCLike.star_def, RCLike.conj_mul, hχ.norm]; simp
    have e2 : χ (x l b - x l b') = star (χ (x b l)) * χ (x b' l) := by
      rw [hχ.star, ← hχ.add, hx l b, hx l b']; congr 1; ring
    have e3 : star ((√(w m i) : ℝ) : 𝕜) = ((√(w m i) : ℝ) : 𝕜) := by rw [RCLike.star_def, RCLike.conj_ofReal]
    rw [star_mul', star_mul', e3, e2]
    push_cast
    linear_combination (star (χ (x b l)) * χ (x b' l) * ((√(w m i) : ℝ) : 𝕜) * ((√(w m i') : ℝ) : 𝕜)) * e1
  rw [Finset.sum_congr rfl key, ← Finset.sum_mul]
  push_cast; ring

theorem overlap_pos (hw : IsPartitionOfUnity L dist r w) {l i i' : ℕ} (hl : InBall L dist r l i)
    (hl' : InBall L dist r l i') : 0 < ∑ m ∈ Finset.range L, √(w m i) * √(w m i') := by
  apply Finset.sum_pos'
  · intro m _; positivity
  · exact ⟨l, Finset.mem_range.2 hl.1, mul_pos (Real.sqrt_pos.2 ((hw.support l i ⟨l, hl⟩).2 hl.2))
      (Real.sqrt_pos.2 ((hw.support l i' ⟨l, hl'⟩).2 hl'.2))⟩

/-- The product of the inner products of consecutive vectors along a loop. -/
theorem holonomy (hχ : IsCharacter p χ) (hx : ∀ l m, x m l = -x l m) (ht : LandmarkTriangle L dist dll)
    (hw : IsPartitionOfUnity L dist r w) (hc : PairCocycleMod p L dll (2 * r) x) {n : ℕ} {i l : ℕ → ℕ}
    (hloop : LoopInCover L dist r n i l) (β : ℕ → ℕ) (hβ : ∀ j, (∃ l, InBall L dist r l j) → InBall L dist r (β j) j) :
    ∃ ρ : ℝ, 0 < ρ ∧ ∏ q ∈ Finset.range n, (∑ m ∈ Finset.range L,
        star (((√(w m (i q)) : ℝ) : 𝕜) * χ (x (β (i q)) m)) *
          (((√(w m (i (q + 1))) : ℝ) : 𝕜) * χ (x (β (i (q + 1))) m))) =
      (ρ : 𝕜) * χ (-∑ q ∈ Finset.range n, x (l q) (l (q + 1))) := by
  have hin : ∀ q ≤ n, InBall L dist r (l q) (i q) := by
    intro q hq
    rcases hq.lt_or_eq with hq | rfl
    · exact hloop.here q hq
    · rw [hloop.closed_data, hloop.closed_land]; exact hloop.here 0 hloop.pos
  have hβ' : ∀ q ≤ n, InBall L dist r (β (i q)) (i q) := fun q hq => hβ _ ⟨_, hin q hq⟩
  refine ⟨∏ q ∈ Finset.range n, ∑ m ∈ Finset.range L, √(w m (i q)) * √(w m (i (q + 1))), ?_, ?_⟩
  · exact Finset.prod_pos fun q hq => overlap_pos hw (hloop.here q (Finset.mem_range.1 hq)) (hloop.next q (Finset.mem_range.1 hq))
  · have key : ∀ q ∈ Finset.range n, (∑ m ∈ Finset.range L,
        star (((√(w m (i q)) : ℝ) : 𝕜) * χ (x (β (i q)) m)) *
          (((√(w m (i (q + 1))) : ℝ) : 𝕜) * χ (x (β (i (q + 1))) m))) =
        ((∑ m ∈ Finset.range L, √(w m (i q)) * √(w m (i (q + 1))) : ℝ) : 𝕜) *
          χ ((x (l q) (β (i q)) - x (l (q + 1)) (β (i (q + 1)))) - x (l q) (l (q + 1))) := by
      intro q hq
      have hq' := Finset.mem_range.1 hq
      rw [charVector_inner hχ hx ht hw hc (hloop.here q hq') (hloop.next q hq') (hβ' q hq'.le) (hβ' (q + 1) hq')]
      congr 1
      apply hχ.congr
      have h1 := pairCocycle_any hx hc (ripsRel_of_balls ht (hloop.next q hq') (hin (q + 1) hq'))
        (ripsRel_of_balls ht (hin (q + 1) hq') (hβ' (q + 1) hq')) (ripsRel_of_balls ht (hloop.next q hq') (hβ' (q + 1) hq'))
      convert h1 using 1
      ring
    rw [Finset.prod_congr rfl key, Finset.prod_mul_distrib, ← hχ.sum, Finset.sum_sub_distrib,
      Finset.sum_range_sub' (fun q => x (l q) (β (i q))), hloop.closed_data, hloop.closed_land, sub_self, zero_sub]
    push_cast; rfl

end Dreimac
