import Verif.Props.FloatWinding
import Verif.Props.SparseIntegrateFloatExamples

/-!
# Example for C116: the computed coordinate of the eight points on a circle turns around once
-/

namespace Dreimac

open Fl

/-- The order of summation. -/
def order4 : SumTree := .node (.node (.leaf 0) (.leaf 1)) (.node (.leaf 2) (.leaf 3))

/-- The weights of the points. -/
def ringWeight (m p : ℕ) : ℚ := if ringDist m p = 0 then 1 else if ringDist m p = 1 / 2 then 1 / 2 else 0

/-- The covering has these weights. -/
def ringCheck (C : Covering ℚ) : Bool :=
  (List.range 4).all fun m => (List.range 8).all fun p => decide (C.varphi m p = fin (ringWeight m p))

theorem ring_weights {C : Covering ℚ} (hC : getCoveringPartitionF float64 order4 4 8 (fun l i => fin (ringDist l i)) (fin (3 / 4))
    (bumpLinearF float64) = .ok C) : ∀ m < 4, ∀ p < 8, C.varphi m p = fin (ringWeight m p) := by
  have h : (getCoveringPartitionF (K := ℚ) float64 order4 4 8 (fun l i => fin (ringDist l i)) (fin (3 / 4))
      (bumpLinearF float64)).toOption.map ringCheck = some true := by
    decide +kernel
  rw [hC] at h
  simpa [Except.toOption, ringCheck, List.all_eq_true] using h

/-- Along the loop through all data points the computed coordinates turn around once, against the orientation of the cocycle. -/
example : ∃ (C : Covering ℚ) (delta0 : SparseMat) (y : ℕ → ℚ),
    getCoveringPartitionF float64 order4 4 8 (fun l i => fin (ringDist l i)) (fin (3 / 4)) (bumpLinearF float64) = .ok C ∧
    makeDelta0 4 (fun l m => ringDist l (2 * m)) (3 / 2) (cnsTable 4 2) = .ok delta0 ∧
    (∀ q ≤ 8, sparseIntegrateF float64 twoPi64 order4 (harmRepF float64 ringCocycle delta0 fun l => fin (ringIntegral l))
      (fun l => fin (ringIntegral l)) C 4 (fun l m => ringDist l (2 * m)) (3 / 2) (cnsTable 4 2) (q % 8) = fin (y q)) ∧
    turnsOf twoPi64 8 y = -1 := by
  obtain ⟨C, delta0, hC, hdel, h⟩ := C116_winding_in_floating_point order4 order4 4 8 (by norm_num) (by norm_num) (by decide) (by decide)
    ringDist ringDist_nonneg ringDist_machine (3 / 4) (bumpLinearF float64)
    (floatBump_linear rounding_float64 machine_three_quarters) (fun d v hd _ hv =>
      (bumpLinearF_le rounding_float64 machine_three_quarters d v hd hv).trans
        ((by norm_num : (3 / 4 : ℚ) ≤ 2 ^ (0 : ℤ)).trans (zpow_le_zpow_right₀ one_le_two (by norm_num))))
    (fun l m => ringDist l (2 * m)) (3 / 2) 4 2 le_rfl (by norm_num) ringCocycle ringCocycle_cocycle ringIntegral ringIntegral_machine 1
    le_rfl one_le_900 ringIntegral_le ringCocycle_le twoPi64 (by norm_num [twoPi64]) (by norm_num [twoPi64]) machine_twoPi64
    (by
      intro i l m hlm hm h1 h2
      have key : ∀ i < 8, ∀ m < 4, ∀ l < 4, l < m ∧ ringDist l i < 3 / 4 ∧ ringDist m i < 3 / 4 → ringDist l (2 * m) < 3 / 2 := by
        decide +kernel
      have e : ∀ l, ringDist l (i % 8) = ringDist l i := fun l => by unfold ringDist; simp
      exact key (i % 8) (Nat.mod_lt _ (by norm_num)) m hm l (by omega) ⟨hlm, by rw [e]; exact h1, by rw [e]; exact h2⟩)
  have hw := ring_weights hC
  obtain ⟨y, w, hwq, hy, ht⟩ := h 8 (fun q => q % 8) (fun q => ((q + 1) / 2) % 4) rfl rfl
    (fun q _ => ⟨0, by norm_num, by rw [hw 0 (by norm_num) _ (Nat.mod_lt _ (by norm_num))]; simp⟩) (by decide +kernel)
  refine ⟨C, delta0, y, hC, hdel, hy, ?_⟩
  rw [ht]
  · decide +kernel
  · intro q hq
    have hww : ∀ q ≤ 8, ∀ m ∈ Finset.range 4, (ringIntegral m + (edgeVal ringCocycle (((q + 1) / 2) % 4) m : ℤ)) * w q m =
        (ringIntegral m + (edgeVal ringCocycle (((q + 1) / 2) % 4) m : ℤ)) * ringWeight m (q % 8) := by
      intro q hq m hm
      have h1 := hwq q hq m (Finset.mem_range.1 hm)
      rw [hw m (Finset.mem_range.1 hm) _ (Nat.mod_lt _ (by norm_num))] at h1
      injection h1 with h1
      rw [h1]
    have hww' : ∀ q < 8, ∀ m ∈ Finset.range 4, (ringIntegral m + (edgeVal ringCocycle (((q + 1) / 2) % 4) m : ℤ)) * w (q + 1) m =
        (ringIntegral m + (edgeVal ringCocycle (((q + 1) / 2) % 4) m : ℤ)) * ringWeight m ((q + 1) % 8) := by
      intro q hq m hm
      have h1 := hwq (q + 1) hq m (Finset.mem_range.1 hm)
      rw [hw m (Finset.mem_range.1 hm) _ (Nat.mod_lt _ (by norm_num))] at h1
      injection h1 with h1
      rw [h1]
    rw [Finset.sum_congr rfl (hww q hq.le), Finset.sum_congr rfl (hww' q hq)]
    revert q
    decide +kernel

end Dreimac
