import Verif.Props.RoundedDistances
import Verif.Props.FloatWindingExamples
import Verif.Props.ConstructExamples
import Mathlib.Tactic.IntervalCases

/-!
# Examples for C120
-/

namespace Dreimac

open Fl

/-- Eight points on a circle, neighbours at distance 1/3: the distances are not machine numbers. -/
def thirdsδ (l i : ℕ) : ℚ := (cyc8 l i : ℚ) / 3

/-- The rounded distances. -/
def thirdsDist (l i : ℕ) : ℚ := roundUnbounded 53 (-1022) (thirdsδ l i)

theorem cyc8_mod (u v : ℕ) : cyc8 (u % 8) (v % 8) = cyc8 u v := by
  unfold cyc8
  have h1 : (u % 8 + 7 * (v % 8)) % 8 = (u + 7 * v) % 8 := by simp [Nat.add_mod, Nat.mul_mod]
  have h2 : (v % 8 + 7 * (u % 8)) % 8 = (v + 7 * u) % 8 := by simp [Nat.add_mod, Nat.mul_mod]
  rw [h1, h2]

theorem cyc8_triangle (u v i : ℕ) : cyc8 u v ≤ cyc8 u i + cyc8 v i := by
  have : ∀ u < 8, ∀ v < 8, ∀ i < 8, cyc8 u v ≤ cyc8 u i + cyc8 v i := by decide
  have h := this (u % 8) (Nat.mod_lt _ (by norm_num)) (v % 8) (Nat.mod_lt _ (by norm_num)) (i % 8) (Nat.mod_lt _ (by norm_num))
  rwa [cyc8_mod, cyc8_mod, cyc8_mod] at h

theorem thirds_round (l i : ℕ) : float64 (thirdsδ l i) = fin (thirdsDist l i) := by
  have h : cyc8 l i ≤ 7 := by unfold cyc8; omega
  have key : ∀ n : ℕ, n ≤ 7 → float64 ((n : ℚ) / 3) = fin (roundUnbounded 53 (-1022) ((n : ℚ) / 3)) := by
    intro n hn
    refine binary_of_lt ?_
    interval_cases n <;> decide +kernel
  exact key _ h

/-- C120 for the radius 1/2: rounding is not exact here. -/
example : thirdsDist 0 1 ≠ thirdsδ 0 1 ∧ thirdsDist 0 1 < 1 / 2 ∧ thirdsDist 2 1 < 1 / 2 ∧
    ∀ i l m, thirdsDist l i < 1 / 2 → thirdsDist m i < 1 / 2 → thirdsDist l m < 2 * (1 / 2) := by
  refine ⟨by decide +kernel, by decide +kernel, by decide +kernel, ?_⟩
  refine C120_nerve thirdsδ thirdsδ thirdsDist thirdsDist (1 / 2) ?_ ?_ ?_ thirds_round thirds_round
  · exact (zpow_le_zpow_right₀ one_le_two (by norm_num : (-1021 : ℤ) ≤ -1)).trans (by norm_num)
  · intro l i; unfold thirdsδ; positivity
  · intro i l m
    have : (cyc8 l m : ℚ) ≤ cyc8 l i + cyc8 m i := by exact_mod_cast cyc8_triangle l m i
    unfold thirdsδ; linarith

/-- **C120 needs correct rounding.** If the distance of the landmarks is only accurate to less than one unit in the last place (as
for a faithful, but not correctly rounded, computation), two balls with a common point may have centres that are not joined. -/
theorem C120_faithful_not_enough : ∃ (δ δll dist dll : ℚ) (r : ℚ), δll ≤ δ + δ ∧ float64 δ = fin dist ∧ Machine float64 dll ∧
    |dll - δll| < spacing 53 (-1022) δll ∧ Machine float64 r ∧ dist < r ∧ ¬ dll < 2 * r := by
  refine ⟨1 + 1 / 2 ^ 53 - 1 / 2 ^ 60, 2 * (1 + 1 / 2 ^ 53 - 1 / 2 ^ 60), 1, 2 * (1 + 1 / 2 ^ 52), 1 + 1 / 2 ^ 52, ?_⟩
  unfold Machine
  decide +kernel

theorem ring_eq (l i : ℕ) : ringDist l i = (cyc8 (2 * l) i : ℚ) / 2 := by
  have h : min ((2 * (l % 4) + 8 - i % 8) % 8) (8 - (2 * (l % 4) + 8 - i % 8) % 8) = cyc8 (2 * l) i := by
    have key : ∀ l < 4, ∀ i < 8, min ((2 * l + 8 - i) % 8) (8 - (2 * l + 8 - i) % 8) = cyc8 (2 * l) i := by decide
    rw [key (l % 4) (Nat.mod_lt _ (by norm_num)) (i % 8) (Nat.mod_lt _ (by norm_num)), ← cyc8_mod (2 * l) i,
      ← cyc8_mod (2 * (l % 4)), Nat.mod_mod]
    congr 1
    omega
  have h' : ringDist l i =
      ((min ((2 * (l % 4) + 8 - i % 8) % 8) (8 - (2 * (l % 4) + 8 - i % 8) % 8) : ℕ) : ℚ) / 2 := rfl
  rw [h', h]

/-- C120 for the eight points on a circle: birth 1, death 2, `perc = 1/2` give the threshold 3/2 and the radius 3/4; around the
circle the computed coordinates turn around once. -/
example : ∃ (C : Covering ℚ) (delta0 : SparseMat) (y : ℕ → ℚ),
    getCoverRadiusF (K := ℚ) float64 (fin (1 / 2)) (fin 1) (fin 2) false = .ok (fin (3 / 4), fin (3 / 2)) ∧
    getCoveringPartitionF float64 order4 4 8 (fun l i => fin (ringDist l i)) (fin (3 / 4)) (bumpLinearF float64) = .ok C ∧
    makeDelta0 4 (fun l m => ringDist l (2 * m)) (3 / 2) (cnsTable 4 2) = .ok delta0 ∧
    (∀ q ≤ 8, sparseIntegrateF float64 twoPi64 order4 (harmRepF float64 ringCocycle delta0 fun l => fin (ringIntegral l))
      (fun l => fin (ringIntegral l)) C 4 (fun l m => ringDist l (2 * m)) (3 / 2) (cnsTable 4 2) (q % 8) = fin (y q)) ∧
    turnsOf twoPi64 8 y = -1 := by
  have hrad : getCoverRadiusF (K := ℚ) float64 (fin (1 / 2)) (fin 1) (fin 2) false = .ok (fin (3 / 4), fin (3 / 2)) := by
    decide +kernel
  obtain ⟨C, delta0, hC, hdel, h⟩ := C120_winding (fin (1 / 2)) (fin 1) (fin 2) false (3 / 4) (3 / 2) hrad
    ((zpow_le_zpow_right₀ one_le_two (by norm_num : (-1020 : ℤ) ≤ 0)).trans (by norm_num)) order4 order4 4 8 (by norm_num) (by norm_num)
    (by decide) (by decide) (fun u i => (cyc8 u i : ℚ) / 2) (fun m => 2 * m) (fun u i => by positivity)
    (fun u v i => by
      have : (cyc8 u v : ℚ) ≤ cyc8 u i + cyc8 v i := by exact_mod_cast cyc8_triangle u v i
      linarith)
    ringDist (fun l i => by rw [← ring_eq]; exact ringDist_machine l i) (bumpLinearF float64)
    (floatBump_linear rounding_float64 machine_three_quarters) (fun d v hd _ hv =>
      (bumpLinearF_le rounding_float64 machine_three_quarters d v hd hv).trans
        ((by norm_num : (3 / 4 : ℚ) ≤ 2 ^ (0 : ℤ)).trans (zpow_le_zpow_right₀ one_le_two (by norm_num))))
    4 2 le_rfl (by norm_num) ringCocycle ringCocycle_cocycle ringIntegral ringIntegral_machine 1
    le_rfl one_le_900 ringIntegral_le ringCocycle_le twoPi64 (by norm_num [twoPi64]) (by norm_num [twoPi64]) machine_twoPi64
  have hw := ring_weights hC
  obtain ⟨y, w, hwq, hy, ht⟩ := h 8 (fun q => q % 8) (fun q => ((q + 1) / 2) % 4) rfl rfl
    (fun q _ => ⟨0, by norm_num, by rw [hw 0 (by norm_num) _ (Nat.mod_lt _ (by norm_num))]; simp⟩) (by decide +kernel)
  refine ⟨C, delta0, y, hrad, hC, hdel, hy, ?_⟩
  rw [ht]
  · decide +kernel
  · intro q hq
    have hww : ∀ q ≤ 8, ∀ l, ∀ m ∈ Finset.range 4, (ringIntegral m + (edgeVal ringCocycle l m : ℤ)) * w q m =
        (ringIntegral m + (edgeVal ringCocycle l m : ℤ)) * ringWeight m (q % 8) := by
      intro q hq l m hm
      have h1 := hwq q hq m (Finset.mem_range.1 hm)
      rw [hw m (Finset.mem_range.1 hm) _ (Nat.mod_lt _ (by norm_num))] at h1
      injection h1 with h1
      rw [h1]
    rw [Finset.sum_congr rfl (hww q hq.le _), Finset.sum_congr rfl (hww (q + 1) hq _)]
    clear hww hy ht hwq h
    revert q
    decide +kernel

end Dreimac
