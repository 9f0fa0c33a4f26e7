import Verif.Props.CircleMapFloat

/-!
# Instances of C114 in `float64`
-/

namespace Dreimac

open Fl

/-- The rotation of the angle 1 by a quarter turn. -/
example : ∃ θ, offsetF float64 twoPi64 (fin 1) (fin (1 / 4)) = fin θ ∧ 0 ≤ θ ∧ θ ≤ twoPi64 ∧
    ∃ k : ℤ, |θ - (1 + 1 / 4 * twoPi64 - k * twoPi64)| ≤
      2 ^ (-53 : ℤ) * (twoPi64 + |1 + twoPi64 / 4| + |(1 / 4 : ℚ)| * twoPi64) + 3 * 2 ^ (-1075 : ℤ) :=
  C114_offset (K := ℚ) rounding_float64 errorBound_float64 (two_zpow_pos _).le (two_zpow_pos _).le (by norm_num [twoPi64])
    machine_twoPi64 1 (1 / 4) (twoPi64 / 4) (5788918689699468 / 2 ^ 51) (by decide +kernel) (by decide +kernel)

example : offsetF (K := ℚ) float64 twoPi64 (fin 1) (fin 0) = fin 1 := by
  rw [C114_offset_zero rounding_float64 (by norm_num [twoPi64]) machine_twoPi64 1 (Rounding.one rounding_float64) (by norm_num)
    (by norm_num [twoPi64]), if_neg (by norm_num [twoPi64])]

/-- Rotations by whole turns, and rotations back, are not exact: the angle 1/10 rotated by one turn, and by a tenth of a turn and
back. -/
theorem C114_whole_turn_not_exact :
    offsetF (K := ℚ) float64 twoPi64 (fin (3602879701896397 / 2 ^ 55)) (fin 1) ≠ fin (3602879701896397 / 2 ^ 55) := by
  decide +kernel

/-- The end point `2 * np.pi` can be returned: the angle `2⁻⁶⁰` rotated by less than nothing. -/
theorem C114_end_point_attained :
    offsetF (K := ℚ) float64 twoPi64 (fin 0) (fin (-(1 / 2 ^ 60))) = fin twoPi64 := by decide +kernel

example : ∃ θ, centerF float64 (twoPi64 / 2) twoPi64 (fin 1) (fin 2) = fin θ ∧ 0 ≤ θ ∧ θ ≤ twoPi64 ∧
    ∃ k : ℤ, |θ - (2 - 1 + twoPi64 / 2 - k * twoPi64)| ≤
      2 ^ (-53 : ℤ) * (twoPi64 + |1 + twoPi64 / 2| + |(2 - 1 : ℚ)|) + 3 * 2 ^ (-1075 : ℤ) :=
  C114_center (K := ℚ) rounding_float64 errorBound_float64 (two_zpow_pos _).le (two_zpow_pos _).le (by norm_num [twoPi64])
    machine_twoPi64 2 1 1 (1 + twoPi64 / 2) (by decide +kernel) (by decide +kernel)

/-- `2 * 1 - 3 * 2` and a row of the identity matrix. -/
example : (∃ θ, combineF (K := ℚ) float64 twoPi64 (.node (.leaf 0) (.leaf 1)) (fun j => if j = 0 then 2 else -3)
      (fun j => fin ((fun j => (j + 1 : ℚ)) j)) = fin θ ∧
    ∃ k : ℤ, |θ - (∑ j ∈ Finset.range 2, (if j = 0 then (2 : ℚ) else -3) * (j + 1) - k * twoPi64)| ≤
      2 ^ (-53 : ℤ) * twoPi64 + 2 ^ (-1075 : ℤ) + ((1 + 2 ^ (-53 : ℤ)) ^ 2 - 1) *
        ∑ j ∈ Finset.range 2, |(if j = 0 then (2 : ℚ) else -3) * (j + 1)| + (2 : ℕ) * (1 + 2 ^ (-53 : ℤ)) ^ (2 - 1) * 2 ^ (-1075 : ℤ)) ∧
    combineF (K := ℚ) float64 twoPi64 (.node (.leaf 1) (.leaf 0)) (fun j => if j = 1 then 1 else 0) (fun j => fin ((j : ℚ) + 1)) =
      fin (((1 : ℕ) : ℚ) + 1) := by
  have hp : (SumTree.node (.leaf 0) (.leaf 1)).leaves.Perm (List.range 2) := List.Perm.refl _
  have hp' : (SumTree.node (.leaf 1) (.leaf 0)).leaves.Perm (List.range 2) := by decide
  constructor
  · exact (C114_linear_combination rounding_float64 errorBound_float64 (two_zpow_pos _).le (two_zpow_pos _).le
      (by norm_num [twoPi64]) machine_twoPi64 _ hp (fun j => if j = 0 then (2 : ℚ) else -3) (fun j => (j + 1 : ℚ))).2 (-4)
      (by decide +kernel)
  · exact C114_identity_row rounding_float64 _ hp' (fun j => (j : ℚ) + 1) 1 (by omega)
      (machine_float64 2 0 (by norm_num) (by norm_num) (by norm_num) (by norm_num)) (by norm_num) (by norm_num [twoPi64])

/-- The angle 4 is in the third of four half level sets. -/
example : levelsetHardF (K := ℚ) float64 twoPi64 4 (fin 4) = fin 0 := by
  rw [C114_levelset_hard (K := ℚ) rounding_float64 4 (5734161139222659 / 2 ^ 53) (5734161139222659 / 2 ^ 51)
    (by norm_num [twoPi64]) (by decide +kernel) (by decide +kernel)]
  decide +kernel

/-- The angle `2 * np.pi` (here: 25/4) with two level sets and smoothing 1/4. -/
example : ∃ s, levelsetSmoothF float64 (25 / 4) 4 (fin (1 / 4)) (fin (25 / 4)) = fin s ∧ 0 ≤ s ∧ s ≤ 1 :=
  C114_levelset_smooth rounding_float64 (machine_float64 1 (-1) (by norm_num) (by norm_num) (by norm_num) (by norm_num))
    (machine_float64 2 0 (by norm_num) (by norm_num) (by norm_num) (by norm_num)) (by norm_num) (by norm_num) (25 / 4) 1 4
    (by rw [div_self (by norm_num)]; exact Rounding.one rounding_float64)
    (by rw [one_mul]; exact machine_float64 4 0 (by norm_num) (by norm_num) (by norm_num) (by norm_num))

/-- The first channel of the colour of the same angle. -/
example : ∃ s, sinebowF float64 (25 / 8) (25 / 4) (1 / 2) (fin (25 / 4)) = fin s ∧ 0 ≤ s ∧ s ≤ 1 :=
  C114_sinebow rounding_float64 (by norm_num) (25 / 4) 1 (3 / 2)
    (by rw [div_self (by norm_num)]; exact Rounding.one rounding_float64)
    (by rw [show (1 + 1 / 2 : ℝ) = 3 / 2 by norm_num]
        exact machine_float64 3 (-1) (by norm_num) (by norm_num) (by norm_num) (by norm_num))
    2 (machine_float64 2 0 (by norm_num) (by norm_num) (by norm_num) (by norm_num))
    8 (machine_float64 8 0 (by norm_num) (by norm_num) (by norm_num) (by norm_num))
    (by norm_num [abs_of_pos]) (by norm_num [abs_of_pos])

end Dreimac
