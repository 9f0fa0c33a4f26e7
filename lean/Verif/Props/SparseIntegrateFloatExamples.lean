import Mathlib.Tactic.IntervalCases
import Verif.Props.SparseIntegrateFloat
import Verif.Props.FloatAngles

/-!
# Examples for C115: four landmarks on a circle of length 4, and eight data points
-/

namespace Dreimac

open Fl

/-- Distance on a circle of length 4 between the landmark `l` (at position `l`) and the data point `i` (at position `i / 2`). -/
def ringDist (l i : ℕ) : ℚ :=
  let a := (2 * (l % 4) + 8 - i % 8) % 8
  (min a (8 - a) : ℕ) / 2

theorem ringDist_nonneg (l i : ℕ) : 0 ≤ ringDist l i := by unfold ringDist; positivity

theorem ringDist_machine (l i : ℕ) : Machine float64 (ringDist l i) := by
  have ha : ∃ b : ℕ, b ≤ 8 ∧ ringDist l i = (b : ℚ) / 2 :=
    ⟨min ((2 * (l % 4) + 8 - i % 8) % 8) (8 - (2 * (l % 4) + 8 - i % 8) % 8), by omega, rfl⟩
  obtain ⟨b, hb, e⟩ := ha
  rw [e]
  exact machine_float64 b (-1) (by simp [div_eq_mul_inv]) (by rw [abs_of_nonneg (by positivity)]; omega) (by norm_num) (by norm_num)

/-- The cocycle: 1 on the edge from landmark 0 to landmark 3. -/
def ringCocycle (e : ℕ) : ℤ := if e = edgeIdx 0 3 then 1 else 0

/-- A quarter turn per landmark. -/
def ringIntegral (l : ℕ) : ℚ := -((l % 4 : ℕ) : ℚ) / 4

theorem ringCocycle_cocycle : IsCocycle1 4 (fun l m => ringDist l (2 * m)) (3 / 2) ringCocycle := by
  have key : ∀ i < 4, ∀ j < 4, ∀ k < 4, ¬ (i < j ∧ j < k ∧ ringDist i (2 * j) < 3 / 2 ∧ ringDist i (2 * k) < 3 / 2 ∧
      ringDist j (2 * k) < 3 / 2) := by decide +kernel
  intro i j k h
  obtain ⟨⟨h1, h2, h3⟩, ⟨h4, h5, h6⟩, -, -, h7⟩ := h
  exact absurd ⟨h1, h4, h3, h7, h6⟩ (key i (by omega) j h2 k h5)

theorem ringIntegral_machine (l : ℕ) : Machine float64 (ringIntegral l) := by
  have : l % 4 < 4 := Nat.mod_lt _ (by norm_num)
  unfold ringIntegral
  generalize l % 4 = b at *
  exact machine_float64 (-b) (-2) (by push_cast; norm_num [div_eq_mul_inv]) (by rw [abs_neg, abs_of_nonneg (by positivity)]; omega)
    (by norm_num) (by norm_num)

theorem one_le_900 : (1 : ℚ) ≤ 2 ^ (900 : ℤ) := by
  calc (1 : ℚ) = 2 ^ (0 : ℤ) := (zpow_zero _).symm
    _ ≤ 2 ^ (900 : ℤ) := zpow_le_zpow_right₀ one_le_two (by norm_num)

theorem ringIntegral_le (l : ℕ) : |ringIntegral l| ≤ 1 := by
  have : l % 4 < 4 := Nat.mod_lt _ (by norm_num)
  unfold ringIntegral
  generalize l % 4 = b at *
  have hb : (b : ℚ) ≤ 4 := by exact_mod_cast this.le
  rw [abs_le]
  constructor <;> linarith [Nat.cast_nonneg (α := ℚ) b]

theorem ringCocycle_le (e : ℕ) : |((ringCocycle e : ℤ) : ℚ)| ≤ 1 := by unfold ringCocycle; split <;> simp

example : ∃ C delta0, getCoveringPartitionF float64 (.node (.node (.leaf 0) (.leaf 1)) (.node (.leaf 2) (.leaf 3))) 4 8
      (fun l i => fin (ringDist l i)) (fin (3 / 4)) (bumpLinearF float64) = .ok C ∧
    makeDelta0 4 (fun l m => ringDist l (2 * m)) (3 / 2) (cnsTable 4 2) = .ok delta0 ∧
      ∀ i, (∃ l < 4, C.varphi l i ≠ nan) →
        (∀ l m, l < m → m < 4 → ringDist l i < 3 / 4 → ringDist m i < 3 / 4 → ringDist l (2 * m) < 3 / 2) →
        ∃ (y : ℚ) (w : ℕ → ℚ), (∀ l < 4, C.varphi l i = fin (w l)) ∧
          sparseIntegrateF float64 twoPi64 (.node (.node (.leaf 0) (.leaf 1)) (.node (.leaf 2) (.leaf 3)))
            (harmRepF float64 ringCocycle delta0 fun l => fin (ringIntegral l)) (fun l => fin (ringIntegral l)) C 4
            (fun l m => ringDist l (2 * m)) (3 / 2) (cnsTable 4 2) i = fin y ∧ 0 ≤ y ∧ y ≤ twoPi64 ∧
          ∃ k : ℕ → ℤ, (∀ l m, l < 4 → m < 4 → ringDist l i < 3 / 4 → ringDist m i < 3 / 4 → k l - k m = edgeVal ringCocycle l m) ∧
            ∀ l < 4, ringDist l i < 3 / 4 →
              |y - twoPi64 * (∑ m ∈ Finset.range 4, (ringIntegral m + (edgeVal ringCocycle l m : ℤ)) * w m - k l)| ≤
                (20 * (4 : ℕ) + 51) * 1 * 2 ^ (-53 : ℤ) * twoPi64 := by
  refine C115_class_in_floating_point _ _ 4 8 (by norm_num) (by norm_num) (by decide) (by decide) ringDist ringDist_nonneg
    ringDist_machine _ _ (floatBump_linear rounding_float64 machine_three_quarters) ?_ (fun l m => ringDist l (2 * m)) (3 / 2) 4 2
    le_rfl (by norm_num) ringCocycle ringCocycle_cocycle ringIntegral ?_ 1 le_rfl ?_ ?_ ?_ twoPi64 (by norm_num [twoPi64])
    (by norm_num [twoPi64]) machine_twoPi64
  · intro d v hd _ hv
    exact (bumpLinearF_le rounding_float64 machine_three_quarters d v hd hv).trans
      ((by norm_num : (3 / 4 : ℚ) ≤ 2 ^ (0 : ℤ)).trans (zpow_le_zpow_right₀ one_le_two (by norm_num)))
  · exact ringIntegral_machine
  · exact one_le_900
  · exact ringIntegral_le
  · exact ringCocycle_le

/-- The point between the landmarks 0 and 3 is an eighth of a turn away from both. -/
example : ((getCoveringPartitionF (K := ℚ) float64 (.node (.node (.leaf 0) (.leaf 1)) (.node (.leaf 2) (.leaf 3))) 4 8
      (fun l i => fin (ringDist l i)) (fin (3 / 4)) (bumpLinearF float64)).toOption.bind fun C =>
    (makeDelta0 4 (fun l m => ringDist l (2 * m)) (3 / 2) (cnsTable 4 2)).toOption.map fun delta0 =>
      ((C.varphi 0 7, C.varphi 3 7), sparseIntegrateF float64 twoPi64 (.node (.node (.leaf 0) (.leaf 1)) (.node (.leaf 2) (.leaf 3)))
        (harmRepF float64 ringCocycle delta0 fun l => fin (ringIntegral l)) (fun l => fin (ringIntegral l)) C 4
        (fun l m => ringDist l (2 * m)) (3 / 2) (cnsTable 4 2) 7)) = some ((fin (1 / 2), fin (1 / 2)), fin (twoPi64 / 8)) := by
  decide +kernel

end Dreimac
