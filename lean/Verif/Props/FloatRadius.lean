import Verif.Props.FloatAngles
import Verif.Props.Float64

/-!
# C99: in floating point the radius is half of the threshold
-/

namespace Dreimac

open Fl

section
variable {K : Type} [Field K] [LinearOrder K] [IsStrictOrderedRing K] [FloorRing K]

/-- Halving a machine number that is not tiny is exact. -/
theorem machine_half {x : K} (hx : Machine float64 x) (h : 2 ^ (-1021 : ℤ) ≤ |x|) : Machine float64 (x / 2) := by
  obtain ⟨h1, h2⟩ := machine_binary_iff.1 hx
  have he : (-1021 : ℤ) ≤ expo (-1022) x := by
    by_contra hlt
    have := abs_lt_expo (emin := -1022) x
    have h3 : (2 : K) ^ (expo (-1022) x + 1) ≤ 2 ^ (-1021 : ℤ) := zpow_le_zpow_right₀ one_le_two (by omega)
    linarith
  have hh : ∀ e : ℤ, (2 : K) ^ e = 2 * 2 ^ (e - 1) := fun e => by rw [← zpow_one_add₀ two_ne_zero]; congr 1; ring
  refine machine_binary_iff.2 ⟨roundUnbounded_of_form (by norm_num) (m := nearestEven (x / spacing 53 (-1022) x))
    (e := expo (-1022) x - 1) (by omega) ?_ ?_, ?_⟩
  · conv_lhs => rw [← h1]
    unfold roundUnbounded
    rw [spacing_eq, hh (expo (-1022) x - (53 : ℕ) + 1)]
    rw [show expo (-1022) x - ((53 : ℕ) : ℤ) + 1 - 1 = expo (-1022) x - 1 - ((53 : ℕ) : ℤ) + 1 by ring]
    ring
  · rw [abs_div, abs_of_pos (zero_lt_two (α := K)), div_le_iff₀ two_pos]
    have := (abs_lt_expo (emin := -1022) x).le
    rw [hh, mul_comm] at this
    simpa using this
  · rw [abs_div, abs_of_pos (zero_lt_two (α := K)), div_lt_iff₀ two_pos]
    have := abs_nonneg x
    have h3 : (0 : K) < 2 ^ ((1023 : ℤ) + 1) := two_zpow_pos _
    linarith

/-- **C99 (radius).** In `float64` the radius is exactly half of the threshold, unless the threshold is tiny (below `2^-1021`); so
by the triangle inequality two balls with a common point have centres at distance less than the threshold. -/
theorem C99_radius_is_half_the_threshold (perc birth death : Fl K) (std : Bool) (ρ : Fl K) (thr : K)
    (h : getCoverRadiusF float64 perc birth death std = .ok (ρ, fin thr)) (hbig : 2 ^ (-1021 : ℤ) ≤ |thr|) :
    ρ = fin (thr / 2) ∧ ∀ (dist dll : ℕ → ℕ → K), (∀ i l m, dll l m ≤ dist l i + dist m i) →
      ∀ i l m, Fl.lt (fin (dist l i)) ρ = true → Fl.lt (fin (dist m i)) ρ = true → dll l m < thr := by
  suffices hρ : ρ = fin (thr / 2) by
    refine ⟨hρ, fun dist dll htri i l m h1 h2 => ?_⟩
    rw [hρ, lt_fin, decide_eq_true_eq] at h1 h2
    linarith [htri i l m]
  unfold getCoverRadiusF at h
  simp only at h
  generalize (if std then Fl.round float64 (Fl.fin 2 * birth) else birth) = start at h
  split at h
  · cases h
  · injection h with h
    injection h with h1 h2
    have mt : Machine float64 thr := by
      generalize Fl.round float64 (Fl.round float64 (fin 1 - perc) * start) + Fl.round float64 (perc * death) = s at h2
      cases s with
      | fin s => exact rounding_float64.idem _ _ h2
      | nan => cases h2
      | pinf => cases h2
      | ninf => cases h2
    rw [← h1, h2, fin_div _ _ two_ne_zero]
    exact machine_half mt hbig

end

/-- The hypotheses hold for a class born at 1 (or 2 with the doubled start) and dying at 3. -/
example : ∃ ρ : Fl ℚ, ∃ thr : ℚ, getCoverRadiusF float64 (fin (1 / 4)) (fin 1) (fin 3) true = .ok (ρ, fin thr) ∧ thr = 9 / 4 ∧
    ρ = fin (9 / 8) := by
  have h : getCoverRadiusF (K := ℚ) float64 (fin (1 / 4)) (fin 1) (fin 3) true = .ok (fin (9 / 8), fin (9 / 4)) := by decide +kernel
  have h0 : (2 : ℚ) ^ (-1021 : ℤ) ≤ |9 / 4| := by
    rw [abs_of_pos (by norm_num)]
    exact (zpow_le_zpow_right₀ one_le_two (by norm_num : (-1021 : ℤ) ≤ 0)).trans (by norm_num)
  have := (C99_radius_is_half_the_threshold _ _ _ _ _ _ h h0).1
  exact ⟨_, _, h, rfl, by rw [this]⟩

end Dreimac
