import Mathlib.Algebra.Order.Round
import Mathlib.Tactic.Linarith
import Mathlib.Tactic.LinearCombination
import Verif.Lemmas.Cocycle

namespace Dreimac

section
variable {F : Type} [Field F] [LinearOrder F] [IsStrictOrderedRing F] [FloorRing F]

/-- `np.rint` returns the integer a number is within less than one half of. -/
theorem rint_eq {x : F} {m : ℤ} (h : |x - m| < 1 / 2) : rint x = m := by
  rw [abs_lt] at h
  obtain ⟨h1, h2⟩ := h
  have hfl := Int.floor_le x
  have hlt := Int.lt_floor_add_one x
  have hfr : Int.fract x = x - ⌊x⌋ := rfl
  unfold rint
  rw [hfr]
  by_cases hc : (m : F) ≤ x
  · have hm : ⌊x⌋ = m := Int.floor_eq_iff.2 ⟨hc, by linarith⟩
    rw [hm, if_pos (by linarith)]
  · push Not at hc
    have hm : ⌊x⌋ = m - 1 := by
      rw [Int.floor_eq_iff]; push_cast; exact ⟨by linarith, by linarith⟩
    rw [hm]; push_cast
    rw [if_neg (by linarith), if_pos (by linarith)]; ring

theorem int_eq_of_abs_lt {a b : ℤ} (h : |(a : F) - b| < 1) : a = b := by
  have : |(a - b : ℤ)| < 1 := by
    have : ((|a - b| : ℤ) : F) < 1 := by push_cast; exact h
    exact_mod_cast this
  have := Int.abs_lt_one_iff.1 this
  omega

end

end Dreimac
