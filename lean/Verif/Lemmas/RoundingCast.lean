import Mathlib.Data.Rat.Cast.Order
import Mathlib.Data.Rat.Floor
import Verif.Lemmas.Rounding

/-!
# Rounding of rational numbers does not depend on the ambient field
-/

namespace Dreimac

variable {K : Type} [Field K] [LinearOrder K] [IsStrictOrderedRing K] [FloorRing K]

/-- Apply a function to a finite value. -/
def Fl.map {K K' : Type} (f : K → K') : Fl K → Fl K'
  | .nan => .nan
  | .ninf => .ninf
  | .pinf => .pinf
  | .fin x => .fin (f x)

theorem log_ratCast (q : ℚ) : Int.log 2 |(q : K)| = Int.log 2 |q| := by
  rcases eq_or_ne q 0 with rfl | h
  · simp
  · have h1 : 0 < |q| := abs_pos.2 h
    have h2 : 0 < |(q : K)| := abs_pos.2 (by exact_mod_cast h)
    apply eq_of_forall_le_iff
    intro e
    rw [← Int.zpow_le_iff_le_log (by norm_num) h2, ← Int.zpow_le_iff_le_log (by norm_num) h1]
    rw [← Rat.cast_abs]
    have : (((2 : ℕ) : K)) ^ e = (((2 : ℕ) : ℚ) ^ e : ℚ) := by push_cast; rfl
    rw [this, Rat.cast_le]

theorem nearestEven_ratCast (q : ℚ) : nearestEven (q : K) = nearestEven q := by
  unfold nearestEven
  rw [Rat.floor_cast, ← Rat.cast_fract]
  have h1 : ((Int.fract q : ℚ) : K) < 1 / 2 ↔ Int.fract q < 1 / 2 := by
    rw [show (1 / 2 : K) = ((1 / 2 : ℚ) : K) by push_cast; rfl, Rat.cast_lt]
  have h2 : ((Int.fract q : ℚ) : K) = 1 / 2 ↔ Int.fract q = 1 / 2 := by
    rw [show (1 / 2 : K) = ((1 / 2 : ℚ) : K) by push_cast; rfl, Rat.cast_inj]
  simp only [h1, h2]

theorem spacing_ratCast (p : ℕ) (emin : ℤ) (q : ℚ) : spacing p emin (q : K) = (spacing p emin q : ℚ) := by
  unfold spacing; rw [log_ratCast]; push_cast; rfl

theorem roundUnbounded_ratCast (p : ℕ) (emin : ℤ) (q : ℚ) :
    roundUnbounded p emin (q : K) = (roundUnbounded p emin q : ℚ) := by
  unfold roundUnbounded
  rw [spacing_ratCast, ← Rat.cast_div, nearestEven_ratCast]; push_cast; rfl

theorem binary_ratCast (p : ℕ) (emin emax : ℤ) (q : ℚ) :
    binary p emin emax (q : K) = (binary p emin emax q).map (fun x : ℚ => (x : K)) := by
  unfold binary
  simp only
  rw [roundUnbounded_ratCast]
  have h1 : (2 : K) ^ (emax + 1) ≤ (roundUnbounded p emin q : ℚ) ↔ (2 : ℚ) ^ (emax + 1) ≤ roundUnbounded p emin q := by
    rw [show (2 : K) ^ (emax + 1) = (((2 : ℚ) ^ (emax + 1) : ℚ) : K) by push_cast; rfl, Rat.cast_le]
  have h2 : ((roundUnbounded p emin q : ℚ) : K) ≤ -2 ^ (emax + 1) ↔ roundUnbounded p emin q ≤ -(2 : ℚ) ^ (emax + 1) := by
    rw [show -(2 : K) ^ (emax + 1) = ((-(2 : ℚ) ^ (emax + 1) : ℚ) : K) by push_cast; rfl, Rat.cast_le]
  simp only [h1, h2]
  split
  · rfl
  · split <;> rfl

theorem float64_ratCast (q : ℚ) : float64 (q : K) = (float64 q).map (fun x : ℚ => (x : K)) := binary_ratCast _ _ _ q

/-- A computation with rational numbers decides the rounding of a real number. -/
theorem float64_of_rat {q q' : ℚ} (h : float64 q = .fin q') : float64 (q : K) = .fin (q' : K) := by
  rw [float64_ratCast, h]; rfl

end Dreimac
