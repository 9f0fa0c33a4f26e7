import Verif.Props.DiscPlot
import Verif.Props.ReducedExamples

/-!
# C138 on the octagon
-/

namespace Dreimac

/-- The octagon in the projective line, plotted in the disc of dimension 1 (the interval from -1 to 1, whose ends are one point) with the
pole `(1, 0)`: the product of the pairings of consecutive points is negative. -/
example (eigh : Eigh ℝ) (he : EighSpec eigh) (eigh' : (ℕ → ℕ → ℝ) → ℕ → ℕ → ℝ) :
    ∃ o X, ∃ y : ℕ → ℕ → ℝ, projInit idealArgsort (octRipser 1) octInput 1 = .ok o ∧
    (projGetCoordinates eigh 4 o ⟨.fin (1 / 2), .int 0, 1, bumpLinear, false, true, .direct⟩).2 = .ok X ∧
    (∀ i < 8, ∀ m < 2, X.at' i m = some (y i m)) ∧
    ∏ t ∈ Finset.range 8, discPairing 1 (getStereoProjCodim1 eigh' 8 2 y (some fun k => if k = 0 then 1 else 0) (t % 8))
      (getStereoProjCodim1 eigh' 8 2 y (some fun k => if k = 0 then 1 else 0) ((t + 1) % 8)) < 0 := by
  obtain ⟨o, X, y, h1, h2, h3, h4, h5, h6⟩ := oct_line eigh he
  refine ⟨o, X, y, h1, h2, h4, ?_⟩
  obtain ⟨c, hc, hprod⟩ := C138_disc_loop eigh' 8 1 y (some fun k => if k = 0 then 1 else 0) ⟨0, by norm_num, by simp⟩ 8 (fun t => t % 8)
    rfl fun t _ => h5 _ (Nat.mod_lt _ (by norm_num))
  rw [hprod]
  exact mul_neg_of_pos_of_neg hc h6

/-- The pairing on points: the centre and the centre, the centre and a point of the boundary, opposite boundary points. -/
example : discPairing 1 (fun _ => 0) (fun _ => 0) = 1 ∧ discPairing 1 (fun _ => 0) (fun _ => 1) = 0 ∧
    discPairing 1 (fun _ => 1) (fun _ => -1) = -4 := by
  refine ⟨?_, ?_, ?_⟩ <;> unfold discPairing dotP <;> norm_num

end Dreimac
