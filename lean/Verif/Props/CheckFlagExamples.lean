import Verif.Props.CheckFlag
import Verif.Props.CircularExamples

/-!
# The hypotheses of C108 are met
-/

namespace Dreimac

theorem octObj_selected : SelectedClasses octObj [⟨.int 0, 2, 4, [⟨[3, 0], 2⟩]⟩] (1 / 2) false 2 4 (3 / 2) where
  valid := by
    intro x hx
    obtain rfl := List.mem_singleton.1 hx
    exact octObj_class
  latest := ⟨⟨_, List.mem_singleton.2 rfl, rfl⟩, by rintro b ⟨x, hx, rfl⟩; obtain rfl := List.mem_singleton.1 hx; exact le_rfl⟩
  earliest := ⟨⟨_, List.mem_singleton.2 rfl, rfl⟩, by rintro b ⟨x, hx, rfl⟩; obtain rfl := List.mem_singleton.1 hx; exact le_rfl⟩
  overlap := by norm_num
  long := by norm_num
  radius := by norm_num

/-- The octagon: whatever the solvers, the checked call and the unchecked call agree; with the ideal solvers both return. -/
example (env : Oracles) (fuel : ℕ) : getCoordinates env fuel octObj ⟨.fin (1 / 2), [.int 0], bumpLinear, false, true⟩ =
    getCoordinates env fuel octObj ⟨.fin (1 / 2), [.int 0], bumpLinear, false, false⟩ :=
  C108_check_neutral env fuel octObj octObj_wf octObj_fieldValued _ _ _ _ _ _ octObj_selected bumpLinear (by
    intro x _ v _ i j k h
    exact absurd h (octObj_no_triangle i j k))

/-- The octahedron. -/
example (env : CPOracles) (fuel : ℕ) (N : ℕ) (z : ℤ) (a : ProjArgs) (ha : a.cocycleIdx = .int 0) (hp : a.perc = .fin (1 / 2))
    (hs : a.standardRange = false) :
    cpGetCoordinates env fuel (octa N z) { a with check := true } = cpGetCoordinates env fuel (octa N z) { a with check := false } :=
  C108_cp_check_neutral env fuel (octa N z) (octa_wf N z) a 1 2 (1 / 2) hp _ (ha ▸ (octa_class N z).stored) (fun v _ => by
    rw [hs]
    have := octa_cocycle N z fun e => v.getD e 0
    convert this using 1
    norm_num)

end Dreimac
