import Verif.Props.StoredCocycles
import Verif.Props.StoredToroExamples

/-!
# C137 on the octagon
-/

namespace Dreimac

theorem oct_overlapping {z : ℤ} (hz : z = 0 ∨ z = -1) : Overlapping [((.fin 2, .fin 4) : Fl ℝ × Fl ℝ)] [0] [.int z] :=
  ⟨(oct_alive hz true).toSelectsAll, (oct_alive hz true).overlap⟩

/-- The octagon with the prime 3 and the value 2 on the edge from 6 to 0.  A call with an index that does not exist changes nothing; after
a call for class -1 the stored value is -1, whatever happened before or later. -/
example (before after : List (ℕ × Args)) : ∃ o r, toroInit idealArgsort (octRipser 2) octInput 4 3 1 = .ok o ∧
    o.cocycles[1]? = some [[r]] ∧ r.val = 2 ∧
    (∀ coc', ([((7, Args.mk (.fin (1 / 2)) [.int 5] bumpLinear true true) : ℕ × Args)].foldl
        (fun o (a : ℕ × Args) => (getCoordinates idealEnv a.1 o a.2).1) o).cocycles[1]? = some coc' → coc'[0]? = some [r]) ∧
    ∀ coc', ((before ++ ((7, Args.mk (.fin (1 / 2)) [.int (-1)] bumpLinear true true) : ℕ × Args) :: after).foldl
        (fun o (a : ℕ × Args) => (getCoordinates idealEnv a.1 o a.2).1) o).cocycles[1]? = some coc' →
      ∃ r', coc'[0]? = some [r'] ∧ r'.verts = r.verts ∧ r'.val = -1 := by
  obtain ⟨o, dgm, σ, h1, h2, h3, hs, h4⟩ := C137_toroidal_cocycles octInput octInput_describes
    (octRipser_spec 3 2 (by norm_num) (by norm_num)) idealArgsort idealArgsort_spec le_rfl (by norm_num) (by norm_num)
    (fun _ => rfl)
  simp only [octRipser] at h2
  simp at h2
  subst h2
  have hσ : σ = [0] := List.perm_singleton.1 h3.1
  subst hσ
  obtain ⟨dgm, coc, dgm', coc', σ, k1, k2, -, k4, k5, -, k7⟩ := hs 1 le_rfl le_rfl
  have e1 : dgm = [(.fin 2, .fin 4)] := by simpa [octRipser] using k1.symm
  have e2 : coc = [[⟨[6, 0], 2⟩]] := by simpa [octRipser] using k2.symm
  subst e1 e2
  have hσ : σ = [0] := List.perm_singleton.1 k5.1
  subst hσ
  rcases k7 with _ | ⟨⟨c, hc, hren⟩, hnil⟩
  cases hnil
  simp only [List.getElem?_cons_zero, Option.some.injEq] at hc
  subst hc
  rcases hren with _ | ⟨hr, hnil⟩
  cases hnil
  rename_i r
  have hrv : r.val = 2 := hr.1
  refine ⟨o, r, h1, k4, hrv, fun coc' hcoc' => ?_, fun coc' hcoc' => ?_⟩
  · refine (((h4 idealEnv _).classes _ _ k4 hcoc').2 0 [r] rfl).2 ?_
    rintro ⟨a, ha, hov, -⟩
    rw [List.mem_singleton] at ha
    subst ha
    obtain ⟨pt, r, j, q1, q2, -⟩ := hov.exist (.int 5) (by simp)
    simp at q1 q2
    omega
  · obtain ⟨c', e1, e2⟩ := (((h4 idealEnv _).classes _ _ k4 hcoc').2 0 [r] rfl).1
      ⟨_, List.mem_append_right _ List.mem_cons_self, oct_overlapping (Or.inr rfl), .int (-1), by simp, Or.inr (by simp)⟩
    rcases e2 with _ | ⟨⟨f1, ⟨m, f2⟩, f3, f4⟩, hnil⟩
    cases hnil
    rename_i r'
    exact ⟨r', e1, f1, by omega⟩

end Dreimac
