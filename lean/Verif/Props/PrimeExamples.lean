import Verif.Props.Prime
import Verif.Props.EndToEndWindingExamples
import Verif.Props.EndToEnd2Examples

/-! # Concrete cases of C127 -/

namespace Dreimac

/-- The value `p - 1` and the integer `-1`. -/
theorem oct_reduction {p : ℤ} (hp : 3 ≤ p) : SmallReduction p octS (octξ (p - 1)) (octξ (-1)) := by
  intro u _ v _
  have e : ∀ a : ℤ, octξ a u v = a * octξ 1 u v := fun a => by unfold octξ; rw [one_mul]
  have h : |octξ 1 u v| ≤ 1 := by
    unfold octξ
    split
    · norm_num
    · split <;> norm_num
  rw [e, e (p - 1)]
  have h' := abs_le.1 h
  refine ⟨⟨-octξ 1 u v, by ring⟩, ?_⟩
  rw [abs_lt]
  constructor <;> linarith

/-- C127: on the octagon all primes from 3 on give the same circular coordinate, for all solvers. -/
example (p : ℤ) (hp : 3 ≤ p) (env : Oracles) (fuel : ℕ) (check : Bool) : ∃ o o',
    toroInit idealArgsort (octRipser 2) octInput 4 3 1 = .ok o ∧ toroInit idealArgsort (octRipser (p - 1)) octInput 4 p 1 = .ok o' ∧
    (getCoordinates env fuel o ⟨.fin (1 / 2), [.int 0], bumpLinear, false, check⟩).2 =
      (getCoordinates env fuel o' ⟨.fin (1 / 2), [.int 0], bumpLinear, false, check⟩).2 := by
  obtain ⟨o, o', dgm, coc, σ, dgm', coc', σ', h1, h1', h2, h3, h4, h2', h3', h4', h⟩ := C127_toroidal_prime octInput octInput_describes
    (octRipser_spec 3 2 (by norm_num) (by norm_num)) (octRipser_spec p (p - 1) (by linarith) (by linarith)) rfl idealArgsort idealArgsort
    idealArgsort_spec idealArgsort_spec le_rfl le_rfl (by norm_num) (by norm_num) (fun _ => rfl) (by norm_num) (by linarith)
  simp only [octRipser] at h2 h3 h2' h3'
  simp at h2 h3 h2' h3'
  subst h2 h3 h2' h3'
  obtain rfl : σ = [0] := List.perm_singleton.1 h4.1
  obtain rfl : σ' = [0] := List.perm_singleton.1 h4'.1
  refine ⟨o, o', h1, h1', ?_⟩
  have := h 1 (fun _ => 0) (fun _ => 0) (fun _ => 2) (fun _ => 4) (fun _ => octξ 2) (fun _ => octξ (p - 1)) (fun _ => octξ (-1))
    ⟨fun _ => ⟨0, _, rfl, rfl, rfl, octξ_lists 2⟩⟩ ⟨fun _ => ⟨0, _, rfl, rfl, rfl, octξ_lists (p - 1)⟩⟩
    (fun _ => by rw [octS_eq]; exact ⟨oct_reduction (p := 3) le_rfl, oct_reduction hp⟩)
    env fuel [] [] (1 / 2) false check bumpLinear 2 4 (3 / 2) ⟨⟨0, rfl⟩, fun y ⟨_, h⟩ => h ▸ le_rfl⟩ ⟨⟨0, rfl⟩, fun y ⟨_, h⟩ => h ▸ le_rfl⟩
    (by norm_num) (by norm_num) (by norm_num)
    (fun _ _ => by
      rw [octS_eq, show (2 : ℝ) * (3 / 2) = 3 by norm_num]
      exact octξ_small.cocycle)
  simpa [List.ofFn_succ, afterCalls] using this

/-- C127: the octahedron modulo 3 and modulo 5. -/
example (env : CPOracles) (fuel : ℕ) (q : ℤ) (check : Bool) (mode : RedMode) : ∃ o o',
    cpInit idealArgsort (ochRipser 2) ochInput 6 3 2 = .ok o ∧ cpInit idealArgsort (ochRipser 4) ochInput 6 5 2 = .ok o' ∧
    (cpGetCoordinates env fuel o ⟨.fin (1 / 2), .int 0, q, bumpLinear, false, check, mode⟩).2 =
      (cpGetCoordinates env fuel o' ⟨.fin (1 / 2), .int 0, q, bumpLinear, false, check, mode⟩).2 := by
  obtain ⟨_, dgm₁, coc₁, σ₁, -, k2, k3, k4, k⟩ := C92_complex_projective_coordinates ochInput ochInput_describes
    (ochRipser_spec 3 2 (by norm_num) (by norm_num)) idealArgsort idealArgsort_spec le_rfl (by norm_num) (by norm_num) (fun _ => rfl)
    (by norm_num)
  obtain ⟨o, o', dgm, coc, σ, dgm', coc', σ', h1, h1', h2, h3, h4, h2', h3', h4', h⟩ := C127_complex_projective_prime ochInput
    ochInput_describes (ochRipser_spec 3 2 (by norm_num) (by norm_num)) (ochRipser_spec 5 4 (by norm_num) (by norm_num)) rfl
    idealArgsort idealArgsort idealArgsort_spec idealArgsort_spec le_rfl le_rfl (by norm_num) (by norm_num) (fun _ => rfl) (by norm_num)
    (by norm_num)
  simp [ochRipser] at h2 h3 h2' h3' k2 k3
  subst h2 h3 h2' h3' k2 k3
  obtain rfl : σ = [0] := List.perm_singleton.1 h4.1
  obtain rfl : σ' = [0] := List.perm_singleton.1 h4'.1
  obtain rfl : σ₁ = [0] := List.perm_singleton.1 k4.1
  obtain ⟨c, hc, -⟩ := k 0 0 1 2 _ rfl rfl rfl
  have hS : (ochRipser 2).idxPerm.toFinset = [3, 0, 2, 4, 1, 5].toFinset := rfl
  refine ⟨o, o', h1, h1', ?_⟩
  have hc' : ListsLift2 5 (ochRipser 2).idxPerm.toFinset [⟨[4, 0, 2], 4⟩] c := by
    refine ⟨hc.swap12, hc.swap23, ?_, ?_⟩
    · intro r hr
      simp only [List.mem_singleton] at hr
      subst hr
      obtain ⟨u, v, w, e1, m1, m2, m3, e2, e3, e4⟩ := hc.rows _ (List.mem_singleton.2 rfl)
      have e5 : c u v w = -1 := by simp only at e2; omega
      exact ⟨u, v, w, e1, m1, m2, m3, by rw [e5]; norm_num, by rw [e5]; norm_num, by rw [e5]; norm_num⟩
    · intro u hu v hv w hw hno
      refine hc.unlisted u hu v hv w hw ?_
      intro r hr
      simp only [List.mem_singleton] at hr
      subst hr
      exact hno ⟨[4, 0, 2], 4⟩ (List.mem_singleton.2 rfl)
  have := h 0 0 0 0 1 2 _ _ c rfl rfl rfl rfl rfl rfl hc hc' env fuel [] [] (1 / 2) q false check bumpLinear mode (3 / 4) (by norm_num)
    (fun _ => by rw [hS] at hc ⊢; exact och_cocycle hc)
  simpa [cpHistory] using this

end Dreimac
