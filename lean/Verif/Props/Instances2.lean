import Verif.Props.EMCoords
import Verif.Props.EMInit
import Verif.Props.ConstructExamples
import Mathlib.Tactic.NormNum
import Mathlib.Tactic.IntervalCases
import Mathlib.Tactic.FinCases

/-!
# Worked instances of C24–C32 and C59

Each theorem is applied to concrete data that meet its hypotheses, and the conclusion is read off.
-/

namespace Dreimac

open Fl

/-- C24: a class alive on `[1, 4)`, standard range: thresholds between 2 and 4; a class alive on `[3, 4)` is rejected. -/
example : (∃ r thr : ℚ, getCoverRadius (fin (1 / 4)) (fin 1) (fin 4) true = .ok (fin r, fin thr) ∧ thr = 5 / 2 ∧ r = 5 / 4) ∧
    getCoverRadius (K := ℚ) (fin (1 / 4)) (fin 3) (fin 4) true = .error .tooShort := by
  refine ⟨?_, (C24_cover_radius (3 : ℚ) 4 (1 / 4) true).1 (by norm_num)⟩
  obtain ⟨r, thr, h, h1, h2, -⟩ := (C24_cover_radius (1 : ℚ) 4 (1 / 4) true).2 (by norm_num)
  have e : thr = 5 / 2 := by norm_num at h1; linarith
  exact ⟨r, thr, h, e, by linarith⟩

/-- C24: two fractions. -/
example (r s t u : ℚ) (hp : getCoverRadius (fin 0) (fin 1) (fin 4) false = .ok (fin r, fin t))
    (hq : getCoverRadius (fin 1) (fin 1) (fin 4) false = .ok (fin s, fin u)) : t ≤ u ∧ t = 1 ∧ u = 4 := by
  obtain ⟨h1, h2, h3⟩ := C24_monotone (1 : ℚ) 4 0 1 false r s t u hp hq (by norm_num)
  exact ⟨h1, h2 rfl, h3 rfl⟩

example : getCoverRadius (K := ℚ) (fin 0) (fin 1) (fin 4) false = .ok (fin (1 / 2), fin 1) ∧
    getCoverRadius (K := ℚ) (fin 1) (fin 1) (fin 4) false = .ok (fin 2, fin 4) := by decide +kernel

/-- C25 -/
example : getCoverRadius (K := ℚ) (fin (1 / 2)) (fin 1) pinf true = .ok (pinf, pinf) ∧
    (∃ r thr : ℚ, getCoverRadius (fin (1 / 2)) (fin 1) (fin 2) true = .ok (fin r, fin thr)) :=
  ⟨(C25_essential_class_no_finite_radius (1 : ℚ) (1 / 2) true (by norm_num) (by norm_num)).1 (by norm_num),
    C25_finite_death_partial (1 : ℚ) 2 (1 / 2) true (by norm_num)⟩

/-- Two landmarks, three points; the third point is at distance 5 from both. -/
def exDist (l i : ℕ) : ℝ := if i = 2 then 5 else if l = i then 0 else 1

theorem exDist_nonneg (l i : ℕ) : 0 ≤ exDist l i := by
  unfold exDist; split_ifs <;> norm_num

theorem exDist_covered : Covered 2 exDist 2 1 := ⟨0, by norm_num, by norm_num [exDist]⟩

theorem exDist_not_covered : ¬ Covered 2 exDist 2 2 := by
  rintro ⟨l, -, h⟩
  norm_num [exDist] at h

/-- C25: the weights for an essential class. -/
example : ∃ C, getCoveringPartition .float 2 3 (fun l i => fin (exDist l i)) pinf bumpExp = .ok C ∧ C.warning = none ∧
    C.varphi 0 0 = nan := by
  obtain ⟨C, h1, h2, h3⟩ := C25_essential_class_all_nan bumpExp (Or.inr (Or.inr rfl)) 2 3 (by norm_num) exDist
  exact ⟨C, h1, h2, h3 0 0⟩

/-- C28: point 1 is covered by both landmarks at radius 2; with the quadratic bump its weights are 1/5 and 4/5. -/
example : ∃ C, getCoveringPartition .float 2 3 (fun l i => fin (exDist l i)) (fin 2) bumpQuadratic = .ok C ∧
    C.varphi 0 1 = fin (1 / 5) ∧ C.varphi 1 1 = fin (4 / 5) := by
  obtain ⟨C, h, hC⟩ := C28_weight_formula 2 3 (by norm_num) exDist exDist_nonneg 2 bumpQuadratic _ (Or.inr (Or.inl ⟨rfl, rfl⟩))
  refine ⟨C, h, ?_, ?_⟩
  · rw [hC 1 exDist_covered 0]; norm_num [exDist, Finset.sum_range_succ]
  · rw [hC 1 exDist_covered 1]; norm_num [exDist, Finset.sum_range_succ]

/-- C28 with the exponential bump: both weights of point 1 are positive and they sum to one. -/
example : ∃ C, getCoveringPartition .float 2 3 (fun l i => fin (exDist l i)) (fin 2) bumpExp = .ok C ∧
    ∃ w : ℕ → ℝ, C.varphi 0 1 = fin (w 0) ∧ C.varphi 1 1 = fin (w 1) ∧ 0 < w 0 ∧ 0 < w 1 ∧ w 0 + w 1 = 1 := by
  obtain ⟨C, h, hC⟩ := C28_partition_of_unity bumpExp (Or.inr (Or.inr rfl)) 2 3 (by norm_num) exDist exDist_nonneg 2
  obtain ⟨w, h1, -, h3, h4⟩ := hC 1 exDist_covered
  refine ⟨C, h, w, h1 0, h1 1, (h4 0).2 (by norm_num [exDist]), (h4 1).2 (by norm_num [exDist]), ?_⟩
  simpa [Finset.sum_range_succ] using h3

/-- C29: one uncovered point, reported and with weight `nan`. -/
example : ∃ C, getCoveringPartition .float 2 3 (fun l i => fin (exDist l i)) (fin 2) bumpLinear = .ok C ∧
    C.warning = some 1 ∧ C.varphi 0 2 = nan ∧ C.varphi 0 1 ≠ nan := by
  obtain ⟨C, h, -, h2, h3⟩ := C29_uncovered_points bumpLinear positiveBump_linear 2 3 (by norm_num) exDist exDist_nonneg 2
  refine ⟨C, h, (h2 1).2 ⟨by norm_num, ?_⟩, (h3 0 2).2 exDist_not_covered, fun e => (h3 0 1).1 e exDist_covered⟩
  have : {i | i < 3 ∧ ¬ Covered 2 exDist 2 i} = {2} := by
    ext i
    simp only [Set.mem_ofPred_eq, Set.mem_singleton_iff]
    constructor
    · rintro ⟨h1, h2⟩
      by_contra h3
      exact h2 ⟨0, by norm_num, by unfold exDist; rw [if_neg h3]; split_ifs <;> norm_num⟩
    · rintro rfl; exact ⟨by norm_num, exDist_not_covered⟩
  rw [this, Set.ncard_singleton]

/-- C30: at radius 1, point 1 lies in the second ball only. -/
example : ∃ C, getCoveringPartition .float 2 3 (fun l i => fin (exDist l i)) (fin 1) bumpLinear = .ok C ∧
    C.ballIndx 1 = 1 ∧ C.varphi 0 1 = fin 0 ∧ C.ballIndx 2 = 0 := by
  obtain ⟨C, h, h1, h2⟩ := C30_ball_index bumpLinear positiveBump_linear 2 3 (by norm_num) exDist exDist_nonneg 1
  obtain ⟨a1, a2, a3⟩ := h1 1 ⟨1, by norm_num, by norm_num [exDist]⟩
  have e : C.ballIndx 1 = 1 := by
    by_contra hne
    have : C.ballIndx 1 = 0 := by omega
    rw [this] at a2
    norm_num [exDist] at a2
  refine ⟨C, h, e, (a3 0 (by omega)).2, h2 2 ?_⟩
  rintro ⟨l, -, h⟩
  norm_num [exDist] at h

/-- C31: distance 1 and radius 3/2 (covered, but the call fails), and radius 2 (success). -/
example : getCoveringPartition (K := ℚ) .int 1 1 (fun _ _ => fin ((1 : ℤ) : ℚ)) (fin (3 / 2)) bumpLinear = .error .valueError ∧
    ∃ C, getCoveringPartition (K := ℚ) .int 1 1 (fun _ _ => fin ((1 : ℤ) : ℚ)) (fin 2) bumpLinear = .ok C ∧ C.warning = none := by
  refine ⟨C31_integer_matrix_fails 1 1 (fun _ _ => 1) (3 / 2 : ℚ) 0 (by norm_num) fun l _ => by norm_num, ?_⟩
  obtain ⟨C, h1, h2, -⟩ := C31_integer_matrix_deep_partial 1 1 (fun _ _ => 1) (2 : ℚ) (fun i _ => ⟨0, by norm_num, by norm_num⟩)
    (by norm_num)
  exact ⟨C, h1, h2⟩

/-- C32: landmarks 0 and 3 on a path of 5 points: the covering radius is 1, the stored coverage is 0. -/
example : coverage 2 5 (fun l i => ((cyc8 (3 * l) i : ℕ) : ℚ)) = .ok 0 ∧ coverage 2 5 (fun l i => ((cyc8 (3 * l) i : ℕ) : ℚ)) ≠ .ok 1 := by
  have hself : ∀ l < 2, ((cyc8 (3 * l) (3 * l) : ℕ) : ℚ) = 0 := by decide +kernel
  refine ⟨C32_coverage_is_always_zero 2 5 (by norm_num) _ (fun l i => Nat.cast_nonneg _) (fun (l : ℕ) => 3 * l)
    (fun l hl => by omega) hself, fun h => ?_⟩
  have := (C32_coverage_partial 2 5 (by norm_num) _ (fun l i => Nat.cast_nonneg _) (fun (l : ℕ) => 3 * l)
    (fun l hl => by omega) hself (fun (i : ℕ) => if i = 0 ∨ i = 3 then (0 : ℚ) else 1) ?_ 1 ?_).1 h
  · norm_num at this
  · intro i hi
    constructor
    · have key : ∀ i < 5, ∃ l < 2, ((cyc8 (3 * l) i : ℕ) : ℚ) = if i = 0 ∨ i = 3 then 0 else 1 := by decide +kernel
      exact key i hi
    · rintro x ⟨l, hl, rfl⟩
      have key : ∀ i < 5, ∀ l < 2, (if i = 0 ∨ i = 3 then (0 : ℚ) else 1) ≤ ((cyc8 (3 * l) i : ℕ) : ℚ) := by decide +kernel
      exact key i hi l hl
  · refine ⟨⟨1, by norm_num, by norm_num⟩, ?_⟩
    rintro x ⟨i, -, rfl⟩
    split_ifs <;> norm_num

/-- C26: whatever `argsort` does with ties, the essential class comes first. -/
example (argsort : List (Fl ℚ) → List ℕ) (ha : ArgsortSpec argsort) (obj : EMObject ℚ)
    (h : emInit argsort ⟨[[], [(fin 1, fin 2), (fin 1, pinf)]], [1, 0], [[], [[⟨[0, 1], 3⟩], [⟨[1, 0], 5⟩]]], fun _ _ => 0⟩
      true (fun _ _ => 0) 2 7 1 = .ok obj) : obj.dgms[1]? = some [(fin 1, pinf), (fin 1, fin 2)] := by
  have hd : ∀ (q : ℕ) (dgm : List (Fl ℚ × Fl ℚ)), 1 ≤ q → [[], [(fin 1, fin 2), (fin 1, pinf)]][q]? = some dgm →
      ∀ p ∈ dgm, IsDiagramPoint p := by
    intro q dgm hq hdgm p hp
    have : q < 2 := (List.getElem?_eq_some_iff.1 hdgm).1
    obtain rfl : q = 1 := by omega
    have e : dgm = [(fin 1, fin 2), (fin 1, pinf)] := (Option.some.inj hdgm).symm
    subst e
    simp only [List.mem_cons, List.not_mem_nil, or_false] at hp
    rcases hp with rfl | rfl
    · exact ⟨⟨1, rfl⟩, Or.inl ⟨2, rfl⟩⟩
    · exact ⟨⟨1, rfl⟩, Or.inr rfl⟩
  obtain ⟨dgm, coc, dgm', coc', h1, h2, h3, h4, σ, h5, h6, h7, h8⟩ := C26_persistence_order argsort ha _ true _ 2 7 1 hd (by decide) (by decide) (by decide)
    obj h 1 le_rfl le_rfl
  · have e : dgm = [(fin 1, fin 2), (fin 1, pinf)] := (Option.some.inj h1).symm
    subst e
    rw [h3]
    rcases List.perm_pair.1 h5 with rfl | rfl
    · exfalso
      rcases h6 with _ | ⟨a1, _ | ⟨a2, _ | _⟩⟩
      have a1 := Option.some.inj a1
      have a2 := Option.some.inj a2
      subst a1 a2
      rw [List.pairwise_cons] at h8
      exact h8.1 _ (List.mem_singleton.2 rfl) (by unfold LongerLived; decide +kernel)
    · rcases h6 with _ | ⟨a1, _ | ⟨a2, _ | _⟩⟩
      have a1 := Option.some.inj a1
      have a2 := Option.some.inj a2
      subst a1 a2
      rfl

/-- C59 on an object with two classes. -/
example : getRepresentativeCocycle (K := ℚ) [[], [(fin 1, fin 4), (fin 1, fin 2)]] [[], [[10], [20]]] .nonInt 1 =
      .error .assertionError ∧
    getRepresentativeCocycle (K := ℚ) [[], [(fin 1, fin 4), (fin 1, fin 2)]] [[], [[10], [20]]] (.int 2) 1 = .error .indexError ∧
    getRepresentativeCocycle (K := ℚ) [[], [(fin 1, fin 4), (fin 1, fin 2)]] [[], [[10], [20]]] (.int (-2)) 1 =
      .ok (fin 1, fin 4, [10]) ∧
    getRepresentativeCocycle (K := ℚ) [[], [(fin 1, fin 4), (fin 1, fin 2)]] [[], [[10], [20]]] (.int 0) 2 = .error .indexError := by
  obtain ⟨h1, h2, h3⟩ := C59_class_selection (K := ℚ) [[], [(fin 1, fin 4), (fin 1, fin 2)]] [[], [[10], [20]]] 1 _ _ rfl rfl rfl
  exact ⟨h1, h2 2 (Or.inr (by norm_num)), (h3 0 (by norm_num)).2, C59_missing_dimension _ _ 2 (by norm_num) 0⟩

/-- C88 for the other constructors: the objects built from the octagon. -/
example : (∃ o, lensInit idealArgsort (octRipser 2) octInput 3 1 = .ok o ∧ o.nLand = 4 ∧ ProjWellFormed o) ∧
    (∃ o, projInit idealArgsort (octRipser 1) octInput 1 = .ok o ∧ o.prime = 2 ∧ o.nData = 8) ∧
    (∃ o, cpInit idealArgsort (octRipser 2) octInput 4 3 1 = .ok o ∧ o.table = cnsTable 4 3) ∧
    toroInit idealArgsort (octRipser 2) octInput 4 3 0 = .error .assertionError := by
  obtain ⟨o1, a1, -, a2, -, -, -, -, a3⟩ := C88_lens_constructor octInput octInput_describes
    (octRipser_spec 3 2 (by norm_num) (by norm_num)) idealArgsort idealArgsort_spec le_rfl (by norm_num) (fun _ => rfl)
  obtain ⟨o2, b1, b2, -, b3, -⟩ := C88_projective_constructor octInput octInput_describes
    (octRipser_spec 2 1 (by norm_num) (by norm_num)) idealArgsort idealArgsort_spec le_rfl (by norm_num) (fun _ => rfl)
  obtain ⟨o3, c1, -, -, -, -, -, -, -, -, c2⟩ := C88_complex_projective_constructor octInput octInput_describes
    (octRipser_spec 3 2 (by norm_num) (by norm_num)) idealArgsort idealArgsort_spec le_rfl (by norm_num) (by norm_num) (fun _ => rfl)
  exact ⟨⟨o1, a1, a2, a3⟩, ⟨o2, b1, b2, b3⟩, ⟨o3, c1, c2⟩, (C88_maxdim_assertion (octRipser 2) octInput idealArgsort 4 3).1⟩

/-- C31 for a whole call: the octagon with its integer distance matrix. The data point 1 is in the ball of the landmark 0. -/
example (env : Oracles) (fuel : ℕ) : ∃ o, toroInit idealArgsort (octRipser 2) ⟨8, 8, octδ, .int, true⟩ 4 3 1 = .ok o ∧
    octδ 0 1 < 3 / 2 ∧
    (circularGetCoordinates env fuel o (.fin (1 / 2)) (.int 0) bumpLinear false true).2 = .error .valueError := by
  obtain ⟨o, dgm, σ, h1, h2, h3, h4⟩ := C31_integer_matrix_call (x := ⟨8, 8, octδ, .int, true⟩)
    ⟨le_refl _, octInput_describes.metric, fun _ _ _ _ _ => rfl⟩ (octRipser_spec 3 2 (by norm_num) (by norm_num))
    idealArgsort idealArgsort_spec le_rfl (by norm_num) rfl rfl
  have hdgm : dgm = [(.fin 2, .fin 4)] := (Option.some.inj h2).symm
  subst hdgm
  have hσ : σ = [0] := List.perm_singleton.1 h3.1
  subst hσ
  refine ⟨o, h1, by norm_num [octδ, cyc8], ?_⟩
  refine h4 0 0 2 4 rfl rfl env fuel [] (1 / 2) false true (by norm_num) (3 / 2) (by norm_num) ⟨1, by decide, ?_⟩
  intro v hv
  have key : ∀ v ∈ [0, 4, 2, 6], 1 ≤ cyc8 v 1 := by decide
  have : (1 : ℝ) ≤ octδ v 1 := by unfold octδ; exact_mod_cast key v hv
  linarith

end Dreimac
