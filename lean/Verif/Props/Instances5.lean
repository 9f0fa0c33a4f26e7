import Verif.Props.Instances4
import Verif.Props.CoverageExamples
import Verif.Props.PrecisionExamples
import Verif.Props.GeodesicCircularExamples
import Verif.Props.Invariance
import Verif.Props.PpcaSpectral
import Verif.Props.Reduced
import Verif.Props.CheckFlag
import Verif.Props.Float64

/-!
# Worked instances, fifth part
-/

namespace Dreimac

open Fl

/-- C40: a reduced basis comes with a unimodular change of basis. -/
example : ∃ (B' : Matrix (Fin 2) (Fin 2) ℚ) (U : Matrix (Fin 2) (Fin 2) ℤ),
    lll 10 !![1, 3; 0, 1] = some (B', U.map fun z => (z : ℚ)) ∧ (U.det = 1 ∨ U.det = -1) := by
  have hs : (lll 10 (!![1, 3; 0, 1] : Matrix (Fin 2) (Fin 2) ℚ)).isSome = true := by decide +kernel
  obtain ⟨⟨B', C⟩, h⟩ := Option.isSome_iff_exists.1 hs
  obtain ⟨U, rfl, hU, -⟩ := C40_result _ B' C 10 h
  exact ⟨B', U, h, hU⟩

/-- C72: the sample of the eight points on a cycle, with its insertion radii, is the only one. -/
example {p : ℕ → ℕ} {lam : ℕ → ℕ} (h : FarthestPointSample cyc8 8 4 p lam) :
    ∃ dist permAll, landmarkGeodesicDistance 8 cyc8 4 3 = .ok (dist, permAll) ∧ ∀ i < 4, p i = permAll.getD i 0 := by
  obtain ⟨dist, permAll, lam', h1, h2, -⟩ := C72_greedy_geodesic 8 cyc8 4 3 (by norm_num) (by norm_num) (by norm_num) (by norm_num)
  exact ⟨dist, permAll, h1, fun i hi => (C72_sample_unique h h2 i hi).1⟩

/-- C94: reordering the three data points of `basisData`: the rows of the result are reordered. -/
example (eigh : Eigh ℝ) (mode : RedMode) (hm : mode ≠ .other) : ∃ R R', ppca eigh 3 basisData 1 mode = .ok R ∧
    ppca eigh 3 ⟨3, 3, fun n i => basisData.at' ((n + 1) % 3) i⟩ 1 mode = .ok R' ∧ R'.variance = R.variance ∧
    ∀ n < 3, ∀ i, R'.X.at' n i = R.X.at' ((n + 1) % 3) i := by
  obtain ⟨R, hR, h1, h2⟩ := C55_shape_partial eigh basisData 1 (le_refl 1) (by decide) mode hm 3 (by decide)
  obtain ⟨R', hR', h3, -, -, h4⟩ := (C94_ppca_reordering eigh 3 basisData ⟨3, 3, fun n i => basisData.at' ((n + 1) % 3) i⟩
    (fun n => (n + 1) % 3) ⟨fun n _ => Nat.mod_lt _ (by norm_num), fun a ha b hb h => by
      have ha : a < 3 := ha
      have hb : b < 3 := hb
      change (a + 1) % 3 = (b + 1) % 3 at h
      omega, fun n hn => by
      have hn : n < 3 := hn
      exact ⟨(n + 2) % 3, Nat.mod_lt _ (by norm_num), by show ((n + 2) % 3 + 1) % 3 = n; omega⟩⟩ rfl rfl
    (fun n _ i => rfl) 1 mode).2 R hR
  exact ⟨R, R', hR, hR', h3, h4⟩

/-- C95: the octagon in other units, in the constructors of the projective classes. -/
example : ∃ o o' o'', lensInit idealArgsort ((octRipser 2).scale 1000) (octInput.scale 1000) 3 1 = .ok o ∧
    projInit idealArgsort ((octRipser 1).scale 1000) (octInput.scale 1000) 1 = .ok o' ∧
    lensInit idealArgsort (octRipser 2) octInput 3 1 = .ok o'' ∧ o.dist 0 1 = 1000 * o''.dist 0 1 := by
  obtain ⟨o, h1, -⟩ := C88_lens_constructor octInput octInput_describes (octRipser_spec 3 2 (by norm_num) (by norm_num)) idealArgsort
    idealArgsort_spec le_rfl (by norm_num) (fun _ => rfl)
  obtain ⟨o', h1', -⟩ := C88_projective_constructor octInput octInput_describes (octRipser_spec 2 1 (by norm_num) (by norm_num)) idealArgsort
    idealArgsort_spec le_rfl (by norm_num) (fun _ => rfl)
  have a := (C95_projective_constructors 1000 (by norm_num) idealArgsort (idealArgsort_unitFree _ (by norm_num)) (octRipser 2) octInput
    4 3 1).1
  have b := (C95_projective_constructors 1000 (by norm_num) idealArgsort (idealArgsort_unitFree _ (by norm_num)) (octRipser 1) octInput
    4 3 1).2.1
  rw [h1] at a
  rw [h1'] at b
  exact ⟨_, _, o, a, b, h1, rfl⟩

/-- C104, C130 on `basisData`: in the mode `one-by-one` one step from three to two dimensions, and the result is a normalised
projection. -/
example (eigh : Eigh ℝ) (he : EighSpec eigh) : ∃ R, ppca eigh 3 basisData 1 .oneByOne = .ok R ∧
    PrincipalReduction [2] basisData R.X ∧ ∃ R', ppca eigh 3 basisData 1 .exponential = .ok R' ∧
    PrincipalReduction [2] basisData R'.X := by
  obtain ⟨R, hR, h1, h2⟩ := C55_shape_partial eigh basisData 1 (le_refl 1) (by decide) .oneByOne (by simp) 3 (by decide)
  obtain ⟨R', hR', h1', h2'⟩ := C55_shape_partial eigh basisData 1 (le_refl 1) (by decide) .exponential (by simp) 3 (by decide)
  exact ⟨R, hR, C104_one_by_one eigh he 3 basisData 1 (by decide) R hR, R', hR',
    C104_exponential eigh he 3 basisData 1 1 rfl R' hR'⟩

example (eigh : Eigh ℝ) (he : EighSpec eigh) (mode : RedMode) (hm : mode ≠ .other) : ∃ R y v s, ppca eigh 3 basisData 1 mode = .ok R ∧
    IsNormalizedProjection 2 3 3 v (fun n i => if i = (if n = 2 then 1 else 0) then (1 : ℝ) else 0) y s := by
  obtain ⟨R, hR, h1, h2⟩ := C55_shape_partial eigh basisData 1 (le_refl 1) (by decide) mode hm 3 (by decide)
  obtain ⟨-, y, hy, -⟩ := C103_lossless eigh he 3 basisData (fun n i => if i = (if n = 2 then 1 else 0) then 1 else 0)
    (fun n _ i _ => rfl) (by
      intro n hn
      have hn : n < 3 := hn
      show ∑ i ∈ Finset.range 3, _ = _
      interval_cases n <;> norm_num [Finset.sum_range_succ]) 1 (by decide)
    (fun k i => if i = k then 1 else 0) (fun n k => if k = (if n = 2 then 1 else 0) then 1 else 0) (by
      intro n hn i hi
      have hn : n < 3 := hn
      have hi : i < 3 := hi
      interval_cases n <;> interval_cases i <;> norm_num [Finset.sum_range_succ]) mode R hR
  obtain ⟨-, v, s, hv, -⟩ := C130_projection eigh he 3 basisData (fun n i => if i = (if n = 2 then 1 else 0) then 1 else 0)
    (fun n _ i _ => rfl) (by
      intro n hn
      have hn : n < 3 := hn
      show ∑ i ∈ Finset.range 3, _ = _
      interval_cases n <;> norm_num [Finset.sum_range_succ]) 1 (by decide) mode R hR y (fun n hn k hk => hy n hn k (by omega))
  rw [h2] at hv
  exact ⟨R, y, v, s, hR, hv⟩

/-- C118: all coordinates of a call for the octagon that returns are numbers, if the stored radius is `3 / 2`. -/
example (env : Oracles) (fuel : ℕ) (history : List (ℕ × Args)) (a : Args) (ha : PositiveBump a.bump) :
    ∃ o, toroInit idealArgsort (octRipser 2) octInput 4 3 1 = .ok o ∧ ∀ coords,
      (getCoordinates env fuel (afterCalls env o history) a).2 = .ok coords →
      (getCoordinates env fuel (afterCalls env o history) a).1.radius = some (.fin (3 / 2), .fin 3) →
      ∀ θ ∈ coords, ∀ i < 8, ∃ y, θ i = .fin y ∧ 0 ≤ y ∧ y < 2 * Real.pi := by
  obtain ⟨o, h1, h2⟩ := C118_coverage octInput octInput_describes (octRipser_spec 3 2 (by norm_num) (by norm_num)) idealArgsort
    idealArgsort_spec le_rfl (by norm_num) (by norm_num) (fun _ => rfl)
  exact ⟨o, h1, fun coords hc hr => (h2 env fuel history a coords _ _ ha hc hr).2 (Or.inr ⟨oct_farthest 2, oct_groups⟩)⟩

/-- C119: for an interval from 2 to 4 and `perc = 1 / 2` the threshold is before the death in single precision too. -/
example : BelowDeath single 3 4 :=
  C119_threshold_partial (perc := 1 / 2) (start := 2) converts_single (by positivity) (by norm_num) (by norm_num) (by norm_num) (by norm_num)
    (by norm_num) (by norm_num)


end Dreimac
