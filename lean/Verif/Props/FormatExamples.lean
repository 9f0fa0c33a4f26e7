import Verif.Props.Format
import Verif.Props.ContinuityExamples

/-!
# C128: a concrete instance
-/

namespace Dreimac

noncomputable section

/-- An array of 8 points (rows) with two columns, passed as a point cloud. (Only ripser reads the entries; here it is assumed to
find the distances `octδ`.) -/
def octCloud : DataInput := ⟨8, 2, fun _ _ => 0, .float, false⟩

theorem octCloud_describes : DescribesData octCloud octδ where
  rows := le_refl _
  metric := octInput_describes.metric
  entries := fun h => by simp [octCloud] at h

/-- C128: the same object for the point cloud and for the distance matrix of the octagon. -/
example : ∃ o, toroInit idealArgsort (octRipser 2) octInput 4 3 1 = .ok o ∧ toroInit idealArgsort (octRipser 2) octCloud 4 3 1 = .ok o :=
  (C128_same_object octInput octCloud octInput_describes octCloud_describes rfl rfl (octRipser_spec 3 2 (by norm_num) (by norm_num))
    (octRipser_spec 3 2 (by norm_num) (by norm_num)) ⟨rfl, rfl, rfl⟩ idealArgsort idealArgsort_spec le_rfl (by norm_num) (fun _ => rfl)
    (fun _ => rfl) 4).1

/-- Ripser's result for a square array has a table of distances of another shape than for the rectangular one. -/
def octRipserCut (a : ℤ) : RipserResult ℝ := { octRipser a with dperm2all := fun l i => if i < 8 then (octRipser a).dperm2all l i else .nan }

theorem octRipserCut_spec (p a : ℤ) (h0 : 0 ≤ a) (hp : a < p) : RipserSpec id 8 4 octδ p 1 (octRipserCut a) where
  count := (octRipser_spec p a h0 hp).count
  nodup := (octRipser_spec p a h0 hp).nodup
  range := (octRipser_spec p a h0 hp).range
  dists l hl i hi := by
    show (if i < 8 then _ else _) = _
    rw [if_pos hi]
    exact (octRipser_spec p a h0 hp).dists l hl i hi
  dims := (octRipser_spec p a h0 hp).dims
  classes := (octRipser_spec p a h0 hp).classes
  intervals := (octRipser_spec p a h0 hp).intervals
  simplices := (octRipser_spec p a h0 hp).simplices
  cocycles := (octRipser_spec p a h0 hp).cocycles

theorem octInput_describes_nona : DescribesData octInput nonaδ where
  rows := le_refl _
  metric := addPoints_table (by norm_num) le_rfl (by norm_num) octInput_describes.metric
  entries := fun _ _ _ _ hi => (addPoints_old hi).symm

/-- C128: the eight points of the octagon have the same coordinates with and without a ninth data point; there are such
coordinates. -/
example (fuel : ℕ) : ∃ o o' θ θ', toroInit idealArgsort (octRipserCut 2) octInput 4 3 1 = .ok o ∧
    toroInit idealArgsort (octRipser 2) nonaInput 4 3 1 = .ok o' ∧
    (getCoordinates idealEnv fuel o ⟨.fin (1 / 2), [.int 0], bumpLinear, false, true⟩).2 = .ok θ ∧
    (getCoordinates idealEnv fuel o' ⟨.fin (1 / 2), [.int 0], bumpLinear, false, true⟩).2 = .ok θ' ∧ θ'.length = θ.length ∧
    ∀ j, ∀ i < 8, (θ'.getD j fun _ => 0) i = (θ.getD j fun _ => 0) i := by
  obtain ⟨o, o', h1, h1', h2⟩ := C128_more_points octInput nonaInput octInput_describes_nona nonaInput_describes rfl (show 8 ≤ 9 by norm_num)
    ((octRipserCut_spec 3 2 (by norm_num) (by norm_num)).congr fun _ _ _ hv => addPoints_old hv) (nonaRipser_spec 3 2 (by norm_num) (by norm_num))
    ⟨rfl, rfl, rfl⟩ idealArgsort idealArgsort_spec le_rfl (by norm_num) (by norm_num) (fun _ => rfl) (fun _ => rfl)
  obtain ⟨-, h3⟩ := h2 idealEnv fuel [] [] ⟨.fin (1 / 2), [.int 0], bumpLinear, false, true⟩
  obtain ⟨o₁, dgm, coc, σ, g1, g5, g6, g7, g8⟩ := C89_circular_coordinates octInput octInput_describes
    (octRipserCut_spec 3 2 (by norm_num) (by norm_num)) idealArgsort idealArgsort_spec le_rfl (by norm_num) (by norm_num) (fun _ => rfl)
    (by norm_num)
  rw [h1] at g1
  injection g1 with g1
  subst g1
  simp only [octRipserCut, octRipser] at g5 g6
  simp at g5 g6
  subst g5 g6
  have hσ : σ = [0] := List.perm_singleton.1 g7.1
  subst hσ
  obtain ⟨ξ, hξ, g9⟩ := g8 0 0 2 4 _ rfl rfl rfl
  obtain rfl := hξ.unique (octξ_lists 2)
  obtain ⟨g10, -⟩ := g9 idealEnv (1 / 10) (1 / 10) (by norm_num) (by norm_num) idealMilp_sound idealMilp_complete fuel []
    (1 / 2) false bumpLinear (by norm_num) positiveBump_linear (3 / 2) (by norm_num) (belowDeath_id.2 (by norm_num))
  rw [show (2 : ℝ) * (3 / 2) = 3 by norm_num] at g10
  obtain ⟨θ, w, c, f, e1, -⟩ := g10 ⟨_, octξ_lift⟩
  have hok : ∃ θ, (getCoordinates idealEnv fuel o ⟨.fin (1 / 2), [.int 0], bumpLinear, false, true⟩).2 = .ok θ := by
    unfold circularGetCoordinates afterCalls at e1
    simp only [List.foldl_nil] at e1
    rcases h : (getCoordinates idealEnv fuel o ⟨.fin (1 / 2), [.int 0], bumpLinear, false, true⟩).2 with e | θs
    · rw [show ClassArg.int ((0 : ℕ) : ℤ) = ClassArg.int 0 from rfl, h] at e1
      simp [bind, Except.bind] at e1
    · exact ⟨θs, rfl⟩
  obtain ⟨θs, hθ⟩ := hok
  obtain ⟨θs', e2, e3, e4⟩ := h3 θs hθ
  exact ⟨o, o', θs, θs', h1, h1', hθ, e2, e3, e4⟩

end

end Dreimac
