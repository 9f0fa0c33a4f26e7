import Mathlib.Topology.Instances.Real.Lemmas
import Mathlib.Topology.Order.Lattice
import Mathlib.Topology.Algebra.Field
import Mathlib.Topology.Algebra.Order.Group
import Verif.Model.Plotting
import Verif.Props.ProjUtils

/-!
# C110: the arrows in the plots show how the boundary circles are glued
-/

namespace Dreimac

open Real Filter Topology

noncomputable section

/-- **C110 (sphere).** `stereographic_projection_hemispheres` (any dimension `d ≥ 2` and any centre, with pole `w`) at a point `x` of
the equator: there is a point `v` of the unit circle such that `x` goes to `v` in the second disk (whose centre is at 2.5 on the
first axis), points of the upper hemisphere that converge to `x` have images that converge to the same point of the second disk,
and points of the lower hemisphere that converge to `x` have images that converge to `v` in the first disk: leaving the first
disk at `v` is entering the second disk at `v + 2.5`. -/
theorem C110_glueing (d : ℕ) (hd : 2 ≤ d) (center : Option (ℕ → ℝ)) (hc : NonzeroVec d (center.getD (lastVec d))) :
    ∃ w, IsPole d (center.getD (lastVec d)) w ∧ ∀ x, UnitVec d x → dotP d w x = 0 →
      ∃ v : ℕ → ℝ, ∑ k ∈ Finset.range (d - 1), v k ^ 2 = 1 ∧
        (∀ k < d - 1, stereographicProjectionHemispheres d center x k = v k + if k = 0 then 2.5 else 0) ∧
        (∀ k < d - 1, Tendsto (fun y => stereographicProjectionHemispheres d center y k) (𝓝[{y | 0 ≤ dotP d w y}] x)
          (𝓝 (v k + if k = 0 then 2.5 else 0))) ∧
        (∀ k < d - 1, Tendsto (fun y => stereographicProjectionHemispheres d center y k) (𝓝[{y | dotP d w y < 0}] x)
          (𝓝 (v k))) := by
  have hd0 : 0 < d := by omega
  set u := center.getD (lastVec d) with hu
  have hR : RotIso d (rotmat d u none) := rotmat_iso hd0 hc (lastVec_nonzero hd0)
  have hRe : rotmat d u none = rotmat d (center.getD (northPole d)) none := by rw [northPole_eq hd0]
  have hH := fun x k (hk : k < d - 1) => hemi_eq center x (rotmat d u none) hRe k hk
  have hpole := rotmat_pole hd0 hc
  set R := rotmat d u none
  refine ⟨R (d - 1), hpole, fun x hx h0 => ?_⟩
  have h0' : mulV d R x (d - 1) = 0 := h0
  have hcont : ∀ k, Continuous fun y : ℕ → ℝ => mulV d R y k := by
    intro k
    unfold mulV dotP
    exact continuous_finsetSum _ fun i _ => continuous_const.mul (continuous_apply i)
  have hP : ∀ k, Continuous fun y : ℕ → ℝ => mulV d R y k / (1 + |mulV d R y (d - 1)|) := by
    intro k
    exact (hcont k).div (continuous_const.add (hcont (d - 1)).abs) fun y => by positivity
  have hval : ∀ k, mulV d R x k / (1 + |mulV d R x (d - 1)|) = mulV d R x k := by
    intro k; rw [h0']; simp
  refine ⟨fun k => mulV d R x k, ?_, fun k hk => ?_, fun k hk => ?_, fun k hk => ?_⟩
  · have h1 := sq_split hd0 (mulV d R x)
    rw [h1, h0', hR.iso x]
    have : dotP d x x = 1 := hx
    rw [this]; norm_num
  · rw [hH x k hk, hval, h0', if_neg (lt_irrefl _)]
    by_cases h : k = 0 <;> simp [h]; norm_num
  · have h1 : Tendsto (fun y => mulV d R y k / (1 + |mulV d R y (d - 1)|) + if k = 0 then (2.5 : ℝ) else 0)
        (𝓝[{y | 0 ≤ dotP d (R (d - 1)) y}] x) (𝓝 (mulV d R x k + if k = 0 then 2.5 else 0)) := by
      have := ((hP k).tendsto x).mono_left (nhdsWithin_le_nhds (s := {y | 0 ≤ dotP d (R (d - 1)) y}))
      rw [hval] at this
      exact this.add_const _
    refine h1.congr' ?_
    filter_upwards [self_mem_nhdsWithin] with y hy
    rw [hH y k hk, if_neg (show ¬ mulV d R y (d - 1) < 0 from not_lt.2 hy)]
    by_cases h : k = 0 <;> simp [h]; norm_num
  · have h1 := ((hP k).tendsto x).mono_left (nhdsWithin_le_nhds (s := {y | dotP d (R (d - 1)) y < 0}))
    rw [hval] at h1
    refine h1.congr' ?_
    filter_upwards [self_mem_nhdsWithin] with y hy
    rw [hH y k hk, if_pos (show mulV d R y (d - 1) < 0 from hy), add_zero]

theorem sq_eq_one_or {a : ℝ} (h : a ^ 2 = 1) : a = 1 ∨ a = -1 := by
  have : (a - 1) * (a + 1) = 0 := by linear_combination h
  rcases mul_eq_zero.1 this with h | h
  · left; linarith
  · right; linarith

/-- **C110 (sphere, arrows).** The arrows of `plot_2sphere_boundary` are, for the four points `v = (a, b)` of the unit circle on
the axes: one arrow of the first disk at `0.9 v` pointing outwards and one of the second disk at `1.1 v` (relative to its centre)
pointing inwards, so they show the glueing of `C110_glueing`. -/
theorem C110_sphere_arrows (A : Arrow) :
    A ∈ sphereArrows ↔ ∃ a b : ℝ, a ^ 2 + b ^ 2 = 1 ∧ a * b = 0 ∧
      (A = ⟨0.9 * a, 0.9 * b, 0.001 * a, 0.001 * b⟩ ∨ A = ⟨2.5 + 1.1 * a, 1.1 * b, -(0.001 * a), -(0.001 * b)⟩) := by
  constructor
  · intro h
    simp only [sphereArrows, List.mem_cons, List.not_mem_nil, or_false] at h
    rcases h with rfl | rfl | rfl | rfl | rfl | rfl | rfl | rfl
    · exact ⟨0, 1, by norm_num, by norm_num, Or.inl (by norm_num)⟩
    · exact ⟨0, 1, by norm_num, by norm_num, Or.inr (by norm_num)⟩
    · exact ⟨0, -1, by norm_num, by norm_num, Or.inl (by norm_num)⟩
    · exact ⟨0, -1, by norm_num, by norm_num, Or.inr (by norm_num)⟩
    · exact ⟨1, 0, by norm_num, by norm_num, Or.inl (by norm_num)⟩
    · exact ⟨1, 0, by norm_num, by norm_num, Or.inr (by norm_num)⟩
    · exact ⟨-1, 0, by norm_num, by norm_num, Or.inl (by norm_num)⟩
    · exact ⟨-1, 0, by norm_num, by norm_num, Or.inr (by norm_num)⟩
  · rintro ⟨a, b, h1, h2, h3⟩
    have h4 : (a = 1 ∨ a = -1) ∧ b = 0 ∨ a = 0 ∧ (b = 1 ∨ b = -1) := by
      rcases mul_eq_zero.1 h2 with rfl | rfl
      · right
        exact ⟨rfl, sq_eq_one_or (by linarith)⟩
      · left
        exact ⟨sq_eq_one_or (by linarith), rfl⟩
    simp only [sphereArrows, List.mem_cons, List.not_mem_nil, or_false]
    rcases h4 with ⟨rfl | rfl, rfl⟩ | ⟨rfl, rfl | rfl⟩ <;> rcases h3 with rfl | rfl <;> norm_num

/-- **C110 (projective plane).** The curve of `plot_proj_boundary` and `plot_rp2_stereo` is closed and on the unit circle; its
arrows are a pair of antipodal arrows, as antipodal points of the circle are the same point of the projective plane (C66): with
every arrow the arrow rotated by half a turn is drawn. -/
theorem C110_projective_arrows :
    (∀ k, (projBoundary k).1 ^ 2 + (projBoundary k).2 ^ 2 = 1) ∧ projBoundary 0 = projBoundary 199 ∧
      (∀ A ∈ projArrows, (⟨-A.x, -A.y, -A.dx, -A.dy⟩ : Arrow) ∈ projArrows) ∧
      ∀ A ∈ projArrows, A.y ^ 2 = 1 ∧ A.dy = 0 ∧ A.x * A.dx < 0 := by
  refine ⟨fun k => cos_sq_add_sin_sq _, ?_, ?_, ?_⟩
  · unfold projBoundary
    have : (0 : ℝ) + ((199 : ℕ) : ℝ) * ((2 * π - 0) / (200 - 1)) = 2 * π := by push_cast; ring
    simp only [this]
    simp
  · intro A hA
    simp only [projArrows, List.mem_cons, List.not_mem_nil, or_false] at hA ⊢
    rcases hA with rfl | rfl <;> norm_num
  · intro A hA
    simp only [projArrows, List.mem_cons, List.not_mem_nil, or_false] at hA
    rcases hA with rfl | rfl <;> norm_num

/-- The default centre on the sphere: an equatorial point. -/
example : ∃ w, IsPole 3 (lastVec 3) w ∧ UnitVec 3 (fun k => if k = 0 then 1 else 0) ∧
    dotP 3 w (fun k => if k = 0 then 1 else 0) = 0 := by
  obtain ⟨w, hw, -⟩ := C110_glueing 3 (by norm_num) none (lastVec_nonzero (by norm_num))
  have h1 : distToLine 3 (direction 3 (lastVec 3)) (lastVec 3) < 1 / 10 ^ 15 := by
    rw [direction_lastVec (by norm_num)]
    have : distToLine 3 (lastVec 3) (lastVec 3) = 0 := by
      simp [distToLine, dotP, lastVec, Finset.sum_range_succ]
    rw [this]; norm_num
  have h2 := hw.2.2 h1
  refine ⟨w, hw, by simp [UnitVec, dotP, Finset.sum_range_succ], ?_⟩
  have := h2 0 (by norm_num)
  simp [dotP, Finset.sum_range_succ, this, lastVec]

end

end Dreimac
