import Mathlib.Algebra.BigOperators.Field
import Mathlib.Tactic.Linarith
import Mathlib.Tactic.Ring
import Verif.Spec.Circular
import Verif.Lemmas.Cech

/-! # Consequences of the coordinate formula (no reference to the model) -/

namespace Dreimac

open Real

variable {L : ℕ} {dist dll : ℕ → ℕ → ℝ} {r : ℝ} {w : ℕ → ℕ → ℝ} {c : ℕ → ℤ} {f : ℕ → ℝ} {θ : ℕ → Fl ℝ}

theorem ripsRel_of_balls (ht : LandmarkTriangle L dist dll) {l m i : ℕ} (hl : InBall L dist r l i)
    (hm : InBall L dist r m i) : RipsRel L dll (2 * r) l m := by
  rcases lt_trichotomy l m with h | h | h
  · right; left
    exact ⟨h, hm.1, by have := ht l m i hl.1 hm.1; linarith [hl.2, hm.2]⟩
  · exact Or.inl h
  · right; right
    exact ⟨h, hl.1, by have := ht m l i hm.1 hl.1; linarith [hl.2, hm.2]⟩

theorem IsPartitionOfUnity.zero (hw : IsPartitionOfUnity L dist r w) {l i : ℕ} (hi : ∃ m, InBall L dist r m i)
    (h : ¬ dist l i < r) : w l i = 0 := by
  have h1 := hw.nonneg l i hi
  have h2 := (hw.support l i hi).not.2 h
  linarith

/-- With the triangle inequality the formula is the weighted mean. -/
theorem coordFormula_eq_gluedLift (ht : LandmarkTriangle L dist dll) (hw : IsPartitionOfUnity L dist r w) {l i : ℕ}
    (hl : InBall L dist r l i) : coordFormula L dll r w c f l i = gluedLift L w c f l i := by
  have hi : ∃ m, InBall L dist r m i := ⟨l, hl⟩
  unfold coordFormula gluedLift
  have key : ∀ m ∈ Finset.range L, ripsForm L dll r c f l m * w m i =
      (f m + edgeVal c l m) * w m i - f l * w m i := by
    intro m hm
    by_cases hd : dist m i < r
    · rw [ripsForm, if_pos (ripsRel_of_balls ht hl ⟨Finset.mem_range.1 hm, hd⟩)]; ring
    · rw [hw.zero hi hd]; ring
  rw [Finset.sum_congr rfl key, Finset.sum_sub_distrib, ← Finset.mul_sum, hw.sum_one i hi]
  ring

theorem gluedLift_sub (ht : LandmarkTriangle L dist dll) (hw : IsPartitionOfUnity L dist r w)
    (hc : IsCocycle1 L dll (2 * r) c) {l m i : ℕ} (hl : InBall L dist r l i) (hm : InBall L dist r m i) :
    gluedLift L w c f l i - gluedLift L w c f m i = (edgeVal c l m : ℤ) := by
  have hi : ∃ m, InBall L dist r m i := ⟨l, hl⟩
  unfold gluedLift
  rw [← Finset.sum_sub_distrib]
  have key : ∀ s ∈ Finset.range L, (f s + edgeVal c l s) * w s i - (f s + edgeVal c m s) * w s i =
      ((edgeVal c l m : ℤ) : ℝ) * w s i := by
    intro s hs
    by_cases hd : dist s i < r
    · have hs' : InBall L dist r s i := ⟨Finset.mem_range.1 hs, hd⟩
      have := edgeVal_cocycle hc (ripsRel_of_balls ht hl hm) (ripsRel_of_balls ht hm hs') (ripsRel_of_balls ht hl hs')
      rw [← this]; push_cast; ring
    · rw [hw.zero hi hd]; ring
  rw [Finset.sum_congr rfl key, ← Finset.mul_sum, hw.sum_one i hi, mul_one]

theorem exists_firstBall {i : ℕ} (hi : ∃ m, InBall L dist r m i) : ∃ b, FirstBall L dist r i b := by
  classical
  exact ⟨Nat.find hi, Nat.find_spec hi, fun l hl => Nat.find_min hi hl⟩

theorem sameAngle_two_pi_mul {x y : ℝ} (z : ℤ) (h : x - y = z) : SameAngle (2 * π * x) (2 * π * y) :=
  ⟨z, by rw [← h]; ring⟩

theorem IsAngle.congr {v : Fl ℝ} {x y : ℝ} (h : IsAngle v x) (z : ℤ) (hxy : x - y = z) : IsAngle v y := by
  obtain ⟨u, h1, h2, h3, h4⟩ := h
  exact ⟨u, h1, h2, h3, h4.trans (sameAngle_two_pi_mul z hxy)⟩

/-- The coordinate is the angle of the lift over every ball containing the point. -/
theorem IsCircleCoordinate.every_ball (h : IsCircleCoordinate L dist dll r w c f θ) (ht : LandmarkTriangle L dist dll)
    (hw : IsPartitionOfUnity L dist r w) (hc : IsCocycle1 L dll (2 * r) c) {l i : ℕ} (hl : InBall L dist r l i) :
    IsAngle (θ i) (gluedLift L w c f l i) := by
  obtain ⟨b, hb⟩ := exists_firstBall ⟨l, hl⟩
  have := h.covered i b hb
  rw [coordFormula_eq_gluedLift ht hw hb.1] at this
  exact this.congr _ (gluedLift_sub ht hw hc hb.1 hl)

/-! ### energy -/

theorem formEnergy_mid (a f g : ℕ → ℝ) :
    formEnergy L dll r a (fun l => (f l + g l) / 2) + formEnergy L dll r (fun _ => 0) (fun l => (f l - g l) / 2) =
      (formEnergy L dll r a f + formEnergy L dll r a g) / 2 := by
  unfold formEnergy
  rw [← Finset.sum_add_distrib, ← Finset.sum_add_distrib, Finset.sum_div]
  apply Finset.sum_congr rfl; intro l _
  rw [← Finset.sum_add_distrib, ← Finset.sum_add_distrib, Finset.sum_div]
  apply Finset.sum_congr rfl; intro m _
  split
  · ring
  · ring

theorem formEnergy_zero_iff (g : ℕ → ℝ) (h : formEnergy L dll r (fun _ => 0) g ≤ 0) {l m : ℕ}
    (he : RipsEdge L dll (2 * r) l m) : g l = g m := by
  classical
  unfold formEnergy at h
  have hnn : ∀ l ∈ Finset.range L, 0 ≤ ∑ m ∈ Finset.range L,
      (if RipsEdge L dll (2 * r) l m then ((0 : ℝ) - (g l - g m)) ^ 2 else 0) := by
    intro l _
    apply Finset.sum_nonneg; intro m _
    split
    · positivity
    · exact le_refl _
  have h0 := le_antisymm h (Finset.sum_nonneg hnn)
  rw [Finset.sum_eq_zero_iff_of_nonneg hnn] at h0
  have h1 := h0 l (Finset.mem_range.2 (he.1.trans he.2.1))
  rw [Finset.sum_eq_zero_iff_of_nonneg] at h1
  · have h2 := h1 m (Finset.mem_range.2 he.2.1)
    rw [if_pos he] at h2
    have := pow_eq_zero_iff (two_ne_zero) |>.1 h2
    linarith
  · intro m _
    split
    · positivity
    · exact le_refl _

/-- Two minimisers of the energy of cohomologous cochains differ by a function that is constant along edges. -/
theorem minimisers (c c' f f' g : ℕ → ℝ) (hcc : ∀ l m, RipsEdge L dll (2 * r) l m →
      c' (edgeIdx l m) = c (edgeIdx l m) + (g l - g m))
    (hf : ∀ x, formEnergy L dll r c f ≤ formEnergy L dll r c x)
    (hf' : ∀ x, formEnergy L dll r c' f' ≤ formEnergy L dll r c' x) {l m : ℕ} (he : RipsEdge L dll (2 * r) l m) :
    f' l - g l - f l = f' m - g m - f m := by
  have hshift : ∀ x : ℕ → ℝ, formEnergy L dll r c' (fun l => x l + g l) = formEnergy L dll r c x := by
    intro x
    unfold formEnergy
    apply Finset.sum_congr rfl; intro l _
    apply Finset.sum_congr rfl; intro m _
    split
    · next h => rw [hcc l m h]; ring
    · rfl
  have h1 : formEnergy L dll r c (fun l => f' l - g l) ≤ formEnergy L dll r c f := by
    have := hf' (fun l => f l + g l)
    rw [hshift] at this
    rw [← hshift (fun l => f' l - g l)]
    simpa using this
  have hmid := formEnergy_mid (L := L) (dll := dll) (r := r) c f (fun l => f' l - g l)
  have h2 := hf (fun l => (f l + (f' l - g l)) / 2)
  have := formEnergy_zero_iff (L := L) (dll := dll) (r := r) (fun l => (f l - (f' l - g l)) / 2) (by linarith) he
  linarith

end Dreimac
