import Verif.Props.LensProjective
import Verif.Props.EndToEndHolonomyExamples
import Verif.Props.ProjOutcomesExamples

/-!
# Concrete data for C123: the octagon with four landmarks
-/

namespace Dreimac

/-- There are correct eigenvector routines that agree on real matrices. -/
theorem exists_sameEigenvectors : ∃ (eighC : Eigh ℂ) (eighR : Eigh ℝ), EighSpec eighC ∧ EighSpec eighR ∧
    SameEigenvectors eighC eighR := by
  classical
  obtain ⟨eighC, hC⟩ := exists_eighSpec (𝕜 := ℂ)
  obtain ⟨eighR, hR⟩ := exists_eighSpec (𝕜 := ℝ)
  have inj : ∀ {M M' : ℕ → ℕ → Option ℝ}, (fun i j => (M i j).map Complex.ofReal) = (fun i j => (M' i j).map Complex.ofReal) →
      M = M' := by
    intro M M' h
    funext i j
    exact Option.map_injective Complex.ofReal_injective (congrFun (congrFun h i) j)
  let E : Eigh ℂ := fun n G => if h : ∃ M : ℕ → ℕ → Option ℝ, G = fun i j => (M i j).map Complex.ofReal then
    (eighR n h.choose).map fun U i j => (U i j).map Complex.ofReal else eighC n G
  have hE : SameEigenvectors E eighR := by
    intro n M
    have h : ∃ M' : ℕ → ℕ → Option ℝ, (fun i j => (M i j).map Complex.ofReal) = fun i j => (M' i j).map Complex.ofReal := ⟨M, rfl⟩
    show dite _ _ _ = _
    rw [dif_pos h, ← inj h.choose_spec]
  refine ⟨E, eighR, ?_, hR, hE⟩
  intro n G g hG hg
  by_cases h : ∃ M : ℕ → ℕ → Option ℝ, G = fun i j => (M i j).map Complex.ofReal
  · obtain ⟨M, rfl⟩ := h
    have hM : ∀ i < n, ∀ j < n, ∃ m : ℝ, M i j = some m ∧ (m : ℂ) = g i j := by
      intro i hi j hj
      have := hG i hi j hj
      simp only [Option.map_eq_some_iff] at this
      exact this
    have hM' : ∀ i < n, ∀ j < n, M i j = some ((M i j).getD 0) ∧ (((M i j).getD 0 : ℝ) : ℂ) = g i j := by
      intro i hi j hj
      obtain ⟨m, h1, h2⟩ := hM i hi j hj
      rw [h1]; exact ⟨rfl, h2⟩
    obtain ⟨U, u, lam, h1, h2, h3, h4, h5⟩ := hR n M (fun i j => (M i j).getD 0) (fun i hi j hj => (hM' i hi j hj).1) (by
      intro i hi j hj
      have := hg i hi j hj
      rw [← (hM' i hi j hj).2, ← (hM' j hj i hi).2] at this
      have : ((M i j).getD 0 : ℝ) = (M j i).getD 0 := by simpa using this
      simpa using this)
    refine ⟨fun i j => (U i j).map Complex.ofReal, fun i j => (u i j : ℂ), lam, by rw [hE, h1]; rfl, ?_, ?_, ?_, h5⟩
    · intro i hi j hj; beta_reduce; rw [h2 i hi j hj]; rfl
    · intro j hj k hk
      have := h3 j hj k hk
      have := congrArg Complex.ofReal this
      simp only [star_trivial] at this
      push_cast at this
      simp only [RCLike.star_def, Complex.conj_ofReal]
      rw [this]
      split <;> simp
    · intro j hj i hi
      have := congrArg Complex.ofReal (h4 j hj i hi)
      push_cast at this
      simp only [RCLike.ofReal_real_eq_id, id] at this
      refine Eq.trans ?_ this
      refine Finset.sum_congr rfl fun k hk => ?_
      rw [← (hM' i hi k (Finset.mem_range.1 hk)).2]
  · have : E n G = eighC n G := dif_neg h
    rw [this]
    exact hC n G g hG hg

/-- C123 on the octagon: after a failed call, a call with `proj_dim = 1` and a call with `complex_dim = 2`, to one of the
arrays. -/
example : ∃ (eighC : Eigh ℂ) (eighR : Eigh ℝ) (o : ProjObj) (X : Arr ℝ), EighSpec eighC ∧ EighSpec eighR ∧
    lensInit idealArgsort (octRipser 1) octInput 2 1 = .ok o ∧ projInit idealArgsort (octRipser 1) octInput 1 = .ok o ∧
    (projGetCoordinates eighR 2 (projHistory eighR 2 o [⟨.fin (1 / 2), .nonInt, 1, bumpLinear, true, true, .direct⟩])
      ⟨.fin (1 / 2), .int 0, 1, bumpLinear, true, true, .exponential⟩).2 = .ok X ∧
    (lensGetCoordinates eighC 2 (lensHistory eighC 2 o [⟨.fin (1 / 2), .nonInt, 2, bumpLinear, true, true, .direct⟩])
      ⟨.fin (1 / 2), .int 0, 2, bumpLinear, true, true, .exponential⟩).2 = .ok X.toComplex := by
  obtain ⟨eighC, eighR, hC, hR, he⟩ := exists_sameEigenvectors
  obtain ⟨o, h1, h2, h3⟩ := C123_same_calls octInput octInput_describes (octRipser_spec 2 1 (by norm_num) (by norm_num))
    idealArgsort idealArgsort_spec le_rfl (by norm_num) (fun _ => rfl)
  obtain ⟨o', dgm, σ, g1, g2, g3, g4⟩ := C122_projective_outcomes octInput octInput_describes
    (octRipser_spec 2 1 (by norm_num) (by norm_num)) idealArgsort idealArgsort_spec le_rfl (by norm_num) (fun _ => rfl)
  rw [h2] at g1
  injection g1 with g1
  subst g1
  simp only [octRipser] at g2
  simp at g2
  subst g2
  have hσ : σ = [0] := List.perm_singleton.1 g3.1
  subst hσ
  have hx := h3 eighC eighR he 2 [⟨.fin (1 / 2), .nonInt, 1, bumpLinear, true, true, .direct⟩]
    ⟨.fin (1 / 2), .int 0, 1, bumpLinear, true, true, .exponential⟩
  have := g4 eighR [⟨.fin (1 / 2), .nonInt, 1, bumpLinear, true, true, .direct⟩]
    ⟨.fin (1 / 2), .int 0, 1, bumpLinear, true, true, .exponential⟩ 2 (by norm_num)
  generalize hg : (projGetCoordinates eighR 2 (projHistory eighR 2 o [⟨.fin (1 / 2), .nonInt, 1, bumpLinear, true, true, .direct⟩])
      ⟨.fin (1 / 2), .int 0, 1, bumpLinear, true, true, .exponential⟩).2 = R at this
  cases this with
  | returns pt _ _ _ _ X _ _ =>
    refine ⟨eighC, eighR, o, X, hC, hR, h1, h2, hg, ?_⟩
    rw [hg] at hx
    exact hx.1
  | notAnInteger h => cases h
  | outOfRange z h h' =>
    simp only [ClassArg.int.injEq] at h
    subst h
    simp at h'
  | tooShort pt h h' =>
    rw [h.unique (oct_selects 0 (Or.inl rfl))] at h'
    exact absurd h' (oct_long _)
  | unknownMode pt h h' hm => cases hm
  | notReached pt h h' hm => cases hm

/-- C123 on the octagon, with all four dimensions and different reduction modes. -/
example (eighC : Eigh ℂ) (eighR : Eigh ℝ) (hC : EighSpec eighC) (hR : EighSpec eighR) : ∃ o X Y, ∃ (v : ℕ → ℕ → ℂ) (w : ℕ → ℕ → ℝ),
    lensInit idealArgsort (octRipser 1) octInput 2 1 = .ok o ∧
    (lensGetCoordinates eighC 4 o ⟨.fin (1 / 2), .int 0, 4, bumpLinear, false, true, .exponential⟩).2 = .ok X ∧
    (projGetCoordinates eighR 4 o ⟨.fin (1 / 2), .int 0, 3, bumpLinear, false, true, .direct⟩).2 = .ok Y ∧
    (∀ i < 8, ∀ m < 4, X.at' i m = some (v i m) ∧ Y.at' i m = some (w i m)) ∧
    ∀ i < 8, ∀ i' < 8, ∑ m ∈ Finset.range 4, star (v i m) * v i' m = ((∑ m ∈ Finset.range 4, w i m * w i' m : ℝ) : ℂ) := by
  obtain ⟨o, dgm, σ, h1, h2, h5, h7, h8⟩ := C123_same_inner_products octInput octInput_describes
    (octRipser_spec 2 1 (by norm_num) (by norm_num)) idealArgsort idealArgsort_spec le_rfl (by norm_num) (fun _ => rfl)
  simp only [octRipser] at h5
  simp at h5
  subst h5
  have hσ : σ = [0] := List.perm_singleton.1 h7.1
  subst hσ
  obtain ⟨X, Y, v, w, e1, e2, -, -, -, -, e3, e4⟩ := h8 0 0 2 4 rfl rfl eighC eighR hC hR 4 [] [] (1 / 2) false true true bumpLinear
    .exponential .direct le_rfl (by norm_num) positiveBump_linear (by simp) (by simp) (3 / 2) (by norm_num) (oct_covered 1)
  exact ⟨o, X, Y, v, w, h1, e1, e2, e3, e4⟩

end Dreimac
