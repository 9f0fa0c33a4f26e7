import Verif.Props.ClassOrder
import Verif.Props.CircularExamples

/-!
# Example for C117: the two classes of the bipartite graph, in both orders
-/

namespace Dreimac

/-- The call with the classes in the other order returns, too. -/
theorem bip_returns_swapped : ∃ fuel θ₁ θ₂,
    (getCoordinates idealEnv fuel bipObj { bipArgs with cocycleIdxs := [.int 1, .int 0] }).2 = .ok [θ₁, θ₂] := by
  rcases C83_two_classes idealEnv idealCholesky_spec bipObj bipObj_wf bipObj_fieldValued (.int 1) (.int 0) 1 2 1 2 _ _
    bipObj_class1 bipObj_class0 (by norm_num) (1 / 2) false true (by norm_num) bumpLinear positiveBump_linear (3 / 4)
    (by norm_num) (fun _ s _ v _ i j k h => absurd h (bip_no_triangle bipObj_distances i j k)) with
    ⟨-, v, f, hv, hmin, hno⟩ | ⟨fuel, θ₁, θ₂, h⟩
  · exfalso
    have hv' : v = fun i => bipVec (1 - i) := by
      funext i
      have h0 := (hv 0).symm.trans bip_dense1
      have h1 := (hv 1).symm.trans bip_dense0
      fin_cases i
      · injection h0
      · injection h1
    subst hv'
    apply hno
    have hg := bip_gram bipObj_distances (fun i => f (1 - i)) (fun i g => by
      have := hmin idealLsqr_exact (1 - i) g
      simp only [sub_sub_cancel] at this
      exact this)
    have hsw : returnedGram bipObj.nLand bipObj.distLandLand (3 / 4) 1 (fun i e => (bipVec (1 - i)).getD e 0) f =
        (returnedGram 6 bipObj.distLandLand (3 / 4) 1 (fun i e => (bipVec i).getD e 0) (fun i => f (1 - i))).submatrix
          (fun i => 1 - i) (fun i => 1 - i) := by
      ext i j
      simp only [returnedGram, Matrix.submatrix_apply, Matrix.one_apply]
      refine Finset.sum_congr rfl fun l _ => Finset.sum_congr rfl fun s _ => ?_
      simp [sub_sub_cancel]
      rfl
    rw [hsw, hg]
    have : (!![4, 1; 1, 4] : Matrix (Fin 2) (Fin 2) ℝ).submatrix (fun i => 1 - i) (fun i => 1 - i) = !![4, 1; 1, 4] := by
      ext i j; fin_cases i <;> fin_cases j <;> rfl
    rw [this]
    exact bip_cholesky
  · exact ⟨fuel, θ₁, θ₂, (h fuel le_rfl).1⟩

/-- The hypotheses of C117 hold for the two orders, with the first call before the second. -/
example : ∃ (fuel fuel' : ℕ) (θ₁ θ₂ θ₁' θ₂' : ℕ → Fl ℝ) (M : Matrix (Fin 2) (Fin 2) ℤ),
    (getCoordinates idealEnv fuel bipObj bipArgs).2 = .ok [θ₁, θ₂] ∧
    (getCoordinates idealEnv fuel' (afterCalls idealEnv bipObj [(fuel, bipArgs)]) { bipArgs with cocycleIdxs := [.int 1, .int 0] }).2 =
      .ok [θ₁', θ₂'] ∧ (M.det = 1 ∨ M.det = -1) ∧
    ∃ x x' : Fin 2 → ℝ, θ₁ 0 = .fin (x 0) ∧ θ₂ 0 = .fin (x 1) ∧ θ₁' 0 = .fin (x' 0) ∧ θ₂' 0 = .fin (x' 1) ∧
      ∀ i, SameAngle (x' i) (∑ j, M i j * x j) := by
  obtain ⟨fuel, θ₁, θ₂, G', hok, hr, -⟩ := bipObj_call
  obtain ⟨fuel', θ₁', θ₂', hok'⟩ := bip_returns_swapped
  have hok'' := (C08_repeatable idealEnv bipObj bipObj_fieldValued [(fuel, bipArgs)] fuel'
    { bipArgs with cocycleIdxs := [.int 1, .int 0] }).1.trans hok'
  obtain ⟨-, m, out, out', M, h1, h2, hdet, hM⟩ := C117_order_of_classes (a := bipArgs) bipObj_wf bipObj_fieldValued positiveBump_linear
    (fun sel hsel s hs => by
      have h0 : [ClassArg.int 0, .int 1].mapM (repr1 bipObj) = .ok [(.fin 1, .fin 2, _), (.fin 1, .fin 2, _)] := rfl
      have := h0.symm.trans hsel
      injection this with this
      subst this
      rcases List.mem_cons.1 hs with rfl | hs
      · simp
      · rcases List.mem_cons.1 hs with rfl | hs
        · simp
        · cases hs)
    [(fuel, bipArgs)] [.int 1, .int 0] (List.Perm.swap _ _ _) hok hok'' hr
  have hm : m = 2 := by have := congrArg List.length h1; simpa using this.symm
  subst hm
  simp only [List.ofFn_succ, List.ofFn_zero, List.cons.injEq, and_true] at h1 h2
  obtain ⟨x, x', hx, hx', hxx⟩ := hM 0 ⟨0, by decide, by
    show bipObj.dist 0 0 < 3 / 4
    have : bipObj.dist 0 0 = 0 := by simp [bipObj, bipDist]
    rw [this]; norm_num⟩
  refine ⟨fuel, fuel', θ₁, θ₂, θ₁', θ₂', M, hok, hok'', hdet, x, x', ?_, ?_, ?_, ?_, hxx⟩
  · rw [h1.1]; exact hx 0
  · rw [h1.2]; exact hx 1
  · rw [h2.1]; exact hx' 0
  · rw [h2.2]; exact hx' 1

end Dreimac
