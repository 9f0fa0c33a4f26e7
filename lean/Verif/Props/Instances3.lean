import Verif.Props.RepairExamples
import Verif.Props.CircleMap
import Verif.Props.ClassMap2
import Verif.Props.ProjUtils
import Verif.Props.LensUtils
import Verif.Props.Metrics
import Verif.Props.Geometry
import Verif.Props.Samples
import Verif.Props.Examples
import Verif.Props.Plotting
import Verif.Props.LLL
import Verif.Props.Ppca
import Mathlib.Tactic.NormNum
import Mathlib.Tactic.IntervalCases
import Mathlib.Tactic.FinCases

/-!
# Worked instances, third part

Each theorem is applied to concrete data that meet its hypotheses, and the conclusion is read off.
-/

namespace Dreimac

open Real Matrix

/-! ### repairs -/

/-- C19: the 1-cochain of the triangle modulo 3 is repaired to an integral lift. -/
example (M : SparseMat) (hM : makeDelta1Compact 3 (fun _ _ => (1 : ℕ)) 2 (cnsTable 3 2) = .ok M) (c' : ℕ → ℤ)
    (h : repairWith (idealMilp : Milp ℚ) M 3 exampleCochain = some c') :
    IntegralLift1 3 3 (fun _ _ => (1 : ℕ)) 2 exampleCochain c' :=
  C19_repaired_one_cochain 3 3 2 le_rfl le_rfl (by norm_num) (fun _ _ => (1 : ℕ)) 2 M hM idealMilp (1 / 10) (1 / 10)
    (by norm_num) (by norm_num) idealMilp_sound 3 (by norm_num) exampleCochain c' exampleCochain_mod h

/-- C19: the 2-cochain of the tetrahedron modulo 3. -/
example (M : SparseMat) (hM : makeDelta2Compact 4 (fun _ _ => (1 : ℕ)) 2 (cnsTable 4 3) = .ok M) (c' : ℕ → ℤ)
    (h : repairWith (idealMilp : Milp ℚ) M 3 exampleCochain2 = some c') :
    IntegralLift2 3 4 (fun _ _ => (1 : ℕ)) 2 exampleCochain2 c' :=
  C19_repaired_two_cochain 4 4 3 le_rfl le_rfl (by norm_num) (fun _ _ => (1 : ℕ)) 2 tet4_count M hM idealMilp (1 / 10) (1 / 10)
    (by norm_num) (by norm_num) idealMilp_sound 3 (by norm_num) exampleCochain2 c' exampleCochain2_mod h

/-- C23: the class of the projective plane, asked for after a class that needs no repair. -/
example : checkAndRepair (idealMilp : Milp ℝ) 15 rpObj.distLandLand (2 * (3 / 4 : ℝ)) (cnsTable 15 2) 2 true
    ([fun _ => 0] ++ (fun e => rpVec.getD e 0) :: [fun _ => 0]) = .error (.noIntegralLift 1) :=
  C23_error_position_partial 15 15 2 (by norm_num) (by norm_num) (by norm_num) rpObj.distLandLand _ idealMilp (1 / 10) (1 / 10)
    (by norm_num) (by norm_num) idealMilp_sound idealMilp_complete 2 (by norm_num) [fun _ => 0] [fun _ => 0] _
    (by intro x hx; simp only [List.mem_singleton] at hx; subst hx; intro i j k _; rfl)
    (by intro x hx; simp only [List.mem_singleton] at hx; subst hx; intro i j k _; rfl) rp_cocycle rp_no_lift

/-! ### calls on the octagon -/

/-- C09: after any calls the octagon's only entry is still between -1 and 2. -/
example (history : List (ℕ × Args)) : ∀ ck ∈ (afterCalls idealEnv octObj history).cocycles, ∀ c ∈ ck, ∀ r ∈ c,
    -1 ≤ r.val ∧ r.val ≤ 2 := by
  intro ck h c hc r hr
  have := C09_values_bounded_partial idealEnv octObj octObj_fieldValued history ck h c hc r hr
  have h3 : octObj.prime = 3 := rfl
  rw [h3] at this
  omega

/-- C29: on the octagon every data point is covered at radius 3/2; at index 2 the landmark itself is. -/
example (fuel : ℕ) : ∃ θ, (getCoordinates idealEnv fuel octObj octArgs).2 = .ok [θ] ∧ θ 2 ≠ .nan := by
  obtain ⟨θ, h1, h2⟩ := octObj_call fuel
  refine ⟨θ, h1, fun h => (C29_coordinates octObj_wf octObj_fieldValued positiveBump_linear h1 h2 θ (by simp) 2).1 h
    ⟨1, by decide, ?_⟩⟩
  show ((octDist _ _ : ℕ) : ℝ) < _
  norm_num [octDist]

/-- C35: the coordinate of the octagon represents its class. -/
example (fuel : ℕ) : ∃ θ : ℕ → Fl ℝ, (getCoordinates idealEnv fuel octObj octArgs).2 = .ok [θ] ∧
    ∃ (m : ℕ) (w : ℕ → ℕ → ℝ) (c : Fin m → ℕ → ℤ) (U : Matrix (Fin m) (Fin m) ℤ) (f : Fin m → ℕ → ℝ)
      (ϑ : Fin m → ℕ → Fl ℝ), CoordinateData idealEnv octObj octArgs (3 / 2) m w c f U ϑ ∧ [θ] = List.ofFn ϑ := by
  obtain ⟨θ, h1, h2⟩ := octObj_call fuel
  obtain ⟨m, w, c, U, f, ϑ, h, h', -⟩ := C35_represents_classes octObj_wf octObj_fieldValued positiveBump_linear h1 h2
    octObj_stored octObj_checked octObj_triangle
  exact ⟨θ, h1, m, w, c, U, f, ϑ, h, h'⟩

/-- C38: a second representative of the octagon's class: the edge from landmark 3 to landmark 0 is replaced by the edge from
2 to 3 (the difference is the coboundary of the indicator of landmark 3). -/
def octCocycles' : List (List SparseCochain) := [[], [[⟨[2, 3], 2⟩]]]

theorem octObj'_wf : WellFormed { octObj with cocycles := octCocycles' } :=
  ⟨rfl, ⟨8, 2, by decide, by decide, rfl⟩, by decide, by decide, fun _ _ => Nat.cast_nonneg _⟩

theorem octObj'_fieldValued : FieldValued octObj.prime octCocycles' := by
  have : ∀ ck ∈ octCocycles', ∀ c ∈ ck, ∀ r ∈ c, 0 ≤ r.val ∧ r.val < 3 := by decide
  exact this

theorem octObj'_class : ValidClass { octObj with cocycles := octCocycles' } (.int 0) 2 4 [⟨[2, 3], 2⟩] where
  stored := rfl
  edges := by
    intro r hr
    simp only [List.mem_cons, List.not_mem_nil, or_false] at hr
    subst hr
    refine ⟨rfl, by decide, by intro v hv; simp only [List.mem_cons, List.not_mem_nil, or_false] at hv; rcases hv with rfl | rfl <;> decide⟩
  distinct := by simp
  alive := by norm_num

theorem oct_dense : sparseCocycleToVector 1 (liftToIntegerCocycle [⟨[3, 0], 2⟩] 3) (cnsTable 8 2) 4 =
    .ok [0, 0, 0, 1, 0, 0] := by
  have h := storeRow_ofFn (n := 4) (d := 1) (N := 8) (D := 2) (r := ⟨[3, 0], -1⟩) (f := ![3, 0]) (τ := Equiv.swap 0 1)
    (by norm_num) (by norm_num) (by simp [List.ofFn_succ])
    (by intro i j; fin_cases i <;> fin_cases j <;> simp) (by intro i; fin_cases i <;> simp)
    (by intro i j hij; fin_cases i <;> fin_cases j <;> simp at hij ⊢) [0, 0, 0, 0, 0, 0] (by decide)
  have hl : liftToIntegerCocycle [⟨[3, 0], 2⟩] 3 = [⟨[3, 0], -1⟩] := by decide +kernel
  have hn : numberOfSimplices 1 4 (cnsTable 8 2) = 6 := by decide +kernel
  have hf : cnsForward [0, 3] (cnsTable 8 2) = 3 := by decide +kernel
  unfold sparseCocycleToVector
  rw [hl, hn]
  simp only [List.foldlM_cons, List.foldlM_nil, List.replicate_succ, List.replicate_zero, h, bind, Except.bind, pure, Except.pure]
  have e : (List.ofFn (![3, 0] ∘ (Equiv.swap (0 : Fin 2) 1))) = [0, 3] := by simp [List.ofFn_succ]
  rw [e, hf]
  simp

theorem oct_dense' : sparseCocycleToVector 1 (liftToIntegerCocycle [⟨[2, 3], 2⟩] 3) (cnsTable 8 2) 4 =
    .ok [0, 0, 0, 0, 0, -1] := by
  have hl : liftToIntegerCocycle [⟨[2, 3], 2⟩] 3 =
      ([((2, 3), -1)] : List ((ℕ × ℕ) × ℤ)).map fun e => (⟨[e.1.1, e.1.2], e.2⟩ : Row) := by decide +kernel
  rw [hl, dense_edges (by norm_num) _ (by decide)]
  have : ∀ a b : List ℤ, a = b → (Except.ok a : Except PyErr (List ℤ)) = .ok b := fun a b h => by rw [h]
  apply this
  decide +kernel

/-- C38: the two representatives of the octagon's class give the same coordinate up to a rotation on each component. -/
example (fuel : ℕ) : ∃ θ θ' : ℕ → Fl ℝ,
    (getCoordinates idealEnv fuel octObj ⟨.fin (1 / 2), [.int 0], bumpLinear, false, false⟩).2 = .ok [θ] ∧
    (getCoordinates idealEnv fuel { octObj with cocycles := octCocycles' }
      ⟨.fin (1 / 2), [.int 0], bumpLinear, false, false⟩).2 = .ok [θ'] ∧
    ∃ (w : ℕ → ℕ → ℝ) (v v' : List ℤ) (f f' : ℕ → ℝ),
      IsCircleCoordinate octObj.nLand octObj.dist octObj.distLandLand (3 / 2) w (fun e => v.getD e 0) f θ ∧
      IsCircleCoordinate octObj.nLand octObj.dist octObj.distLandLand (3 / 2) w (fun e => v'.getD e 0) f' θ' ∧
      ∀ l m, ripsForm octObj.nLand octObj.distLandLand (3 / 2) (fun e => v'.getD e 0) f' l m =
        ripsForm octObj.nLand octObj.distLandLand (3 / 2) (fun e => v.getD e 0) f l m := by
  obtain ⟨r, hr, ⟨θ, h1, h2⟩, -⟩ := C83_one_class idealEnv fuel octObj octObj_wf octObj_fieldValued (.int 0) 2 4 _ octObj_class
    (1 / 2) false (by norm_num) bumpLinear positiveBump_linear
  obtain rfl : r = 3 / 2 := by simp only [Bool.false_eq_true, if_false] at hr; linarith
  obtain ⟨r, hr', ⟨θ', h1', h2'⟩, -⟩ := C83_one_class idealEnv fuel { octObj with cocycles := octCocycles' } octObj'_wf
    octObj'_fieldValued (.int 0) 2 4 _ octObj'_class (1 / 2) false (by norm_num) bumpLinear positiveBump_linear
  obtain rfl : r = 3 / 2 := by simp only [Bool.false_eq_true, if_false] at hr'; linarith
  obtain ⟨w, f, f', k, a1, a2, a3, -⟩ := C38_representative octObj_wf octObj_fieldValued octObj'_fieldValued
    positiveBump_linear h1 h1' h2 h2' octObj_triangle idealLsqr_exact octObj_class.stored octObj'_class.stored oct_dense oct_dense'
    (fun i j k h => absurd h (octObj_no_triangle i j k)) (fun i j k h => absurd h (octObj_no_triangle i j k))
    (fun (m : ℕ) => if m = 3 then 1 else 0) (by
      rintro l m ⟨e1, e2, e3⟩
      have e2' : m < 4 := e2
      have e4 : ((octDist l (2 * m) : ℕ) : ℝ) < 2 * (3 / 2) := e3
      have e5 : octDist l (2 * m) < 3 := by
        have : ((octDist l (2 * m) : ℕ) : ℝ) < (3 : ℕ) := by push_cast; linarith
        exact_mod_cast this
      have key : ∀ m < 4, ∀ l < m, octDist l (2 * m) < 3 → ([0, 0, 0, 0, 0, -1] : List ℤ).getD (edgeIdx l m) 0 =
        ([0, 0, 0, 1, 0, 0] : List ℤ).getD (edgeIdx l m) 0 + ((if l = 3 then 1 else 0) - (if m = 3 then 1 else 0)) := by
        decide +kernel
      exact key m e2' l e1 e5)
  exact ⟨θ, θ', h1, h1', w, _, _, f, f', a1, a2, a3⟩

/-! ### lattice reduction -/

/-- C40: one step on an integer basis. -/
example : ∃ U : Matrix (Fin 2) (Fin 2) ℤ,
    (lllRun (3 / 4) 1 (lllInit (!![1, 3; 0, 1] : Matrix (Fin 2) (Fin 2) ℚ))).change = U.map (fun z => (z : ℚ)) ∧
      (U.det = 1 ∨ U.det = -1) := by
  obtain ⟨U, h1, h2, -⟩ := C40_invariant (!![1, 3; 0, 1] : Matrix (Fin 2) (Fin 2) ℚ) 1
  exact ⟨U, h1, h2⟩

/-- C42, C43, C44: the lattice spanned by `(1, 0)` and `(3, 1)`. -/
example : ∃ B' C : Matrix (Fin 2) (Fin 2) ℚ, lll 10 !![1, 3; 0, 1] = some (B', C) ∧
    B'.col 0 ⬝ᵥ B'.col 0 ≤ 2 * ((!![1, 3; 0, 1] *ᵥ ![(-3 : ℚ), 1]) ⬝ᵥ (!![1, 3; 0, 1] *ᵥ ![(-3 : ℚ), 1])) ∧
    (B'ᵀ * B').trace ≤ 11 ∧ (gramSchmidt (!![1, 3; 0, 1] : Matrix (Fin 2) (Fin 2) ℚ)).col 0 ⬝ᵥ
      (gramSchmidt (!![1, 3; 0, 1] : Matrix (Fin 2) (Fin 2) ℚ)).col 1 = 0 := by
  have hd : (!![1, 3; 0, 1] : Matrix (Fin 2) (Fin 2) ℚ).det ≠ 0 := by simp [Matrix.det_fin_two]
  have hs : (lll 10 (!![1, 3; 0, 1] : Matrix (Fin 2) (Fin 2) ℚ)).isSome = true := by decide +kernel
  obtain ⟨⟨B', C⟩, h⟩ := Option.isSome_iff_exists.1 hs
  refine ⟨B', C, h, ?_, ?_, C44_two_columns_partial _ hd⟩
  · have := C42_short_vector _ B' C hd 10 h ![-3, 1] (by intro e; have := congrFun e 1; simp at this)
    have e : (fun i => ((![-3, 1] : Fin 2 → ℤ) i : ℚ)) = ![-3, 1] := by ext i; fin_cases i <;> simp
    rw [e] at this
    exact this
  · have := C43_two_classes_partial _ B' C hd 10 h
    refine this.trans (le_of_eq ?_)
    decide +kernel

/-- C42: the run stops and the result is reduced. -/
example : ∃ (N : ℕ) (B' C : Matrix (Fin 2) (Fin 2) ℚ), (∀ fuel, N ≤ fuel → lll fuel !![1, 3; 0, 1] = some (B', C)) ∧
    2 * |B'.col 0 ⬝ᵥ B'.col 1| ≤ B'.col 0 ⬝ᵥ B'.col 0 := by
  obtain ⟨N, B', C, h, h', -⟩ := C42_two_classes (!![1, 3; 0, 1] : Matrix (Fin 2) (Fin 2) ℚ) (by simp [Matrix.det_fin_two])
  exact ⟨N, B', C, h, h'⟩

/-- C82: three classes. -/
example : ∃ (N : ℕ) (B' C : Matrix (Fin 3) (Fin 3) ℚ),
    ∀ fuel, N ≤ fuel → lll fuel !![1, 3, 0; 0, 1, 5; 0, 0, 2] = some (B', C) := by
  obtain ⟨N, B', C, h, -⟩ := C82_three_classes_partial (!![1, 3, 0; 0, 1, 5; 0, 0, 2] : Matrix (Fin 3) (Fin 3) ℚ)
    (by decide +kernel)
  exact ⟨N, B', C, h⟩

/-- C82: six classes. -/
example : ∃ B₀ : Matrix (Fin 6) (Fin 6) ℚ, B₀.det ≠ 0 ∧ ∀ fuel, lll fuel B₀ = none := by
  obtain ⟨B, h1, h2, -⟩ := C82_five_classes_diverge (K := ℚ) 6 (by norm_num)
  exact ⟨B, h1, h2⟩

/-! ### circle-valued maps -/

/-- C47: two maps and the matrix `(1 -1)`. -/
example : ∃ g : ℕ → ℕ → ℝ, linearCombination (.d2 2 3 (finMaps fun j _ => if j = 0 then 1 else 2)) (.d2 1 2 fun _ j => if j = 0 then 1 else -1)
      = .ok (.d2 1 3 (finMaps g)) ∧ SameAngle (g 0 0) (-1) ∧ 0 ≤ g 0 0 := by
  obtain ⟨g, h, h'⟩ := C47_value 2 3 1 (fun j _ => if j = 0 then 1 else 2) (fun _ j => if j = 0 then 1 else -1)
  refine ⟨g, h, ?_, (h' 0 0).1⟩
  have := (h' 0 0).2.2
  norm_num [Finset.sum_range_succ] at this
  exact this

/-- C47: the same maps up to full turns. -/
example : linearCombination (.d2 1 3 (finMaps fun _ _ => 1)) (.d2 1 1 fun _ _ => ((3 : ℤ) : ℝ)) =
    linearCombination (.d2 1 3 (finMaps fun _ _ => 1 + 2 * π)) (.d2 1 1 fun _ _ => ((3 : ℤ) : ℝ)) := by
  refine C47_depends_on_angles 1 3 1 _ _ (fun _ _ => 3) fun j _ p => ?_
  exact ⟨-1, by push_cast; ring⟩

/-- C47: a one dimensional array of maps is refused. -/
example (M : NdArr ℝ) : linearCombination (.d1 3 fun _ => .fin 0) M = .error .assertionError :=
  (C47_shape_mismatch (.d1 3 fun _ => .fin 0) M).1 (by intro k n f h; cases h)

/-- C60, C63 -/
example : offset 1 3 = 1 ∧ levelsetColoring (.int 0) 0 1 = .error .assertionError ∧
    ∃ v, levelsetColoring (.int 1) 0 1 = .ok v ∧ v = 0 := by
  have h3 := Real.pi_gt_three
  refine ⟨?_, (C63_levelset (.int 0) 0 1).1 (Or.inr ⟨0, le_rfl, rfl⟩), ?_⟩
  · have := ((C60_offset 1 0 0).2.2 (by norm_num) (by linarith)).1 3
    exact_mod_cast this
  · obtain ⟨v, h1, -, -, -, h2⟩ := (C63_levelset (.int 1) 0 1).2 1 rfl (by norm_num)
    refine ⟨v, h1, ?_⟩
    have := h2 rfl 0 (by simp) (by push_cast; norm_num; linarith)
    simpa using this

end Dreimac
