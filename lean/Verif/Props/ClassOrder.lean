import Mathlib.LinearAlgebra.Matrix.Determinant.Basic
import Verif.Lemmas.ClassOrder
import Verif.Props.Circular

/-!
# C117: the order of the classes does not matter
-/

namespace Dreimac

open Real

section
variable {env : Oracles} {fuel fuel' : ℕ} {o : ToroObj} {a a' : Args} {coords coords' : List (ℕ → Fl ℝ)} {r t : ℝ}

/-- The values of a call at a covered point, from the individual coordinates, and back. -/
theorem witness_values {o' : ToroObj} (W : CallWitness env o o' a r coords) (p : ℕ) (hp : ∃ l < o.nLand, o.dist l p < r) :
    ∃ x y : Fin W.m → ℝ, (∀ i, W.out i p = .fin (x i)) ∧ (∀ j, W.base j p = .fin (y j)) ∧
      (∀ i, SameAngle (x i) (∑ j, W.U i j * y j)) ∧ ∀ j, SameAngle (y j) (∑ i, W.U⁻¹ j i * x i) := by
  have hunit : IsUnit W.U.det := by
    rcases W.det with h | h <;> rw [h]
    · exact isUnit_one
    · exact isUnit_one.neg
  have hVU : W.U⁻¹ * W.U = 1 := Matrix.nonsing_inv_mul _ hunit
  obtain ⟨b, hbl⟩ := exists_firstBall (L := o.nLand) (dist := o.dist) (r := r) hp
  choose y hy using fun j => (W.base_coord j).covered p b hbl
  choose x hx using fun i => (W.out_coord i).covered p b hbl
  have hxy : ∀ i, SameAngle (x i) (∑ j, W.U i j * y j) := by
    intro i
    have := (hx i).2.2.2
    rw [coordFormula_sum, Finset.mul_sum] at this
    refine this.trans ?_
    have e : ∀ j, 2 * π * ((W.U i j : ℝ) * coordFormula o.nLand o.distLandLand r W.w (W.c j) (W.f j) b p) =
        (W.U i j : ℝ) * (2 * π * coordFormula o.nLand o.distLandLand r W.w (W.c j) (W.f j) b p) := fun j => by ring
    rw [Finset.sum_congr rfl fun j _ => e j]
    exact SameAngle.sum _ fun j _ => ((hy j).2.2.2.symm).int_mul _
  refine ⟨x, y, fun i => (hx i).1, fun j => (hy j).1, hxy, fun j => ?_⟩
  have h1 : SameAngle (∑ i, (W.U⁻¹ j i : ℝ) * x i) (∑ i, (W.U⁻¹ j i : ℝ) * ∑ k, W.U i k * y k) :=
    SameAngle.sum _ fun i _ => (hxy i).int_mul _
  have h2 : ∑ i, (W.U⁻¹ j i : ℝ) * ∑ k, (W.U i k : ℝ) * y k = y j := by
    have : ∀ k, ∑ i, (W.U⁻¹ j i : ℝ) * (W.U i k : ℝ) = if j = k then 1 else 0 := by
      intro k
      have := congrFun (congrFun hVU j) k
      rw [Matrix.mul_apply, Matrix.one_apply] at this
      exact_mod_cast this
    simp only [Finset.mul_sum]
    rw [Finset.sum_comm]
    simp only [← mul_assoc, ← Finset.sum_mul, this]
    simp
  rw [h2] at h1
  exact h1.symm

/-- **C117.** Two calls with the same classes in another order (the object may have been used in between, see C08): the radius is the
same, and at every covered data point the coordinates of the second call are integer combinations, by a fixed matrix of determinant
`1` or `-1`, of those of the first call. -/
theorem C117_order_of_classes (wf : WellFormed o) (hv : FieldValued o.prime o.cocycles) (hb : PositiveBump a.bump)
    (hn : ∀ sel, a.cocycleIdxs.mapM (repr1 o) = .ok sel → NoNan sel) (history : List (ℕ × Args))
    (idxs : List ClassArg) (hp : idxs.Perm a.cocycleIdxs)
    (hok : (getCoordinates env fuel o a).2 = .ok coords)
    (hok' : (getCoordinates env fuel' (afterCalls env o history) { a with cocycleIdxs := idxs }).2 = .ok coords')
    (hr : (getCoordinates env fuel o a).1.radius = some (.fin r, .fin t)) :
    (getCoordinates env fuel' (afterCalls env o history) { a with cocycleIdxs := idxs }).1.radius = some (.fin r, .fin t) ∧
    ∃ (m : ℕ) (out out' : Fin m → ℕ → Fl ℝ) (M : Matrix (Fin m) (Fin m) ℤ), coords = List.ofFn out ∧ coords' = List.ofFn out' ∧
      (M.det = 1 ∨ M.det = -1) ∧
      ∀ p, (∃ l < o.nLand, o.dist l p < r) → ∃ x x' : Fin m → ℝ, (∀ i, out i p = .fin (x i)) ∧ (∀ i, out' i p = .fin (x' i)) ∧
        ∀ i, SameAngle (x' i) (∑ j, M i j * x j) := by
  classical
  obtain ⟨b, dth, radius, d, info, hsel, hrad, -, -, hr1, -⟩ := success_data hok
  rw [hr1] at hr
  injection hr with hr
  subst hr
  obtain ⟨b2, dth2, radius2, -, -, hsel2, hrad2, -, -, hr2, -⟩ := success_data hok'
  have hrel := objRel_afterCalls hv env history
  rw [support_rel hrel] at hsel2
  have hbd := commonSupport_perm hp hn hsel hsel2
  injection hbd with e1 e2
  subst e1; subst e2
  simp only at hrad2
  rw [hrad] at hrad2
  injection hrad2 with hrad2
  subst hrad2
  refine ⟨hr2, ?_⟩
  have hok0 : (getCoordinates env fuel' o { a with cocycleIdxs := idxs }).2 = .ok coords' := by
    rw [← result_rel hrel hv]; exact hok'
  have hr0 : (getCoordinates env fuel' o { a with cocycleIdxs := idxs }).1.radius = some (.fin r, .fin t) := by
    obtain ⟨b3, dth3, radius3, -, -, hsel3, hrad3, -, -, hr3, -⟩ := success_data hok0
    have hbd := commonSupport_perm hp hn hsel hsel3
    injection hbd with e1 e2
    subst e1; subst e2
    simp only at hrad3
    rw [hrad] at hrad3
    injection hrad3 with hrad3
    rw [hr3, ← hrad3]
  obtain ⟨-, ⟨W⟩⟩ := callWitness wf hv hb hok hr1
  obtain ⟨-, ⟨W'⟩⟩ := callWitness (a := { a with cocycleIdxs := idxs }) wf hv hb hok0 hr0
  obtain ⟨dd, hdd, hbase⟩ := W.data
  obtain ⟨dd', hdd', hbase'⟩ := W'.data
  obtain ⟨hcov, hthr, hdel, hcoc, hinn⟩ := coordData_stages hdd
  obtain ⟨hcov', hthr', hdel', hcoc', hinn'⟩ := coordData_stages hdd'
  have hselm : ∃ sel, a.cocycleIdxs.mapM (repr1 o) = .ok sel := by
    simp only [bind, Except.bind] at hsel
    split at hsel
    · cases hsel
    · next sel hs => exact ⟨_, selectClasses_iff.1 hs⟩
  obtain ⟨sel, hselm⟩ := hselm
  have hcperm : dd'.cocycles.Perm dd.cocycles := integerCocycles_perm env o _ _ (lifted_perm hv hp hselm) hcoc hcoc'
  have hfun : circularCoordinate env o dd' = circularCoordinate env o dd := by
    simp only at hcov' hdel' hinn' hcov hdel hinn hthr hthr'
    rw [hcov] at hcov'; rw [hdel] at hdel'; rw [hinn] at hinn'
    injection hcov' with h1; injection hdel' with h2; injection hinn' with h3
    funext c
    unfold circularCoordinate
    simp only [h1, h2, h3, hthr, hthr']
  have hbperm : (List.ofFn W'.base).Perm (List.ofFn W.base) := by
    rw [hbase, hbase', hfun]; exact hcperm.map _
  have hm : W'.m = W.m := by rw [← W.len, ← W'.len]; exact hp.length_eq
  have key : ∃ (m' : ℕ) (base' out' : Fin m' → ℕ → Fl ℝ) (U' : Matrix (Fin m') (Fin m') ℤ), m' = W.m ∧
      (List.ofFn base').Perm (List.ofFn W.base) ∧ coords' = List.ofFn out' ∧ (U'.det = 1 ∨ U'.det = -1) ∧
      ∀ p, (∃ l < o.nLand, o.dist l p < r) → ∃ x y : Fin m' → ℝ, (∀ i, out' i p = .fin (x i)) ∧
        (∀ j, base' j p = .fin (y j)) ∧ ∀ i, SameAngle (x i) (∑ j, U' i j * y j) :=
    ⟨W'.m, W'.base, W'.out, W'.U, hm, hbperm, W'.out_eq, W'.det, fun p hp => by
      obtain ⟨x, y, h1, h2, h3, -⟩ := witness_values W' p hp
      exact ⟨x, y, h1, h2, h3⟩⟩
  obtain ⟨m', base', out', U', rfl, hperm, hout', hdet', hvals'⟩ := key
  obtain ⟨σ, hσ⟩ := exists_perm_of_ofFn_perm hperm
  have hunit : IsUnit W.U.det := by
    rcases W.det with h | h <;> rw [h]
    · exact isUnit_one
    · exact isUnit_one.neg
  refine ⟨W.m, W.out, out', U' * W.U⁻¹.submatrix σ id, W.out_eq, hout', ?_, fun p hp => ?_⟩
  · rw [Matrix.det_mul, Matrix.det_permute, Matrix.det_nonsing_inv]
    have h1 : Ring.inverse W.U.det = 1 ∨ Ring.inverse W.U.det = -1 := by
      rcases W.det with h | h <;> rw [h]
      · left; exact Ring.inverse_one _
      · right
        have : (-1 : ℤ) * Ring.inverse (-1) = 1 := Ring.mul_inverse_cancel _ isUnit_one.neg
        linarith
    have h2 : ((Equiv.Perm.sign σ : ℤˣ) : ℤ) = 1 ∨ ((Equiv.Perm.sign σ : ℤˣ) : ℤ) = -1 := by
      rcases Int.units_eq_one_or (Equiv.Perm.sign σ) with h | h <;> rw [h] <;> simp
    rcases hdet' with h | h <;> rcases h1 with h1 | h1 <;> rcases h2 with h2 | h2 <;> rw [h, h1, h2] <;> simp
  · obtain ⟨x, y, hx, hy, -, hyx⟩ := witness_values W p hp
    obtain ⟨x', y', hx', hy', hxy'⟩ := hvals' p hp
    refine ⟨x, x', hx, hx', fun i => (hxy' i).trans ?_⟩
    have hyy : ∀ j, y' j = y (σ j) := by
      intro j
      have := hy' j
      rw [hσ, hy] at this
      injection this with this
      exact this.symm
    have h1 : SameAngle (∑ j, (U' i j : ℝ) * y' j) (∑ j, (U' i j : ℝ) * ∑ k, W.U⁻¹ (σ j) k * x k) :=
      SameAngle.sum _ fun j _ => by rw [hyy]; exact (hyx (σ j)).int_mul _
    refine h1.trans ?_
    have h2 : ∑ j, (U' i j : ℝ) * ∑ k, (W.U⁻¹ (σ j) k : ℝ) * x k =
        ∑ k, ((U' * W.U⁻¹.submatrix σ id) i k : ℤ) * x k := by
      simp only [Finset.mul_sum]
      rw [Finset.sum_comm]
      refine Finset.sum_congr rfl fun k _ => ?_
      rw [Matrix.mul_apply]
      push_cast
      rw [Finset.sum_mul]
      refine Finset.sum_congr rfl fun j _ => ?_
      rw [Matrix.submatrix_apply]
      simp only [id]
      ring
    rw [h2]
    exact SameAngle.refl _

end

end Dreimac
