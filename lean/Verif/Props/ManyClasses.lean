import Verif.Props.CircularCall
import Verif.Props.LLL4

/-!
# C83 for any number of classes, C121
-/

namespace Dreimac

open Matrix

/-- The last part of a call with several classes, in terms of the Gram matrix. -/
theorem finish_gram (env : Oracles) (o : ToroObj) (d : CoordData) {n : ℕ} (hlen : d.cocycles.length = n) (h2 : 2 ≤ n)
    (G : Matrix (Fin n) (Fin n) ℝ) (hG : ∀ i j, G i j = d.gram env (Fin.cast hlen.symm i) (Fin.cast hlen.symm j)) (fuel : ℕ) :
    (env.cholesky n G = none → finishCoords env fuel o d = .error .linAlgError) ∧
    ∀ L, env.cholesky n G = some L →
      (lll fuel Lᵀ = none → finishCoords env fuel o d = .error .outOfFuel) ∧
      ∀ B' C, lll fuel Lᵀ = some (B', C) →
        ∃ info, finishCoords env fuel o d = .ok
          (List.ofFn fun (i : Fin n) p => combineAt n (matArr Cᵀ) (stackMaps fun j => d.coords env o (Fin.cast hlen.symm j)) i p,
            info) := by
  subst hlen
  have hGe : G = d.gram env := by ext i j; exact hG i j
  subst hGe
  have hfc : finishCoords env fuel o d = ((reduceCoordinates env.cholesky fuel o.nData (d.coords env o) (d.gram env)).map
      fun x => (List.ofFn x.1, some x.2)) := by
    unfold finishCoords
    rw [if_pos (by omega)]
    generalize reduceCoordinates env.cholesky fuel o.nData (d.coords env o) (d.gram env) = x
    cases x <;> rfl
  rw [hfc]
  refine ⟨fun h => ?_, fun L hL => ⟨fun h => ?_, fun B' C h => ?_⟩⟩
  · unfold reduceCoordinates; rw [h]; rfl
  · unfold reduceCoordinates; simp only [hL, h]; rfl
  · unfold reduceCoordinates; simp only [hL, h, linearCombination, if_true]; exact ⟨_, rfl⟩

/-- **C83 (any number of classes).** A call for two or more valid classes with overlapping lifetimes, long enough, without the
cocycle check or with lifts that are cocycles: the outcome is determined by the Gram matrix `G` of the harmonic
representatives (`f i` is a least squares solution if the solver is exact). -/
theorem call_by_gram (env : Oracles) {o : ToroObj} (wf : WellFormed o) (hv : FieldValued o.prime o.cocycles)
    {cl : List Selected} {n : ℕ} (hn : cl.length = n) (h2 : 2 ≤ n) {perc : ℝ} {std check : Bool} {B Dt r : ℝ}
    (h : SelectedClasses o cl perc std B Dt r) {bump : Fl ℝ → Fl ℝ → Fl ℝ} (hb : PositiveBump bump)
    (hcoc : check = true → ∀ x ∈ cl, LiftIsCocycle o (2 * r) x.array) :
    ∃ (v : Fin n → List ℤ) (f : Fin n → ℕ → ℝ) (base : Fin n → ℕ → Fl ℝ),
      (∀ (i : Fin n) x, cl[(i : ℕ)]? = some x →
        sparseCocycleToVector 1 (liftToIntegerCocycle x.array o.prime) o.table o.nLand = .ok (v i)) ∧
      (ExactLsq env.lsqr → ∀ i g, formEnergy o.nLand o.distLandLand r (fun e => ((v i).getD e 0 : ℤ)) (f i) ≤
        formEnergy o.nLand o.distLandLand r (fun e => ((v i).getD e 0 : ℤ)) g) ∧
      ∀ fuel,
        (env.cholesky n (returnedGram o.nLand o.distLandLand r 1 (fun i e => (v i).getD e 0) f) = none →
          (getCoordinates env fuel o ⟨.fin perc, cl.map Selected.arg, bump, std, check⟩).2 = .error .linAlgError) ∧
        ∀ L, env.cholesky n (returnedGram o.nLand o.distLandLand r 1 (fun i e => (v i).getD e 0) f) = some L →
          (lll fuel Lᵀ = none →
            (getCoordinates env fuel o ⟨.fin perc, cl.map Selected.arg, bump, std, check⟩).2 = .error .outOfFuel) ∧
          ∀ B' C, lll fuel Lᵀ = some (B', C) →
            (getCoordinates env fuel o ⟨.fin perc, cl.map Selected.arg, bump, std, check⟩).2 =
              .ok (List.ofFn fun (i : Fin n) p => combineAt n (matArr Cᵀ) (stackMaps base) i p) ∧
            (getCoordinates env fuel o ⟨.fin perc, cl.map Selected.arg, bump, std, check⟩).1.radius =
              some (.fin r, .fin (2 * r)) := by
  obtain ⟨r', thr, hrad, hthr, hr2, -⟩ := (C24_cover_radius B Dt perc std).2 h.long
  obtain rfl : r' = r := by have := h.radius; linarith
  subst hr2
  obtain ⟨vs, hvs⟩ := dense_lifts wf h.valid
  have hint : integerCocycles env o ((2 * r' : ℝ) : EReal) check (cl.map fun x => liftToIntegerCocycle x.array o.prime) =
      .ok (vs.map fun v e => v.getD e 0) := by
    have hm : (cl.map fun x => liftToIntegerCocycle x.array o.prime).mapM
        (fun c => sparseCocycleToVector 1 c o.table o.nLand) = .ok vs := by
      clear hcoc h hn
      induction hvs with
      | nil => rfl
      | cons h1 _ ih => simp only [List.map_cons, List.mapM_cons, h1, ih, bind, Except.bind, pure, Except.pure]
    unfold integerCocycles
    rw [hm]
    simp only [bind, Except.bind]
    cases check with
    | false => rfl
    | true =>
      obtain ⟨N, D, hN, hD, hT⟩ := wf.table
      have := repairLoop_append env.milp hN (show 1 ≤ D by omega) (fun l m => (o.distLandLand l m : EReal))
        ((2 * r' : ℝ) : EReal) o.prime 0 none (vs.map fun v e => v.getD e 0) [] (cocycles_of_lifts hvs (hcoc rfl))
      rw [← hT] at this
      simp only [List.append_nil] at this
      unfold checkAndRepair
      rw [if_pos rfl, this]
      simp [repairLoop, bind, Except.bind, pure, Except.pure]
  obtain ⟨cov, d0, inn, hcd⟩ := coordData_of_cocycles (env := env)
    (a := ⟨.fin perc, cl.map Selected.arg, bump, std, check⟩) wf hb r' (2 * r')
    (cl.map fun x => liftToIntegerCocycle x.array o.prime)
  rw [hint] at hcd
  simp only [Except.map] at hcd
  generalize hdd : (CoordData.mk cov ((2 * r' : ℝ) : EReal) d0 inn (vs.map fun v e => v.getD e 0)) = dd at hcd
  have hdc : dd.cocycles = vs.map fun v e => v.getD e 0 := by rw [← hdd]
  have hlen : dd.cocycles.length = n := by rw [hdc, List.length_map, ← hvs.length_eq, hn]
  have hvl : vs.length = n := by rw [← hvs.length_eq, hn]
  have hcs : (cl.map Selected.arg).map (fun x =>
        ((o.cocycles.modify 1 (liftSelected o.prime (cl.map Selected.arg))).getD 1 []).getD
        (x.pos ((o.cocycles.modify 1 (liftSelected o.prime (cl.map Selected.arg))).getD 1 []).length) []) =
        cl.map fun x => liftToIntegerCocycle x.array o.prime := by
    rw [List.map_map]
    refine List.map_congr_left fun x hx => ?_
    exact lifted_of_repr hv (idxs := cl.map Selected.arg) (x := x.arg) (List.mem_map.2 ⟨x, hx, rfl⟩) (h.valid x hx).stored
  obtain ⟨-, -, hdel, -, hinn⟩ := coordData_stages hcd
  have hdci : ∀ i : Fin n, dd.cocycles[(Fin.cast hlen.symm i)] = fun e => (vs[(i : ℕ)]'(by omega)).getD e 0 := by
    intro i
    subst hdd
    simp
  refine ⟨fun i => vs[(i : ℕ)]'(by omega),
    fun i => (integrateHarmonic env.lsqr (fun e => (vs[(i : ℕ)]'(by omega)).getD e 0) dd.delta0 dd.inner).2,
    fun j => dd.coords env o (Fin.cast hlen.symm j), ?_, ?_, ?_⟩
  · intro i x hx
    obtain ⟨h1, h3⟩ := List.forall₂_iff_get.1 hvs
    obtain ⟨hi, rfl⟩ := List.getElem?_eq_some_iff.1 hx
    exact h3 i hi (by omega)
  · intro hex i g
    exact integral_minimises hex wf hdel hinn _ g
  · intro fuel
    have hG := finish_gram env o dd hlen h2 (returnedGram o.nLand o.distLandLand r' 1
      (fun i e => (vs[(i : ℕ)]'(by omega)).getD e 0)
      fun i => (integrateHarmonic env.lsqr (fun e => (vs[(i : ℕ)]'(by omega)).getD e 0) dd.delta0 dd.inner).2) (by
        intro i j
        rw [gram_entries wf hdel hinn]
        unfold returnedGram
        simp only [hdci, Matrix.one_apply, Int.cast_ite, Int.cast_one, Int.cast_zero, ite_mul, one_mul, zero_mul,
          Finset.sum_ite_eq, Finset.mem_univ, if_true]) fuel
    have herr : ∀ e, finishCoords env fuel o dd = .error e →
        (getCoordinates env fuel o ⟨.fin perc, cl.map Selected.arg, bump, std, check⟩).2 = .error e := by
      intro e he
      rw [getCoordinates_eq, h.support]
      simp only [hrad, hcs]
      have e1 : coordData env { o with cocycles := o.cocycles.modify 1 (liftSelected o.prime (cl.map Selected.arg)), radius := some (.fin r', .fin (2 * r')) }
        ⟨.fin perc, cl.map Selected.arg, bump, std, check⟩ (.fin r', .fin (2 * r')) (cl.map fun x => liftToIntegerCocycle x.array o.prime) = .ok dd := hcd
      rw [e1]
      have e2 : finishCoords env fuel { o with cocycles := o.cocycles.modify 1 (liftSelected o.prime (cl.map Selected.arg)), radius := some (.fin r', .fin (2 * r')) } dd =
        .error e := by
        have hrel : ObjRel o { o with cocycles := o.cocycles.modify 1 (liftSelected o.prime (cl.map Selected.arg)), radius := some (.fin r', .fin (2 * r')) } :=
          ⟨rfl, rfl, rfl, rfl, rfl, rfl, rfl, rfl, forall₂_modify_one (fieldValued_refl hv) _⟩
        have := finishCoords_rel hrel env fuel dd
        rw [he] at this
        generalize finishCoords env fuel { o with cocycles := o.cocycles.modify 1 (liftSelected o.prime (cl.map Selected.arg)), radius := some (.fin r', .fin (2 * r')) } dd = y at this ⊢
        cases y with
        | ok y => cases this
        | error y => simpa [Except.map] using this
      simp only [e2]
    refine ⟨fun hno => herr _ (hG.1 hno), fun L hL => ⟨fun hno => herr _ ((hG.2 L hL).1 hno), fun B' C hBC => ?_⟩⟩
    obtain ⟨info, hi⟩ := (hG.2 L hL).2 B' C hBC
    have := call_of_stages (fuel := fuel) (a := ⟨.fin perc, cl.map Selected.arg, bump, std, check⟩) h.support hrad hcs hcd hi
    exact ⟨this.1, this.2.1⟩

/-- **C83, up to four classes.** A call for two to four valid classes with overlapping lifetimes, where the check is off or finds
the lifted classes to be cocycles, ends for all sufficiently large numbers of iterations of the lattice reduction in the same way:
with one coordinate per class, or with `LinAlgError`, and the latter exactly if the Gram matrix of the forms `c - δf` on the Rips
edges (`f` the output of the least squares solver) has no Cholesky factorisation. -/
theorem C83_up_to_four_classes (env : Oracles) (hch : CholeskySpec env.cholesky) {o : ToroObj} (wf : WellFormed o)
    (hv : FieldValued o.prime o.cocycles) {cl : List Selected} {n : ℕ} (hn : cl.length = n) (h2 : 2 ≤ n) (h4 : n ≤ 4) {perc : ℝ}
    {std check : Bool} {B Dt r : ℝ} (h : SelectedClasses o cl perc std B Dt r) {bump : Fl ℝ → Fl ℝ → Fl ℝ} (hb : PositiveBump bump)
    (hcoc : check = true → ∀ x ∈ cl, LiftIsCocycle o (2 * r) x.array) :
    ∃ (v : Fin n → List ℤ) (f : Fin n → ℕ → ℝ),
      (∀ (i : Fin n) x, cl[(i : ℕ)]? = some x →
        sparseCocycleToVector 1 (liftToIntegerCocycle x.array o.prime) o.table o.nLand = .ok (v i)) ∧
      (ExactLsq env.lsqr → ∀ i g, formEnergy o.nLand o.distLandLand r (fun e => ((v i).getD e 0 : ℤ)) (f i) ≤
        formEnergy o.nLand o.distLandLand r (fun e => ((v i).getD e 0 : ℤ)) g) ∧
      (((∀ fuel, (getCoordinates env fuel o ⟨.fin perc, cl.map Selected.arg, bump, std, check⟩).2 = .error .linAlgError) ∧
        ¬ ∃ L : Matrix (Fin n) (Fin n) ℝ, L * Lᵀ = returnedGram o.nLand o.distLandLand r 1 (fun i e => (v i).getD e 0) f ∧
          (∀ i j, i < j → L i j = 0) ∧ ∀ i, 0 < L i i) ∨
      ((∃ (fuel₀ : ℕ) (coords : List (ℕ → Fl ℝ)), coords.length = n ∧ ∀ fuel ≥ fuel₀,
        (getCoordinates env fuel o ⟨.fin perc, cl.map Selected.arg, bump, std, check⟩).2 = .ok coords ∧
        (getCoordinates env fuel o ⟨.fin perc, cl.map Selected.arg, bump, std, check⟩).1.radius = some (.fin r, .fin (2 * r))) ∧
        ∃ L : Matrix (Fin n) (Fin n) ℝ, L * Lᵀ = returnedGram o.nLand o.distLandLand r 1 (fun i e => (v i).getD e 0) f ∧
          (∀ i j, i < j → L i j = 0) ∧ ∀ i, 0 < L i i)) := by
  obtain ⟨v, f, base, h1, h3, h5⟩ := call_by_gram env wf hv hn h2 h hb hcoc
  refine ⟨v, f, h1, h3, ?_⟩
  obtain ⟨g1, g2⟩ := hch n (returnedGram o.nLand o.distLandLand r 1 (fun i e => (v i).getD e 0) f)
  cases hL : env.cholesky n (returnedGram o.nLand o.distLandLand r 1 (fun i e => (v i).getD e 0) f) with
  | none => exact Or.inl ⟨fun fuel => (h5 fuel).1 hL, g2 hL⟩
  | some L =>
    right
    obtain ⟨N, B', C, hN⟩ : ∃ N B' C, ∀ fuel, N ≤ fuel → lll fuel Lᵀ = some (B', C) := by
      have hA : Lᵀ.det ≠ 0 := by rw [Matrix.det_transpose]; exact hch.det hL
      clear hL h5 h1 h3 g1 g2
      generalize Lᵀ = A at hA
      clear v f base L hn
      have : n = 2 ∨ n = 3 ∨ n = 4 := by omega
      rcases this with rfl | rfl | rfl
      · obtain ⟨N, B', C, hN, -⟩ := C42_two_classes A hA; exact ⟨N, B', C, hN⟩
      · obtain ⟨N, B', C, hN, -⟩ := C82_three_classes_partial A hA; exact ⟨N, B', C, hN⟩
      · obtain ⟨N, B', C, hN, -⟩ := C82_four_classes_partial A hA; exact ⟨N, B', C, hN⟩
    exact ⟨⟨N, _, List.length_ofFn, fun fuel hf => ((h5 fuel).2 L hL).2 B' C (hN fuel hf)⟩, L, g1 L hL⟩

end Dreimac
