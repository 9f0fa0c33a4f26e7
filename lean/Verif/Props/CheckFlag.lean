import Verif.Props.CircularCall
import Verif.Props.ClassMap2

/-!
# C108: the consistency check leaves good classes alone
-/

namespace Dreimac

/-- The call depends on the flag only through the integer cocycles. -/
theorem call_check_congr {env : Oracles} {fuel : ℕ} {o : ToroObj} {a : Args} {death birth : Fl ℝ} {radius : Fl ℝ × Fl ℝ}
    (hs : (selectClasses o a.cocycleIdxs >>= commonSupport) = .ok (death, birth))
    (hr : getCoverRadius a.perc death birth a.standardRange = .ok radius) (cs : List SparseCochain)
    (hcs : (let st := ((o.cocycles.modify 1 (liftSelected o.prime a.cocycleIdxs)).getD 1 [])
      a.cocycleIdxs.map fun x => st.getD (x.pos st.length) []) = cs)
    (h : ∀ o' : ToroObj, o'.nLand = o.nLand → o'.distLandLand = o.distLandLand → o'.table = o.table → o'.prime = o.prime →
      integerCocycles env o' (ripsThr radius.2) true cs = integerCocycles env o' (ripsThr radius.2) false cs) :
    getCoordinates env fuel o { a with check := true } = getCoordinates env fuel o { a with check := false } := by
  unfold getCoordinates
  rcases hsel : selectClasses o a.cocycleIdxs with e | sel
  · rfl
  rw [hsel] at hs
  have hs' : commonSupport sel = .ok (death, birth) := hs
  simp only [hs', hr]
  simp only at hcs
  simp only [hcs]
  have h' := h { o with cocycles := o.cocycles.modify 1 (liftSelected o.prime a.cocycleIdxs), radius := some radius }
    rfl rfl rfl rfl
  simp only [coordData, h']

/-- **C108 (circular and toroidal coordinates).** If the selected classes are integer cocycles after lifting, on the Rips
complex at the threshold of the call, the flag `check_and_repair` (`check_cocycle_condition`) changes neither the result nor the
object, whatever the solvers (in particular the integer program) are. -/
theorem C108_check_neutral (env : Oracles) (fuel : ℕ) (o : ToroObj) (wf : WellFormed o) (hv : FieldValued o.prime o.cocycles)
    (cl : List Selected) (perc : ℝ) (std : Bool) (B Dt r : ℝ) (h : SelectedClasses o cl perc std B Dt r)
    (bump : Fl ℝ → Fl ℝ → Fl ℝ) (hl : ∀ x ∈ cl, LiftIsCocycle o (2 * r) x.array) :
    getCoordinates env fuel o ⟨.fin perc, cl.map Selected.arg, bump, std, true⟩ =
      getCoordinates env fuel o ⟨.fin perc, cl.map Selected.arg, bump, std, false⟩ := by
  obtain ⟨r', thr, hrad, hthr, hr2, -⟩ := (C24_cover_radius B Dt perc std).2 h.long
  obtain rfl : r' = r := by have := h.radius; linarith
  subst hr2
  obtain ⟨vs, hvs⟩ := dense_lifts wf h.valid
  have hm : (cl.map fun x => liftToIntegerCocycle x.array o.prime).mapM
      (fun c => sparseCocycleToVector 1 c o.table o.nLand) = .ok vs := by
    clear h hl
    induction hvs with
    | nil => rfl
    | cons h1 _ ih => simp only [List.map_cons, List.mapM_cons, h1, ih, bind, Except.bind, pure, Except.pure]
  have hco := cocycles_of_lifts hvs hl
  obtain ⟨N, D, hN, hD, hT⟩ := wf.table
  refine call_check_congr (a := ⟨.fin perc, cl.map Selected.arg, bump, std, true⟩) h.support hrad
    (cl.map fun x => liftToIntegerCocycle x.array o.prime) ?_ ?_
  · simp only [List.map_map]
    refine List.map_congr_left fun x hx => ?_
    exact lifted_of_repr hv (idxs := cl.map Selected.arg) (x := x.arg) (List.mem_map.2 ⟨x, hx, rfl⟩) (h.valid x hx).stored
  · intro o' h1 h2 h3 h4
    unfold integerCocycles
    rw [h1, h2, h3, h4, hm]
    simp only [bind, Except.bind, ripsThr, checkAndRepair, if_true, Bool.false_eq_true, if_false]
    rw [hT, repairLoop_cocycles env.milp hN (by omega) _ _ _ _ _ _ hco]

/-- **C108 (complex projective coordinates).** If the selected class, born at `b` and dying at `d`, is an integer 2-cocycle after
lifting, on the Rips complex at the threshold of the call, the flag changes neither the result nor the object. -/
theorem C108_cp_check_neutral (env : CPOracles) (fuel : ℕ) (o : ProjObj) (wf : CPWellFormed o) (a : ProjArgs) (b d perc : ℝ)
    (hperc : a.perc = .fin perc) (s : SparseCochain)
    (hs : getRepresentativeCocycle o.dgms o.cocycles a.cocycleIdx 2 = .ok (.fin b, .fin d, s))
    (hl : ∀ v, sparseCocycleToVector 2 (liftToIntegerCocycle s o.prime) o.table o.nLand = .ok v →
      IsCocycle2 o.nLand o.distLandLand ((1 - perc) * (if a.standardRange then 2 * b else b) + perc * d) fun e => v.getD e 0) :
    cpGetCoordinates env fuel o { a with check := true } = cpGetCoordinates env fuel o { a with check := false } := by
  obtain ⟨N, D, hN, hD, hT⟩ := wf.table
  unfold cpGetCoordinates
  simp only [hs, hperc]
  rcases hrad : getCoverRadius (.fin perc) (.fin b) (.fin d) a.standardRange with e | radius
  · rfl
  simp only
  rcases getCoveringPartition o.dtype o.nLand o.nData (fun l i => Fl.fin (o.dist l i)) radius.1 a.bump with e | cov
  · rfl
  simp only
  rcases makeDelta1 o.nLand (fun l m => (o.distLandLand l m : EReal)) (ripsThr radius.2) o.table with e | delta1
  · rfl
  simp only
  rcases hv : sparseCocycleToVector 2 (liftToIntegerCocycle s o.prime) o.table o.nLand with e | v
  · rfl
  have hc := hl v hv
  simp only
  have key : checkAndRepair2AsIs env.milp o.nLand (fun l m => (o.distLandLand l m : EReal)) (ripsThr radius.2) o.table o.prime
      a.cocycleIdx.toInt true (fun e => v.getD e 0) = .ok fun e => v.getD e 0 := by
    by_cases hlong : d < (if a.standardRange then 2 * b else b)
    · rw [(C24_cover_radius b d perc a.standardRange).1 hlong] at hrad
      exact absurd hrad (by simp)
    obtain ⟨r, thr, h1, h2, -⟩ := (C24_cover_radius b d perc a.standardRange).2 (not_lt.1 hlong)
    rw [h1] at hrad
    injection hrad with hrad
    subst hrad
    have hthr : thr = (1 - perc) * (if a.standardRange then 2 * b else b) + perc * d := by linarith
    have h3 := (C18_two_cocycle_check o.nLand N D hN (by omega) (fun l m => (o.distLandLand l m : EReal)) (thr : EReal)
      fun e => v.getD e 0).2 ((isCocycle2_coe _ _ _ _).2 (hthr ▸ hc))
    rw [← hT] at h3
    simp only [checkAndRepair2AsIs, checkAndRepair2, ripsThr, h3]
    simp
  have key' : checkAndRepair2AsIs env.milp o.nLand (fun l m => (o.distLandLand l m : EReal)) (ripsThr radius.2) o.table o.prime
      a.cocycleIdx.toInt false (fun e => v.getD e 0) = .ok fun e => v.getD e 0 := by
    simp [checkAndRepair2AsIs, checkAndRepair2]
  rw [key, key']

/-- **C108 (unchecked calls).** Without the flag the integer program is not solved at all: the call does not depend on the solver
for it. -/
theorem C108_unchecked_ignores_solver (env : Oracles) (milp : Milp ℝ) (fuel : ℕ) (o : ToroObj) (a : Args)
    (h : a.check = false) : getCoordinates env fuel o a = getCoordinates { env with milp := milp } fuel o a := by
  have h1 : ∀ (o : ToroObj) radius cs, coordData env o a radius cs = coordData { env with milp := milp } o a radius cs := by
    intro o radius cs
    have : ∀ thr, integerCocycles env o thr a.check cs = integerCocycles { env with milp := milp } o thr a.check cs := by
      intro thr
      simp [integerCocycles, checkAndRepair, h]
    simp only [coordData, this]
  unfold getCoordinates
  simp only [h1]
  rfl

theorem C108_cp_unchecked_ignores_solver (env : CPOracles) (milp : Milp ℝ) (fuel : ℕ) (o : ProjObj) (a : ProjArgs)
    (h : a.check = false) : cpGetCoordinates env fuel o a = cpGetCoordinates { env with milp := milp } fuel o a := by
  unfold cpGetCoordinates
  simp [checkAndRepair2AsIs, checkAndRepair2, h]

end Dreimac
