import Verif.Props.Circular
import Verif.Props.Cochain

/-!
# C83: calls on valid input return, and concrete calls

The theorems on returned coordinates (C29, C33–C39, C41, C45) assume a successful call; here calls are shown to succeed.
-/

namespace Dreimac

open Real Matrix

/-! ### building a successful call from its stages -/

section
variable {env : Oracles} {fuel : ℕ} {o : ToroObj} {a : Args}

theorem call_of_stages {b dth : Fl ℝ} {radius : Fl ℝ × Fl ℝ} {coords : List (ℕ → Fl ℝ)} {info : Option GramInfo}
    {d : CoordData} {cs : List SparseCochain} (hsel : (selectClasses o a.cocycleIdxs >>= commonSupport) = .ok (b, dth))
    (hrad : getCoverRadius a.perc b dth a.standardRange = .ok radius)
    (hcs : (a.cocycleIdxs.map fun x =>
        ((o.cocycles.modify 1 (liftSelected o.prime a.cocycleIdxs)).getD 1 []).getD
        (x.pos ((o.cocycles.modify 1 (liftSelected o.prime a.cocycleIdxs)).getD 1 []).length) []) = cs)
    (hd : coordData env o a radius cs = .ok d) (hf : finishCoords env fuel o d = .ok (coords, info)) :
    (getCoordinates env fuel o a).2 = .ok coords ∧ (getCoordinates env fuel o a).1.radius = some radius ∧
      (getCoordinates env fuel o a).1.gramInfo = info := by
  rw [getCoordinates_eq, hsel]
  simp only [hrad, hcs]
  have h1 : coordData env { o with cocycles := o.cocycles.modify 1 (liftSelected o.prime a.cocycleIdxs), radius := some radius } a radius cs = .ok d := hd
  rw [h1]
  have h2 : finishCoords env fuel { o with cocycles := o.cocycles.modify 1 (liftSelected o.prime a.cocycleIdxs), radius := some radius } d = .ok (coords, info) := hf
  simp only [h2]
  simp

theorem call_error_of_stages {b dth : Fl ℝ} {radius : Fl ℝ × Fl ℝ} {e : PyErr} {cs : List SparseCochain}
    (hsel : (selectClasses o a.cocycleIdxs >>= commonSupport) = .ok (b, dth))
    (hrad : getCoverRadius a.perc b dth a.standardRange = .ok radius)
    (hcs : (a.cocycleIdxs.map fun x =>
        ((o.cocycles.modify 1 (liftSelected o.prime a.cocycleIdxs)).getD 1 []).getD
        (x.pos ((o.cocycles.modify 1 (liftSelected o.prime a.cocycleIdxs)).getD 1 []).length) []) = cs)
    (hd : coordData env o a radius cs = .error e) : (getCoordinates env fuel o a).2 = .error e := by
  rw [getCoordinates_eq, hsel]
  simp only [hrad, hcs]
  have h1 : coordData env { o with cocycles := o.cocycles.modify 1 (liftSelected o.prime a.cocycleIdxs), radius := some radius } a radius cs = .error e := hd
  rw [h1]

/-- All steps of `coordData` except the cocycles always succeed. -/
theorem coordData_of_cocycles (wf : WellFormed o) (hb : PositiveBump a.bump) (r t : ℝ) (cs : List SparseCochain) :
    ∃ (cov : Covering ℝ) (delta0 inner : SparseMat), coordData env o a (.fin r, .fin t) cs =
      (integerCocycles env o (t : EReal) a.check cs).map fun c => ⟨cov, (t : EReal), delta0, inner, c⟩ := by
  obtain ⟨C, phi, hC, -⟩ := covering_spec hb o.nLand o.nData wf.pos o.dist wf.nonneg r
  obtain ⟨N, D, hN, hD, hT⟩ := wf.table
  obtain ⟨d0, inn, h0, h1⟩ : ∃ d0 inn, makeDelta0 o.nLand (fun l m => (o.distLandLand l m : EReal)) (t : EReal) o.table =
      .ok d0 ∧ makeInnerProduct o.nLand (fun l m => (o.distLandLand l m : EReal)) (t : EReal) o.table = .ok inn := by
    rw [hT]
    exact ⟨_, _, makeDelta0_ok hN (show 1 ≤ D by omega) wf.size, makeInnerProduct_ok hN (show 1 ≤ D by omega)⟩
  refine ⟨C, d0, inn, ?_⟩
  unfold coordData
  simp only [wf.dtype, hC, bind, Except.bind, ripsThr, h0, h1]
  cases integerCocycles env o (t : EReal) a.check cs <;> rfl

end

/-- The class `z`, born at `b` and dying at `d`, is stored in the array `s`, whose rows are pairwise different edges
between landmarks. -/
structure ValidClass (o : ToroObj) (z : ClassArg) (b d : ℝ) (s : SparseCochain) : Prop where
  stored : repr1 o z = .ok (.fin b, .fin d, s)
  edges : ∀ r ∈ s, r.Valid o.nLand 1
  distinct : s.Pairwise fun r r' => ¬ r.verts.Perm r'.verts
  alive : b < d

theorem valid_lift {n d : ℕ} {p : ℤ} {s : SparseCochain} (h : ∀ r ∈ s, r.Valid n d)
    (h' : s.Pairwise fun r r' => ¬ r.verts.Perm r'.verts) :
    (∀ r ∈ liftToIntegerCocycle s p, r.Valid n d) ∧
      (liftToIntegerCocycle s p).Pairwise fun r r' => ¬ r.verts.Perm r'.verts := by
  unfold liftToIntegerCocycle
  constructor
  · intro r hr
    obtain ⟨r0, h0, rfl⟩ := List.mem_map.1 hr
    have := h r0 h0
    exact ⟨this.1, this.2, this.3⟩
  · rw [List.pairwise_map]
    exact h'

theorem ValidClass.dense {o : ToroObj} (wf : WellFormed o) {z : ClassArg} {b d : ℝ} {s : SparseCochain}
    (h : ValidClass o z b d s) :
    ∃ u v, sparseCocycleToVector 1 s o.table o.nLand = .ok u ∧
      sparseCocycleToVector 1 (liftToIntegerCocycle s o.prime) o.table o.nLand = .ok v ∧
      ∀ e, o.prime ∣ v.getD e 0 - u.getD e 0 := by
  obtain ⟨N, D, hN, hD, hT⟩ := wf.table
  obtain ⟨u, hu, -⟩ := C06_sparse_to_dense o.nLand 1 N D hN (by omega) s h.edges h.distinct
  rw [← hT] at hu
  obtain ⟨v, hv, hc⟩ := dense_lift (p := o.prime) hu
  exact ⟨u, v, hu, hv, hc⟩

/-- **C83.** A call for one valid class whose lifetime is long enough: without the cocycle check it returns one
coordinate and stores the radius; with the check, a correct and complete solver and a stored class that is a cocycle
modulo the prime, it returns one coordinate if the class has an integral lift, and otherwise fails with the message
about integral lifts, and with no other error. -/
theorem C83_one_class (env : Oracles) (fuel : ℕ) (o : ToroObj) (wf : WellFormed o) (hv : FieldValued o.prime o.cocycles)
    (z : ClassArg) (b d : ℝ) (s : SparseCochain) (hz : ValidClass o z b d s) (perc : ℝ) (std : Bool)
    (hstart : (if std then 2 * b else b) ≤ d) (bump : Fl ℝ → Fl ℝ → Fl ℝ) (hb : PositiveBump bump) :
    ∃ r : ℝ, 2 * r = (1 - perc) * (if std then 2 * b else b) + perc * d ∧
      (∃ θ, (getCoordinates env fuel o ⟨.fin perc, [z], bump, std, false⟩).2 = .ok [θ] ∧
        (getCoordinates env fuel o ⟨.fin perc, [z], bump, std, false⟩).1.radius = some (.fin r, .fin (2 * r))) ∧
      (CheckedCall env o ⟨.fin perc, [z], bump, std, true⟩ → SolverComplete env.milp →
        ∀ u, sparseCocycleToVector 1 s o.table o.nLand = .ok u →
        IsCocycle1Mod o.prime o.nLand o.distLandLand (2 * r) (fun e => u.getD e 0) →
        ((∃ c, IntegralLift1 o.prime o.nLand o.distLandLand (2 * r) (fun e => u.getD e 0) c) →
          ∃ θ, (getCoordinates env fuel o ⟨.fin perc, [z], bump, std, true⟩).2 = .ok [θ] ∧
            (getCoordinates env fuel o ⟨.fin perc, [z], bump, std, true⟩).1.radius = some (.fin r, .fin (2 * r))) ∧
        ((¬ ∃ c, IntegralLift1 o.prime o.nLand o.distLandLand (2 * r) (fun e => u.getD e 0) c) →
          (getCoordinates env fuel o ⟨.fin perc, [z], bump, std, true⟩).2 = .error (.noIntegralLift 0))) := by
  obtain ⟨r, thr, hrad, hthr, hr2, -⟩ := (C24_cover_radius b d perc std).2 hstart
  obtain ⟨u0, v, hu0, hvd, hcong⟩ := hz.dense wf
  have hsel : ∀ c, (selectClasses o (Args.mk (.fin perc) [z] bump std c).cocycleIdxs >>= commonSupport) =
      .ok (.fin b, .fin d) := by
    intro c
    have h1 : getRepresentativeCocycle o.dgms o.cocycles z 1 = .ok (.fin b, .fin d, s) := hz.stored
    have h2 : Fl.ge (Fl.fin b) (Fl.fin d) = false := by
      simp [Fl.ge, Fl.isNan, Fl.lt_fin, hz.alive]
    simp only [selectClasses, List.mapM_cons, List.mapM_nil, h1, bind, Except.bind, pure, Except.pure, commonSupport,
      pyMax, pyMin, List.map_nil, List.foldl_nil, h2, Bool.false_eq_true, if_false]
  have hcs := lifted_of_repr hv (idxs := [z]) (x := z) (by simp) hz.stored
  have hint : ∀ check, integerCocycles env o (thr : EReal) check [liftToIntegerCocycle s o.prime] =
      checkAndRepair env.milp o.nLand (fun l m => (o.distLandLand l m : EReal)) (thr : EReal) o.table o.prime check
        [fun e => v.getD e 0] := by
    intro check
    simp only [integerCocycles, List.mapM_cons, List.mapM_nil, hvd, bind, Except.bind, pure, Except.pure, List.map_cons,
      List.map_nil]
  have hfin : ∀ (dd : CoordData) (c : ℕ → ℤ), dd.cocycles = [c] →
      ∃ θ, finishCoords env fuel o dd = .ok ([θ], o.gramInfo) := by
    rintro ⟨cov, t, d0, inn, coc⟩ c rfl
    exact ⟨_, by unfold finishCoords; rfl⟩
  have hdone : ∀ check c, checkAndRepair env.milp o.nLand (fun l m => (o.distLandLand l m : EReal)) (thr : EReal) o.table
      o.prime check [fun e => v.getD e 0] = .ok [c] →
      ∃ θ, (getCoordinates env fuel o ⟨.fin perc, [z], bump, std, check⟩).2 = .ok [θ] ∧
        (getCoordinates env fuel o ⟨.fin perc, [z], bump, std, check⟩).1.radius = some (.fin r, .fin thr) := by
    intro check c hc
    obtain ⟨cov, d0, inn, hcd⟩ := coordData_of_cocycles (env := env) (a := ⟨.fin perc, [z], bump, std, check⟩) wf hb r thr
      [liftToIntegerCocycle s o.prime]
    rw [hint, hc] at hcd
    obtain ⟨θ, hθ⟩ := hfin _ c (rfl : (CoordData.mk cov (thr : EReal) d0 inn [c]).cocycles = [c])
    have := call_of_stages (fuel := fuel) (hsel check) hrad (by simp only [List.map_cons, List.map_nil, hcs]) hcd hθ
    exact ⟨θ, this.1, this.2.1⟩
  refine ⟨r, by rw [hr2]; linarith, ?_, ?_⟩
  · rw [hr2]; exact hdone false _ rfl
  · rw [hr2]
    intro hch hcpl u hu hmod
    rw [hu0] at hu
    injection hu with hu
    subst hu
    obtain ⟨ε, τ, hτ, htol, hsound⟩ := hch.solver
    obtain ⟨N, D, hN, hD, hT⟩ := wf.table
    have key := C21_repairs_one_class_partial o.nLand N D hN hD hch.size (fun l m => (o.distLandLand l m : EReal))
      (thr : EReal) env.milp ε τ hτ htol hsound hcpl o.prime hch.prime [] [] (fun e => v.getD e 0) (by simp) (by simp)
      ((isCocycle1Mod_coe _ _ _ _ _).2 (isCocycle1Mod_congr hcong hmod))
    rw [← hT] at key
    have hequiv : (∃ c, IntegralLift1 o.prime o.nLand o.distLandLand thr (fun e => u0.getD e 0) c) ↔
        ∃ c, IntegralLift1 o.prime o.nLand (fun l m => (o.distLandLand l m : EReal)) (thr : EReal)
          (fun e => v.getD e 0) c := by
      constructor
      · rintro ⟨c, h1, h2⟩
        refine ⟨c, (isCocycle1_coe _ _ _ _).2 h1, fun e => ?_⟩
        have := dvd_sub (h2 e) (hcong e)
        simpa using this
      · rintro ⟨c, h1, h2⟩
        refine ⟨c, (isCocycle1_coe _ _ _ _).1 h1, fun e => ?_⟩
        have := dvd_add (h2 e) (hcong e)
        simpa using this
    constructor
    · intro h
      obtain ⟨c', -, hc'⟩ := key.1 (hequiv.1 h)
      exact hdone true c' hc'
    · intro h
      have hc' := key.2 (fun h' => h (hequiv.2 h'))
      obtain ⟨cov, d0, inn, hcd⟩ := coordData_of_cocycles (env := env) (a := ⟨.fin perc, [z], bump, std, true⟩) wf hb r thr
        [liftToIntegerCocycle s o.prime]
      rw [hint] at hcd
      simp only [List.nil_append] at hc'
      rw [hc'] at hcd
      exact call_error_of_stages (hsel true) hrad (by simp only [List.map_cons, List.map_nil, hcs]) hcd

/-! ### two classes -/

/-- `np.linalg.cholesky`: the lower triangular factor with positive diagonal, if there is one. -/
def CholeskySpec (chol : Cholesky) : Prop :=
  ∀ n (G : Matrix (Fin n) (Fin n) ℝ),
    (∀ L, chol n G = some L → L * Lᵀ = G ∧ (∀ i j, i < j → L i j = 0) ∧ ∀ i, 0 < L i i) ∧
    (chol n G = none → ¬ ∃ L : Matrix (Fin n) (Fin n) ℝ, L * Lᵀ = G ∧ (∀ i j, i < j → L i j = 0) ∧ ∀ i, 0 < L i i)

theorem CholeskySpec.correct {chol : Cholesky} (h : CholeskySpec chol) : CholeskyCorrect chol := fun n G L hL =>
  ⟨((h n G).1 L hL).1, ((h n G).1 L hL).2.1⟩

theorem CholeskySpec.det {chol : Cholesky} (h : CholeskySpec chol) {n : ℕ} {G L : Matrix (Fin n) (Fin n) ℝ}
    (hL : chol n G = some L) : L.det ≠ 0 := by
  obtain ⟨-, h2, h3⟩ := (h n G).1 L hL
  rw [Matrix.det_of_lowerTriangular L (fun i j hij => h2 i j hij)]
  exact (Finset.prod_pos fun i _ => h3 i).ne'

/-- **C83, two classes.** A call for two valid classes with overlapping lifetimes, where the check is off or finds both
lifted classes to be cocycles, ends for all sufficiently large numbers of iterations of the lattice reduction in the same
way: with two coordinates, or with `LinAlgError`, and the latter only if the Gram matrix of the two forms `c - δf` on the
Rips edges (with `f` the output of the least squares solver) has no Cholesky factorisation. -/
theorem C83_two_classes (env : Oracles) (hch : CholeskySpec env.cholesky) (o : ToroObj) (wf : WellFormed o)
    (hv : FieldValued o.prime o.cocycles) (z₁ z₂ : ClassArg) (b₁ d₁ b₂ d₂ : ℝ) (s₁ s₂ : SparseCochain)
    (h₁ : ValidClass o z₁ b₁ d₁ s₁) (h₂ : ValidClass o z₂ b₂ d₂ s₂) (hover : max b₁ b₂ < min d₁ d₂) (perc : ℝ)
    (std check : Bool) (hstart : (if std then 2 * max b₁ b₂ else max b₁ b₂) ≤ min d₁ d₂)
    (bump : Fl ℝ → Fl ℝ → Fl ℝ) (hb : PositiveBump bump) (r : ℝ)
    (hr : 2 * r = (1 - perc) * (if std then 2 * max b₁ b₂ else max b₁ b₂) + perc * min d₁ d₂)
    (hcoc : check = true → ∀ s ∈ [s₁, s₂], ∀ v,
      sparseCocycleToVector 1 (liftToIntegerCocycle s o.prime) o.table o.nLand = .ok v →
      IsCocycle1 o.nLand o.distLandLand (2 * r) (fun e => v.getD e 0)) :
    ((∀ fuel, (getCoordinates env fuel o ⟨.fin perc, [z₁, z₂], bump, std, check⟩).2 = .error .linAlgError) ∧
      ∃ (v : Fin 2 → List ℤ) (f : Fin 2 → ℕ → ℝ),
        (∀ i, sparseCocycleToVector 1 (liftToIntegerCocycle (![s₁, s₂] i) o.prime) o.table o.nLand = .ok (v i)) ∧
        (ExactLsq env.lsqr → ∀ i g, formEnergy o.nLand o.distLandLand r (fun e => ((v i).getD e 0 : ℤ)) (f i) ≤
          formEnergy o.nLand o.distLandLand r (fun e => ((v i).getD e 0 : ℤ)) g) ∧
        ¬ ∃ L : Matrix (Fin 2) (Fin 2) ℝ,
          L * Lᵀ = returnedGram o.nLand o.distLandLand r 1 (fun i e => (v i).getD e 0) f ∧
          (∀ i j, i < j → L i j = 0) ∧ ∀ i, 0 < L i i) ∨
    ∃ (fuel₀ : ℕ) (θ₁ θ₂ : ℕ → Fl ℝ), ∀ fuel ≥ fuel₀,
      (getCoordinates env fuel o ⟨.fin perc, [z₁, z₂], bump, std, check⟩).2 = .ok [θ₁, θ₂] ∧
      (getCoordinates env fuel o ⟨.fin perc, [z₁, z₂], bump, std, check⟩).1.radius = some (.fin r, .fin (2 * r)) := by
  obtain ⟨r', thr, hrad, hthr, hr2, -⟩ := (C24_cover_radius (max b₁ b₂) (min d₁ d₂) perc std).2 hstart
  obtain rfl : r' = r := by linarith
  subst hr2
  obtain ⟨u₁, v₁, -, hv₁, -⟩ := h₁.dense wf
  obtain ⟨u₂, v₂, -, hv₂, -⟩ := h₂.dense wf
  have hsel : (selectClasses o (Args.mk (.fin perc) [z₁, z₂] bump std check).cocycleIdxs >>= commonSupport) =
      .ok (.fin (max b₁ b₂), .fin (min d₁ d₂)) := by
    have e1 : getRepresentativeCocycle o.dgms o.cocycles z₁ 1 = .ok (.fin b₁, .fin d₁, s₁) := h₁.stored
    have e2 : getRepresentativeCocycle o.dgms o.cocycles z₂ 1 = .ok (.fin b₂, .fin d₂, s₂) := h₂.stored
    have hmax : (if Fl.lt (Fl.fin b₁) (Fl.fin b₂) = true then Fl.fin b₂ else Fl.fin b₁) = Fl.fin (max b₁ b₂) := by
      rw [Fl.lt_fin]
      by_cases h : b₁ < b₂
      · rw [if_pos (by simpa using h), max_eq_right h.le]
      · rw [if_neg (by simpa using h), max_eq_left (not_lt.1 h)]
    have hmin : (if Fl.lt (Fl.fin d₂) (Fl.fin d₁) = true then Fl.fin d₂ else Fl.fin d₁) = Fl.fin (min d₁ d₂) := by
      rw [Fl.lt_fin]
      by_cases h : d₂ < d₁
      · rw [if_pos (by simpa using h), min_eq_right h.le]
      · rw [if_neg (by simpa using h), min_eq_left (not_lt.1 h)]
    have hge : Fl.ge (Fl.fin (max b₁ b₂)) (Fl.fin (min d₁ d₂)) = false := by
      simp only [Fl.ge, Fl.isNan, Fl.lt_fin]
      simpa using hover
    simp only [selectClasses, List.mapM_cons, List.mapM_nil, e1, e2, bind, Except.bind, pure, Except.pure, commonSupport,
      pyMax, pyMin, List.map_cons, List.map_nil, List.foldl_cons, List.foldl_nil, hmax, hmin, hge, Bool.false_eq_true,
      if_false]
  have hc₁ := lifted_of_repr hv (idxs := [z₁, z₂]) (x := z₁) (by simp) h₁.stored
  have hc₂ := lifted_of_repr hv (idxs := [z₁, z₂]) (x := z₂) (by simp) h₂.stored
  have hint : integerCocycles env o ((2 * r' : ℝ) : EReal) check [liftToIntegerCocycle s₁ o.prime, liftToIntegerCocycle s₂ o.prime] =
      .ok [fun e => v₁.getD e 0, fun e => v₂.getD e 0] := by
    simp only [integerCocycles, List.mapM_cons, List.mapM_nil, hv₁, hv₂, bind, Except.bind, pure, Except.pure,
      List.map_cons, List.map_nil]
    cases check with
    | false => rfl
    | true =>
      obtain ⟨N, D, hN, hD, hT⟩ := wf.table
      have := repairLoop_append env.milp hN (show 1 ≤ D by omega) (fun l m => (o.distLandLand l m : EReal))
        ((2 * r' : ℝ) : EReal) o.prime 0 none [fun e => v₁.getD e 0, fun e => v₂.getD e 0] [] (by
          intro x hx
          rw [isCocycle1_coe]
          simp only [List.mem_cons, List.not_mem_nil, or_false] at hx
          rcases hx with rfl | rfl
          · exact hcoc rfl s₁ (by simp) v₁ hv₁
          · exact hcoc rfl s₂ (by simp) v₂ hv₂)
      rw [← hT] at this
      simp only [List.append_nil] at this
      unfold checkAndRepair
      rw [if_pos rfl, this]
      rfl
  obtain ⟨cov, d0, inn, hcd⟩ := coordData_of_cocycles (env := env) (a := ⟨.fin perc, [z₁, z₂], bump, std, check⟩) wf hb r'
    (2 * r') [liftToIntegerCocycle s₁ o.prime, liftToIntegerCocycle s₂ o.prime]
  rw [hint] at hcd
  simp only [Except.map] at hcd
  generalize hdd : (CoordData.mk cov ((2 * r' : ℝ) : EReal) d0 inn [fun e => v₁.getD e 0, fun e => v₂.getD e 0]) = dd at hcd
  have hlen : dd.cocycles.length = 2 := by rw [← hdd]; rfl
  have hcs : (Args.mk (.fin perc) [z₁, z₂] bump std check).cocycleIdxs.map (fun x =>
        ((o.cocycles.modify 1 (liftSelected o.prime [z₁, z₂])).getD 1 []).getD
        (x.pos ((o.cocycles.modify 1 (liftSelected o.prime [z₁, z₂])).getD 1 []).length) []) =
        [liftToIntegerCocycle s₁ o.prime, liftToIntegerCocycle s₂ o.prime] := by
    simp only [List.map_cons, List.map_nil, hc₁, hc₂]
  obtain ⟨-, -, hdel, -, hinn⟩ := coordData_stages hcd
  have hgr : ∃ f : Fin 2 → ℕ → ℝ,
      (ExactLsq env.lsqr → ∀ i g, formEnergy o.nLand o.distLandLand r' (fun e => ((![v₁, v₂] i).getD e 0 : ℤ)) (f i) ≤
          formEnergy o.nLand o.distLandLand r' (fun e => ((![v₁, v₂] i).getD e 0 : ℤ)) g) ∧
      ∀ i j, dd.gram env (Fin.cast hlen.symm i) (Fin.cast hlen.symm j) =
        returnedGram o.nLand o.distLandLand r' 1 (fun i e => (![v₁, v₂] i).getD e 0) f i j := by
    refine ⟨fun i => (integrateHarmonic env.lsqr (fun e => (![v₁, v₂] i).getD e 0) dd.delta0 dd.inner).2, ?_, ?_⟩
    · intro hex i g
      exact integral_minimises hex wf hdel hinn _ g
    · intro i j
      rw [gram_entries wf hdel hinn]
      have hcoc' : ∀ i : Fin 2, dd.cocycles[(Fin.cast hlen.symm i)] = fun e => (![v₁, v₂] i).getD e 0 := by
        subst hdd
        intro i
        fin_cases i <;> rfl
      unfold returnedGram
      simp only [hcoc', Matrix.one_apply, Int.cast_ite, Int.cast_one, Int.cast_zero, ite_mul, one_mul, zero_mul,
        Finset.sum_ite_eq, Finset.mem_univ, if_true]
  obtain ⟨f, hf1, hf2⟩ := hgr
  have hfin : ((∀ fuel, finishCoords env fuel o dd = .error .linAlgError) ∧ ¬ ∃ L : Matrix (Fin 2) (Fin 2) ℝ,
          L * Lᵀ = returnedGram o.nLand o.distLandLand r' 1 (fun i e => (![v₁, v₂] i).getD e 0) f ∧
          (∀ i j, i < j → L i j = 0) ∧ ∀ i, 0 < L i i) ∨
      ∃ (fuel₀ : ℕ) (θ₁ θ₂ : ℕ → Fl ℝ) (info : Option GramInfo), ∀ fuel ≥ fuel₀,
        finishCoords env fuel o dd = .ok ([θ₁, θ₂], info) := by
    have hfc : ∀ fuel, finishCoords env fuel o dd =
        ((reduceCoordinates env.cholesky fuel o.nData (dd.coords env o) (dd.gram env)).map
          fun x => (List.ofFn x.1, some x.2)) := by
      intro fuel
      unfold finishCoords
      rw [if_pos (by omega)]
      generalize reduceCoordinates env.cholesky fuel o.nData (dd.coords env o) (dd.gram env) = x
      cases x <;> rfl
    simp only [hfc]
    generalize dd.coords env o = co
    generalize dd.gram env = G at hf2 ⊢
    generalize returnedGram o.nLand o.distLandLand r' 1 (fun i e => (![v₁, v₂] i).getD e 0) f = R at hf2 ⊢
    revert co G hf2
    generalize hlen.symm = hl
    revert hl
    rw [hlen]
    intro hl co G hf2
    have hGR : G = R := by ext i j; exact hf2 i j
    subst hGR
    unfold reduceCoordinates
    rcases hL : env.cholesky 2 G with _ | L
    · left; exact ⟨fun fuel => rfl, (hch 2 G).2 hL⟩
    · right
      have hdet := hch.det hL
      obtain ⟨N, B', C, hN, -⟩ := C42_two_classes Lᵀ (by rwa [Matrix.det_transpose])
      refine ⟨N, fun p => combineAt 2 (matArr Cᵀ) (stackMaps co) 0 p, fun p => combineAt 2 (matArr Cᵀ) (stackMaps co) 1 p,
        some ⟨2, G, B' * B'ᵀ, Cᵀ⟩, fun fuel hf => ?_⟩
      simp only [hN fuel hf, linearCombination, if_true, Except.map, List.ofFn_succ, List.ofFn_zero]
      rfl
  rcases hfin with ⟨hf, hno⟩ | ⟨fuel₀, θ₁, θ₂, info, hf⟩
  · left
    refine ⟨?_, ![v₁, v₂], f, ?_, hf1, hno⟩
    swap
    · intro i; fin_cases i
      · exact hv₁
      · exact hv₂
    intro fuel
    rw [getCoordinates_eq, hsel]
    simp only [hrad]
    have hcs' := hcs
    simp only at hcs'
    simp only [hcs']
    have e1 : coordData env { o with cocycles := o.cocycles.modify 1 (liftSelected o.prime [z₁, z₂]), radius := some (.fin r', .fin (2 * r')) }
      ⟨.fin perc, [z₁, z₂], bump, std, check⟩ (.fin r', .fin (2 * r')) [liftToIntegerCocycle s₁ o.prime, liftToIntegerCocycle s₂ o.prime] = .ok dd := hcd
    rw [e1]
    have e2 : finishCoords env fuel { o with cocycles := o.cocycles.modify 1 (liftSelected o.prime [z₁, z₂]), radius := some (.fin r', .fin (2 * r')) } dd =
      .error .linAlgError := hf fuel
    simp only [e2]
  · right
    refine ⟨fuel₀, θ₁, θ₂, fun fuel hfu => ?_⟩
    have := call_of_stages (fuel := fuel) hsel hrad hcs hcd (hf fuel hfu)
    exact ⟨this.1, this.2.1⟩

/-! ### any number of classes -/

/-- A selected class: the argument, its birth and death, and the stored array. -/
structure Selected where
  arg : ClassArg
  birth : ℝ
  death : ℝ
  array : SparseCochain

/-- The arguments select the valid classes `cl`, whose common support is the non-empty interval from `B` (the latest birth)
to `Dt` (the earliest death), and which is long enough; `r` is half the threshold at fraction `perc`. -/
structure SelectedClasses (o : ToroObj) (cl : List Selected) (perc : ℝ) (std : Bool) (B Dt r : ℝ) : Prop where
  valid : ∀ x ∈ cl, ValidClass o x.arg x.birth x.death x.array
  latest : IsGreatest {b | ∃ x ∈ cl, x.birth = b} B
  earliest : IsLeast {d | ∃ x ∈ cl, x.death = d} Dt
  overlap : B < Dt
  long : (if std then 2 * B else B) ≤ Dt
  radius : 2 * r = (1 - perc) * (if std then 2 * B else B) + perc * Dt

theorem mapM_repr1 {o : ToroObj} {cl : List Selected} (h : ∀ x ∈ cl, ValidClass o x.arg x.birth x.death x.array) :
    (cl.map Selected.arg).mapM (repr1 o) =
      .ok (cl.map fun x => (Fl.fin x.birth, Fl.fin x.death, x.array)) := by
  induction cl with
  | nil => rfl
  | cons x cl ih =>
    simp only [List.map_cons, List.mapM_cons, (h x (by simp)).stored, ih fun y hy => h y (by simp [hy]), bind, Except.bind,
      pure, Except.pure]

theorem SelectedClasses.support {o : ToroObj} {cl : List Selected} {perc : ℝ} {std : Bool} {B Dt r : ℝ}
    (h : SelectedClasses o cl perc std B Dt r) :
    (selectClasses o (cl.map Selected.arg) >>= commonSupport) = .ok (.fin B, .fin Dt) := by
  obtain ⟨x0, hx0, -⟩ := h.latest.1
  have hm := mapM_repr1 h.valid
  cases cl with
  | nil => simp at hx0
  | cons x cl =>
    rw [List.map_cons (f := fun x : Selected => (Fl.fin x.birth, Fl.fin x.death, x.array))] at hm
    have hs : selectClasses o ((x :: cl).map Selected.arg) = .ok _ :=
      selectClasses_iff (sel := (_, _)).2 hm
    rw [hs]
    have hmem : ∀ s ∈ (Fl.fin x.birth, Fl.fin x.death, x.array) ::
        cl.map (fun x => (Fl.fin x.birth, Fl.fin x.death, x.array)),
        ∃ y ∈ x :: cl, s = (Fl.fin y.birth, Fl.fin y.death, y.array) := by
      intro s hs'
      rw [← List.map_cons (f := fun x : Selected => (Fl.fin x.birth, Fl.fin x.death, x.array))] at hs'
      obtain ⟨y, hy, rfl⟩ := List.mem_map.1 hs'
      exact ⟨y, hy, rfl⟩
    have hmem' : ∀ y ∈ x :: cl, (Fl.fin y.birth, Fl.fin y.death, y.array) ∈ (Fl.fin x.birth, Fl.fin x.death, x.array) ::
        cl.map (fun x => (Fl.fin x.birth, Fl.fin x.death, x.array)) := by
      intro y hy
      rw [← List.map_cons (f := fun x : Selected => (Fl.fin x.birth, Fl.fin x.death, x.array))]
      exact List.mem_map.2 ⟨y, hy, rfl⟩
    have hle : ∀ y ∈ x :: cl, y.birth ≤ B := fun y hy => h.latest.2 ⟨y, hy, rfl⟩
    have hge : ∀ y ∈ x :: cl, Dt ≤ y.death := fun y hy => h.earliest.2 ⟨y, hy, rfl⟩
    rcases commonSupport_spec ((Fl.fin x.birth, Fl.fin x.death, x.array),
        cl.map (fun x => (Fl.fin x.birth, Fl.fin x.death, x.array))) (by
          intro s hs'
          obtain ⟨y, -, rfl⟩ := hmem s hs'
          simp) with ⟨-, s, hs', t, ht, hst⟩ | ⟨b, d, hok, ⟨s, hs', e1⟩, ⟨t, ht, e2⟩, hb, hd, -⟩
    · obtain ⟨y, hy, rfl⟩ := hmem s hs'
      obtain ⟨y', hy', rfl⟩ := hmem t ht
      simp only [ripsThr, EReal.coe_le_coe_iff] at hst
      linarith [hle y hy, hge y' hy', h.overlap]
    · obtain ⟨y, hy, rfl⟩ := hmem s hs'
      obtain ⟨y', hy', rfl⟩ := hmem t ht
      subst e1 e2
      obtain ⟨w, hw, ew⟩ := h.latest.1
      obtain ⟨w', hw', ew'⟩ := h.earliest.1
      have h1 := hb _ (hmem' w hw)
      have h2 := hd _ (hmem' w' hw')
      simp only [ripsThr, EReal.coe_le_coe_iff] at h1 h2
      have e3 : y.birth = B := le_antisymm (hle y hy) (ew ▸ h1)
      have e4 : y'.death = Dt := le_antisymm (ew' ▸ h2) (hge y' hy')
      simp only [bind, Except.bind]
      rw [hok, ← e3, ← e4]

/-- An error of the check-and-repair step is the error of the call. -/
theorem call_repair_error (env : Oracles) (fuel : ℕ) {o : ToroObj} (wf : WellFormed o)
    (hv : FieldValued o.prime o.cocycles) {cl : List Selected} {perc : ℝ} {std : Bool} {B Dt r : ℝ}
    (h : SelectedClasses o cl perc std B Dt r) {bump : Fl ℝ → Fl ℝ → Fl ℝ} (hb : PositiveBump bump) {vs : List (List ℤ)}
    (hvs : List.Forall₂ (fun x v =>
      sparseCocycleToVector 1 (liftToIntegerCocycle x.array o.prime) o.table o.nLand = .ok v) cl vs) {check : Bool} {e : PyErr}
    (herr : checkAndRepair env.milp o.nLand (fun l m => (o.distLandLand l m : EReal)) ((2 * r : ℝ) : EReal) o.table o.prime
      check (vs.map fun v e => v.getD e 0) = .error e) :
    (getCoordinates env fuel o ⟨.fin perc, cl.map Selected.arg, bump, std, check⟩).2 = .error e := by
  obtain ⟨r', thr, hrad, hthr, hr2, -⟩ := (C24_cover_radius B Dt perc std).2 h.long
  obtain rfl : r' = r := by have := h.radius; linarith
  subst hr2
  have hint : integerCocycles env o ((2 * r' : ℝ) : EReal) check (cl.map fun x => liftToIntegerCocycle x.array o.prime) =
      .error e := by
    have hm : (cl.map fun x => liftToIntegerCocycle x.array o.prime).mapM
        (fun c => sparseCocycleToVector 1 c o.table o.nLand) = .ok vs := by
      clear herr h
      induction hvs with
      | nil => rfl
      | cons h1 _ ih => simp only [List.map_cons, List.mapM_cons, h1, ih, bind, Except.bind, pure, Except.pure]
    unfold integerCocycles
    rw [hm]
    exact herr
  obtain ⟨cov, d0, inn, hcd⟩ := coordData_of_cocycles (env := env)
    (a := ⟨.fin perc, cl.map Selected.arg, bump, std, check⟩) wf hb r' (2 * r')
    (cl.map fun x => liftToIntegerCocycle x.array o.prime)
  rw [hint] at hcd
  refine call_error_of_stages h.support hrad ?_ hcd
  simp only [List.map_map]
  refine List.map_congr_left fun x hx => ?_
  exact lifted_of_repr hv (idxs := cl.map Selected.arg) (x := x.arg) (List.mem_map.2 ⟨x, hx, rfl⟩) (h.valid x hx).stored

/-- The lifted array of the class, as a dense vector, is an integer cocycle on the Rips complex at the threshold `t`. -/
def LiftIsCocycle (o : ToroObj) (t : ℝ) (s : SparseCochain) : Prop :=
  ∀ v, sparseCocycleToVector 1 (liftToIntegerCocycle s o.prime) o.table o.nLand = .ok v →
    IsCocycle1 o.nLand o.distLandLand t (fun e => v.getD e 0)

/-- The stored array of the class is a cocycle modulo the prime. -/
def StoredIsCocycleMod (o : ToroObj) (t : ℝ) (s : SparseCochain) : Prop :=
  ∀ u, sparseCocycleToVector 1 s o.table o.nLand = .ok u →
    IsCocycle1Mod o.prime o.nLand o.distLandLand t (fun e => u.getD e 0)

/-- The stored array of the class is congruent to an integer cocycle modulo the prime. -/
def HasIntegralLift (o : ToroObj) (t : ℝ) (s : SparseCochain) : Prop :=
  ∃ u c, sparseCocycleToVector 1 s o.table o.nLand = .ok u ∧
    IntegralLift1 o.prime o.nLand o.distLandLand t (fun e => u.getD e 0) c

/-- The dense lifted vectors of valid classes. -/
theorem dense_lifts {o : ToroObj} (wf : WellFormed o) {cl : List Selected}
    (h : ∀ x ∈ cl, ValidClass o x.arg x.birth x.death x.array) :
    ∃ vs : List (List ℤ), List.Forall₂ (fun x v =>
      sparseCocycleToVector 1 (liftToIntegerCocycle x.array o.prime) o.table o.nLand = .ok v) cl vs := by
  induction cl with
  | nil => exact ⟨[], .nil⟩
  | cons x cl ih =>
    obtain ⟨vs, hvs⟩ := ih fun y hy => h y (by simp [hy])
    obtain ⟨-, v, -, hv, -⟩ := (h x (by simp)).dense wf
    exact ⟨v :: vs, .cons hv hvs⟩

theorem cocycles_of_lifts {o : ToroObj} {t : ℝ} {cl : List Selected} {vs : List (List ℤ)}
    (hvs : List.Forall₂ (fun x v =>
      sparseCocycleToVector 1 (liftToIntegerCocycle x.array o.prime) o.table o.nLand = .ok v) cl vs)
    (h : ∀ x ∈ cl, LiftIsCocycle o t x.array) :
    ∀ c ∈ vs.map (fun v (e : ℕ) => v.getD e 0), IsCocycle1 o.nLand (fun l m => (o.distLandLand l m : EReal)) (t : EReal) c := by
  induction hvs with
  | nil => simp
  | cons h1 _ ih =>
    intro c hc
    rw [List.map_cons, List.mem_cons] at hc
    rcases hc with rfl | hc
    · exact (isCocycle1_coe _ _ _ _).2 (h _ (by simp) _ h1)
    · exact ih (fun x hx => h x (by simp [hx])) c hc

/-- **C21 is false (whole call).** Two of the selected classes are not integer cocycles after lifting (all classes selected
before the second one but the first are): even if the first one has an integral lift, and whether or not the second one has
one, the call raises a `ValueError`, with any complete solver. -/
theorem C21_second_repair_crashes_call (env : Oracles) (fuel : ℕ) (o : ToroObj) (wf : WellFormed o) (hsize : o.nLand ≤ 2345)
    (hp : 0 < o.prime) (hv : FieldValued o.prime o.cocycles) (pre mid post : List Selected) (x₁ x₂ : Selected) (perc : ℝ)
    (std : Bool) (B Dt r : ℝ) (h : SelectedClasses o (pre ++ x₁ :: (mid ++ x₂ :: post)) perc std B Dt r)
    (bump : Fl ℝ → Fl ℝ → Fl ℝ) (hb : PositiveBump bump) (hcpl : SolverComplete env.milp)
    (hpre : ∀ x ∈ pre, LiftIsCocycle o (2 * r) x.array) (hmid : ∀ x ∈ mid, LiftIsCocycle o (2 * r) x.array)
    (h₁ : ¬ LiftIsCocycle o (2 * r) x₁.array) (h₂ : ¬ LiftIsCocycle o (2 * r) x₂.array)
    (hmod : StoredIsCocycleMod o (2 * r) x₁.array) (hlift : HasIntegralLift o (2 * r) x₁.array) :
    (getCoordinates env fuel o ⟨.fin perc, (pre ++ x₁ :: (mid ++ x₂ :: post)).map Selected.arg, bump, std, true⟩).2 =
      .error .valueError := by
  obtain ⟨vpre, hvpre⟩ := dense_lifts wf (cl := pre) fun x hx => h.valid x (by simp [hx])
  obtain ⟨vmid, hvmid⟩ := dense_lifts wf (cl := mid) fun x hx => h.valid x (by simp [hx])
  obtain ⟨vpost, hvpost⟩ := dense_lifts wf (cl := post) fun x hx => h.valid x (by simp [hx])
  obtain ⟨u₁, v₁, hu₁, hv₁, hc₁⟩ := (h.valid x₁ (by simp)).dense wf
  obtain ⟨u₂, v₂, hu₂, hv₂, hc₂⟩ := (h.valid x₂ (by simp)).dense wf
  obtain ⟨N, D, hN, hD, hT⟩ := wf.table
  have hn₁ : ¬ IsCocycle1 o.nLand (fun l m => (o.distLandLand l m : EReal)) ((2 * r : ℝ) : EReal) (fun e => v₁.getD e 0) := by
    rw [isCocycle1_coe]
    intro hc
    refine h₁ fun v hv' => ?_
    rw [hv₁] at hv'
    injection hv' with hv'
    subst hv'
    exact hc
  have hn₂ : ¬ IsCocycle1 o.nLand (fun l m => (o.distLandLand l m : EReal)) ((2 * r : ℝ) : EReal) (fun e => v₂.getD e 0) := by
    rw [isCocycle1_coe]
    intro hc
    refine h₂ fun v hv' => ?_
    rw [hv₂] at hv'
    injection hv' with hv'
    subst hv'
    exact hc
  have key := C21_second_repair_crashes o.nLand N D hN hD hsize (fun l m => (o.distLandLand l m : EReal))
    ((2 * r : ℝ) : EReal) env.milp hcpl o.prime hp (vpre.map fun v e => v.getD e 0) (vmid.map fun v e => v.getD e 0)
    (vpost.map fun v e => v.getD e 0) (fun e => v₁.getD e 0) (fun e => v₂.getD e 0) (cocycles_of_lifts hvpre hpre)
    (cocycles_of_lifts hvmid hmid)
    ((isCocycle1Mod_coe _ _ _ _ _).2 (isCocycle1Mod_congr hc₁ (hmod u₁ hu₁))) (by
      obtain ⟨u, c, hu, hco, hcong⟩ := hlift
      rw [hu₁] at hu
      injection hu with hu
      subst hu
      refine ⟨c, (isCocycle1_coe _ _ _ _).2 hco, fun e => ?_⟩
      have := dvd_sub (hcong e) (hc₁ e)
      simpa using this) hn₁ hn₂
  rw [← hT] at key
  refine call_repair_error env fuel wf hv h hb (vs := vpre ++ v₁ :: (vmid ++ v₂ :: vpost)) ?_ ?_
  · exact List.rel_append hvpre (.cons hv₁ (List.rel_append hvmid (.cons hv₂ hvpost)))
  · simpa only [List.map_append, List.map_cons] using key

/-- **C23 (partial, whole call).** If all selected classes but one are integer cocycles after lifting, and that one is a
cocycle modulo the prime without an integral lift, the message names its *position* among the selected classes.
Missing: it is not the class index the user passed (`C23_wrong_index_call`). -/
theorem C23_error_position_call_partial (env : Oracles) (fuel : ℕ) (o : ToroObj) (wf : WellFormed o)
    (hv : FieldValued o.prime o.cocycles) (pre post : List Selected) (x : Selected) (perc : ℝ)
    (std : Bool) (B Dt r : ℝ) (h : SelectedClasses o (pre ++ x :: post) perc std B Dt r)
    (bump : Fl ℝ → Fl ℝ → Fl ℝ) (hb : PositiveBump bump)
    (hch : CheckedCall env o ⟨.fin perc, (pre ++ x :: post).map Selected.arg, bump, std, true⟩)
    (hcpl : SolverComplete env.milp)
    (hpre : ∀ y ∈ pre, LiftIsCocycle o (2 * r) y.array) (hpost : ∀ y ∈ post, LiftIsCocycle o (2 * r) y.array)
    (hmod : StoredIsCocycleMod o (2 * r) x.array) (hno : ¬ HasIntegralLift o (2 * r) x.array) :
    (getCoordinates env fuel o ⟨.fin perc, (pre ++ x :: post).map Selected.arg, bump, std, true⟩).2 =
      .error (.noIntegralLift pre.length) := by
  obtain ⟨vpre, hvpre⟩ := dense_lifts wf (cl := pre) fun x hx => h.valid x (by simp [hx])
  obtain ⟨vpost, hvpost⟩ := dense_lifts wf (cl := post) fun x hx => h.valid x (by simp [hx])
  obtain ⟨u₁, v₁, hu₁, hv₁, hc₁⟩ := (h.valid x (by simp)).dense wf
  obtain ⟨N, D, hN, hD, hT⟩ := wf.table
  obtain ⟨ε, τ, hτ, htol, hsound⟩ := hch.solver
  have key := C23_error_position_partial o.nLand N D hN hD hch.size (fun l m => (o.distLandLand l m : EReal))
    ((2 * r : ℝ) : EReal) env.milp ε τ hτ htol hsound hcpl o.prime hch.prime (vpre.map fun v e => v.getD e 0)
    (vpost.map fun v e => v.getD e 0) (fun e => v₁.getD e 0) (cocycles_of_lifts hvpre hpre)
    (cocycles_of_lifts hvpost hpost)
    ((isCocycle1Mod_coe _ _ _ _ _).2 (isCocycle1Mod_congr hc₁ (hmod u₁ hu₁))) (by
      rintro ⟨c, hco, hcong⟩
      refine hno ⟨u₁, c, hu₁, (isCocycle1_coe _ _ _ _).1 hco, fun e => ?_⟩
      have := dvd_add (hcong e) (hc₁ e)
      simpa using this)
  rw [← hT, List.length_map, ← hvpre.length_eq] at key
  refine call_repair_error env fuel wf hv h hb (vs := vpre ++ v₁ :: vpost) ?_ ?_
  · exact List.rel_append hvpre (.cons hv₁ hvpost)
  · simpa only [List.map_append, List.map_cons] using key

/-- **C20 (whole call).** For a single valid class that is a cocycle modulo the prime, with a correct and complete solver,
the call fails with the message about integral lifts iff the class has no integral lift, and otherwise returns one
coordinate. -/
theorem C20_error_iff_no_lift_call (env : Oracles) (fuel : ℕ) (o : ToroObj) (wf : WellFormed o)
    (hv : FieldValued o.prime o.cocycles) (z : ClassArg) (b d : ℝ) (s : SparseCochain)
    (hz : ValidClass o z b d s) (perc : ℝ) (std : Bool) (hstart : (if std then 2 * b else b) ≤ d)
    (bump : Fl ℝ → Fl ℝ → Fl ℝ) (hb : PositiveBump bump) (hch : CheckedCall env o ⟨.fin perc, [z], bump, std, true⟩)
    (hcpl : SolverComplete env.milp) (r : ℝ) (hr : 2 * r = (1 - perc) * (if std then 2 * b else b) + perc * d)
    (hmod : StoredIsCocycleMod o (2 * r) s) :
    ((∃ i, (getCoordinates env fuel o ⟨.fin perc, [z], bump, std, true⟩).2 = .error (.noIntegralLift i)) ↔
      ¬ HasIntegralLift o (2 * r) s) ∧
    (HasIntegralLift o (2 * r) s → ∃ θ, (getCoordinates env fuel o ⟨.fin perc, [z], bump, std, true⟩).2 = .ok [θ]) := by
  obtain ⟨r', hr', -, h⟩ := C83_one_class env fuel o wf hv z b d s hz perc std hstart bump hb
  obtain rfl : r' = r := by linarith
  obtain ⟨u, v, hu, -, -⟩ := hz.dense wf
  obtain ⟨h1, h2⟩ := h hch hcpl u hu (hmod u hu)
  have hl : HasIntegralLift o (2 * r') s ↔
      ∃ c, IntegralLift1 o.prime o.nLand o.distLandLand (2 * r') (fun e => u.getD e 0) c := by
    constructor
    · rintro ⟨u', c, hu', hc⟩
      rw [hu] at hu'
      injection hu' with hu'
      subst hu'
      exact ⟨c, hc⟩
    · rintro ⟨c, hc⟩
      exact ⟨u, c, hu, hc⟩
  have h1' : HasIntegralLift o (2 * r') s →
      ∃ θ, (getCoordinates env fuel o ⟨.fin perc, [z], bump, std, true⟩).2 = .ok [θ] := by
    intro hh
    obtain ⟨θ, hθ, -⟩ := h1 (hl.1 hh)
    exact ⟨θ, hθ⟩
  refine ⟨⟨?_, fun hh => ⟨0, h2 fun h' => hh (hl.2 h')⟩⟩, h1'⟩
  rintro ⟨i, hi⟩ hh
  obtain ⟨θ, hθ⟩ := h1' hh
  rw [hθ] at hi
  cases hi

/-- **C23 is false (whole call).** If the user selects the single class `idx`, a valid class that is a cocycle modulo the
prime and has no integral lift, `get_coordinates` fails with a message that names class `0`, so for every `idx ≠ 0` it
names the wrong class. -/
theorem C23_wrong_index_call (env : Oracles) (fuel : ℕ) (o : ToroObj) (wf : WellFormed o)
    (hv : FieldValued o.prime o.cocycles) (idx : ℤ) (hidx : idx ≠ 0) (b d : ℝ) (s : SparseCochain)
    (hz : ValidClass o (.int idx) b d s) (perc : ℝ) (std : Bool) (hstart : (if std then 2 * b else b) ≤ d)
    (bump : Fl ℝ → Fl ℝ → Fl ℝ) (hb : PositiveBump bump) (hch : CheckedCall env o ⟨.fin perc, [.int idx], bump, std, true⟩)
    (hcpl : SolverComplete env.milp) (r : ℝ) (hr : 2 * r = (1 - perc) * (if std then 2 * b else b) + perc * d)
    (u : List ℤ) (hu : sparseCocycleToVector 1 s o.table o.nLand = .ok u)
    (hc : IsCocycle1Mod o.prime o.nLand o.distLandLand (2 * r) (fun e => u.getD e 0))
    (hno : ¬ ∃ c, IntegralLift1 o.prime o.nLand o.distLandLand (2 * r) (fun e => u.getD e 0) c) :
    ∃ i, (getCoordinates env fuel o ⟨.fin perc, [.int idx], bump, std, true⟩).2 = .error (.noIntegralLift i) ∧ i ≠ idx := by
  obtain ⟨r', hr', -, h⟩ := C83_one_class env fuel o wf hv (.int idx) b d s hz perc std hstart bump hb
  obtain rfl : r' = r := by linarith
  exact ⟨0, (h hch hcpl u hu hc).2 hno, hidx.symm⟩

end Dreimac
