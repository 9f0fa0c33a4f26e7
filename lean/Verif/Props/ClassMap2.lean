import Mathlib.GroupTheory.Perm.Fin
import Mathlib.GroupTheory.Perm.Sign
import Verif.Lemmas.ClassMap2
import Verif.Props.ClassMap

/-!
# C50, C51, C52: the coordinates returned by `ComplexProjectiveCoords`
-/

namespace Dreimac

open Real

/-! ### C52: the tensors -/

section tensors
variable {K : Type} [LinearOrder K]

/-- **C52 (one-cochains).** The tensor of a 1-cochain is antisymmetric, agrees with the cochain on the edges of the Rips
complex and vanishes on pairs that are not edges. -/
theorem C52_one_tensor (n N D : ℕ) (hn : n ≤ N) (hD : 1 ≤ D) (dist : ℕ → ℕ → K) (t : K) (ν : ℕ → ℝ) :
    (∀ a b, oneTensor ν n dist t (cnsTable N D) b a = -oneTensor ν n dist t (cnsTable N D) a b) ∧
    (∀ a b, RipsEdge n dist t a b → oneTensor ν n dist t (cnsTable N D) a b = ν (edgeIdx a b)) ∧
    ∀ a b, (¬ RipsEdge n dist t a b ∧ ¬ RipsEdge n dist t b a) → oneTensor ν n dist t (cnsTable N D) a b = 0 := by
  refine ⟨fun a b => ?_, fun a b h => ?_, fun a b h => ?_⟩
  · rw [oneTensor_apply hn hD, oneTensor_apply hn hD, edgeVal_antisymm ν a b]
    by_cases h : RipsRel n dist t a b
    · rw [if_pos h, if_pos h.symm]
    · rw [if_neg h, if_neg (fun h' => h h'.symm), neg_zero]
  · rw [oneTensor_apply hn hD, if_pos (show RipsRel n dist t a b from Or.inr (Or.inl h)), edgeVal, if_pos h.1]
  · rw [oneTensor_apply hn hD]
    split
    · next h' =>
      rcases h' with rfl | h' | h'
      · exact edgeVal_self ν a
      · exact absurd h' h.1
      · exact absurd h' h.2
    · rfl

/-- **C52 (two-cochains).** The tensor of a 2-cochain is multiplied by the sign of a permutation of its three indices,
agrees with the cochain on the triangles of the Rips complex and vanishes on triples that are not, in any order, the
vertices of a triangle (in particular if two indices agree). -/
theorem C52_two_tensor (n N D : ℕ) (hn : n ≤ N) (hD : 2 ≤ D) (dist : ℕ → ℕ → K) (t : K) (c : ℕ → ℝ) :
    (∀ (v : Fin 3 → ℕ) (σ : Equiv.Perm (Fin 3)),
      twoTensor c n dist t (cnsTable N D) (v (σ 0)) (v (σ 1)) (v (σ 2)) =
        (Equiv.Perm.sign σ : ℤ) * twoTensor c n dist t (cnsTable N D) (v 0) (v 1) (v 2)) ∧
    (∀ i j k, RipsTriangle n dist t i j k → twoTensor c n dist t (cnsTable N D) i j k = c (triIdx i j k)) ∧
    ∀ v : Fin 3 → ℕ, (∀ σ : Equiv.Perm (Fin 3), ¬ RipsTriangle n dist t (v (σ 0)) (v (σ 1)) (v (σ 2))) →
      twoTensor c n dist t (cnsTable N D) (v 0) (v 1) (v 2) = 0 := by
  have w12 : ∀ {a b d}, RipsRel3 n dist t a b d → RipsRel3 n dist t b a d := fun h => ⟨h.1.symm, h.2.2, h.2.1⟩
  have w23 : ∀ {a b d}, RipsRel3 n dist t a b d → RipsRel3 n dist t a d b := fun h => ⟨h.2.2, h.2.1.symm, h.1⟩
  have s12 : ∀ a b d, twoTensor c n dist t (cnsTable N D) b a d = -twoTensor c n dist t (cnsTable N D) a b d := by
    intro a b d
    rw [twoTensor_apply hn hD, twoTensor_apply hn hD, triVal_swap12 c a b d]
    by_cases h : RipsRel3 n dist t a b d
    · rw [if_pos h, if_pos (w12 h)]
    · rw [if_neg h, if_neg (fun h' => h (w12 h')), neg_zero]
  have s23 : ∀ a b d, twoTensor c n dist t (cnsTable N D) a d b = -twoTensor c n dist t (cnsTable N D) a b d := by
    intro a b d
    rw [twoTensor_apply hn hD, twoTensor_apply hn hD, triVal_swap23 c a b d]
    by_cases h : RipsRel3 n dist t a b d
    · rw [if_pos h, if_pos (w23 h)]
    · rw [if_neg h, if_neg (fun h' => h (w23 h')), neg_zero]
  have tri : ∀ i j k, RipsTriangle n dist t i j k → twoTensor c n dist t (cnsTable N D) i j k = c (triIdx i j k) := by
    intro i j k h
    rw [twoTensor_apply hn hD, if_pos ⟨Or.inr (Or.inl h.1), Or.inr (Or.inl h.2.1), Or.inr (Or.inl h.2.2)⟩,
      triVal_sorted c h.1.1 h.2.1.1]
  refine ⟨fun v σ => ?_, tri, fun v hv => ?_⟩
  · revert v
    induction σ using Equiv.Perm.swap_induction_on' with
    | one => intro v; simp
    | mul_swap f x y hxy ih =>
      intro v
      rw [Equiv.Perm.sign_mul, Equiv.Perm.sign_swap hxy]
      have key : ∀ u : Fin 3 → ℕ, twoTensor c n dist t (cnsTable N D) (u (Equiv.swap x y 0)) (u (Equiv.swap x y 1)) (u (Equiv.swap x y 2)) =
          -twoTensor c n dist t (cnsTable N D) (u 0) (u 1) (u 2) := by
        intro u
        have s13 : ∀ a b d, twoTensor c n dist t (cnsTable N D) d b a = -twoTensor c n dist t (cnsTable N D) a b d := by
          intro a b d; rw [s12 b d a, s23 b a d, s12 a b d]; ring
        fin_cases x <;> fin_cases y <;> simp at hxy <;>
          first
          | exact s12 _ _ _
          | exact s23 _ _ _
          | exact s13 _ _ _
      have := key (fun z => v (f z))
      simp only [Equiv.Perm.mul_apply]
      rw [this, ih v]
      push_cast; ring
  · rw [twoTensor_apply hn hD]
    split
    · next h =>
      obtain ⟨r1, r2, r3⟩ := h
      by_contra hne
      have n12 : v 0 ≠ v 1 := fun e => hne (by rw [e, triVal_self12])
      have n23 : v 1 ≠ v 2 := fun e => hne (by rw [e, triVal_self23])
      have n13 : v 0 ≠ v 2 := fun e => hne (by rw [e, triVal_self13])
      have key : ∀ σ : Equiv.Perm (Fin 3), v (σ 0) < v (σ 1) → v (σ 1) < v (σ 2) → False := by
        intro σ h1 h2
        have rel : ∀ x y : Fin 3, RipsRel n dist t (v x) (v y) := by
          intro x y
          fin_cases x <;> fin_cases y <;>
            first
            | exact Or.inl rfl
            | exact r1
            | exact r2
            | exact r3
            | exact r1.symm
            | exact r2.symm
            | exact r3.symm
        exact hv σ ⟨ripsRel_of_lt (rel _ _) h1, ripsRel_of_lt (rel _ _) h2, ripsRel_of_lt (rel _ _) (h1.trans h2)⟩
      have k1 := key 1
      have k2 := key (Equiv.swap 0 1)
      have k3 := key (Equiv.swap 1 2)
      have k4 := key (Equiv.swap 0 2)
      have k5 := key (Equiv.swap 0 1 * Equiv.swap 1 2)
      have k6 := key (Equiv.swap 1 2 * Equiv.swap 0 1)
      have e : (Equiv.swap (0 : Fin 3) 1) 0 = 1 ∧ (Equiv.swap (0 : Fin 3) 1) 1 = 0 ∧ (Equiv.swap (0 : Fin 3) 1) 2 = 2 ∧
          (Equiv.swap (1 : Fin 3) 2) 0 = 0 ∧ (Equiv.swap (1 : Fin 3) 2) 1 = 2 ∧ (Equiv.swap (1 : Fin 3) 2) 2 = 1 ∧
          (Equiv.swap (0 : Fin 3) 2) 0 = 2 ∧ (Equiv.swap (0 : Fin 3) 2) 1 = 1 ∧ (Equiv.swap (0 : Fin 3) 2) 2 = 0 := by decide
      obtain ⟨e1, e2, e3, e4, e5, e6, e7, e8, e9⟩ := e
      simp only [Equiv.Perm.one_apply, Equiv.Perm.mul_apply, e1, e2, e3, e4, e5, e6, e7, e8, e9] at k1 k2 k3 k4 k5 k6
      rcases n12.lt_or_gt with h1 | h1 <;> rcases n23.lt_or_gt with h2 | h2 <;> rcases n13.lt_or_gt with h3 | h3 <;>
        first
        | exact k1 h1 h2
        | exact k2 h1 h3
        | exact k3 h3 h2
        | exact k4 h2 h1
        | exact k5 h2 h3
        | exact k6 h3 h1
        | omega
    · rfl

/-- The tensor of a concrete 2-cochain on four mutually close landmarks. -/
example : twoTensor (fun e => if e = 0 then (5 : ℝ) else 0) 4 (fun _ _ => (0 : ℝ)) 1 (cnsTable 4 2) 2 1 0 = -5 := by
  obtain ⟨h1, h2, -⟩ := C52_two_tensor 4 4 2 le_rfl le_rfl (fun _ _ => (0 : ℝ)) 1 (fun e => if e = 0 then (5 : ℝ) else 0)
  have := h1 ![0, 1, 2] (Equiv.swap 0 2)
  have e : (Equiv.swap (0 : Fin 3) 2) 0 = 2 ∧ (Equiv.swap (0 : Fin 3) 2) 1 = 1 ∧ (Equiv.swap (0 : Fin 3) 2) 2 = 0 := by decide
  rw [e.1, e.2.1, e.2.2, Equiv.Perm.sign_swap (by decide)] at this
  have tr : RipsTriangle 4 (fun _ _ => (0 : ℝ)) 1 0 1 2 := by
    refine ⟨⟨?_, ?_, ?_⟩, ⟨?_, ?_, ?_⟩, ⟨?_, ?_, ?_⟩⟩ <;> norm_num
  have t012 := h2 0 1 2 tr
  simp only [Matrix.cons_val_zero, Matrix.cons_val_one, Matrix.cons_val] at this
  rw [this, t012]
  norm_num [triIdx]

end tensors

/-! ### the class map of a call -/

/-- What the constructor guarantees about a `ComplexProjectiveCoords` object built from a floating point distance matrix
(`maxdim ≥ 2`); the number of landmarks is below the bound where the 32-bit indices of the coboundary matrix overflow
(see C16). -/
structure CPWellFormed (o : ProjObj) : Prop extends ProjWellFormed o where
  table : ∃ N D, o.nLand ≤ N ∧ 3 ≤ D ∧ o.table = cnsTable N D
  size : o.nLand ≤ 2345

/-- The vector that the compiled assembly step assigns to data point `i` using the ball of landmark `l`: `cpVector`, unless
the class map has at most `10 ^ 6` bytes, when all phases are lost (C51). -/
noncomputable def cpAssigned (L N : ℕ) (dll : ℕ → ℕ → ℝ) (r : ℝ) (w : ℕ → ℕ → ℝ) (c : ℕ → ℤ) (ν : ℕ → ℝ) (l i m : ℕ) : ℂ :=
  if 8 * L * N ≤ 10 ^ 6 then ((√(w m i) : ℝ) : ℂ) else cpVector L dll r w c ν l i m

section
variable {env : CPOracles} {fuel : ℕ} {o : ProjObj} {a : ProjArgs} {X : Arr ℂ} {r t : ℝ}

theorem assembled_eq {L N : ℕ} {dist dll : ℕ → ℕ → ℝ} {w : ℕ → ℕ → ℝ} (hw : IsPartitionOfUnity L dist r w)
    {cov : Covering ℝ} (h1 : ∀ i, (∃ m, InBall L dist r m i) → ∀ l, cov.varphi l i = .fin (w l i))
    (h2 : ∀ i, (¬ ∃ m, InBall L dist r m i) → ∀ l, cov.varphi l i = .nan) {nu : ℕ → ℕ → ℝ} {eta : ℕ → ℕ → ℕ → ℝ}
    {c : ℕ → ℤ} {ν : ℕ → ℝ} (hnu : ∀ a b, nu a b = nuForm L dll r ν a b)
    (heta : ∀ a b d, eta a b d = etaForm L dll r c ν a b d) :
    assembled L N nu eta cov = classMapVia L N dist r (cpAssigned L N dll r w c ν) cov.ballIndx := by
  unfold assembled classMapVia
  simp only [Arr.mk.injEq, true_and]
  funext i m
  by_cases hi : ∃ m, InBall L dist r m i
  · by_cases h : i < N ∧ m < L
    · rw [if_pos h, if_pos (c := i < N ∧ m < L ∧ ∃ m, InBall L dist r m i) ⟨h.1, h.2, hi⟩, h1 i hi, oSqrt_fin (hw.nonneg m i hi), accumulate_fin (h1 i hi)]
      unfold frozenClosure cpAssigned
      by_cases hs : 8 * L * N ≤ 10 ^ 6
      · simp only [hs, decide_true, if_true, oPhase, oMul, Option.map_some, Option.bind_some]
        simp
      · simp only [hs, decide_false, Bool.false_eq_true, if_false, oPhase, oMul, Option.map_some, Option.bind_some, cpVector,
          cpPhase, hnu, heta]
    · rw [if_neg h, if_neg (fun h' => h ⟨h'.1, h'.2.1⟩)]
  · rw [h2 i hi, if_neg (c := i < N ∧ m < L ∧ ∃ m, InBall L dist r m i) (fun h' => hi h'.2.2)]
    split
    · unfold oMul
      simp only [oSqrt, Option.map_none]
      generalize oPhase _ = z
      cases z <;> rfl
    · rfl

/-- The data of a successful call. -/
theorem cp_call (wf : CPWellFormed o) (hb : PositiveBump a.bump) (hok : (cpGetCoordinates env fuel o a).2 = .ok X)
    (hr : (cpGetCoordinates env fuel o a).1.radius = some (.fin r, .fin t)) {b d : Fl ℝ} {s : SparseCochain}
    (hs : getRepresentativeCocycle o.dgms o.cocycles a.cocycleIdx 2 = .ok (b, d, s)) {v : List ℤ}
    (hv : sparseCocycleToVector 2 (liftToIntegerCocycle s o.prime) o.table o.nLand = .ok v) :
    t = 2 * r ∧ ∃ (w : ℕ → ℕ → ℝ) (V : List (Option ℝ)) (β : ℕ → ℕ) (ν : ℕ → ℝ), CoverData o a r w β ∧
      (ExactLsq env.lsqr → ∀ g, formEnergy2 o.nLand o.distLandLand r (fun e => v.getD e 0) ν ≤
        formEnergy2 o.nLand o.distLandLand r (fun e => v.getD e 0) g) ∧
      (a.check = true → IsCocycle2 o.nLand o.distLandLand (2 * r) fun e => v.getD e 0) ∧
      ppca env.eigh fuel (classMapVia o.nLand o.nData o.dist r
        (cpAssigned o.nLand o.nData o.distLandLand r w (fun e => v.getD e 0) ν) β) a.dim a.mode = .ok ⟨V, X⟩ ∧
      (cpGetCoordinates env fuel o a).1.variance = some V := by
  obtain ⟨b', d', s', radius, cov, delta1, v', c, V, h1, h2, h3, h4, h5, h6, h7, h8⟩ := cp_success hok
  rw [hs] at h1
  simp only [Except.ok.injEq, Prod.mk.injEq] at h1
  obtain ⟨rfl, rfl, rfl⟩ := h1
  rw [hv] at h5
  simp only [Except.ok.injEq] at h5
  subst h5
  rw [h8] at hr
  simp only [Option.some.injEq] at hr
  subst hr
  obtain rfl : t = 2 * r := coverRadius_half h2
  refine ⟨rfl, ?_⟩
  rw [wf.dtype] at h3
  obtain ⟨w, hw, hw1, hw2, hw3⟩ := cov_spec_gen wf.pos wf.nonneg hb h3
  obtain ⟨N, D, hN, hD, hT⟩ := wf.table
  rw [hT] at h4 h6 h7
  obtain ⟨rfl, hc⟩ := repair2_asIs hN (by omega) h6
  simp only [ripsThr] at h4 h6 h7 hc
  obtain ⟨M, hM, hM0, -, hM2⟩ := C12_delta1 o.nLand N D hN (by omega) wf.size (fun l m => (o.distLandLand l m : EReal)) ((2 * r : ℝ) : EReal)
  rw [h4] at hM
  simp only [Except.ok.injEq] at hM
  subst hM
  generalize hν : (harmonic2 env.lsqr (fun e => v.getD e 0) delta1).2 = ν at h7
  have hh : ∀ i j k, RipsTriangle o.nLand (fun l m => (o.distLandLand l m : EReal)) ((2 * r : ℝ) : EReal) i j k →
      (harmonic2 env.lsqr (fun e => v.getD e 0) delta1).1 (triIdx i j k) =
        ((v.getD (triIdx i j k) 0 : ℤ) : ℝ) - (ν (edgeIdx i j) + ν (edgeIdx j k) - ν (edgeIdx i k)) := by
    intro i j k h
    rw [← hν, ← (hM2 ℝ (harmonic2 env.lsqr (fun e => v.getD e 0) delta1).2 i j k h.1.1 h.2.1.1 h.2.1.2.1).1 h]
    rfl
  unfold sparseIntegrate2 at h7
  rw [assembled_eq (dll := o.distLandLand) (c := fun e => v.getD e 0) (ν := ν) hw hw1 hw2] at h7
  · refine ⟨w, V, cov.ballIndx, ν, ⟨hw, ⟨cov, h3, hw1⟩, ?_⟩, fun hex g => by
      rw [← hν]; exact integral2_minimises hex hM0 (hM2 ℝ) _ g, fun h => (isCocycle2_coe _ _ _ _).1 (hc h), h7, by rw [h8]⟩
    intro i hi
    obtain ⟨f, hf⟩ := exists_firstBall hi
    rw [hw3 i f hf]; exact hf
  · intro a b
    rw [oneTensor_apply hN (by omega), nuForm]
    by_cases h : RipsRel o.nLand o.distLandLand (2 * r) a b
    · rw [if_pos h, if_pos ((ripsRel_coe _ _ _ _ _).2 h)]
    · rw [if_neg h, if_neg (fun h' => h ((ripsRel_coe _ _ _ _ _).1 h'))]
  · intro a b d
    rw [twoTensor_apply hN (by omega), etaForm]
    by_cases h : RipsRel3 o.nLand o.distLandLand (2 * r) a b d
    · rw [if_pos h, if_pos ((ripsRel3_coe _ _ _ _ _ _).2 h)]
      exact harm_tri hh ((ripsRel3_coe _ _ _ _ _ _).2 h)
    · rw [if_neg h, if_neg (fun h' => h ((ripsRel3_coe _ _ _ _ _ _).1 h'))]

theorem cpAssigned_norm {L N : ℕ} {dist dll : ℕ → ℕ → ℝ} {w : ℕ → ℕ → ℝ} {c : ℕ → ℤ} {ν : ℕ → ℝ}
    (hw : IsPartitionOfUnity L dist r w) {l i : ℕ} (hl : InBall L dist r l i) :
    ∑ m ∈ Finset.range L, ‖cpAssigned L N dll r w c ν l i m‖ ^ 2 = 1 := by
  unfold cpAssigned
  by_cases hs : 8 * L * N ≤ 10 ^ 6
  · simp only [hs, if_true]
    rw [← hw.sum_one i ⟨l, hl⟩]
    apply Finset.sum_congr rfl
    intro m _
    rw [Complex.norm_real, Real.norm_eq_abs, sq_abs, Real.sq_sqrt (hw.nonneg m i ⟨l, hl⟩)]
  · simp only [hs, if_false]
    exact cpVector_norm hw hl

theorem cpAssigned_twist {L N : ℕ} {dist dll : ℕ → ℕ → ℝ} {w : ℕ → ℕ → ℝ} {c : ℕ → ℤ} {ν : ℕ → ℝ}
    (ht : LandmarkTriangle L dist dll) (hw : IsPartitionOfUnity L dist r w) (hc : IsCocycle2 L dll (2 * r) c) {l l' i : ℕ}
    (hl : InBall L dist r l i) (hl' : InBall L dist r l' i) :
    ∃ ζ : ℂ, ‖ζ‖ = 1 ∧ ∀ m < L, cpAssigned L N dll r w c ν l' i m = ζ * cpAssigned L N dll r w c ν l i m := by
  unfold cpAssigned
  by_cases hs : 8 * L * N ≤ 10 ^ 6
  · exact ⟨1, by simp, fun m _ => by rw [if_pos hs, if_pos hs, one_mul]⟩
  · refine ⟨_, norm_phase (∑ t ∈ Finset.range L, w t i * ((triVal c l l' t : ℤ) + edgeVal ν l t - edgeVal ν l' t)), fun m hm => ?_⟩
    simp only [hs, if_false]
    exact cpVector_twist ht hw hc hl hl' hm

/-- **C50.** `ComplexProjectiveCoords.get_coordinates` applies the dimensionality reduction to an array whose row `i` is the
vector assigned to data point `i` with the first ball containing it.  If the lifted class `c` is an integer cocycle at the
threshold (with the check on, a successful call implies that), then, whatever the least-squares solver returned, the
vector assigned using any other ball containing the data point is the same vector times a complex number of modulus 1, and
has norm 1.  The weights are those of `get_covering_partition`, and with an exact least-squares solver the potential `ν`
minimises the energy of `c - δν`. -/
theorem C50_complex_projective_class_map (wf : CPWellFormed o) (hb : PositiveBump a.bump)
    (hok : (cpGetCoordinates env fuel o a).2 = .ok X)
    (hr : (cpGetCoordinates env fuel o a).1.radius = some (.fin r, .fin t)) {b d : Fl ℝ} {s : SparseCochain}
    (hs : getRepresentativeCocycle o.dgms o.cocycles a.cocycleIdx 2 = .ok (b, d, s)) {v : List ℤ}
    (hv : sparseCocycleToVector 2 (liftToIntegerCocycle s o.prime) o.table o.nLand = .ok v)
    (ht : LandmarkTriangle o.nLand o.dist o.distLandLand) :
    ∃ (w : ℕ → ℕ → ℝ) (V : List (Option ℝ)) (β : ℕ → ℕ) (ν : ℕ → ℝ), CoverData o a r w β ∧
      (ExactLsq env.lsqr → ∀ g, formEnergy2 o.nLand o.distLandLand r (fun e => v.getD e 0) ν ≤
        formEnergy2 o.nLand o.distLandLand r (fun e => v.getD e 0) g) ∧
      (a.check = true → IsCocycle2 o.nLand o.distLandLand t fun e => v.getD e 0) ∧
      ppca env.eigh fuel (classMapVia o.nLand o.nData o.dist r
        (cpAssigned o.nLand o.nData o.distLandLand r w (fun e => v.getD e 0) ν) β) a.dim a.mode = .ok ⟨V, X⟩ ∧
      (cpGetCoordinates env fuel o a).1.variance = some V ∧
      (IsCocycle2 o.nLand o.distLandLand t (fun e => v.getD e 0) → ∀ i l, InBall o.nLand o.dist r l i →
        ∑ m ∈ Finset.range o.nLand,
          ‖cpAssigned o.nLand o.nData o.distLandLand r w (fun e => v.getD e 0) ν l i m‖ ^ 2 = 1 ∧
        ∃ ζ : ℂ, ‖ζ‖ = 1 ∧ ∀ m < o.nLand,
          cpAssigned o.nLand o.nData o.distLandLand r w (fun e => v.getD e 0) ν l i m =
            ζ * cpAssigned o.nLand o.nData o.distLandLand r w (fun e => v.getD e 0) ν (β i) i m) := by
  obtain ⟨rfl, w, V, β, ν, hcov, hmin, hc, h1, h2⟩ := cp_call wf hb hok hr hs hv
  have hw := hcov.part
  have hβ := hcov.first
  exact ⟨w, V, β, ν, hcov, hmin, hc, h1, h2, fun hc i l hl =>
    ⟨cpAssigned_norm hw hl, cpAssigned_twist ht hw hc (hβ i ⟨l, hl⟩).1 hl⟩⟩

/-- **C54 (complex projective).** Any other choice `β'` of balls containing the data points multiplies the row of each data
point in the output by a complex number of modulus 1 and leaves the variances unchanged. -/
theorem C54_complex_projective_choice_of_balls (wf : CPWellFormed o) (hb : PositiveBump a.bump) (hch : a.check = true)
    (hok : (cpGetCoordinates env fuel o a).2 = .ok X)
    (hr : (cpGetCoordinates env fuel o a).1.radius = some (.fin r, .fin t)) {b d : Fl ℝ} {s : SparseCochain}
    (hs : getRepresentativeCocycle o.dgms o.cocycles a.cocycleIdx 2 = .ok (b, d, s)) {v : List ℤ}
    (hv : sparseCocycleToVector 2 (liftToIntegerCocycle s o.prime) o.table o.nLand = .ok v)
    (ht : LandmarkTriangle o.nLand o.dist o.distLandLand) :
    ∃ (w : ℕ → ℕ → ℝ) (V : List (Option ℝ)) (β : ℕ → ℕ) (ν : ℕ → ℝ), CoverData o a r w β ∧
      (ExactLsq env.lsqr → ∀ g, formEnergy2 o.nLand o.distLandLand r (fun e => v.getD e 0) ν ≤
        formEnergy2 o.nLand o.distLandLand r (fun e => v.getD e 0) g) ∧
      ppca env.eigh fuel (classMapVia o.nLand o.nData o.dist r
        (cpAssigned o.nLand o.nData o.distLandLand r w (fun e => v.getD e 0) ν) β) a.dim a.mode = .ok ⟨V, X⟩ ∧
      ∀ β' : ℕ → ℕ, (∀ i, (∃ l, InBall o.nLand o.dist r l i) → InBall o.nLand o.dist r (β' i) i) →
        ∃ ζ : ℕ → ℂ, (∀ i, ‖ζ i‖ = 1) ∧
          ppca env.eigh fuel (classMapVia o.nLand o.nData o.dist r
            (cpAssigned o.nLand o.nData o.distLandLand r w (fun e => v.getD e 0) ν) β') a.dim a.mode =
            .ok ⟨V, ⟨X.rows, X.cols, fun i j => (X.at' i j).map fun y => ζ i * y⟩⟩ := by
  obtain ⟨rfl, w, V, β, ν, hcov, hmin, hc, h1, h2⟩ := cp_call wf hb hok hr hs hv
  have hw := hcov.part
  have hβ := hcov.first
  refine ⟨w, V, β, ν, hcov, hmin, h1, fun β' hβ' => ?_⟩
  have hex : ∀ i, ∃ ζ : ℂ, ‖ζ‖ = 1 ∧ ((∃ l, InBall o.nLand o.dist r l i) → ∀ m < o.nLand,
      cpAssigned o.nLand o.nData o.distLandLand r w (fun e => v.getD e 0) ν (β' i) i m =
        ζ * cpAssigned o.nLand o.nData o.distLandLand r w (fun e => v.getD e 0) ν (β i) i m) := by
    intro i
    by_cases hi : ∃ l, InBall o.nLand o.dist r l i
    · obtain ⟨ζ, h3, h4⟩ := cpAssigned_twist (N := o.nData) (ν := ν) ht hw (hc hch) (hβ i hi).1 (hβ' i hi)
      exact ⟨ζ, h3, fun _ => h4⟩
    · exact ⟨1, by simp, fun h => absurd h hi⟩
  choose ζ hζ1 hζ2 using hex
  refine ⟨ζ, hζ1, ?_⟩
  rw [classMapVia_twist (β := β) (β' := β') (z := ζ), ppca_twist hζ1, h1]
  · rfl
  · intro i m hm hi
    exact hζ2 i hi m hm

/-- **C51 (partial).** If the class map has more than `10 ^ 6` bytes (`8 * n_landmarks * n_data > 10 ^ 6`), the dimensionality
reduction is applied to the accumulated class map (with the weights of `get_covering_partition` and, if the solver is exact,
the harmonic representative of the class).  What is missing is the claim for smaller data, which is false
(`C51_small_data_ignores_class`). -/
theorem C51_large_data_partial (wf : CPWellFormed o) (hb : PositiveBump a.bump) (hbig : 10 ^ 6 < 8 * o.nLand * o.nData)
    (hok : (cpGetCoordinates env fuel o a).2 = .ok X)
    (hr : (cpGetCoordinates env fuel o a).1.radius = some (.fin r, .fin t)) {b d : Fl ℝ} {s : SparseCochain}
    (hs : getRepresentativeCocycle o.dgms o.cocycles a.cocycleIdx 2 = .ok (b, d, s)) {v : List ℤ}
    (hv : sparseCocycleToVector 2 (liftToIntegerCocycle s o.prime) o.table o.nLand = .ok v) :
    ∃ (w : ℕ → ℕ → ℝ) (V : List (Option ℝ)) (β : ℕ → ℕ) (ν : ℕ → ℝ), CoverData o a r w β ∧
      (ExactLsq env.lsqr → ∀ g, formEnergy2 o.nLand o.distLandLand r (fun e => v.getD e 0) ν ≤
        formEnergy2 o.nLand o.distLandLand r (fun e => v.getD e 0) g) ∧
      ppca env.eigh fuel (classMapVia o.nLand o.nData o.dist r
        (cpVector o.nLand o.distLandLand r w (fun e => v.getD e 0) ν) β) a.dim a.mode = .ok ⟨V, X⟩ := by
  obtain ⟨rfl, w, V, β, ν, hcov, hmin, hc, h1, h2⟩ := cp_call wf hb hok hr hs hv
  have hw := hcov.part
  have hβ := hcov.first
  have : cpAssigned o.nLand o.nData o.distLandLand r w (fun e => v.getD e 0) ν =
      cpVector o.nLand o.distLandLand r w (fun e => v.getD e 0) ν := by
    funext l i m
    unfold cpAssigned
    rw [if_neg (by omega)]
  rw [this] at h1
  exact ⟨w, V, β, ν, hcov, hmin, h1⟩

/-- **C51 fails for small data.** If the class map has at most `10 ^ 6` bytes, two successful calls on the same data with the
same radius, bump function, dimension and mode return the same array and variances, whatever the classes, primes and
least-squares solutions are. -/
theorem C51_small_data_ignores_class (env env' : CPOracles) (heigh : env'.eigh = env.eigh) (fuel : ℕ) (o o' : ProjObj)
    (a a' : ProjArgs) (hd : o'.dist = o.dist) (hL : o'.nLand = o.nLand) (hN : o'.nData = o.nData) (hty : o'.dtype = o.dtype)
    (hsmall : 8 * o.nLand * o.nData ≤ 10 ^ 6) (hbump : a'.bump = a.bump) (hdim : a'.dim = a.dim) (hmode : a'.mode = a.mode)
    (X X' : Arr ℂ) (hok : (cpGetCoordinates env fuel o a).2 = .ok X)
    (hok' : (cpGetCoordinates env' fuel o' a').2 = .ok X')
    (hr : (cpGetCoordinates env' fuel o' a').1.radius = (cpGetCoordinates env fuel o a).1.radius) :
    X' = X ∧ (cpGetCoordinates env' fuel o' a').1.variance = (cpGetCoordinates env fuel o a).1.variance := by
  obtain ⟨_, _, _, radius, cov, delta, _, c, V, -, -, h3, -, -, -, h7, h8⟩ := cp_success hok
  obtain ⟨_, _, _, radius', cov', delta', _, c', V', -, -, h3', -, -, -, h7', h8'⟩ := cp_success hok'
  rw [h8, h8'] at hr
  simp only [Option.some.injEq] at hr
  subst hr
  rw [hty, hL, hN, hd, hbump, h3] at h3'
  simp only [Except.ok.injEq] at h3'
  subst h3'
  have hz : frozenClosure o.nLand o.nData = true := decide_eq_true hsmall
  unfold sparseIntegrate2 assembled at h7 h7'
  rw [heigh, hL, hN, hdim, hmode] at h7'
  simp only [hz, if_true] at h7 h7'
  rw [h7] at h7'
  simp only [Except.ok.injEq, PpcaResult.mk.injEq] at h7'
  rw [h8, h8']
  exact ⟨h7'.2.symm, by simp [h7'.1]⟩

end

/-! ### C84, C85 -/

/-- A class index that selects a finite interval `(b, d)` and a cocycle array whose rows are triples of distinct landmarks,
each triangle at most once. -/
structure ValidTriClass (o : ProjObj) (z : ClassArg) (b d : ℝ) (s : SparseCochain) : Prop where
  stored : getRepresentativeCocycle o.dgms o.cocycles z 2 = .ok (.fin b, .fin d, s)
  triangles : ∀ r ∈ s, r.Valid o.nLand 2
  distinct : s.Pairwise fun r r' => ¬ r.verts.Perm r'.verts

theorem lift_dense {o : ProjObj} {z : ClassArg} {b d : ℝ} {s : SparseCochain} (h : ValidTriClass o z b d s) {N D : ℕ}
    (hN : o.nLand ≤ N) (hD : 2 ≤ D) :
    ∃ v, sparseCocycleToVector 2 (liftToIntegerCocycle s o.prime) (cnsTable N D) o.nLand = .ok v := by
  obtain ⟨v, hv, -⟩ := C06_sparse_to_dense o.nLand 2 N D hN hD (liftToIntegerCocycle s o.prime) (by
    intro r hr
    unfold liftToIntegerCocycle at hr
    obtain ⟨r', hr', rfl⟩ := List.mem_map.1 hr
    exact ⟨(h.triangles r' hr').1, (h.triangles r' hr').2, (h.triangles r' hr').3⟩) (by
    unfold liftToIntegerCocycle
    rw [List.pairwise_map]
    exact h.distinct)
  exact ⟨v, hv⟩

/-- **C84 (complex projective).** A call of `ComplexProjectiveCoords.get_coordinates` with a valid class and a dimension
`1 ≤ proj_dim < n_landmarks`: if the check is off or the lifted class is a cocycle at the threshold, it returns an array
with one row per data point and `proj_dim + 1` columns, otherwise it raises `NameError`. -/
theorem C84_complex_projective_returns (env : CPOracles) (fuel : ℕ) (o : ProjObj) (a : ProjArgs) (wf : CPWellFormed o)
    (b d perc : ℝ) (s : SparseCochain) (hz : ValidTriClass o a.cocycleIdx b d s)
    (hperc : a.perc = .fin perc) (hstart : (if a.standardRange then 2 * b else b) ≤ d) (hb : PositiveBump a.bump)
    (hm : a.mode ≠ .other) (n : ℕ) (hn : a.dim = n) (hn1 : 1 ≤ n) (hnL : n < o.nLand) (hf : o.nLand ≤ fuel) (r : ℝ)
    (hr : 2 * r = (1 - perc) * (if a.standardRange then 2 * b else b) + perc * d) :
    ∃ v, sparseCocycleToVector 2 (liftToIntegerCocycle s o.prime) o.table o.nLand = .ok v ∧
    ((a.check = true → IsCocycle2 o.nLand o.distLandLand (2 * r) fun e => v.getD e 0) →
      ∃ X : Arr ℂ, (cpGetCoordinates env fuel o a).2 = .ok X ∧
        (cpGetCoordinates env fuel o a).1.radius = some (.fin r, .fin (2 * r)) ∧ X.rows = o.nData ∧ X.cols = n + 1) ∧
    (a.check = true → ¬ IsCocycle2 o.nLand o.distLandLand (2 * r) (fun e => v.getD e 0) →
      (∀ l : List (ℕ × ℕ × ℕ × ℕ), l.Nodup →
        (∀ x ∈ l, RipsTetra o.nLand (fun l m => (o.distLandLand l m : EReal)) ((2 * r : ℝ) : EReal) x.1 x.2.1 x.2.2.1 x.2.2.2) →
        l.length ≤ 2 ^ 31) →
      (cpGetCoordinates env fuel o a).2 = .error .nameError) := by
  obtain ⟨r', thr, hrad, hthr, hr2, -⟩ := (C24_cover_radius b d perc a.standardRange).2 hstart
  obtain rfl : r' = r := by linarith
  have hthr2 : thr = 2 * r' := by linarith
  subst hthr2
  obtain ⟨C, phi, hC, -⟩ := covering_spec hb o.nLand o.nData wf.pos o.dist wf.nonneg r'
  obtain ⟨N, D, hN, hD, hT⟩ := wf.table
  obtain ⟨M, hM, -⟩ := C12_delta1 o.nLand N D hN (by omega) wf.size (fun l m => (o.distLandLand l m : EReal)) ((2 * r' : ℝ) : EReal)
  obtain ⟨v, hv⟩ := lift_dense hz hN (by omega : 2 ≤ D)
  refine ⟨v, by rw [hT, hv], ?_⟩
  constructor
  · intro hc
    have hchk : checkAndRepair2AsIs env.milp o.nLand (fun l m => (o.distLandLand l m : EReal)) ((2 * r' : ℝ) : EReal)
        (cnsTable N D) o.prime a.cocycleIdx.toInt a.check (fun e => v.getD e 0) = .ok fun e => v.getD e 0 := by
      unfold checkAndRepair2AsIs checkAndRepair2
      rw [if_neg]
      rintro ⟨h1, h2⟩
      rw [(C18_two_cocycle_check o.nLand N D hN (by omega) _ _ _).2 ((isCocycle2_coe _ _ _ _).2 (hc h1))] at h2
      cases h2
    obtain ⟨R, hR, hR1, hR2⟩ := C55_shape_partial env.eigh
      (sparseIntegrate2 (harmonic2 env.lsqr (fun e => v.getD e 0) M).1 (harmonic2 env.lsqr (fun e => v.getD e 0) M).2 C
        o.nLand o.nData (fun l m => (o.distLandLand l m : EReal)) ((2 * r' : ℝ) : EReal) (cnsTable N D))
      n hn1 hnL a.mode hm fuel hf
    refine ⟨R.X, ?_, ?_, hR1, hR2⟩ <;>
    · unfold cpGetCoordinates
      simp only [hz.stored, hperc, hrad, wf.dtype, hC, hT, ripsThr, hM, hv, hchk, hn, hR]
  · intro hch hc htet
    have hchk := C22_repair_raises_name_error o.nLand N D hN hD wf.size (fun l m => (o.distLandLand l m : EReal))
      ((2 * r' : ℝ) : EReal) htet env.milp o.prime a.cocycleIdx.toInt (fun e => v.getD e 0)
      (fun h => hc ((isCocycle2_coe _ _ _ _).1 h))
    unfold cpGetCoordinates
    simp only [hz.stored, hperc, hrad, wf.dtype, hC, hT, ripsThr, hM, hv, hch, hchk]

/-- `o'` is `o` after some calls: only the stored arrays (lifted or not) and the reported attributes differ. -/
structure CPRel (o o' : ProjObj) : Prop where
  rest : o' = { o with radius := o'.radius, variance := o'.variance, cocycles := o'.cocycles }
  cocycles : List.Forall₂ (List.Forall₂ (LiftRel o.prime)) o.cocycles o'.cocycles

theorem getRep_lift {p : ℤ} {dgms : List (List (Fl ℝ × Fl ℝ))} {cs cs' : List (List SparseCochain)}
    (h : List.Forall₂ (List.Forall₂ (LiftRel p)) cs cs') (x : ClassArg) (k : ℤ) :
    (∃ e, getRepresentativeCocycle dgms cs x k = .error e ∧ getRepresentativeCocycle dgms cs' x k = .error e) ∨
      ∃ b d s s', getRepresentativeCocycle dgms cs x k = .ok (b, d, s) ∧
        getRepresentativeCocycle dgms cs' x k = .ok (b, d, s') ∧ LiftRel p s s' := by
  unfold getRepresentativeCocycle
  cases x with
  | nonInt => exact Or.inl ⟨_, rfl, rfl⟩
  | int z =>
    simp only
    rcases pyGet dgms k with e | dgm
    · exact Or.inl ⟨e, rfl, rfl⟩
    · simp only [bind, Except.bind]
      rcases pyGet_forall₂ h k with ⟨e, e1, e2⟩ | ⟨ck, ck', e1, e2, hr⟩
      · rw [e1, e2]; exact Or.inl ⟨e, rfl, rfl⟩
      · rw [e1, e2]
        simp only
        rcases pyGet dgm z with e | pt
        · exact Or.inl ⟨e, rfl, rfl⟩
        · simp only
          rcases pyGet_forall₂ hr z with ⟨e, e1, e2⟩ | ⟨c, c', e1, e2, hl⟩
          · rw [e1, e2]; exact Or.inl ⟨e, rfl, rfl⟩
          · rw [e1, e2]; exact Or.inr ⟨_, _, _, _, rfl, rfl, hl⟩

theorem forall₂_modify {p : ℤ} {base cs : List (List SparseCochain)}
    (h : List.Forall₂ (List.Forall₂ (LiftRel p)) base cs) (idxs : List ClassArg) (k : ℕ) :
    List.Forall₂ (List.Forall₂ (LiftRel p)) base (cs.modify k (liftSelected p idxs)) := by
  induction h generalizing k with
  | nil => cases k <;> exact .nil
  | cons hab _ ih =>
    cases k with
    | zero => exact .cons (liftRel_liftSelected idxs hab) (by assumption)
    | succ k => exact .cons hab (ih k)

theorem cpRel_state {o o' : ProjObj} (h : CPRel o o') (env : CPOracles) (fuel : ℕ) (a : ProjArgs) :
    CPRel o (cpGetCoordinates env fuel o' a).1 := by
  have hp : o'.prime = o.prime := by rw [h.rest]
  have base : ∀ rad var, CPRel o { o' with radius := rad, variance := var } := fun rad var =>
    ⟨by rw [h.rest], h.cocycles⟩
  have lifted : ∀ rad var, CPRel o { o' with
      radius := rad, variance := var, cocycles := o'.cocycles.modify 2 (liftSelected o'.prime [a.cocycleIdx]) } := fun rad var =>
    ⟨by rw [h.rest], by rw [hp]; exact forall₂_modify h.cocycles _ 2⟩
  unfold cpGetCoordinates
  generalize getRepresentativeCocycle o'.dgms o'.cocycles a.cocycleIdx 2 = e1
  rcases e1 with e | ⟨b, d, s⟩
  · exact h
  simp only
  generalize getCoverRadius a.perc b d a.standardRange = e2
  rcases e2 with e | radius
  · exact h
  simp only
  generalize getCoveringPartition o'.dtype o'.nLand o'.nData (fun l i => Fl.fin (o'.dist l i)) radius.1 a.bump = e3
  rcases e3 with e | cov
  · exact base _ _
  simp only
  generalize makeDelta1 o'.nLand (fun l m => (o'.distLandLand l m : EReal)) (ripsThr radius.2) o'.table = e4
  rcases e4 with e | delta1
  · exact base _ _
  simp only
  generalize sparseCocycleToVector 2 (liftToIntegerCocycle s o'.prime) o'.table o'.nLand = e5
  rcases e5 with e | v
  · exact lifted _ _
  simp only
  generalize checkAndRepair2AsIs env.milp o'.nLand (fun l m => (o'.distLandLand l m : EReal)) (ripsThr radius.2) o'.table o'.prime
        a.cocycleIdx.toInt a.check (fun e => v.getD e 0) = e6
  rcases e6 with e | c
  · exact lifted _ _
  simp only
  generalize ppca env.eigh fuel _ a.dim a.mode = e7
  rcases e7 with e | R
  · exact lifted _ _
  · exact lifted _ _

theorem cpRel_result {o o' : ProjObj} (h : CPRel o o') (env : CPOracles) (fuel : ℕ) (a : ProjArgs) :
    (cpGetCoordinates env fuel o' a).2 = (cpGetCoordinates env fuel o a).2 := by
  have hrest := h.rest
  have hcs := h.cocycles
  generalize o'.cocycles = cs', o'.radius = rad, o'.variance = var at hrest hcs
  subst hrest
  unfold cpGetCoordinates ProjObj.distLandLand
  simp only
  rcases getRep_lift (dgms := o.dgms) hcs a.cocycleIdx 2 with ⟨e, e1, e2⟩ | ⟨b, d, s, s', e1, e2, hl⟩
  · rw [e1, e2]
  rw [e1, e2]
  simp only [hl.lift]
  generalize getCoverRadius a.perc b d a.standardRange = e2
  rcases e2 with e | radius
  · rfl
  simp only
  generalize getCoveringPartition o.dtype o.nLand o.nData (fun l i => Fl.fin (o.dist l i)) radius.1 a.bump = e3
  rcases e3 with e | cov
  · rfl
  simp only
  generalize makeDelta1 o.nLand _ (ripsThr radius.2) o.table = e4
  rcases e4 with e | delta1
  · rfl
  simp only
  generalize sparseCocycleToVector 2 (liftToIntegerCocycle s o.prime) o.table o.nLand = e5
  rcases e5 with e | v
  · rfl
  simp only
  generalize checkAndRepair2AsIs env.milp o.nLand _ (ripsThr radius.2) o.table o.prime
        a.cocycleIdx.toInt a.check (fun e => v.getD e 0) = e6
  rcases e6 with e | c
  · rfl
  simp only
  generalize ppca env.eigh fuel _ a.dim a.mode = e7
  rcases e7 with e | R <;> rfl

@[inherit_doc lensHistory]
noncomputable def cpHistory (env : CPOracles) (fuel : ℕ) (o : ProjObj) (calls : List ProjArgs) : ProjObj :=
  calls.foldl (fun o a => (cpGetCoordinates env fuel o a).1) o

/-- **C85 (complex projective).** For stored cocycles with values in `0, …, p - 1`, the result of a call (array or error)
does not depend on the calls made before it. -/
theorem C85_complex_projective_history (env : CPOracles) (fuel : ℕ) (o : ProjObj) (hv : FieldValued o.prime o.cocycles)
    (calls : List ProjArgs) (a : ProjArgs) :
    (cpGetCoordinates env fuel (cpHistory env fuel o calls) a).2 = (cpGetCoordinates env fuel o a).2 := by
  refine cpRel_result ?_ env fuel a
  unfold cpHistory
  induction calls using List.reverseRecOn with
  | nil =>
    refine ⟨rfl, ?_⟩
    rw [List.foldl_nil, List.forall₂_same]
    intro ck hck
    rw [List.forall₂_same]
    exact fun c hc => ⟨fun r hr => hv ck hck c hc r hr, Or.inl rfl⟩
  | append_singleton l c ih =>
    rw [List.foldl_append]
    exact cpRel_state ih env fuel c

/-! ### a concrete object: the octahedron -/

/-- Ten times the distance between the vertices `l` and `i` of an octahedron (antipodes are `2k` and `2k + 1`); data points
`i ≥ 6` are close to the three even vertices. -/
def octaDist (l i : ℕ) : ℕ :=
  if i < 6 then (if l = i then 0 else if l / 2 = i / 2 then 20 else 10) else if l % 2 = 0 then 6 else 15

/-- Six landmarks, `N` data points, one class of dimension 2, born at 1 and dying at 2, with value `z` on the triangle
`(4, 0, 2)`. -/
noncomputable def octa (N : ℕ) (z : ℤ) : ProjObj :=
  ⟨41, [[], [], [(.fin 1, .fin 2)]], [[], [], [[⟨[4, 0, 2], z⟩]]], 6, N, fun l i => (octaDist l i : ℝ) / 10, .float, fun m => m,
    cnsTable 6 3, none, none⟩

theorem octa_wf (N : ℕ) (z : ℤ) : CPWellFormed (octa N z) :=
  ⟨⟨rfl, by norm_num [octa], fun l i => by show (0 : ℝ) ≤ (octaDist l i : ℝ) / 10; positivity⟩,
    ⟨6, 3, le_rfl, le_rfl, rfl⟩, by norm_num [octa]⟩

theorem octa_class (N : ℕ) (z : ℤ) : ValidTriClass (octa N z) (.int 0) 1 2 [⟨[4, 0, 2], z⟩] where
  stored := rfl
  triangles := by
    intro r hr
    simp only [List.mem_cons, List.not_mem_nil, or_false] at hr
    subst hr
    exact ⟨rfl, by show [4, 0, 2].Nodup; decide, by show ∀ v ∈ [4, 0, 2], v < 6; decide⟩
  distinct := by simp

theorem octa_triangle (N : ℕ) (z : ℤ) : LandmarkTriangle (octa N z).nLand (octa N z).dist (octa N z).distLandLand := by
  intro l m i hl hm
  show (octaDist l m : ℝ) / 10 ≤ (octaDist l i : ℝ) / 10 + (octaDist m i : ℝ) / 10
  have key : octaDist l m ≤ octaDist l i + octaDist m i := by
    have h1 : ∀ l < 6, ∀ m < 6, ∀ i < 6, octaDist l m ≤ octaDist l i + octaDist m i := by decide
    have h2 : ∀ l < 6, ∀ m < 6, octaDist l m ≤ octaDist l 6 + octaDist m 6 := by decide
    by_cases hi : i < 6
    · exact h1 l hl m hm i hi
    · have e : ∀ l, octaDist l i = octaDist l 6 := fun l => by simp [octaDist, hi]
      rw [e, e]; exact h2 l hl m hm
  have : (octaDist l m : ℝ) ≤ octaDist l i + octaDist m i := by exact_mod_cast key
  linarith

theorem octa_cocycle (N : ℕ) (z : ℤ) (c : ℕ → ℤ) : IsCocycle2 (octa N z).nLand (octa N z).distLandLand (2 * (3 / 4)) c := by
  intro i j k l h
  exfalso
  have e : ∀ {i j}, RipsEdge (octa N z).nLand (octa N z).distLandLand (2 * (3 / 4)) i j → i < j ∧ j < 6 ∧ octaDist i j < 15 := by
    rintro i j ⟨h1, h2, h3⟩
    refine ⟨h1, h2, ?_⟩
    have h3 : (octaDist i j : ℝ) / 10 < 2 * (3 / 4) := h3
    have : (octaDist i j : ℝ) < 15 := by linarith
    exact_mod_cast this
  have key : ∀ i j k l : Fin 6, i < j → j < k → k < l →
      ¬ (octaDist i j < 15 ∧ octaDist j k < 15 ∧ octaDist i k < 15 ∧ octaDist i l < 15 ∧ octaDist j l < 15 ∧ octaDist k l < 15) := by
    decide +kernel
  obtain ⟨⟨h1, h2, h3⟩, h4, h5, h6⟩ := h
  exact key ⟨i, (e h1).1.trans (e h1).2.1⟩ ⟨j, (e h1).2.1⟩ ⟨k, (e h2).2.1⟩ ⟨l, (e h4).2.1⟩ (e h1).1 (e h2).1 (e h6).1
    ⟨(e h1).2.2, (e h2).2.2, (e h3).2.2, (e h4).2.2, (e h5).2.2, (e h6).2.2⟩

theorem octa_vector (N : ℕ) (v : List ℤ)
    (hv : sparseCocycleToVector 2 (liftToIntegerCocycle [⟨[4, 0, 2], 1⟩] (octa N 1).prime) (octa N 1).table (octa N 1).nLand = .ok v) :
    v.getD (triIdx 0 2 4) 0 = 1 := by
  obtain ⟨v', h1, -, h2, -⟩ := C06_sparse_to_dense 6 2 6 3 le_rfl (by norm_num) (liftToIntegerCocycle [⟨[4, 0, 2], 1⟩] 41) (by
    intro r hr
    have : r = ⟨[4, 0, 2], 1⟩ := by
      have e : liftToIntegerCocycle [⟨[4, 0, 2], 1⟩] 41 = [⟨[4, 0, 2], 1⟩] := by decide +kernel
      rw [e] at hr; simpa using hr
    subst this
    exact ⟨rfl, by decide, by decide⟩) (by simp [liftToIntegerCocycle])
  rw [show (octa N 1).prime = 41 from rfl, show (octa N 1).table = cnsTable 6 3 from rfl, show (octa N 1).nLand = 6 from rfl, h1] at hv
  simp only [Except.ok.injEq] at hv
  subst hv
  have e : liftToIntegerCocycle [⟨[4, 0, 2], 1⟩] 41 = [⟨[4, 0, 2], 1⟩] := by decide +kernel
  have := h2 ⟨[4, 0, 2], 1⟩ (by rw [e]; simp) ![4, 0, 2] (finRotate 3) rfl (by decide)
  rw [sign_finRotate] at this
  have hs : slot 6 3 (List.ofFn (![4, 0, 2] ∘ (finRotate 3))) = triIdx 0 2 4 := by decide +kernel
  rw [hs] at this
  rw [List.getD_eq_getElem?_getD, this]
  norm_num

/-- All hypotheses of C50, C51 (large data) and C54 hold for the octahedron with 30000 data points, on which the lifted
cocycle is not zero. -/
example (env : CPOracles) : ∃ X : Arr ℂ, (cpGetCoordinates env 6 (octa 30000 1) (octProjArgs .exponential 1)).2 = .ok X ∧
    X.rows = 30000 ∧ X.cols = 2 ∧ ∃ (w : ℕ → ℕ → ℝ) (V : List (Option ℝ)) (β : ℕ → ℕ) (ν : ℕ → ℝ) (c : ℕ → ℤ),
      c (triIdx 0 2 4) = 1 ∧
      ppca env.eigh 6 (classMapVia 6 30000 (octa 30000 1).dist (3 / 4)
        (cpVector 6 (octa 30000 1).distLandLand (3 / 4) w c ν) β) 1 .exponential = .ok ⟨V, X⟩ := by
  obtain ⟨v, hv, h1, -⟩ := C84_complex_projective_returns env 6 (octa 30000 1) (octProjArgs .exponential 1) (octa_wf _ _) 1 2 (1 / 2) _
    (octa_class _ _) rfl (by norm_num [octProjArgs]) positiveBump_linear (by simp [octProjArgs]) 1 rfl le_rfl (by decide) le_rfl
    (3 / 4) (by norm_num [octProjArgs])
  obtain ⟨X, h2, h3, h4, h5⟩ := h1 fun _ => octa_cocycle _ _ _
  obtain ⟨w, V, β, ν, -, -, h6⟩ := C51_large_data_partial (octa_wf _ _) positiveBump_linear (by norm_num [octa]) h2 h3
    (octa_class _ _).stored hv
  exact ⟨X, h2, h4, h5, w, V, β, ν, _, octa_vector _ v hv, h6⟩

/-- The statement of C50 for the data point 6, which is in the balls of the landmarks 0, 2 and 4. -/
example (env : CPOracles) : ∃ (w : ℕ → ℕ → ℝ) (β : ℕ → ℕ) (ν : ℕ → ℝ) (c : ℕ → ℤ), c (triIdx 0 2 4) = 1 ∧
    ∃ ζ : ℂ, ‖ζ‖ = 1 ∧ ∀ m < 6, cpAssigned 6 30000 (octa 30000 1).distLandLand (3 / 4) w c ν 2 6 m =
      ζ * cpAssigned 6 30000 (octa 30000 1).distLandLand (3 / 4) w c ν (β 6) 6 m := by
  obtain ⟨v, hv, h1, -⟩ := C84_complex_projective_returns env 6 (octa 30000 1) (octProjArgs .exponential 1) (octa_wf _ _) 1 2 (1 / 2) _
    (octa_class _ _) rfl (by norm_num [octProjArgs]) positiveBump_linear (by simp [octProjArgs]) 1 rfl le_rfl (by decide) le_rfl
    (3 / 4) (by norm_num [octProjArgs])
  obtain ⟨X, h2, h3, h4, h5⟩ := h1 fun _ => octa_cocycle _ _ _
  obtain ⟨w, V, β, ν, -, -, hc, -, -, h6⟩ := C50_complex_projective_class_map (octa_wf _ _) positiveBump_linear h2 h3
    (octa_class _ _).stored hv (octa_triangle _ _)
  have hball : InBall (octa 30000 1).nLand (octa 30000 1).dist (3 / 4) 2 6 := by
    refine ⟨by decide, ?_⟩
    show ((octaDist _ _ : ℕ) : ℝ) / 10 < _
    norm_num [octaDist]
  exact ⟨w, β, ν, _, octa_vector _ v hv, (h6 (hc rfl) 6 2 hball).2⟩

/-- With 7 data points, the class with value 1 and the class with value 0 on the triangle give the same coordinates. -/
example (env : CPOracles) : ∃ X : Arr ℂ, (cpGetCoordinates env 6 (octa 7 1) (octProjArgs .exponential 1)).2 = .ok X ∧
    (cpGetCoordinates env 6 (octa 7 0) (octProjArgs .exponential 1)).2 = .ok X := by
  have call : ∀ z : ℤ, ∃ X : Arr ℂ, (cpGetCoordinates env 6 (octa 7 z) (octProjArgs .exponential 1)).2 = .ok X ∧
      (cpGetCoordinates env 6 (octa 7 z) (octProjArgs .exponential 1)).1.radius = some (.fin (3 / 4), .fin (2 * (3 / 4))) := by
    intro z
    obtain ⟨v, hv, h1, -⟩ := C84_complex_projective_returns env 6 (octa 7 z) (octProjArgs .exponential 1) (octa_wf _ _) 1 2 (1 / 2) _
      (octa_class _ _) rfl (by norm_num [octProjArgs]) positiveBump_linear (by simp [octProjArgs]) 1 rfl le_rfl (by show 1 < 6; decide) le_rfl
      (3 / 4) (by norm_num [octProjArgs])
    obtain ⟨X, h2, h3, h4, h5⟩ := h1 fun _ => octa_cocycle _ _ _
    exact ⟨X, h2, h3⟩
  obtain ⟨X, h1, h2⟩ := call 1
  obtain ⟨X', h1', h2'⟩ := call 0
  have := (C51_small_data_ignores_class env env rfl 6 (octa 7 1) (octa 7 0) (octProjArgs .exponential 1)
    (octProjArgs .exponential 1) rfl rfl rfl rfl (by norm_num [octa]) rfl rfl rfl X X' h1 h1' (h2'.trans h2.symm)).1
  rw [this] at h1'
  exact ⟨X, h1, h1'⟩

/-- The statement of C54 on the same call, with any other balls containing the data points. -/
example (env : CPOracles) (β' : ℕ → ℕ) (hβ' : ∀ i, (∃ l, InBall 6 (octa 30000 1).dist (3 / 4) l i) →
    InBall 6 (octa 30000 1).dist (3 / 4) (β' i) i) :
    ∃ (X : Arr ℂ) (V : List (Option ℝ)) (w : ℕ → ℕ → ℝ) (ν : ℕ → ℝ) (c : ℕ → ℤ) (ζ : ℕ → ℂ), c (triIdx 0 2 4) = 1 ∧
      (cpGetCoordinates env 6 (octa 30000 1) (octProjArgs .exponential 1)).2 = .ok X ∧ (∀ i, ‖ζ i‖ = 1) ∧
      ppca env.eigh 6 (classMapVia 6 30000 (octa 30000 1).dist (3 / 4)
        (cpAssigned 6 30000 (octa 30000 1).distLandLand (3 / 4) w c ν) β') 1 .exponential =
        .ok ⟨V, ⟨X.rows, X.cols, fun i j => (X.at' i j).map fun y => ζ i * y⟩⟩ := by
  obtain ⟨v, hv, h1, -⟩ := C84_complex_projective_returns env 6 (octa 30000 1) (octProjArgs .exponential 1) (octa_wf _ _) 1 2 (1 / 2) _
    (octa_class _ _) rfl (by norm_num [octProjArgs]) positiveBump_linear (by simp [octProjArgs]) 1 rfl le_rfl (by decide) le_rfl
    (3 / 4) (by norm_num [octProjArgs])
  obtain ⟨X, h2, h3, h4, h5⟩ := h1 fun _ => octa_cocycle _ _ _
  obtain ⟨w, V, β, ν, -, -, -, h6⟩ := C54_complex_projective_choice_of_balls (octa_wf _ _) positiveBump_linear rfl h2 h3
    (octa_class _ _).stored hv (octa_triangle _ _)
  obtain ⟨ζ, h7, h8⟩ := h6 β' hβ'
  exact ⟨X, V, w, ν, _, ζ, octa_vector _ v hv, h2, h7, h8⟩

end Dreimac
