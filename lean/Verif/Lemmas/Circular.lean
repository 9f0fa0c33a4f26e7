import Verif.Lemmas.Glued
import Verif.Lemmas.Toroidal
import Verif.Lemmas.ToroidalState
import Verif.Props.ToroidalState
import Verif.Props.Repair
import Verif.Props.CircleMap
import Verif.Props.LLL

/-! # What a successful call computes -/

namespace Dreimac

open Real Matrix

/-! ### lifting and conversion to a dense vector -/

theorem storeRow_congr {T : Table} {p : ℤ} {vec vec' : List ℤ} {row row' : Row} (hv : row'.verts = row.verts)
    (hval : p ∣ row'.val - row.val) (hlen : vec'.length = vec.length)
    (hvec : ∀ e, p ∣ vec'.getD e 0 - vec.getD e 0) {out : List ℤ} (h : storeRow T vec row = .ok out) :
    ∃ out', storeRow T vec' row' = .ok out' ∧ out'.length = out.length ∧ ∀ e, p ∣ out'.getD e 0 - out.getD e 0 := by
  unfold storeRow at h ⊢
  rw [hv]
  simp only [bind, Except.bind] at h ⊢
  rcases hos : orderSimplex row.verts with e | ⟨s, sign⟩
  · rw [hos] at h; cases h
  · rw [hos] at h
    simp only at h ⊢
    rw [hlen]
    split at h
    · next hlt =>
      injection h with h; subst h
      rw [if_pos hlt]
      refine ⟨_, rfl, by simp [hlen], ?_⟩
      intro e
      simp only [List.getD_eq_getElem?_getD, List.getElem?_set]
      by_cases he : cnsForward s T = e
      · subst he
        rw [if_pos rfl, if_pos rfl, if_pos hlt, if_pos (by rw [hlen]; exact hlt)]
        simp only [Option.getD_some]
        rw [← sub_mul]
        exact Dvd.dvd.mul_right hval _
      · rw [if_neg he, if_neg he]
        simpa only [List.getD_eq_getElem?_getD] using hvec e
    · cases h

theorem fold_congr {T : Table} {p : ℤ} (c c' : SparseCochain) (h : CongruentArrays p c c') (vec vec' : List ℤ)
    (hlen : vec'.length = vec.length) (hvec : ∀ e, p ∣ vec'.getD e 0 - vec.getD e 0) (out : List ℤ)
    (hout : c.foldlM (storeRow T) vec = .ok out) :
    ∃ out', c'.foldlM (storeRow T) vec' = .ok out' ∧ ∀ e, p ∣ out'.getD e 0 - out.getD e 0 := by
  unfold CongruentArrays at h
  induction h generalizing vec vec' with
  | nil =>
    simp only [List.foldlM_nil, pure, Except.pure, Except.ok.injEq] at hout
    subst hout
    exact ⟨vec', rfl, hvec⟩
  | @cons r r' l l' hr _ ih =>
    rw [List.foldlM_cons] at hout
    simp only [bind, Except.bind] at hout
    rcases hs : storeRow T vec r with e | m
    · rw [hs] at hout; cases hout
    · rw [hs] at hout
      obtain ⟨m', h1, h2, h3⟩ := storeRow_congr hr.1 hr.2 hlen hvec hs
      obtain ⟨out', h4, h5⟩ := ih m m' h2 h3 hout
      refine ⟨out', ?_, h5⟩
      rw [List.foldlM_cons, h1]
      exact h4

theorem lift_congruent (c : SparseCochain) (p : ℤ) : CongruentArrays p c (liftToIntegerCocycle c p) := by
  unfold CongruentArrays liftToIntegerCocycle
  rw [List.forall₂_map_right_iff, List.forall₂_same]
  intro r _
  refine ⟨rfl, ?_⟩
  unfold liftVal
  split
  · exact ⟨-1, by simp⟩
  · simp

/-- The dense vector of the lifted array is congruent to the dense vector of the stored one. -/
theorem dense_lift {T : Table} {p : ℤ} {n : ℕ} {c : SparseCochain} {u : List ℤ}
    (h : sparseCocycleToVector 1 c T n = .ok u) :
    ∃ v, sparseCocycleToVector 1 (liftToIntegerCocycle c p) T n = .ok v ∧ ∀ e, p ∣ v.getD e 0 - u.getD e 0 := by
  unfold sparseCocycleToVector at h ⊢
  exact fold_congr _ _ (lift_congruent c p) _ _ rfl (by simp) _ h

theorem isCocycle1Mod_congr {K : Type} [LT K] {p : ℤ} {n : ℕ} {dist : ℕ → ℕ → K} {t : K} {c c' : ℕ → ℤ}
    (h : ∀ e, p ∣ c' e - c e) (hc : IsCocycle1Mod p n dist t c) : IsCocycle1Mod p n dist t c' := by
  intro i j k hijk
  have h1 := hc i j k hijk
  have : c' (edgeIdx i j) + c' (edgeIdx j k) - c' (edgeIdx i k) =
      (c (edgeIdx i j) + c (edgeIdx j k) - c (edgeIdx i k)) + ((c' (edgeIdx i j) - c (edgeIdx i j)) +
        (c' (edgeIdx j k) - c (edgeIdx j k)) - (c' (edgeIdx i k) - c (edgeIdx i k))) := by ring
  rw [this]
  exact dvd_add h1 (dvd_sub (dvd_add (h _) (h _)) (h _))

/-! ### the repair step -/

/-- What the check-and-repair step does to one class. -/
structure Repaired {K : Type} [LT K] (milp : Milp ℝ) (p : ℤ) (n : ℕ) (dist : ℕ → ℕ → K) (t : K) (check : Bool)
    (v c : ℕ → ℤ) : Prop where
  unchecked : check = false → c = v
  cocycle : IsCocycle1 n dist t v → c = v
  congr : ∀ e, p ∣ c e - v e
  lift : check = true → ∀ ε τ : ℝ, 0 ≤ τ → 3 * ε + τ < 1 → SolverSound milp ε τ → 0 < p → n ≤ 2345 →
    IsCocycle1Mod p n dist t v → IntegralLift1 p n dist t v c

section
variable {K : Type} [LinearOrder K]

/-- Whatever the solver answers, the repair step changes values by multiples of `p`. -/
theorem repairWith_congr {milp : Milp ℝ} {A : SparseMat} {p : ℤ} {c c' : ℕ → ℤ} (h : repairWith milp A p c = some c')
    (e : ℕ) : p ∣ c' e - c e := by
  unfold repairWith at h
  simp only at h
  split at h
  · cases h
  · next x _ =>
    injection h with h
    subst h
    exact ⟨- rint (x e), by ring⟩

theorem repairLoop_repaired (milp : Milp ℝ) {n N D : ℕ} (hn : n ≤ N) (hD : 2 ≤ D) (dist : ℕ → ℕ → K) (t : K) (p : ℤ)
    (idx : ℕ) (d : Option SparseMat) (hd : ∀ A, d = some A → makeDelta1Compact n dist t (cnsTable N D) = .ok A)
    (cs cs' : List (ℕ → ℤ)) (h : repairLoop milp n dist t (cnsTable N D) p idx d cs = .ok cs') :
    List.Forall₂ (Repaired milp p n dist t true) cs cs' := by
  induction cs generalizing idx d cs' with
  | nil => unfold repairLoop at h; injection h with h; subst h; exact .nil
  | cons c cs ih =>
    unfold repairLoop at h
    have hchk := C17_one_cocycle_check n N D hn (by omega) dist t c
    split at h
    · next hc =>
      simp only [bind, Except.bind] at h
      split at h
      · cases h
      · next rest hrest =>
        simp only [pure, Except.pure, Except.ok.injEq] at h
        subst h
        refine .cons ⟨by simp, fun _ => rfl, by simp, fun _ _ _ _ _ _ _ _ _ => ⟨hchk.1 hc, by simp⟩⟩ (ih _ _ hd _ hrest)
    · next hc =>
      simp only [bind, Except.bind] at h
      split at h
      · cases h
      · next A hA =>
        have hA' : makeDelta1Compact n dist t (cnsTable N D) = .ok A := by
          unfold deltaOr at hA
          cases d with
          | none => exact hA
          | some A0 =>
            simp only [bind, Except.bind] at hA
            split at hA
            · cases hA
            · split at hA
              · simp only [pure, Except.pure, Except.ok.injEq] at hA
                subst hA; exact hd _ rfl
              · exact hA
        split at h
        · cases h
        · next c' hc' =>
          split at h
          · cases h
          · next rest hrest =>
            simp only [pure, Except.pure, Except.ok.injEq] at h
            subst h
            refine .cons ⟨by simp, fun h => absurd (hchk.2 h) hc, repairWith_congr hc', ?_⟩ (ih _ _ (by rintro _ ⟨⟩; exact hA') _ hrest)
            intro _ ε τ hτ htol hs hp hsz hmod
            exact C19_repaired_one_cochain n N D hn hD hsz dist t A hA' milp ε τ hτ htol hs p hp c c' hmod hc'

theorem checkAndRepair_repaired (milp : Milp ℝ) {n N D : ℕ} (hn : n ≤ N) (hD : 2 ≤ D) (dist : ℕ → ℕ → K) (t : K)
    (p : ℤ) (check : Bool) (cs cs' : List (ℕ → ℤ))
    (h : checkAndRepair milp n dist t (cnsTable N D) p check cs = .ok cs') :
    List.Forall₂ (Repaired milp p n dist t check) cs cs' := by
  unfold checkAndRepair at h
  cases check with
  | true =>
    exact repairLoop_repaired milp hn hD dist t p 0 none (by simp) cs cs' (by simpa using h)
  | false =>
    simp only [Bool.false_eq_true, if_false, Except.ok.injEq] at h
    subst h
    rw [List.forall₂_same]
    exact fun c _ => ⟨fun _ => rfl, fun _ => rfl, by simp, by simp⟩

end

theorem forall₂_mapM {α β : Type} {f : α → Except PyErr β} {l : List α} {l' : List β} (h : l.mapM f = .ok l') :
    List.Forall₂ (fun a b => f a = .ok b) l l' := by
  induction l generalizing l' with
  | nil => simp only [List.mapM_nil, pure, Except.pure, Except.ok.injEq] at h; subst h; exact .nil
  | cons a l ih =>
    rw [List.mapM_cons] at h
    simp only [bind, Except.bind] at h
    rcases hfa : f a with e | b
    · rw [hfa] at h; cases h
    · rw [hfa] at h
      simp only at h
      rcases hl : l.mapM f with e | bs
      · rw [hl] at h; cases h
      · rw [hl] at h
        simp only [pure, Except.pure, Except.ok.injEq] at h
        subst h
        exact .cons hfa (ih hl)

/-! ### the stages of a successful call -/

theorem success_data {env : Oracles} {fuel : ℕ} {o : ToroObj} {a : Args} {coords : List (ℕ → Fl ℝ)}
    (h : (getCoordinates env fuel o a).2 = .ok coords) :
    ∃ b dth radius d info, (selectClasses o a.cocycleIdxs >>= commonSupport) = .ok (b, dth) ∧
      getCoverRadius a.perc b dth a.standardRange = .ok radius ∧
      coordData env o a radius (a.cocycleIdxs.map fun x =>
        ((o.cocycles.modify 1 (liftSelected o.prime a.cocycleIdxs)).getD 1 []).getD
        (x.pos ((o.cocycles.modify 1 (liftSelected o.prime a.cocycleIdxs)).getD 1 []).length) []) = .ok d ∧
      finishCoords env fuel o d = .ok (coords, info) ∧
      (getCoordinates env fuel o a).1.radius = some radius ∧ (getCoordinates env fuel o a).1.gramInfo = info := by
  rw [getCoordinates_eq] at h ⊢
  rcases hs : selectClasses o a.cocycleIdxs >>= commonSupport with e | ⟨b, dth⟩
  · rw [hs] at h; cases h
  · rw [hs] at h
    simp only at h ⊢
    rcases hr : getCoverRadius a.perc b dth a.standardRange with e | radius
    · rw [hr] at h; cases h
    · rw [hr] at h
      simp only at h ⊢
      split at h
      · cases h
      · next d hd =>
        split at h
        · cases h
        · next cs info hf =>
          simp only [Except.ok.injEq] at h
          subst h
          exact ⟨b, dth, radius, d, info, rfl, hr, hd, hf, rfl, rfl⟩

theorem coordData_stages {env : Oracles} {o : ToroObj} {a : Args} {radius : Fl ℝ × Fl ℝ} {cs : List SparseCochain}
    {d : CoordData} (h : coordData env o a radius cs = .ok d) :
    getCoveringPartition o.dtype o.nLand o.nData (fun l i => Fl.fin (o.dist l i)) radius.1 a.bump = .ok d.cov ∧
    d.thr = ripsThr radius.2 ∧
    makeDelta0 o.nLand (fun l m => (o.distLandLand l m : EReal)) (ripsThr radius.2) o.table = .ok d.delta0 ∧
    integerCocycles env o (ripsThr radius.2) a.check cs = .ok d.cocycles ∧
    makeInnerProduct o.nLand (fun l m => (o.distLandLand l m : EReal)) (ripsThr radius.2) o.table = .ok d.inner := by
  unfold coordData at h
  simp only [bind, Except.bind] at h
  split at h
  · cases h
  · next cov hcov =>
    split at h
    · cases h
    · next del hdel =>
      split at h
      · cases h
      · next co hco =>
        split at h
        · cases h
        · next inn hinn =>
          simp only [pure, Except.pure, Except.ok.injEq] at h
          subst h
          exact ⟨hcov, rfl, hdel, hco, hinn⟩

theorem coverRadius_half {perc b d : Fl ℝ} {std : Bool} {r t : ℝ} (h : getCoverRadius perc b d std = .ok (.fin r, .fin t)) :
    t = 2 * r := by
  unfold getCoverRadius at h
  simp only at h
  generalize (if std = true then Fl.fin 2 * b else b) = start at h
  split at h
  · cases h
  · simp only [Except.ok.injEq, Prod.mk.injEq] at h
    obtain ⟨h1, h2⟩ := h
    rw [h2] at h1
    rw [Fl.fin_div _ _ (by norm_num)] at h1
    injection h1 with h1
    linarith

/-! ### one coordinate -/

/-- What the constructor guarantees about an object built from a floating point distance matrix, and the sizes for
which the 32-bit indices of the matrices do not wrap (C16). -/
structure WellFormed (o : ToroObj) : Prop where
  dtype : o.dtype = .float
  table : ∃ N D, o.nLand ≤ N ∧ 2 ≤ D ∧ o.table = cnsTable N D
  pos : 0 < o.nLand
  size : o.nLand ≤ 65536
  nonneg : ∀ l i, 0 ≤ o.dist l i

theorem covered_iff {L : ℕ} {dist : ℕ → ℕ → ℝ} {r : ℝ} {i : ℕ} :
    Covered L dist r i ↔ ∃ m, InBall L dist r m i := Iff.rfl

/-- The weights and ball indices of a successful call, for any `L × N` array of distances. -/
theorem cov_spec_gen {L N : ℕ} (hL : 0 < L) {dist : ℕ → ℕ → ℝ} (hd : ∀ l i, 0 ≤ dist l i)
    {bump : Fl ℝ → Fl ℝ → Fl ℝ} (hb : PositiveBump bump) {r : ℝ} {cov : Covering ℝ}
    (h : getCoveringPartition .float L N (fun l i => Fl.fin (dist l i)) (.fin r) bump = .ok cov) :
    ∃ w : ℕ → ℕ → ℝ, IsPartitionOfUnity L dist r w ∧
      (∀ i, (∃ m, InBall L dist r m i) → ∀ l, cov.varphi l i = .fin (w l i)) ∧
      (∀ i, (¬ ∃ m, InBall L dist r m i) → ∀ l, cov.varphi l i = .nan) ∧
      ∀ i b, FirstBall L dist r i b → cov.ballIndx i = b := by
  obtain ⟨C, phi, hC, hpos, hw, hn, hcov, hball, -⟩ := covering_spec hb L N hL dist hd r
  rw [hC] at h
  injection h with h
  subst h
  refine ⟨fun l i => phi l i / ∑ m ∈ Finset.range L, phi m i, ⟨?_, ?_, ?_⟩, ?_, ?_, ?_⟩
  · intro l i hi
    exact div_nonneg (hpos l i).2 ((hcov i).1 hi).le
  · intro i hi
    rw [← Finset.sum_div]
    exact div_self ((hcov i).1 hi).ne'
  · intro l i hi
    rw [div_pos_iff_of_pos_right ((hcov i).1 hi)]
    exact (hpos l i).1
  · intro i hi l
    exact hw l i hi
  · intro i hi l
    exact hn l i hi
  · intro i b hb
    rw [hball]
    have h1 := (find?_range_getD L fun l => decide (dist l i < r)).1 ⟨b, hb.1.1, by simpa using hb.1.2⟩
    obtain ⟨h1, h2, h3⟩ := h1
    simp only [decide_eq_true_eq] at h2 h3
    rcases lt_trichotomy (((List.range L).find? fun l => decide (dist l i < r)).getD 0) b with hlt | heq | hgt
    · exact absurd ⟨h1, h2⟩ (hb.2 _ hlt)
    · exact heq
    · exact absurd hb.1.2 (by simpa using h3 b hgt)

/-- The weights and ball indices of a successful call. -/
theorem cov_spec {o : ToroObj} (wf : WellFormed o) {bump : Fl ℝ → Fl ℝ → Fl ℝ} (hb : PositiveBump bump) {r : ℝ}
    {cov : Covering ℝ}
    (h : getCoveringPartition o.dtype o.nLand o.nData (fun l i => Fl.fin (o.dist l i)) (.fin r) bump = .ok cov) :
    ∃ w : ℕ → ℕ → ℝ, IsPartitionOfUnity o.nLand o.dist r w ∧
      (∀ i, (∃ m, InBall o.nLand o.dist r m i) → ∀ l, cov.varphi l i = .fin (w l i)) ∧
      (∀ i, (¬ ∃ m, InBall o.nLand o.dist r m i) → ∀ l, cov.varphi l i = .nan) ∧
      ∀ i b, FirstBall o.nLand o.dist r i b → cov.ballIndx i = b := by
  rw [wf.dtype] at h
  exact cov_spec_gen wf.pos wf.nonneg hb h

/-- The matrices of a successful call. -/
theorem mats_spec {o : ToroObj} (wf : WellFormed o) {r : ℝ} {delta0 inner : SparseMat}
    (h0 : makeDelta0 o.nLand (fun l m => (o.distLandLand l m : EReal)) ((2 * r : ℝ) : EReal) o.table = .ok delta0)
    (h1 : makeInnerProduct o.nLand (fun l m => (o.distLandLand l m : EReal)) ((2 * r : ℝ) : EReal) o.table = .ok inner) :
    delta0.nRows = Nat.choose o.nLand 2 ∧ inner.nRows = Nat.choose o.nLand 2 ∧
    (∀ (x : ℕ → ℝ) (l m : ℕ), l < m → m < o.nLand → delta0.mulVec x (edgeIdx l m) =
      open Classical in if RipsEdge o.nLand o.distLandLand (2 * r) l m then x l - x m else 0) ∧
    (∀ (x : ℕ → ℝ) (l m : ℕ), l < m → m < o.nLand → inner.mulVec x (edgeIdx l m) =
      open Classical in if RipsEdge o.nLand o.distLandLand (2 * r) l m then x (edgeIdx l m) else 0) := by
  classical
  obtain ⟨N, D, hN, hD, hT⟩ := wf.table
  rw [hT, makeDelta0_ok hN (by omega) wf.size] at h0
  rw [hT, makeInnerProduct_ok hN (by omega)] at h1
  injection h0 with h0
  injection h1 with h1
  subst h0; subst h1
  refine ⟨rfl, rfl, ?_, ?_⟩
  · intro x l m hlm hm
    rw [delta0_mulVec hN (by omega) _ _ x hlm hm]
    by_cases h : o.distLandLand l m < 2 * r
    · rw [if_pos (EReal.coe_lt_coe_iff.2 h), if_pos ⟨hlm, hm, h⟩]
    · rw [if_neg (fun h' => h (EReal.coe_lt_coe_iff.1 h')), if_neg (fun h' => h h'.2.2)]
  · intro x l m hlm hm
    rw [inner_mulVec _ _ x hlm hm]
    by_cases h : o.distLandLand l m < 2 * r
    · rw [if_pos (EReal.coe_lt_coe_iff.2 h), if_pos ⟨hlm, hm, h⟩]
    · rw [if_neg (fun h' => h (EReal.coe_lt_coe_iff.1 h')), if_neg (fun h' => h h'.2.2)]

theorem isAngle_fmod (x : ℝ) : IsAngle (.fin (fmod (2 * π * x) (2 * π))) x :=
  ⟨_, rfl, fmod_nonneg two_pi_pos' _, fmod_lt two_pi_pos' _, sameAngle_fmod _⟩

/-- One coordinate, before lattice reduction, is given by the formula. -/
theorem circularCoordinate_spec {env : Oracles} {o : ToroObj} (wf : WellFormed o) {r : ℝ} {d : CoordData}
    (hthr : d.thr = ((2 * r : ℝ) : EReal))
    (h0 : makeDelta0 o.nLand (fun l m => (o.distLandLand l m : EReal)) ((2 * r : ℝ) : EReal) o.table = .ok d.delta0)
    (h1 : makeInnerProduct o.nLand (fun l m => (o.distLandLand l m : EReal)) ((2 * r : ℝ) : EReal) o.table =
      .ok d.inner)
    {w : ℕ → ℕ → ℝ} (hw : IsPartitionOfUnity o.nLand o.dist r w)
    (hcov : ∀ i, (∃ m, InBall o.nLand o.dist r m i) → ∀ l, d.cov.varphi l i = .fin (w l i))
    (hnan : ∀ i, (¬ ∃ m, InBall o.nLand o.dist r m i) → ∀ l, d.cov.varphi l i = .nan)
    (hball : ∀ i b, FirstBall o.nLand o.dist r i b → d.cov.ballIndx i = b) (c : ℕ → ℤ) :
    IsCircleCoordinate o.nLand o.dist o.distLandLand r w c (integrateHarmonic env.lsqr c d.delta0 d.inner).2
      (circularCoordinate env o d c) := by
  classical
  obtain ⟨N, D, hN, hD, hT⟩ := wf.table
  obtain ⟨-, -, hdel, -⟩ := mats_spec wf h0 h1
  refine ⟨?_, ?_⟩
  · intro i hi
    unfold circularCoordinate
    exact sparseIntegrate_nan wf.pos _ _ _ _ _ (hnan i hi)
  · intro i b hb
    have hi : ∃ m, InBall o.nLand o.dist r m i := ⟨b, hb.1⟩
    unfold circularCoordinate
    rw [hT, sparseIntegrate_fin hN (by omega) _ _ _ i (fun l => w l i) (hcov i hi), hball i b hb]
    have : ∀ s ∈ Finset.range o.nLand,
        (if b < s ∧ s < o.nLand ∧ ((o.distLandLand b s : ℝ) : EReal) < d.thr then
          (integrateHarmonic env.lsqr c d.delta0 d.inner).1 (edgeIdx b s) else 0) * w s i =
        ripsForm o.nLand o.distLandLand r c (integrateHarmonic env.lsqr c d.delta0 d.inner).2 b s * w s i := by
      intro s hs
      have hs' := Finset.mem_range.1 hs
      rcases lt_trichotomy s b with h | h | h
      · rw [hw.zero hi (fun hd => hb.2 s h ⟨hs', hd⟩)]; ring
      · subst h
        rw [if_neg (by simp)]
        unfold ripsForm
        rw [if_pos (show RipsRel o.nLand o.distLandLand (2 * r) s s from Or.inl rfl), edgeVal_self]; simp
      · congr 1
        rw [hthr]
        unfold ripsForm
        by_cases hd : o.distLandLand b s < 2 * r
        · have he : RipsEdge o.nLand o.distLandLand (2 * r) b s := ⟨h, hs', hd⟩
          rw [if_pos ⟨h, hs', EReal.coe_lt_coe_iff.2 hd⟩, if_pos (show RipsRel o.nLand o.distLandLand (2 * r) b s from Or.inr (Or.inl he))]
          simp only [integrateHarmonic]
          rw [hdel _ b s h hs', if_pos he]
          simp only [edgeVal, h, if_true]
        · rw [if_neg (fun h' => hd (EReal.coe_lt_coe_iff.1 h'.2.2)), if_neg]
          rintro (rfl | h' | h')
          · exact lt_irrefl _ h
          · exact hd h'.2.2
          · exact absurd h'.1 (by omega)
    rw [Finset.sum_congr rfl this]
    exact isAngle_fmod _

/-- An exact least squares solver. -/
def ExactLsq (lsqr : Lsqr) : Prop :=
  ∀ (A : SparseMat) (b x : ℕ → ℝ), ∑ e ∈ Finset.range A.nRows, (A.mulVec (lsqr A b) e - b e) ^ 2 ≤
    ∑ e ∈ Finset.range A.nRows, (A.mulVec x e - b e) ^ 2

/-- With an exact solver the potential minimises the energy. -/
theorem integral_minimises {lsqr : Lsqr} (hex : ExactLsq lsqr) {o : ToroObj} (wf : WellFormed o) {r : ℝ}
    {delta0 inner : SparseMat}
    (h0 : makeDelta0 o.nLand (fun l m => (o.distLandLand l m : EReal)) ((2 * r : ℝ) : EReal) o.table = .ok delta0)
    (h1 : makeInnerProduct o.nLand (fun l m => (o.distLandLand l m : EReal)) ((2 * r : ℝ) : EReal) o.table = .ok inner)
    (c : ℕ → ℤ) (g : ℕ → ℝ) :
    formEnergy o.nLand o.distLandLand r (fun e => (c e : ℝ)) (integrateHarmonic lsqr c delta0 inner).2 ≤
      formEnergy o.nLand o.distLandLand r (fun e => (c e : ℝ)) g := by
  classical
  obtain ⟨-, hrows, hdel, hinn⟩ := mats_spec wf h0 h1
  have hE : ∀ x : ℕ → ℝ, ∑ e ∈ Finset.range (inner.mul delta0).nRows,
      ((inner.mul delta0).mulVec x e - inner.mulVec (fun e => (c e : ℝ)) e) ^ 2 =
      formEnergy o.nLand o.distLandLand r (fun e => (c e : ℝ)) x := by
    intro x
    have : (inner.mul delta0).nRows = Nat.choose o.nLand 2 := hrows
    rw [this, sum_slots]
    unfold formEnergy
    apply Finset.sum_congr rfl; intro l _
    apply Finset.sum_congr rfl; intro m hm
    by_cases hlm : l < m
    · rw [if_pos hlm, mul_mulVec, hinn _ l m hlm (Finset.mem_range.1 hm), hinn _ l m hlm (Finset.mem_range.1 hm),
        hdel _ l m hlm (Finset.mem_range.1 hm)]
      split
      · ring
      · ring
    · rw [if_neg hlm, if_neg (fun h => hlm h.1)]
  have := hex (inner.mul delta0) (inner.mulVec fun e => (c e : ℝ)) g
  rw [hE, hE] at this
  exact this

/-- The entries of the Gram matrix. -/
theorem gram_entries {env : Oracles} {o : ToroObj} (wf : WellFormed o) {r : ℝ} {d : CoordData}
    (h0 : makeDelta0 o.nLand (fun l m => (o.distLandLand l m : EReal)) ((2 * r : ℝ) : EReal) o.table = .ok d.delta0)
    (h1 : makeInnerProduct o.nLand (fun l m => (o.distLandLand l m : EReal)) ((2 * r : ℝ) : EReal) o.table = .ok d.inner)
    (i j : Fin d.cocycles.length) :
    d.gram env i j = ∑ l ∈ Finset.range o.nLand, ∑ s ∈ Finset.range o.nLand,
      open Classical in if RipsEdge o.nLand o.distLandLand (2 * r) l s then
        ((d.cocycles[i] (edgeIdx l s) : ℝ) - ((integrateHarmonic env.lsqr d.cocycles[i] d.delta0 d.inner).2 l -
          (integrateHarmonic env.lsqr d.cocycles[i] d.delta0 d.inner).2 s)) *
        (d.cocycles[j] (edgeIdx l s) - ((integrateHarmonic env.lsqr d.cocycles[j] d.delta0 d.inner).2 l -
          (integrateHarmonic env.lsqr d.cocycles[j] d.delta0 d.inner).2 s)) else 0 := by
  classical
  obtain ⟨-, hrows, hdelv, hinnv⟩ := mats_spec wf h0 h1
  unfold CoordData.gram gramMatrix
  rw [hrows, sum_slots]
  apply Finset.sum_congr rfl; intro l _
  apply Finset.sum_congr rfl; intro s hs
  by_cases hls : l < s
  · rw [if_pos hls, hinnv _ l s hls (Finset.mem_range.1 hs)]
    by_cases he : RipsEdge o.nLand o.distLandLand (2 * r) l s
    · rw [if_pos he, if_pos he]
      simp only [integrateHarmonic]
      rw [hdelv _ l s hls (Finset.mem_range.1 hs), hdelv _ l s hls (Finset.mem_range.1 hs), if_pos he, if_pos he]
    · rw [if_neg he, if_neg he, mul_zero]
  · rw [if_neg hls, if_neg (fun h => hls h.1)]

/-! ### all coordinates of a call -/

theorem edgeVal_sum {m : ℕ} (u : Fin m → ℤ) (c : Fin m → ℕ → ℤ) (l s : ℕ) :
    edgeVal (fun e => ∑ j, u j * c j e) l s = ∑ j, u j * edgeVal (c j) l s := by
  unfold edgeVal
  split
  · rfl
  · split
    · simp [Finset.sum_neg_distrib]
    · simp

theorem coordFormula_sum {L : ℕ} {dll : ℕ → ℕ → ℝ} {r : ℝ} {w : ℕ → ℕ → ℝ} {m : ℕ} (u : Fin m → ℤ)
    (c : Fin m → ℕ → ℤ) (f : Fin m → ℕ → ℝ) (l i : ℕ) :
    coordFormula L dll r w (fun e => ∑ j, u j * c j e) (fun k => ∑ j, u j * f j k) l i =
      ∑ j, u j * coordFormula L dll r w (c j) (f j) l i := by
  unfold coordFormula
  have key : ∀ s ∈ Finset.range L,
      ripsForm L dll r (fun e => ∑ j, u j * c j e) (fun k => ∑ j, u j * f j k) l s * w s i =
      ∑ j, u j * (ripsForm L dll r (c j) (f j) l s * w s i) := by
    intro s _
    unfold ripsForm
    split
    · rw [edgeVal_sum]
      push_cast
      rw [← Finset.sum_sub_distrib, ← Finset.sum_sub_distrib, Finset.sum_mul]
      apply Finset.sum_congr rfl; intro j _; ring
    · simp
  rw [Finset.sum_congr rfl key, Finset.sum_comm]
  simp only [mul_add, Finset.sum_add_distrib, Finset.mul_sum]

/-- Integer combinations of circle coordinates are circle coordinates. -/
theorem isCircleCoordinate_combine {L : ℕ} {dist dll : ℕ → ℕ → ℝ} {r : ℝ} {w : ℕ → ℕ → ℝ} {m : ℕ} (hm : 0 < m)
    (u : Fin m → ℤ) (c : Fin m → ℕ → ℤ) (f : Fin m → ℕ → ℝ) (θ : Fin m → ℕ → Fl ℝ)
    (h : ∀ j, IsCircleCoordinate L dist dll r w (c j) (f j) (θ j)) (g : ℕ → Fl ℝ)
    (hg : ∀ p, g p = flmod (flSum ((List.range m).map fun j =>
      Fl.fin (if hj : j < m then (u ⟨j, hj⟩ : ℝ) else 0) * (if hj : j < m then θ ⟨j, hj⟩ p else 0))) (2 * π)) :
    IsCircleCoordinate L dist dll r w (fun e => ∑ j, u j * c j e) (fun k => ∑ j, u j * f j k) g := by
  refine ⟨?_, ?_⟩
  · intro i hi
    rw [hg, flSum_nan]
    · rfl
    · rw [List.mem_map]
      refine ⟨0, List.mem_range.2 hm, ?_⟩
      rw [dif_pos hm, dif_pos hm, (h ⟨0, hm⟩).uncovered i hi, Fl.mul_nan]
  · intro i b hb
    choose y hy0 hy1 hy2 hy3 using fun j => (h j).covered i b hb
    have e : (List.range m).map (fun j => Fl.fin (if hj : j < m then (u ⟨j, hj⟩ : ℝ) else 0) *
        (if hj : j < m then θ ⟨j, hj⟩ i else 0)) =
        (List.range m).map (fun j => Fl.fin (if hj : j < m then (u ⟨j, hj⟩ : ℝ) * y ⟨j, hj⟩ else 0)) := by
      apply List.map_congr_left
      intro j hj
      have hj' := List.mem_range.1 hj
      rw [dif_pos hj', dif_pos hj', dif_pos hj', hy0, Fl.fin_mul]
    rw [hg, e, flSum_fin]
    refine ⟨_, rfl, fmod_nonneg two_pi_pos' _, fmod_lt two_pi_pos' _, (sameAngle_fmod _).trans ?_⟩
    rw [coordFormula_sum, Finset.mul_sum, Finset.sum_range]
    refine SameAngle.sum _ fun j _ => ?_
    rw [dif_pos j.2]
    have : 2 * π * ((u j : ℝ) * coordFormula L dll r w (c j) (f j) b i) =
        (u j : ℝ) * (2 * π * coordFormula L dll r w (c j) (f j) b i) := by ring
    rw [this]
    exact (hy3 j).int_mul _

/-- Everything a successful call is built from. -/
structure CallWitness (env : Oracles) (o o' : ToroObj) (a : Args) (r : ℝ) (coords : List (ℕ → Fl ℝ)) where
  /-- the number of classes -/
  m : ℕ
  /-- the weights -/
  w : ℕ → ℕ → ℝ
  /-- the integer cocycles -/
  c : Fin m → ℕ → ℤ
  /-- the potentials -/
  f : Fin m → ℕ → ℝ
  /-- the individual coordinates -/
  base : Fin m → ℕ → Fl ℝ
  /-- the change of basis -/
  U : Matrix (Fin m) (Fin m) ℤ
  /-- the returned coordinates -/
  out : Fin m → ℕ → Fl ℝ
  len : a.cocycleIdxs.length = m
  out_eq : coords = List.ofFn out
  part : IsPartitionOfUnity o.nLand o.dist r w
  weights : ∃ cov, getCoveringPartition .float o.nLand o.nData (fun l i => Fl.fin (o.dist l i)) (.fin r) a.bump = .ok cov ∧
    ∀ i, (∃ m, InBall o.nLand o.dist r m i) → ∀ l, cov.varphi l i = .fin (w l i)
  base_coord : ∀ j, IsCircleCoordinate o.nLand o.dist o.distLandLand r w (c j) (f j) (base j)
  det : U.det = 1 ∨ U.det = -1
  single : m = 1 → U = 1 ∧ out = base
  out_coord : ∀ i, IsCircleCoordinate o.nLand o.dist o.distLandLand r w (fun e => ∑ j, U i j * c j e)
    (fun k => ∑ j, U i j * f j k) (out i)
  classes : ∀ (j : Fin m) x b d s, a.cocycleIdxs[(j : ℕ)]? = some x → repr1 o x = .ok (b, d, s) →
    ∃ v, sparseCocycleToVector 1 (liftToIntegerCocycle s o.prime) o.table o.nLand = .ok v ∧
      Repaired env.milp o.prime o.nLand o.distLandLand (2 * r) a.check (fun e => v.getD e 0) (c j)
  minimal : ExactLsq env.lsqr → ∀ j g, formEnergy o.nLand o.distLandLand r (fun e => (c j e : ℝ)) (f j) ≤
    formEnergy o.nLand o.distLandLand r (fun e => (c j e : ℝ)) g
  gram : 1 < m → ∃ (G B : Matrix (Fin m) (Fin m) ℝ), env.cholesky m G = some Bᵀ ∧
    (∀ i j, G i j = ∑ l ∈ Finset.range o.nLand, ∑ s ∈ Finset.range o.nLand,
      open Classical in if RipsEdge o.nLand o.distLandLand (2 * r) l s then
        (c i (edgeIdx l s) - (f i l - f i s)) * (c j (edgeIdx l s) - (f j l - f j s)) else 0) ∧
    o'.gramInfo = some ⟨m, G, (B * (U.map (fun z => (z : ℝ)))ᵀ) * (B * (U.map (fun z => (z : ℝ)))ᵀ)ᵀ,
      U.map (fun z => (z : ℝ))⟩ ∧
    ∃ fuel D, lll fuel B = some (D, (U.map (fun z => (z : ℝ)))ᵀ)
  gram_single : m = 1 → o'.gramInfo = o.gramInfo
  data : ∃ d, coordData env o a (.fin r, .fin (2 * r)) (a.cocycleIdxs.map fun x =>
    ((o.cocycles.modify 1 (liftSelected o.prime a.cocycleIdxs)).getD 1 []).getD
    (x.pos ((o.cocycles.modify 1 (liftSelected o.prime a.cocycleIdxs)).getD 1 []).length) []) = .ok d ∧
    List.ofFn base = d.cocycles.map (circularCoordinate env o d)

theorem repaired_coe {milp : Milp ℝ} {p : ℤ} {n : ℕ} {dist : ℕ → ℕ → ℝ} {t : ℝ} {check : Bool} {v c : ℕ → ℤ}
    (h : Repaired milp p n (fun l m => (dist l m : EReal)) (t : EReal) check v c) :
    Repaired milp p n dist t check v c := by
  refine ⟨h.unchecked, fun hc => h.cocycle ((isCocycle1_coe n dist t v).2 hc), h.congr, ?_⟩
  intro hch ε τ h1 h2 h3 h4 h5 h6
  have := h.lift hch ε τ h1 h2 h3 h4 h5 ((isCocycle1Mod_coe p n dist t v).2 h6)
  exact ⟨(isCocycle1_coe n dist t c).1 this.1, this.2⟩

theorem lifted_of_repr {o : ToroObj} (hv : FieldValued o.prime o.cocycles) {idxs : List ClassArg} {x : ClassArg}
    (hx : x ∈ idxs) {b d : Fl ℝ} {s : SparseCochain} (hs : repr1 o x = .ok (b, d, s)) :
    ((o.cocycles.modify 1 (liftSelected o.prime idxs)).getD 1 []).getD
      (x.pos ((o.cocycles.modify 1 (liftSelected o.prime idxs)).getD 1 []).length) [] =
    liftToIntegerCocycle s o.prime := by
  rw [lifted_array rfl (fieldValued_refl hv) x hx]
  unfold repr1 getRepresentativeCocycle at hs
  cases x with
  | nonInt => cases hs
  | int z =>
    simp only [bind, Except.bind] at hs
    rcases hd : pyGet o.dgms 1 with e | dgm
    · rw [hd] at hs; cases hs
    · rw [hd] at hs
      simp only at hs
      rcases hk : pyGet o.cocycles 1 with e | ck
      · rw [hk] at hs; cases hs
      · rw [hk] at hs
        simp only at hs
        rcases hp : pyGet dgm z with e | pt
        · rw [hp] at hs; cases hs
        · rw [hp] at hs
          simp only at hs
          rcases hc : pyGet ck z with e | c0
          · rw [hc] at hs; cases hs
          · rw [hc] at hs
            simp only [pure, Except.pure, Except.ok.injEq, Prod.mk.injEq] at hs
            obtain ⟨-, -, rfl⟩ := hs
            have h1 : o.cocycles[1]? = some ck := by simpa [pyPos] using pyGet_getElem? hk
            have h2 := pyGet_getElem? hc
            have h3 : o.cocycles.getD 1 [] = ck := by simp [List.getD_eq_getElem?_getD, h1]
            rw [h3]
            simp only [ClassArg.pos, h2, Option.map_some, Option.getD_some]

theorem callWitness {env : Oracles} {fuel : ℕ} {o : ToroObj} {a : Args} {coords : List (ℕ → Fl ℝ)}
    (wf : WellFormed o) (hv : FieldValued o.prime o.cocycles) (hb : PositiveBump a.bump)
    (hok : (getCoordinates env fuel o a).2 = .ok coords) {r t : ℝ}
    (hr : (getCoordinates env fuel o a).1.radius = some (.fin r, .fin t)) :
    t = 2 * r ∧ Nonempty (CallWitness env o (getCoordinates env fuel o a).1 a r coords) := by
  classical
  obtain ⟨b, dth, radius, d, info, hsel, hrad, hd, hfin, hr', hinfo⟩ := success_data hok
  rw [hr'] at hr
  injection hr with hr
  subst hr
  have ht : t = 2 * r := coverRadius_half hrad
  subst ht
  refine ⟨rfl, ?_⟩
  have hlen := coordData_length hd
  obtain ⟨hcov, hthr, hdel, hcoc, hinn⟩ := coordData_stages hd
  obtain ⟨w, hw, hw1, hw2, hw3⟩ := cov_spec wf hb hcov
  obtain ⟨N, D, hN, hD, hT⟩ := wf.table
  obtain ⟨-, hrows, hdelv, hinnv⟩ := mats_spec wf hdel hinn
  have hbase : ∀ j : Fin d.cocycles.length, IsCircleCoordinate o.nLand o.dist o.distLandLand r w d.cocycles[j]
      (integrateHarmonic env.lsqr d.cocycles[j] d.delta0 d.inner).2 (d.coords env o j) := fun j =>
    circularCoordinate_spec wf hthr hdel hinn hw hw1 hw2 hw3 _
  have hclasses : ∀ (j : Fin d.cocycles.length) x b e s, a.cocycleIdxs[(j : ℕ)]? = some x →
      repr1 o x = .ok (b, e, s) →
      ∃ v, sparseCocycleToVector 1 (liftToIntegerCocycle s o.prime) o.table o.nLand = .ok v ∧
        Repaired env.milp o.prime o.nLand o.distLandLand (2 * r) a.check (fun e => v.getD e 0) d.cocycles[j] := by
    intro j x b e s hx hs
    unfold integerCocycles at hcoc
    simp only [bind, Except.bind] at hcoc
    split at hcoc
    · cases hcoc
    · next dense hdense =>
      rw [hT] at hcoc
      have h1 := checkAndRepair_repaired env.milp hN hD _ _ o.prime a.check _ _ hcoc
      have h2 := forall₂_mapM hdense
      have hxm := List.mem_of_getElem? hx
      have harr := lifted_of_repr hv hxm hs
      rcases forall₂_get h2 j with ⟨e1, -⟩ | ⟨s', v, e1, e2, hsv⟩
      · rw [List.getElem?_map, hx] at e1; cases e1
      · rw [List.getElem?_map, hx] at e1
        simp only [Option.map_some, Option.some.injEq] at e1
        rw [harr] at e1
        subst e1
        refine ⟨v, hsv, ?_⟩
        rcases forall₂_get h1 j with ⟨e3, -⟩ | ⟨v', c', e3, e4, hrep⟩
        · rw [List.getElem?_map, e2] at e3; cases e3
        · rw [List.getElem?_map, e2] at e3
          simp only [Option.map_some, Option.some.injEq] at e3
          subst e3
          have : d.cocycles[j] = c' := by
            have h5 : d.cocycles[(j : ℕ)]? = some d.cocycles[j] := List.getElem?_eq_getElem j.2
            rw [e4] at h5; injection h5 with h5; exact h5.symm
          rw [this]
          exact repaired_coe hrep
  have hmin : ExactLsq env.lsqr → ∀ (j : Fin d.cocycles.length) g,
      formEnergy o.nLand o.distLandLand r (fun e => (d.cocycles[j] e : ℝ))
        (integrateHarmonic env.lsqr d.cocycles[j] d.delta0 d.inner).2 ≤
      formEnergy o.nLand o.distLandLand r (fun e => (d.cocycles[j] e : ℝ)) g := fun hex j g =>
    integral_minimises hex wf hdel hinn _ g
  have hlen' : a.cocycleIdxs.length = d.cocycles.length := by rw [hlen, List.length_map]
  have hbl : List.ofFn (d.coords env o) = d.cocycles.map (circularCoordinate env o d) := by
    conv_rhs => rw [← List.ofFn_get d.cocycles, List.map_ofFn]
    rfl
  have hweights : ∃ cov, getCoveringPartition .float o.nLand o.nData (fun l i => Fl.fin (o.dist l i)) (.fin r) a.bump = .ok cov ∧
      ∀ i, (∃ m, InBall o.nLand o.dist r m i) → ∀ l, cov.varphi l i = .fin (w l i) :=
    ⟨d.cov, by rw [← wf.dtype]; exact hcov, hw1⟩
  unfold finishCoords at hfin
  split at hfin
  · next hm =>
    simp only [bind, Except.bind] at hfin
    split at hfin
    · cases hfin
    · next res hres =>
      simp only [pure, Except.pure, Except.ok.injEq, Prod.mk.injEq] at hfin
      obtain ⟨hcoords, hinfo'⟩ := hfin
      unfold reduceCoordinates at hres
      split at hres
      · cases hres
      · next Lm hchol =>
        split at hres
        · cases hres
        · next Dm change hlll =>
          obtain ⟨U0, hU, hdet, hDm⟩ := C40_result _ _ _ _ hlll
          simp only [linearCombination, if_true, Except.ok.injEq] at hres
          have hout : ∀ i : Fin d.cocycles.length, IsCircleCoordinate o.nLand o.dist o.distLandLand r w
              (fun e => ∑ j, U0ᵀ i j * d.cocycles[j] e)
              (fun k => ∑ j, (U0ᵀ i j : ℝ) * (integrateHarmonic env.lsqr d.cocycles[j] d.delta0 d.inner).2 k)
              (res.1 i) := by
            intro i
            refine isCircleCoordinate_combine (by omega) (fun j => U0ᵀ i j) (fun j => d.cocycles[j]) _ _ hbase _ ?_
            intro p
            rw [← hres]
            simp only [combineAt]
            congr 2
            apply List.map_congr_left
            intro j hj
            have hj' := List.mem_range.1 hj
            simp only [matArr, stackMaps, hU, i.2, hj', and_self, dif_pos]
            rfl
          refine ⟨⟨d.cocycles.length, w, fun j => d.cocycles[j],
            fun j => (integrateHarmonic env.lsqr d.cocycles[j] d.delta0 d.inner).2, d.coords env o, U0ᵀ, res.1, hlen',
            hcoords.symm, hw, hweights, hbase, by rwa [Matrix.det_transpose], fun h => by omega, hout, hclasses, hmin,
            ?_, fun h => by omega, d, hd, hbl⟩⟩
          intro _
          have hc : (Matrix.map U0ᵀ fun z => (z : ℝ)) = changeᵀ := by rw [hU]; rfl
          refine ⟨d.gram env, Lmᵀ, by rw [Matrix.transpose_transpose]; exact hchol, gram_entries wf hdel hinn, ?_,
            fuel, Dm, by rw [hc, Matrix.transpose_transpose]; exact hlll⟩
          rw [hinfo, ← hinfo', ← hres]
          rw [hc, Matrix.transpose_transpose, hDm]
  · next hm =>
    simp only [pure, Except.pure, Except.ok.injEq, Prod.mk.injEq] at hfin
    obtain ⟨hcoords, hinfo'⟩ := hfin
    refine ⟨⟨d.cocycles.length, w, fun j => d.cocycles[j],
      fun j => (integrateHarmonic env.lsqr d.cocycles[j] d.delta0 d.inner).2, d.coords env o, 1, d.coords env o, hlen',
      hcoords.symm, hw, hweights, hbase, Or.inl Matrix.det_one, fun _ => ⟨rfl, rfl⟩, ?_, hclasses, hmin,
      fun h => absurd h hm, fun _ => by rw [hinfo, hinfo'], d, hd, hbl⟩⟩
    intro i
    have := hbase i
    simpa [Matrix.one_apply, Finset.sum_ite_eq] using this

end Dreimac
