import Verif.Spec.Outcomes
import Verif.Props.Construct
import Verif.Props.LLL4

/-!
# C121: every call with at most four classes ends
-/

namespace Dreimac

open Matrix

theorem mapM_error {α β : Type} {f : α → Except PyErr β} {e : PyErr} : ∀ {l : List α}, l.mapM f = .error e →
    ∃ l₁ x l₂, l = l₁ ++ x :: l₂ ∧ f x = .error e ∧ ∀ y ∈ l₁, ∃ b, f y = .ok b
  | [], h => by simp [pure, Except.pure] at h
  | x :: l, h => by
    rw [List.mapM_cons] at h
    rcases hx : f x with e' | y
    · rw [hx] at h
      simp only [bind, Except.bind, Except.error.injEq] at h
      exact ⟨[], x, l, rfl, by rw [hx, h], by simp⟩
    · rw [hx] at h
      simp only [bind, Except.bind] at h
      rcases hl : l.mapM f with e' | ys
      · rw [hl] at h
        simp only [Except.error.injEq] at h
        subst h
        obtain ⟨l₁, z, l₂, rfl, hz, hz'⟩ := mapM_error hl
        refine ⟨x :: l₁, z, l₂, rfl, hz, fun w hw => ?_⟩
        rcases List.mem_cons.1 hw with rfl | hw
        · exact ⟨y, hx⟩
        · exact hz' w hw
      · rw [hl] at h; cases h

theorem mapM_ok_of {α β : Type} {f : α → Except PyErr β} : ∀ {l : List α}, (∀ x ∈ l, ∃ y, f x = .ok y) →
    ∃ ys, l.mapM f = .ok ys ∧ ys.length = l.length
  | [], _ => ⟨[], rfl, rfl⟩
  | x :: l, h => by
    obtain ⟨y, hy⟩ := h x (by simp)
    obtain ⟨ys, hys, hlen⟩ := mapM_ok_of (l := l) fun z hz => h z (by simp [hz])
    refine ⟨y :: ys, ?_, by simp [hlen]⟩
    rw [List.mapM_cons, hy, hys]; rfl

theorem pyGet_error {α : Type} {l : List α} {z : ℤ} {e : PyErr} (h : pyGet l z = .error e) :
    e = .indexError ∧ (z < -l.length ∨ (l.length : ℤ) ≤ z) := by
  unfold pyGet at h
  simp only at h
  generalize hj : (if z < 0 then z + (l.length : ℤ) else z) = j at h
  split at h
  · rename_i h0
    split at h
    · cases h
    · rename_i hn
      injection h with h
      refine ⟨h.symm, ?_⟩
      rw [List.getElem?_eq_none_iff] at hn
      split at hj <;> omega
  · injection h with h
    refine ⟨h.symm, ?_⟩
    split at hj <;> omega

/-- The errors of the loop that checks and repairs the selected classes. -/
theorem repairLoop_errors {K : Type} [LinearOrder K] (milp : Milp ℝ) {n : ℕ} {dist : ℕ → ℕ → K} {t : K} {T : Table} {p : ℤ}
    {M : SparseMat} (hM : makeDelta1Compact n dist t T = .ok M) {e : PyErr} :
    ∀ (cs : List (ℕ → ℤ)) (idx : ℕ) (d : Option SparseMat), repairLoop milp n dist t T p idx d cs = .error e →
      (∃ i : ℕ, e = .noIntegralLift i ∧ idx ≤ i ∧ i < idx + cs.length) ∨
      (e = .valueError ∧ 1 ≤ cs.length ∧ (d = none → 2 ≤ cs.length)) := by
  intro cs
  induction cs with
  | nil => intro idx d h; simp [repairLoop] at h
  | cons c cs ih =>
    intro idx d h
    rw [repairLoop] at h
    split at h
    · rcases hr : repairLoop milp n dist t T p (idx + 1) d cs with e' | rest
      · rw [hr] at h
        simp only [bind, Except.bind, Except.error.injEq] at h
        subst h
        rcases ih _ _ hr with ⟨i, h1, h2, h3⟩ | ⟨h1, h2, h3⟩
        · exact Or.inl ⟨i, h1, by omega, by simp only [List.length_cons]; omega⟩
        · exact Or.inr ⟨h1, by simp, fun hd => by have := h3 hd; simp only [List.length_cons]; omega⟩
      · rw [hr] at h; cases h
    · rcases hd : deltaOr d (makeDelta1Compact n dist t T) with e' | A
      · rw [hd] at h
        simp only [bind, Except.bind, Except.error.injEq] at h
        subst h
        unfold deltaOr at hd
        cases d with
        | none => rw [hM] at hd; cases hd
        | some D =>
          refine Or.inr ⟨?_, by simp, by simp⟩
          simp only [sparseTruth, bind, Except.bind] at hd
          split at hd
          · rename_i h1
            split at h1
            · cases h1
            · injection h1 with h1; injection hd with hd; rw [← hd, ← h1]
          · split at hd
            · cases hd
            · rw [hM] at hd; cases hd
      · rw [hd] at h
        simp only [bind, Except.bind] at h
        split at h
        · injection h with h
          exact Or.inl ⟨idx, h.symm, le_refl _, by simp⟩
        · rcases hr : repairLoop milp n dist t T p (idx + 1) (some A) cs with e' | rest
          · rw [hr] at h
            simp only [Except.error.injEq] at h
            subst h
            rcases ih _ _ hr with ⟨i, h1, h2, h3⟩ | ⟨h1, h2, h3⟩
            · exact Or.inl ⟨i, h1, by omega, by simp only [List.length_cons]; omega⟩
            · exact Or.inr ⟨h1, by simp, fun _ => by simp only [List.length_cons]; omega⟩
          · rw [hr] at h; cases h

/-- With at most four classes the reduction ends. -/
theorem finishCoords_ends (env : Oracles) (hch : CholeskySpec env.cholesky) (o : ToroObj) (d : CoordData)
    (h4 : d.cocycles.length ≤ 4) :
    ∃ N, (∀ fuel, N ≤ fuel → finishCoords env fuel o d = .error .linAlgError ∧ 2 ≤ d.cocycles.length) ∨
      ∃ coords info, coords.length = d.cocycles.length ∧ ∀ fuel, N ≤ fuel → finishCoords env fuel o d = .ok (coords, info) := by
  unfold finishCoords
  by_cases h1 : 1 < d.cocycles.length
  · simp only [if_pos h1]
    rcases hL : env.cholesky _ (d.gram env) with _ | L
    · exact ⟨0, Or.inl fun fuel _ => ⟨by unfold reduceCoordinates; rw [hL]; rfl, h1⟩⟩
    · have hdet := hch.det hL
      obtain ⟨N, B', C, hN⟩ : ∃ N B' C, ∀ fuel, N ≤ fuel → lll fuel Lᵀ = some (B', C) := by
        have hdet' : Lᵀ.det ≠ 0 := by rwa [Matrix.det_transpose]
        clear hL hdet
        generalize Lᵀ = A at hdet'
        revert A
        generalize d.cocycles.length = m at h1 h4
        intro A hA
        have : m = 2 ∨ m = 3 ∨ m = 4 := by omega
        rcases this with rfl | rfl | rfl
        · obtain ⟨N, B', C, hN, -⟩ := C42_two_classes A hA; exact ⟨N, B', C, hN⟩
        · obtain ⟨N, B', C, hN, -⟩ := C82_three_classes_partial A hA; exact ⟨N, B', C, hN⟩
        · obtain ⟨N, B', C, hN, -⟩ := C82_four_classes_partial A hA; exact ⟨N, B', C, hN⟩
      refine ⟨N, Or.inr ⟨List.ofFn fun (i : Fin d.cocycles.length) p => combineAt d.cocycles.length (matArr Cᵀ) (stackMaps (d.coords env o)) i p,
        some ⟨d.cocycles.length, d.gram env, B' * B'ᵀ, Cᵀ⟩, List.length_ofFn, fun fuel hf => ?_⟩⟩
      unfold reduceCoordinates
      simp only [hL, hN fuel hf, linearCombination, if_true]
      rfl
  · simp only [if_neg h1]
    exact ⟨0, Or.inr ⟨_, _, by simp, fun _ _ => rfl⟩⟩

/-- The errors of the part of the call before the reduction. -/
theorem coordData_error {env : Oracles} {o : ToroObj} (wf : WellFormed o) {a : Args} {radius : Fl ℝ × Fl ℝ}
    {cs : List SparseCochain} (hcs : ∀ c ∈ cs, ∃ v, sparseCocycleToVector 1 c o.table o.nLand = .ok v)
    (hsz : a.check = true → o.nLand ≤ 2345) {e : PyErr} (h : coordData env o a radius cs = .error e) :
    a.check = true ∧ ((∃ i : ℕ, e = .noIntegralLift i ∧ i < cs.length) ∨ (e = .valueError ∧ 2 ≤ cs.length)) := by
  obtain ⟨N, D, hN, hD, hT⟩ := wf.table
  obtain ⟨vs, hvs, hl⟩ := mapM_ok_of hcs
  have hcov : ∃ cov, getCoveringPartition o.dtype o.nLand o.nData (fun l i => Fl.fin (o.dist l i)) radius.1 a.bump = .ok cov := by
    have := wf.pos
    unfold getCoveringPartition
    simp only [wf.dtype]
    rw [if_neg (by simp), if_neg (by omega)]
    exact ⟨_, rfl⟩
  obtain ⟨cov, hcov⟩ := hcov
  unfold coordData integerCocycles at h
  rw [hcov, hvs, hT] at h
  simp only [bind, Except.bind, checkAndRepair, makeDelta0_ok hN (show 1 ≤ D by omega) wf.size,
    makeInnerProduct_ok hN (show 1 ≤ D by omega)] at h
  by_cases hchk : a.check = true
  · refine ⟨hchk, ?_⟩
    rw [if_pos hchk] at h
    obtain ⟨M, hM, -⟩ := C13_delta1_compact o.nLand N D hN hD (hsz hchk) (fun l m => (o.distLandLand l m : EReal))
      (ripsThr radius.2)
    split at h
    · rename_i e' he
      injection h with h
      subst h
      rcases repairLoop_errors env.milp hM _ _ _ he with ⟨i, h1, -, h3⟩ | ⟨h1, -, h3⟩
      · exact Or.inl ⟨i, h1, by simpa [hl] using h3⟩
      · exact Or.inr ⟨h1, by simpa [hl] using h3 rfl⟩
    · cases h
  · rw [if_neg hchk] at h
    cases h

/-- How selecting a class of an object can end. -/
def SelectionTable (o : ToroObj) (dgm : List (Fl ℝ × Fl ℝ)) (σ : List ℕ) (idx : ClassArg) : Prop :=
  (idx = .nonInt ∧ repr1 o idx = .error .assertionError) ∨
  (∃ z : ℤ, idx = .int z ∧ (z < -dgm.length ∨ dgm.length ≤ z) ∧ repr1 o idx = .error .indexError) ∨
  ∃ pt s, SelectsInterval dgm σ idx pt ∧ IsInterval pt ∧ ValidArray o.prime o.nLand 1 s ∧ repr1 o idx = .ok (pt.1, pt.2, s)

theorem SelectsInterval.unique {dgm : List (Fl ℝ × Fl ℝ)} {σ : List ℕ} {idx : ClassArg} {pt pt' : Fl ℝ × Fl ℝ}
    (h : SelectsInterval dgm σ idx pt) (h' : SelectsInterval dgm σ idx pt') : pt = pt' := by
  obtain ⟨r, j, h1, h2, h3, h4⟩ := h
  obtain ⟨r', j', h1', h2', h3', h4'⟩ := h'
  have : r = r' := by
    rcases h2 with h2 | h2 <;> rcases h2' with h2' | h2' <;>
    · rw [h2] at h2'
      injection h2' with h2'
      omega
  subst this
  rw [h3] at h3'
  injection h3' with h3'
  subst h3'
  rw [h4] at h4'
  injection h4'

theorem forall₂_right {α β : Type} {R : α → β → Prop} {l : List α} {l' : List β} (h : List.Forall₂ R l l') {a : α} (ha : a ∈ l) :
    ∃ b ∈ l', R a b := forall₂_mem_right h.flip ha

/-- The selected classes and their common support. -/
theorem select_common {o : ToroObj} {dgm : List (Fl ℝ × Fl ℝ)} {σ : List ℕ} {idxs : List ClassArg}
    (htab : ∀ idx, SelectionTable o dgm σ idx)
    {sel : (Fl ℝ × Fl ℝ × SparseCochain) × List (Fl ℝ × Fl ℝ × SparseCochain)} (hsel : selectClasses o idxs = .ok sel) :
    SelectsAll dgm σ idxs ∧
    ((commonSupport sel = .error .supportsDisjoint ∧ ∃ b d, SelectedEnds dgm σ idxs b d ∧ d ≤ b) ∨
     ∃ (b : ℝ) (D : Fl ℝ), commonSupport sel = .ok (.fin b, D) ∧ (∀ b' d', SelectedEnds dgm σ idxs b' d' → b' < d') ∧
      ((D = .pinf ∧ ∀ b' d', ¬ SelectedEnds dgm σ idxs b' d') ∨ ∃ d, D = .fin d ∧ SelectedEnds dgm σ idxs b d ∧
        ∀ b' d', SelectedEnds dgm σ idxs b' d' → b' ≤ b ∧ d ≤ d')) := by
  rw [selectClasses_iff] at hsel
  have hF := forall₂_mapM hsel
  -- the entries of the list of selected classes
  have hmem : ∀ s ∈ sel.1 :: sel.2, ∃ idx ∈ idxs, ∃ pt, SelectsInterval dgm σ idx pt ∧ IsInterval pt ∧ s.1 = pt.1 ∧ s.2.1 = pt.2 := by
    intro s hs
    obtain ⟨idx, hidx, he⟩ := forall₂_mem_right hF hs
    rcases htab idx with ⟨-, h⟩ | ⟨z, -, -, h⟩ | ⟨pt, c, h1, h2, -, h⟩
    · rw [he] at h; cases h
    · rw [he] at h; cases h
    · rw [he] at h
      injection h with h
      exact ⟨idx, hidx, pt, h1, h2, by rw [h], by rw [h]⟩
  have hmem' : ∀ idx ∈ idxs, ∃ s ∈ sel.1 :: sel.2, ∃ pt, SelectsInterval dgm σ idx pt ∧ IsInterval pt ∧ s.1 = pt.1 ∧ s.2.1 = pt.2 := by
    intro idx hidx
    obtain ⟨s, hs, he⟩ := forall₂_right hF hidx
    rcases htab idx with ⟨-, h⟩ | ⟨z, -, -, h⟩ | ⟨pt, c, h1, h2, -, h⟩
    · rw [he] at h; cases h
    · rw [he] at h; cases h
    · rw [he] at h
      injection h with h
      exact ⟨s, hs, pt, h1, h2, by rw [h], by rw [h]⟩
  have hall : SelectsAll dgm σ idxs := by
    refine ⟨?_, fun idx hidx => ?_⟩
    · rintro rfl
      cases hF
    · obtain ⟨s, -, pt, h, -⟩ := hmem' idx hidx
      exact ⟨pt, h⟩
  refine ⟨hall, ?_⟩
  have hnan : NoNan (sel.1 :: sel.2) := by
    intro s hs
    obtain ⟨idx, -, pt, -, ⟨b, hb, hd⟩, e1, e2⟩ := hmem s hs
    rw [e1, e2, hb]
    rcases hd with ⟨d, hd, -⟩ | hd <;> rw [hd] <;> simp
  -- births and deaths of selected classes
  have hends : ∀ b' d', SelectedEnds dgm σ idxs b' d' → ∃ s ∈ sel.1 :: sel.2, ∃ t ∈ sel.1 :: sel.2, s.1 = .fin b' ∧ t.2.1 = .fin d' := by
    rintro b' d' ⟨i, hi, j, hj, pt, qt, h1, h2, h3, h4⟩
    obtain ⟨s, hs, pt', g1, -, g2, -⟩ := hmem' i hi
    obtain ⟨t, ht, qt', g3, -, -, g4⟩ := hmem' j hj
    rw [← h1.unique g1, h3] at g2
    rw [← h2.unique g3, h4] at g4
    exact ⟨s, hs, t, ht, g2, g4⟩
  rcases commonSupport_spec sel hnan with ⟨h, s, hs, t, ht, hle⟩ | ⟨B, D, h, ⟨s, hs, hsB⟩, ⟨t, ht, htD⟩, hB, hD, hlt⟩
  · refine Or.inl ⟨h, ?_⟩
    obtain ⟨i, hi, pt, g1, ⟨b, hb, -⟩, g2, -⟩ := hmem s hs
    obtain ⟨j, hj, qt, g3, ⟨b', hb', hd⟩, -, g4⟩ := hmem t ht
    rw [g2, hb, g4] at hle
    rcases hd with ⟨d, hd, -⟩ | hd
    · rw [hd] at hle
      exact ⟨b, d, ⟨i, hi, j, hj, pt, qt, g1, g3, hb, hd⟩, by simpa [ripsThr] using hle⟩
    · rw [hd] at hle
      simp [ripsThr] at hle
  · obtain ⟨i, hi, pt, g1, ⟨b, hb, -⟩, g2, -⟩ := hmem s hs
    obtain ⟨j, hj, qt, g3, ⟨b', hb', hd⟩, -, g4⟩ := hmem t ht
    rw [← hsB, g2, hb] at h hB hlt
    refine Or.inr ⟨b, D, h, ?_, ?_⟩
    · intro b' d' he
      obtain ⟨s', hs', t', ht', e1, e2⟩ := hends b' d' he
      have h1 := hB s' hs'
      have h2 := hD t' ht'
      rw [e1] at h1
      rw [e2] at h2
      have := (h1.trans_lt hlt).trans_le h2
      simpa [ripsThr] using this
    · rw [← htD, g4]
      rcases hd with ⟨d, hd, -⟩ | hd
      · rw [hd]
        refine Or.inr ⟨d, rfl, ⟨i, hi, j, hj, pt, qt, g1, g3, hb, hd⟩, ?_⟩
        intro b' d' he
        obtain ⟨s', hs', t', ht', e1, e2⟩ := hends b' d' he
        have h1 := hB s' hs'
        have h2 := hD t' ht'
        rw [e1] at h1
        rw [← htD, g4, hd, e2] at h2
        exact ⟨by simpa [ripsThr] using h1, by simpa [ripsThr] using h2⟩
      · rw [hd]
        refine Or.inl ⟨rfl, ?_⟩
        intro b' d' he
        obtain ⟨s', hs', t', ht', e1, e2⟩ := hends b' d' he
        have h2 := hD t' ht'
        rw [← htD, g4, hd, e2] at h2
        simp [ripsThr] at h2

/-- The call on an object with valid stored classes. -/
theorem call_ends (env : Oracles) (hch : CholeskySpec env.cholesky) (o : ToroObj) (wf : WellFormed o)
    (hv : FieldValued o.prime o.cocycles) (coc : List SparseCochain)
    (hc : o.cocycles[1]? = some coc) (hval : ∀ s ∈ coc, ValidArray o.prime o.nLand 1 s)
    (dgm : List (Fl ℝ × Fl ℝ)) (σ : List ℕ) (htab : ∀ idx, SelectionTable o dgm σ idx)
    (a : Args) (h4 : a.cocycleIdxs.length ≤ 4) (hsz : a.check = true → o.nLand ≤ 2345) :
    ∃ (N : ℕ) (res : Except PyErr (List (ℕ → Fl ℝ))), (∀ fuel, N ≤ fuel → (getCoordinates env fuel o a).2 = res) ∧
      CallOutcome dgm σ a res := by
  obtain ⟨N, D, hN, hD, hT⟩ := wf.table
  simp only [getCoordinates]
  rcases hsel : selectClasses o a.cocycleIdxs with e | sel
  · refine ⟨0, .error e, fun _ _ => rfl, ?_⟩
    unfold selectClasses at hsel
    rcases hm : a.cocycleIdxs.mapM (fun a => getRepresentativeCocycle o.dgms o.cocycles a 1) with e' | l
    · rw [hm] at hsel
      simp only [bind, Except.bind, Except.error.injEq] at hsel
      subst hsel
      obtain ⟨l₁, z, l₂, hl, he, hpre⟩ := mapM_error hm
      have hpre' : ∀ idx ∈ l₁, ∃ pt, SelectsInterval dgm σ idx pt := by
        intro idx hidx
        obtain ⟨y, hy⟩ := hpre idx hidx
        change repr1 o idx = _ at hy
        rcases htab idx with ⟨-, h⟩ | ⟨z, -, -, h⟩ | ⟨pt, s, h1, -⟩
        · rw [hy] at h; cases h
        · rw [hy] at h; cases h
        · exact ⟨pt, h1⟩
      change repr1 o z = _ at he
      rcases htab z with ⟨rfl, h⟩ | ⟨z, rfl, hz, h⟩ | ⟨pt, s, h1, h2, h3, h⟩
      · rw [he] at h
        injection h with h
        subst h
        exact .notAnInteger l₁ l₂ hl hpre'
      · rw [he] at h
        injection h with h
        subst h
        exact .outOfRange l₁ l₂ z hl hpre' hz
      · rw [he] at h; cases h
    · rw [hm] at hsel
      simp only [bind, Except.bind] at hsel
      cases l with
      | cons x l => cases hsel
      | nil =>
        injection hsel with hsel
        subst hsel
        refine .noClass ?_
        have := (forall₂_mapM hm).length_eq
        simpa using this
  · simp only
    obtain ⟨hall, ⟨hcs, b, d, hbd, hle⟩ | ⟨b, birth, hcs, hov, hends⟩⟩ := select_common htab hsel
    · rw [hcs]
      exact ⟨0, _, fun _ _ => rfl, .disjoint hall b d hbd hle⟩
    · rw [hcs]
      simp only
      have hst : (if a.standardRange = true then Fl.fin 2 * Fl.fin b else Fl.fin b) =
          Fl.fin (if a.standardRange = true then 2 * b else b) := by split <;> rfl
      rcases hr : getCoverRadius a.perc (.fin b) birth a.standardRange with e | radius
      · refine ⟨0, .error e, fun _ _ => rfl, ?_⟩
        unfold getCoverRadius at hr
        simp only [hst] at hr
        generalize hstart : (if a.standardRange = true then 2 * b else b) = st at hr
        split at hr
        · rename_i hlt
          injection hr with h
          subst h
          rcases hends with ⟨rfl, -⟩ | ⟨d, rfl, hbd, -⟩
          · simp [Fl.lt] at hlt
          · exact .tooShort hall hov b d hbd (by rw [hstart]; simpa [Fl.lt] using hlt)
        · cases hr
      · have halive : JointlyAlive dgm σ a.cocycleIdxs a.standardRange := by
          refine ⟨hall, hov, ?_⟩
          intro b' d' he
          rcases hends with ⟨-, h⟩ | ⟨d, rfl, hbd, hmm⟩
          · exact absurd he (h b' d')
          · have hle : (if a.standardRange = true then 2 * b else b) ≤ d := by
              by_contra hlt
              unfold getCoverRadius at hr
              simp only [hst] at hr
              rw [if_pos (by simpa [Fl.lt] using hlt)] at hr
              cases hr
            obtain ⟨h1, h2⟩ := hmm b' d' he
            split at hle <;> rename_i hs <;> simp only [hs] <;> simp <;> linarith
        simp only
        generalize hcsd : (a.cocycleIdxs.map fun x =>
          ((o.cocycles.modify 1 (liftSelected o.prime a.cocycleIdxs)).getD 1 []).getD
            (x.pos ((o.cocycles.modify 1 (liftSelected o.prime a.cocycleIdxs)).getD 1 []).length) []) = cs
        generalize ho2 : (⟨o.prime, o.dgms, o.cocycles.modify 1 (liftSelected o.prime a.cocycleIdxs), o.nLand, o.nData, o.dist,
          o.dtype, o.idxLand, o.table, some radius, o.gramInfo⟩ : ToroObj) = o2
        have hcslen : cs.length = a.cocycleIdxs.length := by rw [← hcsd]; simp
        rcases hcd : coordData env o2 a radius cs with e | d
        · refine ⟨0, .error e, fun _ _ => rfl, ?_⟩
          have hrel : ObjRel o o2 := by
            rw [← ho2]
            exact ⟨rfl, rfl, rfl, rfl, rfl, rfl, rfl, rfl, forall₂_modify_one (fieldValued_refl hv) _⟩
          rw [coordData_rel hrel] at hcd
          obtain ⟨hchk, ⟨i, rfl, hi⟩ | ⟨rfl, h2⟩⟩ := coordData_error wf (by
            intro c hcm
            rw [← hcsd] at hcm
            obtain ⟨x, hx, rfl⟩ := List.mem_map.1 hcm
            rw [lifted_array rfl (fieldValued_refl hv) x hx]
            have e1 : o.cocycles.getD 1 [] = coc := by rw [List.getD_eq_getElem?_getD, hc]; rfl
            rw [e1, hT]
            rcases hg : coc[x.pos coc.length]? with _ | s
            · obtain ⟨v, hv, -⟩ := C06_sparse_to_dense o.nLand 1 N D hN (by omega) [] (by simp) (by simp)
              exact ⟨v, hv⟩
            · have hs := hval s (List.mem_of_getElem? hg)
              obtain ⟨u, hu, -⟩ := C06_sparse_to_dense o.nLand 1 N D hN (by omega) s (fun r hr => (hs.1 r hr).1) hs.2
              obtain ⟨v, hv, -⟩ := dense_lift (p := o.prime) hu
              exact ⟨v, hv⟩) hsz hcd
          · exact .noLift halive i (by omega) hchk
          · exact .twoRepairs halive hchk (by omega)
        · have hdl := coordData_length hcd
          obtain ⟨N, h | ⟨coords, info, hl, h⟩⟩ := finishCoords_ends env hch o2 d (by omega)
          · refine ⟨N, .error .linAlgError, fun fuel hf => ?_, .dependent halive ?_⟩
            · simp only [(h fuel hf).1]
            · have := (h N (le_refl _)).2; omega
          · refine ⟨N, .ok coords, fun fuel hf => ?_, .returns halive coords (by omega)⟩
            simp only [h fuel hf]

/-- Selecting a class of an object: the interval and the stored array, or the error. -/
theorem select_outcome (q : ℕ) {ρ : ℝ → ℝ} {k maxdim : ℕ} {p : ℤ} {δ : ℕ → ℕ → ℝ} {res : RipserResult ℝ} (x : DataInput)
    (hr : RipserSpec ρ x.rows k δ p maxdim res) {dgms : List (List (Fl ℝ × Fl ℝ))} {cocycles : List (List SparseCochain)}
    (hs : StoresClasses res maxdim dgms cocycles) (hq : 1 ≤ q) (hm : q ≤ maxdim)
    (hva : ∀ q coc, cocycles[q]? = some coc → 1 ≤ q → ∀ s ∈ coc, ValidArray p k q s) :
    ∃ dgm σ, res.dgms[q]? = some dgm ∧ PersistenceRanking dgm σ ∧ ∀ idx : ClassArg,
      (idx = .nonInt ∧ getRepresentativeCocycle dgms cocycles idx q = .error .assertionError) ∨
      (∃ z : ℤ, idx = .int z ∧ (z < -dgm.length ∨ dgm.length ≤ z) ∧
        getRepresentativeCocycle dgms cocycles idx q = .error .indexError) ∨
      ∃ pt s, SelectsInterval dgm σ idx pt ∧ IsInterval pt ∧ ValidArray p k q s ∧
        getRepresentativeCocycle dgms cocycles idx q = .ok (pt.1, pt.2, s) := by
  obtain ⟨dgm, coc, dgm', coc', σ, h1, h2, h3, h4, h5, h6, h7⟩ := hs q hq hm
  refine ⟨dgm, σ, h1, h5, ?_⟩
  have e1 := (pyGet_nat dgms q dgm').2 h3
  have e2 := (pyGet_nat cocycles q coc').2 h4
  have l1 : σ.length = dgm.length := by rw [h5.1.length_eq, List.length_range]
  have l2 : dgm'.length = dgm.length := by rw [← h6.length_eq, l1]
  have l3 : coc'.length = dgm.length := by rw [← h7.length_eq, l1]
  intro idx
  cases idx with
  | nonInt => exact Or.inl ⟨rfl, rfl⟩
  | int z =>
    refine Or.inr ?_
    by_cases hz : z < -dgm.length ∨ dgm.length ≤ z
    · refine Or.inl ⟨z, rfl, hz, ?_⟩
      simp only [getRepresentativeCocycle, e1, e2, bind, Except.bind]
      have : pyGet dgm' z = .error .indexError := by
        unfold pyGet
        simp only
        generalize hj : (if z < 0 then z + (dgm'.length : ℤ) else z) = j
        split
        · rename_i h0
          have : dgm'.length ≤ j.toNat := by split at hj <;> omega
          rw [List.getElem?_eq_none_iff.2 this]
        · rfl
      rw [this]
    · refine Or.inr ?_
      obtain ⟨r, hr0, hr1⟩ : ∃ r : ℕ, r < dgm.length ∧ (z = r ∨ z = (r - dgm.length : ℤ)) := by
        by_cases h0 : 0 ≤ z
        · exact ⟨z.toNat, by omega, by omega⟩
        · exact ⟨(z + dgm.length).toNat, by omega, by omega⟩
      obtain ⟨j, hj⟩ : ∃ j, σ[r]? = some j := ⟨_, List.getElem?_eq_getElem (by omega)⟩
      obtain ⟨pt, g1, g2⟩ := forall₂_getElem? h6 hj
      obtain ⟨s, g3, -⟩ := forall₂_getElem? h7 hj
      have key : ∀ {α : Type} (l : List α) (y : α), l.length = dgm.length → l[r]? = some y → pyGet l z = .ok y := by
        intro α l y hl hy
        unfold pyGet
        simp only
        have : (if z < 0 then z + (l.length : ℤ) else z) = r := by split <;> omega
        rw [this]
        simp [hy]
      refine ⟨pt, s, ⟨r, j, hr0, ?_, hj, g2⟩, hr.intervals q dgm hq h1 pt (List.mem_of_getElem? g2),
        hva q coc' h4 hq s (List.mem_of_getElem? g3), ?_⟩
      · rcases hr1 with rfl | rfl
        · exact Or.inl rfl
        · exact Or.inr rfl
      · simp only [getRepresentativeCocycle, e1, e2, key dgm' pt l2 g1, key coc' s l3 g3, bind, Except.bind, pure, Except.pure]

section
variable {k : ℕ} {δ : ℕ → ℕ → ℝ} {p : ℤ} {maxdim : ℕ} {res : RipserResult ℝ} {ρ : ℝ → ℝ}

/-- **C121.** Every call of `get_coordinates` with at most four classes, on an object built by the constructor and after any
history of calls, ends (for every percentage, NaN and infinities included, every bump function, solver and least squares
routine): from some number of iterations on the result does not depend on the bound on the loop of `_lll` and is one of the
documented outcomes (`CallOutcome`), where `dgm` is the diagram of dimension 1 that ripser returned.  The size bound concerns
only calls with the cocycle check. -/
theorem C121_every_call_ends (x : DataInput) (hx : DescribesData x δ) (hr : RipserSpec ρ x.rows k δ p maxdim res)
    (argsort : List (Fl ℝ) → List ℕ) (ha : ArgsortSpec argsort) (hm : 1 ≤ maxdim) (hk : 0 < k) (hk' : k ≤ 65536)
    (hf : x.distanceMatrix = true → x.dtype = .float) (env : Oracles) (hch : CholeskySpec env.cholesky) :
    ∃ o dgm σ, toroInit argsort res x k p maxdim = .ok o ∧ res.dgms[1]? = some dgm ∧ PersistenceRanking dgm σ ∧
      ∀ (history : List (ℕ × Args)) (a : Args), a.cocycleIdxs.length ≤ 4 → (a.check = true → k ≤ 2345) →
        ∃ (N : ℕ) (out : Except PyErr (List (ℕ → Fl ℝ))),
          (∀ fuel, N ≤ fuel → (getCoordinates env fuel (afterCalls env o history) a).2 = out) ∧
          CallOutcome dgm σ a out := by
  obtain ⟨o, h1, h2, h3, -, -, hs, hva, wf, hv, -⟩ := C88_toroidal_constructor x hx hr argsort ha hm hk hk' hf
  obtain ⟨dgm, σ, g1, g5, htab⟩ := select_outcome 1 x hr hs le_rfl hm hva
  obtain ⟨-, -, -, coc', -, -, -, -, g4, -⟩ := hs 1 (le_refl _) hm
  refine ⟨o, dgm, σ, h1, g1, g5, fun history a h4 hsz => ?_⟩
  have := call_ends env hch o wf hv coc' g4 (by rw [h2, h3]; exact hva 1 coc' g4 (le_refl _)) dgm σ
    (fun idx => by have := htab idx; rw [← h2, ← h3] at this; exact this) a h4 (by rw [h3]; exact hsz)
  obtain ⟨N, out, hN, ho⟩ := this
  exact ⟨N, out, fun fuel hf => by rw [(C08_repeatable env o hv history fuel a).1]; exact hN fuel hf, ho⟩

end

/-- **C121 (errors of the arguments).** What the list of outcomes says about the arguments: the exceptions for disjoint and for
too short lifetimes are raised exactly when a selected class dies before another one is born, respectively before the allowed
range of another one begins; `IndexError` and `AssertionError` exactly when the first wrong index does not exist, respectively
is not an integer. -/
theorem C121_argument_errors {dgm : List (Fl ℝ × Fl ℝ)} {σ : List ℕ} {a : Args} {out : Except PyErr (List (ℕ → Fl ℝ))}
    (h : CallOutcome dgm σ a out) :
    (out = .error .supportsDisjoint ↔ SelectsAll dgm σ a.cocycleIdxs ∧ ∃ b d, SelectedEnds dgm σ a.cocycleIdxs b d ∧ d ≤ b) ∧
    (out = .error .tooShort ↔ SelectsAll dgm σ a.cocycleIdxs ∧ (∀ b d, SelectedEnds dgm σ a.cocycleIdxs b d → b < d) ∧
      ∃ b d, SelectedEnds dgm σ a.cocycleIdxs b d ∧ d < (if a.standardRange then 2 * b else b)) ∧
    (out = .error .indexError ↔ ∃ l l', ∃ z : ℤ, a.cocycleIdxs = l ++ .int z :: l' ∧ (∀ idx ∈ l, ∃ pt, SelectsInterval dgm σ idx pt) ∧
      (z < -dgm.length ∨ dgm.length ≤ z)) ∧
    (out = .error .assertionError ↔ ∃ l l', a.cocycleIdxs = l ++ .nonInt :: l' ∧
      ∀ idx ∈ l, ∃ pt, SelectsInterval dgm σ idx pt) := by
  have notNon : ∀ {pt}, ¬ SelectsInterval dgm σ .nonInt pt := by
    rintro pt ⟨r, j, h1, h2, -⟩
    simp at h2
  have notOut : ∀ {pt} {z : ℤ}, SelectsInterval dgm σ (.int z) pt → ¬ (z < -dgm.length ∨ dgm.length ≤ z) := by
    rintro pt z ⟨r, j, h1, h2, -⟩
    simp only [ClassArg.int.injEq] at h2
    omega
  -- existing classes exclude wrong indices
  have noBad : ∀ {l l' x}, SelectsAll dgm σ a.cocycleIdxs → a.cocycleIdxs = l ++ x :: l' → ∃ pt, SelectsInterval dgm σ x pt :=
    fun hs he => hs.exist _ (by rw [he]; simp)
  -- the first wrong index is unique
  have first : ∀ {l₁ l₂ m₁ m₂ : List ClassArg} {x y}, a.cocycleIdxs = l₁ ++ x :: l₂ → a.cocycleIdxs = m₁ ++ y :: m₂ →
      (∀ idx ∈ l₁, ∃ pt, SelectsInterval dgm σ idx pt) → (∀ idx ∈ m₁, ∃ pt, SelectsInterval dgm σ idx pt) →
      (∀ pt, ¬ SelectsInterval dgm σ x pt) → (∀ pt, ¬ SelectsInterval dgm σ y pt) → x = y := by
    intro l₁ l₂ m₁ m₂ x y h1 h2 h3 h4 h5 h6
    rw [h1] at h2
    rcases List.append_eq_append_iff.1 h2 with ⟨t, ht, ht'⟩ | ⟨t, ht, ht'⟩
    · cases t with
      | nil => simp at ht'; exact ht'.1
      | cons w t =>
        simp at ht'
        obtain ⟨pt, hpt⟩ := h4 x (by rw [ht, ht'.1]; simp)
        exact absurd hpt (h5 pt)
    · cases t with
      | nil => simp at ht'; exact ht'.1.symm
      | cons w t =>
        simp at ht'
        obtain ⟨pt, hpt⟩ := h3 y (by rw [ht, ht'.1]; simp)
        exact absurd hpt (h6 pt)
  have alive : JointlyAlive dgm σ a.cocycleIdxs a.standardRange →
      (¬ ∃ b d, SelectedEnds dgm σ a.cocycleIdxs b d ∧ d ≤ b) ∧
      (¬ ∃ b d, SelectedEnds dgm σ a.cocycleIdxs b d ∧ d < (if a.standardRange then 2 * b else b)) ∧
      (¬ ∃ l l', ∃ z : ℤ, a.cocycleIdxs = l ++ .int z :: l' ∧ (∀ idx ∈ l, ∃ pt, SelectsInterval dgm σ idx pt) ∧
        (z < -dgm.length ∨ dgm.length ≤ z)) ∧
      ¬ ∃ l l', a.cocycleIdxs = l ++ .nonInt :: l' ∧ ∀ idx ∈ l, ∃ pt, SelectsInterval dgm σ idx pt := by
    intro hj
    refine ⟨?_, ?_, ?_, ?_⟩
    · rintro ⟨b, d, h1, h2⟩
      exact absurd (hj.overlap b d h1) (not_lt.2 h2)
    · rintro ⟨b, d, h1, h2⟩
      exact absurd (hj.long b d h1) (not_le.2 h2)
    · rintro ⟨l, l', z, h1, -, h2⟩
      obtain ⟨pt, hpt⟩ := noBad hj.toSelectsAll h1
      exact notOut hpt h2
    · rintro ⟨l, l', h1, -⟩
      obtain ⟨pt, hpt⟩ := noBad hj.toSelectsAll h1
      exact notNon hpt
  cases h with
  | returns h => obtain ⟨a1, a2, a3, a4⟩ := alive h; simp only [reduceCtorEq, false_iff]; exact ⟨fun hh => a1 hh.2, fun hh => a2 hh.2.2, a3, a4⟩
  | twoRepairs h => obtain ⟨a1, a2, a3, a4⟩ := alive h; simp only [Except.error.injEq, reduceCtorEq, false_iff]; exact ⟨fun hh => a1 hh.2, fun hh => a2 hh.2.2, a3, a4⟩
  | noLift h => obtain ⟨a1, a2, a3, a4⟩ := alive h; simp only [Except.error.injEq, reduceCtorEq, false_iff]; exact ⟨fun hh => a1 hh.2, fun hh => a2 hh.2.2, a3, a4⟩
  | dependent h => obtain ⟨a1, a2, a3, a4⟩ := alive h; simp only [Except.error.injEq, reduceCtorEq, false_iff]; exact ⟨fun hh => a1 hh.2, fun hh => a2 hh.2.2, a3, a4⟩
  | noClass h =>
    simp only [Except.error.injEq, reduceCtorEq, false_iff]
    refine ⟨fun hh => hh.1.nonempty h, fun hh => hh.1.nonempty h, ?_, ?_⟩
    · rintro ⟨l, l', z, h1, -⟩; simp [h] at h1
    · rintro ⟨l, l', h1, -⟩; simp [h] at h1
  | disjoint h b d hbd h' =>
    simp only [Except.error.injEq, reduceCtorEq, false_iff, true_iff]
    refine ⟨⟨h, b, d, hbd, h'⟩, fun hh => absurd (hh.2.1 b d hbd) (not_lt.2 h'), ?_, ?_⟩
    · rintro ⟨l, l', z, h1, -, h2⟩
      obtain ⟨pt, hpt⟩ := noBad h h1
      exact notOut hpt h2
    · rintro ⟨l, l', h1, -⟩
      obtain ⟨pt, hpt⟩ := noBad h h1
      exact notNon hpt
  | tooShort h ho b d hbd h' =>
    simp only [Except.error.injEq, reduceCtorEq, false_iff, true_iff]
    refine ⟨?_, ⟨h, ho, b, d, hbd, h'⟩, ?_, ?_⟩
    · rintro ⟨-, b', d', h1, h2⟩
      exact absurd (ho b' d' h1) (not_lt.2 h2)
    · rintro ⟨l, l', z, h1, -, h2⟩
      obtain ⟨pt, hpt⟩ := noBad h h1
      exact notOut hpt h2
    · rintro ⟨l, l', h1, -⟩
      obtain ⟨pt, hpt⟩ := noBad h h1
      exact notNon hpt
  | notAnInteger l l' h h' =>
    simp only [Except.error.injEq, reduceCtorEq, false_iff, true_iff]
    refine ⟨?_, ?_, ?_, ⟨l, l', h, h'⟩⟩
    · rintro ⟨hs, -⟩
      obtain ⟨pt, hpt⟩ := noBad hs h
      exact notNon hpt
    · rintro ⟨hs, -⟩
      obtain ⟨pt, hpt⟩ := noBad hs h
      exact notNon hpt
    · rintro ⟨m, m', z, h1, h2, h3⟩
      cases first h h1 h' h2 (fun _ => notNon) (fun _ hp => notOut hp h3)
  | outOfRange l l' z h h' hz =>
    simp only [Except.error.injEq, reduceCtorEq, false_iff, true_iff]
    refine ⟨?_, ?_, ⟨l, l', z, h, h', hz⟩, ?_⟩
    · rintro ⟨hs, -⟩
      obtain ⟨pt, hpt⟩ := noBad hs h
      exact notOut hpt hz
    · rintro ⟨hs, -⟩
      obtain ⟨pt, hpt⟩ := noBad hs h
      exact notOut hpt hz
    · rintro ⟨m, m', h1, h2⟩
      cases first h h1 h' h2 (fun _ hp => notOut hp hz) (fun _ => notNon)

end Dreimac
