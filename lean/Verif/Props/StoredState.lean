import Verif.Spec.StoredState
import Verif.Props.ProjOutcomes

/-!
# C136: what a call of `LensCoords`, `ProjectiveCoords` or `ComplexProjectiveCoords` leaves on the object
-/

namespace Dreimac

/-- One call, on any object: what the statements of the code store. -/
structure StoresAs {𝕜 : Type} (o : ProjObj) (a : ProjArgs) (q : ℤ) (res : ProjObj × Except PyErr (Arr 𝕜)) : Prop where
  select : ∀ e, getRepresentativeCocycle o.dgms o.cocycles a.cocycleIdx q = .error e → res = (o, .error e)
  short : ∀ b d s e, getRepresentativeCocycle o.dgms o.cocycles a.cocycleIdx q = .ok (b, d, s) →
    getCoverRadius a.perc b d a.standardRange = .error e → res = (o, .error e)
  radius : ∀ b d s rr, getRepresentativeCocycle o.dgms o.cocycles a.cocycleIdx q = .ok (b, d, s) →
    getCoverRadius a.perc b d a.standardRange = .ok rr → res.1.radius = some rr
  variance_error : ∀ e, res.2 = .error e → res.1.variance = o.variance
  variance_ok : ∀ X, res.2 = .ok X → res.1.variance.isSome
  rest : ∃ cs, res.1 = { o with radius := res.1.radius, variance := res.1.variance, cocycles := cs }

section
variable {𝕜 : Type}

theorem storesAs_select {o : ProjObj} {a : ProjArgs} {q : ℤ} {e : PyErr}
    (h1 : getRepresentativeCocycle o.dgms o.cocycles a.cocycleIdx q = .error e) :
    StoresAs (𝕜 := 𝕜) o a q (o, .error e) := by
  refine ⟨?_, ?_, ?_, fun _ _ => rfl, by simp, o.cocycles, rfl⟩
  · intro e' h; rw [h1] at h; injection h with h; rw [h]
  · intro b d s e' h; rw [h1] at h; cases h
  · intro b d s rr h; rw [h1] at h; cases h

theorem storesAs_short {o : ProjObj} {a : ProjArgs} {q : ℤ} {b d : Fl ℝ} {s : SparseCochain} {e : PyErr}
    (h1 : getRepresentativeCocycle o.dgms o.cocycles a.cocycleIdx q = .ok (b, d, s))
    (h2 : getCoverRadius a.perc b d a.standardRange = .error e) : StoresAs (𝕜 := 𝕜) o a q (o, .error e) := by
  refine ⟨?_, ?_, ?_, fun _ _ => rfl, by simp, o.cocycles, rfl⟩
  · intro e' h; rw [h1] at h; cases h
  · intro b' d' s' e' h h'
    rw [h1] at h
    simp only [Except.ok.injEq, Prod.mk.injEq] at h
    obtain ⟨rfl, rfl, rfl⟩ := h
    rw [h2] at h'
    injection h' with h'
    rw [h']
  · intro b' d' s' rr h h'
    rw [h1] at h
    simp only [Except.ok.injEq, Prod.mk.injEq] at h
    obtain ⟨rfl, rfl, rfl⟩ := h
    rw [h2] at h'
    cases h'

theorem storesAs_radius {o : ProjObj} {a : ProjArgs} {q : ℤ} {b d : Fl ℝ} {s : SparseCochain} {radius : Fl ℝ × Fl ℝ}
    (h1 : getRepresentativeCocycle o.dgms o.cocycles a.cocycleIdx q = .ok (b, d, s))
    (h2 : getCoverRadius a.perc b d a.standardRange = .ok radius) (res : ProjObj × Except PyErr (Arr 𝕜))
    (g1 : res.1.radius = some radius) (g2 : ∀ e, res.2 = .error e → res.1.variance = o.variance)
    (g3 : ∀ X, res.2 = .ok X → res.1.variance.isSome)
    (g4 : ∃ cs, res.1 = { o with radius := res.1.radius, variance := res.1.variance, cocycles := cs }) : StoresAs o a q res := by
  refine ⟨?_, ?_, ?_, g2, g3, g4⟩
  · intro e h; rw [h1] at h; cases h
  · intro b' d' s' e h h'
    rw [h1] at h
    simp only [Except.ok.injEq, Prod.mk.injEq] at h
    obtain ⟨rfl, rfl, rfl⟩ := h
    rw [h2] at h'; cases h'
  · intro b' d' s' rr h h'
    rw [h1] at h
    simp only [Except.ok.injEq, Prod.mk.injEq] at h
    obtain ⟨rfl, rfl, rfl⟩ := h
    rw [h2] at h'
    injection h' with h'
    rw [g1, h']

end

section
variable {𝕜 : Type} [RCLike 𝕜]

/-- **C136.** `LensCoords` and `ProjectiveCoords`, one call on any object whatever. -/
theorem C136_flat_call (eigh : Eigh 𝕜) (fuel : ℕ) (matrix : SparseCochain → Except PyErr (ℕ → ℕ → 𝕜)) (k : ℤ)
    (o : ProjObj) (a : ProjArgs) : StoresAs o a 1 (flatGetCoordinates eigh fuel matrix k o a) := by
  unfold flatGetCoordinates
  rcases h1 : getRepresentativeCocycle o.dgms o.cocycles a.cocycleIdx 1 with e | ⟨b, d, s⟩
  · exact storesAs_select h1
  simp only
  rcases h2 : getCoverRadius a.perc b d a.standardRange with e | radius
  · exact storesAs_short h1 h2
  simp only
  generalize getCoveringPartition o.dtype o.nLand o.nData (fun l i => Fl.fin (o.dist l i)) radius.1 a.bump = e3
  rcases e3 with e | cov
  · exact storesAs_radius h1 h2 _ rfl (fun _ _ => rfl) (by simp) ⟨_, rfl⟩
  simp only
  generalize matrix s = e4
  rcases e4 with e | M
  · exact storesAs_radius h1 h2 _ rfl (fun _ _ => rfl) (by simp) ⟨_, rfl⟩
  simp only
  generalize ppca eigh fuel _ k a.mode = e5
  rcases e5 with e | R
  · exact storesAs_radius h1 h2 _ rfl (fun _ _ => rfl) (by simp) ⟨_, rfl⟩
  · exact storesAs_radius h1 h2 _ rfl (by simp) (by simp) ⟨_, rfl⟩

end

/-- **C136.** `ComplexProjectiveCoords`, one call on any object whatever. -/
theorem C136_complex_projective_call (env : CPOracles) (fuel : ℕ) (o : ProjObj) (a : ProjArgs) :
    StoresAs o a 2 (cpGetCoordinates env fuel o a) := by
  unfold cpGetCoordinates
  rcases h1 : getRepresentativeCocycle o.dgms o.cocycles a.cocycleIdx 2 with e | ⟨b, d, s⟩
  · exact storesAs_select h1
  simp only
  rcases h2 : getCoverRadius a.perc b d a.standardRange with e | radius
  · exact storesAs_short h1 h2
  simp only
  generalize getCoveringPartition o.dtype o.nLand o.nData (fun l i => Fl.fin (o.dist l i)) radius.1 a.bump = e3
  rcases e3 with e | cov
  · exact storesAs_radius h1 h2 _ rfl (fun _ _ => rfl) (by simp) ⟨_, rfl⟩
  simp only
  generalize makeDelta1 o.nLand (fun l m => (o.distLandLand l m : EReal)) (ripsThr radius.2) o.table = e4
  rcases e4 with e | M
  · exact storesAs_radius h1 h2 _ rfl (fun _ _ => rfl) (by simp) ⟨_, rfl⟩
  simp only
  generalize sparseCocycleToVector 2 (liftToIntegerCocycle s o.prime) o.table o.nLand = e5
  rcases e5 with e | v
  · exact storesAs_radius h1 h2 _ rfl (fun _ _ => rfl) (by simp) ⟨_, rfl⟩
  simp only
  generalize checkAndRepair2AsIs env.milp o.nLand (fun l m => (o.distLandLand l m : EReal)) (ripsThr radius.2) o.table o.prime
        a.cocycleIdx.toInt a.check (fun e => v.getD e 0) = e6
  rcases e6 with e | c
  · exact storesAs_radius h1 h2 _ rfl (fun _ _ => rfl) (by simp) ⟨_, rfl⟩
  simp only
  generalize ppca env.eigh fuel _ a.dim a.mode = e7
  rcases e7 with e | R
  · exact storesAs_radius h1 h2 _ rfl (fun _ _ => rfl) (by simp) ⟨_, rfl⟩
  · exact storesAs_radius h1 h2 _ rfl (by simp) (by simp) ⟨_, rfl⟩

theorem SameData.variance {𝕜 : Type} [RCLike 𝕜] {o o' : ProjObj} (h : SameData o o') (eigh : Eigh 𝕜) (fuel : ℕ)
    (matrix : SparseCochain → Except PyErr (ℕ → ℕ → 𝕜)) (k : ℤ) (a : ProjArgs) :
    ∀ X, (flatGetCoordinates eigh fuel matrix k o' a).2 = .ok X →
      (flatGetCoordinates eigh fuel matrix k o' a).1.variance = (flatGetCoordinates eigh fuel matrix k o a).1.variance := by
  rw [h]
  generalize o'.radius = rad, o'.variance = var
  unfold flatGetCoordinates
  simp only
  generalize getRepresentativeCocycle o.dgms o.cocycles a.cocycleIdx 1 = e1
  rcases e1 with e | ⟨b, d, s⟩
  · intro X h; cases h
  simp only
  generalize getCoverRadius a.perc b d a.standardRange = e2
  rcases e2 with e | radius
  · intro X h; cases h
  simp only
  generalize getCoveringPartition o.dtype o.nLand o.nData (fun l i => Fl.fin (o.dist l i)) radius.1 a.bump = e3
  rcases e3 with e | cov
  · intro X h; cases h
  simp only
  generalize matrix s = e4
  rcases e4 with e | M
  · intro X h; cases h
  simp only
  generalize ppca eigh fuel (flatClassMap o.nLand o.nData cov M) k a.mode = e5
  rcases e5 with e | R
  · intro X h; cases h
  · intro X h; rfl

theorem cpRel_variance {o o' : ProjObj} (h : CPRel o o') (env : CPOracles) (fuel : ℕ) (a : ProjArgs) :
    ∀ X, (cpGetCoordinates env fuel o' a).2 = .ok X →
      (cpGetCoordinates env fuel o' a).1.variance = (cpGetCoordinates env fuel o a).1.variance := by
  have hrest := h.rest
  have hcs := h.cocycles
  generalize o'.cocycles = cs', o'.radius = rad, o'.variance = var at hrest hcs
  subst hrest
  unfold cpGetCoordinates ProjObj.distLandLand
  simp only
  rcases getRep_lift (dgms := o.dgms) hcs a.cocycleIdx 2 with ⟨e, e1, e2⟩ | ⟨b, d, s, s', e1, e2, hl⟩
  · rw [e1, e2]; intro X h; cases h
  rw [e1, e2]
  simp only [hl.lift]
  generalize getCoverRadius a.perc b d a.standardRange = e2
  rcases e2 with e | radius
  · intro X h; cases h
  simp only
  generalize getCoveringPartition o.dtype o.nLand o.nData (fun l i => Fl.fin (o.dist l i)) radius.1 a.bump = e3
  rcases e3 with e | cov
  · intro X h; cases h
  simp only
  generalize makeDelta1 o.nLand _ (ripsThr radius.2) o.table = e4
  rcases e4 with e | delta1
  · intro X h; cases h
  simp only
  generalize sparseCocycleToVector 2 (liftToIntegerCocycle s o.prime) o.table o.nLand = e5
  rcases e5 with e | v
  · intro X h; cases h
  simp only
  generalize checkAndRepair2AsIs env.milp o.nLand _ (ripsThr radius.2) o.table o.prime
        a.cocycleIdx.toInt a.check (fun e => v.getD e 0) = e6
  rcases e6 with e | c
  · intro X h; cases h
  simp only
  generalize ppca env.eigh fuel _ a.dim a.mode = e7
  rcases e7 with e | R
  · intro X h; cases h
  · intro X h; rfl

section
variable {𝕜 : Type}

/-- From one call to all histories: `Inv` holds for the objects that can be reached. -/
theorem keepsState_of {dgm : List (Fl ℝ × Fl ℝ)} {σ : List ℕ} {o : ProjObj} {q : ℤ}
    {call : ProjObj → ProjArgs → ProjObj × Except PyErr (Arr 𝕜)} (hs : o.radius = none ∧ o.variance = none)
    (hcall : ∀ o a, StoresAs o a q (call o a))
    (hsel : ∀ (calls : List ProjArgs) (idx : ClassArg),
      (idx = .nonInt ∧ ∃ e, getRepresentativeCocycle (calls.foldl (fun o a => (call o a).1) o).dgms
          (calls.foldl (fun o a => (call o a).1) o).cocycles idx q = .error e) ∨
      (∃ z : ℤ, idx = .int z ∧ (z < -dgm.length ∨ dgm.length ≤ z) ∧
        ∃ e, getRepresentativeCocycle (calls.foldl (fun o a => (call o a).1) o).dgms
          (calls.foldl (fun o a => (call o a).1) o).cocycles idx q = .error e) ∨
      ∃ pt s, SelectsInterval dgm σ idx pt ∧ IsInterval pt ∧
        getRepresentativeCocycle (calls.foldl (fun o a => (call o a).1) o).dgms
          (calls.foldl (fun o a => (call o a).1) o).cocycles idx q = .ok (pt.1, pt.2, s))
    (hvar : ∀ (calls : List ProjArgs) (a : ProjArgs) (X : Arr 𝕜), (call (calls.foldl (fun o a => (call o a).1) o) a).2 = .ok X →
      (call (calls.foldl (fun o a => (call o a).1) o) a).1.variance = (call o a).1.variance) :
    KeepsState dgm σ o call := by
  have notNon : ∀ {idx pt}, SelectsInterval dgm σ idx pt → idx ≠ .nonInt := by
    rintro idx pt ⟨r, j, h1, h2, -⟩ h
    rw [h] at h2
    simp at h2
  have notOut : ∀ {idx pt} {z : ℤ}, SelectsInterval dgm σ idx pt → idx = .int z → ¬ (z < -dgm.length ∨ dgm.length ≤ z) := by
    rintro idx pt z ⟨r, j, h1, h2, -⟩ h
    rw [h] at h2
    simp only [ClassArg.int.injEq] at h2
    omega
  have early : ∀ (before : List ProjArgs) (a : ProjArgs), FailsEarly dgm σ a →
      (call (before.foldl (fun o a => (call o a).1) o) a).1 = before.foldl (fun o a => (call o a).1) o ∧
      ∃ e, (call (before.foldl (fun o a => (call o a).1) o) a).2 = .error e := by
    intro before a ha
    have hc := hcall (before.foldl (fun o a => (call o a).1) o) a
    rcases hsel before a.cocycleIdx with ⟨h1, e, h2⟩ | ⟨z, h1, h1', e, h2⟩ | ⟨pt, s, h1, hI, h2⟩
    · rw [hc.select e h2]; exact ⟨rfl, e, rfl⟩
    · rw [hc.select e h2]; exact ⟨rfl, e, rfl⟩
    · rcases ha with ha | ⟨z, hz, hz'⟩ | ⟨pt', hp, ht⟩
      · exact absurd ha (notNon h1)
      · exact absurd hz' (notOut h1 hz)
      · rw [hp.unique h1] at ht
        rcases radius_outcome hI a.perc a.standardRange with ⟨-, h4⟩ | ⟨h3, -⟩
        · rw [hc.short _ _ _ _ h2 h4]; exact ⟨rfl, _, rfl⟩
        · exact absurd ht h3
  refine ⟨hs, ?_, early, fun before a e h => (hcall _ a).variance_error e h, fun before a X h => ⟨(hcall _ a).variance_ok X h, hvar before a X h⟩, ?_⟩
  · intro before after a r ⟨b, d, c, h1, h2, h3, h4⟩ hafter
    induction after using List.reverseRecOn with
    | nil =>
      rw [List.foldl_append]
      show (call (before.foldl (fun o a => (call o a).1) o) a).1.radius = _
      have hc := hcall (before.foldl (fun o a => (call o a).1) o) a
      rcases hsel before a.cocycleIdx with ⟨g1, -⟩ | ⟨z, g1, g1', -⟩ | ⟨pt, s, g1, -, g2⟩
      · exact absurd g1 (notNon h1)
      · exact absurd g1' (notOut h1 g1)
      · have hpt := g1.unique h1
        subst hpt
        refine hc.radius _ _ _ _ g2 ?_
        obtain ⟨r', thr, k1, k2, k3, -⟩ := (C24_cover_radius b d c a.standardRange).2 h3
        rw [h2, k1]
        have e1 : thr = 2 * r := by rw [h4]; linarith
        have e2 : r' = r := by linarith
        rw [e1, e2]
    | append_singleton l a' ih =>
      have ih := ih fun a'' h => hafter a'' (List.mem_append_left _ h)
      rw [show before ++ a :: (l ++ [a']) = (before ++ a :: l) ++ [a'] by simp, List.foldl_append]
      show (call _ a').1.radius = _
      rw [(early (before ++ a :: l) a' (hafter a' (by simp))).1]
      exact ih
  · intro calls
    induction calls using List.reverseRecOn with
    | nil => simp
    | append_singleton l a ih =>
      rw [List.foldl_append]
      simp only [List.foldl_cons, List.foldl_nil]
      obtain ⟨cs, h⟩ := (hcall (l.foldl (fun o a => (call o a).1) o) a).rest
      rw [h]
      exact ih

end

section
variable {ρ : ℝ → ℝ} {k maxdim : ℕ} {p : ℤ} {δ : ℕ → ℕ → ℝ} {res : RipserResult ℝ}

theorem projInitWith_none {T : Table} {argsort : List (Fl ℝ) → List ℕ} {x : DataInput} {o : ProjObj}
    (h : projInitWith T argsort res x p maxdim = .ok o) : o.radius = none ∧ o.variance = none := by
  unfold projInitWith at h
  simp only [bind, Except.bind, pure, Except.pure] at h
  split at h
  · cases h
  · injection h with h
    subst h
    exact ⟨rfl, rfl⟩

/-- **C136, `LensCoords`.** For every data set: what all sequences of calls leave on the object. -/
theorem C136_lens_state (x : DataInput) (hx : DescribesData x δ) (hr : RipserSpec ρ x.rows k δ p maxdim res)
    (argsort : List (Fl ℝ) → List ℕ) (ha : ArgsortSpec argsort) (hm : 1 ≤ maxdim) (hk : 0 < k)
    (hf : x.distanceMatrix = true → x.dtype = .float) :
    ∃ o dgm σ, lensInit argsort res x p maxdim = .ok o ∧ res.dgms[1]? = some dgm ∧ PersistenceRanking dgm σ ∧
      ∀ (eigh : Eigh ℂ) (fuel : ℕ), KeepsState dgm σ o (lensGetCoordinates eigh fuel) := by
  obtain ⟨o, h1, h2, h3, h4, h5, h6, h7, wf⟩ := C88_lens_constructor x hx hr argsort ha hm hk hf
  obtain ⟨dgm, σ, g1, g2, g3⟩ := select_outcome 1 x hr h6 le_rfl hm h7
  refine ⟨o, dgm, σ, h1, g1, g2, fun eigh fuel => ?_⟩
  have h : ∀ calls : List ProjArgs, SameData o (calls.foldl (fun o a => (lensGetCoordinates eigh fuel o a).1) o) := by
    intro calls
    induction calls using List.reverseRecOn with
    | nil => rfl
    | append_singleton l c ih =>
      rw [List.foldl_append]
      exact ih.trans (sameData_call _ _ _ _ _ _)
  refine keepsState_of (q := 1) (projInitWith_none h1) (fun o a => C136_flat_call _ _ _ _ _ _) (fun calls idx => ?_)
    fun calls a => ?_
  · rw [h calls]
    rcases g3 idx with ⟨e1, e2⟩ | ⟨z, e1, e1', e2⟩ | ⟨pt, s, e1, hI, -, e2⟩
    · exact Or.inl ⟨e1, _, e2⟩
    · exact Or.inr (Or.inl ⟨z, e1, e1', _, e2⟩)
    · exact Or.inr (Or.inr ⟨pt, s, e1, hI, e2⟩)
  · have := (h calls).variance eigh fuel (lensMatrix o.prime o.nLand) (a.dim - 1) a
    unfold lensGetCoordinates at *
    rw [(h calls).fields.1, (h calls).fields.2]
    exact this

/-- **C136, `ProjectiveCoords`.** For every data set: what all sequences of calls leave on the object. -/
theorem C136_projective_state (x : DataInput) (hx : DescribesData x δ) (hr : RipserSpec ρ x.rows k δ 2 maxdim res)
    (argsort : List (Fl ℝ) → List ℕ) (ha : ArgsortSpec argsort) (hm : 1 ≤ maxdim) (hk : 0 < k)
    (hf : x.distanceMatrix = true → x.dtype = .float) :
    ∃ o dgm σ, projInit argsort res x maxdim = .ok o ∧ res.dgms[1]? = some dgm ∧ PersistenceRanking dgm σ ∧
      ∀ (eigh : Eigh ℝ) (fuel : ℕ), KeepsState dgm σ o (projGetCoordinates eigh fuel) := by
  obtain ⟨o, h1, h2, h3, h4, h5, h6, h7, wf⟩ := C88_projective_constructor x hx hr argsort ha hm hk hf
  obtain ⟨dgm, σ, g1, g2, g3⟩ := select_outcome 1 x hr h6 le_rfl hm h7
  refine ⟨o, dgm, σ, h1, g1, g2, fun eigh fuel => ?_⟩
  have h : ∀ calls : List ProjArgs, SameData o (calls.foldl (fun o a => (projGetCoordinates eigh fuel o a).1) o) := by
    intro calls
    induction calls using List.reverseRecOn with
    | nil => rfl
    | append_singleton l c ih =>
      rw [List.foldl_append]
      exact ih.trans (sameData_call _ _ _ _ _ _)
  refine keepsState_of (q := 1) (projInitWith_none h1) (fun o a => C136_flat_call _ _ _ _ _ _) (fun calls idx => ?_)
    fun calls a => ?_
  · rw [h calls]
    rcases g3 idx with ⟨e1, e2⟩ | ⟨z, e1, e1', e2⟩ | ⟨pt, s, e1, hI, -, e2⟩
    · exact Or.inl ⟨e1, _, e2⟩
    · exact Or.inr (Or.inl ⟨z, e1, e1', _, e2⟩)
    · exact Or.inr (Or.inr ⟨pt, s, e1, hI, e2⟩)
  · have := (h calls).variance eigh fuel (projMatrix o.nLand) a.dim a
    unfold projGetCoordinates at *
    rw [(h calls).fields.2]
    exact this

/-- **C136, `ComplexProjectiveCoords`.** For every data set: what all sequences of calls leave on the object. -/
theorem C136_complex_projective_state (x : DataInput) (hx : DescribesData x δ) (hr : RipserSpec ρ x.rows k δ p maxdim res)
    (argsort : List (Fl ℝ) → List ℕ) (ha : ArgsortSpec argsort) (hm : 2 ≤ maxdim) (hk : 0 < k) (hk' : k ≤ 2345)
    (hf : x.distanceMatrix = true → x.dtype = .float) :
    ∃ o dgm σ, cpInit argsort res x k p maxdim = .ok o ∧ res.dgms[2]? = some dgm ∧ PersistenceRanking dgm σ ∧
      ∀ (env : CPOracles) (fuel : ℕ), KeepsState dgm σ o (cpGetCoordinates env fuel) := by
  obtain ⟨o, h1, h2, h3, h4, h5, h6, h7, wf, hfv, hT⟩ :=
    C88_complex_projective_constructor x hx hr argsort ha (by omega) hk hk' hf
  obtain ⟨dgm, σ, g1, g2, g3⟩ := select_outcome 2 x hr h6 (by omega) hm h7
  refine ⟨o, dgm, σ, h1, g1, g2, fun env fuel => ?_⟩
  have h : ∀ calls : List ProjArgs, CPRel o (calls.foldl (fun o a => (cpGetCoordinates env fuel o a).1) o) := by
    intro calls
    induction calls using List.reverseRecOn with
    | nil =>
      refine ⟨rfl, ?_⟩
      rw [List.foldl_nil, List.forall₂_same]
      intro ck hck
      rw [List.forall₂_same]
      exact fun c hc => ⟨fun r hr => hfv ck hck c hc r hr, Or.inl rfl⟩
    | append_singleton l c ih =>
      rw [List.foldl_append]
      exact cpRel_state ih env fuel c
  refine keepsState_of (q := 2) (projInitWith_none h1) (fun o a => C136_complex_projective_call _ _ _ _) (fun calls idx => ?_)
    fun calls a => ?_
  · rw [show (calls.foldl (fun o a => (cpGetCoordinates env fuel o a).1) o).dgms = o.dgms by rw [(h calls).rest]]
    rcases getRep_lift (dgms := o.dgms) (h calls).cocycles idx 2 with ⟨e, e3, e4⟩ | ⟨b, d, s, s', e3, e4, -⟩
    · rw [e4]
      rcases g3 idx with ⟨e1, e2⟩ | ⟨z, e1, e1', e2⟩ | ⟨pt, s, e1, hI, -, e2⟩
      · exact Or.inl ⟨e1, _, rfl⟩
      · exact Or.inr (Or.inl ⟨z, e1, e1', _, rfl⟩)
      · simp only [Nat.cast_ofNat] at e2; rw [e3] at e2; cases e2
    · rw [e4]
      rcases g3 idx with ⟨e1, e2⟩ | ⟨z, e1, e1', e2⟩ | ⟨pt, s, e1, hI, -, e2⟩ <;> simp only [Nat.cast_ofNat] at e2 <;> rw [e3] at e2
      · cases e2
      · cases e2
      · simp only [Except.ok.injEq, Prod.mk.injEq] at e2
        obtain ⟨rfl, rfl, rfl⟩ := e2
        exact Or.inr (Or.inr ⟨pt, s', e1, hI, rfl⟩)
  · exact cpRel_variance (h calls) env fuel a

end

/-- **C136, the one way in which the cocycle matrix can fail.** A cocycle stored for the class that names a vertex which is not a landmark makes
the call raise `IndexError`; otherwise the matrix exists. -/
theorem C136_cocycle_matrix {𝕜 : Type} [RCLike 𝕜] (n : ℕ) (fwd bwd : ℤ → 𝕜) (c : SparseCochain) :
    ((∃ r ∈ c, n ≤ r.verts.getD 0 0 ∨ n ≤ r.verts.getD 1 0) → cocycleMatrix n fwd bwd c = .error .indexError) ∧
    ((∀ r ∈ c, r.verts.getD 0 0 < n ∧ r.verts.getD 1 0 < n) → ∃ M, cocycleMatrix n fwd bwd c = .ok M) := by
  constructor
  · rintro ⟨r, hr, h⟩
    unfold cocycleMatrix
    rw [if_neg]
    intro hall
    rw [List.all_eq_true] at hall
    have := hall r hr
    simp only [decide_eq_true_eq] at this
    omega
  · intro h
    unfold cocycleMatrix
    rw [if_pos]
    · exact ⟨_, rfl⟩
    · rw [List.all_eq_true]
      intro r hr
      simpa using h r hr

/-- Both cases: an edge from 0 to 7 with 4 landmarks, and one from 0 to 3. -/
example : cocycleMatrix 4 (fun v => (v : ℂ)) (fun v => (v : ℂ)) [⟨[0, 7], 1⟩] = .error .indexError ∧
    ∃ M, cocycleMatrix 4 (fun v => (v : ℂ)) (fun v => (v : ℂ)) [⟨[0, 3], 1⟩] = .ok M :=
  ⟨(C136_cocycle_matrix 4 _ _ _).1 ⟨_, List.mem_singleton_self _, Or.inr (by simp)⟩,
    (C136_cocycle_matrix 4 _ _ _).2 (by simp)⟩

end Dreimac
