import Verif.Spec.ProjOutcomes
import Verif.Props.Outcomes
import Verif.Props.EndToEnd2

/-!
# C122: how every call of `LensCoords`, `ProjectiveCoords` and `ComplexProjectiveCoords` ends
-/

namespace Dreimac

section
variable {𝕜 : Type} [RCLike 𝕜]

theorem expLoop_cols (eigh : Eigh 𝕜) (total : ℤ) (fuel : ℕ) (k : ℤ) (X Y : Arr 𝕜) (h : expLoop eigh total fuel k X = some Y) :
    Y.cols = X.cols := by
  induction fuel generalizing k X with
  | zero =>
    unfold expLoop at h
    split at h
    · cases h
    · injection h with h; rw [h]
  | succ f ih =>
    unfold expLoop at h
    split at h
    · have := ih _ _ h
      exact this
    · injection h with h; rw [h]

/-- The outcome of the dimension reduction. -/
theorem ppca_outcome (eigh : Eigh 𝕜) (A : Arr 𝕜) (h0 : 0 < A.cols) (q : ℤ) (mode : RedMode) (fuel : ℕ)
    (hf : (A.cols : ℤ) - q - 1 < 2 ^ fuel) :
    (mode = .other ∧ ppca eigh fuel A q mode = .error .assertionError) ∨
    (mode = .oneByOne ∧ (q < 1 ∨ A.cols ≤ q) ∧ ppca eigh fuel A q mode = .error .attributeError) ∨
    (mode ≠ .other ∧ (mode = .oneByOne → 1 ≤ q ∧ q < A.cols) ∧ ∃ R, ppca eigh fuel A q mode = .ok R ∧ R.X.rows = A.rows ∧
      ∀ c : ℕ, q + 1 = c → R.X.cols = min A.cols c) := by
  have hne : A.cols ≠ 0 := by omega
  have hr : A.T.rows = A.cols := rfl
  cases mode with
  | other => exact Or.inl ⟨rfl, by simp [ppca]⟩
  | direct =>
    refine Or.inr (Or.inr ⟨by simp, by simp, _, ppca_direct _ _ _ _ hne, rfl, ?_⟩)
    intro c hc
    show sliceLen A.cols (q + 1) = _
    rw [sliceLen_nonneg _ (by omega), hc]; simp
  | exponential =>
    refine Or.inr (Or.inr ⟨by simp, by simp, ?_⟩)
    have hnf := C56_terminates eigh A q .exponential fuel hf
    rw [ppca_exponential _ _ _ _ hne] at hnf ⊢
    rcases hY : exponentialMode eigh fuel A.T (q + 1) with _ | Y
    · rw [hY] at hnf; simp at hnf
    · refine ⟨_, rfl, ?_, ?_⟩
      · show Y.cols = _
        by_cases hq : 0 ≤ q + 1
        · exact (exponential_shape eigh fuel _ _ _ hq hY).2
        · unfold exponentialMode at hY
          obtain ⟨Z, hZ, rfl⟩ := Option.map_eq_some_iff.1 hY
          have hc : Z.cols = A.rows := expLoop_cols eigh _ _ _ _ _ hZ
          split
          · exact hc
          · exact hc
      · intro c hc
        have := (exponential_shape eigh fuel _ _ _ (by omega) hY).1
        show Y.rows = _
        rw [this, hr, hc]; simp
  | oneByOne =>
    rw [ppca_oneByOne _ _ _ _ hne, oboLoop_eq]
    simp only [hr]
    by_cases h : 1 ≤ q ∧ q < A.cols
    · rw [if_pos (by omega)]
      refine Or.inr (Or.inr ⟨by simp, fun _ => h, _, rfl, (oboStage_rows eigh _ _).2, ?_⟩)
      intro c hc
      show (oboStage eigh _ _).rows = _
      rw [(oboStage_rows eigh _ _).1, hr]
      omega
    · rw [if_neg (by omega)]
      exact Or.inr (Or.inl ⟨trivial, by omega, rfl⟩)

theorem radius_outcome {pt : Fl ℝ × Fl ℝ} (h : IsInterval pt) (perc : Fl ℝ) (std : Bool) :
    (TooShort std pt ∧ getCoverRadius perc pt.1 pt.2 std = .error .tooShort) ∨
    (¬ TooShort std pt ∧ ∃ radius, getCoverRadius perc pt.1 pt.2 std = .ok radius) := by
  obtain ⟨b, hb, hd⟩ := h
  obtain ⟨p1, p2⟩ := pt
  simp only at hb hd
  subst hb
  have hs : (if std then Fl.fin 2 * Fl.fin b else Fl.fin b) = Fl.fin (if std then 2 * b else b) := by
    cases std <;> rfl
  rcases hd with ⟨d, rfl, -⟩ | rfl
  · by_cases h : d < (if std then 2 * b else b)
    · refine Or.inl ⟨⟨b, d, rfl, h⟩, ?_⟩
      unfold getCoverRadius
      simp only [hs]
      rw [if_pos (by simpa [Fl.lt] using h)]
    · refine Or.inr ⟨?_, ?_⟩
      · rintro ⟨b', d', he, hlt⟩
        injection he with e1 e2
        injection e1 with e1
        injection e2 with e2
        subst e1 e2
        exact h hlt
      · unfold getCoverRadius
        simp only [hs]
        rw [if_neg (by simpa [Fl.lt] using h)]
        exact ⟨_, rfl⟩
  · refine Or.inr ⟨?_, ?_⟩
    · rintro ⟨b', d', he, hlt⟩
      injection he with e1 e2
      cases e2
    · unfold getCoverRadius
      simp only [hs]
      rw [if_neg (by simp [Fl.lt])]
      exact ⟨_, rfl⟩

theorem covering_ok {o : ProjObj} (wf : ProjWellFormed o) (r : Fl ℝ) (bump : Fl ℝ → Fl ℝ → Fl ℝ) :
    ∃ cov, getCoveringPartition o.dtype o.nLand o.nData (fun l i => Fl.fin (o.dist l i)) r bump = .ok cov := by
  have := wf.pos
  unfold getCoveringPartition
  simp only [wf.dtype]
  rw [if_neg (by simp), if_neg (by omega)]
  exact ⟨_, rfl⟩

/-- The end of a call, after the class map has been computed. -/
theorem reduce_outcome (eigh : Eigh 𝕜) (A : Arr 𝕜) {k N : ℕ} (hk : 0 < k) (hc : A.cols = k) (hrw : A.rows = N) (q : ℤ)
    (a : ProjArgs) (fuel : ℕ) (hf : (k : ℤ) - q - 1 < 2 ^ fuel) {dgm : List (Fl ℝ × Fl ℝ)} {σ : List ℕ} {pt : Fl ℝ × Fl ℝ}
    (h1 : SelectsInterval dgm σ a.cocycleIdx pt) (h2 : ¬ TooShort a.standardRange pt) :
    (∃ e, ppca eigh fuel A q a.mode = .error e ∧ ReductionOutcome (𝕜 := 𝕜) dgm σ k N q a (.error e)) ∨
    ∃ R, ppca eigh fuel A q a.mode = .ok R ∧ ReductionOutcome dgm σ k N q a (.ok R.X) := by
  subst hc hrw
  rcases ppca_outcome eigh A hk q a.mode fuel hf with ⟨hm, h⟩ | ⟨hm, hq, h⟩ | ⟨hm, hq, R, h, hr1, hr2⟩
  · exact Or.inl ⟨_, h, .unknownMode pt h1 h2 hm⟩
  · exact Or.inl ⟨_, h, .notReached pt h1 h2 hm hq⟩
  · exact Or.inr ⟨R, h, .returns pt h1 h2 hm hq _ hr1 hr2⟩

/-- The table for the two classes with flat class maps. -/
theorem flat_outcome (eigh : Eigh 𝕜) (o : ProjObj) (wf : ProjWellFormed o) (a : ProjArgs)
    (matrix : SparseCochain → Except PyErr (ℕ → ℕ → 𝕜)) (q : ℤ) (fuel : ℕ) (hf : (o.nLand : ℤ) - q - 1 < 2 ^ fuel) {p : ℤ}
    (hmat : ∀ s, ValidArray p o.nLand 1 s → ∃ M, matrix s = .ok M) (dgm : List (Fl ℝ × Fl ℝ)) (σ : List ℕ)
    (hsel : (a.cocycleIdx = .nonInt ∧ getRepresentativeCocycle o.dgms o.cocycles a.cocycleIdx 1 = .error .assertionError) ∨
      (∃ z : ℤ, a.cocycleIdx = .int z ∧ (z < -dgm.length ∨ dgm.length ≤ z) ∧
        getRepresentativeCocycle o.dgms o.cocycles a.cocycleIdx 1 = .error .indexError) ∨
      ∃ pt s, SelectsInterval dgm σ a.cocycleIdx pt ∧ IsInterval pt ∧ ValidArray p o.nLand 1 s ∧
        getRepresentativeCocycle o.dgms o.cocycles a.cocycleIdx 1 = .ok (pt.1, pt.2, s)) :
    ReductionOutcome dgm σ o.nLand o.nData q a (flatGetCoordinates eigh fuel matrix q o a).2 := by
  unfold flatGetCoordinates
  rcases hsel with ⟨h1, h2⟩ | ⟨z, h1, h1', h2⟩ | ⟨pt, s, h1, hI, hV, h2⟩
  · rw [h2]; exact .notAnInteger h1
  · rw [h2]; exact .outOfRange z h1 h1'
  · rw [h2]
    simp only
    rcases radius_outcome hI a.perc a.standardRange with ⟨h3, h4⟩ | ⟨h3, radius, h4⟩
    · rw [h4]; exact .tooShort pt h1 h3
    · rw [h4]
      obtain ⟨cov, hcov⟩ := covering_ok wf radius.1 a.bump
      obtain ⟨M, hM⟩ := hmat s hV
      simp only [hcov, hM]
      rcases reduce_outcome eigh (flatClassMap o.nLand o.nData cov M) wf.pos rfl rfl q a fuel hf h1 h3 with
        ⟨e, h5, h6⟩ | ⟨R, h5, h6⟩
      · rw [h5]; exact h6
      · rw [h5]; exact h6

theorem ValidArray.pairs {p : ℤ} {n : ℕ} {s : SparseCochain} (h : ValidArray p n 1 s) :
    ∀ r ∈ s, ∃ l m, r.verts = [l, m] ∧ l < n ∧ m < n := by
  intro r hr
  obtain ⟨⟨h1, -, h2⟩, -⟩ := h.1 r hr
  obtain ⟨l, m, hv⟩ := List.length_eq_two.1 h1
  exact ⟨l, m, hv, h2 l (by simp [hv]), h2 m (by simp [hv])⟩

omit [RCLike 𝕜] in
/-- **C122.** The rows of the table exclude each other: two outcomes of the same call are the same error, or both arrays. -/
theorem C122_rows_exclude {dgm : List (Fl ℝ × Fl ℝ)} {σ : List ℕ} {k N : ℕ} {q : ℤ} {a : ProjArgs}
    {r₁ r₂ : Except PyErr (Arr 𝕜)} (h₁ : ReductionOutcome dgm σ k N q a r₁) (h₂ : ReductionOutcome dgm σ k N q a r₂) :
    (∃ e, r₁ = .error e ∧ r₂ = .error e) ∨ ∃ X Y, r₁ = .ok X ∧ r₂ = .ok Y := by
  have notNon : ∀ {idx pt}, SelectsInterval dgm σ idx pt → idx ≠ .nonInt := by
    rintro idx pt ⟨r, j, h1, h2, -⟩ h
    rw [h] at h2
    simp at h2
  have notOut : ∀ {idx pt} {z : ℤ}, SelectsInterval dgm σ idx pt → idx = .int z → ¬ (z < -dgm.length ∨ dgm.length ≤ z) := by
    rintro idx pt z ⟨r, j, h1, h2, -⟩ h
    rw [h] at h2
    simp only [ClassArg.int.injEq] at h2
    omega
  have short : ∀ {idx pt pt'}, TooShort a.standardRange pt → ¬ TooShort a.standardRange pt' → SelectsInterval dgm σ idx pt →
      SelectsInterval dgm σ idx pt' → False := fun h h' h1 h2 => h' (h1.unique h2 ▸ h)
  have reach : a.mode = .oneByOne → (q < 1 ∨ k ≤ q) → (a.mode = .oneByOne → 1 ≤ q ∧ q < k) → False := fun h h' h'' => by
    have := h'' h
    omega
  cases h₁ <;> cases h₂ <;> try (first | exact Or.inl ⟨_, rfl, rfl⟩ | exact Or.inr ⟨_, _, rfl, rfl⟩)
  all_goals exfalso
  all_goals first
    | exact notNon (by assumption) (by assumption)
    | exact short (by assumption) (by assumption) (by assumption) (by assumption)
    | exact notOut (by assumption) (by assumption) (by assumption)
    | exact reach (by assumption) (by assumption) (by assumption)
    | simp_all

end

section
variable {ρ : ℝ → ℝ} {k maxdim : ℕ} {p : ℤ} {δ : ℕ → ℕ → ℝ} {res : RipserResult ℝ}

/-- **C122, `LensCoords`.** For every data set, every history of calls and all arguments, the call
`get_coordinates(…, complex_dim = n, …)` ends as the table says, with target dimension `n - 1`: it raises an error exactly in
the listed situations, and otherwise it returns one row per data point and `min(n, n_landmarks)` columns (for `n ≥ 0`).  The
number of iterations of the reduction loop is logarithmic in the number of dimensions to drop. -/
theorem C122_lens_outcomes (x : DataInput) (hx : DescribesData x δ) (hr : RipserSpec ρ x.rows k δ p maxdim res)
    (argsort : List (Fl ℝ) → List ℕ) (ha : ArgsortSpec argsort) (hm : 1 ≤ maxdim) (hk : 0 < k)
    (hf : x.distanceMatrix = true → x.dtype = .float) :
    ∃ o dgm σ, lensInit argsort res x p maxdim = .ok o ∧ res.dgms[1]? = some dgm ∧ PersistenceRanking dgm σ ∧
      ∀ (eigh : Eigh ℂ) (history : List ProjArgs) (a : ProjArgs) (fuel : ℕ), (k : ℤ) - a.dim < 2 ^ fuel →
        ReductionOutcome dgm σ k x.nPoints (a.dim - 1) a
          (lensGetCoordinates eigh fuel (lensHistory eigh fuel o history) a).2 := by
  obtain ⟨o, h1, h2, h3, h4, h5, h6, h7, wf⟩ := C88_lens_constructor x hx hr argsort ha hm hk hf
  obtain ⟨dgm, σ, g1, g2, g3⟩ := select_outcome 1 x hr h6 le_rfl hm h7
  refine ⟨o, dgm, σ, h1, g1, g2, ?_⟩
  intro eigh history a fuel hfu
  rw [C85_lens_history, ← h3, ← h4]
  rw [← h3] at g3 hfu
  exact flat_outcome eigh o wf a _ (a.dim - 1) fuel (by linarith) (fun s hs => cocycleMatrix_ok _ _ hs.pairs) dgm σ (g3 a.cocycleIdx)

/-- **C122, `ProjectiveCoords`.** The same with target dimension `proj_dim`; in particular the prime 2 cocycles never make the
powers of `-1` fail. -/
theorem C122_projective_outcomes (x : DataInput) (hx : DescribesData x δ) (hr : RipserSpec ρ x.rows k δ 2 maxdim res)
    (argsort : List (Fl ℝ) → List ℕ) (ha : ArgsortSpec argsort) (hm : 1 ≤ maxdim) (hk : 0 < k)
    (hf : x.distanceMatrix = true → x.dtype = .float) :
    ∃ o dgm σ, projInit argsort res x maxdim = .ok o ∧ res.dgms[1]? = some dgm ∧ PersistenceRanking dgm σ ∧
      ∀ (eigh : Eigh ℝ) (history : List ProjArgs) (a : ProjArgs) (fuel : ℕ), (k : ℤ) - a.dim - 1 < 2 ^ fuel →
        ReductionOutcome dgm σ k x.nPoints a.dim a
          (projGetCoordinates eigh fuel (projHistory eigh fuel o history) a).2 := by
  obtain ⟨o, h1, h2, h3, h4, h5, h6, h7, wf⟩ := C88_projective_constructor x hx hr argsort ha hm hk hf
  obtain ⟨dgm, σ, g1, g2, g3⟩ := select_outcome 1 x hr h6 le_rfl hm h7
  refine ⟨o, dgm, σ, h1, g1, g2, ?_⟩
  intro eigh history a fuel hfu
  rw [C85_projective_history, ← h3, ← h4]
  rw [← h3] at g3 hfu
  refine flat_outcome eigh o wf a _ a.dim fuel hfu (fun s hs => ?_) dgm σ (g3 a.cocycleIdx)
  unfold projMatrix
  rw [if_neg]
  · exact cocycleMatrix_ok _ _ hs.pairs
  · rw [List.any_eq_true]
    rintro ⟨r, hr1, hr2⟩
    have := (hs.1 r hr1).2.1
    simp at hr2
    omega

/-- **C122, `ComplexProjectiveCoords`.** Without the cocycle check the same table holds for the classes of dimension 2; with the
check, the only further outcome is `NameError`, for a class that is not too short (when the lifted class is not an integer
cocycle, see C92). -/
theorem C122_complex_projective_outcomes (x : DataInput) (hx : DescribesData x δ) (hr : RipserSpec ρ x.rows k δ p maxdim res)
    (argsort : List (Fl ℝ) → List ℕ) (ha : ArgsortSpec argsort) (hm : 2 ≤ maxdim) (hk : 0 < k) (hk' : k ≤ 2345)
    (hf : x.distanceMatrix = true → x.dtype = .float) :
    ∃ o dgm σ, cpInit argsort res x k p maxdim = .ok o ∧ res.dgms[2]? = some dgm ∧ PersistenceRanking dgm σ ∧
      ∀ (env : CPOracles) (history : List ProjArgs) (a : ProjArgs) (fuel : ℕ), (k : ℤ) - a.dim - 1 < 2 ^ fuel →
        (a.check = true → Nat.choose k 4 ≤ 2 ^ 31) →
        ReductionOutcome dgm σ k x.nPoints a.dim a
          (cpGetCoordinates env fuel (cpHistory env fuel o history) a).2 ∨
        (a.check = true ∧ (cpGetCoordinates env fuel (cpHistory env fuel o history) a).2 = .error .nameError ∧
          ∃ pt, SelectsInterval dgm σ a.cocycleIdx pt ∧ ¬ TooShort a.standardRange pt) := by
  obtain ⟨o, h1, h2, h3, h4, h5, h6, h7, wf, hfv, hT⟩ :=
    C88_complex_projective_constructor x hx hr argsort ha (by omega) hk hk' hf
  obtain ⟨dgm, σ, g1, g2, g3⟩ := select_outcome 2 x hr h6 (by omega) hm h7
  refine ⟨o, dgm, σ, h1, g1, g2, ?_⟩
  intro env history a fuel hfu hch4
  rw [C85_complex_projective_history env fuel o hfv, ← h4]
  unfold cpGetCoordinates
  rcases g3 a.cocycleIdx with ⟨e1, e2⟩ | ⟨z, e1, e1', e2⟩ | ⟨pt, s, e1, hI, hV, e2⟩ <;> simp only [Nat.cast_ofNat] at e2
  · rw [e2]; exact Or.inl (.notAnInteger e1)
  · rw [e2]; exact Or.inl (.outOfRange z e1 e1')
  · rw [e2]
    simp only
    rcases radius_outcome hI a.perc a.standardRange with ⟨e3, e4⟩ | ⟨e3, radius, e4⟩
    · rw [e4]; exact Or.inl (.tooShort pt e1 e3)
    · rw [e4]
      obtain ⟨cov, hcov⟩ := covering_ok wf.toProjWellFormed radius.1 a.bump
      obtain ⟨M, hM, -⟩ := C12_delta1 o.nLand k 3 h3.le (by norm_num) wf.size (fun l m => (o.distLandLand l m : EReal))
        (ripsThr radius.2)
      obtain ⟨v, hv, -⟩ := C06_sparse_to_dense o.nLand 2 k 3 h3.le (by norm_num) (liftToIntegerCocycle s o.prime) (by
        intro r hr
        unfold liftToIntegerCocycle at hr
        obtain ⟨r', hr', rfl⟩ := List.mem_map.1 hr
        rw [h3]
        exact ⟨(hV.1 r' hr').1.1, (hV.1 r' hr').1.2, (hV.1 r' hr').1.3⟩) (by
        unfold liftToIntegerCocycle
        rw [List.pairwise_map]
        exact hV.2)
      simp only [hcov, hT, hM, hv]
      by_cases hc : a.check = true ∧ ¬ IsCocycle2 o.nLand (fun l m => (o.distLandLand l m : EReal)) (ripsThr radius.2)
          (fun e => v.getD e 0)
      · have := C22_repair_raises_name_error o.nLand k 3 h3.le le_rfl wf.size (fun l m => (o.distLandLand l m : EReal))
          (ripsThr radius.2) (fun l hl1 hl2 => by
            have := tetra_count hl1 hl2
            rw [h3] at this
            have := hch4 hc.1
            omega) env.milp o.prime a.cocycleIdx.toInt
          (fun e => v.getD e 0) hc.2
        rw [hc.1, this]
        exact Or.inr ⟨rfl, rfl, pt, e1, e3⟩
      · have hchk : checkAndRepair2AsIs env.milp o.nLand (fun l m => (o.distLandLand l m : EReal)) (ripsThr radius.2)
            (cnsTable k 3) o.prime a.cocycleIdx.toInt a.check (fun e => v.getD e 0) = .ok fun e => v.getD e 0 := by
          unfold checkAndRepair2AsIs checkAndRepair2
          rw [if_neg]
          rintro ⟨f1, f2⟩
          rw [(C18_two_cocycle_check o.nLand k 3 h3.le (by norm_num) _ _ _).2 (by
            by_contra hh
            exact hc ⟨f1, hh⟩)] at f2
          cases f2
        rw [hchk]
        simp only
        rw [← h3] at hfu ⊢
        rcases reduce_outcome env.eigh _ wf.pos (show Arr.cols (sparseIntegrate2 _ _ cov o.nLand o.nData
          (fun l m => (o.distLandLand l m : EReal)) (ripsThr radius.2) (cnsTable o.nLand 3)) = _ from rfl) rfl a.dim a fuel hfu e1 e3 with
          ⟨e, h5, h6⟩ | ⟨R, h5, h6⟩
        · rw [h5]; exact Or.inl h6
        · rw [h5]; exact Or.inl h6

end

end Dreimac
