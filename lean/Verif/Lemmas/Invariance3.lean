import Mathlib.Data.List.Perm.Basic
import Mathlib.Data.List.Nodup
import Verif.Lemmas.Invariance2

/-! # The projective coordinates do not depend on the order of the data points -/

namespace Dreimac

section ppca
variable {𝕜 : Type} [RCLike 𝕜]

theorem oAdd_right_comm {α : Type} [AddCommMonoid α] (a b c : Option α) : oAdd (oAdd a b) c = oAdd (oAdd a c) b := by
  cases a <;> cases b <;> cases c <;> simp [oAdd, add_right_comm]

theorem oSum_perm {α : Type} [AddCommMonoid α] {l l' : List (Option α)} (h : l.Perm l') : oSum l = oSum l' := by
  have : RightCommutative (oAdd (α := α)) := ⟨oAdd_right_comm⟩
  exact h.foldl_eq _

theorem range_map_perm {N : ℕ} {σ : ℕ → ℕ} (h : Set.BijOn σ (Set.Iio N) (Set.Iio N)) :
    ((List.range N).map σ).Perm (List.range N) := by
  rw [List.perm_ext_iff_of_nodup _ List.nodup_range]
  · intro a
    simp only [List.mem_map, List.mem_range]
    constructor
    · rintro ⟨x, hx, rfl⟩
      exact h.mapsTo hx
    · intro ha
      obtain ⟨x, hx, rfl⟩ := h.surjOn (show a ∈ Set.Iio N from ha)
      exact ⟨x, hx, rfl⟩
  · rw [List.nodup_map_iff_inj_on List.nodup_range]
    intro x hx y hy e
    exact h.injOn (List.mem_range.1 hx) (List.mem_range.1 hy) e

theorem oSum_reorder {α : Type} [AddCommMonoid α] {N : ℕ} {σ : ℕ → ℕ} (h : Set.BijOn σ (Set.Iio N) (Set.Iio N))
    (f f' : ℕ → Option α) (hf : ∀ n < N, f' n = f (σ n)) :
    oSum ((List.range N).map f') = oSum ((List.range N).map f) := by
  have e : (List.range N).map f' = ((List.range N).map σ).map f := by
    rw [List.map_map]
    exact List.map_congr_left fun n hn => hf n (List.mem_range.1 hn)
  rw [e]
  exact oSum_perm ((range_map_perm h).map f)

/-- `X'` has the columns of `X`, in another order. -/
structure ColPerm (σ : ℕ → ℕ) (N : ℕ) (X X' : Arr 𝕜) : Prop where
  rows : X'.rows = X.rows
  cols : X.cols = N ∧ X'.cols = N
  entries : ∀ i, ∀ n < N, X'.at' i n = X.at' i (σ n)

variable {σ : ℕ → ℕ} {N : ℕ} {X X' : Arr 𝕜}

theorem gramArr_reorder (hσ : Set.BijOn σ (Set.Iio N) (Set.Iio N)) (h : ColPerm σ N X X') : gramArr X' = gramArr X := by
  funext i j
  unfold gramArr
  rw [h.cols.1, h.cols.2]
  exact oSum_reorder hσ _ _ fun n hn => by rw [h.entries i n hn, h.entries j n hn]

theorem eigBasis_reorder (hσ : Set.BijOn σ (Set.Iio N) (Set.Iio N)) (eigh : Eigh 𝕜) (h : ColPerm σ N X X') :
    eigBasis eigh X' = eigBasis eigh X := by
  unfold eigBasis
  rw [gramArr_reorder hσ h, h.rows]

theorem rotateArr_reorder (U : ℕ → ℕ → Option 𝕜) (h : ColPerm σ N X X') :
    ColPerm σ N (rotateArr U X) (rotateArr U X') := by
  refine ⟨h.rows, h.cols, fun i n hn => ?_⟩
  simp only [rotateArr]
  rw [h.rows]
  congr 1
  exact List.map_congr_left fun k _ => by rw [h.entries k n hn]

theorem slice_reorder (k : ℤ) (h : ColPerm σ N X X') :
    ColPerm σ N (⟨sliceLen X.rows k, X.cols, X.at'⟩ : Arr 𝕜) ⟨sliceLen X'.rows k, X'.cols, X'.at'⟩ :=
  ⟨by simp only; rw [h.rows], h.cols, h.entries⟩

theorem normalizeCols_reorder (h : ColPerm σ N X X') : ColPerm σ N (normalizeCols X) (normalizeCols X') := by
  refine ⟨h.rows, h.cols, fun i n hn => ?_⟩
  simp only [normalizeCols]
  rw [h.entries i n hn]
  congr 1
  unfold colNorm
  rw [h.rows]
  congr 2
  exact List.map_congr_left fun k _ => by rw [h.entries k n hn]

theorem oneStep_reorder (hσ : Set.BijOn σ (Set.Iio N) (Set.Iio N)) (eigh : Eigh 𝕜) (k : ℤ) (h : ColPerm σ N X X') :
    ColPerm σ N (oneStep eigh X k) (oneStep eigh X' k) := by
  unfold oneStep
  rw [eigBasis_reorder hσ eigh h]
  exact normalizeCols_reorder (slice_reorder k (rotateArr_reorder _ h))

theorem expLoop_reorder (hσ : Set.BijOn σ (Set.Iio N) (Set.Iio N)) (eigh : Eigh 𝕜) (total : ℤ) (fuel : ℕ) (k : ℤ)
    (h : ColPerm σ N X X') :
    (expLoop eigh total fuel k X = none ∧ expLoop eigh total fuel k X' = none) ∨
    ∃ Y Y', expLoop eigh total fuel k X = some Y ∧ expLoop eigh total fuel k X' = some Y' ∧ ColPerm σ N Y Y' := by
  induction fuel generalizing k X X' with
  | zero =>
    unfold expLoop
    split
    · exact Or.inl ⟨rfl, rfl⟩
    · exact Or.inr ⟨_, _, rfl, rfl, h⟩
  | succ fuel ih =>
    unfold expLoop
    split
    · exact ih _ (oneStep_reorder hσ eigh _ h)
    · exact Or.inr ⟨_, _, rfl, rfl, h⟩

theorem exponentialMode_reorder (hσ : Set.BijOn σ (Set.Iio N) (Set.Iio N)) (eigh : Eigh 𝕜) (total : ℤ) (fuel : ℕ)
    (h : ColPerm σ N X X') :
    (exponentialMode eigh fuel X total = none ∧ exponentialMode eigh fuel X' total = none) ∨
    ∃ Y Y', exponentialMode eigh fuel X total = some Y ∧ exponentialMode eigh fuel X' total = some Y' ∧
      ColPerm σ N Y Y' := by
  unfold exponentialMode
  rw [h.rows]
  rcases expLoop_reorder hσ eigh total fuel (((X.rows : ℤ) - total) / 2) h with ⟨e1, e2⟩ | ⟨Y, Y', e1, e2, hY⟩
  · rw [e1, e2]; exact Or.inl ⟨rfl, rfl⟩
  · rw [e1, e2]
    refine Or.inr ⟨_, _, rfl, rfl, ?_⟩
    simp only
    rw [hY.rows]
    split
    · exact oneStep_reorder hσ eigh _ hY
    · exact hY

theorem varianceEntry_reorder (hσ : Set.BijOn σ (Set.Iio N) (Set.Iio N)) (U : ℕ → ℕ → Option 𝕜) (h : ColPerm σ N X X') :
    varianceEntry U X' = varianceEntry U X := by
  unfold varianceEntry
  rw [h.cols.1, h.cols.2, h.rows]
  congr 1
  refine oSum_reorder hσ _ _ fun n hn => ?_
  congr 3
  congr 1
  exact List.map_congr_left fun k _ => by rw [h.entries k n hn]

/-- The loop states of the two runs. -/
structure StateRel (σ : ℕ → ℕ) (N : ℕ) (st st' : LoopState 𝕜) : Prop where
  X : ColPerm σ N st.X st'.X
  ret : (st.ret = none ∧ st'.ret = none) ∨ ∃ Y Y', st.ret = some Y ∧ st'.ret = some Y' ∧ ColPerm σ N Y Y'
  variance : st'.variance = st.variance

theorem oneByOneStep_reorder (hσ : Set.BijOn σ (Set.Iio N) (Set.Iio N)) (eigh : Eigh 𝕜) (nDim : ℕ) (projDim : ℤ) (i : ℕ)
    {st st' : LoopState 𝕜} (h : StateRel σ N st st') :
    StateRel σ N (oneByOneStep eigh nDim projDim st i) (oneByOneStep eigh nDim projDim st' i) := by
  unfold oneByOneStep
  simp only
  rw [eigBasis_reorder hσ eigh h.X, varianceEntry_reorder hσ _ h.X, h.variance]
  refine ⟨normalizeCols_reorder (slice_reorder (-1) (rotateArr_reorder _ h.X)), ?_, rfl⟩
  simp only
  split
  · exact Or.inr ⟨_, _, rfl, rfl, h.X⟩
  · exact h.ret

theorem oneByOneLoop_reorder (hσ : Set.BijOn σ (Set.Iio N) (Set.Iio N)) (eigh : Eigh 𝕜) (projDim : ℤ)
    (v : List (Option ℝ)) (h : ColPerm σ N X X') :
    StateRel σ N (oneByOneLoop eigh X projDim v) (oneByOneLoop eigh X' projDim v) := by
  unfold oneByOneLoop
  rw [h.rows]
  exact foldl_rel (StateRel σ N) (fun b c i _ hb => oneByOneStep_reorder hσ eigh _ _ i hb) _ _
    ⟨h, Or.inl ⟨rfl, rfl⟩, rfl⟩

/-- The two results of `ppca`. -/
theorem ppca_reorder_core (hσ : Set.BijOn σ (Set.Iio N) (Set.Iio N)) (eigh : Eigh 𝕜) (fuel : ℕ) (A A' : Arr 𝕜)
    (hc : A'.cols = A.cols) (hr : A.rows = N ∧ A'.rows = N) (hA : ∀ n < N, ∀ i, A'.at' n i = A.at' (σ n) i) (projDim : ℤ)
    (mode : RedMode) :
    (∃ e, ppca eigh fuel A projDim mode = .error e ∧ ppca eigh fuel A' projDim mode = .error e) ∨
    ∃ R R', ppca eigh fuel A projDim mode = .ok R ∧ ppca eigh fuel A' projDim mode = .ok R' ∧
      R'.variance = R.variance ∧ R'.X.cols = R.X.cols ∧ R.X.rows = N ∧ R'.X.rows = N ∧
      ∀ n < N, ∀ i, R'.X.at' n i = R.X.at' (σ n) i := by
  have hX : ColPerm σ N A.T A'.T := ⟨hc, hr, fun i n hn => hA n hn i⟩
  unfold ppca
  by_cases hm : mode = .other
  · rw [if_pos hm, if_pos hm]; exact Or.inl ⟨_, rfl, rfl⟩
  · rw [if_neg hm, if_neg hm]
    simp only [hX.rows]
    by_cases h0 : A.T.rows = 0
    · rw [if_pos h0, if_pos h0]; exact Or.inl ⟨_, rfl, rfl⟩
    · rw [if_neg h0, if_neg h0]
      cases mode with
      | other => exact Or.inl ⟨_, rfl, rfl⟩
      | direct =>
        have := oneStep_reorder hσ eigh (projDim + 1) hX
        exact Or.inr ⟨_, _, rfl, rfl, rfl, this.rows, this.cols.1, this.cols.2, fun n hn i => this.entries i n hn⟩
      | exponential =>
        simp only
        rcases exponentialMode_reorder hσ eigh (projDim + 1) fuel hX with ⟨e1, e2⟩ | ⟨Y, Y', e1, e2, this⟩
        · rw [e1, e2]; exact Or.inl ⟨_, rfl, rfl⟩
        · rw [e1, e2]
          exact Or.inr ⟨_, _, rfl, rfl, rfl, this.rows, this.cols.1, this.cols.2, fun n hn i => this.entries i n hn⟩
      | oneByOne =>
        simp only
        have hs := oneByOneLoop_reorder hσ eigh projDim (List.replicate (A.T.rows - 1) (some 0)) hX
        rcases hs.ret with ⟨e1, e2⟩ | ⟨Y, Y', e1, e2, this⟩
        · rw [e1, e2]; exact Or.inl ⟨_, rfl, rfl⟩
        · rw [e1, e2]
          exact Or.inr ⟨_, _, rfl, rfl, hs.variance, this.rows, this.cols.1, this.cols.2,
            fun n hn i => this.entries i n hn⟩

end ppca

section calls
variable {𝕜 : Type} [RCLike 𝕜] {c : ℝ} {σ : ℕ → ℕ} {o o' : ProjObj}

theorem flatClassMap_reorder (h : ReorderedData c σ o o') {cov cov' : Covering ℝ}
    (hcov : ∀ p p', (∀ l < o.nLand, o'.dist l p' = c * o.dist l p) → SameCover cov cov' o.nLand p p')
    (M : ℕ → ℕ → 𝕜) (n : ℕ) (hn : n < o.nData) (i : ℕ) :
    (flatClassMap o.nLand o.nData cov' M).at' n i = (flatClassMap o.nLand o.nData cov M).at' (σ n) i := by
  have hs : σ n < o.nData := h.bijective.mapsTo (show n ∈ Set.Iio o.nData from hn)
  have hp := hcov (σ n) n fun l hl => h.points l hl n hn
  simp only [flatClassMap]
  by_cases hi : i < o.nLand
  · rw [if_pos ⟨hn, hi⟩, if_pos ⟨hs, hi⟩, hp.1, hp.2 i hi]
  · rw [if_neg fun h => hi h.2, if_neg fun h => hi h.2]

theorem flatGetCoordinates_reorder (hc : 0 < c) (h : ReorderedData c σ o o') (eigh : Eigh 𝕜) (fuel : ℕ)
    (matrix : SparseCochain → Except PyErr (ℕ → ℕ → 𝕜)) (k : ℤ) (a : ProjArgs) (hb : UnitFree c a.bump) :
    SameOutcome c σ o.nData (flatGetCoordinates eigh fuel matrix k o a) (flatGetCoordinates eigh fuel matrix k o' a) := by
  unfold flatGetCoordinates
  rw [h.dgms, h.cocycles, getRep_scale]
  rcases getRepresentativeCocycle o.dgms o.cocycles a.cocycleIdx 1 with e | ⟨death, birth, cocycle⟩
  · exact Or.inl ⟨_, rfl, rfl⟩
  · simp only [Except.map, getCoverRadius_scale hc]
    rcases getCoverRadius a.perc death birth a.standardRange with e | radius
    · exact Or.inl ⟨_, rfl, rfl⟩
    · simp only [h.float.1, h.float.2, h.nLand, h.nData]
      rcases getCoveringPartition_scale hc hb o.nLand o.nData o.nData o.dist o'.dist radius.1 with
        ⟨e1, e2⟩ | ⟨cov, cov', e1, e2, hcov⟩
      · rw [e1, e2]; exact Or.inl ⟨_, rfl, rfl⟩
      · rw [e1, e2]
        simp only
        rcases matrix cocycle with e | M
        · exact Or.inl ⟨_, rfl, rfl⟩
        · simp only
          rcases ppca_reorder_core h.bijective eigh fuel (flatClassMap o.nLand o.nData cov M)
            (flatClassMap o.nLand o.nData cov' M) rfl ⟨rfl, rfl⟩
            (fun n hn i => flatClassMap_reorder h hcov M n hn i) k a.mode with
            ⟨e, e1, e2⟩ | ⟨R, R', e1, e2, hv, hcols, hr, hr', hent⟩
          · rw [e1, e2]; exact Or.inl ⟨_, rfl, rfl⟩
          · rw [e1, e2]
            exact Or.inr ⟨_, _, rfl, rfl, by simp only; rw [hv], ⟨radius, rfl, rfl⟩, hcols, hr, hr', hent⟩

theorem sameEdges2 (hc : 0 < c) (h : ReorderedData c σ o o') (t : Fl ℝ) :
    SameEdges o.nLand (fun l m => (o.distLandLand l m : EReal)) (ripsThr t)
      (fun l m => (o'.distLandLand l m : EReal)) (ripsThr (t.scale c)) := by
  intro i j hij hj
  simp only
  rw [h.landmarks i (by omega) j hj, ripsThr_scale hc]

theorem assembled_reorder (h : ReorderedData c σ o o') {cov cov' : Covering ℝ}
    (hcov : ∀ p p', (∀ l < o.nLand, o'.dist l p' = c * o.dist l p) → SameCover cov cov' o.nLand p p')
    (nu : ℕ → ℕ → ℝ) (eta : ℕ → ℕ → ℕ → ℝ) (n : ℕ) (hn : n < o.nData) (i : ℕ) :
    (assembled o.nLand o.nData nu eta cov').at' n i = (assembled o.nLand o.nData nu eta cov).at' (σ n) i := by
  have hs : σ n < o.nData := h.bijective.mapsTo (show n ∈ Set.Iio o.nData from hn)
  have hp := hcov (σ n) n fun l hl => h.points l hl n hn
  simp only [assembled]
  by_cases hi : i < o.nLand
  · have e1 : (n < o.nData ∧ i < o.nLand) = True := eq_true ⟨hn, hi⟩
    have e2 : (σ n < o.nData ∧ i < o.nLand) = True := eq_true ⟨hs, hi⟩
    simp only [e1, e2, if_true, hp.2 i hi]
    have : accumulate o.nLand nu eta cov' n i = accumulate o.nLand nu eta cov (σ n) i := by
      unfold accumulate
      rw [hp.1]
      refine foldl_rel (fun (b c : Fl ℝ) => b = c) (fun b c t ht hbc => ?_) _ _ rfl
      rw [hbc, hp.2 t (List.mem_range.1 ht)]
    rw [this]
  · rw [if_neg fun h => hi h.2, if_neg fun h => hi h.2]

theorem cpGetCoordinates_reorder (hc : 0 < c) (h : ReorderedData c σ o o') (env : CPOracles) (fuel : ℕ) (a : ProjArgs)
    (hb : UnitFree c a.bump) :
    SameOutcome c σ o.nData (cpGetCoordinates env fuel o a) (cpGetCoordinates env fuel o' a) := by
  unfold cpGetCoordinates
  rw [h.dgms, h.cocycles, getRep_scale]
  rcases getRepresentativeCocycle o.dgms o.cocycles a.cocycleIdx 2 with e | ⟨death, birth, cocycle⟩
  · exact Or.inl ⟨_, rfl, rfl⟩
  · simp only [Except.map, getCoverRadius_scale hc]
    rcases getCoverRadius a.perc death birth a.standardRange with e | radius
    · exact Or.inl ⟨_, rfl, rfl⟩
    · have hE := sameEdges2 hc h radius.2
      simp only [h.float.1, h.float.2, h.nLand, h.nData, h.table, h.prime]
      rcases getCoveringPartition_scale hc hb o.nLand o.nData o.nData o.dist o'.dist radius.1 with
        ⟨e1, e2⟩ | ⟨cov, cov', e1, e2, hcov⟩
      · rw [e1, e2]; exact Or.inl ⟨_, rfl, rfl⟩
      · rw [e1, e2]
        simp only [makeDelta1_congr hE, checkAndRepair2AsIs, checkAndRepair2_congr hE, sparseIntegrate2,
          oneTensor_congr hE, twoTensor_congr hE]
        rcases makeDelta1 o.nLand (fun l m => (o.distLandLand l m : EReal)) (ripsThr radius.2) o.table with e | delta1
        · exact Or.inl ⟨_, rfl, rfl⟩
        · simp only
          rcases sparseCocycleToVector 2 (liftToIntegerCocycle cocycle o.prime) o.table o.nLand with e | v
          · exact Or.inl ⟨_, rfl, rfl⟩
          · simp only
            generalize checkAndRepair2 (K := EReal) (F := ℝ) _ _ _ _ _ _ _ _ _ _ = r
            rcases r with e | x
            · exact Or.inl ⟨_, rfl, rfl⟩
            · simp only
              generalize oneTensor (K := EReal) (harmonic2 env.lsqr x delta1).2 _ _ _ _ = nu
              generalize twoTensor (K := EReal) (harmonic2 env.lsqr x delta1).1 _ _ _ _ = eta
              rcases ppca_reorder_core h.bijective env.eigh fuel (assembled o.nLand o.nData nu eta cov)
                (assembled o.nLand o.nData nu eta cov') rfl ⟨rfl, rfl⟩
                (fun n hn i => assembled_reorder h hcov nu eta n hn i) a.dim a.mode with
                ⟨e, e1, e2⟩ | ⟨R, R', e1, e2, hv, hcols, hr, hr', hent⟩
              · rw [e1, e2]; exact Or.inl ⟨_, rfl, rfl⟩
              · rw [e1, e2]
                exact Or.inr ⟨_, _, rfl, rfl, by simp only; rw [hv], ⟨radius, rfl, rfl⟩, hcols, hr, hr', hent⟩

end calls

end Dreimac
