import Mathlib.Tactic.NormNum
import Mathlib.Tactic.IntervalCases
import Mathlib.Analysis.Complex.Basic
import Verif.Lemmas.Ppca

/-!
# C53, C55–C58: equivariant dimensionality reduction

`A` is the class map (one row per data point, one column per landmark), `eigh` an arbitrary eigenvector routine, `z n` a
number of absolute value one for each data point `n`.
-/

namespace Dreimac

open Real

variable {𝕜 : Type} [RCLike 𝕜]

/-! ### C53 -/

/-- **C53.** Multiplying the row of each data point by a phase multiplies its output row by the same phase and changes
neither the variances nor the error raised (if any), in every mode and for every eigenvector routine. -/
theorem C53_equivariant (eigh : Eigh 𝕜) (fuel : ℕ) (A : Arr 𝕜) (projDim : ℤ) (mode : RedMode) (z : ℕ → 𝕜)
    (hz : ∀ n, ‖z n‖ = 1) :
    ppca eigh fuel ⟨A.rows, A.cols, fun n i => (A.at' n i).map fun x => z n * x⟩ projDim mode =
      (ppca eigh fuel A projDim mode).map fun R =>
        ⟨R.variance, ⟨R.X.rows, R.X.cols, fun n i => (R.X.at' n i).map fun x => z n * x⟩⟩ :=
  ppca_twist hz eigh fuel A projDim mode

/-! ### C55 -/

theorem sliceLen_nonneg (n : ℕ) {k : ℤ} (hk : 0 ≤ k) : sliceLen n k = min n k.toNat := by
  unfold sliceLen; rw [if_neg (by omega)]

theorem expLoop_shape (eigh : Eigh 𝕜) (total : ℤ) (h0 : 0 ≤ total) (fuel : ℕ) (k : ℤ) (X Y : Arr 𝕜)
    (h : expLoop eigh total fuel k X = some Y) (hr : total ≤ X.rows) : total ≤ Y.rows ∧ Y.cols = X.cols := by
  induction fuel generalizing k X with
  | zero =>
    unfold expLoop at h
    split at h
    · cases h
    · injection h with h; subst h; exact ⟨hr, rfl⟩
  | succ f ih =>
    unfold expLoop at h
    split at h
    · rename_i hk
      have hrows : ((oneStep eigh X (total + k)).rows : ℤ) = min X.rows (total + k).toNat := by
        show ((sliceLen X.rows (total + k) : ℕ) : ℤ) = _
        rw [sliceLen_nonneg _ (by omega)]
      obtain ⟨h1, h2⟩ := ih _ _ h (by omega)
      exact ⟨h1, h2⟩
    · injection h with h; subst h; exact ⟨hr, rfl⟩

theorem exponential_shape (eigh : Eigh 𝕜) (fuel : ℕ) (X Y : Arr 𝕜) (total : ℤ) (h0 : 0 ≤ total)
    (h : exponentialMode eigh fuel X total = some Y) : Y.rows = min X.rows total.toNat ∧ Y.cols = X.cols := by
  unfold exponentialMode at h
  by_cases hr : total ≤ X.rows
  · obtain ⟨Z, hZ, hY⟩ := Option.map_eq_some_iff.1 h
    obtain ⟨h1, h2⟩ := expLoop_shape eigh total h0 _ _ _ _ hZ hr
    subst hY
    split
    · refine ⟨?_, h2⟩
      show sliceLen Z.rows total = _
      rw [sliceLen_nonneg _ h0]; omega
    · exact ⟨by omega, h2⟩
  · have hk : ¬ 0 < ((X.rows : ℤ) - total) / 2 := by omega
    have : expLoop eigh total fuel (((X.rows : ℤ) - total) / 2) X = some X := by
      cases fuel <;> simp [expLoop, hk]
    rw [this, Option.map_some, if_neg (by omega)] at h
    injection h with h; subst h
    exact ⟨by omega, rfl⟩

/-- The array at the beginning of iteration `i` of the "one-by-one" loop. -/
noncomputable def oboStage (eigh : Eigh 𝕜) (X : Arr 𝕜) : ℕ → Arr 𝕜
  | 0 => X
  | i + 1 => oneStep eigh (oboStage eigh X i) (-1)

theorem oboStage_rows (eigh : Eigh 𝕜) (X : Arr 𝕜) (i : ℕ) :
    (oboStage eigh X i).rows = X.rows - i ∧ (oboStage eigh X i).cols = X.cols := by
  induction i with
  | zero => exact ⟨rfl, rfl⟩
  | succ i ih =>
    refine ⟨?_, ih.2⟩
    show sliceLen (oboStage eigh X i).rows (-1) = _
    unfold sliceLen
    rw [if_pos (by norm_num), ih.1]; omega

theorem pyRange_zero (n : ℕ) : pyRange 0 n = List.range n := by
  simp [pyRange, List.range_eq_range']

theorem oboLoop_spec (eigh : Eigh 𝕜) (X : Arr 𝕜) (p : ℤ) (v : List (Option ℝ)) (m : ℕ) :
    (List.range m).foldl (oneByOneStep eigh X.rows p) ⟨X, none, v⟩ =
      ⟨oboStage eigh X m, if 0 ≤ (X.rows : ℤ) - p - 1 ∧ (X.rows : ℤ) - p - 1 < m then
          some (oboStage eigh X ((X.rows : ℤ) - p - 1).toNat) else none,
        (List.range m).foldl (fun v i => v.set (X.rows - 1 - (i + 1))
          (varianceEntry (eigBasis eigh (oboStage eigh X i)) (oboStage eigh X i))) v⟩ := by
  induction m with
  | zero => simp [oboStage]
  | succ m ih =>
    rw [List.range_succ, List.foldl_append, List.foldl_append, ih]
    simp only [List.foldl_cons, List.foldl_nil, oneByOneStep]
    have hX : normalizeCols (⟨sliceLen (rotateArr (eigBasis eigh (oboStage eigh X m)) (oboStage eigh X m)).rows (-1),
        (rotateArr (eigBasis eigh (oboStage eigh X m)) (oboStage eigh X m)).cols,
        (rotateArr (eigBasis eigh (oboStage eigh X m)) (oboStage eigh X m)).at'⟩ : Arr 𝕜) = oboStage eigh X (m + 1) := rfl
    rw [hX]
    congr 1
    by_cases h1 : (m : ℤ) = (X.rows : ℤ) - p - 1
    · rw [if_pos h1, if_pos (by omega), ← h1]; simp
    · rw [if_neg h1]
      by_cases h2 : 0 ≤ (X.rows : ℤ) - p - 1 ∧ (X.rows : ℤ) - p - 1 < m
      · rw [if_pos h2, if_pos (by omega)]
      · rw [if_neg h2, if_neg (by omega)]

theorem oboLoop_eq (eigh : Eigh 𝕜) (X : Arr 𝕜) (p : ℤ) (v : List (Option ℝ)) :
    oneByOneLoop eigh X p v =
      ⟨oboStage eigh X (X.rows - 1), if 0 ≤ (X.rows : ℤ) - p - 1 ∧ (X.rows : ℤ) - p - 1 < (X.rows - 1 : ℕ) then
          some (oboStage eigh X ((X.rows : ℤ) - p - 1).toNat) else none,
        (List.range (X.rows - 1)).foldl (fun v i => v.set (X.rows - 1 - (i + 1))
          (varianceEntry (eigBasis eigh (oboStage eigh X i)) (oboStage eigh X i))) v⟩ := by
  unfold oneByOneLoop
  rw [pyRange_zero, oboLoop_spec]

/-- **C55.** For a target dimension below the number of landmarks and at least one, `ppca` returns one row per data point
and `projDim + 1` columns in each of the three modes.  (Missing from the full property: target dimensions `0` and
`≥ n_dim`, see the two theorems below.) -/
theorem C55_shape_partial (eigh : Eigh 𝕜) (A : Arr 𝕜) (projDim : ℕ) (h1 : 1 ≤ projDim) (h2 : projDim < A.cols)
    (mode : RedMode) (hm : mode ≠ .other) (fuel : ℕ) (hf : A.cols ≤ fuel) :
    ∃ R, ppca eigh fuel A projDim mode = .ok R ∧ R.X.rows = A.rows ∧ R.X.cols = projDim + 1 := by
  have h0 : A.cols ≠ 0 := by omega
  cases mode with
  | direct =>
    rw [ppca_direct _ _ _ _ h0]
    refine ⟨_, rfl, rfl, ?_⟩
    show sliceLen A.cols ((projDim : ℤ) + 1) = _
    rw [sliceLen_nonneg _ (by omega)]; omega
  | exponential =>
    rw [ppca_exponential _ _ _ _ h0]
    have hex : ∃ Y, exponentialMode eigh fuel A.T ((projDim : ℤ) + 1) = some Y := by
      unfold exponentialMode
      have : ∀ (fuel : ℕ) (k : ℤ) (X : Arr 𝕜), k ≤ fuel → ∃ Y, expLoop eigh ((projDim : ℤ) + 1) fuel k X = some Y := by
        intro fuel
        induction fuel with
        | zero => intro k X hk; unfold expLoop; rw [if_neg (by omega)]; exact ⟨_, rfl⟩
        | succ f ih =>
          intro k X hk
          unfold expLoop
          split
          · exact ih _ _ (by omega)
          · exact ⟨_, rfl⟩
      obtain ⟨Y, hY⟩ := this fuel (((A.T.rows : ℤ) - ((projDim : ℤ) + 1)) / 2) A.T (by
        have : A.T.rows = A.cols := rfl
        omega)
      rw [hY]; exact ⟨_, rfl⟩
    obtain ⟨Y, hY⟩ := hex
    rw [hY]
    obtain ⟨e1, e2⟩ := exponential_shape eigh fuel A.T Y _ (by omega) hY
    refine ⟨_, rfl, e2, ?_⟩
    show Y.rows = _
    rw [e1]
    have : A.T.rows = A.cols := rfl
    omega
  | oneByOne =>
    rw [ppca_oneByOne _ _ _ _ h0, oboLoop_eq]
    have hr : A.T.rows = A.cols := rfl
    simp only [hr]
    rw [if_pos (by omega)]
    refine ⟨_, rfl, (oboStage_rows eigh A.T _).2, ?_⟩
    show (oboStage eigh A.T _).rows = _
    rw [(oboStage_rows eigh A.T _).1]
    omega
  | other => exact absurd rfl hm

/-- **C55 fails** for target dimensions that are too large: modes "direct" and "exponential" silently return only
`n_dim` columns, mode "one-by-one" raises `AttributeError`. -/
theorem C55_too_few_columns (eigh : Eigh 𝕜) (A : Arr 𝕜) (h0 : 0 < A.cols) (projDim : ℕ) (h : A.cols ≤ projDim) (fuel : ℕ) :
    (∃ R, ppca eigh fuel A projDim .direct = .ok R ∧ R.X.rows = A.rows ∧ R.X.cols = A.cols ∧ R.X.cols ≠ projDim + 1) ∧
    (∃ R, ppca eigh fuel A projDim .exponential = .ok R ∧ R.X = A ∧ R.X.cols ≠ projDim + 1) ∧
    ppca eigh fuel A projDim .oneByOne = .error .attributeError := by
  have hne : A.cols ≠ 0 := by omega
  have hr : A.T.rows = A.cols := rfl
  refine ⟨?_, ?_, ?_⟩
  · rw [ppca_direct _ _ _ _ hne]
    have hs : sliceLen A.cols ((projDim : ℤ) + 1) = A.cols := by rw [sliceLen_nonneg _ (by omega)]; omega
    exact ⟨_, rfl, rfl, hs, by rw [show (oneStep eigh A.T ((projDim : ℤ) + 1)).T.cols = A.cols from hs]; omega⟩
  · rw [ppca_exponential _ _ _ _ hne]
    have : exponentialMode eigh fuel A.T ((projDim : ℤ) + 1) = some A.T := by
      unfold exponentialMode
      have hk : ¬ 0 < ((A.T.rows : ℤ) - ((projDim : ℤ) + 1)) / 2 := by omega
      have : expLoop eigh ((projDim : ℤ) + 1) fuel (((A.T.rows : ℤ) - ((projDim : ℤ) + 1)) / 2) A.T = some A.T := by
        cases fuel <;> simp [expLoop, hk]
      rw [this, Option.map_some, if_neg (by omega)]
    rw [this]
    exact ⟨_, rfl, rfl, by show A.cols ≠ _; omega⟩
  · rw [ppca_oneByOne _ _ _ _ hne, oboLoop_eq]
    simp only [hr]
    rw [if_neg (by omega)]

/-- **C55 fails** for target dimension `0` in mode "one-by-one". -/
theorem C55_one_by_one_zero (eigh : Eigh 𝕜) (A : Arr 𝕜) (h0 : 0 < A.cols) (fuel : ℕ) :
    ppca eigh fuel A 0 .oneByOne = .error .attributeError := by
  have hne : A.cols ≠ 0 := by omega
  have hr : A.T.rows = A.cols := rfl
  rw [ppca_oneByOne _ _ _ _ hne, oboLoop_eq]
  simp only [hr]
  rw [if_neg (by omega)]

/-! ### C56 -/

/-- The loop of the "exponential" mode halves its counter: `fuel` iterations suffice for a counter below `2 ^ fuel`. -/
theorem expLoop_terminates (eigh : Eigh 𝕜) (total : ℤ) (fuel : ℕ) (k : ℤ) (X : Arr 𝕜) (h : k < 2 ^ fuel) :
    ∃ Y, expLoop eigh total fuel k X = some Y := by
  induction fuel generalizing k X with
  | zero => unfold expLoop; rw [if_neg (by simp at h; omega)]; exact ⟨_, rfl⟩
  | succ f ih =>
    unfold expLoop
    split
    · exact ih _ _ (by rw [pow_succ] at h; omega)
    · exact ⟨_, rfl⟩

/-- **C56 (termination).** In every mode the computation ends; the number of iterations of the `while` loop is
logarithmic: `fuel` iterations are enough whenever `n_dim - projDim - 1 < 2 ^ fuel`. -/
theorem C56_terminates (eigh : Eigh 𝕜) (A : Arr 𝕜) (projDim : ℤ) (mode : RedMode) (fuel : ℕ)
    (h : (A.cols : ℤ) - projDim - 1 < 2 ^ fuel) : ppca eigh fuel A projDim mode ≠ .error .outOfFuel := by
  by_cases hm : mode = .other
  · subst hm; unfold ppca; simp
  by_cases h0 : A.cols = 0
  · rw [ppca_empty _ _ _ _ _ hm h0]; simp
  cases mode with
  | direct => rw [ppca_direct _ _ _ _ h0]; simp
  | exponential =>
    rw [ppca_exponential _ _ _ _ h0]
    have hr : A.T.rows = A.cols := rfl
    obtain ⟨Y, hY⟩ := expLoop_terminates eigh (projDim + 1) fuel (((A.T.rows : ℤ) - (projDim + 1)) / 2) A.T (by
      have : (0 : ℤ) < 2 ^ fuel := by positivity
      omega)
    unfold exponentialMode
    rw [hY]; simp
  | oneByOne =>
    rw [ppca_oneByOne _ _ _ _ h0]
    split <;> simp
  | other => exact absurd rfl hm

/-- The vector with entries `x i`, `i < m`, is finite of norm one, or consists of non-numbers only. -/
def UnitOrNan (m : ℕ) (x : ℕ → Option 𝕜) : Prop :=
  (∀ i < m, x i = none) ∨ ∃ v : ℕ → 𝕜, (∀ i < m, x i = some (v i)) ∧ ∑ i ∈ Finset.range m, ‖v i‖ ^ 2 = 1

theorem normalizeCols_none {Y : Arr 𝕜} {n : ℕ} (h : ∃ i < Y.rows, Y.at' i n = none) (i : ℕ) :
    (normalizeCols Y).at' i n = none := by
  obtain ⟨j, hj, hn⟩ := h
  have : colNorm Y n = none := by
    unfold colNorm
    rw [oSum_none hj (by simp [hn])]; rfl
  simp only [normalizeCols, this, oDivNorm]
  cases Y.at' i n <;> rfl

theorem normalizeCols_some {Y : Arr 𝕜} {n : ℕ} (f : ℕ → 𝕜) (h : ∀ i < Y.rows, Y.at' i n = some (f i)) :
    (∃ i < Y.rows, f i ≠ 0) ∧ (∃ v : ℕ → 𝕜, (∀ i < Y.rows, (normalizeCols Y).at' i n = some (v i)) ∧
        (∑ i ∈ Finset.range Y.rows, ‖v i‖ ^ 2 = 1) ∧ ∃ s : ℝ, 0 < s ∧ ∀ i, f i = (s : 𝕜) * v i) ∨
      (∀ i < Y.rows, f i = 0) ∧ ∀ i < Y.rows, (normalizeCols Y).at' i n = none := by
  have hn : colNorm Y n = some (Real.sqrt (∑ i ∈ Finset.range Y.rows, ‖f i‖ ^ 2)) := by
    unfold colNorm
    rw [oSum_congr_some (fun i => ‖f i‖ ^ 2) (fun i hi => by simp [h i hi])]; rfl
  have hnn : 0 ≤ ∑ i ∈ Finset.range Y.rows, ‖f i‖ ^ 2 := Finset.sum_nonneg fun i _ => by positivity
  by_cases hz : ∃ i < Y.rows, f i ≠ 0
  · left
    refine ⟨hz, ?_⟩
    obtain ⟨j, hj, hfj⟩ := hz
    have hpos : 0 < ∑ i ∈ Finset.range Y.rows, ‖f i‖ ^ 2 :=
      Finset.sum_pos' (fun i _ => by positivity) ⟨j, Finset.mem_range.2 hj, by positivity⟩
    have hs := Real.sqrt_pos.2 hpos
    generalize hse : Real.sqrt (∑ i ∈ Finset.range Y.rows, ‖f i‖ ^ 2) = s at hn hs
    have hsq : s ^ 2 = ∑ i ∈ Finset.range Y.rows, ‖f i‖ ^ 2 := by rw [← hse, Real.sq_sqrt hnn]
    refine ⟨fun i => f i / (s : 𝕜), ?_, ?_, s, hs, ?_⟩
    · intro i hi
      simp only [normalizeCols, hn, h i hi, oDivNorm, Option.bind_some, if_neg hs.ne']
    · have : ∀ i ∈ Finset.range Y.rows, ‖f i / (s : 𝕜)‖ ^ 2 = ‖f i‖ ^ 2 / s ^ 2 := by
        intro i _
        rw [norm_div, RCLike.norm_ofReal, abs_of_pos hs, div_pow]
      rw [Finset.sum_congr rfl this, ← Finset.sum_div, ← hsq, div_self (by positivity)]
    · intro i
      have : (s : 𝕜) ≠ 0 := by exact_mod_cast hs.ne'
      field_simp
  · right
    push Not at hz
    refine ⟨hz, ?_⟩
    have h0 : ∑ i ∈ Finset.range Y.rows, ‖f i‖ ^ 2 = 0 := Finset.sum_eq_zero fun i hi => by
      rw [hz i (Finset.mem_range.1 hi)]; simp
    rw [h0, Real.sqrt_zero] at hn
    intro i hi
    simp [normalizeCols, hn, h i hi, oDivNorm]

theorem normalizeCols_unitOrNan (Y : Arr 𝕜) (n : ℕ) :
    UnitOrNan Y.rows fun i => (normalizeCols Y).at' i n := by
  by_cases h : ∃ i < Y.rows, Y.at' i n = none
  · exact Or.inl fun i _ => normalizeCols_none h i
  · push Not at h
    have hf : ∀ i < Y.rows, Y.at' i n = some ((Y.at' i n).getD 0) := by
      intro i hi
      have := h i hi
      cases hy : Y.at' i n with
      | none => exact absurd hy this
      | some x => rfl
    rcases normalizeCols_some _ hf with ⟨-, v, h1, h2, -⟩ | ⟨-, h1⟩
    · exact Or.inr ⟨v, h1, h2⟩
    · exact Or.inl h1

/-- The arrays that can occur while reducing to `total` dimensions: every step keeps at least that many. -/
inductive ReductionStage (eigh : Eigh 𝕜) (total : ℤ) (X : Arr 𝕜) : Arr 𝕜 → Prop
  | start : ReductionStage eigh total X X
  | step {Z : Arr 𝕜} (k : ℤ) : ReductionStage eigh total X Z → total ≤ sliceLen Z.rows k →
      ReductionStage eigh total X (oneStep eigh Z k)

theorem expLoop_stage (eigh : Eigh 𝕜) (total : ℤ) (h0 : 0 ≤ total) (X : Arr 𝕜) (fuel : ℕ) (k : ℤ) (Z Y : Arr 𝕜)
    (hZ : ReductionStage eigh total X Z) (hr : total ≤ Z.rows) (h : expLoop eigh total fuel k Z = some Y) :
    ReductionStage eigh total X Y ∧ total ≤ Y.rows := by
  induction fuel generalizing k Z with
  | zero =>
    unfold expLoop at h
    split at h
    · cases h
    · injection h with h; subst h; exact ⟨hZ, hr⟩
  | succ f ih =>
    unfold expLoop at h
    split at h
    · have hs : total ≤ sliceLen Z.rows (total + k) := by rw [sliceLen_nonneg _ (by omega)]; omega
      exact ih _ _ (.step _ hZ hs) hs h
    · injection h with h; subst h; exact ⟨hZ, hr⟩

theorem oboStage_stage (eigh : Eigh 𝕜) (total : ℤ) (X : Arr 𝕜) (i : ℕ) (h : total ≤ (X.rows : ℤ) - i) :
    ReductionStage eigh total X (oboStage eigh X i) := by
  induction i with
  | zero => exact .start
  | succ i ih =>
    refine .step (-1) (ih (by omega)) ?_
    unfold sliceLen
    rw [if_pos (by norm_num), (oboStage_rows eigh X i).1]
    omega

/-- The output of `ppca` is reached from the class map by reduction steps. -/
theorem ppca_stage (eigh : Eigh 𝕜) (fuel : ℕ) (A : Arr 𝕜) (projDim : ℕ) (hp : projDim < A.cols) (mode : RedMode)
    (R : PpcaResult 𝕜) (h : ppca eigh fuel A projDim mode = .ok R) :
    ∃ Y, R.X = Y.T ∧ ReductionStage eigh (projDim + 1) A.T Y := by
  by_cases hm : mode = .other
  · subst hm; unfold ppca at h; simp at h
  have h0 : A.cols ≠ 0 := by omega
  have hr : A.T.rows = A.cols := rfl
  cases mode with
  | direct =>
    rw [ppca_direct _ _ _ _ h0] at h
    injection h with h; subst h
    refine ⟨_, rfl, .step _ .start ?_⟩
    rw [sliceLen_nonneg _ (by omega)]; omega
  | exponential =>
    rw [ppca_exponential _ _ _ _ h0] at h
    rcases hY : exponentialMode eigh fuel A.T ((projDim : ℤ) + 1) with _ | Y
    · rw [hY] at h; cases h
    · rw [hY] at h
      injection h with h; subst h
      refine ⟨Y, rfl, ?_⟩
      unfold exponentialMode at hY
      obtain ⟨Z, hZ, hY⟩ := Option.map_eq_some_iff.1 hY
      obtain ⟨h1, h2⟩ := expLoop_stage eigh _ (by omega) A.T _ _ _ _ .start (by omega) hZ
      subst hY
      split
      · refine .step _ h1 ?_
        rw [sliceLen_nonneg _ (by omega)]; omega
      · exact h1
  | oneByOne =>
    rw [ppca_oneByOne _ _ _ _ h0, oboLoop_eq] at h
    simp only [hr] at h
    split at h
    · cases h
    · rename_i Y hY
      injection h with h; subst h
      split at hY
      · injection hY with hY; subst hY
        refine ⟨_, rfl, oboStage_stage _ _ _ _ ?_⟩
        omega
      · cases hY
  | other => exact absurd rfl hm

theorem stage_unitOrNan (eigh : Eigh 𝕜) (total : ℤ) (X Y : Arr 𝕜) (h : ReductionStage eigh total X Y) (n : ℕ)
    (hX : UnitOrNan X.rows fun i => X.at' i n) : UnitOrNan Y.rows fun i => Y.at' i n := by
  cases h with
  | start => exact hX
  | @step Z k hZ hk =>
    exact normalizeCols_unitOrNan (⟨sliceLen Z.rows k, Z.cols, (rotateArr (eigBasis eigh Z) Z).at'⟩ : Arr 𝕜) n

/-- **C56 (norm).** Every returned row is a vector of norm one, or consists entirely of NaN, for every eigenvector routine
and every mode, provided this holds for the input. -/
theorem C56_unit_or_nan (eigh : Eigh 𝕜) (fuel : ℕ) (A : Arr 𝕜) (projDim : ℕ) (hp : projDim < A.cols) (mode : RedMode)
    (R : PpcaResult 𝕜) (h : ppca eigh fuel A projDim mode = .ok R) (n : ℕ) (hA : UnitOrNan A.cols (A.at' n)) :
    UnitOrNan R.X.cols (R.X.at' n) := by
  obtain ⟨Y, hY, hs⟩ := ppca_stage eigh fuel A projDim hp mode R h
  have := stage_unitOrNan eigh _ A.T Y hs n hA
  rw [hY]
  exact this

/-- An eigenvector routine that returns finite numbers on finite matrices (or raises). -/
def FiniteEigh (eigh : Eigh 𝕜) : Prop :=
  ∀ n G U, (∀ i j, i < n → j < n → G i j ≠ none) → eigh n G = some U → ∀ i j, i < n → j < n → U i j ≠ none

/-- The projection of data point `n` to the first `total` eigenvectors does not vanish. -/
def ProjectionNonzero (eigh : Eigh 𝕜) (total : ℤ) (Z : Arr 𝕜) (n : ℕ) : Prop :=
  ∃ k : ℕ, (k : ℤ) < total ∧ ∃ y : 𝕜, y ≠ 0 ∧
    oSum ((List.range Z.rows).map fun i => oMul (oConj (eigBasis eigh Z i k)) (Z.at' i n)) = some y

/-- All data points of an array (columns) are finite of norm one. -/
def AllUnit (X : Arr 𝕜) : Prop := ∀ n < X.cols, ∃ v : ℕ → 𝕜, (∀ i < X.rows, X.at' i n = some (v i)) ∧
  ∑ i ∈ Finset.range X.rows, ‖v i‖ ^ 2 = 1

theorem eigBasis_finite {eigh : Eigh 𝕜} (he : FiniteEigh eigh) {Z : Arr 𝕜} (hZ : AllUnit Z) (i j : ℕ) (hi : i < Z.rows)
    (hj : j < Z.rows) : ∃ u, eigBasis eigh Z i j = some u := by
  unfold eigBasis
  have hG : ∀ i j, i < Z.rows → j < Z.rows → gramArr Z i j ≠ none := by
    intro i j hi hj hn
    have hall : ∀ n < Z.cols, ∃ x, oMul (Z.at' i n) (oConj (Z.at' j n)) = some x := by
      intro n hn
      obtain ⟨v, hv, -⟩ := hZ n hn
      exact ⟨v i * star (v j), by rw [hv i hi, hv j hj]; rfl⟩
    have := oSum_congr_some (n := Z.cols) (g := fun n => oMul (Z.at' i n) (oConj (Z.at' j n)))
      (fun n => (oMul (Z.at' i n) (oConj (Z.at' j n))).getD 0) (by
        intro n hn
        obtain ⟨x, hx⟩ := hall n hn
        simp [hx])
    unfold gramArr at hn
    rw [this] at hn; cases hn
  cases hU : eigh Z.rows (gramArr Z) with
  | some U =>
    have := he _ _ U hG hU i (Z.rows - 1 - j) hi (by omega)
    unfold fliplr
    exact Option.ne_none_iff_exists'.1 this
  | none => exact ⟨_, rfl⟩

theorem stage_allUnit (eigh : Eigh 𝕜) (he : FiniteEigh eigh) (total : ℤ) (X Y : Arr 𝕜) (hX : AllUnit X)
    (hnz : ∀ Z, ReductionStage eigh total X Z → ∀ n < Z.cols, ProjectionNonzero eigh total Z n)
    (h : ReductionStage eigh total X Y) : AllUnit Y := by
  induction h with
  | start => exact hX
  | @step Z k hZ hk ih =>
    intro n hn
    have hn' : n < Z.cols := hn
    obtain ⟨j, hj, y, hy, hyn⟩ := hnz Z hZ n hn'
    obtain ⟨v, hv, -⟩ := ih n hn'
    have hle : sliceLen Z.rows k ≤ Z.rows := by unfold sliceLen; split <;> omega
    choose! u hu using fun i j (h : i < Z.rows ∧ j < Z.rows) => eigBasis_finite he ih i j h.1 h.2
    have hrot : ∀ q < sliceLen Z.rows k, (rotateArr (eigBasis eigh Z) Z).at' q n =
        some (∑ i ∈ Finset.range Z.rows, star (u i q) * v i) := by
      intro q hq
      exact oSum_congr_some _ fun i hi => by rw [hu i q ⟨hi, by omega⟩, hv i hi]; rfl
    rcases normalizeCols_some (Y := ⟨sliceLen Z.rows k, Z.cols, (rotateArr (eigBasis eigh Z) Z).at'⟩) (n := n) _ hrot with
      ⟨-, w, h1, h2, -⟩ | ⟨h1, -⟩
    · exact ⟨w, h1, h2⟩
    · exfalso
      have hjs : j < sliceLen Z.rows k := by omega
      have := (hrot j hjs).symm.trans hyn
      injection this with this
      exact hy (by rw [← this]; exact h1 j hjs)

/-- **C56 (norm, finite case).** If the eigenvector routine returns finite numbers, all data vectors have norm one and no
projection ever vanishes, all returned vectors are finite of norm one. -/
theorem C56_unit_norm (eigh : Eigh 𝕜) (he : FiniteEigh eigh) (fuel : ℕ) (A : Arr 𝕜) (projDim : ℕ) (hp : projDim < A.cols)
    (mode : RedMode) (R : PpcaResult 𝕜) (h : ppca eigh fuel A projDim mode = .ok R)
    (hA : ∀ n < A.rows, ∃ v : ℕ → 𝕜, (∀ i < A.cols, A.at' n i = some (v i)) ∧ ∑ i ∈ Finset.range A.cols, ‖v i‖ ^ 2 = 1)
    (hnz : ∀ Z, ReductionStage eigh (projDim + 1) A.T Z → ∀ n < Z.cols, ProjectionNonzero eigh (projDim + 1) Z n)
    (n : ℕ) (hn : n < R.X.rows) :
    ∃ v : ℕ → 𝕜, (∀ i < R.X.cols, R.X.at' n i = some (v i)) ∧ ∑ i ∈ Finset.range R.X.cols, ‖v i‖ ^ 2 = 1 := by
  obtain ⟨Y, hY, hs⟩ := ppca_stage eigh fuel A projDim hp mode R h
  have := stage_allUnit eigh he _ A.T Y hA hnz hs
  rw [hY] at hn ⊢
  exact this n hn

/-! Non-vacuity of C55 and C56: three data points `e₀, e₀, e₁` in three dimensions; the Gram matrix is `diag(2, 1, 0)` and
the routine returns its eigenvectors in ascending order `e₂, e₁, e₀`. -/

/-- An eigenvector routine that is correct for diagonal matrices with decreasing entries. -/
def revEigh : Eigh ℝ := fun n _ => some fun i j => some (if i + j + 1 = n then 1 else 0)

/-- The class map `e₀, e₀, e₁`. -/
def basisData : Arr ℝ := ⟨3, 3, fun n i => some (if i = (if n = 2 then 1 else 0) then 1 else 0)⟩

theorem revEigh_basis (Z : Arr ℝ) (i j : ℕ) (hj : j < Z.rows) :
    eigBasis revEigh Z i j = some (if i = j then 1 else 0) := by
  simp only [eigBasis, revEigh, fliplr]
  congr 1
  have : i + (Z.rows - 1 - j) + 1 = Z.rows ↔ i = j := by omega
  simp only [this]

theorem revEigh_rotate (Z : Arr ℝ) (f : ℕ → ℝ) (n k : ℕ) (hk : k < Z.rows) (hf : ∀ i < Z.rows, Z.at' i n = some (f i)) :
    oSum ((List.range Z.rows).map fun i => oMul (oConj (eigBasis revEigh Z i k)) (Z.at' i n)) = some (f k) := by
  rw [oSum_congr_some (fun i => if i = k then f i else 0)]
  · simp [hk]
  · intro i hi
    rw [revEigh_basis _ _ _ hk, hf i hi]
    by_cases h : i = k <;> simp [h, oMul, oConj]

theorem basisData_stage (Z : Arr ℝ) (h : ReductionStage revEigh (((1 : ℕ) : ℤ) + 1) basisData.T Z) :
    2 ≤ Z.rows ∧ Z.cols = 3 ∧ ∀ n < 3, ∀ i < Z.rows, Z.at' i n = some (if i = (if n = 2 then 1 else 0) then 1 else 0) := by
  induction h with
  | start => exact ⟨by decide, rfl, fun n _ i _ => rfl⟩
  | @step Z k hZ hk ih =>
    obtain ⟨h1, h2, h3⟩ := ih
    have hk2 : 2 ≤ sliceLen Z.rows k := by omega
    have hle : sliceLen Z.rows k ≤ Z.rows := by unfold sliceLen; split <;> omega
    refine ⟨hk2, h2, fun n hn i hi => ?_⟩
    have hi' : i < sliceLen Z.rows k := hi
    have hrot : ∀ q < sliceLen Z.rows k, (rotateArr (eigBasis revEigh Z) Z).at' q n =
        some (if q = (if n = 2 then 1 else 0) then 1 else 0) := fun q hq =>
      revEigh_rotate Z (fun q => if q = (if n = 2 then 1 else 0) then 1 else 0) n q (by omega) fun i hi => h3 n hn i hi
    have hnorm : colNorm (⟨sliceLen Z.rows k, Z.cols, (rotateArr (eigBasis revEigh Z) Z).at'⟩ : Arr ℝ) n = some 1 := by
      unfold colNorm
      rw [oSum_congr_some (fun q => if q = (if n = 2 then 1 else 0) then (1 : ℝ) else 0)]
      · rw [Finset.sum_ite_eq']
        rw [if_pos (Finset.mem_range.2 (by show _ < sliceLen Z.rows k; split <;> omega))]
        simp
      · intro q hq
        rw [hrot q hq]
        generalize (if n = 2 then 1 else 0) = m
        by_cases h : q = m <;> simp [h]
    show oDivNorm ((rotateArr (eigBasis revEigh Z) Z).at' i n)
      (colNorm ⟨sliceLen Z.rows k, Z.cols, (rotateArr (eigBasis revEigh Z) Z).at'⟩ n) = _
    rw [hrot i hi', hnorm]
    simp [oDivNorm]

/-- All hypotheses of C56_unit_norm hold for this data, in all three modes. -/
example (mode : RedMode) (hm : mode ≠ .other) : ∃ R, ppca revEigh 3 basisData (1 : ℕ) mode = .ok R ∧ R.X.rows = 3 ∧
    R.X.cols = 2 ∧ ∀ n < 3, ∃ v : ℕ → ℝ, (∀ i < 2, R.X.at' n i = some (v i)) ∧ ∑ i ∈ Finset.range 2, ‖v i‖ ^ 2 = 1 := by
  obtain ⟨R, hR, h1, h2⟩ := C55_shape_partial revEigh basisData 1 (by decide) (by decide) mode hm 3 (by decide)
  refine ⟨R, hR, h1, h2, fun n hn => ?_⟩
  have := C56_unit_norm revEigh (fun n G U _ hU i j _ _ => by injection hU with hU; subst hU; simp) 3 basisData 1
    (by decide) mode R hR (fun n hn => ⟨fun i => if i = (if n = 2 then 1 else 0) then 1 else 0, fun i _ => rfl, by
      have hn : n < 3 := hn
      show ∑ i ∈ Finset.range 3, _ = _
      interval_cases n <;> simp [Finset.sum_range_succ]⟩) (fun Z hZ n hn => by
      obtain ⟨g1, g2, g3⟩ := basisData_stage Z hZ
      have hn : n < 3 := by omega
      refine ⟨if n = 2 then 1 else 0, by split <;> norm_num, 1, one_ne_zero, ?_⟩
      rw [revEigh_rotate Z _ n _ (by split <;> omega) (g3 n hn)]
      simp) n (by rw [h1]; exact hn)
  rw [h2] at this
  exact this

/-! ### C57 -/

/-- **C57 fails** in modes "direct" and "exponential": the returned variance is the zero vector for all data. -/
theorem C57_zero_variance (eigh : Eigh 𝕜) (fuel : ℕ) (A : Arr 𝕜) (projDim : ℤ) (mode : RedMode)
    (hm : mode = .direct ∨ mode = .exponential) (R : PpcaResult 𝕜) (h : ppca eigh fuel A projDim mode = .ok R) :
    R.variance = List.replicate (A.cols - 1) (some 0) := by
  have h0 : A.cols ≠ 0 := by
    intro h0
    rw [ppca_empty _ _ _ _ _ (by rcases hm with rfl | rfl <;> simp) h0] at h
    cases h
  rcases hm with rfl | rfl
  · rw [ppca_direct _ _ _ _ h0] at h
    injection h with h; subst h; rfl
  · rw [ppca_exponential _ _ _ _ h0] at h
    split at h
    · cases h
    · injection h with h; subst h; rfl

/-- The angle between the line of a unit vector `x` and the hyperplane orthogonal to a unit vector `u`. -/
noncomputable def hyperplaneAngle (m : ℕ) (u x : ℕ → 𝕜) : ℝ := arcsin ‖∑ i ∈ Finset.range m, star (u i) * x i‖

/-- The variance lost by dropping the direction `u`: the mean squared angle between the data points and the hyperplane
orthogonal to `u`. -/
noncomputable def lostVariance (m N : ℕ) (u : ℕ → 𝕜) (x : ℕ → ℕ → 𝕜) : ℝ :=
  (∑ n ∈ Finset.range N, hyperplaneAngle m u (fun i => x i n) ^ 2) / N

theorem varianceList_get (n : ℕ) (f : ℕ → Option ℝ) (i : ℕ) (hi : i < n) :
    ((List.range n).foldl (fun v i => v.set (n - (i + 1)) (f i)) (List.replicate n (some 0)))[n - (i + 1)]? =
      some (f i) := by
  have key : ∀ m ≤ n, ((List.range m).foldl (fun v i => v.set (n - (i + 1)) (f i)) (List.replicate n (some 0))).length = n ∧
      ∀ i < m, ((List.range m).foldl (fun v i => v.set (n - (i + 1)) (f i)) (List.replicate n (some 0)))[n - (i + 1)]? =
        some (f i) := by
    intro m
    induction m with
    | zero => intro _; simp
    | succ m ih =>
      intro hm
      obtain ⟨h1, h2⟩ := ih (by omega)
      rw [List.range_succ, List.foldl_append]
      simp only [List.foldl_cons, List.foldl_nil]
      refine ⟨by rw [List.length_set, h1], fun i hi => ?_⟩
      rw [List.getElem?_set]
      by_cases h : m = i
      · subst h; rw [if_pos rfl, if_pos (by omega)]
      · rw [if_neg (by omega)]
        exact h2 i (by omega)
  exact (key n (le_refl _)).2 i hi

theorem real_cs (m : ℕ) (u x : ℕ → ℝ) (hu : ∑ i ∈ Finset.range m, u i ^ 2 = 1) (hx : ∑ i ∈ Finset.range m, x i ^ 2 = 1) :
    |∑ i ∈ Finset.range m, u i * x i| ≤ 1 := by
  have := Finset.sum_mul_sq_le_sq_mul_sq (Finset.range m) u x
  rw [hu, hx, mul_one] at this
  exact (sq_le_one_iff_abs_le_one _).1 this

/-- **C57 (mode "one-by-one", real data).** Entry `n_dim - 2 - i` of the returned variance is the mean squared angle
between the data points and the hyperplane that they are projected to in iteration `i`, if the data points of that
iteration (`x`) and the direction that is dropped (`u`) are finite of norm one.  (Missing from the full property: complex
data and the other modes, where it is false, see `C57_zero_variance` and `C57_complex_wrong`.) -/
theorem C57_one_by_one_real_partial (eigh : Eigh ℝ) (fuel : ℕ) (A : Arr ℝ) (hA : A.rows ≠ 0) (projDim : ℤ)
    (R : PpcaResult ℝ) (h : ppca eigh fuel A projDim .oneByOne = .ok R) (i : ℕ) (hi : i < A.cols - 1) (u : ℕ → ℝ)
    (x : ℕ → ℕ → ℝ) (hu : ∀ j < A.cols - i, eigBasis eigh (oboStage eigh A.T i) j (A.cols - i - 1) = some (u j))
    (hx : ∀ j < A.cols - i, ∀ n < A.rows, (oboStage eigh A.T i).at' j n = some (x j n))
    (hu1 : ∑ j ∈ Finset.range (A.cols - i), u j ^ 2 = 1)
    (hx1 : ∀ n < A.rows, ∑ j ∈ Finset.range (A.cols - i), x j n ^ 2 = 1) :
    R.variance[A.cols - 2 - i]? = some (some (lostVariance (A.cols - i) A.rows u x)) := by
  have h0 : A.cols ≠ 0 := by omega
  rw [ppca_oneByOne _ _ _ _ h0] at h
  split at h
  · cases h
  · injection h with h; subst h
    rw [oboLoop_eq]
    have hr : A.T.rows = A.cols := rfl
    simp only [hr]
    rw [show A.cols - 2 - i = A.cols - 1 - (i + 1) by omega, varianceList_get (A.cols - 1) _ i hi]
    congr 1
    have hrows := (oboStage_rows eigh A.T i).1
    have hcols : (oboStage eigh A.T i).cols = A.rows := (oboStage_rows eigh A.T i).2
    rw [hr] at hrows
    unfold varianceEntry
    simp only [hrows, hcols]
    rw [oSum_congr_some (fun n => hyperplaneAngle (A.cols - i) u (fun j => x j n) ^ 2)]
    · simp only [Option.bind_some, if_neg hA]; rfl
    · intro n hn
      rw [oSum_congr_some (fun j => u j * x j n) (fun j hj => by rw [hu j hj, hx j hj n hn]; rfl)]
      have hcs := real_cs (A.cols - i) u (fun j => x j n) hu1 (hx1 n hn)
      have habs : ‖∑ j ∈ Finset.range (A.cols - i), u j * x j n‖ = |∑ j ∈ Finset.range (A.cols - i), u j * x j n| := rfl
      have hin : -1 ≤ |∑ j ∈ Finset.range (A.cols - i), u j * x j n| ∧ |∑ j ∈ Finset.range (A.cols - i), u j * x j n| ≤ 1 :=
        ⟨by have := abs_nonneg (∑ j ∈ Finset.range (A.cols - i), u j * x j n); linarith, hcs⟩
      simp only [Option.map_some, habs, oArccos, Option.bind_some, if_pos hin, Option.some.injEq]
      rw [← arcsin_eq_pi_div_two_sub_arccos]
      simp only [hyperplaneAngle, star_trivial, habs]

/-- Non-vacuity of C57_one_by_one_real_partial: the first iteration on `basisData` drops `e₂`, which loses nothing. -/
example : ∃ R, ppca revEigh 3 basisData (1 : ℕ) .oneByOne = .ok R ∧ R.variance[1]? = some (some 0) := by
  obtain ⟨R, hR, h1, h2⟩ := C55_shape_partial revEigh basisData 1 (by decide) (by decide) .oneByOne (by simp) 3 (by decide)
  refine ⟨R, hR, ?_⟩
  have := C57_one_by_one_real_partial revEigh 3 basisData (by decide) _ R hR 0 (by decide) (fun j => if j = 2 then 1 else 0)
    (fun j n => if j = (if n = 2 then 1 else 0) then 1 else 0)
    (fun j hj => revEigh_basis _ j 2 (by decide)) (fun j hj n hn => rfl) (by
      show ∑ j ∈ Finset.range 3, _ = _
      simp [Finset.sum_range_succ]) (fun n hn => by
      have hn : n < 3 := hn
      show ∑ j ∈ Finset.range 3, _ = _
      interval_cases n <;> simp [Finset.sum_range_succ])
  rw [show R.variance[1]? = R.variance[basisData.cols - 2 - 0]? from rfl, this]
  congr 2
  show (∑ n ∈ Finset.range 3, hyperplaneAngle 3 _ _ ^ 2) / _ = _
  simp [Finset.sum_range_succ, hyperplaneAngle]

/-- The vector `(1, -i)/√2`. -/
noncomputable def phaseVec (i : ℕ) : ℂ := if i = 0 then 1 / ((Real.sqrt 2 : ℝ) : ℂ) else -Complex.I / ((Real.sqrt 2 : ℝ) : ℂ)

/-- One complex data point, `(1, -i)/√2`. -/
noncomputable def phaseData : Arr ℂ := ⟨1, 2, fun _ i => some (phaseVec i)⟩

/-- The eigenvectors of its Gram matrix: `(1, i)/√2` (eigenvalue 0) and `(1, -i)/√2` (eigenvalue 1). -/
noncomputable def phaseVecs : ℕ → ℕ → ℂ := fun i j =>
  if i = 0 then 1 / ((Real.sqrt 2 : ℝ) : ℂ) else
    if j = 0 then Complex.I / ((Real.sqrt 2 : ℝ) : ℂ) else -Complex.I / ((Real.sqrt 2 : ℝ) : ℂ)

theorem sqrt_two_mul : ((Real.sqrt 2 : ℝ) : ℂ) * ((Real.sqrt 2 : ℝ) : ℂ) = 2 := by
  rw [← Complex.ofReal_mul, Real.mul_self_sqrt (by norm_num)]; norm_num

/-- The columns of `phaseVecs` are orthonormal eigenvectors of the Gram matrix, for the eigenvalues `0` and `1`. -/
theorem phaseVecs_correct :
    (∀ i < 2, ∀ j < 2, ∑ k ∈ Finset.range 2, star (phaseVecs k i) * phaseVecs k j = if i = j then 1 else 0) ∧
    ∃ G : ℕ → ℕ → ℂ, (∀ i < 2, ∀ j < 2, gramArr phaseData.T i j = some (G i j)) ∧
      ∀ i < 2, ∀ j < 2, ∑ k ∈ Finset.range 2, G i k * phaseVecs k j = (if j = 0 then 0 else 1) * phaseVecs i j := by
  have hs := sqrt_two_mul
  have h0 : ((Real.sqrt 2 : ℝ) : ℂ) ≠ 0 := by
    intro h; rw [h] at hs; norm_num at hs
  have hI : Complex.I * Complex.I = -1 := Complex.I_mul_I
  refine ⟨?_, fun i j => phaseVec i * star (phaseVec j), ?_, ?_⟩
  · intro i hi j hj
    interval_cases i <;> interval_cases j <;> simp [Finset.sum_range_succ, phaseVecs, phaseVec] <;> field_simp <;>
      simp only [pow_two, hs, hI] <;> norm_num
  · intro i hi j hj
    show oSum ((List.range 1).map _) = _
    rw [oSum_congr_some (fun _ => phaseVec i * star (phaseVec j))]
    · simp
    · intro n _; rfl
  · intro i hi j hj
    interval_cases i <;> interval_cases j <;> simp [Finset.sum_range_succ, phaseVecs, phaseVec] <;> field_simp <;>
      simp only [pow_two, hs, hI] <;> norm_num

/-- **C57 fails** for complex data even in mode "one-by-one": with the correct eigenvectors, dropping the direction
`(1, i)/√2` loses nothing (the data point is orthogonal to it), but the reported variance is maximal, `(π/2)²`: the code
does not conjugate the eigenvector. -/
theorem C57_complex_wrong (eigh : Eigh ℂ) (heigh : eigh 2 (gramArr phaseData.T) = some fun i j => some (phaseVecs i j))
    (fuel : ℕ) : ∃ R, ppca eigh fuel phaseData 1 .oneByOne = .ok R ∧ R.variance = [some ((π / 2) ^ 2)] ∧
      lostVariance 2 1 (fun i => phaseVecs i 0)
        (fun i _ => phaseVec i) = 0 := by
  have hs := sqrt_two_mul
  have h0 : ((Real.sqrt 2 : ℝ) : ℂ) ≠ 0 := by
    intro h; rw [h] at hs; norm_num at hs
  have hI : Complex.I * Complex.I = -1 := Complex.I_mul_I
  rw [ppca_oneByOne _ _ _ _ (by decide), oboLoop_eq]
  have hr : phaseData.T.rows = 2 := rfl
  simp only [hr]
  rw [if_pos (by norm_num)]
  refine ⟨_, rfl, ?_, ?_⟩
  · have hb : eigBasis eigh phaseData.T = fliplr 2 fun i j => some (phaseVecs i j) := by
      unfold eigBasis
      rw [hr, heigh]
    have hv : varianceEntry (eigBasis eigh phaseData.T) phaseData.T = some ((π / 2) ^ 2) := by
      rw [hb]
      unfold varianceEntry
      rw [oSum_congr_some (fun _ => (π / 2) ^ 2)]
      · show (some (∑ i ∈ Finset.range 1, (π / 2) ^ 2)).bind _ = _
        simp [phaseData, Arr.T]
      · intro n hn
        have he := oSum_congr_some (n := 2)
          (g := fun i => oMul (fliplr 2 (fun i j => some (phaseVecs i j)) i (2 - 1)) (phaseData.T.at' i n))
          (fun i => phaseVecs i 0 * phaseVec i) (fun i hi => rfl)
        rw [hr, he]
        have : ∑ i ∈ Finset.range 2, phaseVecs i 0 * phaseVec i = 1 := by
          simp [Finset.sum_range_succ, phaseVecs, phaseVec]
          field_simp
          simp only [pow_two, hs, hI]; norm_num
        rw [this]
        simp [oArccos]
    have e1 : List.range (2 - 1) = [0] := rfl
    have e2 : List.replicate (phaseData.cols - 1) (some (0 : ℝ)) = [some 0] := rfl
    simp only [e1, e2, List.foldl_cons, List.foldl_nil, oboStage, hv]
    rfl
  · unfold lostVariance hyperplaneAngle
    have : ∑ i ∈ Finset.range 2, star (phaseVecs i 0) * phaseVec i = 0 := by
      simp [Finset.sum_range_succ, phaseVecs, phaseVec]
      field_simp
      simp only [pow_two, hs, hI]; norm_num
    simp only [this]
    simp

/-! ### C58 -/

/-- An uncovered data point makes every entry of the Gram matrix NaN. -/
theorem gram_nan (A : Arr 𝕜) (n₀ : ℕ) (hn : n₀ < A.rows) (h : ∀ i, A.at' n₀ i = none) (i j : ℕ) :
    gramArr A.T i j = none :=
  oSum_none (i := n₀) hn (by show oMul (A.at' n₀ i) _ = none; rw [h i]; rfl)

/-- **C58 fails.** One uncovered data point (NaN row `n₀`): if the eigenvector routine answers a NaN matrix with NaN
vectors, the coordinates of *all* data points are NaN in mode "direct"; if it raises, the coordinates of every data point
are its first `projDim + 1` weights, normalised: no principal components at all. -/
theorem C58_uncovered_point_spoils_all (eigh : Eigh 𝕜) (fuel : ℕ) (A : Arr 𝕜) (projDim : ℕ) (n₀ : ℕ) (hn : n₀ < A.rows)
    (h : ∀ i, A.at' n₀ i = none) (hc : 0 < A.cols) :
    ∃ R, ppca eigh fuel A projDim .direct = .ok R ∧
      ((∃ U, eigh A.cols (fun _ _ => none) = some U ∧ ∀ i j, U i j = none) → ∀ n i, R.X.at' n i = none) ∧
      (eigh A.cols (fun _ _ => none) = none → ∀ n i, (∀ j < A.cols, A.at' n j ≠ none) → i < min A.cols (projDim + 1) →
        R.X.at' n i = oDivNorm (A.at' n i) (colNorm ⟨min A.cols (projDim + 1), A.rows, A.T.at'⟩ n)) := by
  rw [ppca_direct _ _ _ _ (by omega)]
  have hr : A.T.rows = A.cols := rfl
  have hG : gramArr A.T = fun _ _ => none := by funext i j; exact gram_nan A n₀ hn h i j
  have hsl : sliceLen A.cols ((projDim : ℤ) + 1) = min A.cols (projDim + 1) := by
    rw [sliceLen_nonneg _ (by omega)]; omega
  refine ⟨_, rfl, ?_, ?_⟩
  · rintro ⟨U, hU, hnan⟩ n i
    have hb : eigBasis eigh A.T = fun _ _ => none := by
      unfold eigBasis
      rw [hr, hG, hU]
      funext i j; exact hnan _ _
    show (normalizeCols ⟨sliceLen A.cols ((projDim : ℤ) + 1), A.rows, (rotateArr (eigBasis eigh A.T) A.T).at'⟩).at' i n = none
    apply normalizeCols_none
    refine ⟨0, by show 0 < sliceLen A.cols ((projDim : ℤ) + 1); rw [hsl]; omega, ?_⟩
    rw [hb]
    exact oSum_none (i := 0) (by rw [hr]; exact hc) rfl
  · intro hU n i hfin hi
    have hb : eigBasis eigh A.T = eyeArr := by
      unfold eigBasis
      rw [hr, hG, hU]
    have hrot : ∀ k < A.cols, (rotateArr (eigBasis eigh A.T) A.T).at' k n = A.at' n k := by
      intro k hk
      rw [hb]
      show oSum ((List.range A.cols).map _) = _
      have hsome : ∀ j < A.cols, A.at' n j = some ((A.at' n j).getD 0) := by
        intro j hj
        cases hx : A.at' n j with
        | none => exact absurd hx (hfin j hj)
        | some x => rfl
      rw [oSum_congr_some (fun j => if j = k then (A.at' n j).getD 0 else 0)]
      · rw [Finset.sum_ite_eq', if_pos (Finset.mem_range.2 hk)]; exact (hsome k hk).symm
      · intro j hj
        show oMul (oConj (eyeArr j k)) (A.at' n j) = _
        rw [hsome j hj]
        by_cases hjk : j = k <;> simp [eyeArr, oMul, oConj, hjk]
    show oDivNorm ((rotateArr (eigBasis eigh A.T) A.T).at' i n)
      (colNorm ⟨sliceLen A.cols ((projDim : ℤ) + 1), A.rows, (rotateArr (eigBasis eigh A.T) A.T).at'⟩ n) = _
    rw [hrot i (by omega), hsl]
    congr 1
    unfold colNorm
    congr 2
    apply List.map_congr_left
    intro k hk
    rw [hrot k (by have := List.mem_range.1 hk; simp only at this; omega)]
    rfl

/-- A data set of one covered point `e₂` in three dimensions, with or without an uncovered point. -/
def spoilData (uncovered : Bool) : Arr ℝ :=
  ⟨if uncovered then 2 else 1, 3, fun n i => if n = 1 then none else some (if i = 2 then 1 else 0)⟩

/-- An eigenvector routine that is correct for the Gram matrix `diag(0, 0, 1)` of the covered point. -/
def spoilEigh (nanAnswer : Option (ℕ → ℕ → Option ℝ)) : Eigh ℝ := fun _ G =>
  if G 0 0 = none then nanAnswer else some fun i j => some (if i = j then 1 else 0)

/-- **C58 fails**, concretely: without the uncovered point the covered one has the coordinates `(1, 0)`; with it, the
covered point becomes NaN, whether the eigenvector routine answers a NaN matrix with NaN or with an exception. -/
theorem C58_counterexample (nanAnswer : Option (ℕ → ℕ → Option ℝ))
    (hnan : nanAnswer = none ∨ nanAnswer = some fun _ _ => none) (fuel : ℕ) :
    (∃ R, ppca (spoilEigh nanAnswer) fuel (spoilData false) (1 : ℕ) .direct = .ok R ∧ R.X.cols = 2 ∧
      R.X.at' 0 0 = some 1 ∧ R.X.at' 0 1 = some 0) ∧
    (∃ R, ppca (spoilEigh nanAnswer) fuel (spoilData true) (1 : ℕ) .direct = .ok R ∧ R.X.cols = 2 ∧
      R.X.at' 0 0 = none ∧ R.X.at' 0 1 = none) := by
  constructor
  · rw [ppca_direct _ _ _ _ (by decide)]
    have hG : gramArr (spoilData false).T 0 0 ≠ none := by
      unfold gramArr
      rw [oSum_congr_some (fun _ => (0 : ℝ))]
      · simp
      · intro n hn
        have : n = 0 := by have : n < 1 := hn; omega
        subst this
        simp [Arr.T, spoilData, oMul, oConj]
    have hrot : ∀ k < 3, (rotateArr (eigBasis (spoilEigh nanAnswer) (spoilData false).T) (spoilData false).T).at' k 0 =
        some (if k = 0 then 1 else 0) := by
      intro k hk
      have hb : eigBasis (spoilEigh nanAnswer) (spoilData false).T = fliplr 3 fun i j => some (if i = j then 1 else 0) := by
        unfold eigBasis spoilEigh
        rw [if_neg hG]; rfl
      rw [hb]
      simp only [rotateArr, show (spoilData false).T.rows = 3 from rfl]
      rw [oSum_congr_some (fun i => (if i = 3 - 1 - k then (1 : ℝ) else 0) * (if i = 2 then 1 else 0))]
      · congr 1
        interval_cases k <;> simp [Finset.sum_range_succ]
      · intro i hi
        simp [oMul, oConj, fliplr, Arr.T, spoilData]
    have hnorm : colNorm (⟨2, 1, (rotateArr (eigBasis (spoilEigh nanAnswer) (spoilData false).T) (spoilData false).T).at'⟩ :
        Arr ℝ) 0 = some 1 := by
      unfold colNorm
      rw [oSum_congr_some (fun k => if k = 0 then 1 else 0)]
      · simp [Finset.sum_range_succ]
      · intro k hk
        have hk : k < 2 := hk
        rw [hrot k (by omega)]
        interval_cases k <;> simp
    refine ⟨_, rfl, rfl, ?_, ?_⟩
    · change oDivNorm ((rotateArr (eigBasis (spoilEigh nanAnswer) (spoilData false).T) (spoilData false).T).at' 0 0)
        (colNorm (⟨2, 1, (rotateArr (eigBasis (spoilEigh nanAnswer) (spoilData false).T) (spoilData false).T).at'⟩ :
        Arr ℝ) 0) = _
      rw [hnorm, hrot 0 (by norm_num)]
      simp [oDivNorm]
    · change oDivNorm ((rotateArr (eigBasis (spoilEigh nanAnswer) (spoilData false).T) (spoilData false).T).at' 1 0)
        (colNorm (⟨2, 1, (rotateArr (eigBasis (spoilEigh nanAnswer) (spoilData false).T) (spoilData false).T).at'⟩ :
        Arr ℝ) 0) = _
      rw [hnorm, hrot 1 (by norm_num)]
      simp [oDivNorm]
  · obtain ⟨R, hR, h1, h2⟩ := C58_uncovered_point_spoils_all (spoilEigh nanAnswer) fuel (spoilData true) 1 1
      (by decide) (fun i => rfl) (by decide)
    have hcols : R.X.cols = 2 := by
      rw [ppca_direct _ _ _ _ (by decide)] at hR
      injection hR with hR; subst hR; rfl
    refine ⟨R, hR, hcols, ?_⟩
    have ha : spoilEigh nanAnswer (spoilData true).cols (fun _ _ => none) = nanAnswer := by simp [spoilEigh]
    rw [ha] at h1 h2
    rcases hnan with rfl | rfl
    · have hfin : ∀ j < (spoilData true).cols, (spoilData true).at' 0 j ≠ none := by
        intro j _; simp [spoilData]
      have hz : colNorm (⟨min (spoilData true).cols (1 + 1), (spoilData true).rows, (spoilData true).T.at'⟩ : Arr ℝ) 0 =
          some 0 := by
        unfold colNorm
        rw [oSum_congr_some (fun _ => (0 : ℝ))]
        · simp
        · intro i hi
          have hi : i < 2 := hi
          interval_cases i <;> simp [spoilData, Arr.T]
      rw [h2 rfl 0 0 hfin (by decide), h2 rfl 0 1 hfin (by decide), hz]
      simp [spoilData, oDivNorm]
    · exact ⟨h1 ⟨_, rfl, fun _ _ => rfl⟩ 0 0, h1 ⟨_, rfl, fun _ _ => rfl⟩ 0 1⟩

/-- **C58 (partial).** In mode "exponential" with a target dimension of at least `n_dim - 1` the rows are returned as they
are, so that an uncovered point does not affect the others.  (For smaller target dimensions the property is false.) -/
theorem C58_no_reduction_partial (eigh : Eigh 𝕜) (fuel : ℕ) (A : Arr 𝕜) (hc : 0 < A.cols) (projDim : ℤ)
    (h : (A.cols : ℤ) ≤ projDim + 1) : ∃ R, ppca eigh fuel A projDim .exponential = .ok R ∧ R.X = A := by
  have hr : A.T.rows = A.cols := rfl
  rw [ppca_exponential _ _ _ _ (by omega)]
  have : exponentialMode eigh fuel A.T (projDim + 1) = some A.T := by
    unfold exponentialMode
    have hk : ¬ 0 < ((A.T.rows : ℤ) - (projDim + 1)) / 2 := by omega
    have : expLoop eigh (projDim + 1) fuel (((A.T.rows : ℤ) - (projDim + 1)) / 2) A.T = some A.T := by
      cases fuel <;> simp [expLoop, hk]
    rw [this, Option.map_some, if_neg (by omega)]
  rw [this]
  exact ⟨_, rfl, rfl⟩

end Dreimac
