import Verif.Props.EndToEndHolonomy
import Verif.Props.ProjOutcomes

/-!
# C123: lens coordinates with the prime 2 are real projective coordinates
-/

namespace Dreimac

open Real

noncomputable section

/-- A real array as a complex one. -/
def Arr.toComplex (A : Arr ℝ) : Arr ℂ := ⟨A.rows, A.cols, fun i j => (A.at' i j).map Complex.ofReal⟩

/-- The complex eigensolver returns for a real matrix the eigenvectors that the real one returns (or fails if it fails). -/
def SameEigenvectors (eighC : Eigh ℂ) (eighR : Eigh ℝ) : Prop :=
  ∀ n M, eighC n (fun i j => (M i j).map Complex.ofReal) = (eighR n M).map fun U i j => (U i j).map Complex.ofReal

theorem oMul_toComplex (a b : Option ℝ) :
    oMul (a.map Complex.ofReal) (b.map Complex.ofReal) = (oMul a b).map Complex.ofReal := by
  cases a <;> cases b <;> simp [oMul]

theorem oSum_toComplex (l : List (Option ℝ)) :
    oSum (l.map fun x => x.map Complex.ofReal) = (oSum l).map Complex.ofReal := by
  have : ∀ (l : List (Option ℝ)) (s : Option ℝ), (l.map fun x => x.map Complex.ofReal).foldl oAdd (s.map Complex.ofReal) =
      (l.foldl oAdd s).map Complex.ofReal := by
    intro l
    induction l with
    | nil => intro s; rfl
    | cons a l ih =>
      intro s
      simp only [List.map_cons, List.foldl_cons]
      rw [← ih]
      congr 1
      cases a <;> cases s <;> simp [oAdd]
  have h := this l (some 0)
  simp only [Option.map_some, Complex.ofReal_zero] at h
  exact h

theorem oConj_toComplex (a : Option ℝ) : oConj (a.map Complex.ofReal) = (oConj a).map Complex.ofReal := by
  cases a <;> simp [oConj]

theorem gramArr_toComplex (X : Arr ℝ) : gramArr X.toComplex = fun i j => (gramArr X i j).map Complex.ofReal := by
  funext i j
  unfold gramArr
  rw [← oSum_toComplex, List.map_map]
  congr 1
  apply List.map_congr_left
  intro n _
  simp only [Arr.toComplex, Function.comp, oConj_toComplex, oMul_toComplex]

variable {eighC : Eigh ℂ} {eighR : Eigh ℝ} (he : SameEigenvectors eighC eighR)
include he

theorem eigBasis_toComplex (X : Arr ℝ) :
    eigBasis eighC X.toComplex = fun i j => (eigBasis eighR X i j).map Complex.ofReal := by
  unfold eigBasis
  rw [gramArr_toComplex, show X.toComplex.rows = X.rows from rfl, he]
  rcases eighR X.rows (gramArr X) with _ | U
  · funext i j
    simp only [Option.map_none, eyeArr, Option.map_some]
    split <;> simp
  · rfl

omit he in
theorem rotateArr_toComplex (U : ℕ → ℕ → Option ℝ) (X : Arr ℝ) :
    rotateArr (fun i j => (U i j).map Complex.ofReal) X.toComplex = (rotateArr U X).toComplex := by
  unfold rotateArr Arr.toComplex
  simp only [Arr.mk.injEq, true_and]
  funext k n
  rw [← oSum_toComplex, List.map_map]
  congr 1
  apply List.map_congr_left
  intro i _
  simp only [Function.comp, oConj_toComplex, oMul_toComplex]

omit he in
theorem normalizeCols_toComplex (Y : Arr ℝ) : normalizeCols Y.toComplex = (normalizeCols Y).toComplex := by
  have hn : ∀ n, colNorm Y.toComplex n = colNorm Y n := by
    intro n
    unfold colNorm
    congr 2
    apply List.map_congr_left
    intro i _
    simp only [Arr.toComplex, Option.map_map]
    congr 1
    funext x
    simp
  unfold normalizeCols
  simp only [hn]
  unfold Arr.toComplex
  simp only [Arr.mk.injEq, true_and]
  funext i n
  cases Y.at' i n <;> cases colNorm Y n <;> simp [oDivNorm]
  split <;> simp

theorem oneStep_toComplex (X : Arr ℝ) (k : ℤ) : oneStep eighC X.toComplex k = (oneStep eighR X k).toComplex := by
  unfold oneStep
  rw [eigBasis_toComplex he, rotateArr_toComplex]
  exact normalizeCols_toComplex ⟨sliceLen (rotateArr (eigBasis eighR X) X).rows k,
    (rotateArr (eigBasis eighR X) X).cols, (rotateArr (eigBasis eighR X) X).at'⟩

theorem expLoop_toComplex (total : ℤ) (fuel : ℕ) (k : ℤ) (X : Arr ℝ) :
    expLoop eighC total fuel k X.toComplex = (expLoop eighR total fuel k X).map Arr.toComplex := by
  induction fuel generalizing k X with
  | zero => unfold expLoop; split <;> rfl
  | succ f ih =>
    unfold expLoop
    split
    · rw [oneStep_toComplex he, ih]
    · rfl

theorem oneByOne_toComplex (X : Arr ℝ) (projDim : ℤ) (v : List (Option ℝ)) :
    (oneByOneLoop eighC X.toComplex projDim v).ret = (oneByOneLoop eighR X projDim v).ret.map Arr.toComplex ∧
    (oneByOneLoop eighC X.toComplex projDim v).variance = (oneByOneLoop eighR X projDim v).variance := by
  unfold oneByOneLoop
  rw [show X.toComplex.rows = X.rows from rfl]
  have : ∀ (l : List ℕ) (st : LoopState ℝ),
      l.foldl (oneByOneStep eighC X.rows projDim) ⟨st.X.toComplex, st.ret.map Arr.toComplex, st.variance⟩ =
      ⟨(l.foldl (oneByOneStep eighR X.rows projDim) st).X.toComplex,
        (l.foldl (oneByOneStep eighR X.rows projDim) st).ret.map Arr.toComplex,
        (l.foldl (oneByOneStep eighR X.rows projDim) st).variance⟩ := by
    intro l
    induction l with
    | nil => intro st; rfl
    | cons i l ih =>
      intro st
      simp only [List.foldl_cons]
      rw [← ih]
      congr 1
      unfold oneByOneStep
      simp only [eigBasis_toComplex he, rotateArr_toComplex]
      have hv : varianceEntry (fun i j => (eigBasis eighR st.X i j).map Complex.ofReal) st.X.toComplex =
          varianceEntry (eigBasis eighR st.X) st.X := by
        unfold varianceEntry
        rw [show st.X.toComplex.cols = st.X.cols from rfl, show st.X.toComplex.rows = st.X.rows from rfl]
        congr 2
        apply List.map_congr_left
        intro n _
        congr 2
        rw [show (List.range st.X.rows).map (fun i => oMul ((eigBasis eighR st.X i (st.X.rows - 1)).map Complex.ofReal)
            (st.X.toComplex.at' i n)) = ((List.range st.X.rows).map fun i => oMul (eigBasis eighR st.X i (st.X.rows - 1))
            (st.X.at' i n)).map fun x => x.map Complex.ofReal by
          rw [List.map_map]
          apply List.map_congr_left
          intro i _
          simp only [Arr.toComplex, Function.comp, oMul_toComplex]]
        rw [oSum_toComplex, Option.map_map]
        congr 1
        funext x
        simp
      rw [hv]
      refine congr (congr (congrArg _ ?_) ?_) rfl
      · exact normalizeCols_toComplex ⟨sliceLen (rotateArr (eigBasis eighR st.X) st.X).rows (-1),
          (rotateArr (eigBasis eighR st.X) st.X).cols, (rotateArr (eigBasis eighR st.X) st.X).at'⟩
      · split <;> rfl
  have h := this (pyRange 0 (X.rows - 1)) ⟨X, none, v⟩
  simp only [Option.map_none] at h
  rw [h]
  exact ⟨rfl, rfl⟩

/-- The reduction commutes with the inclusion of the real numbers. -/
theorem ppca_toComplex (fuel : ℕ) (A : Arr ℝ) (q : ℤ) (mode : RedMode) :
    ppca eighC fuel A.toComplex q mode = (ppca eighR fuel A q mode).map fun R => ⟨R.variance, R.X.toComplex⟩ := by
  have hT : A.toComplex.T = A.T.toComplex := rfl
  unfold ppca
  simp only [hT, show A.T.toComplex.rows = A.T.rows from rfl]
  split
  · rfl
  split
  · rfl
  cases mode with
  | direct => simp only [oneStep_toComplex he]; rfl
  | exponential =>
    unfold exponentialMode
    simp only [expLoop_toComplex he, show A.T.toComplex.rows = A.T.rows from rfl]
    rcases expLoop eighR (q + 1) fuel (((A.T.rows : ℤ) - (q + 1)) / 2) A.T with _ | Y
    · rfl
    · simp only [Option.map_some, show Y.toComplex.rows = Y.rows from rfl]
      split
      · rw [oneStep_toComplex he]; rfl
      · rfl
  | oneByOne =>
    simp only [(oneByOne_toComplex he _ _ _).1, (oneByOne_toComplex he _ _ _).2]
    rcases (oneByOneLoop eighR A.T q (List.replicate (A.T.rows - 1) (some 0))).ret with _ | Y
    · rfl
    · rfl
  | other => rfl

omit he in
/-- The class map commutes with the inclusion of the real numbers. -/
theorem flatClassMap_toComplex (L N : ℕ) (cov : Covering ℝ) (M : ℕ → ℕ → ℝ) :
    flatClassMap L N cov (fun l m => (M l m : ℂ)) = (flatClassMap L N cov M).toComplex := by
  unfold flatClassMap Arr.toComplex
  simp only [Arr.mk.injEq, true_and]
  funext i l
  split
  · cases oSqrt (cov.varphi l i) <;> simp
  · rfl

omit he in
theorem foldl_set2_toComplex (f g : Row → ℕ) (vR : ℤ → ℝ) (vC : ℤ → ℂ) (s : SparseCochain)
    (h : ∀ r ∈ s, vC r.val = (vR r.val : ℂ)) (M : ℕ → ℕ → ℝ) :
    s.foldl (fun M r => set2 M (f r) (g r) (vC r.val)) (fun l m => (M l m : ℂ)) =
      fun l m => ((s.foldl (fun M r => set2 M (f r) (g r) (vR r.val)) M l m : ℝ) : ℂ) := by
  induction s generalizing M with
  | nil => rfl
  | cons r s ih =>
    simp only [List.foldl_cons]
    rw [← ih (fun r' hr' => h r' (by simp [hr']))]
    congr 1
    funext l m
    rw [h r (by simp)]
    unfold set2
    by_cases h1 : l = f r
    · subst h1
      simp only [Function.update_self]
      by_cases h2 : m = g r
      · subst h2; simp
      · simp [Function.update_of_ne h2]
    · simp [Function.update_of_ne h1]

omit he in
theorem rootOfUnity_two : rootOfUnity 2 = -1 := by
  unfold rootOfUnity
  rw [← Complex.exp_pi_mul_I]
  congr 1
  push_cast
  ring

omit he in
/-- With the prime 2 the matrix of the lens coordinates is the matrix of the projective coordinates. -/
theorem lensMatrix_two (n : ℕ) (s : SparseCochain) (h : ∀ r ∈ s, 0 ≤ r.val) :
    lensMatrix 2 n s = (projMatrix n s).map fun M l m => (M l m : ℂ) := by
  unfold lensMatrix projMatrix
  rw [if_neg (by simpa using h)]
  unfold cocycleMatrix
  split
  · simp only [Except.map, rootOfUnity_two]
    have h1 := foldl_set2_toComplex (fun r => r.verts.getD 0 0) (fun r => r.verts.getD 1 0) (fun v => (-1 : ℝ) ^ v)
      (fun v => (-1 : ℂ) ^ v) s (fun r _ => by push_cast; rfl) (fun _ _ => 1)
    have h2 := foldl_set2_toComplex (fun r => r.verts.getD 1 0) (fun r => r.verts.getD 0 0) (fun v => (1 / (-1 : ℝ)) ^ v)
      (fun v => (1 / (-1 : ℂ)) ^ v) s (fun r _ => by push_cast; rfl)
      (s.foldl (fun M r => set2 M (r.verts.getD 0 0) (r.verts.getD 1 0) ((-1 : ℝ) ^ r.val)) fun _ _ => 1)
    rw [← h2, ← h1]
    simp
  · rfl

/-- The arguments of the call of `LensCoords` that corresponds to a call of `ProjectiveCoords`: `complex_dim = proj_dim + 1`. -/
def ProjArgs.asLens (a : ProjArgs) : ProjArgs := { a with dim := a.dim + 1 }

/-- One call: same array, same exception, same attributes. -/
theorem same_call (fuel : ℕ) (o : ProjObj) (h2 : o.prime = 2)
    (hv : ∀ idx b d s, getRepresentativeCocycle o.dgms o.cocycles idx 1 = .ok (b, d, s) → ∀ r ∈ s, 0 ≤ r.val) (a : ProjArgs) :
    lensGetCoordinates eighC fuel o a.asLens =
      ((projGetCoordinates eighR fuel o a).1, (projGetCoordinates eighR fuel o a).2.map Arr.toComplex) := by
  unfold lensGetCoordinates projGetCoordinates flatGetCoordinates
  rw [h2]
  simp only [ProjArgs.asLens, add_sub_cancel_right]
  rcases e1 : getRepresentativeCocycle o.dgms o.cocycles a.cocycleIdx 1 with e | ⟨b, d, s⟩
  · rfl
  simp only
  rw [lensMatrix_two _ _ (hv _ _ _ _ e1)]
  rcases getCoverRadius a.perc b d a.standardRange with e | radius
  · rfl
  simp only
  rcases getCoveringPartition o.dtype o.nLand o.nData (fun l i => Fl.fin (o.dist l i)) radius.1 a.bump with e | cov
  · rfl
  simp only
  rcases projMatrix o.nLand s with e | M
  · rfl
  simp only [Except.map]
  rw [flatClassMap_toComplex, ppca_toComplex he]
  rcases ppca eighR fuel (flatClassMap o.nLand o.nData cov M) a.dim a.mode with e | R
  · rfl
  · rfl

/-- The object is the same after any history. -/
theorem same_history (fuel : ℕ) (o : ProjObj) (h2 : o.prime = 2)
    (hv : ∀ idx b d s, getRepresentativeCocycle o.dgms o.cocycles idx 1 = .ok (b, d, s) → ∀ r ∈ s, 0 ≤ r.val)
    (calls : List ProjArgs) :
    lensHistory eighC fuel o (calls.map ProjArgs.asLens) = projHistory eighR fuel o calls ∧
      SameData o (projHistory eighR fuel o calls) := by
  induction calls using List.reverseRecOn with
  | nil => exact ⟨rfl, rfl⟩
  | append_singleton l c ih =>
    obtain ⟨i1, i2⟩ := ih
    unfold lensHistory projHistory at *
    rw [List.map_append, List.foldl_append, List.foldl_append, i1]
    refine ⟨?_, i2.trans (sameData_call _ _ _ _ _ _)⟩
    simp only [List.map_cons, List.map_nil, List.foldl_cons, List.foldl_nil]
    rw [same_call he fuel _ (by rw [i2.fields.1, h2]) (by rw [i2]; exact hv)]

omit he in
/-- If the reduction is to the full dimension, the inner products of the rows are those of the class map. -/
theorem full_gram {𝕜 : Type} [RCLike 𝕜] {χ : ℤ → 𝕜} {p : ℤ} {x : ℕ → ℕ → ℤ} {eigh : Eigh 𝕜} (he : EighSpec eigh)
    (hχ : IsCharacter p χ) {fuel : ℕ} {o : ProjObj} {a : ProjArgs} {r : ℝ} {w : ℕ → ℕ → ℝ} {β : ℕ → ℕ}
    (hcov : CoverData o a r w β) (hall : ∀ i < o.nData, ∃ l < o.nLand, o.dist l i < r) {E : ℕ} (hE : E + 1 = o.nLand)
    {mode : RedMode} {V : List (Option ℝ)} {X : Arr 𝕜}
    (h : ppca eigh fuel (classMapVia o.nLand o.nData o.dist r (fun l i m => ((√(w m i) : ℝ) : 𝕜) * χ (x l m)) β) E mode =
      .ok ⟨V, X⟩) :
    ∃ y : ℕ → ℕ → 𝕜, (∀ n < o.nData, ∀ m < X.cols, X.at' n m = some (y n m)) ∧
      ∀ n < o.nData, ∀ n' < o.nData, ∑ m ∈ Finset.range X.cols, star (y n m) * y n' m =
        ∑ m ∈ Finset.range o.nLand, star (((√(w m n) : ℝ) : 𝕜) * χ (x (β n) m)) * (((√(w m n') : ℝ) : 𝕜) * χ (x (β n') m)) := by
  have hD : InSpanOf (E + 1) o.nLand o.nData (fun l i m => ((√(w m i) : ℝ) : 𝕜) * χ (x l m)) β := by
    rw [hE]; exact inSpanOf_all _ _ _ _
  obtain ⟨u, c, huc⟩ := hD
  obtain ⟨-, y, hy, hin⟩ := C103_lossless eigh he fuel _ (fun i m => ((√(w m i) : ℝ) : 𝕜) * χ (x (β i) m))
    (fun i hi m hm => if_pos ⟨hi, hm, hall i hi⟩)
    (fun i hi => charVector_norm hχ hcov.part (hcov.first i (hall i hi)).1) E (by show E < o.nLand; omega) u c huc mode ⟨V, X⟩ h
  exact ⟨y, hy, hin⟩

end

section
variable {k maxdim : ℕ} {δ : ℕ → ℕ → ℝ} {res : RipserResult ℝ} {ρ : ℝ → ℝ}

theorem both_constructors (x : DataInput) (hx : DescribesData x δ) (hr : RipserSpec ρ x.rows k δ 2 maxdim res)
    (argsort : List (Fl ℝ) → List ℕ) (ha : ArgsortSpec argsort) (hm : 1 ≤ maxdim) (hk : 0 < k)
    (hf : x.distanceMatrix = true → x.dtype = .float) :
    ∃ o, lensInit argsort res x 2 maxdim = .ok o ∧ projInit argsort res x maxdim = .ok o ∧ o.prime = 2 ∧
      ∀ idx b d s, getRepresentativeCocycle o.dgms o.cocycles idx 1 = .ok (b, d, s) → ∀ r ∈ s, 0 ≤ r.val := by
  obtain ⟨o, h1, h2, h3, h4, h5, h6, h7, wf⟩ := C88_lens_constructor x hx hr argsort ha hm hk hf
  refine ⟨o, h1, h1, h2, ?_⟩
  obtain ⟨dgm, σ, g1, g2, g3⟩ := select_outcome 1 x hr h6 le_rfl hm h7
  simp only [Nat.cast_one] at g3
  intro idx b d s hs r hrow
  rcases g3 idx with ⟨-, h⟩ | ⟨z, -, -, h⟩ | ⟨pt, s', -, -, hV, h⟩
  · rw [h] at hs; cases hs
  · rw [h] at hs; cases hs
  · rw [h] at hs
    simp only [Except.ok.injEq, Prod.mk.injEq] at hs
    obtain ⟨-, -, rfl⟩ := hs
    exact (hV.1 r hrow).2.1

/-- **C123 (same eigenvectors).** On the same data, `LensCoords(X, …, prime=2)` and `ProjectiveCoords(X, …)` are the same: if
the complex eigenvector routine returns for real matrices what the real one returns, then after corresponding calls, any
call with `complex_dim = proj_dim + 1` returns the same array (as complex numbers) or raises the same exception, and leaves
the same attributes. -/
theorem C123_same_calls (x : DataInput) (hx : DescribesData x δ) (hr : RipserSpec ρ x.rows k δ 2 maxdim res)
    (argsort : List (Fl ℝ) → List ℕ) (ha : ArgsortSpec argsort) (hm : 1 ≤ maxdim) (hk : 0 < k)
    (hf : x.distanceMatrix = true → x.dtype = .float) :
    ∃ o, lensInit argsort res x 2 maxdim = .ok o ∧ projInit argsort res x maxdim = .ok o ∧
      ∀ (eighC : Eigh ℂ) (eighR : Eigh ℝ), SameEigenvectors eighC eighR → ∀ (fuel : ℕ) (history : List ProjArgs) (a : ProjArgs),
        (lensGetCoordinates eighC fuel (lensHistory eighC fuel o (history.map ProjArgs.asLens)) a.asLens).2 =
          (projGetCoordinates eighR fuel (projHistory eighR fuel o history) a).2.map Arr.toComplex ∧
        (lensGetCoordinates eighC fuel (lensHistory eighC fuel o (history.map ProjArgs.asLens)) a.asLens).1 =
          (projGetCoordinates eighR fuel (projHistory eighR fuel o history) a).1 := by
  obtain ⟨o, h1, h2, h3, h4⟩ := both_constructors x hx hr argsort ha hm hk hf
  refine ⟨o, h1, h2, ?_⟩
  intro eighC eighR he fuel history a
  obtain ⟨g1, g2⟩ := same_history he fuel o h3 h4 history
  rw [g1, same_call he fuel _ (by rw [g2.fields.1, h3]) (by rw [g2]; exact h4)]
  exact ⟨rfl, rfl⟩

/-- **C123 (full dimension).** Without any assumption on how the two eigenvector routines are related: if the balls cover the
data and nothing is lost (`complex_dim = n_landmarks`, `proj_dim = n_landmarks - 1`), both calls return arrays and the inner
products of any two rows are the same, real, numbers, so that the two results differ by a unitary matrix; the reduction modes
and the histories may be different. -/
theorem C123_same_inner_products (x : DataInput) (hx : DescribesData x δ) (hr : RipserSpec ρ x.rows k δ 2 maxdim res)
    (argsort : List (Fl ℝ) → List ℕ) (ha : ArgsortSpec argsort) (hm : 1 ≤ maxdim) (hk : 2 ≤ k)
    (hf : x.distanceMatrix = true → x.dtype = .float) :
    ∃ o dgm σ, lensInit argsort res x 2 maxdim = .ok o ∧ projInit argsort res x maxdim = .ok o ∧ res.dgms[1]? = some dgm ∧
      PersistenceRanking dgm σ ∧
      ∀ (z j : ℕ) (b d : ℝ), σ[z]? = some j → dgm[j]? = some (.fin b, .fin d) →
      ∀ (eighC : Eigh ℂ) (eighR : Eigh ℝ), EighSpec eighC → EighSpec eighR →
      ∀ (fuel : ℕ) (history history' : List ProjArgs) (perc : ℝ) (std check check' : Bool) (bump : Fl ℝ → Fl ℝ → Fl ℝ)
        (mode mode' : RedMode), k ≤ fuel → (if std then 2 * b else b) ≤ d → PositiveBump bump → mode ≠ .other → mode' ≠ .other →
      ∀ r : ℝ, 2 * r = (1 - perc) * (if std then 2 * b else b) + perc * d → (∀ i < x.nPoints, ∃ u ∈ res.idxPerm, δ u i < r) →
      ∃ (X : Arr ℂ) (Y : Arr ℝ) (v : ℕ → ℕ → ℂ) (w : ℕ → ℕ → ℝ),
        (lensGetCoordinates eighC fuel (lensHistory eighC fuel o history)
          ⟨.fin perc, .int z, k, bump, std, check, mode⟩).2 = .ok X ∧
        (projGetCoordinates eighR fuel (projHistory eighR fuel o history')
          ⟨.fin perc, .int z, (k - 1 : ℕ), bump, std, check', mode'⟩).2 = .ok Y ∧
        X.rows = x.nPoints ∧ X.cols = k ∧ Y.rows = x.nPoints ∧ Y.cols = k ∧
        (∀ i < x.nPoints, ∀ m < k, X.at' i m = some (v i m) ∧ Y.at' i m = some (w i m)) ∧
        ∀ i < x.nPoints, ∀ i' < x.nPoints, ∑ m ∈ Finset.range k, star (v i m) * v i' m =
          ((∑ m ∈ Finset.range k, w i m * w i' m : ℝ) : ℂ) := by
  obtain ⟨o, h1, h2, h3, h4, h5, h6, h7, wf⟩ := C88_lens_constructor x hx hr argsort ha hm (by omega) hf
  obtain ⟨dgm, coc, σ, g1, g2, g3, g4⟩ := stored_class x hr h6 hm h7
  refine ⟨o, dgm, σ, h1, h1, g1, g3, ?_⟩
  intro z j b d hz hpt eighC eighR heC heR fuel history history' perc std check check' bump mode mode' hfuel hstart hb hmode hmode' r
    hr2 hall
  obtain ⟨pt, c₁, s, ξ, e1, e2, e3, e4, e5, e6, e7, e8⟩ := g4 z j hz
  rw [hpt] at e1
  injection e1 with e1
  subst e1
  have hlen : res.idxPerm.length = o.nLand := by rw [hr.count, h3]
  rw [C85_lens_history, C85_projective_history]
  have hvp : ValidPairClass o (.int z) b d s := by
    refine ⟨e3, fun r hr' => ?_⟩
    obtain ⟨q1, q2, q3⟩ := (e4.1 r hr').1
    rw [h3]
    match hv : r.verts, q1 with
    | [l, m], _ => exact ⟨l, m, rfl, q3 l (by simp [hv]), q3 m (by simp [hv])⟩
  obtain ⟨X, r', c1, c2, c3, c4, c5⟩ := C84_lens_returns eighC fuel o ⟨.fin perc, .int z, k, bump, std, check, mode⟩ wf b d perc s
    hvp rfl hstart hb hmode k rfl hk (h3 ▸ le_rfl) (h3 ▸ hfuel)
  simp only at c3
  obtain rfl : r' = r := by linarith
  obtain ⟨Y, r'', d1, d2, d3, d4, d5⟩ := C84_projective_returns eighR fuel o ⟨.fin perc, .int z, (k - 1 : ℕ), bump, std, check', mode'⟩ wf b d
    perc s hvp (fun r hrow => (e4.1 r hrow).2.1) rfl hstart hb hmode' (k - 1) rfl (by omega) (by omega) (h3 ▸ hfuel)
  simp only at d3
  obtain rfl : r'' = r' := by linarith
  have hdat : ∀ l (h : l < res.idxPerm.length), ∀ i < x.nPoints, o.dist l i = δ res.idxPerm[l] i := h5.data
  have hall' : ∀ i < o.nData, ∃ l < o.nLand, o.dist l i < r'' := by
    intro i hi
    rw [h4] at hi
    obtain ⟨l, hl, hl'⟩ := (covered_data hr.nodup hdat hi).1 (hall i hi)
    exact ⟨l, hlen ▸ hl, hl'⟩
  obtain ⟨-, w, V, β, hcov, p1, -⟩ := flat_call (χ := fun v : ℤ => Complex.exp (2 * π * Complex.I * v / o.prime)) wf hb c1 c2 e3
    (fun M hM => lensMatrix_apply (by rw [h2]; norm_num) e7 hM)
  obtain ⟨-, w', V', β', hcov', p1', -⟩ := flat_call (χ := fun v : ℤ => (-1 : ℝ) ^ v) wf hb d1 d2 e3
    (fun M hM => projMatrix_apply e7 hM)
  have hE : ((k : ℕ) : ℤ) - 1 = ((k - 1 : ℕ) : ℤ) := by omega
  simp only [hE] at p1
  obtain ⟨v, hv, hg⟩ := full_gram heC (lens_character (by rw [h2]; norm_num)) hcov hall' (by omega) p1
  obtain ⟨v', hv', hg'⟩ := full_gram heR sign_character hcov' hall' (by omega) p1'
  have hw : ∀ i < o.nData, ∀ l, w' l i = w l i := by
    intro i hi l
    obtain ⟨cov, q1, q2⟩ := hcov.weights
    obtain ⟨cov', q1', q2'⟩ := hcov'.weights
    simp only at q1 q1'
    rw [q1] at q1'
    injection q1' with q1'
    subst q1'
    have := (q2' i (hall' i hi) l).symm.trans (q2 i (hall' i hi) l)
    simpa using this
  have hβ : ∀ i < o.nData, β' i = β i := by
    intro i hi
    have f1 := hcov.first i (hall' i hi)
    have f2 := hcov'.first i (hall' i hi)
    by_contra hne
    rcases Nat.lt_or_gt_of_ne hne with h | h
    · exact f1.2 _ h f2.1
    · exact f2.2 _ h f1.1
  rw [c5, h4] at hv
  rw [d5, h4, Nat.sub_add_cancel (by omega)] at hv'
  rw [c5, h4, h3] at hg
  rw [d5, h4, h3, Nat.sub_add_cancel (by omega)] at hg'
  refine ⟨X, Y, v, v', c1, d1, by rw [c4, h4], c5, by rw [d4, h4], by rw [d5]; omega,
    fun i hi m hm => ⟨hv i hi m hm, hv' i hi m hm⟩, ?_⟩
  intro i hi i' hi'
  have hroot : ∀ n : ℤ, Complex.exp (2 * π * Complex.I * n / (o.prime : ℂ)) = (((-1 : ℝ) ^ n : ℝ) : ℂ) := by
    intro n
    rw [h2, ← rootOfUnity_zpow, rootOfUnity_two]
    push_cast
    rfl
  have hr' := hg' i hi i' hi'
  simp only [star_trivial] at hr'
  rw [hg i hi i' hi', hr', Complex.ofReal_sum]
  refine Finset.sum_congr rfl fun m _ => ?_
  rw [hw i (h4 ▸ hi), hw i' (h4 ▸ hi'), hβ i (h4 ▸ hi), hβ i' (h4 ▸ hi'), hroot, hroot]
  simp

end

end Dreimac
