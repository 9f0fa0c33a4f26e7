import Verif.Lemmas.ClassMap
import Verif.Props.Ppca
import Verif.Props.CircularExamples

/-!
# C48, C49, C54: the coordinates returned by `LensCoords` and `ProjectiveCoords`

`o` is the object, `a` the arguments, `X` the returned array, `(r, t)` the stored radius and Rips threshold, `x` the
cochain represented by the selected class.
-/

namespace Dreimac

open Real

/-- What the constructor guarantees about an object built from a floating point distance matrix. -/
structure ProjWellFormed (o : ProjObj) : Prop where
  dtype : o.dtype = .float
  pos : 0 < o.nLand
  nonneg : ∀ l i, 0 ≤ o.dist l i

/-- The weights `w` and the choice of balls `β` of a call: the weights are what `get_covering_partition` returns for the cover
of radius `r` at the covered data points, they are a partition of unity, and `β i` is the first ball containing `i`. -/
structure CoverData (o : ProjObj) (a : ProjArgs) (r : ℝ) (w : ℕ → ℕ → ℝ) (β : ℕ → ℕ) : Prop where
  part : IsPartitionOfUnity o.nLand o.dist r w
  weights : ∃ cov, getCoveringPartition .float o.nLand o.nData (fun l i => Fl.fin (o.dist l i)) (.fin r) a.bump = .ok cov ∧
    ∀ i, (∃ m, InBall o.nLand o.dist r m i) → ∀ l, cov.varphi l i = .fin (w l i)
  first : ∀ i, (∃ l, InBall o.nLand o.dist r l i) → FirstBall o.nLand o.dist r i (β i)

open Classical in
/-- The `N × L` array whose row `i` is the vector `vec (β i) i`: the vector of data point `i` computed with the ball of
landmark `β i`.  Data points in no ball have rows of `nan`. -/
noncomputable def classMapVia {𝕜 : Type} (L N : ℕ) (dist : ℕ → ℕ → ℝ) (r : ℝ) (vec : ℕ → ℕ → ℕ → 𝕜) (β : ℕ → ℕ) :
    Arr 𝕜 := ⟨N, L, fun i m => if i < N ∧ m < L ∧ ∃ l, InBall L dist r l i then some (vec (β i) i m) else none⟩

section
variable {𝕜 : Type} [RCLike 𝕜] {p : ℤ} {χ : ℤ → 𝕜} {x : ℕ → ℕ → ℤ}

theorem oSqrt_fin {y : ℝ} (h : 0 ≤ y) : oSqrt (.fin y) = some (√y) := by simp [oSqrt, h]

theorem flatClassMap_eq {L N : ℕ} {dist : ℕ → ℕ → ℝ} {r : ℝ} {w : ℕ → ℕ → ℝ} (hw : IsPartitionOfUnity L dist r w)
    {cov : Covering ℝ} (h1 : ∀ i, (∃ m, InBall L dist r m i) → ∀ l, cov.varphi l i = .fin (w l i))
    (h2 : ∀ i, (¬ ∃ m, InBall L dist r m i) → ∀ l, cov.varphi l i = .nan) {M : ℕ → ℕ → 𝕜}
    (hM : ∀ a b, M a b = χ (x a b)) :
    flatClassMap L N cov M = classMapVia L N dist r (fun l i m => ((√(w m i) : ℝ) : 𝕜) * χ (x l m)) cov.ballIndx := by
  unfold flatClassMap classMapVia
  simp only [Arr.mk.injEq, true_and]
  funext i l
  by_cases hi : ∃ m, InBall L dist r m i
  · rw [h1 i hi, oSqrt_fin (hw.nonneg l i hi), Option.map_some, hM]
    by_cases h : i < N ∧ l < L
    · rw [if_pos h, if_pos ⟨h.1, h.2, hi⟩]
    · rw [if_neg h, if_neg (fun h' => h ⟨h'.1, h'.2.1⟩)]
  · rw [h2 i hi, if_neg (c := i < N ∧ l < L ∧ ∃ m, InBall L dist r m i) (fun h' => hi h'.2.2)]
    simp [oSqrt]

theorem classMapVia_twist {L N : ℕ} {dist : ℕ → ℕ → ℝ} {r : ℝ} {vec : ℕ → ℕ → ℕ → 𝕜} {β β' : ℕ → ℕ} {z : ℕ → 𝕜}
    (h : ∀ i m, m < L → (∃ l, InBall L dist r l i) → vec (β' i) i m = z i * vec (β i) i m) :
    classMapVia L N dist r vec β' = twistRows z (classMapVia L N dist r vec β) := by
  unfold classMapVia twistRows
  simp only [Arr.mk.injEq, true_and]
  funext i m
  split
  · next hc => rw [h i m hc.2.1 hc.2.2]; rfl
  · rfl

/-- The data of a successful call. -/
theorem flat_call {eigh : Eigh 𝕜} {fuel : ℕ}
    {matrix : SparseCochain → Except PyErr (ℕ → ℕ → 𝕜)} {k : ℤ} {o : ProjObj} {a : ProjArgs} {X : Arr 𝕜}
    (wf : ProjWellFormed o) (hb : PositiveBump a.bump) {r t : ℝ}
    (hok : (flatGetCoordinates eigh fuel matrix k o a).2 = .ok X)
    (hr : (flatGetCoordinates eigh fuel matrix k o a).1.radius = some (.fin r, .fin t))
    {b d : Fl ℝ} {s : SparseCochain} (hs : getRepresentativeCocycle o.dgms o.cocycles a.cocycleIdx 1 = .ok (b, d, s))
    (hM : ∀ M, matrix s = .ok M → ∀ l m, M l m = χ (x l m)) :
    t = 2 * r ∧ ∃ (w : ℕ → ℕ → ℝ) (V : List (Option ℝ)) (β : ℕ → ℕ), CoverData o a r w β ∧
      ppca eigh fuel (classMapVia o.nLand o.nData o.dist r (fun l i m => ((√(w m i) : ℝ) : 𝕜) * χ (x l m)) β) k a.mode =
        .ok ⟨V, X⟩ ∧
      (flatGetCoordinates eigh fuel matrix k o a).1.variance = some V := by
  obtain ⟨b', d', s', radius, cov, M, V, h1, h2, h3, h4, h5, h6⟩ := flat_success hok
  rw [hs] at h1
  simp only [Except.ok.injEq, Prod.mk.injEq] at h1
  obtain ⟨rfl, rfl, rfl⟩ := h1
  rw [h6] at hr
  simp only [Option.some.injEq] at hr
  subst hr
  refine ⟨coverRadius_half h2, ?_⟩
  rw [wf.dtype] at h3
  obtain ⟨w, hw, hw1, hw2, hw3⟩ := cov_spec_gen wf.pos wf.nonneg hb h3
  rw [flatClassMap_eq hw hw1 hw2 (hM M h4)] at h5
  refine ⟨w, V, cov.ballIndx, ⟨hw, ⟨cov, h3, hw1⟩, ?_⟩, h5, by rw [h6]⟩
  intro i hi
  obtain ⟨f, hf⟩ := exists_firstBall hi
  rw [hw3 i f hf]; exact hf

/-- Changing the choice of balls twists the rows by values of the character. -/
theorem flat_choice (hχ : IsCharacter p χ) {L N : ℕ} {dist dll : ℕ → ℕ → ℝ} {r : ℝ} {w : ℕ → ℕ → ℝ}
    (ht : LandmarkTriangle L dist dll) (hw : IsPartitionOfUnity L dist r w) (hx : ∀ l m, x m l = -x l m)
    (hc : PairCocycleMod p L dll (2 * r) x) (eigh : Eigh 𝕜) (fuel : ℕ) (k : ℤ) (mode : RedMode) (β β' : ℕ → ℕ)
    (h : ∀ i, (∃ l, InBall L dist r l i) → InBall L dist r (β i) i)
    (h' : ∀ i, (∃ l, InBall L dist r l i) → InBall L dist r (β' i) i) {V : List (Option ℝ)} {X : Arr 𝕜}
    (hX : ppca eigh fuel (classMapVia L N dist r (fun l i m => ((√(w m i) : ℝ) : 𝕜) * χ (x l m)) β) k mode = .ok ⟨V, X⟩) :
    ppca eigh fuel (classMapVia L N dist r (fun l i m => ((√(w m i) : ℝ) : 𝕜) * χ (x l m)) β') k mode =
      .ok ⟨V, ⟨X.rows, X.cols, fun i j => (X.at' i j).map fun y => χ (x (β' i) (β i)) * y⟩⟩ := by
  rw [classMapVia_twist (β := β) (β' := β') (z := fun i => χ (x (β' i) (β i))), ppca_twist (fun n => hχ.norm _), hX]
  · rfl
  · intro i m hm hi
    exact charVector_twist hχ hx ht hw hc (h i hi) (h' i hi) hm

end

/-- A class index that selects a finite interval `(b, d)` and a cocycle array whose rows are pairs of landmarks. -/
structure ValidPairClass (o : ProjObj) (z : ClassArg) (b d : ℝ) (s : SparseCochain) : Prop where
  stored : getRepresentativeCocycle o.dgms o.cocycles z 1 = .ok (.fin b, .fin d, s)
  edges : ∀ r ∈ s, ∃ l m, r.verts = [l, m] ∧ l < o.nLand ∧ m < o.nLand

section
variable {𝕜 : Type} [RCLike 𝕜]

theorem cocycleMatrix_ok {n : ℕ} (fwd bwd : ℤ → 𝕜) {s : SparseCochain}
    (h : ∀ r ∈ s, ∃ l m, r.verts = [l, m] ∧ l < n ∧ m < n) : ∃ M, cocycleMatrix n fwd bwd s = .ok M := by
  unfold cocycleMatrix
  rw [if_pos]
  · exact ⟨_, rfl⟩
  · rw [List.all_eq_true]
    intro r hr
    obtain ⟨l, m, h1, h2, h3⟩ := h r hr
    simp [h1, h2, h3]

theorem flat_returns {eigh : Eigh 𝕜} {fuel : ℕ} {matrix : SparseCochain → Except PyErr (ℕ → ℕ → 𝕜)} {k : ℕ}
    {o : ProjObj} {a : ProjArgs} (wf : ProjWellFormed o) {b d perc : ℝ} {s : SparseCochain}
    (hz : ValidPairClass o a.cocycleIdx b d s) (hperc : a.perc = .fin perc)
    (hstart : (if a.standardRange then 2 * b else b) ≤ d) (hb : PositiveBump a.bump) (hm : a.mode ≠ .other)
    (hM : ∃ M, matrix s = .ok M) (hk : 1 ≤ k) (hkL : k < o.nLand) (hf : o.nLand ≤ fuel) :
    ∃ (X : Arr 𝕜) (r : ℝ), (flatGetCoordinates eigh fuel matrix k o a).2 = .ok X ∧
      (flatGetCoordinates eigh fuel matrix k o a).1.radius = some (.fin r, .fin (2 * r)) ∧
      2 * r = (1 - perc) * (if a.standardRange then 2 * b else b) + perc * d ∧
      X.rows = o.nData ∧ X.cols = k + 1 := by
  obtain ⟨r, thr, hrad, hthr, hr2, -⟩ := (C24_cover_radius b d perc a.standardRange).2 hstart
  obtain ⟨C, phi, hC, -⟩ := covering_spec hb o.nLand o.nData wf.pos o.dist wf.nonneg r
  obtain ⟨M, hM⟩ := hM
  obtain ⟨R, hR, hR1, hR2⟩ := C55_shape_partial eigh (flatClassMap o.nLand o.nData C M) k hk hkL a.mode hm fuel hf
  have hthr2 : thr = 2 * r := by linarith
  subst hthr2
  refine ⟨R.X, r, ?_, ?_, by linear_combination hthr, hR1, hR2⟩ <;>
  · unfold flatGetCoordinates
    simp only [hz.stored, hperc, hrad, wf.dtype, hC, hM, hR]

end

/-! ### lens coordinates -/

section lens
variable {eigh : Eigh ℂ} {fuel : ℕ} {o : ProjObj} {a : ProjArgs} {X : Arr ℂ} {r t : ℝ} {b d : Fl ℝ} {s : SparseCochain}
  {x : ℕ → ℕ → ℤ}

theorem rootOfUnity_zpow (p v : ℤ) : rootOfUnity p ^ v = Complex.exp (2 * π * Complex.I * v / p) := by
  unfold rootOfUnity
  rw [← Complex.exp_int_mul]
  congr 1; ring

theorem lensMatrix_apply {p : ℤ} (hp : 0 < p) {n : ℕ} (hs : RepresentsPairs s x) {M : ℕ → ℕ → ℂ}
    (h : lensMatrix p n s = .ok M) (l m : ℕ) : M l m = Complex.exp (2 * π * Complex.I * (x l m : ℤ) / p) := by
  refine cocycleMatrix_apply (lens_character hp) (fun v => rootOfUnity_zpow p v) (fun v => ?_) hs h l m
  rw [one_div, inv_zpow', rootOfUnity_zpow]

theorem lensVector_eq (p : ℤ) (x : ℕ → ℕ → ℤ) (w : ℕ → ℕ → ℝ) :
    lensVector p x w = fun l i m => ((√(w m i) : ℝ) : ℂ) * Complex.exp (2 * π * Complex.I * (x l m : ℤ) / p) := rfl

/-- **C48.** `LensCoords.get_coordinates` applies the dimensionality reduction to the array of the vectors `lensVector`,
computed with the first ball containing each data point.  For a class that is a cocycle modulo the prime, the vector
computed with any other ball containing the data point is the same vector times a `p`-th root of unity, and has norm 1.
-/
theorem C48_lens_class_map (wf : ProjWellFormed o) (hp : 0 < o.prime) (hb : PositiveBump a.bump)
    (hok : (lensGetCoordinates eigh fuel o a).2 = .ok X)
    (hr : (lensGetCoordinates eigh fuel o a).1.radius = some (.fin r, .fin t))
    (hs : getRepresentativeCocycle o.dgms o.cocycles a.cocycleIdx 1 = .ok (b, d, s)) (hx : RepresentsPairs s x)
    (ht : LandmarkTriangle o.nLand o.dist o.distLandLand)
    (hc : PairCocycleMod o.prime o.nLand o.distLandLand t x) :
    ∃ (w : ℕ → ℕ → ℝ) (V : List (Option ℝ)) (β : ℕ → ℕ), CoverData o a r w β ∧
      ppca eigh fuel (classMapVia o.nLand o.nData o.dist r (lensVector o.prime x w) β) (a.dim - 1) a.mode = .ok ⟨V, X⟩ ∧
      (lensGetCoordinates eigh fuel o a).1.variance = some V ∧
      ∀ i l, InBall o.nLand o.dist r l i →
        ∑ m ∈ Finset.range o.nLand, ‖lensVector o.prime x w l i m‖ ^ 2 = 1 ∧
        ∃ ζ : ℂ, ζ ^ o.prime = 1 ∧ ∀ m < o.nLand, lensVector o.prime x w l i m = ζ * lensVector o.prime x w (β i) i m := by
  obtain ⟨rfl, w, V, β, hcov, h1, h2⟩ := flat_call (χ := fun v : ℤ => Complex.exp (2 * π * Complex.I * v / o.prime)) wf hb hok hr hs
    (fun M hM => lensMatrix_apply hp hx hM)
  have hw := hcov.part
  have hβ := hcov.first
  refine ⟨w, V, β, hcov, h1, h2, fun i l hl => ⟨charVector_norm (lens_character hp) hw hl, ?_⟩⟩
  exact ⟨_, (lens_character hp).root hp (x l (β i)), fun m hm =>
    charVector_twist (lens_character hp) hx.antisymm ht hw hc (hβ i ⟨l, hl⟩).1 hl hm⟩

/-- **C54 (lens).** Any other choice `β'` of balls containing the data points multiplies the row of each data point in the
output by a `p`-th root of unity and leaves the variances unchanged. -/
theorem C54_lens_choice_of_balls (wf : ProjWellFormed o) (hp : 0 < o.prime) (hb : PositiveBump a.bump)
    (hok : (lensGetCoordinates eigh fuel o a).2 = .ok X)
    (hr : (lensGetCoordinates eigh fuel o a).1.radius = some (.fin r, .fin t))
    (hs : getRepresentativeCocycle o.dgms o.cocycles a.cocycleIdx 1 = .ok (b, d, s)) (hx : RepresentsPairs s x)
    (ht : LandmarkTriangle o.nLand o.dist o.distLandLand)
    (hc : PairCocycleMod o.prime o.nLand o.distLandLand t x) :
    ∃ (w : ℕ → ℕ → ℝ) (V : List (Option ℝ)) (β : ℕ → ℕ), CoverData o a r w β ∧
      ppca eigh fuel (classMapVia o.nLand o.nData o.dist r (lensVector o.prime x w) β) (a.dim - 1) a.mode = .ok ⟨V, X⟩ ∧
      ∀ β' : ℕ → ℕ, (∀ i, (∃ l, InBall o.nLand o.dist r l i) → InBall o.nLand o.dist r (β' i) i) →
        ∃ ζ : ℕ → ℂ, (∀ i, ζ i ^ o.prime = 1) ∧
          ppca eigh fuel (classMapVia o.nLand o.nData o.dist r (lensVector o.prime x w) β') (a.dim - 1) a.mode =
            .ok ⟨V, ⟨X.rows, X.cols, fun i j => (X.at' i j).map fun y => ζ i * y⟩⟩ := by
  obtain ⟨rfl, w, V, β, hcov, h1, -⟩ := flat_call (χ := fun v : ℤ => Complex.exp (2 * π * Complex.I * v / o.prime)) wf hb hok hr hs
    (fun M hM => lensMatrix_apply hp hx hM)
  have hw := hcov.part
  have hβ := hcov.first
  refine ⟨w, V, β, hcov, h1, fun β' h' => ⟨_, fun i => (lens_character hp).root hp (x (β' i) (β i)), ?_⟩⟩
  exact flat_choice (lens_character hp) ht hw hx.antisymm hc eigh fuel _ _ β β' (fun i hi => (hβ i hi).1) h' h1

/-- **C84 (lens).** A call of `LensCoords.get_coordinates` with a valid class and a dimension `2 ≤ complex_dim ≤
n_landmarks` returns an array with one row per data point and `complex_dim` columns. -/
theorem C84_lens_returns (eigh : Eigh ℂ) (fuel : ℕ) (o : ProjObj) (a : ProjArgs) (wf : ProjWellFormed o) (b d perc : ℝ)
    (s : SparseCochain) (hz : ValidPairClass o a.cocycleIdx b d s) (hperc : a.perc = .fin perc)
    (hstart : (if a.standardRange then 2 * b else b) ≤ d) (hb : PositiveBump a.bump) (hm : a.mode ≠ .other) (n : ℕ)
    (hn : a.dim = n) (hn2 : 2 ≤ n) (hnL : n ≤ o.nLand) (hf : o.nLand ≤ fuel) :
    ∃ (X : Arr ℂ) (r : ℝ), (lensGetCoordinates eigh fuel o a).2 = .ok X ∧
      (lensGetCoordinates eigh fuel o a).1.radius = some (.fin r, .fin (2 * r)) ∧
      2 * r = (1 - perc) * (if a.standardRange then 2 * b else b) + perc * d ∧
      X.rows = o.nData ∧ X.cols = n := by
  obtain ⟨k, rfl⟩ : ∃ k, n = k + 1 := ⟨n - 1, by omega⟩
  have hk : a.dim - 1 = (k : ℕ) := by rw [hn]; push_cast; ring
  unfold lensGetCoordinates
  rw [hk]
  exact flat_returns wf hz hperc hstart hb hm (cocycleMatrix_ok _ _ hz.edges) (by omega) (by omega) hf

end lens

/-! ### real projective coordinates -/

section projective
variable {eigh : Eigh ℝ} {fuel : ℕ} {o : ProjObj} {a : ProjArgs} {X : Arr ℝ} {r t : ℝ} {b d : Fl ℝ} {s : SparseCochain}
  {x : ℕ → ℕ → ℤ}

theorem projMatrix_apply {n : ℕ} (hs : RepresentsPairs s x) {M : ℕ → ℕ → ℝ}
    (h : projMatrix n s = .ok M) (l m : ℕ) : M l m = (-1 : ℝ) ^ (x l m) := by
  unfold projMatrix at h
  split at h
  · cases h
  · refine cocycleMatrix_apply sign_character (fun v => rfl) (fun v => ?_) hs h l m
    rw [one_div, inv_zpow']

theorem sign_of_square {z : ℝ} (h : z ^ (2 : ℤ) = 1) : z = 1 ∨ z = -1 := by
  have h' : z ^ 2 = 1 := by exact_mod_cast h
  rcases mul_self_eq_one_iff.1 (by rw [← sq]; exact h' : z * z = 1) with h | h
  · exact Or.inl h
  · exact Or.inr h

/-- **C49.** `ProjectiveCoords.get_coordinates` applies the dimensionality reduction to the array of the vectors
`signVector`, computed with the first ball containing each data point.  For a class that is a cocycle modulo 2, the
vector computed with any other ball containing the data point is plus or minus the same vector, and has norm 1. -/
theorem C49_projective_class_map (wf : ProjWellFormed o) (hb : PositiveBump a.bump)
    (hok : (projGetCoordinates eigh fuel o a).2 = .ok X)
    (hr : (projGetCoordinates eigh fuel o a).1.radius = some (.fin r, .fin t))
    (hs : getRepresentativeCocycle o.dgms o.cocycles a.cocycleIdx 1 = .ok (b, d, s)) (hx : RepresentsPairs s x)
    (ht : LandmarkTriangle o.nLand o.dist o.distLandLand)
    (hc : PairCocycleMod 2 o.nLand o.distLandLand t x) :
    ∃ (w : ℕ → ℕ → ℝ) (V : List (Option ℝ)) (β : ℕ → ℕ), CoverData o a r w β ∧
      ppca eigh fuel (classMapVia o.nLand o.nData o.dist r (signVector x w) β) a.dim a.mode = .ok ⟨V, X⟩ ∧
      (projGetCoordinates eigh fuel o a).1.variance = some V ∧
      ∀ i l, InBall o.nLand o.dist r l i →
        ∑ m ∈ Finset.range o.nLand, (signVector x w l i m) ^ 2 = 1 ∧
        ((∀ m < o.nLand, signVector x w l i m = signVector x w (β i) i m) ∨
          ∀ m < o.nLand, signVector x w l i m = -signVector x w (β i) i m) := by
  obtain ⟨rfl, w, V, β, hcov, h1, h2⟩ := flat_call (χ := fun v : ℤ => (-1 : ℝ) ^ v) wf hb hok hr hs
    (fun M hM => projMatrix_apply hx hM)
  have hw := hcov.part
  have hβ := hcov.first
  refine ⟨w, V, β, hcov, h1, h2, fun i l hl => ⟨?_, ?_⟩⟩
  · rw [← charVector_norm (x := x) sign_character hw hl]
    apply Finset.sum_congr rfl
    intro m _
    rw [Real.norm_eq_abs, sq_abs]; rfl
  · have key := fun m (hm : m < o.nLand) => charVector_twist sign_character hx.antisymm ht hw hc (hβ i ⟨l, hl⟩).1 hl hm
    rcases sign_of_square (sign_character.root (by norm_num) (x l (β i))) with h | h
    · left; intro m hm
      have := key m hm
      rw [h, one_mul] at this
      exact this
    · right; intro m hm
      have := key m hm
      rw [h, neg_one_mul] at this
      exact this

/-- **C54 (projective).** Any other choice `β'` of balls containing the data points changes at most the sign of the row of
each data point in the output and leaves the variances unchanged. -/
theorem C54_projective_choice_of_balls (wf : ProjWellFormed o) (hb : PositiveBump a.bump)
    (hok : (projGetCoordinates eigh fuel o a).2 = .ok X)
    (hr : (projGetCoordinates eigh fuel o a).1.radius = some (.fin r, .fin t))
    (hs : getRepresentativeCocycle o.dgms o.cocycles a.cocycleIdx 1 = .ok (b, d, s)) (hx : RepresentsPairs s x)
    (ht : LandmarkTriangle o.nLand o.dist o.distLandLand)
    (hc : PairCocycleMod 2 o.nLand o.distLandLand t x) :
    ∃ (w : ℕ → ℕ → ℝ) (V : List (Option ℝ)) (β : ℕ → ℕ), CoverData o a r w β ∧
      ppca eigh fuel (classMapVia o.nLand o.nData o.dist r (signVector x w) β) a.dim a.mode = .ok ⟨V, X⟩ ∧
      ∀ β' : ℕ → ℕ, (∀ i, (∃ l, InBall o.nLand o.dist r l i) → InBall o.nLand o.dist r (β' i) i) →
        ∃ ε : ℕ → ℝ, (∀ i, ε i = 1 ∨ ε i = -1) ∧
          ppca eigh fuel (classMapVia o.nLand o.nData o.dist r (signVector x w) β') a.dim a.mode =
            .ok ⟨V, ⟨X.rows, X.cols, fun i j => (X.at' i j).map fun y => ε i * y⟩⟩ := by
  obtain ⟨rfl, w, V, β, hcov, h1, -⟩ := flat_call (χ := fun v : ℤ => (-1 : ℝ) ^ v) wf hb hok hr hs
    (fun M hM => projMatrix_apply hx hM)
  have hw := hcov.part
  have hβ := hcov.first
  refine ⟨w, V, β, hcov, h1, fun β' h' =>
    ⟨_, fun i => sign_of_square (sign_character.root (by norm_num) (x (β' i) (β i))), ?_⟩⟩
  exact flat_choice sign_character ht hw hx.antisymm hc eigh fuel _ _ β β' (fun i hi => (hβ i hi).1) h' h1

/-- **C84 (projective).** A call of `ProjectiveCoords.get_coordinates` with a valid class with values in `{0, 1}` and a
dimension `1 ≤ proj_dim < n_landmarks` returns an array with one row per data point and `proj_dim + 1` columns. -/
theorem C84_projective_returns (eigh : Eigh ℝ) (fuel : ℕ) (o : ProjObj) (a : ProjArgs) (wf : ProjWellFormed o)
    (b d perc : ℝ) (s : SparseCochain) (hz : ValidPairClass o a.cocycleIdx b d s) (hv : ∀ r ∈ s, 0 ≤ r.val)
    (hperc : a.perc = .fin perc) (hstart : (if a.standardRange then 2 * b else b) ≤ d) (hb : PositiveBump a.bump)
    (hm : a.mode ≠ .other) (n : ℕ) (hn : a.dim = n) (hn1 : 1 ≤ n) (hnL : n < o.nLand) (hf : o.nLand ≤ fuel) :
    ∃ (X : Arr ℝ) (r : ℝ), (projGetCoordinates eigh fuel o a).2 = .ok X ∧
      (projGetCoordinates eigh fuel o a).1.radius = some (.fin r, .fin (2 * r)) ∧
      2 * r = (1 - perc) * (if a.standardRange then 2 * b else b) + perc * d ∧
      X.rows = o.nData ∧ X.cols = n + 1 := by
  unfold projGetCoordinates
  rw [hn]
  refine flat_returns wf hz hperc hstart hb hm ?_ hn1 hnL hf
  unfold projMatrix
  rw [if_neg]
  · exact cocycleMatrix_ok _ _ hz.edges
  · simp only [List.any_eq_true, decide_eq_true_eq, not_exists, not_and, not_lt]
    exact hv

end projective

/-! ### C85: calls do not depend on earlier calls -/

section history
variable {𝕜 : Type} [RCLike 𝕜]

/-- Two objects that differ at most in the attributes `_r_cover`, `_rips_threshold` and `_variance`. -/
def SameData (o o' : ProjObj) : Prop := o' = { o with radius := o'.radius, variance := o'.variance }

theorem sameData_call (eigh : Eigh 𝕜) (fuel : ℕ) (matrix : SparseCochain → Except PyErr (ℕ → ℕ → 𝕜)) (k : ℤ)
    (o : ProjObj) (a : ProjArgs) : SameData o (flatGetCoordinates eigh fuel matrix k o a).1 := by
  unfold flatGetCoordinates
  generalize getRepresentativeCocycle o.dgms o.cocycles a.cocycleIdx 1 = e1
  rcases e1 with e | ⟨b, d, s⟩
  · rfl
  simp only
  generalize getCoverRadius a.perc b d a.standardRange = e2
  rcases e2 with e | radius
  · rfl
  simp only
  generalize getCoveringPartition o.dtype o.nLand o.nData (fun l i => Fl.fin (o.dist l i)) radius.1 a.bump = e3
  rcases e3 with e | cov
  · rfl
  simp only
  generalize matrix s = e4
  rcases e4 with e | M
  · rfl
  simp only
  generalize ppca eigh fuel (flatClassMap o.nLand o.nData cov M) k a.mode = e5
  rcases e5 with e | R <;> rfl

theorem SameData.result {o o' : ProjObj} (h : SameData o o') (eigh : Eigh 𝕜) (fuel : ℕ)
    (matrix : SparseCochain → Except PyErr (ℕ → ℕ → 𝕜)) (k : ℤ) (a : ProjArgs) :
    (flatGetCoordinates eigh fuel matrix k o' a).2 = (flatGetCoordinates eigh fuel matrix k o a).2 := by
  rw [h]
  generalize o'.radius = rad, o'.variance = var
  unfold flatGetCoordinates
  simp only
  generalize getRepresentativeCocycle o.dgms o.cocycles a.cocycleIdx 1 = e1
  rcases e1 with e | ⟨b, d, s⟩
  · rfl
  simp only
  generalize getCoverRadius a.perc b d a.standardRange = e2
  rcases e2 with e | radius
  · rfl
  simp only
  generalize getCoveringPartition o.dtype o.nLand o.nData (fun l i => Fl.fin (o.dist l i)) radius.1 a.bump = e3
  rcases e3 with e | cov
  · rfl
  simp only
  generalize matrix s = e4
  rcases e4 with e | M
  · rfl
  simp only
  generalize ppca eigh fuel (flatClassMap o.nLand o.nData cov M) k a.mode = e5
  rcases e5 with e | R <;> rfl

theorem SameData.trans {o o' o'' : ProjObj} (h : SameData o o') (h' : SameData o' o'') : SameData o o'' := by
  unfold SameData at *
  rw [h', h]

theorem SameData.fields {o o' : ProjObj} (h : SameData o o') : o'.prime = o.prime ∧ o'.nLand = o.nLand := by
  rw [h]; exact ⟨rfl, rfl⟩

/-- The object after a sequence of calls (whether or not they raise). -/
noncomputable def lensHistory (eigh : Eigh ℂ) (fuel : ℕ) (o : ProjObj) (calls : List ProjArgs) : ProjObj :=
  calls.foldl (fun o a => (lensGetCoordinates eigh fuel o a).1) o

@[inherit_doc lensHistory]
noncomputable def projHistory (eigh : Eigh ℝ) (fuel : ℕ) (o : ProjObj) (calls : List ProjArgs) : ProjObj :=
  calls.foldl (fun o a => (projGetCoordinates eigh fuel o a).1) o

/-- **C85 (lens).** The result of a call (array or error) does not depend on the calls made before it. -/
theorem C85_lens_history (eigh : Eigh ℂ) (fuel : ℕ) (o : ProjObj) (calls : List ProjArgs) (a : ProjArgs) :
    (lensGetCoordinates eigh fuel (lensHistory eigh fuel o calls) a).2 = (lensGetCoordinates eigh fuel o a).2 := by
  have h : SameData o (lensHistory eigh fuel o calls) := by
    unfold lensHistory
    induction calls using List.reverseRecOn with
    | nil => rfl
    | append_singleton l c ih =>
      rw [List.foldl_append]
      exact ih.trans (sameData_call _ _ _ _ _ _)
  unfold lensGetCoordinates
  rw [h.fields.1, h.fields.2]
  exact h.result _ _ _ _ _

/-- **C85 (projective).** The result of a call (array or error) does not depend on the calls made before it. -/
theorem C85_projective_history (eigh : Eigh ℝ) (fuel : ℕ) (o : ProjObj) (calls : List ProjArgs) (a : ProjArgs) :
    (projGetCoordinates eigh fuel (projHistory eigh fuel o calls) a).2 = (projGetCoordinates eigh fuel o a).2 := by
  have h : SameData o (projHistory eigh fuel o calls) := by
    unfold projHistory
    induction calls using List.reverseRecOn with
    | nil => rfl
    | append_singleton l c ih =>
      rw [List.foldl_append]
      exact ih.trans (sameData_call _ _ _ _ _ _)
  unfold projGetCoordinates
  rw [h.fields.2]
  exact h.result _ _ _ _ _

end history

/-! ### a concrete object: the octagon with four landmarks -/

/-- One class, born at 2 and dying at 4, with the value `v` on the edge between landmarks 3 and 0. -/
noncomputable def octProj (prime v : ℤ) : ProjObj :=
  ⟨prime, [[], [(.fin 2, .fin 4)]], [[], [[⟨[3, 0], v⟩]]], 4, 8, fun l i => octDist l i, .float, fun m => 2 * m,
    cnsTable 8 2, none, none⟩

/-- The cochain of the class. -/
def octCochain (v : ℤ) (l m : ℕ) : ℤ := if l = 3 ∧ m = 0 then v else if l = 0 ∧ m = 3 then -v else 0

theorem octProj_wf (p v : ℤ) : ProjWellFormed (octProj p v) := ⟨rfl, by norm_num [octProj], fun _ _ => Nat.cast_nonneg _⟩

theorem octProj_class (p v : ℤ) : ValidPairClass (octProj p v) (.int 0) 2 4 [⟨[3, 0], v⟩] where
  stored := rfl
  edges := by
    intro r hr
    simp only [List.mem_cons, List.not_mem_nil, or_false] at hr
    subst hr
    exact ⟨3, 0, rfl, by norm_num [octProj], by norm_num [octProj]⟩

theorem octCochain_represents (v : ℤ) : RepresentsPairs [⟨[3, 0], v⟩] (octCochain v) where
  antisymm := by
    intro l m
    unfold octCochain
    by_cases h1 : l = 3 ∧ m = 0
    · obtain ⟨rfl, rfl⟩ := h1; simp
    · by_cases h2 : l = 0 ∧ m = 3
      · obtain ⟨rfl, rfl⟩ := h2; simp
      · rw [if_neg (fun h => h2 ⟨h.2, h.1⟩), if_neg (fun h => h1 ⟨h.2, h.1⟩), if_neg h1, if_neg h2]; rfl
  rows := by
    intro r hr
    simp only [List.mem_cons, List.not_mem_nil, or_false] at hr
    subst hr
    exact ⟨3, 0, rfl, rfl⟩
  unlisted := by
    intro a b h
    have := h ⟨[3, 0], v⟩ (by simp)
    simp only [ne_eq, List.cons.injEq, and_true] at this
    unfold octCochain
    rw [if_neg (fun h' => this.1 ⟨h'.1.symm, h'.2.symm⟩), if_neg (fun h' => this.2 ⟨h'.2.symm, h'.1.symm⟩)]

/-- The call made in the examples. -/
noncomputable def octProjArgs (mode : RedMode) (dim : ℤ) : ProjArgs :=
  ⟨.fin (1 / 2), .int 0, dim, bumpLinear, false, true, mode⟩

/-- All hypotheses of C48 and C54 hold for a lens coordinate with prime 3 on the octagon. -/
example (eigh : Eigh ℂ) : ∃ X : Arr ℂ, (lensGetCoordinates eigh 4 (octProj 3 2) (octProjArgs .exponential 2)).2 = .ok X ∧
    X.rows = 8 ∧ X.cols = 2 ∧ ∃ (w : ℕ → ℕ → ℝ) (V : List (Option ℝ)) (β : ℕ → ℕ),
      ppca eigh 4 (classMapVia 4 8 (octProj 3 2).dist (3 / 2) (lensVector 3 (octCochain 2) w) β) 1 .exponential = .ok ⟨V, X⟩ ∧
      ∃ ζ : ℂ, ζ ^ (3 : ℤ) = 1 ∧
        ∀ m < 4, lensVector 3 (octCochain 2) w 0 7 m = ζ * lensVector 3 (octCochain 2) w (β 7) 7 m := by
  obtain ⟨X, r, h1, h2, h3, h4, h5⟩ := C84_lens_returns eigh 4 (octProj 3 2) (octProjArgs .exponential 2) (octProj_wf 3 2)
    2 4 (1 / 2) _ (octProj_class 3 2) rfl (by norm_num [octProjArgs]) positiveBump_linear (by simp [octProjArgs]) 2 rfl
    (by norm_num) (by decide) (by decide)
  simp only [octProjArgs, Bool.false_eq_true, if_false] at h3
  obtain rfl : r = 3 / 2 := by linarith
  obtain ⟨w, V, β, -, h6, -, h7⟩ := C48_lens_class_map (octProj_wf 3 2) (by decide) positiveBump_linear h1 h2
    (octProj_class 3 2).stored (octCochain_represents 2) octObj_triangle
    (fun i j k h => absurd h (octObj_no_triangle i j k))
  have hball : InBall (octProj 3 2).nLand (octProj 3 2).dist (3 / 2) 0 7 := by
    refine ⟨by decide, ?_⟩
    show ((octDist _ _ : ℕ) : ℝ) < _
    norm_num [octDist]
  exact ⟨X, h1, h4, h5, w, V, β, h6, (h7 7 0 hball).2⟩

/-- The statement of C54 for that call, with any other balls containing the data points. -/
example (eigh : Eigh ℂ) (β' : ℕ → ℕ) (hβ' : ∀ i, (∃ l, InBall 4 (octProj 3 2).dist (3 / 2) l i) →
    InBall 4 (octProj 3 2).dist (3 / 2) (β' i) i) :
    ∃ (X : Arr ℂ) (V : List (Option ℝ)) (w : ℕ → ℕ → ℝ) (ζ : ℕ → ℂ),
      (lensGetCoordinates eigh 4 (octProj 3 2) (octProjArgs .exponential 2)).2 = .ok X ∧ (∀ i, ζ i ^ (3 : ℤ) = 1) ∧
      ppca eigh 4 (classMapVia 4 8 (octProj 3 2).dist (3 / 2) (lensVector 3 (octCochain 2) w) β') 1 .exponential =
        .ok ⟨V, ⟨X.rows, X.cols, fun i j => (X.at' i j).map fun y => ζ i * y⟩⟩ := by
  obtain ⟨X, r, h1, h2, h3, h4, h5⟩ := C84_lens_returns eigh 4 (octProj 3 2) (octProjArgs .exponential 2) (octProj_wf 3 2)
    2 4 (1 / 2) _ (octProj_class 3 2) rfl (by norm_num [octProjArgs]) positiveBump_linear (by simp [octProjArgs]) 2 rfl
    (by norm_num) (by decide) (by decide)
  simp only [octProjArgs, Bool.false_eq_true, if_false] at h3
  obtain rfl : r = 3 / 2 := by linarith
  obtain ⟨w, V, β, -, h6, h7⟩ := C54_lens_choice_of_balls (octProj_wf 3 2) (by decide) positiveBump_linear h1 h2
    (octProj_class 3 2).stored (octCochain_represents 2) octObj_triangle
    (fun i j k h => absurd h (octObj_no_triangle i j k))
  obtain ⟨ζ, h8, h9⟩ := h7 β' hβ'
  exact ⟨X, V, w, ζ, h1, h8, h9⟩

/-- All hypotheses of C49 and C54 hold for a real projective coordinate on the octagon. -/
example (eigh : Eigh ℝ) : ∃ X : Arr ℝ, (projGetCoordinates eigh 4 (octProj 2 1) (octProjArgs .direct 1)).2 = .ok X ∧
    X.rows = 8 ∧ X.cols = 2 ∧ ∃ (w : ℕ → ℕ → ℝ) (V : List (Option ℝ)) (β : ℕ → ℕ),
      ppca eigh 4 (classMapVia 4 8 (octProj 2 1).dist (3 / 2) (signVector (octCochain 1) w) β) 1 .direct = .ok ⟨V, X⟩ ∧
      ∑ m ∈ Finset.range 4, (signVector (octCochain 1) w 3 7 m) ^ 2 = 1 := by
  obtain ⟨X, r, h1, h2, h3, h4, h5⟩ := C84_projective_returns eigh 4 (octProj 2 1) (octProjArgs .direct 1) (octProj_wf 2 1)
    2 4 (1 / 2) _ (octProj_class 2 1) (by simp) rfl (by norm_num [octProjArgs]) positiveBump_linear (by simp [octProjArgs]) 1
    rfl (by norm_num) (by decide) (by decide)
  simp only [octProjArgs, Bool.false_eq_true, if_false] at h3
  obtain rfl : r = 3 / 2 := by linarith
  obtain ⟨w, V, β, -, h6, -, h7⟩ := C49_projective_class_map (octProj_wf 2 1) positiveBump_linear h1 h2
    (octProj_class 2 1).stored (octCochain_represents 1) octObj_triangle
    (fun i j k h => absurd h (octObj_no_triangle i j k))
  have hball : InBall (octProj 2 1).nLand (octProj 2 1).dist (3 / 2) 3 7 := by
    refine ⟨by decide, ?_⟩
    show ((octDist _ _ : ℕ) : ℝ) < _
    norm_num [octDist]
  exact ⟨X, h1, h4, h5, w, V, β, h6, (h7 7 3 hball).1⟩

/-- The statement of C54 for that call, with any other balls containing the data points. -/
example (eigh : Eigh ℝ) (β' : ℕ → ℕ) (hβ' : ∀ i, (∃ l, InBall 4 (octProj 2 1).dist (3 / 2) l i) →
    InBall 4 (octProj 2 1).dist (3 / 2) (β' i) i) :
    ∃ (X : Arr ℝ) (V : List (Option ℝ)) (w : ℕ → ℕ → ℝ) (ε : ℕ → ℝ),
      (projGetCoordinates eigh 4 (octProj 2 1) (octProjArgs .direct 1)).2 = .ok X ∧ (∀ i, ε i = 1 ∨ ε i = -1) ∧
      ppca eigh 4 (classMapVia 4 8 (octProj 2 1).dist (3 / 2) (signVector (octCochain 1) w) β') 1 .direct =
        .ok ⟨V, ⟨X.rows, X.cols, fun i j => (X.at' i j).map fun y => ε i * y⟩⟩ := by
  obtain ⟨X, r, h1, h2, h3, h4, h5⟩ := C84_projective_returns eigh 4 (octProj 2 1) (octProjArgs .direct 1) (octProj_wf 2 1)
    2 4 (1 / 2) _ (octProj_class 2 1) (by simp) rfl (by norm_num [octProjArgs]) positiveBump_linear (by simp [octProjArgs]) 1
    rfl (by norm_num) (by decide) (by decide)
  simp only [octProjArgs, Bool.false_eq_true, if_false] at h3
  obtain rfl : r = 3 / 2 := by linarith
  obtain ⟨w, V, β, -, h6, h7⟩ := C54_projective_choice_of_balls (octProj_wf 2 1) positiveBump_linear h1 h2
    (octProj_class 2 1).stored (octCochain_represents 1) octObj_triangle
    (fun i j k h => absurd h (octObj_no_triangle i j k))
  obtain ⟨ε, h8, h9⟩ := h7 β' hβ'
  exact ⟨X, V, w, ε, h1, h8, h9⟩

end Dreimac
