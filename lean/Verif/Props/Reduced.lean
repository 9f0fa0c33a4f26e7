import Verif.Lemmas.Reduced
import Verif.Props.Continuity

/-!
# C130: reduced coordinates still detect the class, if the reduction loses little
-/

namespace Dreimac

open Real

noncomputable section

/-- **C130 (reduction).** In every mode, a finite result of the dimensionality reduction of unit vectors `a` is one orthogonal
projection to a subspace of the prescribed dimension, followed by scaling to length one (however many steps were made on the way),
and inner products change at most by the product of the distances of the two vectors from this subspace.  In mode "direct" the
subspace is the one that captures most of the energy. -/
theorem C130_projection {𝕜 : Type} [RCLike 𝕜] (eigh : Eigh 𝕜) (he : EighSpec eigh) (fuel : ℕ) (A : Arr 𝕜) (a : ℕ → ℕ → 𝕜)
    (hA : ∀ n < A.rows, ∀ i < A.cols, A.at' n i = some (a n i))
    (hunit : ∀ n < A.rows, ∑ i ∈ Finset.range A.cols, ‖a n i‖ ^ 2 = 1) (projDim : ℕ) (hp : projDim < A.cols) (mode : RedMode)
    (R : PpcaResult 𝕜) (h : ppca eigh fuel A projDim mode = .ok R) (y : ℕ → ℕ → 𝕜)
    (hy : ∀ n < A.rows, ∀ k < R.X.cols, R.X.at' n k = some (y n k)) :
    R.X.rows = A.rows ∧ ∃ v s, IsNormalizedProjection R.X.cols A.cols A.rows v a y s ∧
      (mode = .direct → CapturesMost R.X.cols A.cols A.rows v a) ∧ ∀ i < A.rows, ∀ j < A.rows,
      ‖(s i : 𝕜) * s j * ∑ k ∈ Finset.range R.X.cols, star (y i k) * y j k - ∑ m ∈ Finset.range A.cols, star (a i m) * a j m‖ ≤
        lost (s i) * lost (s j) := by
  obtain ⟨Y, hY, hs⟩ := ppca_stage eigh fuel A projDim hp mode R h
  obtain ⟨h1, h2⟩ := stage_projection he (by omega) hs (fun i hi n hn => hA n hn i hi) hunit
  by_cases hd : mode = .direct
  · subst hd
    obtain ⟨hr, hc, hstep⟩ := C104_direct eigh he fuel A projDim hp R h
    obtain ⟨v, hon, hopt, hrow⟩ := hstep a hA
    rw [← hc] at hon hopt hrow
    have hsc : ∀ n, ∃ s : ℝ, n < A.rows → 0 < s ∧ (∑ q ∈ Finset.range R.X.cols, ‖y n q‖ ^ 2 = 1) ∧
        ∀ q < R.X.cols, ∑ i ∈ Finset.range A.cols, star (v q i) * a n i = (s : 𝕜) * y n q := by
      intro n
      by_cases hn : n < A.rows
      · rcases hrow n hn with ⟨y', s', g1, g2, g3⟩ | g
        · have hyy : ∀ q < R.X.cols, y' q = y n q := by
            intro q hq
            have := (g3 q hq).1.symm.trans (hy n hn q hq)
            injection this
          refine ⟨s', fun _ => ⟨g1, ?_, fun q hq => ?_⟩⟩
          · rw [← g2]
            exact Finset.sum_congr rfl fun q hq => by rw [hyy q (Finset.mem_range.1 hq)]
          · rw [← hyy q hq]; exact (g3 q hq).2
        · have := (g 0 (by omega)).1.symm.trans (hy n hn 0 (by omega))
          cases this
      · exact ⟨0, fun h => absurd h hn⟩
    choose s hsp using hsc
    have hv : IsNormalizedProjection R.X.cols A.cols A.rows v a y s :=
      ⟨hon, fun n hn => (hsp n hn).1, fun n hn => (hsp n hn).2.1, fun n hn => (hsp n hn).2.2⟩
    exact ⟨hr, v, s, hv, fun _ => ⟨hon, hopt⟩, fun i hi j hj => projection_inner hv hi hj (hunit i hi) (hunit j hj)⟩
  · rw [hY] at hy ⊢
    obtain ⟨v, s, hv⟩ := h2 y fun k hk n hn => hy n hn k hk
    exact ⟨h1, v, s, hv, fun h => absurd h hd, fun i hi j hj => projection_inner hv hi hj (hunit i hi) (hunit j hj)⟩

/-- **C130 (finite entries).** In mode "direct" the entries are finite, if no data point is orthogonal to a subspace that captures most
of the energy. -/
theorem C130_direct_finite {𝕜 : Type} [RCLike 𝕜] (eigh : Eigh 𝕜) (he : EighSpec eigh) (fuel : ℕ) (A : Arr 𝕜) (a : ℕ → ℕ → 𝕜)
    (hA : ∀ n < A.rows, ∀ i < A.cols, A.at' n i = some (a n i)) (projDim : ℕ) (hp : projDim < A.cols)
    (R : PpcaResult 𝕜) (h : ppca eigh fuel A projDim .direct = .ok R)
    (hnz : ∀ v, CapturesMost (projDim + 1) A.cols A.rows v a → ∀ n < A.rows, ∃ k < projDim + 1,
      ∑ m ∈ Finset.range A.cols, star (v k m) * a n m ≠ 0) :
    ∃ y : ℕ → ℕ → 𝕜, ∀ n < A.rows, ∀ k < projDim + 1, R.X.at' n k = some (y n k) := by
  obtain ⟨hr, hc, hstep⟩ := C104_direct eigh he fuel A projDim hp R h
  obtain ⟨v, hon, hopt, hrow⟩ := hstep a hA
  have : ∀ n, ∃ y : ℕ → 𝕜, n < A.rows → ∀ k < projDim + 1, R.X.at' n k = some (y k) := by
    intro n
    by_cases hn : n < A.rows
    · rcases hrow n hn with ⟨y', s', g1, g2, g3⟩ | g
      · exact ⟨y', fun _ k hk => (g3 k hk).1⟩
      · obtain ⟨k, hk, hne⟩ := hnz v ⟨hon, hopt⟩ n hn
        exact absurd (g k hk).2 hne
    · exact ⟨fun _ => 0, fun h => absurd h hn⟩
  choose y hy using this
  exact ⟨y, fun n hn k hk => hy n hn k hk⟩

/-! ### Inner products along a closed path -/

section
variable {𝕜 : Type} [RCLike 𝕜] {p : ℤ} {χ : ℤ → 𝕜} {ξ : ℕ → ℕ → ℤ} {idx : List ℕ} {N : ℕ} {δ : ℕ → ℕ → ℝ} {r : ℝ} {w : ℕ → ℕ → ℝ}
  {c : ℕ → ℕ → ℕ → ℤ} {ν : ℕ → ℕ → ℝ}

theorem data_inner (hχ : IsCharacter p χ) (hP : PhaseData idx.toFinset N δ r w c ν) (hξ : ∀ u v, ξ v u = -ξ u v)
    (hc : CocycleModOn p idx δ (2 * r) ξ) {u b b' i j : ℕ} (hi : i < N) (hj : j < N) (hu : u ∈ idx) (hb : b ∈ idx) (hb' : b' ∈ idx)
    (hui : δ u i < r) (huj : δ u j < r) (hbi : δ b i < r) (hbj : δ b' j < r) :
    ∑ v ∈ idx.toFinset, star (((√(w v i) : ℝ) : 𝕜) * χ (ξ b v)) * (((√(w v j) : ℝ) : 𝕜) * χ (ξ b' v)) =
      ((dataOverlap idx.toFinset w i j : ℝ) : 𝕜) * χ (ξ u b - ξ u b') := by
  have hmem : ∀ {v}, v ∈ idx → v ∈ idx.toFinset := List.mem_toFinset.2
  unfold dataOverlap
  rw [RCLike.ofReal_sum, Finset.sum_mul]
  refine Finset.sum_congr rfl fun v hv => ?_
  have e3 : star ((√(w v i) : ℝ) : 𝕜) = ((√(w v i) : ℝ) : 𝕜) := by rw [RCLike.star_def, RCLike.conj_ofReal]
  rw [star_mul', e3, hχ.star]
  by_cases hvi : δ v i < r
  · by_cases hvj : δ v j < r
    · have cl : ∀ {s t q}, s ∈ idx → t ∈ idx → q < N → δ s q < r → δ t q < r → δ s t < 2 * r :=
        fun hs ht hq h1 h2 => hP.close _ (hmem hs) _ (hmem ht) _ hq h1 h2
      have hv' := List.mem_toFinset.1 hv
      have h1 := hc b hb u hu v hv' (cl hb hu hi hbi hui) (cl hu hv' hi hui hvi) (cl hb hv' hi hbi hvi)
      have h2 := hc b' hb' u hu v hv' (cl hb' hu hj hbj huj) (cl hu hv' hj huj hvj) (cl hb' hv' hj hbj hvj)
      have : χ (-ξ b v) * χ (ξ b' v) = χ (ξ u b - ξ u b') := by
        rw [← hχ.add]
        apply hχ.congr
        rw [hξ u b] at h1
        rw [hξ u b'] at h2
        have := dvd_sub h1 h2
        have e : ∀ A B C D E : ℤ, -A + B - (C - D) = -C + E - A - (-D + E - B) := by intros; ring
        rw [e]; exact this
      rw [← this]
      push_cast
      ring
    · rw [show √(w v j) = 0 from Real.sqrt_eq_zero_of_nonpos (not_lt.1 fun h =>
        hvj ((hP.support j hj ⟨u, hmem hu, huj⟩ v hv).1 h))]
      simp
  · rw [show √(w v i) = 0 from Real.sqrt_eq_zero_of_nonpos (not_lt.1 fun h =>
      hvi ((hP.support i hi ⟨u, hmem hu, hui⟩ v hv).1 h))]
    simp

theorem dataOverlap_pos (hP : PhaseData idx.toFinset N δ r w c ν) {u i j : ℕ} (hi : i < N) (hj : j < N) (hu : u ∈ idx.toFinset)
    (hui : δ u i < r) (huj : δ u j < r) : 0 < dataOverlap idx.toFinset w i j := by
  apply Finset.sum_pos'
  · intro m _; positivity
  · exact ⟨u, hu, mul_pos (Real.sqrt_pos.2 ((hP.support i hi ⟨u, hu, hui⟩ u hu).2 hui))
      (Real.sqrt_pos.2 ((hP.support j hj ⟨u, hu, huj⟩ u hu).2 huj))⟩

/-- Along a closed path the inner products of the unreduced vectors are multiples of `χ (k q)`, where the numbers `k q` add up to
minus the value of the class on the path of landmarks. -/
theorem loop_values (hχ : IsCharacter p χ) (hP : PhaseData idx.toFinset N δ r w c ν) (hξ : ∀ u v, ξ v u = -ξ u v)
    (hc : CocycleModOn p idx δ (2 * r) ξ) {β : ℕ → ℕ} (hβ : ∀ i < N, (∃ u ∈ idx, δ u i < r) → β i ∈ idx ∧ δ (β i) i < r)
    {n : ℕ} {i l : ℕ → ℕ} (hl : DataLoop idx.toFinset N δ r n i l) :
    ∃ k : ℕ → ℤ, p ∣ ∑ q ∈ Finset.range n, k q + pathValue ξ n l ∧ ∀ q < n, 0 < dataOverlap idx.toFinset w (i q) (i (q + 1)) ∧
      ∑ v ∈ idx.toFinset, star (((√(w v (i q)) : ℝ) : 𝕜) * χ (ξ (β (i q)) v)) *
          (((√(w v (i (q + 1))) : ℝ) : 𝕜) * χ (ξ (β (i (q + 1))) v)) =
        ((dataOverlap idx.toFinset w (i q) (i (q + 1)) : ℝ) : 𝕜) * χ (k q) := by
  have hat : ∀ q ≤ n, i q < N ∧ l q ∈ idx ∧ δ (l q) (i q) < r := by
    intro q hq
    rcases hq.lt_or_eq with hq | rfl
    · exact ⟨hl.data q hq, List.mem_toFinset.1 (hl.land q hq), hl.here q hq⟩
    · rw [hl.closed_data, hl.closed_land]
      exact ⟨hl.data 0 hl.pos, List.mem_toFinset.1 (hl.land 0 hl.pos), hl.here 0 hl.pos⟩
  have hb : ∀ q ≤ n, β (i q) ∈ idx ∧ δ (β (i q)) (i q) < r := fun q hq => hβ _ (hat q hq).1 ⟨_, (hat q hq).2.1, (hat q hq).2.2⟩
  refine ⟨fun q => ξ (l q) (β (i q)) - ξ (l q) (β (i (q + 1))), ?_, ?_⟩
  · have h1 : ∀ q ∈ Finset.range n, p ∣ (ξ (l q) (β (i q)) - ξ (l q) (β (i (q + 1)))) + ξ (l q) (l (q + 1)) -
        (ξ (l q) (β (i q)) - ξ (l (q + 1)) (β (i (q + 1)))) := by
      intro q hq
      have hq := Finset.mem_range.1 hq
      obtain ⟨a1, a2, a3⟩ := hat (q + 1) hq
      obtain ⟨b1, b2⟩ := hb (q + 1) hq
      have a4 := (hat q hq.le).2.1
      have a5 := hl.next q hq
      have cl : ∀ {s t}, s ∈ idx → t ∈ idx → δ s (i (q + 1)) < r → δ t (i (q + 1)) < r → δ s t < 2 * r :=
        fun hs ht h1 h2 => hP.close _ (List.mem_toFinset.2 hs) _ (List.mem_toFinset.2 ht) _ a1 h1 h2
      have := hc _ a4 _ a2 _ b1 (cl a4 a2 a5 a3) (cl a2 b1 a3 b2) (cl a4 b1 a5 b2)
      convert this using 1
      ring
    have h2 := Finset.dvd_sum h1
    rw [Finset.sum_sub_distrib, Finset.sum_add_distrib, Finset.sum_range_sub' (fun q => ξ (l q) (β (i q))), hl.closed_data,
      hl.closed_land, sub_self, sub_zero] at h2
    exact h2
  · intro q hq
    obtain ⟨a1, a2, a3⟩ := hat q hq.le
    have a4 := (hat (q + 1) hq).1
    exact ⟨dataOverlap_pos hP a1 a4 (List.mem_toFinset.2 a2) a3 (hl.next q hq),
      data_inner hχ hP hξ hc a1 a4 a2 (hb q hq.le).1 (hb (q + 1) hq).1 a3 (hl.next q hq) (hb q hq.le).2 (hb (q + 1) hq).2⟩

end

/-- Two roots of unity that both rotate `Y` into the sector of angle `π / p` around the positive real axis are the same. -/
theorem sector_unique {p : ℤ} (hp : 0 < p) {Y : ℂ} (hY : Y ≠ 0) {a b : ℤ}
    (ha : |(Complex.exp (2 * π * Complex.I * ((-a : ℤ) : ℂ) / p) * Y).arg| < π / p)
    (hb : |(Complex.exp (2 * π * Complex.I * ((-b : ℤ) : ℂ) / p) * Y).arg| < π / p) : p ∣ a - b := by
  have hχ := lens_character hp
  have hp' : (0 : ℝ) < p := by exact_mod_cast hp
  have hpc : (p : ℂ) ≠ 0 := by exact_mod_cast hp.ne'
  set z := Complex.exp (2 * π * Complex.I * ((-a : ℤ) : ℂ) / p) * Y with hz
  set z' := Complex.exp (2 * π * Complex.I * ((-b : ℤ) : ℂ) / p) * Y with hz'
  have hn : ‖z‖ = ‖Y‖ := by rw [hz, norm_mul, hχ.norm, one_mul]
  have hn' : ‖z'‖ = ‖Y‖ := by rw [hz', norm_mul, hχ.norm, one_mul]
  have e1 := Complex.norm_mul_exp_arg_mul_I z
  have e2 := Complex.norm_mul_exp_arg_mul_I z'
  have hY' : ((‖Y‖ : ℝ) : ℂ) ≠ 0 := by exact_mod_cast (norm_pos_iff.2 hY).ne'
  rw [hn] at e1
  rw [hn'] at e2
  have e3 : z = Complex.exp (2 * π * Complex.I * ((b - a : ℤ) : ℂ) / p) * z' := by
    rw [hz, hz', ← mul_assoc]
    have := hχ.add (b - a) (-b)
    rw [← this]
    congr 4
    push_cast; ring
  rw [← e1, ← e2] at e3
  have e4 : Complex.exp (z.arg * Complex.I) =
      Complex.exp (2 * π * Complex.I * ((b - a : ℤ) : ℂ) / p + z'.arg * Complex.I) := by
    rw [Complex.exp_add]
    refine mul_left_cancel₀ hY' ?_
    rw [e3]; ring
  obtain ⟨m, hm⟩ := Complex.exp_eq_exp_iff_exists_int.1 e4
  have hm2 : ((z.arg : ℝ) : ℂ) * p = 2 * π * ((b - a : ℤ) : ℂ) + z'.arg * p + m * (2 * π) * p := by
    have hI := Complex.I_ne_zero
    refine mul_right_cancel₀ hI ?_
    calc ((z.arg : ℝ) : ℂ) * p * Complex.I = ((z.arg : ℝ) : ℂ) * Complex.I * p := by ring
      _ = _ := by rw [hm]; field_simp
  have hm3 : z.arg * p = 2 * π * ((b - a : ℤ) : ℝ) + z'.arg * p + m * (2 * π) * p := by exact_mod_cast hm2
  obtain ⟨a1, a2⟩ := abs_lt.1 ha
  obtain ⟨b1, b2⟩ := abs_lt.1 hb
  have hpi := Real.pi_pos
  have f1 : z.arg * p < π := by rw [lt_div_iff₀ hp'] at a2; exact a2
  have f2 : -π < z.arg * p := by
    have : -(π / p) * p = -π := by field_simp
    rw [← this]; exact mul_lt_mul_of_pos_right a1 hp'
  have f3 : z'.arg * p < π := by rw [lt_div_iff₀ hp'] at b2; exact b2
  have f4 : -π < z'.arg * p := by
    have : -(π / p) * p = -π := by field_simp
    rw [← this]; exact mul_lt_mul_of_pos_right b1 hp'
  have g : 2 * π * (((b - a + m * p : ℤ) : ℝ)) = z.arg * p - z'.arg * p := by rw [hm3]; push_cast; ring
  have g1 : ((b - a + m * p : ℤ) : ℝ) < 1 := by
    by_contra hc
    have := mul_le_mul_of_nonneg_left (not_lt.1 hc) (by positivity : (0 : ℝ) ≤ 2 * π)
    linarith
  have g2 : (-1 : ℝ) < ((b - a + m * p : ℤ) : ℝ) := by
    by_contra hc
    have := mul_le_mul_of_nonneg_left (not_lt.1 hc) (by positivity : (0 : ℝ) ≤ 2 * π)
    linarith
  have g3 : b - a + m * p < 1 := by exact_mod_cast g1
  have g4 : -1 < b - a + m * p := by exact_mod_cast g2
  exact ⟨m, by linarith [show b - a + m * p = 0 by omega]⟩

theorem lost_nonneg (s : ℝ) : 0 ≤ lost s := Real.sqrt_nonneg _

variable {k : ℕ} {δ : ℕ → ℕ → ℝ} {p : ℤ} {maxdim : ℕ} {res : RipserResult ℝ} {ρ : ℝ → ℝ}

/-- **C130 (lens).** The whole of `LensCoords(X, n_landmarks, prime = p).get_coordinates(perc, cocycle_idx = z, complex_dim = D, …)` for
a data set with distances `δ`, as in C91, with any `2 ≤ D ≤ n_landmarks`, if the balls cover the data set and the entries of the
returned array are finite numbers `y`.  Then row `i` of the array is the normalised orthogonal projection of the unreduced vector of
data point `i` to a subspace of dimension `D` (in mode "direct" the one
that captures most of the energy of the data); let `s i` be the length of this projection.  Consider a closed path of data points with
consecutive points in the ball of a landmark, such that for consecutive points the product of the parts lost by the projection is less
than `sin (π / p)` times the overlap of their weights.  Then the value modulo `p` of ripser's class on the path of landmarks can be read
off from the returned array: for consecutive rows take the multiple of `2 π / p` that is nearest to the angle of their inner product
(there is a unique one at distance less than `π / p`) and add up. -/
theorem C130_lens_reduced (x : DataInput) (hx : DescribesData x δ) (hr : RipserSpec ρ x.rows k δ p maxdim res)
    (argsort : List (Fl ℝ) → List ℕ) (ha : ArgsortSpec argsort) (hm : 1 ≤ maxdim) (hk : 2 ≤ k)
    (hf : x.distanceMatrix = true → x.dtype = .float) (hp : 0 < p) :
    ∃ o dgm coc σ, lensInit argsort res x p maxdim = .ok o ∧ res.dgms[1]? = some dgm ∧ res.cocycles[1]? = some coc ∧
      PersistenceRanking dgm σ ∧
      ∀ (z j : ℕ) (b d : ℝ) (c₀ : List ZRow), σ[z]? = some j → dgm[j]? = some (.fin b, .fin d) → coc[j]? = some c₀ →
      ∃ ξ, ListsCochain c₀ ξ ∧
      ∀ (eigh : Eigh ℂ) (fuel : ℕ) (history : List ProjArgs) (perc : ℝ) (std check : Bool) (bump : Fl ℝ → Fl ℝ → Fl ℝ)
        (mode : RedMode) (D : ℕ), EighSpec eigh → k ≤ fuel → (if std then 2 * b else b) ≤ d → PositiveBump bump →
        mode ≠ .other → 2 ≤ D → D ≤ k →
      ∀ r : ℝ, 2 * r = (1 - perc) * (if std then 2 * b else b) + perc * d → BelowDeath ρ (2 * r) d →
      (∀ i < x.nPoints, ∃ u ∈ res.idxPerm, δ u i < r) →
      ∃ (X : Arr ℂ) (w : ℕ → ℕ → ℝ) (β : ℕ → ℕ), (lensGetCoordinates eigh fuel (lensHistory eigh fuel o history)
          ⟨.fin perc, .int z, D, bump, std, check, mode⟩).2 = .ok X ∧ X.rows = x.nPoints ∧ X.cols = D ∧
        IsBumpWeights res.idxPerm.toFinset x.nPoints δ r bump w ∧ (∀ i < x.nPoints, β i ∈ res.idxPerm ∧ δ (β i) i < r) ∧
        ∀ y : ℕ → ℕ → ℂ, (∀ i < x.nPoints, ∀ m < D, X.at' i m = some (y i m)) →
        ∃ v s, IsNormalizedProjection D k x.nPoints v (fun i m => lensVector p ξ w (β i) i (res.idxPerm.getD m 0)) y s ∧
          (mode = .direct → CapturesMost D k x.nPoints v (fun i m => lensVector p ξ w (β i) i (res.idxPerm.getD m 0))) ∧
          ∀ (n : ℕ) (i l : ℕ → ℕ), DataLoop res.idxPerm.toFinset x.nPoints δ r n i l →
          (∀ q < n, lost (s (i q)) * lost (s (i (q + 1))) <
            dataOverlap res.idxPerm.toFinset w (i q) (i (q + 1)) * sin (π / p)) →
          (∃ t : ℕ → ℤ, ∀ q < n, |(Complex.exp (2 * π * Complex.I * ((-t q : ℤ) : ℂ) / p) *
            ∑ m ∈ Finset.range D, star (y (i q) m) * y (i (q + 1)) m).arg| < π / p) ∧
          ∀ t : ℕ → ℤ, (∀ q < n, |(Complex.exp (2 * π * Complex.I * ((-t q : ℤ) : ℂ) / p) *
            ∑ m ∈ Finset.range D, star (y (i q) m) * y (i (q + 1)) m).arg| < π / p) →
            p ∣ ∑ q ∈ Finset.range n, t q + pathValue ξ n l := by
  obtain ⟨o, dgm, coc, σ, h1, h2, h3, h4, h5⟩ := C91_lens_coordinates x hx hr argsort ha hm (by omega) hf hp
  refine ⟨o, dgm, coc, σ, h1, h2, h3, h4, ?_⟩
  intro z j b d c₀ hz hpt hc₀
  obtain ⟨ξ, hξ, h6⟩ := h5 z j b d c₀ hz hpt hc₀
  refine ⟨ξ, hξ, ?_⟩
  intro eigh fuel history perc std check bump mode D he hfuel hstart hb hmode hD1 hD2 r hr2 hbel hall
  obtain ⟨X, w, V, β, e1, e2, e3, e4, e5, e6⟩ := h6 eigh fuel history perc std check bump mode D hfuel hstart hb hmode hD1 hD2 r hr2
    hbel
  refine ⟨X, w, β, e1, e2, e3, e4, fun i hi => ⟨(e6 i hi (hall i hi)).1, (e6 i hi (hall i hi)).2.1⟩, ?_⟩
  intro y hy
  have hcoc : CocycleModOn p res.idxPerm δ (2 * r) ξ := by
    obtain ⟨ξ', g1, g2⟩ := hr.cocycles dgm coc h2 h3 j _ c₀ hpt hc₀
    obtain rfl := g1.unique hξ
    exact g2 _ (Or.inl ⟨d, rfl, hbel⟩)
  have hSn : ∀ u ∈ res.idxPerm.toFinset, u < x.rows := fun u hu => hr.range u (List.mem_toFinset.1 hu)
  have hP := phaseData_of_bump (c := fun _ _ _ => 0) hx.metric hSn hb e4 (by simp) (by intro u _ v _ w _ z _ _ _ _ _ _ _; rfl)
    (fun _ _ => 0)
  have hχ := lens_character hp
  have hsum : ∀ {E : Type} [AddCommMonoid E] (f : ℕ → E), ∑ m ∈ Finset.range k, f (res.idxPerm.getD m 0) =
      ∑ v ∈ res.idxPerm.toFinset, f v := by
    intro E _ f
    rw [← hr.count, ← sum_landmarks hr.nodup fun m => f (res.idxPerm.getD m 0)]
    refine Finset.sum_congr rfl fun v hv => ?_
    rw [getD_of_lt (idxOf_lt (List.mem_toFinset.1 hv)), getElem_idxOf' (List.mem_toFinset.1 hv)]
  have hcols : (dataClassMap res.idxPerm x.nPoints δ r (lensVector p ξ w) β).cols = k := hr.count
  rw [show (D : ℤ) - 1 = ((D - 1 : ℕ) : ℤ) by omega] at e5
  obtain ⟨-, v, s, hv, hmost, hin⟩ := C130_projection eigh he fuel _ (fun i m => lensVector p ξ w (β i) i (res.idxPerm.getD m 0))
    (fun i hi m hm => if_pos ⟨hi, hm, hall i hi⟩)
    (fun i hi => by
      rw [hcols, hsum fun v => ‖lensVector p ξ w (β i) i v‖ ^ 2]
      obtain ⟨q1, q2, q3⟩ := e6 i hi (hall i hi)
      exact (q3 (β i) q1 q2).1) (D - 1) (by rw [hcols]; omega) mode ⟨V, X⟩ e5 y
    (fun i hi m hm => hy i hi m (by rw [show (⟨V, X⟩ : PpcaResult ℂ).X.cols = X.cols from rfl, e3] at hm; exact hm))
  rw [hcols, show (⟨V, X⟩ : PpcaResult ℂ).X.cols = X.cols from rfl, e3] at hv hmost
  refine ⟨v, s, hv, hmost, ?_⟩
  intro n i l hl hloss
  obtain ⟨κ, hκ, hκ2⟩ := loop_values hχ hP hξ.antisymm hcoc (fun i hi _ => ⟨(e6 i hi (hall i hi)).1, (e6 i hi (hall i hi)).2.1⟩) hl
  have hat : ∀ q ≤ n, i q < x.nPoints := by
    intro q hq
    rcases hq.lt_or_eq with hq | rfl
    · exact hl.data q hq
    · rw [hl.closed_data]; exact hl.data 0 hl.pos
  -- the sector of each inner product
  have hsec : ∀ q < n, (∑ m ∈ Finset.range D, star (y (i q) m) * y (i (q + 1)) m) ≠ 0 ∧
      |(Complex.exp (2 * π * Complex.I * ((-κ q : ℤ) : ℂ) / p) *
        ∑ m ∈ Finset.range D, star (y (i q) m) * y (i (q + 1)) m).arg| < π / p := by
    intro q hq
    have hi := hat q hq.le
    have hi' := hat (q + 1) hq
    obtain ⟨hov, hval⟩ := hκ2 q hq
    have hlo := hloss q hq
    have hb1 := hin (i q) hi (i (q + 1)) hi'
    rw [hcols, hsum fun v => star (lensVector p ξ w (β (i q)) (i q) v) * lensVector p ξ w (β (i (q + 1))) (i (q + 1)) v] at hb1
    rw [show (⟨V, X⟩ : PpcaResult ℂ).X.cols = X.cols from rfl, e3] at hb1
    have hval' : ∑ v ∈ res.idxPerm.toFinset, star (lensVector p ξ w (β (i q)) (i q) v) *
        lensVector p ξ w (β (i (q + 1))) (i (q + 1)) v = ((dataOverlap res.idxPerm.toFinset w (i q) (i (q + 1)) : ℝ) : ℂ) *
          Complex.exp (2 * π * Complex.I * (κ q : ℂ) / p) := hval
    rw [hval'] at hb1
    set ov := dataOverlap res.idxPerm.toFinset w (i q) (i (q + 1))
    set Y := ∑ m ∈ Finset.range D, star (y (i q) m) * y (i (q + 1)) m
    have hs1 := hv.pos (i q) hi
    have hs2 := hv.pos (i (q + 1)) hi'
    have hp2 : 2 ≤ p := by
      by_contra hc
      obtain rfl : p = 1 := by omega
      have := mul_nonneg (lost_nonneg (s (i q))) (lost_nonneg (s (i (q + 1))))
      simp at hlo
      linarith
    have hp' : (2 : ℝ) ≤ p := by exact_mod_cast hp2
    have hinv : Complex.exp (2 * π * Complex.I * ((-κ q : ℤ) : ℂ) / p) * Complex.exp (2 * π * Complex.I * (κ q : ℂ) / p) = 1 := by
      have := hχ.add (-κ q) (κ q)
      rw [← this]; simp
    have hbound : ‖((s (i q) * s (i (q + 1)) : ℝ) : ℂ) * (Complex.exp (2 * π * Complex.I * ((-κ q : ℤ) : ℂ) / p) * Y) - (ov : ℝ)‖ <
        ov * sin (π / p) := by
      refine lt_of_eq_of_lt ?_ (hb1.trans_lt hlo)
      have hn1 := hχ.norm (-κ q)
      have hmul : ∀ u : ℂ, ‖Complex.exp (2 * π * Complex.I * ((-κ q : ℤ) : ℂ) / p) * u‖ = ‖u‖ := fun u => by
        rw [norm_mul, hn1, one_mul]
      refine Eq.trans ?_ (hmul _)
      congr 1
      push_cast at hinv ⊢
      linear_combination (ov : ℂ) * hinv
    have harg := abs_arg_lt hov (by positivity) (by
      rw [div_le_div_iff₀ (by linarith) (by norm_num)]
      exact mul_le_mul_of_nonneg_left hp' Real.pi_pos.le) hbound
    rw [Complex.arg_real_mul _ (mul_pos hs1 hs2)] at harg
    refine ⟨?_, harg⟩
    intro h0
    rw [h0] at hbound
    simp only [mul_zero, zero_sub, norm_neg, Complex.norm_real, Real.norm_of_nonneg hov.le] at hbound
    have := mul_le_of_le_one_right hov.le (sin_le_one (π / p))
    linarith
  refine ⟨⟨κ, fun q hq => (hsec q hq).2⟩, fun t ht => ?_⟩
  have : p ∣ ∑ q ∈ Finset.range n, (t q - κ q) := by
    refine Finset.dvd_sum fun q hq => ?_
    have hq := Finset.mem_range.1 hq
    exact sector_unique hp (hsec q hq).1 (ht q hq) (hsec q hq).2
  rw [Finset.sum_sub_distrib] at this
  have := dvd_add this hκ
  rwa [show ∀ a b c : ℤ, a - b + (b + c) = a + c from fun a b c => by ring] at this

/-- **C130 (real projective).** As for lens coordinates, for `ProjectiveCoords` with `proj_dim = D - 1`, `2 ≤ D ≤ n_landmarks`: if for
consecutive points the product of the lost parts is less than the overlap of their weights, the product of the inner products of
consecutive rows along the closed path is positive if the class has an even value on the path of landmarks, and negative if the value
is odd. -/
theorem C130_projective_reduced (x : DataInput) (hx : DescribesData x δ) (hr : RipserSpec ρ x.rows k δ 2 maxdim res)
    (argsort : List (Fl ℝ) → List ℕ) (ha : ArgsortSpec argsort) (hm : 1 ≤ maxdim) (hk : 2 ≤ k)
    (hf : x.distanceMatrix = true → x.dtype = .float) :
    ∃ o dgm coc σ, projInit argsort res x maxdim = .ok o ∧ res.dgms[1]? = some dgm ∧ res.cocycles[1]? = some coc ∧
      PersistenceRanking dgm σ ∧
      ∀ (z j : ℕ) (b d : ℝ) (c₀ : List ZRow), σ[z]? = some j → dgm[j]? = some (.fin b, .fin d) → coc[j]? = some c₀ →
      ∃ ξ, ListsCochain c₀ ξ ∧
      ∀ (eigh : Eigh ℝ) (fuel : ℕ) (history : List ProjArgs) (perc : ℝ) (std check : Bool) (bump : Fl ℝ → Fl ℝ → Fl ℝ)
        (mode : RedMode) (q : ℕ), EighSpec eigh → k ≤ fuel → (if std then 2 * b else b) ≤ d → PositiveBump bump →
        mode ≠ .other → 1 ≤ q → q < k →
      ∀ r : ℝ, 2 * r = (1 - perc) * (if std then 2 * b else b) + perc * d → BelowDeath ρ (2 * r) d →
      (∀ i < x.nPoints, ∃ u ∈ res.idxPerm, δ u i < r) →
      ∃ (X : Arr ℝ) (w : ℕ → ℕ → ℝ) (β : ℕ → ℕ), (projGetCoordinates eigh fuel (projHistory eigh fuel o history)
          ⟨.fin perc, .int z, q, bump, std, check, mode⟩).2 = .ok X ∧ X.rows = x.nPoints ∧ X.cols = q + 1 ∧
        IsBumpWeights res.idxPerm.toFinset x.nPoints δ r bump w ∧ (∀ i < x.nPoints, β i ∈ res.idxPerm ∧ δ (β i) i < r) ∧
        ∀ y : ℕ → ℕ → ℝ, (∀ i < x.nPoints, ∀ m < q + 1, X.at' i m = some (y i m)) →
        ∃ v s, IsNormalizedProjection (q + 1) k x.nPoints v (fun i m => signVector ξ w (β i) i (res.idxPerm.getD m 0)) y s ∧
          (mode = .direct → CapturesMost (q + 1) k x.nPoints v (fun i m => signVector ξ w (β i) i (res.idxPerm.getD m 0))) ∧
          ∀ (n : ℕ) (i l : ℕ → ℕ), DataLoop res.idxPerm.toFinset x.nPoints δ r n i l →
          (∀ q < n, lost (s (i q)) * lost (s (i (q + 1))) < dataOverlap res.idxPerm.toFinset w (i q) (i (q + 1))) →
          (Even (pathValue ξ n l) → 0 < ∏ t ∈ Finset.range n, ∑ m ∈ Finset.range (q + 1), y (i t) m * y (i (t + 1)) m) ∧
          (Odd (pathValue ξ n l) → ∏ t ∈ Finset.range n, ∑ m ∈ Finset.range (q + 1), y (i t) m * y (i (t + 1)) m < 0) := by
  obtain ⟨o, dgm, coc, σ, h1, h2, h3, h4, h5⟩ := C91_projective_coordinates x hx hr argsort ha hm (by omega) hf
  refine ⟨o, dgm, coc, σ, h1, h2, h3, h4, ?_⟩
  intro z j b d c₀ hz hpt hc₀
  obtain ⟨ξ, hξ, h6⟩ := h5 z j b d c₀ hz hpt hc₀
  refine ⟨ξ, hξ, ?_⟩
  intro eigh fuel history perc std check bump mode D he hfuel hstart hb hmode hD1 hD2 r hr2 hbel hall
  obtain ⟨X, w, V, β, e1, e2, e3, e4, e5, e6⟩ := h6 eigh fuel history perc std check bump mode D hfuel hstart hb hmode hD1 hD2 r hr2
    hbel
  refine ⟨X, w, β, e1, e2, e3, e4, fun i hi => ⟨(e6 i hi (hall i hi)).1, (e6 i hi (hall i hi)).2.1⟩, ?_⟩
  intro y hy
  have hcoc : CocycleModOn 2 res.idxPerm δ (2 * r) ξ := by
    obtain ⟨ξ', g1, g2⟩ := hr.cocycles dgm coc h2 h3 j _ c₀ hpt hc₀
    obtain rfl := g1.unique hξ
    exact g2 _ (Or.inl ⟨d, rfl, hbel⟩)
  have hSn : ∀ u ∈ res.idxPerm.toFinset, u < x.rows := fun u hu => hr.range u (List.mem_toFinset.1 hu)
  have hP := phaseData_of_bump (c := fun _ _ _ => 0) hx.metric hSn hb e4 (by simp) (by intro u _ v _ w _ z _ _ _ _ _ _ _; rfl)
    (fun _ _ => 0)
  have hχ := sign_character
  have hsum : ∀ {E : Type} [AddCommMonoid E] (f : ℕ → E), ∑ m ∈ Finset.range k, f (res.idxPerm.getD m 0) =
      ∑ v ∈ res.idxPerm.toFinset, f v := by
    intro E _ f
    rw [← hr.count, ← sum_landmarks hr.nodup fun m => f (res.idxPerm.getD m 0)]
    refine Finset.sum_congr rfl fun v hv => ?_
    rw [getD_of_lt (idxOf_lt (List.mem_toFinset.1 hv)), getElem_idxOf' (List.mem_toFinset.1 hv)]
  have hcols : (dataClassMap res.idxPerm x.nPoints δ r (signVector ξ w) β).cols = k := hr.count
  obtain ⟨-, v, s, hv, hmost, hin⟩ := C130_projection eigh he fuel _ (fun i m => signVector ξ w (β i) i (res.idxPerm.getD m 0))
    (fun i hi m hm => if_pos ⟨hi, hm, hall i hi⟩)
    (fun i hi => by
      rw [hcols, hsum fun v => ‖signVector ξ w (β i) i v‖ ^ 2]
      obtain ⟨q1, q2, q3⟩ := e6 i hi (hall i hi)
      simpa using (q3 (β i) q1 q2).1) D (by rw [hcols]; omega) mode ⟨V, X⟩ e5 y
    (fun i hi m hm => hy i hi m (by rw [show (⟨V, X⟩ : PpcaResult ℝ).X.cols = X.cols from rfl, e3] at hm; exact hm))
  rw [hcols, show (⟨V, X⟩ : PpcaResult ℝ).X.cols = X.cols from rfl, e3] at hv hmost
  refine ⟨v, s, hv, hmost, ?_⟩
  intro n i l hl hloss
  obtain ⟨κ, hκ, hκ2⟩ := loop_values hχ hP hξ.antisymm hcoc (fun i hi _ => ⟨(e6 i hi (hall i hi)).1, (e6 i hi (hall i hi)).2.1⟩) hl
  have hat : ∀ q ≤ n, i q < x.nPoints := by
    intro q hq
    rcases hq.lt_or_eq with hq | rfl
    · exact hl.data q hq
    · rw [hl.closed_data]; exact hl.data 0 hl.pos
  have hsec : ∀ q < n, ∃ ρ : ℝ, 0 < ρ ∧ ∑ m ∈ Finset.range (D + 1), y (i q) m * y (i (q + 1)) m = ρ * (-1 : ℝ) ^ κ q := by
    intro q hq
    have hi := hat q hq.le
    have hi' := hat (q + 1) hq
    obtain ⟨hov, hval⟩ := hκ2 q hq
    have hlo := hloss q hq
    have hb1 := hin (i q) hi (i (q + 1)) hi'
    rw [hcols, hsum fun v => star (signVector ξ w (β (i q)) (i q) v) * signVector ξ w (β (i (q + 1))) (i (q + 1)) v] at hb1
    rw [show (⟨V, X⟩ : PpcaResult ℝ).X.cols = X.cols from rfl, e3] at hb1
    have hval' : ∑ v ∈ res.idxPerm.toFinset, star (signVector ξ w (β (i q)) (i q) v) *
        signVector ξ w (β (i (q + 1))) (i (q + 1)) v = dataOverlap res.idxPerm.toFinset w (i q) (i (q + 1)) *
          (-1 : ℝ) ^ κ q := hval
    rw [hval'] at hb1
    simp only [star_trivial, RCLike.ofReal_real_eq_id, id] at hb1
    set ov := dataOverlap res.idxPerm.toFinset w (i q) (i (q + 1))
    set Y := ∑ m ∈ Finset.range (D + 1), y (i q) m * y (i (q + 1)) m
    have hs1 := hv.pos (i q) hi
    have hs2 := hv.pos (i (q + 1)) hi'
    have hsq : (-1 : ℝ) ^ κ q * (-1 : ℝ) ^ κ q = 1 := by rw [← mul_zpow]; norm_num
    refine ⟨Y * (-1 : ℝ) ^ κ q, ?_, by rw [mul_assoc, hsq, mul_one]⟩
    have hb2 := abs_lt.1 (hb1.trans_lt hlo)
    have hss := mul_pos hs1 hs2
    have : 0 < s (i q) * s (i (q + 1)) * (Y * (-1 : ℝ) ^ κ q) := by
      rcases Int.even_or_odd (κ q) with he' | he'
      · rw [he'.neg_one_zpow] at hb2 ⊢
        linarith [hb2.1]
      · rw [he'.neg_one_zpow] at hb2 ⊢
        linarith [hb2.2]
    exact (pos_iff_pos_of_mul_pos this).1 hss
  have hprod : ∃ ρ : ℝ, 0 < ρ ∧ ∏ t ∈ Finset.range n, ∑ m ∈ Finset.range (D + 1), y (i t) m * y (i (t + 1)) m =
      ρ * (-1 : ℝ) ^ (∑ q ∈ Finset.range n, κ q) := by
    have hch : ∀ q, ∃ ρ : ℝ, q < n → 0 < ρ ∧ ∑ m ∈ Finset.range (D + 1), y (i q) m * y (i (q + 1)) m = ρ * (-1 : ℝ) ^ κ q := by
      intro q
      by_cases hq : q < n
      · obtain ⟨ρ, h⟩ := hsec q hq
        exact ⟨ρ, fun _ => h⟩
      · exact ⟨0, fun h => absurd h hq⟩
    choose ρ hρ using hch
    refine ⟨∏ q ∈ Finset.range n, ρ q, Finset.prod_pos fun q hq => (hρ q (Finset.mem_range.1 hq)).1, ?_⟩
    rw [IsCharacter.sum hχ, ← Finset.prod_mul_distrib]
    exact Finset.prod_congr rfl fun q hq => (hρ q (Finset.mem_range.1 hq)).2
  obtain ⟨ρ', hρ', hprod⟩ := hprod
  rw [hprod]
  have hpar : (Even (∑ q ∈ Finset.range n, κ q) ↔ Even (pathValue ξ n l)) := by
    have := even_iff_two_dvd.2 hκ
    exact Int.even_add.1 this
  constructor
  · intro h
    rw [(hpar.2 h).neg_one_zpow, mul_one]; exact hρ'
  · intro h
    have : Odd (∑ q ∈ Finset.range n, κ q) := by
      rw [← Int.not_even_iff_odd] at h ⊢
      exact fun h' => h (hpar.1 h')
    rw [this.neg_one_zpow]; linarith

end

end Dreimac
