import Verif.Lemmas.Continuity
import Verif.Props.Chern

/-!
# C125: nearby data points have nearby coordinates
-/

namespace Dreimac

open Real Finset

noncomputable section
variable {k : ℕ} {δ : ℕ → ℕ → ℝ} {p : ℤ} {maxdim : ℕ} {res : RipserResult ℝ} {ρ : ℝ → ℝ}

/-- **C125 (bump functions).** The three bump functions of the library are Lipschitz. -/
theorem C125_bump_functions {r : ℝ} (hr : 0 < r) : LipschitzBump bumpLinear r 1 ∧ LipschitzBump bumpQuadratic r (2 * r) ∧
    LipschitzBump bumpExp r (8 / r) :=
  ⟨lipschitz_linear r, lipschitz_quadratic hr.le, lipschitz_exp hr⟩

/-- **C125 (toroidal and circular coordinates).** In the situation of C90 (`ToroidalCoords` on a data set with distances `δ`, any
history of calls, any classes), for a Lipschitz bump function: if `M` bounds the form of the `q`-th coordinate on pairs of landmarks
closer than `2 r`, then data points `i` and `j` in a common ball, whose distances to each landmark differ by at most `ε`, have
angles that differ, up to a multiple of `2 π`, by at most `4 π M k Λ ε / m`. -/
theorem C125_toroidal_lipschitz (x : DataInput) (hx : DescribesData x δ) (hr : RipserSpec ρ x.rows k δ p maxdim res)
    (argsort : List (Fl ℝ) → List ℕ) (ha : ArgsortSpec argsort) (hm : 1 ≤ maxdim) (hk : 0 < k) (hk' : k ≤ 2345)
    (hf : x.distanceMatrix = true → x.dtype = .float) (hp : 0 < p) :
    ∃ o dgm coc σ, toroInit argsort res x k p maxdim = .ok o ∧ res.dgms[1]? = some dgm ∧ res.cocycles[1]? = some coc ∧
      PersistenceRanking dgm σ ∧
      ∀ (m : ℕ) (z : Fin m → ℕ) (b d : Fin m → ℝ) (ξ : Fin m → ℕ → ℕ → ℤ), SelectsClasses dgm coc σ z b d ξ →
      ∀ (env : Oracles) (ε τ : ℝ), 0 ≤ τ → 3 * ε + τ < 1 → SolverSound env.milp ε τ →
      ∀ (fuel : ℕ) (history : List (ℕ × Args)) (perc : ℝ) (std : Bool) (bump : Fl ℝ → Fl ℝ → Fl ℝ),
      PositiveBump bump → ∀ B D r : ℝ, IsGreatest (Set.range b) B → IsLeast (Set.range d) D → B < D →
      (if std then 2 * B else B) ≤ D → 2 * r = (1 - perc) * (if std then 2 * B else B) + perc * D → BelowDeath ρ (2 * r) D →
      ∀ coords, (getCoordinates env fuel (afterCalls env o history)
          ⟨.fin perc, List.ofFn fun a => .int (z a), bump, std, true⟩).2 = .ok coords →
        ∃ (θ : Fin m → ℕ → Fl ℝ) (w : ℕ → ℕ → ℝ) (c : Fin m → ℕ → ℕ → ℤ) (f : Fin m → ℕ → ℝ) (U : Matrix (Fin m) (Fin m) ℤ),
          coords = List.ofFn θ ∧ (U.det = 1 ∨ U.det = -1) ∧ (m = 1 → U = 1) ∧
          (∀ a, IsIntegerLift p res.idxPerm.toFinset δ (2 * r) (ξ a) (c a) ∧
            IsSmallestLift p res.idxPerm.toFinset δ (2 * r) (ξ a) (c a)) ∧
          IsBumpWeights res.idxPerm.toFinset x.nPoints δ r bump w ∧
          (∀ q, IsDataCoordinate res.idxPerm.toFinset x.nPoints δ r w (fun u v => ∑ a, U q a * c a u v)
            (fun u => ∑ a, U q a * f a u) (θ q)) ∧
          (ExactLsq env.lsqr → ∀ a g, dataEnergy res.idxPerm.toFinset δ (2 * r) (c a) (f a) ≤
            dataEnergy res.idxPerm.toFinset δ (2 * r) (c a) g) ∧
          ∀ (q : Fin m) (M Λ : ℝ), FormBound res.idxPerm.toFinset δ (2 * r) (fun u v => ∑ a, U q a * c a u v)
            (fun u => ∑ a, U q a * f a u) M → LipschitzBump bump r Λ →
          ∀ (u i j : ℕ) (h κ : ℝ), NearbyPoints res.idxPerm.toFinset x.nPoints δ r bump u i j h κ →
            ∃ (y y' : ℝ) (t : ℤ), θ q i = .fin y ∧ θ q j = .fin y' ∧ |y - y' - t * (2 * π)| ≤ 4 * π * M * k * Λ * κ / h := by
  obtain ⟨o, dgm, coc, σ, h1, h2, h3, h4, h5⟩ := C90_toroidal_coordinates x hx hr argsort ha hm hk hk' hf hp
  refine ⟨o, dgm, coc, σ, h1, h2, h3, h4, ?_⟩
  intro m z b d ξ hsel env ε τ hτ hετ hsound fuel history perc std bump hb B D r hB hD hBD hstart hr2 hbel coords hok
  obtain ⟨θ, w, c, f, U, e1, e2, e3, e4, e5, e6, e7⟩ := h5 m z b d ξ hsel env ε τ hτ hετ hsound fuel history perc std bump hb B D r
    hB hD hBD hstart hr2 hbel coords hok
  refine ⟨θ, w, c, f, U, e1, e2, e4, e3, e5, e7, e6, ?_⟩
  intro q M Λ hM hL u i j h κ hn
  set S := res.idxPerm.toFinset with hS
  have hSn : ∀ u ∈ S, u < x.rows := fun u hu => hr.range u (List.mem_toFinset.1 hu)
  have hcard : S.card = k := by rw [hS, List.toFinset_card_of_nodup hr.nodup]; exact hr.count
  obtain ⟨hh, hw⟩ := hn.weights hx.metric hSn hb e5 hL
  have hP := phaseData_of_bump (c := fun _ _ _ => 0) hx.metric hSn hb e5 (by simp) (by intro u _ v _ w _ z _ _ _ _ _ _ _; rfl)
    (fun _ _ => 0)
  obtain ⟨hi, hj⟩ := hn.data
  obtain ⟨hui, huj⟩ := hn.ball
  have hu := hn.land
  obtain ⟨y, k1, -, -, t, k2⟩ := (e7 q).angle u hu i hi hui
  obtain ⟨y', k1', -, -, t', k2'⟩ := (e7 q).angle u hu j hj huj
  refine ⟨y, y', t - t', k1, k1', ?_⟩
  set C : ℕ → ℕ → ℤ := fun u v => ∑ a, U q a * c a u v
  set F : ℕ → ℝ := fun u => ∑ a, U q a * f a u
  have s1 := hP.sum_one i hi ⟨u, hu, hui⟩
  have s2 := hP.sum_one j hj ⟨u, hu, huj⟩
  have e : y - y' - ((t - t' : ℤ) : ℝ) * (2 * π) = 2 * π * ∑ v ∈ S, ((C u v : ℝ) - (F u - F v)) * (w v i - w v j) := by
    have e' : ∑ v ∈ S, ((C u v : ℝ) - (F u - F v)) * (w v i - w v j) =
        ∑ v ∈ S, (F v + C u v) * w v i - ∑ v ∈ S, (F v + C u v) * w v j - F u * (∑ v ∈ S, w v i - ∑ v ∈ S, w v j) := by
      rw [← sum_sub_distrib, ← sum_sub_distrib, mul_sum, ← sum_sub_distrib]
      exact sum_congr rfl fun v _ => by ring
    rw [e', s1, s2]
    push_cast
    linear_combination k2 - k2'
  have hM0 : 0 ≤ M := by
    have hc := hP.close u hu u hu i hi hui hui
    exact (abs_nonneg _).trans (hM u hu u hu hc)
  have hterm : |∑ v ∈ S, ((C u v : ℝ) - (F u - F v)) * (w v i - w v j)| ≤ M * ∑ v ∈ S, |w v i - w v j| := by
    rw [mul_sum]
    refine (abs_sum_le_sum_abs _ _).trans (sum_le_sum fun v hv => ?_)
    rw [abs_mul]
    by_cases hvi : δ v i < r
    · exact mul_le_mul_of_nonneg_right (hM u hu v hv (hP.close u hu v hv i hi hui hvi)) (abs_nonneg _)
    · by_cases hvj : δ v j < r
      · exact mul_le_mul_of_nonneg_right (hM u hu v hv (hP.close u hu v hv j hj huj hvj)) (abs_nonneg _)
      · rw [hP.zero hi hu hui hv hvi, hP.zero hj hu huj hv hvj]; simp
  rw [e, abs_mul, abs_of_pos (by positivity)]
  rw [hcard] at hw
  calc 2 * π * |∑ v ∈ S, ((C u v : ℝ) - (F u - F v)) * (w v i - w v j)| ≤ 2 * π * (M * (2 * k * Λ * κ / h)) :=
        mul_le_mul_of_nonneg_left (hterm.trans (mul_le_mul_of_nonneg_left hw hM0)) (by positivity)
    _ = 4 * π * M * k * Λ * κ / h := by ring

/-- The inner products after a reduction to as many dimensions as there are landmarks. -/
theorem dataClassMap_gram {𝕜 : Type} [RCLike 𝕜] {idx : List ℕ} (hnd : idx.Nodup) (hlk : idx.length = k) (hk : 1 ≤ k) {N : ℕ} {r : ℝ}
    {eigh : Eigh 𝕜} (he : EighSpec eigh) {fuel : ℕ} {A : ℕ → ℕ → ℕ → 𝕜} {β : ℕ → ℕ} (hall : ∀ i < N, ∃ u ∈ idx, δ u i < r)
    (hunit : ∀ i < N, ∑ v ∈ idx.toFinset, ‖A (β i) i v‖ ^ 2 = 1) {mode : RedMode} {V : List (Option ℝ)} {X : Arr 𝕜}
    (h : ppca eigh fuel (dataClassMap idx N δ r A β) ((k : ℤ) - 1) mode = .ok ⟨V, X⟩) (hXc : X.cols = k) :
    ∃ y : ℕ → ℕ → 𝕜, (∀ i < N, ∀ m < k, X.at' i m = some (y i m)) ∧
      ∀ i < N, ∀ j < N, ∑ m ∈ range k, star (y i m) * y j m = ∑ v ∈ idx.toFinset, star (A (β i) i v) * A (β j) j v := by
  have hsum : ∀ {E : Type} [AddCommMonoid E] (f : ℕ → E), ∑ m ∈ range k, f (idx.getD m 0) = ∑ v ∈ idx.toFinset, f v := by
    intro E _ f
    rw [← hlk, ← sum_landmarks hnd fun m => f (idx.getD m 0)]
    refine sum_congr rfl fun v hv => ?_
    rw [getD_of_lt (idxOf_lt (List.mem_toFinset.1 hv)), getElem_idxOf' (List.mem_toFinset.1 hv)]
  have hcols : (dataClassMap idx N δ r A β).cols = k := hlk
  rw [show (k : ℤ) - 1 = ((k - 1 : ℕ) : ℤ) by omega] at h
  obtain ⟨-, y, hy, hin⟩ := C103_lossless eigh he fuel (dataClassMap idx N δ r A β)
    (fun i m => A (β i) i (idx.getD m 0))
    (fun i hi m hm => if_pos ⟨hi, hm, hall i hi⟩)
    (fun i hi => by
      rw [hcols, hsum fun v => ‖A (β i) i v‖ ^ 2]
      exact hunit i hi) (k - 1) (by rw [hcols]; omega)
    (fun q m => if q = m then 1 else 0) (fun i q => A (β i) i (idx.getD q 0))
    (fun i _ m hm => by
      rw [hcols] at hm
      rw [show k - 1 + 1 = k by omega]
      simp [hm]) mode ⟨V, X⟩ h
  refine ⟨y, ?_, ?_⟩
  · intro i hi m hm
    exact hy i hi m (by rw [show (⟨V, X⟩ : PpcaResult 𝕜).X.cols = X.cols from rfl, hXc]; exact hm)
  · intro i hi j hj
    have := hin i hi j hj
    rw [hcols] at this
    simp only at this
    rw [hXc] at this
    rw [this, hsum fun v => star (A (β i) i v) * A (β j) j v]

/-- **C125 (lens coordinates).** In the situation of C91 with `complex_dim = n_landmarks = k`, if the balls cover the data set: the
rows `y` of the returned array are unit vectors, and for data points `i` and `j` in a common ball, whose distances to each landmark
differ by at most `ε`, the absolute value of the inner product of their rows (the cosine of their distance in the projective
space) is at least `1 - k Λ ε / m`. -/
theorem C125_lens_lipschitz (x : DataInput) (hx : DescribesData x δ) (hr : RipserSpec ρ x.rows k δ p maxdim res)
    (argsort : List (Fl ℝ) → List ℕ) (ha : ArgsortSpec argsort) (hm : 1 ≤ maxdim) (hk : 2 ≤ k)
    (hf : x.distanceMatrix = true → x.dtype = .float) (hp : 0 < p) :
    ∃ o dgm coc σ, lensInit argsort res x p maxdim = .ok o ∧ res.dgms[1]? = some dgm ∧ res.cocycles[1]? = some coc ∧
      PersistenceRanking dgm σ ∧
      ∀ (z j : ℕ) (b d : ℝ) (c₀ : List ZRow), σ[z]? = some j → dgm[j]? = some (.fin b, .fin d) → coc[j]? = some c₀ →
      ∀ (eigh : Eigh ℂ) (fuel : ℕ) (history : List ProjArgs) (perc : ℝ) (std check : Bool) (bump : Fl ℝ → Fl ℝ → Fl ℝ)
        (mode : RedMode), EighSpec eigh → k ≤ fuel → (if std then 2 * b else b) ≤ d → PositiveBump bump → mode ≠ .other →
      ∀ r : ℝ, 2 * r = (1 - perc) * (if std then 2 * b else b) + perc * d → BelowDeath ρ (2 * r) d →
      (∀ i < x.nPoints, ∃ u ∈ res.idxPerm, δ u i < r) →
      ∃ (X : Arr ℂ) (y : ℕ → ℕ → ℂ), (lensGetCoordinates eigh fuel (lensHistory eigh fuel o history)
          ⟨.fin perc, .int z, k, bump, std, check, mode⟩).2 = .ok X ∧ X.rows = x.nPoints ∧ X.cols = k ∧
        (∀ i < x.nPoints, ∀ m < k, X.at' i m = some (y i m)) ∧ (∀ i < x.nPoints, ∑ m ∈ range k, ‖y i m‖ ^ 2 = 1) ∧
        ∀ Λ, LipschitzBump bump r Λ → ∀ (u i j : ℕ) (h κ : ℝ),
          NearbyPoints res.idxPerm.toFinset x.nPoints δ r bump u i j h κ →
          1 - k * Λ * κ / h ≤ ‖∑ m ∈ range k, star (y i m) * y j m‖ := by
  obtain ⟨o, dgm, coc, σ, h1, h2, h3, h4, h5⟩ := C91_lens_coordinates x hx hr argsort ha hm (by omega) hf hp
  refine ⟨o, dgm, coc, σ, h1, h2, h3, h4, ?_⟩
  intro z j b d c₀ hz hpt hc₀ eigh fuel history perc std check bump mode he hfuel hstart hb hmode r hr2 hbel hall
  obtain ⟨ξ, -, h6⟩ := h5 z j b d c₀ hz hpt hc₀
  obtain ⟨X, w, V, β, e1, e2, e3, e4, e5, e6⟩ := h6 eigh fuel history perc std check bump mode k hfuel hstart hb hmode hk le_rfl r hr2
    hbel
  have hSn : ∀ u ∈ res.idxPerm.toFinset, u < x.rows := fun u hu => hr.range u (List.mem_toFinset.1 hu)
  have hcard : res.idxPerm.toFinset.card = k := by rw [List.toFinset_card_of_nodup hr.nodup]; exact hr.count
  obtain ⟨y, hy, hg⟩ := dataClassMap_gram hr.nodup hr.count (by omega) he hall
    (fun i hi => by
      obtain ⟨q1, q2, q3⟩ := e6 i hi (hall i hi)
      exact (q3 (β i) q1 q2).1) e5 e3
  have hP := phaseData_of_bump (c := fun _ _ _ => 0) hx.metric hSn hb e4 (by simp) (by intro u _ v _ w _ z _ _ _ _ _ _ _; rfl)
    (fun _ _ => 0)
  refine ⟨X, y, e1, e2, e3, hy, ?_, ?_⟩
  · intro i hi
    have := hg i hi i hi
    obtain ⟨q1, q2, q3⟩ := e6 i hi (hall i hi)
    have hn := (q3 (β i) q1 q2).1
    simp only [star_mul_self_rclike] at this
    rw [← RCLike.ofReal_sum, ← RCLike.ofReal_sum] at this
    rw [← hn]
    exact_mod_cast this
  · intro Λ hL u i j h κ hnb
    obtain ⟨hh, hw⟩ := hnb.weights hx.metric hSn hb e4 hL
    obtain ⟨hi, hj⟩ := hnb.data
    obtain ⟨hui, huj⟩ := hnb.ball
    have hu := hnb.land
    obtain ⟨-, -, qi⟩ := e6 i hi (hall i hi)
    obtain ⟨-, -, qj⟩ := e6 j hj (hall j hj)
    obtain ⟨-, ζ, hζ, gi⟩ := qi u (List.mem_toFinset.1 hu) hui
    obtain ⟨-, ζ', hζ', gj⟩ := qj u (List.mem_toFinset.1 hu) huj
    have hroot : ∀ ζ : ℂ, ζ ^ p = 1 → ‖ζ‖ = 1 := by
      intro ζ h
      obtain ⟨n, rfl⟩ := Int.eq_ofNat_of_zero_le hp.le
      rw [zpow_natCast] at h
      exact Complex.norm_eq_one_of_pow_eq_one h (by omega)
    have hin : ∑ v ∈ res.idxPerm.toFinset, star (lensVector p ξ w u i v) * lensVector p ξ w u j v =
        ((∑ v ∈ res.idxPerm.toFinset, √(w v i) * √(w v j) : ℝ) : ℂ) := by
      push_cast
      refine sum_congr rfl fun v _ => ?_
      unfold lensVector
      have hu1 := (lens_character hp).norm (ξ u v)
      have : star (Complex.exp (2 * π * Complex.I * (ξ u v) / p)) * Complex.exp (2 * π * Complex.I * (ξ u v) / p) = 1 := by
        rw [star_mul_self_rclike, hu1]; simp
      rw [star_mul', RCLike.star_def, Complex.conj_ofReal]
      rw [RCLike.star_def] at this
      linear_combination ((√(w v i) : ℝ) : ℂ) * ((√(w v j) : ℝ) : ℂ) * this
    have hin' : ∑ v ∈ res.idxPerm.toFinset, star (lensVector p ξ w u i v) * lensVector p ξ w u j v =
        star ζ * ζ' * ∑ v ∈ res.idxPerm.toFinset, star (lensVector p ξ w (β i) i v) * lensVector p ξ w (β j) j v := by
      rw [mul_sum]
      refine sum_congr rfl fun v hv => ?_
      rw [gi v (List.mem_toFinset.1 hv), gj v (List.mem_toFinset.1 hv), star_mul']
      ring
    rw [← hg i hi j hj, hin] at hin'
    have hnorm := congrArg norm hin'
    rw [norm_mul, norm_mul, norm_star, hroot ζ hζ, hroot ζ' hζ', one_mul, one_mul, Complex.norm_real,
      Real.norm_of_nonneg (sum_nonneg fun v _ => by positivity)] at hnorm
    rw [← hnorm]
    have hov := overlap (fun v hv => hP.nonneg i hi ⟨u, hu, hui⟩ v hv) (fun v hv => hP.nonneg j hj ⟨u, hu, huj⟩ v hv)
      (hP.sum_one i hi ⟨u, hu, hui⟩) (hP.sum_one j hj ⟨u, hu, huj⟩)
    rw [hcard] at hw
    have : 2 * k * Λ * κ / h = 2 * (k * Λ * κ / h) := by ring
    linarith

/-- **C125 (real projective coordinates).** As for lens coordinates, with `proj_dim = n_landmarks - 1`. -/
theorem C125_projective_lipschitz (x : DataInput) (hx : DescribesData x δ) (hr : RipserSpec ρ x.rows k δ 2 maxdim res)
    (argsort : List (Fl ℝ) → List ℕ) (ha : ArgsortSpec argsort) (hm : 1 ≤ maxdim) (hk : 2 ≤ k)
    (hf : x.distanceMatrix = true → x.dtype = .float) :
    ∃ o dgm coc σ, projInit argsort res x maxdim = .ok o ∧ res.dgms[1]? = some dgm ∧ res.cocycles[1]? = some coc ∧
      PersistenceRanking dgm σ ∧
      ∀ (z j : ℕ) (b d : ℝ) (c₀ : List ZRow), σ[z]? = some j → dgm[j]? = some (.fin b, .fin d) → coc[j]? = some c₀ →
      ∀ (eigh : Eigh ℝ) (fuel : ℕ) (history : List ProjArgs) (perc : ℝ) (std check : Bool) (bump : Fl ℝ → Fl ℝ → Fl ℝ)
        (mode : RedMode), EighSpec eigh → k ≤ fuel → (if std then 2 * b else b) ≤ d → PositiveBump bump → mode ≠ .other →
      ∀ r : ℝ, 2 * r = (1 - perc) * (if std then 2 * b else b) + perc * d → BelowDeath ρ (2 * r) d →
      (∀ i < x.nPoints, ∃ u ∈ res.idxPerm, δ u i < r) →
      ∃ (X : Arr ℝ) (y : ℕ → ℕ → ℝ), (projGetCoordinates eigh fuel (projHistory eigh fuel o history)
          ⟨.fin perc, .int z, k - 1, bump, std, check, mode⟩).2 = .ok X ∧ X.rows = x.nPoints ∧ X.cols = k ∧
        (∀ i < x.nPoints, ∀ m < k, X.at' i m = some (y i m)) ∧ (∀ i < x.nPoints, ∑ m ∈ range k, y i m ^ 2 = 1) ∧
        ∀ Λ, LipschitzBump bump r Λ → ∀ (u i j : ℕ) (h κ : ℝ),
          NearbyPoints res.idxPerm.toFinset x.nPoints δ r bump u i j h κ →
          1 - k * Λ * κ / h ≤ |∑ m ∈ range k, y i m * y j m| := by
  obtain ⟨o, dgm, coc, σ, h1, h2, h3, h4, h5⟩ := C91_projective_coordinates x hx hr argsort ha hm (by omega) hf
  refine ⟨o, dgm, coc, σ, h1, h2, h3, h4, ?_⟩
  intro z j b d c₀ hz hpt hc₀ eigh fuel history perc std check bump mode he hfuel hstart hb hmode r hr2 hbel hall
  obtain ⟨ξ, -, h6⟩ := h5 z j b d c₀ hz hpt hc₀
  obtain ⟨X, w, V, β, e1, e2, e3, e4, e5, e6⟩ := h6 eigh fuel history perc std check bump mode (k - 1) hfuel hstart hb hmode
    (by omega) (by omega) r hr2 hbel
  rw [show (((k - 1 : ℕ) : ℤ)) = (k : ℤ) - 1 by omega] at e1 e5
  have hSn : ∀ u ∈ res.idxPerm.toFinset, u < x.rows := fun u hu => hr.range u (List.mem_toFinset.1 hu)
  have hcard : res.idxPerm.toFinset.card = k := by rw [List.toFinset_card_of_nodup hr.nodup]; exact hr.count
  have hXc : X.cols = k := by rw [e3]; omega
  obtain ⟨y, hy, hg⟩ := dataClassMap_gram hr.nodup hr.count (by omega) he hall
    (fun i hi => by
      obtain ⟨q1, q2, q3⟩ := e6 i hi (hall i hi)
      have := (q3 (β i) q1 q2).1
      simpa using this) e5 hXc
  simp only [star_trivial] at hg
  have hP := phaseData_of_bump (c := fun _ _ _ => 0) hx.metric hSn hb e4 (by simp) (by intro u _ v _ w _ z _ _ _ _ _ _ _; rfl)
    (fun _ _ => 0)
  refine ⟨X, y, e1, e2, hXc, hy, ?_, ?_⟩
  · intro i hi
    obtain ⟨q1, q2, q3⟩ := e6 i hi (hall i hi)
    rw [← (q3 (β i) q1 q2).1]
    simp only [sq]
    exact hg i hi i hi
  · intro Λ hL u i j h κ hnb
    obtain ⟨hh, hw⟩ := hnb.weights hx.metric hSn hb e4 hL
    obtain ⟨hi, hj⟩ := hnb.data
    obtain ⟨hui, huj⟩ := hnb.ball
    have hu := hnb.land
    obtain ⟨-, -, qi⟩ := e6 i hi (hall i hi)
    obtain ⟨-, -, qj⟩ := e6 j hj (hall j hj)
    have sgn : ∀ i, ((∀ v ∈ res.idxPerm, signVector ξ w u i v = signVector ξ w (β i) i v) ∨
        ∀ v ∈ res.idxPerm, signVector ξ w u i v = -signVector ξ w (β i) i v) → ∃ s : ℝ, |s| = 1 ∧
        ∀ v ∈ res.idxPerm, signVector ξ w u i v = s * signVector ξ w (β i) i v := by
      rintro i (h | h)
      · exact ⟨1, by simp, fun v hv => by rw [h v hv, one_mul]⟩
      · exact ⟨-1, by simp, fun v hv => by rw [h v hv]; ring⟩
    obtain ⟨s, hs, gi⟩ := sgn i (qi u (List.mem_toFinset.1 hu) hui).2
    obtain ⟨s', hs', gj⟩ := sgn j (qj u (List.mem_toFinset.1 hu) huj).2
    have hin : ∑ v ∈ res.idxPerm.toFinset, signVector ξ w u i v * signVector ξ w u j v =
        ∑ v ∈ res.idxPerm.toFinset, √(w v i) * √(w v j) := by
      refine sum_congr rfl fun v _ => ?_
      unfold signVector
      have : (-1 : ℝ) ^ (ξ u v) * (-1 : ℝ) ^ (ξ u v) = 1 := by
        rw [← mul_zpow]; norm_num
      linear_combination √(w v i) * √(w v j) * this
    have hin' : ∑ v ∈ res.idxPerm.toFinset, signVector ξ w u i v * signVector ξ w u j v =
        s * s' * ∑ v ∈ res.idxPerm.toFinset, signVector ξ w (β i) i v * signVector ξ w (β j) j v := by
      rw [mul_sum]
      refine sum_congr rfl fun v hv => ?_
      rw [gi v (List.mem_toFinset.1 hv), gj v (List.mem_toFinset.1 hv)]
      ring
    rw [← hg i hi j hj, hin] at hin'
    have hnorm := congrArg abs hin'
    rw [abs_mul, abs_mul, hs, hs', one_mul, one_mul, abs_of_nonneg (sum_nonneg fun v _ => by positivity)] at hnorm
    rw [← hnorm]
    have hov := overlap (fun v hv => hP.nonneg i hi ⟨u, hu, hui⟩ v hv) (fun v hv => hP.nonneg j hj ⟨u, hu, huj⟩ v hv)
      (hP.sum_one i hi ⟨u, hu, hui⟩) (hP.sum_one j hj ⟨u, hu, huj⟩)
    rw [hcard] at hw
    have : 2 * k * Λ * κ / h = 2 * (k * Λ * κ / h) := by ring
    linarith

/-- **C125 (complex projective coordinates).** In the situation of C92 with `proj_dim = n_landmarks - 1`, if the balls cover the data
set and the lift is an integer cocycle: if `M` bounds the form `c - dν`, then for data points `i` and `j` in a common ball, whose
distances to each landmark differ by at most `ε`, the absolute value of the inner product of their rows is at least
`(1 - k Λ ε / m) cos(4 π M k Λ ε / m)`, as long as the angle is below `π / 2` and the first factor is not negative. -/
theorem C125_complex_projective_lipschitz (x : DataInput) (hx : DescribesData x δ) (hr : RipserSpec ρ x.rows k δ p maxdim res)
    (argsort : List (Fl ℝ) → List ℕ) (ha : ArgsortSpec argsort) (hm : 2 ≤ maxdim) (hk : 2 ≤ k) (hk' : k ≤ 2345)
    (hf : x.distanceMatrix = true → x.dtype = .float) (hp : 2 ≤ p) :
    ∃ o dgm coc σ, cpInit argsort res x k p maxdim = .ok o ∧ res.dgms[2]? = some dgm ∧ res.cocycles[2]? = some coc ∧
      PersistenceRanking dgm σ ∧
      ∀ (z j : ℕ) (b d : ℝ) (c₀ : List ZRow), σ[z]? = some j → dgm[j]? = some (.fin b, .fin d) → coc[j]? = some c₀ →
      ∃ c, ListsLift2 p res.idxPerm.toFinset c₀ c ∧
      ∀ (env : CPOracles) (fuel : ℕ) (history : List ProjArgs) (perc : ℝ) (std check : Bool) (bump : Fl ℝ → Fl ℝ → Fl ℝ)
        (mode : RedMode), EighSpec env.eigh → k ≤ fuel → (if std then 2 * b else b) ≤ d → PositiveBump bump →
        mode ≠ .other →
      ∀ r : ℝ, 2 * r = (1 - perc) * (if std then 2 * b else b) + perc * d →
      IsDataCocycle2 res.idxPerm.toFinset δ (2 * r) c → (∀ i < x.nPoints, ∃ u ∈ res.idxPerm, δ u i < r) →
      ∃ (X : Arr ℂ) (y : ℕ → ℕ → ℂ) (ν : ℕ → ℕ → ℝ), (cpGetCoordinates env fuel (cpHistory env fuel o history)
          ⟨.fin perc, .int z, k - 1, bump, std, check, mode⟩).2 = .ok X ∧ X.rows = x.nPoints ∧ X.cols = k ∧
        (∀ i < x.nPoints, ∀ m < k, X.at' i m = some (y i m)) ∧ (∀ u v, ν v u = -ν u v) ∧
        (ExactLsq env.lsqr → ∀ g : ℕ → ℕ → ℝ, (∀ u ∈ res.idxPerm, ∀ v ∈ res.idxPerm, g v u = -g u v) →
          dataEnergy2 res.idxPerm.toFinset δ (2 * r) c ν ≤ dataEnergy2 res.idxPerm.toFinset δ (2 * r) c g) ∧
        ∀ M Λ, FormBound2 res.idxPerm.toFinset δ (2 * r) c ν M → LipschitzBump bump r Λ → ∀ (u i j : ℕ) (h κ : ℝ),
          NearbyPoints res.idxPerm.toFinset x.nPoints δ r bump u i j h κ → k * Λ * κ / h ≤ 1 → 4 * M * (k * Λ * κ / h) < 1 / 2 →
          (1 - k * Λ * κ / h) * cos (4 * π * M * (k * Λ * κ / h)) ≤ ‖∑ m ∈ range k, star (y i m) * y j m‖ := by
  obtain ⟨o, dgm, coc, σ, h1, h2, h3, h4, h5⟩ := cp_gram x hx hr argsort ha hm hk hk' hf hp
  refine ⟨o, dgm, coc, σ, h1, h2, h3, h4, ?_⟩
  intro z j b d c₀ hz hpt hc₀
  obtain ⟨c, hlift, h6⟩ := h5 z j b d c₀ hz hpt hc₀
  refine ⟨c, hlift, ?_⟩
  intro env fuel history perc std check bump mode he hfuel hstart hb hmode r hr2 hc hall
  obtain ⟨X, y, w, ν, β, e1, e2, e3, e4, e5, e6, e7, e8, e9⟩ :=
    h6 env fuel history perc std check bump mode he hfuel hstart hb hmode r hr2 hc hall
  have hSn : ∀ u ∈ res.idxPerm.toFinset, u < x.rows := fun u hu => hr.range u (List.mem_toFinset.1 hu)
  have hcard : res.idxPerm.toFinset.card = k := by rw [List.toFinset_card_of_nodup hr.nodup]; exact hr.count
  have hP := phaseData_of_bump hx.metric hSn hb e5 hlift.swap12 hc ν
  refine ⟨X, y, ν, e1, e2, e3, e4, e6, e7, ?_⟩
  intro M Λ hM hL u i j h κ hnb hsm hang
  obtain ⟨hh, hw⟩ := hnb.weights hx.metric hSn hb e5 hL
  obtain ⟨hi, hj⟩ := hnb.data
  obtain ⟨hui, huj⟩ := hnb.ball
  have hu := hnb.land
  have hM0 : 0 ≤ M := by
    have hcl := hP.close u hu u hu i hi hui hui
    exact (abs_nonneg _).trans (hM u hu u hu u hu hcl hcl hcl)
  rw [hcard] at hw
  set η := k * Λ * κ / h with hη
  rw [show 2 * k * Λ * κ / h = 2 * η by rw [hη]; ring] at hw
  have hη0 : 0 ≤ η := by
    have : 0 ≤ ∑ v ∈ res.idxPerm.toFinset, |w v i - w v j| := sum_nonneg fun v _ => abs_nonneg _
    linarith
  have hov := overlap (fun v hv => hP.nonneg i hi ⟨u, hu, hui⟩ v hv) (fun v hv => hP.nonneg j hj ⟨u, hu, huj⟩ v hv)
    (hP.sum_one i hi ⟨u, hu, hui⟩) (hP.sum_one j hj ⟨u, hu, huj⟩)
  have hov' : 1 - η ≤ ∑ v ∈ res.idxPerm.toFinset, √(w v i) * √(w v j) := by linarith
  have hpi := Real.pi_pos
  have hcos1 := cos_le_one (4 * π * M * η)
  rw [e9 i hi j hj]
  by_cases hsmall : 8 * res.idxPerm.toFinset.card * x.nPoints ≤ 10 ^ 6
  · have hA : ∀ u i v, cpDataAssigned res.idxPerm.toFinset x.nPoints c ν w u i v = ((√(w v i) : ℝ) : ℂ) := by
      intro u i v
      unfold cpDataAssigned
      rw [if_pos hsmall]
    have : ∑ v ∈ res.idxPerm.toFinset, star (cpDataAssigned res.idxPerm.toFinset x.nPoints c ν w (β i) i v) *
        cpDataAssigned res.idxPerm.toFinset x.nPoints c ν w (β j) j v =
        ((∑ v ∈ res.idxPerm.toFinset, √(w v i) * √(w v j) : ℝ) : ℂ) := by
      push_cast
      refine sum_congr rfl fun v _ => ?_
      rw [hA, hA, RCLike.star_def, Complex.conj_ofReal]
    rw [this, Complex.norm_real, Real.norm_of_nonneg (sum_nonneg fun v _ => by positivity)]
    have := mul_le_mul_of_nonneg_left hcos1 (by linarith : 0 ≤ 1 - η)
    linarith
  · have hA : cpDataAssigned res.idxPerm.toFinset x.nPoints c ν w = cpDataVector res.idxPerm.toFinset c ν w := by
      funext u i v
      unfold cpDataAssigned
      rw [if_neg hsmall]
    rw [hA]
    have htw := hP.inner_twist hi hj hu (e8 i hi).1 (e8 j hj).1 hui huj (e8 i hi).2 (e8 j hj).2
    unfold dataInner at htw
    have hunit : ∀ t, ‖phasor t‖ = 1 := by
      intro t
      unfold phasor
      rw [show 2 * (π : ℂ) * Complex.I * (t : ℂ) = ((2 * π * t : ℝ) : ℂ) * Complex.I by push_cast; ring,
        Complex.norm_exp_ofReal_mul_I]
    rw [htw, norm_mul, norm_mul, norm_star, hunit, hunit, one_mul, one_mul]
    refine le_trans ?_ (Complex.re_le_norm _)
    have hre : (∑ v ∈ res.idxPerm.toFinset, star (cpDataVector res.idxPerm.toFinset c ν w u i v) *
        cpDataVector res.idxPerm.toFinset c ν w u j v).re = ∑ v ∈ res.idxPerm.toFinset, √(w v i) * √(w v j) *
          cos (2 * π * (dataPhase res.idxPerm.toFinset c ν w u j v - dataPhase res.idxPerm.toFinset c ν w u i v)) := by
      rw [Complex.re_sum]
      refine sum_congr rfl fun v _ => ?_
      have : star (cpDataVector res.idxPerm.toFinset c ν w u i v) * cpDataVector res.idxPerm.toFinset c ν w u j v =
          ((√(w v i) * √(w v j) : ℝ) : ℂ) * phasor (dataPhase res.idxPerm.toFinset c ν w u j v -
            dataPhase res.idxPerm.toFinset c ν w u i v) := by
        rw [cpDataVector_eq, cpDataVector_eq, star_mul', star_phasor, RCLike.star_def, Complex.conj_ofReal, sub_eq_add_neg,
          phasor_add]
        push_cast
        ring
      rw [this, phasor_eq, Complex.re_ofReal_mul]
    rw [hre]
    calc (1 - η) * cos (4 * π * M * η) ≤ (∑ v ∈ res.idxPerm.toFinset, √(w v i) * √(w v j)) * cos (4 * π * M * η) := by
          refine mul_le_mul_of_nonneg_right hov' (cos_nonneg_of_mem_Icc ⟨?_, ?_⟩)
          · have : 0 ≤ 4 * π * M * η := by positivity
            linarith
          · have : π * (4 * M * η) ≤ π * (1 / 2) := mul_le_mul_of_nonneg_left hang.le hpi.le
            linarith
      _ ≤ _ := by
          rw [sum_mul]
          refine sum_le_sum fun v hv => ?_
          by_cases hz : √(w v i) * √(w v j) = 0
          · rw [hz]; simp
          · have hvi : δ v i < r := by
              by_contra h'
              exact hz (by rw [hP.zero hi hu hui hv h']; simp)
            have hvj : δ v j < r := by
              by_contra h'
              exact hz (by rw [hP.zero hj hu huj hv h']; simp)
            refine mul_le_mul_of_nonneg_left ?_ (by positivity)
            have hst := hP.phase_step hM hi hj hu hv hui huj hvi hvj
            have hst' : |dataPhase res.idxPerm.toFinset c ν w u j v - dataPhase res.idxPerm.toFinset c ν w u i v| ≤ M * (2 * η) := by
              refine hst.trans (mul_le_mul_of_nonneg_left (le_trans (le_of_eq ?_) hw) hM0)
              exact sum_congr rfl fun t _ => abs_sub_comm _ _
            rw [← cos_abs (2 * π * _), abs_mul, abs_of_pos (by positivity : 0 < 2 * π)]
            refine cos_le_cos_of_nonneg_of_le_pi (by positivity) ?_ ?_
            · have : π * (4 * M * η) ≤ π * (1 / 2) := mul_le_mul_of_nonneg_left hang.le hpi.le
              linarith
            · have := mul_le_mul_of_nonneg_left hst' (by positivity : 0 ≤ 2 * π)
              linarith

end

end Dreimac
