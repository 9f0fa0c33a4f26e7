import Verif.Props.Essential
import Verif.Props.Reduced

/-!
# C132: lens and projective coordinates of fewer dimensions
-/

namespace Dreimac

open Real

noncomputable section
variable {k : ℕ} {δ : ℕ → ℕ → ℝ} {p : ℤ} {maxdim : ℕ} {res : RipserResult ℝ} {ρ : ℝ → ℝ}

/-- **C132 (lens, any dimension).** The whole of `LensCoords(X, n_landmarks, prime = p).get_coordinates(perc, cocycle_idx = z,
complex_dim = D, …)` as in C130, for a class that ripser reports to be born at `b`: if the reduction loses little within each ball,
one cannot choose representatives of the points of the lens space (multiply the rows of the returned array by `p`-th roots of unity)
such that the angles of the inner products of the rows of data points in a common ball become smaller than `π / p`. -/
theorem C132_lens_reduced (x : DataInput) (hx : DescribesData x δ) (hr : RipserSpec ρ x.rows k δ p maxdim res)
    (argsort : List (Fl ℝ) → List ℕ) (ha : ArgsortSpec argsort) (hm : 1 ≤ maxdim) (hk : 2 ≤ k)
    (hf : x.distanceMatrix = true → x.dtype = .float) (hp : 0 < p) :
    ∃ o dgm coc σ, lensInit argsort res x p maxdim = .ok o ∧ res.dgms[1]? = some dgm ∧ res.cocycles[1]? = some coc ∧
      PersistenceRanking dgm σ ∧
      ∀ (z j : ℕ) (b d : ℝ) (c₀ : List ZRow), σ[z]? = some j → dgm[j]? = some (.fin b, .fin d) → coc[j]? = some c₀ →
      ∃ ξ, ListsCochain c₀ ξ ∧ (BornAt ρ p res.idxPerm.toFinset δ b ξ →
      ∀ (eigh : Eigh ℂ) (fuel : ℕ) (history : List ProjArgs) (perc : ℝ) (std check : Bool) (bump : Fl ℝ → Fl ℝ → Fl ℝ)
        (mode : RedMode) (D : ℕ), EighSpec eigh → k ≤ fuel → (if std then 2 * b else b) ≤ d → PositiveBump bump →
        mode ≠ .other → 2 ≤ D → D ≤ k →
      ∀ r : ℝ, 2 * r = (1 - perc) * (if std then 2 * b else b) + perc * d → BelowDeath ρ (2 * r) d →
      (∀ i < x.nPoints, ∃ u ∈ res.idxPerm, δ u i < r) → Bridged ρ res.idxPerm.toFinset x.nPoints δ b r →
      ∃ (X : Arr ℂ) (w : ℕ → ℕ → ℝ) (β : ℕ → ℕ), (lensGetCoordinates eigh fuel (lensHistory eigh fuel o history)
          ⟨.fin perc, .int z, D, bump, std, check, mode⟩).2 = .ok X ∧ X.rows = x.nPoints ∧ X.cols = D ∧
        IsBumpWeights res.idxPerm.toFinset x.nPoints δ r bump w ∧ (∀ i < x.nPoints, β i ∈ res.idxPerm ∧ δ (β i) i < r) ∧
        ∀ y : ℕ → ℕ → ℂ, (∀ i < x.nPoints, ∀ m < D, X.at' i m = some (y i m)) →
        ∃ v s, IsNormalizedProjection D k x.nPoints v (fun i m => lensVector p ξ w (β i) i (res.idxPerm.getD m 0)) y s ∧
          (mode = .direct → CapturesMost D k x.nPoints v (fun i m => lensVector p ξ w (β i) i (res.idxPerm.getD m 0))) ∧
          (OnCommonBalls res.idxPerm.toFinset x.nPoints δ r (fun i i' =>
              lost (s i) * lost (s i') < dataOverlap res.idxPerm.toFinset w i i' * sin (π / p)) →
            ¬ ∃ e : ℕ → ℤ, OnCommonBalls res.idxPerm.toFinset x.nPoints δ r fun i i' =>
              |(Complex.exp (2 * π * Complex.I * ((e i' - e i : ℤ) : ℂ) / p) *
                ∑ m ∈ Finset.range D, star (y i m) * y i' m).arg| < π / p)) := by
  obtain ⟨o, dgm, coc, σ, h1, h2, h3, h4, h5⟩ := C130_lens_reduced x hx hr argsort ha hm hk hf hp
  refine ⟨o, dgm, coc, σ, h1, h2, h3, h4, ?_⟩
  intro z j b d c₀ hz hpt hc₀
  obtain ⟨ξ, hξ, h6⟩ := h5 z j b d c₀ hz hpt hc₀
  refine ⟨ξ, hξ, ?_⟩
  intro hborn eigh fuel history perc std check bump mode D he hfuel hstart hb hmode hD1 hD2 r hr2 hbel hall hbr
  obtain ⟨X, w, β, e1, e2, e3, e4, e5, e6⟩ := h6 eigh fuel history perc std check bump mode D he hfuel hstart hb hmode hD1 hD2 r hr2
    hbel hall
  refine ⟨X, w, β, e1, e2, e3, e4, e5, ?_⟩
  intro y hy
  obtain ⟨v, s, g1, g2, g3⟩ := e6 y hy
  refine ⟨v, s, g1, g2, ?_⟩
  rintro hlost ⟨e, hang⟩
  have hrange : ∀ u ∈ res.idxPerm.toFinset, u < x.rows := fun u hu => hr.range u (List.mem_toFinset.1 hu)
  obtain ⟨n, l, f1, f2, f3, f4⟩ := exists_closed_path (E := fun u v => ρ (δ u v) ≤ b)
    (fun u hu v hv h => by rwa [hx.metric.symm v (hrange v hv) u (hrange u hu)]) hξ.antisymm hborn
  obtain ⟨i, hi⟩ := exists_dataLoop hbr f1 f2 f3
  have key := (g3 n i l hi fun q hq => hlost _ (hi.land q hq) _ (hi.data q hq) _ (hi.land_le (show q + 1 ≤ n from hq)).2.1
    (hi.here q hq) (hi.next q hq)).2 (fun q => -(e (i (q + 1)) - e (i q))) (fun q hq => by
      simp only [neg_neg]
      exact hang _ (hi.land q hq) _ (hi.data q hq) _ (hi.land_le (show q + 1 ≤ n from hq)).2.1 (hi.here q hq) (hi.next q hq))
  rw [Finset.sum_neg_distrib, Finset.sum_range_sub (fun q => e (i q)), hi.closed_data, sub_self, neg_zero, zero_add] at key
  exact f4 key

/-- **C132 (real projective, any dimension).** The same for `ProjectiveCoords(X, n_landmarks).get_coordinates(perc, cocycle_idx = z,
proj_dim = q, …)` as in C130: if the reduction loses little within each ball, one cannot choose signs of the rows of the returned array,
which are points of a projective space, such that the inner products of the rows of data points in a common ball become positive. -/
theorem C132_projective_reduced (x : DataInput) (hx : DescribesData x δ) (hr : RipserSpec ρ x.rows k δ 2 maxdim res)
    (argsort : List (Fl ℝ) → List ℕ) (ha : ArgsortSpec argsort) (hm : 1 ≤ maxdim) (hk : 2 ≤ k)
    (hf : x.distanceMatrix = true → x.dtype = .float) :
    ∃ o dgm coc σ, projInit argsort res x maxdim = .ok o ∧ res.dgms[1]? = some dgm ∧ res.cocycles[1]? = some coc ∧
      PersistenceRanking dgm σ ∧
      ∀ (z j : ℕ) (b d : ℝ) (c₀ : List ZRow), σ[z]? = some j → dgm[j]? = some (.fin b, .fin d) → coc[j]? = some c₀ →
      ∃ ξ, ListsCochain c₀ ξ ∧ (BornAt ρ 2 res.idxPerm.toFinset δ b ξ →
      ∀ (eigh : Eigh ℝ) (fuel : ℕ) (history : List ProjArgs) (perc : ℝ) (std check : Bool) (bump : Fl ℝ → Fl ℝ → Fl ℝ)
        (mode : RedMode) (q : ℕ), EighSpec eigh → k ≤ fuel → (if std then 2 * b else b) ≤ d → PositiveBump bump →
        mode ≠ .other → 1 ≤ q → q < k →
      ∀ r : ℝ, 2 * r = (1 - perc) * (if std then 2 * b else b) + perc * d → BelowDeath ρ (2 * r) d →
      (∀ i < x.nPoints, ∃ u ∈ res.idxPerm, δ u i < r) → Bridged ρ res.idxPerm.toFinset x.nPoints δ b r →
      ∃ (X : Arr ℝ) (w : ℕ → ℕ → ℝ) (β : ℕ → ℕ), (projGetCoordinates eigh fuel (projHistory eigh fuel o history)
          ⟨.fin perc, .int z, q, bump, std, check, mode⟩).2 = .ok X ∧ X.rows = x.nPoints ∧ X.cols = q + 1 ∧
        IsBumpWeights res.idxPerm.toFinset x.nPoints δ r bump w ∧ (∀ i < x.nPoints, β i ∈ res.idxPerm ∧ δ (β i) i < r) ∧
        ∀ y : ℕ → ℕ → ℝ, (∀ i < x.nPoints, ∀ m < q + 1, X.at' i m = some (y i m)) →
        ∃ v s, IsNormalizedProjection (q + 1) k x.nPoints v (fun i m => signVector ξ w (β i) i (res.idxPerm.getD m 0)) y s ∧
          (mode = .direct → CapturesMost (q + 1) k x.nPoints v (fun i m => signVector ξ w (β i) i (res.idxPerm.getD m 0))) ∧
          (OnCommonBalls res.idxPerm.toFinset x.nPoints δ r (fun i i' =>
              lost (s i) * lost (s i') < dataOverlap res.idxPerm.toFinset w i i') →
            ¬ ∃ e : ℕ → ℝ, (∀ i < x.nPoints, e i = 1 ∨ e i = -1) ∧ OnCommonBalls res.idxPerm.toFinset x.nPoints δ r fun i i' =>
              0 < ∑ m ∈ Finset.range (q + 1), (e i * y i m) * (e i' * y i' m))) := by
  obtain ⟨o, dgm, coc, σ, h1, h2, h3, h4, h5⟩ := C130_projective_reduced x hx hr argsort ha hm hk hf
  refine ⟨o, dgm, coc, σ, h1, h2, h3, h4, ?_⟩
  intro z j b d c₀ hz hpt hc₀
  obtain ⟨ξ, hξ, h6⟩ := h5 z j b d c₀ hz hpt hc₀
  refine ⟨ξ, hξ, ?_⟩
  intro hborn eigh fuel history perc std check bump mode q he hfuel hstart hb hmode hq1 hq2 r hr2 hbel hall hbr
  obtain ⟨X, w, β, e1, e2, e3, e4, e5, e6⟩ := h6 eigh fuel history perc std check bump mode q he hfuel hstart hb hmode hq1 hq2 r hr2
    hbel hall
  refine ⟨X, w, β, e1, e2, e3, e4, e5, ?_⟩
  intro y hy
  obtain ⟨v, s, g1, g2, g3⟩ := e6 y hy
  refine ⟨v, s, g1, g2, ?_⟩
  rintro hlost ⟨e, hsign, hpos⟩
  have hrange : ∀ u ∈ res.idxPerm.toFinset, u < x.rows := fun u hu => hr.range u (List.mem_toFinset.1 hu)
  obtain ⟨n, l, f1, f2, f3, f4⟩ := exists_closed_path (E := fun u v => ρ (δ u v) ≤ b)
    (fun u hu v hv h => by rwa [hx.metric.symm v (hrange v hv) u (hrange u hu)]) hξ.antisymm hborn
  obtain ⟨i, hi⟩ := exists_dataLoop hbr f1 f2 f3
  have hneg := (g3 n i l hi fun q hq => hlost _ (hi.land q hq) _ (hi.data q hq) _ (hi.land_le (show q + 1 ≤ n from hq)).2.1
    (hi.here q hq) (hi.next q hq)).2 (by
      rcases Int.even_or_odd (pathValue ξ n l) with h | h
      · exact absurd (even_iff_two_dvd.1 h) f4
      · exact h)
  have hprod : ∏ t ∈ Finset.range n, e (i t) * e (i (t + 1)) = 1 := by
    have h := prod_shift (fun t => (e t : ℂ)) i hi.closed_data
    have h' : ∏ t ∈ Finset.range n, e (i (t + 1)) = ∏ t ∈ Finset.range n, e (i t) := by exact_mod_cast h
    rw [Finset.prod_mul_distrib, h', ← Finset.prod_mul_distrib]
    refine Finset.prod_eq_one fun t ht => ?_
    rcases hsign _ (hi.data t (Finset.mem_range.1 ht)) with h | h <;> rw [h] <;> norm_num
  have hall' : 0 < ∏ t ∈ Finset.range n, (e (i t) * e (i (t + 1)) * ∑ m ∈ Finset.range (q + 1), y (i t) m * y (i (t + 1)) m) := by
    refine Finset.prod_pos fun t ht => ?_
    have ht := Finset.mem_range.1 ht
    have h := hpos _ (hi.land t ht) _ (hi.data t ht) _ (hi.land_le (show t + 1 ≤ n from ht)).2.1 (hi.here t ht) (hi.next t ht)
    rw [Finset.mul_sum]
    exact lt_of_lt_of_eq h (Finset.sum_congr rfl fun m _ => by ring)
  rw [Finset.prod_mul_distrib, hprod, one_mul] at hall'
  exact lt_asymm hneg hall'

end

end Dreimac
