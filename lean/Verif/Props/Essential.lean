import Verif.Lemmas.Essential
import Verif.Props.EndToEndWinding
import Verif.Props.EndToEndHolonomy

/-!
# C132: a class that does not vanish gives coordinates that cannot be unrolled
-/

namespace Dreimac

open Real

noncomputable section
variable {k : ℕ} {δ : ℕ → ℕ → ℝ} {p : ℤ} {maxdim : ℕ} {res : RipserResult ℝ} {ρ : ℝ → ℝ}

/-- C132: with `standard_range` and a positive percentage, the radius is larger than the birth, and the balls of landmarks that are
joined at the birth contain each other's centres. -/
theorem C132_standard_range {S : Finset ℕ} {N : ℕ} {b d perc r η : ℝ} (hS : ∀ u ∈ S, u < N) (h0 : ∀ u ∈ S, δ u u = 0)
    (hρ : ∀ x, x ≤ ρ x + η) (hη : 0 ≤ η) (hb : 0 ≤ b) (hr : 2 * r = (1 - perc) * (2 * b) + perc * d)
    (hp : 2 * η < perc * (d - 2 * b)) : Bridged ρ S N δ b r := by
  have hbr : b + η < r := by nlinarith
  intro u hu v hv huv
  refine ⟨v, hS v hv, by linarith [hρ (δ u v)], ?_⟩
  rw [h0 v hv]
  linarith

/-- **C132 (circular).** The whole of `CircularCoords(X, n_landmarks, prime = p).get_coordinates(perc, cocycle_idx = z, …)` as in C89,
for a class that ripser reports to be born at `b`, if the balls around landmarks that are joined at the birth have common data points
and the class lifts: the coordinate returned is not the reduction modulo `2π` of a real-valued function of the data that changes by
less than half a turn within each ball (provided the weights or the harmonic form are so small that the coordinate itself does). -/
theorem C132_circular_essential (x : DataInput) (hx : DescribesData x δ) (hr : RipserSpec ρ x.rows k δ p maxdim res)
    (argsort : List (Fl ℝ) → List ℕ) (ha : ArgsortSpec argsort) (hm : 1 ≤ maxdim) (hk : 0 < k) (hk' : k ≤ 2345)
    (hf : x.distanceMatrix = true → x.dtype = .float) (hp : 0 < p) :
    ∃ o dgm coc σ, toroInit argsort res x k p maxdim = .ok o ∧ res.dgms[1]? = some dgm ∧ res.cocycles[1]? = some coc ∧
      PersistenceRanking dgm σ ∧
      ∀ (z j : ℕ) (b d : ℝ) (c₀ : List ZRow), σ[z]? = some j → dgm[j]? = some (.fin b, .fin d) → coc[j]? = some c₀ →
      ∃ ξ, ListsCochain c₀ ξ ∧ (BornAt ρ p res.idxPerm.toFinset δ b ξ →
      ∀ (env : Oracles) (ε τ : ℝ), 0 ≤ τ → 3 * ε + τ < 1 → SolverSound env.milp ε τ → SolverComplete env.milp →
      ∀ (fuel : ℕ) (history : List (ℕ × Args)) (perc : ℝ) (std : Bool) (bump : Fl ℝ → Fl ℝ → Fl ℝ),
      (if std then 2 * b else b) ≤ d → PositiveBump bump →
      ∀ r : ℝ, 2 * r = (1 - perc) * (if std then 2 * b else b) + perc * d → BelowDeath ρ (2 * r) d →
      Bridged ρ res.idxPerm.toFinset x.nPoints δ b r → (∃ c, IsIntegerLift p res.idxPerm.toFinset δ (2 * r) ξ c) →
        ∃ θ w c f, (circularGetCoordinates env fuel (afterCalls env o history) (.fin perc) (.int z) bump std true).2 = .ok θ ∧
          IsIntegerLift p res.idxPerm.toFinset δ (2 * r) ξ c ∧ IsSmallestLift p res.idxPerm.toFinset δ (2 * r) ξ c ∧
          IsBumpWeights res.idxPerm.toFinset x.nPoints δ r bump w ∧
          (ExactLsq env.lsqr → ∀ g, dataEnergy res.idxPerm.toFinset δ (2 * r) c f ≤
            dataEnergy res.idxPerm.toFinset δ (2 * r) c g) ∧
          ∀ M : ℝ, FormBound res.idxPerm.toFinset δ (2 * r) c f M → SmallBalls res.idxPerm.toFinset x.nPoints δ r w M →
            ¬ ∃ g : ℕ → ℝ, (∀ i < x.nPoints, (∃ u ∈ res.idxPerm, δ u i < r) → IsAngle (θ i) (g i)) ∧
              OnCommonBalls res.idxPerm.toFinset x.nPoints δ r fun i i' => |g i' - g i| < 1 / 2) := by
  obtain ⟨o, dgm, coc, σ, h1, h2, h3, h4, h5⟩ := C89_circular_coordinates x hx hr argsort ha hm hk hk' hf hp
  refine ⟨o, dgm, coc, σ, h1, h2, h3, h4, ?_⟩
  intro z j b d c₀ e1 e2 e3
  obtain ⟨ξ, hξ, h6⟩ := h5 z j b d c₀ e1 e2 e3
  refine ⟨ξ, hξ, ?_⟩
  intro hborn env ε τ a1 a2 a3 a4 fuel history perc std bump a7 hb r hr2 hbel hbr hlift
  obtain ⟨θ, w, c, f, g1, g2, g2', g3, g4, g5⟩ := (h6 env ε τ a1 a2 a3 a4 fuel history perc std bump a7 hb r hr2 hbel).1 hlift
  refine ⟨θ, w, c, f, g1, g2, g2', g3, g4, ?_⟩
  rintro M hM hs ⟨g, hg, hsmall⟩
  have hrange : ∀ u ∈ res.idxPerm.toFinset, u < x.rows := fun u hu => hr.range u (List.mem_toFinset.1 hu)
  refine not_unrolled hbr g2.congr hborn (L := fun u i => ∑ v ∈ res.idxPerm.toFinset, (f v + c u v) * w v i) g5.transition ?_ ?_ hsmall
  · intro u hu i hi i' hi' hd hd'
    exact g3.lift_step hb (fun u hu i hi => hx.metric.nonneg u (hrange u hu) i hi)
      (fun u hu v hv i hi => hx.metric.triangle u (hrange u hu) v (hrange v hv) i hi) hM hu hi hi' hd hd'
      (hs.imp_right fun h => h u hu i hi i' hi' hd hd')
  · intro u hu i hi hd
    obtain ⟨y, hy, -, -, n, hn⟩ := g5.angle u hu i hi hd
    obtain ⟨y', hy', -, -, n', hn'⟩ := hg i hi ⟨u, List.mem_toFinset.1 hu, hd⟩
    rw [hy] at hy'
    injection hy' with hy'
    subst hy'
    refine ⟨n' - n, ?_⟩
    have h2 : (2 * π : ℝ) ≠ 0 := (by positivity)
    have : 2 * π * (∑ v ∈ res.idxPerm.toFinset, (f v + c u v) * w v i - g i) = 2 * π * ((n' - n : ℤ) : ℝ) := by
      push_cast; linarith
    exact mul_left_cancel₀ h2 this

/-- **C132 (toroidal).** The whole of `ToroidalCoords(…).get_coordinates(perc, cocycle_idxs, …)` as in C90, for classes that ripser
reports to be independent at the latest of their births: no combination of the coordinates returned, with integer coefficients that
are not all divisible by `p`, is the reduction of a real-valued function of the data that changes by less than half a turn within each
ball.  In particular no coordinate is. -/
theorem C132_toroidal_essential (x : DataInput) (hx : DescribesData x δ) (hr : RipserSpec ρ x.rows k δ p maxdim res)
    (argsort : List (Fl ℝ) → List ℕ) (ha : ArgsortSpec argsort) (hm : 1 ≤ maxdim) (hk : 0 < k) (hk' : k ≤ 2345)
    (hf : x.distanceMatrix = true → x.dtype = .float) (hp : 0 < p) :
    ∃ o dgm coc σ, toroInit argsort res x k p maxdim = .ok o ∧ res.dgms[1]? = some dgm ∧ res.cocycles[1]? = some coc ∧
      PersistenceRanking dgm σ ∧
      ∀ (m : ℕ) (z : Fin m → ℕ) (b d : Fin m → ℝ) (ξ : Fin m → ℕ → ℕ → ℤ), SelectsClasses dgm coc σ z b d ξ →
      ∀ (env : Oracles) (ε τ : ℝ), 0 ≤ τ → 3 * ε + τ < 1 → SolverSound env.milp ε τ →
      ∀ (fuel : ℕ) (history : List (ℕ × Args)) (perc : ℝ) (std : Bool) (bump : Fl ℝ → Fl ℝ → Fl ℝ),
      PositiveBump bump → ∀ B D r : ℝ, IsGreatest (Set.range b) B → IsLeast (Set.range d) D → B < D →
      (if std then 2 * B else B) ≤ D → 2 * r = (1 - perc) * (if std then 2 * B else B) + perc * D → BelowDeath ρ (2 * r) D →
      IndependentAt ρ p res.idxPerm.toFinset δ B ξ → Bridged ρ res.idxPerm.toFinset x.nPoints δ B r →
      ∀ coords, (getCoordinates env fuel (afterCalls env o history)
          ⟨.fin perc, List.ofFn fun a => .int (z a), bump, std, true⟩).2 = .ok coords →
        ∃ (θ : Fin m → ℕ → Fl ℝ) (w : ℕ → ℕ → ℝ) (c : Fin m → ℕ → ℕ → ℤ) (f : Fin m → ℕ → ℝ) (U : Matrix (Fin m) (Fin m) ℤ),
          coords = List.ofFn θ ∧ (U.det = 1 ∨ U.det = -1) ∧
          (∀ a, IsIntegerLift p res.idxPerm.toFinset δ (2 * r) (ξ a) (c a) ∧
            IsSmallestLift p res.idxPerm.toFinset δ (2 * r) (ξ a) (c a)) ∧ (m = 1 → U = 1) ∧
          IsBumpWeights res.idxPerm.toFinset x.nPoints δ r bump w ∧
          (ExactLsq env.lsqr → ∀ a g, dataEnergy res.idxPerm.toFinset δ (2 * r) (c a) (f a) ≤
            dataEnergy res.idxPerm.toFinset δ (2 * r) (c a) g) ∧
          ∀ n : Fin m → ℤ, ¬ (∀ q, p ∣ n q) → ∀ M : ℝ,
            FormBound res.idxPerm.toFinset δ (2 * r) (fun u v => ∑ q, n q * ∑ a, U q a * c a u v)
              (fun u => ∑ q, (n q : ℝ) * ∑ a, U q a * f a u) M → SmallBalls res.idxPerm.toFinset x.nPoints δ r w M →
            ¬ ∃ g : ℕ → ℝ, (∀ i < x.nPoints, (∃ u ∈ res.idxPerm, δ u i < r) →
                ∃ y : Fin m → ℝ, (∀ q, θ q i = .fin (y q)) ∧ SameAngle (∑ q, n q * y q) (2 * π * g i)) ∧
              OnCommonBalls res.idxPerm.toFinset x.nPoints δ r fun i i' => |g i' - g i| < 1 / 2 := by
  obtain ⟨o, dgm, coc, σ, h1, h2, h3, h4, h5⟩ := C90_toroidal_coordinates x hx hr argsort ha hm hk hk' hf hp
  refine ⟨o, dgm, coc, σ, h1, h2, h3, h4, ?_⟩
  intro m z b d ξ hsel env ε τ a1 a2 a3 fuel history perc std bump hb B D r b1 b2 b3 b4 hr2 hbel hind hbr coords hok
  obtain ⟨θ, w, c, f, U, g0, g1, g2, gU, g3, g4, g5⟩ := h5 m z b d ξ hsel env ε τ a1 a2 a3 fuel history perc std bump hb B D r
    b1 b2 b3 b4 hr2 hbel coords hok
  refine ⟨θ, w, c, f, U, g0, g1, g2, gU, g3, g4, ?_⟩
  rintro n hn M hM hs ⟨g, hg, hsmall⟩
  have hrange : ∀ u ∈ res.idxPerm.toFinset, u < x.rows := fun u hu => hr.range u (List.mem_toFinset.1 hu)
  have hnU : ¬ IsDifferenceMod p res.idxPerm.toFinset (fun u v => ρ (δ u v) ≤ B) (fun u v => ∑ a, Matrix.vecMul n U a * ξ a u v) := by
    intro hdiff
    refine hn fun q => ?_
    have hdvd := hind _ hdiff
    have h6 : Matrix.vecMul (Matrix.vecMul n U) U.adjugate = U.det • n := by
      rw [Matrix.vecMul_vecMul, Matrix.mul_adjugate, Matrix.vecMul_smul, Matrix.vecMul_one]
    have h7 := congrFun h6 q
    have h8 : p ∣ U.det * n q := by
      rw [show U.det * n q = (U.det • n) q from rfl, ← h7]
      show p ∣ ∑ a, Matrix.vecMul n U a * U.adjugate a q
      exact Finset.dvd_sum fun a _ => Dvd.dvd.mul_right (hdvd a) _
    rcases g1 with h | h <;> rw [h] at h8
    · simpa using h8
    · simpa using h8
  have hcomb : ∀ u i, ∑ v ∈ res.idxPerm.toFinset, (∑ q, (n q : ℝ) * ∑ a, U q a * f a v +
      ((∑ q, n q * ∑ a, U q a * c a u v : ℤ) : ℝ)) * w v i =
      ∑ q, (n q : ℝ) * ∑ v ∈ res.idxPerm.toFinset, (∑ a, U q a * f a v + ((∑ a, U q a * c a u v : ℤ) : ℝ)) * w v i := by
    intro u i
    simp only [Finset.mul_sum]
    rw [Finset.sum_comm]
    refine Finset.sum_congr rfl fun v _ => ?_
    push_cast
    rw [← Finset.sum_add_distrib, Finset.sum_mul]
    refine Finset.sum_congr rfl fun q _ => ?_
    rw [← Finset.mul_sum, ← Finset.mul_sum]
    ring
  refine not_unrolled hbr (c := fun u v => ∑ q, n q * ∑ a, U q a * c a u v) ?_ hnU
    (L := fun u i => ∑ v ∈ res.idxPerm.toFinset, (∑ q, (n q : ℝ) * ∑ a, U q a * f a v +
      ((∑ q, n q * ∑ a, U q a * c a u v : ℤ) : ℝ)) * w v i) ?_ ?_ ?_ hsmall
  · intro u hu v hv
    have : ∑ q, n q * ∑ a, U q a * c a u v - ∑ a, Matrix.vecMul n U a * ξ a u v = ∑ a, Matrix.vecMul n U a * (c a u v - ξ a u v) := by
      simp only [mul_sub, Finset.sum_sub_distrib, Matrix.vecMul, dotProduct, Finset.mul_sum, Finset.sum_mul]
      rw [Finset.sum_comm]
      congr 1
      exact Finset.sum_congr rfl fun a _ => Finset.sum_congr rfl fun q _ => by ring
    rw [this]
    exact Finset.dvd_sum fun a _ => Dvd.dvd.mul_left ((g2 a).1.congr u hu v hv) _
  · intro u hu v hv i hi hd hd'
    simp only [hcomb]
    rw [← Finset.sum_sub_distrib]
    rw [Int.cast_sum]
    refine Finset.sum_congr rfl fun q _ => ?_
    rw [← mul_sub, (g5 q).transition u hu v hv i hi hd hd', Int.cast_mul]
  · intro u hu i hi i' hi' hd hd'
    exact g3.lift_step hb (fun u hu i hi => hx.metric.nonneg u (hrange u hu) i hi)
      (fun u hu v hv i hi => hx.metric.triangle u (hrange u hu) v (hrange v hv) i hi) hM hu hi hi' hd hd'
      (hs.imp_right fun h => h u hu i hi i' hi' hd hd')
  · intro u hu i hi hd
    simp only [hcomb]
    obtain ⟨y, hy, hya⟩ := hg i hi ⟨u, List.mem_toFinset.1 hu, hd⟩
    have hang : SameAngle (∑ q, n q * y q) (∑ q, (n q : ℝ) * (2 * π * ∑ v ∈ res.idxPerm.toFinset,
        (∑ a, U q a * f a v + ((∑ a, U q a * c a u v : ℤ) : ℝ)) * w v i)) := by
      refine SameAngle.sum _ fun q _ => ?_
      obtain ⟨y', hy', -, -, hs'⟩ := (g5 q).angle u hu i hi hd
      rw [hy q] at hy'
      injection hy' with hy'
      subst hy'
      exact hs'.int_mul (n q)
    obtain ⟨s, hs'⟩ := hang.symm.trans hya
    refine ⟨s, ?_⟩
    have h2 : (2 * π : ℝ) ≠ 0 := (by positivity)
    refine mul_left_cancel₀ h2 ?_
    rw [mul_sub, Finset.mul_sum, mul_comm (2 * π) (s : ℝ), ← hs']
    congr 1
    exact Finset.sum_congr rfl fun q _ => by ring

theorem prod_shift {n : ℕ} (φ : ℕ → ℂ) (i : ℕ → ℕ) (hi : i n = i 0) :
    ∏ q ∈ Finset.range n, φ (i (q + 1)) = ∏ q ∈ Finset.range n, φ (i q) := by
  rcases Nat.eq_zero_or_pos n with rfl | hn
  · simp
  · obtain ⟨m, rfl⟩ : ∃ m, n = m + 1 := ⟨n - 1, by omega⟩
    rw [Finset.prod_range_succ, Finset.prod_range_succ', hi]

/-- **C132 (lens).** The whole of `LensCoords(X, n_landmarks, prime = p).get_coordinates(perc, cocycle_idx = z,
complex_dim = n_landmarks, …)` as in C91 and C112, for a class that ripser reports to be born at `b`: the rows of the returned array,
which are points of a lens space, cannot be multiplied by phases such that the inner products of the rows of all pairs of data points
in a common ball become positive. -/
theorem C132_lens_essential (x : DataInput) (hx : DescribesData x δ) (hr : RipserSpec ρ x.rows k δ p maxdim res)
    (argsort : List (Fl ℝ) → List ℕ) (ha : ArgsortSpec argsort) (hm : 1 ≤ maxdim) (hk : 2 ≤ k)
    (hf : x.distanceMatrix = true → x.dtype = .float) (hp : 0 < p) :
    ∃ o dgm coc σ, lensInit argsort res x p maxdim = .ok o ∧ res.dgms[1]? = some dgm ∧ res.cocycles[1]? = some coc ∧
      PersistenceRanking dgm σ ∧
      ∀ (z j : ℕ) (b d : ℝ) (c₀ : List ZRow), σ[z]? = some j → dgm[j]? = some (.fin b, .fin d) → coc[j]? = some c₀ →
      ∃ ξ, ListsCochain c₀ ξ ∧ (BornAt ρ p res.idxPerm.toFinset δ b ξ →
      ∀ (eigh : Eigh ℂ) (fuel : ℕ) (history : List ProjArgs) (perc : ℝ) (std check : Bool) (bump : Fl ℝ → Fl ℝ → Fl ℝ)
        (mode : RedMode), EighSpec eigh → k ≤ fuel → (if std then 2 * b else b) ≤ d → PositiveBump bump →
        mode ≠ .other →
      ∀ r : ℝ, 2 * r = (1 - perc) * (if std then 2 * b else b) + perc * d → BelowDeath ρ (2 * r) d →
      (∀ i < x.nPoints, ∃ u ∈ res.idxPerm, δ u i < r) → Bridged ρ res.idxPerm.toFinset x.nPoints δ b r →
      ∃ (X : Arr ℂ) (y : ℕ → ℕ → ℂ), (lensGetCoordinates eigh fuel (lensHistory eigh fuel o history)
          ⟨.fin perc, .int z, k, bump, std, check, mode⟩).2 = .ok X ∧ X.rows = x.nPoints ∧ X.cols = k ∧
        (∀ i < x.nPoints, ∀ m < k, X.at' i m = some (y i m)) ∧
        ¬ ∃ φ : ℕ → ℂ, (∀ i < x.nPoints, ‖φ i‖ = 1) ∧ OnCommonBalls res.idxPerm.toFinset x.nPoints δ r fun i i' =>
          ∃ t : ℝ, 0 < t ∧ ∑ m ∈ Finset.range k, star (φ i * y i m) * (φ i' * y i' m) = t) := by
  obtain ⟨o, dgm, coc, σ, h1, h2, h3, h4, h5⟩ := C112_lens_holonomy x hx hr argsort ha hm hk hf hp
  refine ⟨o, dgm, coc, σ, h1, h2, h3, h4, ?_⟩
  intro z j b d c₀ hz hpt hc₀
  obtain ⟨ξ, hξ, h6⟩ := h5 z j b d c₀ hz hpt hc₀
  refine ⟨ξ, hξ, ?_⟩
  intro hborn eigh fuel history perc std check bump mode he hfuel hstart hb hmode r hr2 hbel hall hbr
  obtain ⟨X, y, e1, e2, e3, e4, e5⟩ := h6 eigh fuel history perc std check bump mode he hfuel hstart hb hmode r hr2 hbel hall
  refine ⟨X, y, e1, e2, e3, e4, ?_⟩
  rintro ⟨φ, hφ, hpos⟩
  have hrange : ∀ u ∈ res.idxPerm.toFinset, u < x.rows := fun u hu => hr.range u (List.mem_toFinset.1 hu)
  obtain ⟨n, l, g1, g2, g3, g4⟩ := exists_closed_path (E := fun u v => ρ (δ u v) ≤ b)
    (fun u hu v hv h => by rwa [hx.metric.symm v (hrange v hv) u (hrange u hu)]) hξ.antisymm hborn
  obtain ⟨i, hi⟩ := exists_dataLoop hbr g1 g2 g3
  refine g4 ((e5 n i l hi).2.1 ?_)
  have hq : ∀ q, ∃ t : ℝ, q < n → 0 < t ∧
      star (φ (i q)) * φ (i (q + 1)) * ∑ m ∈ Finset.range k, star (y (i q) m) * y (i (q + 1)) m = t := by
    intro q
    by_cases hq : q < n
    · obtain ⟨t, ht, ht'⟩ := hpos _ (hi.land q hq) _ (hi.data q hq) _ (hi.land_le (show q + 1 ≤ n from hq)).2.1 (hi.here q hq)
        (hi.next q hq)
      refine ⟨t, fun _ => ⟨ht, ?_⟩⟩
      rw [← ht', Finset.mul_sum]
      exact Finset.sum_congr rfl fun m _ => by rw [star_mul']; ring
    · exact ⟨0, fun h => absurd h hq⟩
  choose t ht using hq
  refine ⟨∏ q ∈ Finset.range n, t q, Finset.prod_pos fun q hq => (ht q (Finset.mem_range.1 hq)).1, ?_⟩
  have hprod : ∏ q ∈ Finset.range n, star (φ (i q)) * φ (i (q + 1)) = 1 := by
    rw [Finset.prod_mul_distrib, prod_shift φ i hi.closed_data, ← Finset.prod_mul_distrib]
    refine Finset.prod_eq_one fun q hq => ?_
    have h := hφ _ (hi.data q (Finset.mem_range.1 hq))
    rw [show star (φ (i q)) = (starRingEnd ℂ) (φ (i q)) from rfl, Complex.conj_mul', h]
    norm_num
  push_cast
  rw [← Finset.prod_congr rfl fun q hq => (ht q (Finset.mem_range.1 hq)).2, Finset.prod_mul_distrib, hprod, one_mul]

/-- **C132 (real projective).** The same for `ProjectiveCoords(X, n_landmarks).get_coordinates(perc, cocycle_idx = z,
proj_dim = n_landmarks - 1, …)`: one cannot choose signs of the rows of the returned array, which are points of a projective space, such
that the inner products of the rows of all pairs of data points in a common ball become positive. -/
theorem C132_projective_essential (x : DataInput) (hx : DescribesData x δ) (hr : RipserSpec ρ x.rows k δ 2 maxdim res)
    (argsort : List (Fl ℝ) → List ℕ) (ha : ArgsortSpec argsort) (hm : 1 ≤ maxdim) (hk : 2 ≤ k)
    (hf : x.distanceMatrix = true → x.dtype = .float) :
    ∃ o dgm coc σ, projInit argsort res x maxdim = .ok o ∧ res.dgms[1]? = some dgm ∧ res.cocycles[1]? = some coc ∧
      PersistenceRanking dgm σ ∧
      ∀ (z j : ℕ) (b d : ℝ) (c₀ : List ZRow), σ[z]? = some j → dgm[j]? = some (.fin b, .fin d) → coc[j]? = some c₀ →
      ∃ ξ, ListsCochain c₀ ξ ∧ (BornAt ρ 2 res.idxPerm.toFinset δ b ξ →
      ∀ (eigh : Eigh ℝ) (fuel : ℕ) (history : List ProjArgs) (perc : ℝ) (std check : Bool) (bump : Fl ℝ → Fl ℝ → Fl ℝ)
        (mode : RedMode), EighSpec eigh → k ≤ fuel → (if std then 2 * b else b) ≤ d → PositiveBump bump →
        mode ≠ .other →
      ∀ r : ℝ, 2 * r = (1 - perc) * (if std then 2 * b else b) + perc * d → BelowDeath ρ (2 * r) d →
      (∀ i < x.nPoints, ∃ u ∈ res.idxPerm, δ u i < r) → Bridged ρ res.idxPerm.toFinset x.nPoints δ b r →
      ∃ (X : Arr ℝ) (y : ℕ → ℕ → ℝ), (projGetCoordinates eigh fuel (projHistory eigh fuel o history)
          ⟨.fin perc, .int z, (k - 1 : ℕ), bump, std, check, mode⟩).2 = .ok X ∧ X.rows = x.nPoints ∧ X.cols = k ∧
        (∀ i < x.nPoints, ∀ m < k, X.at' i m = some (y i m)) ∧
        ¬ ∃ s : ℕ → ℝ, (∀ i < x.nPoints, s i = 1 ∨ s i = -1) ∧ OnCommonBalls res.idxPerm.toFinset x.nPoints δ r fun i i' =>
          0 < ∑ m ∈ Finset.range k, (s i * y i m) * (s i' * y i' m)) := by
  obtain ⟨o, dgm, coc, σ, h1, h2, h3, h4, h5⟩ := C112_projective_holonomy x hx hr argsort ha hm hk hf
  refine ⟨o, dgm, coc, σ, h1, h2, h3, h4, ?_⟩
  intro z j b d c₀ hz hpt hc₀
  obtain ⟨ξ, hξ, h6⟩ := h5 z j b d c₀ hz hpt hc₀
  refine ⟨ξ, hξ, ?_⟩
  intro hborn eigh fuel history perc std check bump mode he hfuel hstart hb hmode r hr2 hbel hall hbr
  obtain ⟨X, y, e1, e2, e3, e4, e5⟩ := h6 eigh fuel history perc std check bump mode he hfuel hstart hb hmode r hr2 hbel hall
  refine ⟨X, y, e1, e2, e3, e4, ?_⟩
  rintro ⟨s, hs, hpos⟩
  have hrange : ∀ u ∈ res.idxPerm.toFinset, u < x.rows := fun u hu => hr.range u (List.mem_toFinset.1 hu)
  obtain ⟨n, l, g1, g2, g3, g4⟩ := exists_closed_path (E := fun u v => ρ (δ u v) ≤ b)
    (fun u hu v hv h => by rwa [hx.metric.symm v (hrange v hv) u (hrange u hu)]) hξ.antisymm hborn
  obtain ⟨i, hi⟩ := exists_dataLoop hbr g1 g2 g3
  have hneg := (e5 n i l hi).2 (by
    rcases Int.even_or_odd (pathValue ξ n l) with h | h
    · exact absurd (even_iff_two_dvd.1 h) g4
    · exact h)
  have hprod : ∏ q ∈ Finset.range n, s (i q) * s (i (q + 1)) = 1 := by
    have h := prod_shift (fun q => (s q : ℂ)) i hi.closed_data
    have h' : ∏ q ∈ Finset.range n, s (i (q + 1)) = ∏ q ∈ Finset.range n, s (i q) := by exact_mod_cast h
    rw [Finset.prod_mul_distrib, h', ← Finset.prod_mul_distrib]
    refine Finset.prod_eq_one fun q hq => ?_
    rcases hs _ (hi.data q (Finset.mem_range.1 hq)) with h | h <;> rw [h] <;> norm_num
  have hall' : 0 < ∏ q ∈ Finset.range n, (s (i q) * s (i (q + 1)) * ∑ m ∈ Finset.range k, y (i q) m * y (i (q + 1)) m) := by
    refine Finset.prod_pos fun q hq => ?_
    have hq := Finset.mem_range.1 hq
    have h := hpos _ (hi.land q hq) _ (hi.data q hq) _ (hi.land_le (show q + 1 ≤ n from hq)).2.1 (hi.here q hq) (hi.next q hq)
    rw [Finset.mul_sum]
    exact lt_of_lt_of_eq h (Finset.sum_congr rfl fun m _ => by ring)
  rw [Finset.prod_mul_distrib, hprod, one_mul] at hall'
  exact lt_asymm hneg hall'

end

end Dreimac
