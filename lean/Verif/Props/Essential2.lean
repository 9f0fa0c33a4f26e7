import Verif.Lemmas.Essential2
import Verif.Props.Chern

/-!
# C134: complex projective coordinates of a class that does not vanish are not a choice of vectors
-/

namespace Dreimac

open Real Finset

noncomputable section
variable {k : ℕ} {δ : ℕ → ℕ → ℝ} {p : ℤ} {maxdim : ℕ} {res : RipserResult ℝ} {ρ : ℝ → ℝ}

/-- C134: with `standard_range` and a positive percentage, the balls of three landmarks that are joined at the birth have a common data
point. -/
theorem C134_standard_range {S : Finset ℕ} {N : ℕ} {b d perc r η : ℝ} (hS : ∀ u ∈ S, u < N) (h0 : ∀ u ∈ S, δ u u = 0)
    (hρ : ∀ x, x ≤ ρ x + η) (hη : 0 ≤ η) (hb : 0 ≤ b) (hr : 2 * r = (1 - perc) * (2 * b) + perc * d)
    (hp : 2 * η < perc * (d - 2 * b)) : Bridged2 ρ S N δ b r := by
  have hbr : b + η < r := by nlinarith
  intro u hu v hv z hz _ hvz huz
  refine ⟨z, hS z hz, by linarith [hρ (δ u z)], by linarith [hρ (δ v z)], ?_⟩
  rw [h0 z hz]
  linarith

/-- **C134.** The whole of `ComplexProjectiveCoords(X, n_landmarks, prime = p).get_coordinates(perc, cocycle_idx = z,
proj_dim = n_landmarks - 1, …)` as in C92 and C124, for a class that ripser reports to be born at `b`, if the balls around landmarks that
are joined at the birth have common data points, the balls cover the data set, the lift `c` of the class is an integer cocycle and the
class map has more than `10 ^ 6` bytes: if the weights change within each ball by at most `α / M`, for a bound `M` of the form `c - dν`
and `α < 1 / 4`, the rows of the returned array, which are points of the complex projective space, cannot be multiplied by phases such
that the inner products of the rows of all pairs of data points in a common ball have phases below `1 / 3 - α` turns.  (For
`α ≤ 1 / 12` this means in particular: not such that these inner products have positive real parts.) -/
theorem C134_complex_projective_essential_partial (x : DataInput) (hx : DescribesData x δ)
    (hr : RipserSpec ρ x.rows k δ p maxdim res)
    (argsort : List (Fl ℝ) → List ℕ) (ha : ArgsortSpec argsort) (hm : 2 ≤ maxdim) (hk : 2 ≤ k) (hk' : k ≤ 2345)
    (hf : x.distanceMatrix = true → x.dtype = .float) (hp : 2 ≤ p) (hbig : 10 ^ 6 < 8 * k * x.nPoints) :
    ∃ o dgm coc σ, cpInit argsort res x k p maxdim = .ok o ∧ res.dgms[2]? = some dgm ∧ res.cocycles[2]? = some coc ∧
      PersistenceRanking dgm σ ∧
      ∀ (z j : ℕ) (b d : ℝ) (c₀ : List ZRow), σ[z]? = some j → dgm[j]? = some (.fin b, .fin d) → coc[j]? = some c₀ →
      ∃ c, ListsLift2 p res.idxPerm.toFinset c₀ c ∧ (BornAt2 ρ p res.idxPerm.toFinset δ b c →
      ∀ (env : CPOracles) (fuel : ℕ) (history : List ProjArgs) (perc : ℝ) (std check : Bool) (bump : Fl ℝ → Fl ℝ → Fl ℝ)
        (mode : RedMode), EighSpec env.eigh → k ≤ fuel → (if std then 2 * b else b) ≤ d → PositiveBump bump →
        mode ≠ .other →
      ∀ r : ℝ, 2 * r = (1 - perc) * (if std then 2 * b else b) + perc * d → Bridged2 ρ res.idxPerm.toFinset x.nPoints δ b r →
      IsDataCocycle2 res.idxPerm.toFinset δ (2 * r) c → (∀ i < x.nPoints, ∃ u ∈ res.idxPerm, δ u i < r) →
      ∃ (X : Arr ℂ) (y : ℕ → ℕ → ℂ) (w ν : ℕ → ℕ → ℝ), (cpGetCoordinates env fuel (cpHistory env fuel o history)
          ⟨.fin perc, .int z, k - 1, bump, std, check, mode⟩).2 = .ok X ∧ X.rows = x.nPoints ∧ X.cols = k ∧
        (∀ i < x.nPoints, ∀ m < k, X.at' i m = some (y i m)) ∧
        IsBumpWeights res.idxPerm.toFinset x.nPoints δ r bump w ∧ (∀ u v, ν v u = -ν u v) ∧
        (ExactLsq env.lsqr → ∀ g : ℕ → ℕ → ℝ, (∀ u ∈ res.idxPerm, ∀ v ∈ res.idxPerm, g v u = -g u v) →
          dataEnergy2 res.idxPerm.toFinset δ (2 * r) c ν ≤ dataEnergy2 res.idxPerm.toFinset δ (2 * r) c g) ∧
        ∀ M α : ℝ, FormBound2 res.idxPerm.toFinset δ (2 * r) c ν M → α < 1 / 4 →
          (OnCommonBalls res.idxPerm.toFinset x.nPoints δ r fun i i' => M * ∑ v ∈ res.idxPerm.toFinset, |w v i' - w v i| ≤ α) →
          ¬ ∃ φ : ℕ → ℂ, (∀ i < x.nPoints, ‖φ i‖ = 1) ∧ OnCommonBalls res.idxPerm.toFinset x.nPoints δ r fun i i' =>
            |Complex.arg (∑ m ∈ range k, star (φ i * y i m) * (φ i' * y i' m))| < 2 * π * (1 / 3 - α)) := by
  obtain ⟨o, dgm, coc, σ, h1, h2, h3, h4, h5⟩ := cp_gram x hx hr argsort ha hm hk hk' hf hp
  refine ⟨o, dgm, coc, σ, h1, h2, h3, h4, ?_⟩
  intro z j b d c₀ hz hpt hc₀
  obtain ⟨c, hlift, h6⟩ := h5 z j b d c₀ hz hpt hc₀
  refine ⟨c, hlift, ?_⟩
  intro hborn env fuel history perc std check bump mode he hfuel hstart hb hmode r hr2 hbr hc hall
  obtain ⟨X, y, w, ν, β, e1, e2, e3, e4, e5, e6, e7, e8, e9⟩ :=
    h6 env fuel history perc std check bump mode he hfuel hstart hb hmode r hr2 hc hall
  have hS : ∀ u ∈ res.idxPerm.toFinset, u < x.rows := fun u hu => hr.range u (List.mem_toFinset.1 hu)
  refine ⟨X, y, w, ν, e1, e2, e3, e4, e5, e6, e7, ?_⟩
  rintro M α hM hα hsm ⟨φ, hφ, hsmall⟩
  have hcard : res.idxPerm.toFinset.card = k := by rw [List.toFinset_card_of_nodup hr.nodup]; exact hr.count
  have hA : cpDataAssigned res.idxPerm.toFinset x.nPoints c ν w = cpDataVector res.idxPerm.toFinset c ν w := by
    funext u i v
    unfold cpDataAssigned
    rw [hcard, if_neg (not_le.2 hbig)]
  rw [hA] at e9
  have hP := phaseData_of_bump hx.metric hS hb e5 hlift.swap12 hc ν
  obtain ⟨m, m1, m2⟩ := hP.unrolled hM hα hsm β (fun i hi _ => e8 i hi) (fun i => if i < x.nPoints then φ i else 1)
    (fun i => by split_ifs with h; exacts [hφ i h, norm_one]) (fun u hu i hi i' hi' hd hd' => by
      have := hsmall u hu i hi i' hi' hd hd'
      beta_reduce at this ⊢
      rw [if_pos hi, if_pos hi']
      have e : ∑ m ∈ range k, star (φ i * y i m) * (φ i' * y i' m) = star (φ i) * φ i' *
          dataInner res.idxPerm.toFinset c ν w (β i) i (β i') i' := by
        unfold dataInner
        rw [← e9 i hi i' hi', mul_sum]
        refine sum_congr rfl fun q _ => ?_
        rw [star_mul']
        ring
      rwa [e] at this)
  refine hborn ⟨m, m1, fun u hu v hv t ht q1 q2 q3 => ?_⟩
  rw [m2 u hu v hv t ht (hbr u hu v hv t ht q1 q2 q3), sub_self]
  exact dvd_zero _

/-- **C134 (small data sets).** If the class map has at most `10 ^ 6` bytes, the inner products of the returned rows of all pairs of data
points in a common ball are positive, whatever the class is. -/
theorem C134_small_data (x : DataInput) (hx : DescribesData x δ) (hr : RipserSpec ρ x.rows k δ p maxdim res)
    (argsort : List (Fl ℝ) → List ℕ) (ha : ArgsortSpec argsort) (hm : 2 ≤ maxdim) (hk : 2 ≤ k) (hk' : k ≤ 2345)
    (hf : x.distanceMatrix = true → x.dtype = .float) (hp : 2 ≤ p) (hsmall : 8 * k * x.nPoints ≤ 10 ^ 6) :
    ∃ o dgm coc σ, cpInit argsort res x k p maxdim = .ok o ∧ res.dgms[2]? = some dgm ∧ res.cocycles[2]? = some coc ∧
      PersistenceRanking dgm σ ∧
      ∀ (z j : ℕ) (b d : ℝ) (c₀ : List ZRow), σ[z]? = some j → dgm[j]? = some (.fin b, .fin d) → coc[j]? = some c₀ →
      ∃ c, ListsLift2 p res.idxPerm.toFinset c₀ c ∧
      ∀ (env : CPOracles) (fuel : ℕ) (history : List ProjArgs) (perc : ℝ) (std check : Bool) (bump : Fl ℝ → Fl ℝ → Fl ℝ)
        (mode : RedMode), EighSpec env.eigh → k ≤ fuel → (if std then 2 * b else b) ≤ d → PositiveBump bump →
        mode ≠ .other →
      ∀ r : ℝ, 2 * r = (1 - perc) * (if std then 2 * b else b) + perc * d →
      IsDataCocycle2 res.idxPerm.toFinset δ (2 * r) c → (∀ i < x.nPoints, ∃ u ∈ res.idxPerm, δ u i < r) →
      ∃ (X : Arr ℂ) (y : ℕ → ℕ → ℂ), (cpGetCoordinates env fuel (cpHistory env fuel o history)
          ⟨.fin perc, .int z, k - 1, bump, std, check, mode⟩).2 = .ok X ∧ X.rows = x.nPoints ∧ X.cols = k ∧
        (∀ i < x.nPoints, ∀ m < k, X.at' i m = some (y i m)) ∧
        OnCommonBalls res.idxPerm.toFinset x.nPoints δ r fun i i' =>
          ∃ t : ℝ, 0 < t ∧ ∑ m ∈ range k, star (y i m) * y i' m = t := by
  obtain ⟨o, dgm, coc, σ, h1, h2, h3, h4, h5⟩ := cp_gram x hx hr argsort ha hm hk hk' hf hp
  refine ⟨o, dgm, coc, σ, h1, h2, h3, h4, ?_⟩
  intro z j b d c₀ hz hpt hc₀
  obtain ⟨c, hlift, h6⟩ := h5 z j b d c₀ hz hpt hc₀
  refine ⟨c, hlift, ?_⟩
  intro env fuel history perc std check bump mode he hfuel hstart hb hmode r hr2 hc hall
  obtain ⟨X, y, w, ν, β, e1, e2, e3, e4, e5, e6, e7, e8, e9⟩ :=
    h6 env fuel history perc std check bump mode he hfuel hstart hb hmode r hr2 hc hall
  have hS : ∀ u ∈ res.idxPerm.toFinset, u < x.rows := fun u hu => hr.range u (List.mem_toFinset.1 hu)
  refine ⟨X, y, e1, e2, e3, e4, ?_⟩
  have hcard : res.idxPerm.toFinset.card = k := by rw [List.toFinset_card_of_nodup hr.nodup]; exact hr.count
  have hA : ∀ u i v, cpDataAssigned res.idxPerm.toFinset x.nPoints c ν w u i v = ((√(w v i) : ℝ) : ℂ) := by
    intro u i v
    unfold cpDataAssigned
    rw [hcard, if_pos hsmall]
  have hP := phaseData_of_bump hx.metric hS hb e5 hlift.swap12 hc ν
  intro u hu i hi i' hi' hd hd'
  refine ⟨∑ v ∈ res.idxPerm.toFinset, √(w v i) * √(w v i'), ?_, ?_⟩
  · have p1 := (hP.support i hi ⟨u, hu, hd⟩ u hu).2 hd
    have p2 := (hP.support i' hi' ⟨u, hu, hd'⟩ u hu).2 hd'
    exact sum_pos' (fun v _ => by positivity) ⟨u, hu, by positivity⟩
  · rw [e9 i hi i' hi']
    push_cast
    refine sum_congr rfl fun v _ => ?_
    rw [hA, hA, RCLike.star_def, Complex.conj_ofReal]

end

end Dreimac
