import Verif.Lemmas.Essential2
import Verif.Props.ReducedChern

/-!
# C134: complex projective coordinates of fewer dimensions of a class that does not vanish
-/

namespace Dreimac

open Real Finset

noncomputable section
variable {k : ℕ} {δ : ℕ → ℕ → ℝ} {p : ℤ} {maxdim : ℕ} {res : RipserResult ℝ} {ρ : ℝ → ℝ}

/-- **C134 (any dimension).** The whole of `ComplexProjectiveCoords(X, n_landmarks, prime = p).get_coordinates(perc, cocycle_idx = z,
proj_dim = q, …)` with any `1 ≤ q < n_landmarks` as in C131, for a class that ripser reports to be born at `b`, if the balls around
landmarks that are joined at the birth have common data points, and the weights change within each ball by at most `α / M`, `α < 1 / 4`.
If for an error `η` (in turns) the product of the lost parts of the vectors of any two data points in a common ball is less than
`sin (2 π η)` times `cos (2 π M * step)` times the overlap of their weights, then the rows of the returned array cannot be multiplied
by phases such that the inner products of the rows of all pairs of data points in a common ball have phases below `1 / 3 - (α + η)`
turns. -/
theorem C134_complex_projective_reduced (x : DataInput) (hx : DescribesData x δ) (hr : RipserSpec ρ x.rows k δ p maxdim res)
    (argsort : List (Fl ℝ) → List ℕ) (ha : ArgsortSpec argsort) (hm : 2 ≤ maxdim) (hk : 2 ≤ k) (hk' : k ≤ 2345)
    (hf : x.distanceMatrix = true → x.dtype = .float) (hp : 2 ≤ p) (hbig : 10 ^ 6 < 8 * k * x.nPoints) :
    ∃ o dgm coc σ, cpInit argsort res x k p maxdim = .ok o ∧ res.dgms[2]? = some dgm ∧ res.cocycles[2]? = some coc ∧
      PersistenceRanking dgm σ ∧
      ∀ (z j : ℕ) (b d : ℝ) (c₀ : List ZRow), σ[z]? = some j → dgm[j]? = some (.fin b, .fin d) → coc[j]? = some c₀ →
      ∃ c, ListsLift2 p res.idxPerm.toFinset c₀ c ∧ (BornAt2 ρ p res.idxPerm.toFinset δ b c →
      ∀ (env : CPOracles) (fuel : ℕ) (history : List ProjArgs) (perc : ℝ) (std check : Bool) (bump : Fl ℝ → Fl ℝ → Fl ℝ)
        (mode : RedMode) (q : ℕ), EighSpec env.eigh → k ≤ fuel → (if std then 2 * b else b) ≤ d → PositiveBump bump →
        mode ≠ .other → 1 ≤ q → q < k →
      ∀ r : ℝ, 2 * r = (1 - perc) * (if std then 2 * b else b) + perc * d → Bridged2 ρ res.idxPerm.toFinset x.nPoints δ b r →
      IsDataCocycle2 res.idxPerm.toFinset δ (2 * r) c → (∀ i < x.nPoints, ∃ u ∈ res.idxPerm, δ u i < r) →
      ∃ (X : Arr ℂ) (w ν : ℕ → ℕ → ℝ) (β : ℕ → ℕ), (cpGetCoordinates env fuel (cpHistory env fuel o history)
          ⟨.fin perc, .int z, q, bump, std, check, mode⟩).2 = .ok X ∧ X.rows = x.nPoints ∧ X.cols = q + 1 ∧
        IsBumpWeights res.idxPerm.toFinset x.nPoints δ r bump w ∧ (∀ u v, ν v u = -ν u v) ∧
        (ExactLsq env.lsqr → ∀ g : ℕ → ℕ → ℝ, (∀ u ∈ res.idxPerm, ∀ v ∈ res.idxPerm, g v u = -g u v) →
          dataEnergy2 res.idxPerm.toFinset δ (2 * r) c ν ≤ dataEnergy2 res.idxPerm.toFinset δ (2 * r) c g) ∧
        (∀ i < x.nPoints, β i ∈ res.idxPerm ∧ δ (β i) i < r) ∧
        ∀ y : ℕ → ℕ → ℂ, (∀ i < x.nPoints, ∀ m < q + 1, X.at' i m = some (y i m)) →
        ∃ v s, IsNormalizedProjection (q + 1) k x.nPoints v
            (fun i m => cpDataVector res.idxPerm.toFinset c ν w (β i) i (res.idxPerm.getD m 0)) y s ∧
          (mode = .direct → CapturesMost (q + 1) k x.nPoints v
            (fun i m => cpDataVector res.idxPerm.toFinset c ν w (β i) i (res.idxPerm.getD m 0))) ∧
          ∀ M α η : ℝ, FormBound2 res.idxPerm.toFinset δ (2 * r) c ν M → α < 1 / 4 → 0 ≤ η → η ≤ 1 / 4 →
            (OnCommonBalls res.idxPerm.toFinset x.nPoints δ r fun i i' =>
              M * ∑ v ∈ res.idxPerm.toFinset, |w v i' - w v i| ≤ α) →
            (OnCommonBalls res.idxPerm.toFinset x.nPoints δ r fun i i' => lost (s i) * lost (s i') <
              dataOverlap res.idxPerm.toFinset w i i' * cos (2 * π * (M * ∑ v ∈ res.idxPerm.toFinset, |w v i' - w v i|)) *
                sin (2 * π * η)) →
            ¬ ∃ φ : ℕ → ℂ, (∀ i < x.nPoints, ‖φ i‖ = 1) ∧ OnCommonBalls res.idxPerm.toFinset x.nPoints δ r fun i i' =>
              |Complex.arg (∑ m ∈ range (q + 1), star (φ i * y i m) * (φ i' * y i' m))| < 2 * π * (1 / 3 - (α + η))) := by
  obtain ⟨o, dgm, coc, σ, h1, h2, h3, h4, h5⟩ := C92_complex_projective_coordinates x hx hr argsort ha hm (by omega) hk' hf hp
  refine ⟨o, dgm, coc, σ, h1, h2, h3, h4, ?_⟩
  intro z j b d c₀ hz hpt hc₀
  obtain ⟨c, hlift, h6⟩ := h5 z j b d c₀ hz hpt hc₀
  refine ⟨c, hlift, ?_⟩
  intro hborn env fuel history perc std check bump mode q he hfuel hstart hb hmode hq1 hq2 r hr2 hbr hc hall
  obtain ⟨X, w, V, β, ν, e1, e2, e3, e4, e5, e6, e7, e8⟩ := (h6 env fuel history perc std check bump mode q hfuel hstart hb
    hmode hq1 hq2 r hr2).1 fun _ => hc
  have hcard : res.idxPerm.toFinset.card = k := by rw [List.toFinset_card_of_nodup hr.nodup]; exact hr.count
  have hA : cpDataAssigned res.idxPerm.toFinset x.nPoints c ν w = cpDataVector res.idxPerm.toFinset c ν w := by
    funext u i v
    unfold cpDataAssigned
    rw [hcard, if_neg (not_le.2 hbig)]
  rw [hA] at e7
  refine ⟨X, w, ν, β, e1, e2, e3, e4, e5, e6, fun i hi => ⟨(e8 i hi (hall i hi)).1, (e8 i hi (hall i hi)).2.1⟩, ?_⟩
  intro y hy
  set S := res.idxPerm.toFinset with hS
  have hsum : ∀ {E : Type} [AddCommMonoid E] (f : ℕ → E), ∑ m ∈ range k, f (res.idxPerm.getD m 0) = ∑ v ∈ S, f v := by
    intro E _ f
    rw [← hr.count, ← sum_landmarks hr.nodup fun m => f (res.idxPerm.getD m 0)]
    refine sum_congr rfl fun v hv => ?_
    rw [getD_of_lt (idxOf_lt (List.mem_toFinset.1 hv)), getElem_idxOf' (List.mem_toFinset.1 hv)]
  have hcols : (dataClassMap res.idxPerm x.nPoints δ r (cpDataVector S c ν w) β).cols = k := hr.count
  obtain ⟨-, v, s, hv, hmost, hin⟩ := C130_projection env.eigh he fuel _
    (fun i m => cpDataVector S c ν w (β i) i (res.idxPerm.getD m 0))
    (fun i hi m hm => if_pos ⟨hi, hm, hall i hi⟩)
    (fun i hi => by
      rw [hcols, hsum fun v => ‖cpDataVector S c ν w (β i) i v‖ ^ 2]
      obtain ⟨q1, q2, q3⟩ := e8 i hi (hall i hi)
      have := (q3 hc (β i) q1 q2).1
      rwa [hA] at this) q (by rw [hcols]; omega) mode ⟨V, X⟩ e7 y
    (fun i hi m hm => hy i hi m (by rw [show (⟨V, X⟩ : PpcaResult ℂ).X.cols = X.cols from rfl, e3] at hm; exact hm))
  rw [hcols, show (⟨V, X⟩ : PpcaResult ℂ).X.cols = X.cols from rfl, e3] at hv hmost
  refine ⟨v, s, hv, hmost, ?_⟩
  rintro M α η hM hα hη0 hη1 hsm hloss ⟨φ, hφ, hsmall⟩
  have hSn : ∀ u ∈ S, u < x.rows := fun u hu => hr.range u (List.mem_toFinset.1 hu)
  obtain ⟨m, m1, m2⟩ := (phaseData_of_bump hx.metric hSn hb e4 hlift.swap12 hc ν).unrolled_reduced hM hα hη0 hη1 hsm β
    (fun i hi _ => by
      obtain ⟨q1, q2, -⟩ := e8 i hi (hall i hi)
      exact ⟨List.mem_toFinset.2 q1, q2⟩)
    (fun i => if i < x.nPoints then φ i else 1) (fun i => by split_ifs with h; exacts [hφ i h, norm_one])
    (fun i i' => ∑ m ∈ range (q + 1), star (y i m) * y i' m) s (fun i hi => hv.pos i hi)
    (fun u hu i hi i' hi' hd hd' => by
      refine lt_of_le_of_lt ?_ (hloss u hu i hi i' hi' hd hd')
      have := hin i hi i' hi'
      rw [hcols, show (⟨V, X⟩ : PpcaResult ℂ).X.cols = X.cols from rfl, e3,
        hsum fun v => star (cpDataVector S c ν w (β i) i v) * cpDataVector S c ν w (β i') i' v] at this
      refine le_trans (le_of_eq ?_) this
      congr 2
      push_cast
      rfl)
    (fun u hu i hi i' hi' hd hd' => by
      have := hsmall u hu i hi i' hi' hd hd'
      beta_reduce at this ⊢
      rw [if_pos hi, if_pos hi']
      have e : ∑ m ∈ range (q + 1), star (φ i * y i m) * (φ i' * y i' m) = star (φ i) * φ i' *
          ∑ m ∈ range (q + 1), star (y i m) * y i' m := by
        rw [mul_sum]
        refine sum_congr rfl fun t _ => ?_
        rw [star_mul']
        ring
      rwa [e] at this)
  refine hborn ⟨m, m1, fun u hu v hv t ht q1 q2 q3 => ?_⟩
  rw [m2 u hu v hv t ht (hbr u hu v hv t ht q1 q2 q3), sub_self]
  exact dvd_zero _

end

end Dreimac
