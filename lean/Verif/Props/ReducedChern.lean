import Verif.Lemmas.ReducedChern
import Verif.Props.Reduced
import Verif.Props.Chern

/-!
# C131: complex projective coordinates of fewer dimensions still detect the class, if the reduction loses little
-/

namespace Dreimac

open Real Finset

noncomputable section
variable {k : ℕ} {δ : ℕ → ℕ → ℝ} {p : ℤ} {maxdim : ℕ} {res : RipserResult ℝ} {ρ : ℝ → ℝ}

/-- **C131.** The whole of `ComplexProjectiveCoords(X, n_landmarks, prime = p).get_coordinates(perc, cocycle_idx = z, proj_dim = q, …)`
with any `1 ≤ q < n_landmarks`, for a data set with distances `δ`, as in C92, if the balls cover the data set, the lift `c` of the
class is an integer cocycle, the class map has more than `10 ^ 6` bytes and the entries of the returned array are finite numbers `y`.
Row `i` of the array is the normalised orthogonal projection of the unreduced vector of data point `i` to a subspace of dimension
`q + 1` (in mode "direct" the one that captures most of the energy of the data); let `s i` be the length of this projection.
Consider a closed surface of polygons of data points, each in the ball of a landmark and small compared with a bound `M` of the form
`c - dν`, and allow an error `φ d` (in turns) for each edge, so that the sum of the phases allowed around each polygon is less than half
a turn.  If the product of the lost parts of the ends of each edge is less than `sin (2 π φ d)` times
`cos (2 π M * step)` times the overlap of their weights, then the phases of the products of the inner products of
consecutive rows around the polygons add up to `2 π` times the value of `c` on the surface of landmarks. -/
theorem C131_complex_projective_reduced (x : DataInput) (hx : DescribesData x δ) (hr : RipserSpec ρ x.rows k δ p maxdim res)
    (argsort : List (Fl ℝ) → List ℕ) (ha : ArgsortSpec argsort) (hm : 2 ≤ maxdim) (hk : 2 ≤ k) (hk' : k ≤ 2345)
    (hf : x.distanceMatrix = true → x.dtype = .float) (hp : 2 ≤ p) (hbig : 10 ^ 6 < 8 * k * x.nPoints) :
    ∃ o dgm coc σ, cpInit argsort res x k p maxdim = .ok o ∧ res.dgms[2]? = some dgm ∧ res.cocycles[2]? = some coc ∧
      PersistenceRanking dgm σ ∧
      ∀ (z j : ℕ) (b d : ℝ) (c₀ : List ZRow), σ[z]? = some j → dgm[j]? = some (.fin b, .fin d) → coc[j]? = some c₀ →
      ∃ c, ListsLift2 p res.idxPerm.toFinset c₀ c ∧
      ∀ (env : CPOracles) (fuel : ℕ) (history : List ProjArgs) (perc : ℝ) (std check : Bool) (bump : Fl ℝ → Fl ℝ → Fl ℝ)
        (mode : RedMode) (q : ℕ), EighSpec env.eigh → k ≤ fuel → (if std then 2 * b else b) ≤ d → PositiveBump bump →
        mode ≠ .other → 1 ≤ q → q < k →
      ∀ r : ℝ, 2 * r = (1 - perc) * (if std then 2 * b else b) + perc * d →
      IsDataCocycle2 res.idxPerm.toFinset δ (2 * r) c → (∀ i < x.nPoints, ∃ u ∈ res.idxPerm, δ u i < r) →
      ∃ (X : Arr ℂ) (w ν : ℕ → ℕ → ℝ) (β : ℕ → ℕ), (cpGetCoordinates env fuel (cpHistory env fuel o history)
          ⟨.fin perc, .int z, q, bump, std, check, mode⟩).2 = .ok X ∧ X.rows = x.nPoints ∧ X.cols = q + 1 ∧
        IsBumpWeights res.idxPerm.toFinset x.nPoints δ r bump w ∧ (∀ u v, ν v u = -ν u v) ∧
        (ExactLsq env.lsqr → ∀ g : ℕ → ℕ → ℝ, (∀ u ∈ res.idxPerm, ∀ v ∈ res.idxPerm, g v u = -g u v) →
          dataEnergy2 res.idxPerm.toFinset δ (2 * r) c ν ≤ dataEnergy2 res.idxPerm.toFinset δ (2 * r) c g) ∧
        (∀ i < x.nPoints, β i ∈ res.idxPerm ∧ δ (β i) i < r) ∧
        ∀ y : ℕ → ℕ → ℂ, (∀ i < x.nPoints, ∀ m < q + 1, X.at' i m = some (y i m)) →
        ∃ v s, IsNormalizedProjection (q + 1) k x.nPoints v
            (fun i m => cpDataVector res.idxPerm.toFinset c ν w (β i) i (res.idxPerm.getD m 0)) y s ∧
          (mode = .direct → CapturesMost (q + 1) k x.nPoints v
            (fun i m => cpDataVector res.idxPerm.toFinset c ν w (β i) i (res.idxPerm.getD m 0))) ∧
          ∀ M, FormBound2 res.idxPerm.toFinset δ (2 * r) c ν M →
          ∀ (D F : Type) [Fintype D] [Fintype F] [DecidableEq F] (surf : DataSurface D F) (ℓ : F → ℕ) (a : ℕ → ℕ) (φ : D → ℝ),
            surf.InBalls res.idxPerm.toFinset x.nPoints δ r ℓ → (∀ d, M * surf.step res.idxPerm.toFinset w d < 1 / 4) →
            (∀ d, 0 ≤ φ d ∧ φ d ≤ 1 / 4) →
            (∀ f, ∑ d with surf.face d = f, (M * surf.step res.idxPerm.toFinset w d + φ d) < 1 / 2) →
            (∀ i < x.nPoints, a i ∈ res.idxPerm ∧ δ (a i) i < r) →
            (∀ d, lost (s (surf.start d)) * lost (s (surf.start (surf.next d))) <
              dataOverlap res.idxPerm.toFinset w (surf.start d) (surf.start (surf.next d)) *
                cos (2 * π * (M * surf.step res.idxPerm.toFinset w d)) * sin (2 * π * φ d)) →
            (∀ f, surf.around (q + 1) y f ≠ 0) ∧ ∑ f, Complex.arg (surf.around (q + 1) y f) = 2 * π * surf.value c ℓ a := by
  obtain ⟨o, dgm, coc, σ, h1, h2, h3, h4, h5⟩ := C92_complex_projective_coordinates x hx hr argsort ha hm (by omega) hk' hf hp
  refine ⟨o, dgm, coc, σ, h1, h2, h3, h4, ?_⟩
  intro z j b d c₀ hz hpt hc₀
  obtain ⟨c, hlift, h6⟩ := h5 z j b d c₀ hz hpt hc₀
  refine ⟨c, hlift, ?_⟩
  intro env fuel history perc std check bump mode q he hfuel hstart hb hmode hq1 hq2 r hr2 hc hall
  obtain ⟨X, w, V, β, ν, e1, e2, e3, e4, e5, e6, e7, e8⟩ := (h6 env fuel history perc std check bump mode q hfuel hstart hb
    hmode hq1 hq2 r hr2).1 fun _ => hc
  have hcard : res.idxPerm.toFinset.card = k := by rw [List.toFinset_card_of_nodup hr.nodup]; exact hr.count
  have hA : cpDataAssigned res.idxPerm.toFinset x.nPoints c ν w = cpDataVector res.idxPerm.toFinset c ν w := by
    funext u i v
    unfold cpDataAssigned
    rw [hcard, if_neg (not_le.2 hbig)]
  rw [hA] at e7
  refine ⟨X, w, ν, β, e1, e2, e3, e4, e5, e6, fun i hi => ⟨(e8 i hi (hall i hi)).1, (e8 i hi (hall i hi)).2.1⟩, ?_⟩
  intro y hy
  set S := res.idxPerm.toFinset with hS
  have hsum : ∀ {E : Type} [AddCommMonoid E] (f : ℕ → E), ∑ m ∈ range k, f (res.idxPerm.getD m 0) = ∑ v ∈ S, f v := by
    intro E _ f
    rw [← hr.count, ← sum_landmarks hr.nodup fun m => f (res.idxPerm.getD m 0)]
    refine sum_congr rfl fun v hv => ?_
    rw [getD_of_lt (idxOf_lt (List.mem_toFinset.1 hv)), getElem_idxOf' (List.mem_toFinset.1 hv)]
  have hcols : (dataClassMap res.idxPerm x.nPoints δ r (cpDataVector S c ν w) β).cols = k := hr.count
  obtain ⟨-, v, s, hv, hmost, hin⟩ := C130_projection env.eigh he fuel _
    (fun i m => cpDataVector S c ν w (β i) i (res.idxPerm.getD m 0))
    (fun i hi m hm => if_pos ⟨hi, hm, hall i hi⟩)
    (fun i hi => by
      rw [hcols, hsum fun v => ‖cpDataVector S c ν w (β i) i v‖ ^ 2]
      obtain ⟨q1, q2, q3⟩ := e8 i hi (hall i hi)
      have := (q3 hc (β i) q1 q2).1
      rwa [hA] at this) q (by rw [hcols]; omega) mode ⟨V, X⟩ e7 y
    (fun i hi m hm => hy i hi m (by rw [show (⟨V, X⟩ : PpcaResult ℂ).X.cols = X.cols from rfl, e3] at hm; exact hm))
  rw [hcols, show (⟨V, X⟩ : PpcaResult ℂ).X.cols = X.cols from rfl, e3] at hv hmost
  refine ⟨v, s, hv, hmost, ?_⟩
  intro M hM D F _ _ _ surf ℓ a φ hs hsm hφ hpoly hab hloss
  have hSn : ∀ u ∈ S, u < x.rows := fun u hu => hr.range u (List.mem_toFinset.1 hu)
  refine (phaseData_of_bump hx.metric hSn hb e4 hlift.swap12 hc ν).chern_reduced hM surf ℓ hs hsm φ (fun d => (hφ d).1)
    (fun d => (hφ d).2) hpoly a (fun d => ⟨List.mem_toFinset.2 (hab _ (hs.data d)).1, (hab _ (hs.data d)).2⟩) β
    (fun d => by
      obtain ⟨q1, q2, -⟩ := e8 _ (hs.data d) (hall _ (hs.data d))
      exact ⟨List.mem_toFinset.2 q1, q2⟩) (q + 1) y (fun d => s (surf.start d) * s (surf.start (surf.next d)))
    (fun d => mul_pos (hv.pos _ (hs.data d)) (hv.pos _ (hs.data (surf.next d)))) fun d => ?_
  refine lt_of_le_of_lt ?_ (hloss d)
  have := hin _ (hs.data d) _ (hs.data (surf.next d))
  rw [hcols, show (⟨V, X⟩ : PpcaResult ℂ).X.cols = X.cols from rfl, e3,
    hsum fun v => star (cpDataVector S c ν w (β (surf.start d)) (surf.start d) v) *
      cpDataVector S c ν w (β (surf.start (surf.next d))) (surf.start (surf.next d)) v] at this
  refine le_trans (le_of_eq ?_) this
  congr 2
  push_cast
  rfl

end

end Dreimac
