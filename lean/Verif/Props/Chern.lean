import Verif.Lemmas.Surface
import Verif.Props.EndToEnd2
import Verif.Props.Holonomy

/-!
# C124: complex projective coordinates of a data set detect the class
-/

namespace Dreimac

open Real Finset

noncomputable section
variable {k : ℕ} {δ : ℕ → ℕ → ℝ} {p : ℤ} {maxdim : ℕ} {res : RipserResult ℝ} {ρ : ℝ → ℝ}

/-- Bump weights, for a distance table and an alternating cocycle, have what the argument about phases needs. -/
theorem phaseData_of_bump {n N : ℕ} (hd : IsDistanceTable n N δ) {S : Finset ℕ} (hS : ∀ u ∈ S, u < n) {r : ℝ}
    {bump : Fl ℝ → Fl ℝ → Fl ℝ} (hb : PositiveBump bump) {w : ℕ → ℕ → ℝ} (hw : IsBumpWeights S N δ r bump w)
    {c : ℕ → ℕ → ℕ → ℤ} (h12 : ∀ u ∈ S, ∀ v ∈ S, ∀ z ∈ S, c v u z = -c u v z) (hc : IsDataCocycle2 S δ (2 * r) c)
    (ν : ℕ → ℕ → ℝ) : PhaseData S N δ r w c ν := by
  have hφ : ∀ i < N, (∃ u ∈ S, δ u i < r) → ∀ φ : ℕ → ℝ,
      (∀ u ∈ S, (δ u i < r → bump (.fin (δ u i)) (.fin r) = .fin (φ u)) ∧ (r ≤ δ u i → φ u = 0)) →
      ∀ u ∈ S, 0 ≤ φ u ∧ (0 < φ u ↔ δ u i < r) := by
    intro i hi _ φ h u hu
    by_cases hui : δ u i < r
    · obtain ⟨v, hv, e⟩ := hb (δ u i) r (hd.nonneg u (hS u hu) i hi) hui
      rw [(h u hu).1 hui] at e
      injection e with e
      rw [e]
      exact ⟨hv.le, fun _ => hui, fun _ => hv⟩
    · rw [(h u hu).2 (not_lt.1 hui)]
      exact ⟨le_rfl, fun h => absurd h (lt_irrefl _), fun h => absurd h hui⟩
  refine ⟨?_, ?_, ?_, ?_, h12, hc⟩
  · intro i hi hcov u hu
    obtain ⟨φ, h1, h2, h3⟩ := hw i hi hcov
    rw [h3 u hu]
    exact div_nonneg (hφ i hi hcov φ h1 u hu).1 h2.le
  · intro i hi hcov
    obtain ⟨φ, h1, h2, h3⟩ := hw i hi hcov
    rw [sum_congr rfl h3, ← sum_div, div_self h2.ne']
  · intro i hi hcov u hu
    obtain ⟨φ, h1, h2, h3⟩ := hw i hi hcov
    rw [h3 u hu, div_pos_iff_of_pos_right h2]
    exact (hφ i hi hcov φ h1 u hu).2
  · intro u hu v hv i hi hui hvi
    have := hd.triangle u (hS u hu) v (hS v hv) i hi
    linarith

/-- The inner products of the rows that are returned for `proj_dim = n_landmarks - 1`. -/
theorem cp_gram (x : DataInput) (hx : DescribesData x δ) (hr : RipserSpec ρ x.rows k δ p maxdim res)
    (argsort : List (Fl ℝ) → List ℕ) (ha : ArgsortSpec argsort) (hm : 2 ≤ maxdim) (hk : 2 ≤ k) (hk' : k ≤ 2345)
    (hf : x.distanceMatrix = true → x.dtype = .float) (hp : 2 ≤ p) :
    ∃ o dgm coc σ, cpInit argsort res x k p maxdim = .ok o ∧ res.dgms[2]? = some dgm ∧ res.cocycles[2]? = some coc ∧
      PersistenceRanking dgm σ ∧
      ∀ (z j : ℕ) (b d : ℝ) (c₀ : List ZRow), σ[z]? = some j → dgm[j]? = some (.fin b, .fin d) → coc[j]? = some c₀ →
      ∃ c, ListsLift2 p res.idxPerm.toFinset c₀ c ∧
      ∀ (env : CPOracles) (fuel : ℕ) (history : List ProjArgs) (perc : ℝ) (std check : Bool) (bump : Fl ℝ → Fl ℝ → Fl ℝ)
        (mode : RedMode), EighSpec env.eigh → k ≤ fuel → (if std then 2 * b else b) ≤ d → PositiveBump bump →
        mode ≠ .other →
      ∀ r : ℝ, 2 * r = (1 - perc) * (if std then 2 * b else b) + perc * d →
      IsDataCocycle2 res.idxPerm.toFinset δ (2 * r) c → (∀ i < x.nPoints, ∃ u ∈ res.idxPerm, δ u i < r) →
      ∃ (X : Arr ℂ) (y : ℕ → ℕ → ℂ) (w ν : ℕ → ℕ → ℝ) (β : ℕ → ℕ), (cpGetCoordinates env fuel (cpHistory env fuel o history)
          ⟨.fin perc, .int z, k - 1, bump, std, check, mode⟩).2 = .ok X ∧ X.rows = x.nPoints ∧ X.cols = k ∧
        (∀ i < x.nPoints, ∀ m < k, X.at' i m = some (y i m)) ∧
        IsBumpWeights res.idxPerm.toFinset x.nPoints δ r bump w ∧ (∀ u v, ν v u = -ν u v) ∧
        (ExactLsq env.lsqr → ∀ g : ℕ → ℕ → ℝ, (∀ u ∈ res.idxPerm, ∀ v ∈ res.idxPerm, g v u = -g u v) →
          dataEnergy2 res.idxPerm.toFinset δ (2 * r) c ν ≤ dataEnergy2 res.idxPerm.toFinset δ (2 * r) c g) ∧
        (∀ i < x.nPoints, β i ∈ res.idxPerm.toFinset ∧ δ (β i) i < r) ∧
        ∀ i < x.nPoints, ∀ j < x.nPoints, ∑ m ∈ range k, star (y i m) * y j m =
          ∑ v ∈ res.idxPerm.toFinset, star (cpDataAssigned res.idxPerm.toFinset x.nPoints c ν w (β i) i v) *
            cpDataAssigned res.idxPerm.toFinset x.nPoints c ν w (β j) j v := by
  obtain ⟨o, dgm, coc, σ, h1, h2, h3, h4, h5⟩ := C92_complex_projective_coordinates x hx hr argsort ha hm (by omega) hk' hf hp
  refine ⟨o, dgm, coc, σ, h1, h2, h3, h4, ?_⟩
  intro z j b d c₀ hz hpt hc₀
  obtain ⟨c, hlift, h6⟩ := h5 z j b d c₀ hz hpt hc₀
  refine ⟨c, hlift, ?_⟩
  intro env fuel history perc std check bump mode he hfuel hstart hb hmode r hr2 hc hall
  obtain ⟨X, w, V, β, ν, e1, e2, e3, e4, e5, e6, e7, e8⟩ := (h6 env fuel history perc std check bump mode (k - 1) hfuel hstart hb
    hmode (by omega) (by omega) r hr2).1 fun _ => hc
  rw [show (((k - 1 : ℕ) : ℤ)) = (k : ℤ) - 1 by omega] at e1
  have hlk : res.idxPerm.length = k := hr.count
  set S := res.idxPerm.toFinset with hS
  set A := cpDataAssigned S x.nPoints c ν w with hA
  have hsum : ∀ f : ℕ → ℂ, ∑ m ∈ range k, f (res.idxPerm.getD m 0) = ∑ v ∈ S, f v := by
    intro f
    rw [← hlk, ← sum_landmarks hr.nodup fun m => f (res.idxPerm.getD m 0)]
    refine sum_congr rfl fun v hv => ?_
    rw [getD_of_lt (idxOf_lt (List.mem_toFinset.1 hv)), getElem_idxOf' (List.mem_toFinset.1 hv)]
  have hsumR : ∀ f : ℕ → ℝ, ∑ m ∈ range k, f (res.idxPerm.getD m 0) = ∑ v ∈ S, f v := by
    intro f
    rw [← hlk, ← sum_landmarks hr.nodup fun m => f (res.idxPerm.getD m 0)]
    refine sum_congr rfl fun v hv => ?_
    rw [getD_of_lt (idxOf_lt (List.mem_toFinset.1 hv)), getElem_idxOf' (List.mem_toFinset.1 hv)]
  have hcols : (dataClassMap res.idxPerm x.nPoints δ r A β).cols = k := hlk
  obtain ⟨-, y, hy, hin⟩ := C103_lossless env.eigh he fuel (dataClassMap res.idxPerm x.nPoints δ r A β)
    (fun i m => A (β i) i (res.idxPerm.getD m 0))
    (fun i hi m hm => if_pos ⟨hi, hm, hall i hi⟩)
    (fun i hi => by
      rw [hcols, hsumR fun v => ‖A (β i) i v‖ ^ 2]
      obtain ⟨q1, q2, q3⟩ := e8 i hi (hall i hi)
      exact (q3 hc (β i) q1 q2).1) (k - 1) (by rw [hcols]; omega)
    (fun q m => if q = m then 1 else 0) (fun i q => A (β i) i (res.idxPerm.getD q 0))
    (fun i _ m hm => by
      rw [hcols] at hm
      rw [show k - 1 + 1 = k by omega]
      simp [hm]) mode ⟨V, X⟩ e7
  have hXc : X.cols = k := by rw [e3]; omega
  refine ⟨X, y, w, ν, β, e1, e2, hXc, ?_, e4, e5, e6, ?_, ?_⟩
  · intro i hi m hm
    exact hy i hi m (by rw [show (⟨V, X⟩ : PpcaResult ℂ).X.cols = X.cols from rfl, hXc]; exact hm)
  · intro i hi
    obtain ⟨q1, q2, -⟩ := e8 i hi (hall i hi)
    exact ⟨List.mem_toFinset.2 q1, q2⟩
  · intro i hi j hj
    have := hin i hi j hj
    rw [hcols] at this
    simp only at this
    rw [hXc] at this
    rw [this, hsum fun v => star (A (β i) i v) * A (β j) j v]

/-- **C124.** The whole of `ComplexProjectiveCoords(X, n_landmarks, prime = p).get_coordinates(perc, cocycle_idx = z,
proj_dim = n_landmarks - 1, …)` for a data set with distances `δ`, as in C92, if the balls cover the data set, the lift `c` of the
class is an integer cocycle and the class map has more than `10 ^ 6` bytes: the call returns an array of finite rows `y`, and over
every closed surface of polygons of data points, each in the ball of a landmark and small compared with a bound `M` of the form
`c - dν`, the phases of the products of the inner products of consecutive rows around the polygons add up to `2 π` times the value
of `c` on the surface of landmarks.  (So the first Chern number of the rows, as points of the complex projective space, over the
surface is the value of the class.) -/
theorem C124_complex_projective_chern_partial (x : DataInput) (hx : DescribesData x δ) (hr : RipserSpec ρ x.rows k δ p maxdim res)
    (argsort : List (Fl ℝ) → List ℕ) (ha : ArgsortSpec argsort) (hm : 2 ≤ maxdim) (hk : 2 ≤ k) (hk' : k ≤ 2345)
    (hf : x.distanceMatrix = true → x.dtype = .float) (hp : 2 ≤ p) (hbig : 10 ^ 6 < 8 * k * x.nPoints) :
    ∃ o dgm coc σ, cpInit argsort res x k p maxdim = .ok o ∧ res.dgms[2]? = some dgm ∧ res.cocycles[2]? = some coc ∧
      PersistenceRanking dgm σ ∧
      ∀ (z j : ℕ) (b d : ℝ) (c₀ : List ZRow), σ[z]? = some j → dgm[j]? = some (.fin b, .fin d) → coc[j]? = some c₀ →
      ∃ c, ListsLift2 p res.idxPerm.toFinset c₀ c ∧
      ∀ (env : CPOracles) (fuel : ℕ) (history : List ProjArgs) (perc : ℝ) (std check : Bool) (bump : Fl ℝ → Fl ℝ → Fl ℝ)
        (mode : RedMode), EighSpec env.eigh → k ≤ fuel → (if std then 2 * b else b) ≤ d → PositiveBump bump →
        mode ≠ .other →
      ∀ r : ℝ, 2 * r = (1 - perc) * (if std then 2 * b else b) + perc * d →
      IsDataCocycle2 res.idxPerm.toFinset δ (2 * r) c → (∀ i < x.nPoints, ∃ u ∈ res.idxPerm, δ u i < r) →
      ∃ (X : Arr ℂ) (y : ℕ → ℕ → ℂ) (w ν : ℕ → ℕ → ℝ), (cpGetCoordinates env fuel (cpHistory env fuel o history)
          ⟨.fin perc, .int z, k - 1, bump, std, check, mode⟩).2 = .ok X ∧ X.rows = x.nPoints ∧ X.cols = k ∧
        (∀ i < x.nPoints, ∀ m < k, X.at' i m = some (y i m)) ∧
        IsBumpWeights res.idxPerm.toFinset x.nPoints δ r bump w ∧ (∀ u v, ν v u = -ν u v) ∧
        (ExactLsq env.lsqr → ∀ g : ℕ → ℕ → ℝ, (∀ u ∈ res.idxPerm, ∀ v ∈ res.idxPerm, g v u = -g u v) →
          dataEnergy2 res.idxPerm.toFinset δ (2 * r) c ν ≤ dataEnergy2 res.idxPerm.toFinset δ (2 * r) c g) ∧
        ∀ M, FormBound2 res.idxPerm.toFinset δ (2 * r) c ν M →
        ∀ (D F : Type) [Fintype D] [Fintype F] [DecidableEq F] (s : DataSurface D F) (ℓ : F → ℕ) (a : ℕ → ℕ),
          s.InBalls res.idxPerm.toFinset x.nPoints δ r ℓ → s.Small res.idxPerm.toFinset w M →
          (∀ i < x.nPoints, a i ∈ res.idxPerm ∧ δ (a i) i < r) →
          (∀ f, s.around k y f ≠ 0) ∧ ∑ f, Complex.arg (s.around k y f) = 2 * π * s.value c ℓ a := by
  obtain ⟨o, dgm, coc, σ, h1, h2, h3, h4, h5⟩ := cp_gram x hx hr argsort ha hm hk hk' hf hp
  refine ⟨o, dgm, coc, σ, h1, h2, h3, h4, ?_⟩
  intro z j b d c₀ hz hpt hc₀
  obtain ⟨c, hlift, h6⟩ := h5 z j b d c₀ hz hpt hc₀
  refine ⟨c, hlift, ?_⟩
  intro env fuel history perc std check bump mode he hfuel hstart hb hmode r hr2 hc hall
  obtain ⟨X, y, w, ν, β, e1, e2, e3, e4, e5, e6, e7, e8, e9⟩ :=
    h6 env fuel history perc std check bump mode he hfuel hstart hb hmode r hr2 hc hall
  have hS : ∀ u ∈ res.idxPerm.toFinset, u < x.rows := fun u hu => hr.range u (List.mem_toFinset.1 hu)
  refine ⟨X, y, w, ν, e1, e2, e3, e4, e5, e6, e7, ?_⟩
  intro M hM D F _ _ _ s ℓ a hs hsm hab
  have hcard : res.idxPerm.toFinset.card = k := by rw [List.toFinset_card_of_nodup hr.nodup]; exact hr.count
  have hA : cpDataAssigned res.idxPerm.toFinset x.nPoints c ν w = cpDataVector res.idxPerm.toFinset c ν w := by
    funext u i v
    unfold cpDataAssigned
    rw [hcard, if_neg (not_le.2 hbig)]
  rw [hA] at e9
  exact (phaseData_of_bump hx.metric hS hb e5 hlift.swap12 hc ν).chern hM s ℓ hs hsm a
    (fun i => ⟨List.mem_toFinset.2 (hab _ (hs.data i)).1, (hab _ (hs.data i)).2⟩) β (fun i => e8 _ (hs.data i)) k y
    (fun i => e9 _ (hs.data i) _ (hs.data (s.next i)))

/-- **C124 (small data sets).** If the class map has at most `10 ^ 6` bytes, the returned rows do not know the class: over every
closed surface of polygons of data points in balls, the product of the inner products of consecutive rows around each polygon is a
positive real number, so all phases are zero. -/
theorem C124_small_data (x : DataInput) (hx : DescribesData x δ) (hr : RipserSpec ρ x.rows k δ p maxdim res)
    (argsort : List (Fl ℝ) → List ℕ) (ha : ArgsortSpec argsort) (hm : 2 ≤ maxdim) (hk : 2 ≤ k) (hk' : k ≤ 2345)
    (hf : x.distanceMatrix = true → x.dtype = .float) (hp : 2 ≤ p) (hsmall : 8 * k * x.nPoints ≤ 10 ^ 6) :
    ∃ o dgm coc σ, cpInit argsort res x k p maxdim = .ok o ∧ res.dgms[2]? = some dgm ∧ res.cocycles[2]? = some coc ∧
      PersistenceRanking dgm σ ∧
      ∀ (z j : ℕ) (b d : ℝ) (c₀ : List ZRow), σ[z]? = some j → dgm[j]? = some (.fin b, .fin d) → coc[j]? = some c₀ →
      ∃ c, ListsLift2 p res.idxPerm.toFinset c₀ c ∧
      ∀ (env : CPOracles) (fuel : ℕ) (history : List ProjArgs) (perc : ℝ) (std check : Bool) (bump : Fl ℝ → Fl ℝ → Fl ℝ)
        (mode : RedMode), EighSpec env.eigh → k ≤ fuel → (if std then 2 * b else b) ≤ d → PositiveBump bump →
        mode ≠ .other →
      ∀ r : ℝ, 2 * r = (1 - perc) * (if std then 2 * b else b) + perc * d →
      IsDataCocycle2 res.idxPerm.toFinset δ (2 * r) c → (∀ i < x.nPoints, ∃ u ∈ res.idxPerm, δ u i < r) →
      ∃ (X : Arr ℂ) (y : ℕ → ℕ → ℂ), (cpGetCoordinates env fuel (cpHistory env fuel o history)
          ⟨.fin perc, .int z, k - 1, bump, std, check, mode⟩).2 = .ok X ∧ X.rows = x.nPoints ∧ X.cols = k ∧
        (∀ i < x.nPoints, ∀ m < k, X.at' i m = some (y i m)) ∧
        ∀ (D F : Type) [Fintype D] [Fintype F] [DecidableEq F] (s : DataSurface D F) (ℓ : F → ℕ),
          s.InBalls res.idxPerm.toFinset x.nPoints δ r ℓ →
          (∀ f, ∃ a : ℝ, 0 < a ∧ s.around k y f = a) ∧ ∑ f, Complex.arg (s.around k y f) = 0 := by
  obtain ⟨o, dgm, coc, σ, h1, h2, h3, h4, h5⟩ := cp_gram x hx hr argsort ha hm hk hk' hf hp
  refine ⟨o, dgm, coc, σ, h1, h2, h3, h4, ?_⟩
  intro z j b d c₀ hz hpt hc₀
  obtain ⟨c, hlift, h6⟩ := h5 z j b d c₀ hz hpt hc₀
  refine ⟨c, hlift, ?_⟩
  intro env fuel history perc std check bump mode he hfuel hstart hb hmode r hr2 hc hall
  obtain ⟨X, y, w, ν, β, e1, e2, e3, e4, e5, e6, e7, e8, e9⟩ :=
    h6 env fuel history perc std check bump mode he hfuel hstart hb hmode r hr2 hc hall
  have hS : ∀ u ∈ res.idxPerm.toFinset, u < x.rows := fun u hu => hr.range u (List.mem_toFinset.1 hu)
  refine ⟨X, y, e1, e2, e3, e4, ?_⟩
  intro D F _ _ _ s ℓ hs
  have hcard : res.idxPerm.toFinset.card = k := by rw [List.toFinset_card_of_nodup hr.nodup]; exact hr.count
  have hA : ∀ u i v, cpDataAssigned res.idxPerm.toFinset x.nPoints c ν w u i v = ((√(w v i) : ℝ) : ℂ) := by
    intro u i v
    unfold cpDataAssigned
    rw [hcard, if_pos hsmall]
  have hP := phaseData_of_bump hx.metric hS hb e5 hlift.swap12 hc ν
  have hpos : ∀ f, ∃ a : ℝ, 0 < a ∧ s.around k y f = a := by
    intro f
    refine ⟨∏ d with s.face d = f, ∑ v ∈ res.idxPerm.toFinset, √(w v (s.start d)) * √(w v (s.start (s.next d))), ?_, ?_⟩
    · refine prod_pos fun i _ => sum_pos' (fun v _ => by positivity) ⟨ℓ (s.face i), hs.land _, ?_⟩
      have b1 := hs.ball i
      have b2 := hs.ball (s.next i)
      rw [s.next_face] at b2
      have p1 := (hP.support _ (hs.data i) ⟨_, hs.land _, b1⟩ _ (hs.land _)).2 b1
      have p2 := (hP.support _ (hs.data (s.next i)) ⟨_, hs.land _, b2⟩ _ (hs.land _)).2 b2
      positivity
    · unfold DataSurface.around
      push_cast
      refine prod_congr rfl fun i _ => ?_
      rw [e9 _ (hs.data i) _ (hs.data (s.next i))]
      refine sum_congr rfl fun v _ => ?_
      rw [hA, hA, RCLike.star_def, Complex.conj_ofReal]
  refine ⟨hpos, sum_eq_zero fun f _ => ?_⟩
  obtain ⟨a, ha, e⟩ := hpos f
  rw [e, Complex.arg_ofReal_of_nonneg ha.le]

end

end Dreimac
