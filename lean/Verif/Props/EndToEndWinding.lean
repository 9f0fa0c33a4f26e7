import Verif.Spec.DataLoop
import Verif.Lemmas.Winding
import Verif.Props.EndToEnd

/-!
# C111: how often the coordinates of a data set turn around the circle
-/

namespace Dreimac

open Real

theorem DataLoop.land_le {S : Finset ℕ} {N : ℕ} {δ : ℕ → ℕ → ℝ} {r : ℝ} {n : ℕ} {i l : ℕ → ℕ} (h : DataLoop S N δ r n i l)
    {q : ℕ} (hq : q ≤ n) : l q ∈ S ∧ i q < N ∧ δ (l q) (i q) < r := by
  rcases hq.lt_or_eq with hq | rfl
  · exact ⟨h.land q hq, h.data q hq, h.here q hq⟩
  · rw [h.closed_land, h.closed_data]; exact ⟨h.land 0 h.pos, h.data 0 h.pos, h.here 0 h.pos⟩

section
variable {S : Finset ℕ} {N : ℕ} {δ : ℕ → ℕ → ℝ} {r : ℝ} {bump : Fl ℝ → Fl ℝ → Fl ℝ} {w : ℕ → ℕ → ℝ} {c : ℕ → ℕ → ℤ} {f : ℕ → ℝ}
  {θ : ℕ → Fl ℝ}

/-- What the weights of a positive bump are. -/
theorem IsBumpWeights.facts (hw : IsBumpWeights S N δ r bump w) (hb : PositiveBump bump) (hnn : ∀ u ∈ S, ∀ i < N, 0 ≤ δ u i)
    {i : ℕ} (hi : i < N) (hcov : ∃ u ∈ S, δ u i < r) :
    (∀ u ∈ S, 0 ≤ w u i) ∧ (∀ u ∈ S, (0 < w u i ↔ δ u i < r)) ∧ ∑ u ∈ S, w u i = 1 := by
  obtain ⟨φ, h1, h2, h3⟩ := hw i hi hcov
  have hpos : ∀ u ∈ S, δ u i < r → 0 < φ u := by
    intro u hu hd
    obtain ⟨b, hb2, hb1⟩ := hb (δ u i) r (hnn u hu i hi) hd
    rw [(h1 u hu).1 hd] at hb1
    injection hb1 with hb1
    rw [hb1]; exact hb2
  have hz : ∀ u ∈ S, ¬ δ u i < r → φ u = 0 := fun u hu hd => (h1 u hu).2 (not_lt.1 hd)
  refine ⟨fun u hu => ?_, fun u hu => ?_, ?_⟩
  · rw [h3 u hu]
    by_cases hd : δ u i < r
    · exact (div_pos (hpos u hu hd) h2).le
    · rw [hz u hu hd, zero_div]
  · rw [h3 u hu]
    by_cases hd : δ u i < r
    · exact ⟨fun _ => hd, fun _ => div_pos (hpos u hu hd) h2⟩
    · rw [hz u hu hd, zero_div]; simp [hd]
  · rw [Finset.sum_congr rfl h3, ← Finset.sum_div, div_self h2.ne']

/-- Within a ball the lifts change by less than a half. -/
theorem IsBumpWeights.lift_step (hw : IsBumpWeights S N δ r bump w) (hb : PositiveBump bump) (hnn : ∀ u ∈ S, ∀ i < N, 0 ≤ δ u i)
    (htri : ∀ u ∈ S, ∀ v ∈ S, ∀ i < N, δ u v ≤ δ u i + δ v i) {M : ℝ} (hM : FormBound S δ (2 * r) c f M) {u i i' : ℕ}
    (hu : u ∈ S) (hi : i < N) (hi' : i' < N) (hd : δ u i < r) (hd' : δ u i' < r)
    (hs : M ≤ 1 / 4 ∨ M * ∑ v ∈ S, |w v i' - w v i| < 1 / 2) :
    |∑ v ∈ S, (f v + c u v) * w v i' - ∑ v ∈ S, (f v + c u v) * w v i| < 1 / 2 := by
  set lift : ℕ → ℕ → ℝ := fun u j => ∑ v ∈ S, (f v + c u v) * w v j with hlift
  change |lift u i' - lift u i| < 1 / 2
  obtain ⟨n1, p1, s1⟩ := hw.facts hb hnn hi ⟨u, hu, hd⟩
  obtain ⟨n2, p2, s2⟩ := hw.facts hb hnn hi' ⟨u, hu, hd'⟩
  have e : lift u i' - lift u i =
      ∑ v ∈ S, ((c u v : ℝ) - (f u - f v)) * (w v i' - w v i) := by
    have : ∑ v ∈ S, f u * (w v i' - w v i) = 0 := by
      rw [← Finset.mul_sum, Finset.sum_sub_distrib, s1, s2]; ring
    rw [hlift, ← Finset.sum_sub_distrib, ← add_zero (∑ v ∈ S, ((c u v : ℝ) - (f u - f v)) * _), ← this,
      ← Finset.sum_add_distrib]
    exact Finset.sum_congr rfl fun v _ => by ring
  have hle : |lift u i' - lift u i| ≤ M * ∑ v ∈ S, |w v i' - w v i| := by
    rw [e, Finset.mul_sum]
    refine (Finset.abs_sum_le_sum_abs _ _).trans (Finset.sum_le_sum fun v hv => ?_)
    rw [abs_mul]
    by_cases huv : δ u v < 2 * r
    · exact mul_le_mul_of_nonneg_right (hM _ hu v hv huv) (abs_nonneg _)
    · have z1 : w v i = 0 := by
        by_contra hne
        have := (p1 v hv).1 (lt_of_le_of_ne (n1 v hv) (Ne.symm hne))
        have := htri _ hu v hv _ hi
        have := hd
        linarith
      have z2 : w v i' = 0 := by
        by_contra hne
        have := (p2 v hv).1 (lt_of_le_of_ne (n2 v hv) (Ne.symm hne))
        have := htri _ hu v hv _ hi'
        have := hd'
        linarith
      rw [z1, z2]; simp
  refine hle.trans_lt ?_
  rcases hs with hs | hs
  · have h1 : ∑ v ∈ S, |w v i' - w v i| < 2 := by
      calc ∑ v ∈ S, |w v i' - w v i| < ∑ v ∈ S, (w v i' + w v i) := by
            apply Finset.sum_lt_sum
            · intro v hv
              have h1 := n1 v hv
              have h2 := n2 v hv
              rw [abs_le]; constructor <;> linarith
            · refine ⟨u, hu, ?_⟩
              have h1 := (p1 _ hu).2 (hd)
              have h2 := (p2 _ hu).2 (hd')
              rw [abs_lt]; constructor <;> linarith
        _ = 2 := by rw [Finset.sum_add_distrib, s1, s2]; norm_num
    have h2 : 0 ≤ ∑ v ∈ S, |w v i' - w v i| := Finset.sum_nonneg fun _ _ => abs_nonneg _
    nlinarith
  · exact hs

/-- The turns of a data coordinate along a closed path. -/
theorem IsDataCoordinate.turns_loop (h : IsDataCoordinate S N δ r w c f θ) (hw : IsBumpWeights S N δ r bump w)
    (hb : PositiveBump bump) (hnn : ∀ u ∈ S, ∀ i < N, 0 ≤ δ u i)
    (htri : ∀ u ∈ S, ∀ v ∈ S, ∀ i < N, δ u v ≤ δ u i + δ v i) {M : ℝ} (hM : FormBound S δ (2 * r) c f M) {n : ℕ} {i l : ℕ → ℕ}
    (hl : DataLoop S N δ r n i l) (hs : SmallSteps S w M n i) :
    ∃ y : ℕ → ℝ, (∀ q ≤ n, θ (i q) = .fin (y q)) ∧ turns n y = (pathValue c n l : ℝ) := by
  set lift : ℕ → ℕ → ℝ := fun u j => ∑ v ∈ S, (f v + c u v) * w v j with hlift
  have hval : ∀ q, ∃ y : ℝ, q ≤ n → θ (i q) = .fin y := by
    intro q
    by_cases hq : q ≤ n
    · obtain ⟨a1, a2, a3⟩ := hl.land_le hq
      obtain ⟨y, hy, -⟩ := h.angle _ a1 _ a2 a3
      exact ⟨y, fun _ => hy⟩
    · exact ⟨0, fun h => absurd h hq⟩
  choose y hy using hval
  refine ⟨y, hy, ?_⟩
  have hang : ∀ q ≤ n, ∀ u ∈ S, δ u (i q) < r → SameAngle (y q) (2 * π * lift u (i q)) := by
    intro q hq u hu hd
    obtain ⟨z, hz, -, -, hs⟩ := h.angle u hu _ (hl.land_le hq).2.1 hd
    rw [hy q hq] at hz
    injection hz with hz
    rw [hz]; exact hs
  have hpi := Real.pi_pos
  have hdiff : ∀ q < n, |lift (l q) (i (q + 1)) - lift (l q) (i q)| < 1 / 2 := fun q hq =>
    hw.lift_step hb hnn htri hM (hl.land q hq) (hl.data q hq) (hl.land_le (show q + 1 ≤ n from hq)).2.1 (hl.here q hq) (hl.next q hq)
      (hs.imp_right fun h => h q hq)
  have hone : ∀ q < n, angleStep (y q) (y (q + 1)) =
      2 * π * ((lift (l (q + 1)) (i (q + 1)) - lift (l q) (i q)) + (c (l q) (l (q + 1)) : ℤ)) := by
    intro q hq
    obtain ⟨a1, a2, a3⟩ := hl.land_le (show q + 1 ≤ n from hq)
    have h1 := hang q hq.le _ (hl.land q hq) (hl.here q hq)
    have h2 := hang (q + 1) hq _ (hl.land q hq) (hl.next q hq)
    have h3 := h.transition _ (hl.land q hq) _ a1 _ a2 (hl.next q hq) a3
    rw [angleStep_of_lift h1 h2, ← h3]
    · ring
    · rw [← mul_sub, abs_mul, abs_of_pos two_pi_pos']
      have h4 := hdiff q hq
      nlinarith
  unfold turns pathValue
  rw [Finset.sum_congr rfl fun q hq => hone q (Finset.mem_range.1 hq), ← Finset.mul_sum, mul_div_cancel_left₀ _ two_pi_pos'.ne',
    Finset.sum_add_distrib, Finset.sum_range_sub (fun q => lift (l q) (i q)), hl.closed_data, hl.closed_land]
  push_cast; ring

theorem IsIntegerLift.pathValue_congr {p : ℤ} {t : ℝ} {ξ : ℕ → ℕ → ℤ} (h : IsIntegerLift p S δ t ξ c) {n : ℕ} {i l : ℕ → ℕ}
    (hl : DataLoop S N δ r n i l) : p ∣ pathValue c n l - pathValue ξ n l := by
  unfold pathValue
  rw [← Finset.sum_sub_distrib]
  exact Finset.dvd_sum fun q hq => h.congr _ (hl.land_le (Finset.mem_range.1 hq).le).1 _ (hl.land_le (Finset.mem_range.1 hq)).1

end

section
variable {k : ℕ} {δ : ℕ → ℕ → ℝ} {p : ℤ} {maxdim : ℕ} {res : RipserResult ℝ} {ρ : ℝ → ℝ}

/-- **C111 (one class).** The whole of `CircularCoords(X, n_landmarks, prime = p).get_coordinates(perc, cocycle_idx = z, …)` as in
C89: there is an integer cocycle `c` congruent to the class `ξ` of ripser modulo `p` (and a potential `f`) such that along
every closed path of data points with small steps the returned coordinate turns exactly as often as `c` says on the path of
landmarks: an integer congruent modulo `p` to the value of the class on that path, which is not zero if that value is not
divisible by `p`. -/
theorem C111_circular_winding (x : DataInput) (hx : DescribesData x δ) (hr : RipserSpec ρ x.rows k δ p maxdim res)
    (argsort : List (Fl ℝ) → List ℕ) (ha : ArgsortSpec argsort) (hm : 1 ≤ maxdim) (hk : 0 < k) (hk' : k ≤ 2345)
    (hf : x.distanceMatrix = true → x.dtype = .float) (hp : 0 < p) :
    ∃ o dgm coc σ, toroInit argsort res x k p maxdim = .ok o ∧ res.dgms[1]? = some dgm ∧ res.cocycles[1]? = some coc ∧
      PersistenceRanking dgm σ ∧
      ∀ (z j : ℕ) (b d : ℝ) (c₀ : List ZRow), σ[z]? = some j → dgm[j]? = some (.fin b, .fin d) → coc[j]? = some c₀ →
      ∃ ξ, ListsCochain c₀ ξ ∧
      ∀ (env : Oracles) (ε τ : ℝ), 0 ≤ τ → 3 * ε + τ < 1 → SolverSound env.milp ε τ → SolverComplete env.milp →
      ∀ (fuel : ℕ) (history : List (ℕ × Args)) (perc : ℝ) (std : Bool) (bump : Fl ℝ → Fl ℝ → Fl ℝ),
      (if std then 2 * b else b) ≤ d → PositiveBump bump →
      ∀ r : ℝ, 2 * r = (1 - perc) * (if std then 2 * b else b) + perc * d → BelowDeath ρ (2 * r) d →
      (∃ c, IsIntegerLift p res.idxPerm.toFinset δ (2 * r) ξ c) →
        ∃ θ w c f, (circularGetCoordinates env fuel (afterCalls env o history) (.fin perc) (.int z) bump std true).2 = .ok θ ∧
          IsIntegerLift p res.idxPerm.toFinset δ (2 * r) ξ c ∧ IsSmallestLift p res.idxPerm.toFinset δ (2 * r) ξ c ∧
          IsBumpWeights res.idxPerm.toFinset x.nPoints δ r bump w ∧
          (ExactLsq env.lsqr → ∀ g, dataEnergy res.idxPerm.toFinset δ (2 * r) c f ≤
            dataEnergy res.idxPerm.toFinset δ (2 * r) c g) ∧
          ∀ (M : ℝ) (n : ℕ) (i l : ℕ → ℕ), FormBound res.idxPerm.toFinset δ (2 * r) c f M →
            DataLoop res.idxPerm.toFinset x.nPoints δ r n i l → SmallSteps res.idxPerm.toFinset w M n i →
            ∃ y : ℕ → ℝ, (∀ q ≤ n, θ (i q) = .fin (y q)) ∧ turns n y = (pathValue c n l : ℝ) ∧
              p ∣ pathValue c n l - pathValue ξ n l ∧ (¬ p ∣ pathValue ξ n l → turns n y ≠ 0) := by
  obtain ⟨o, dgm, coc, σ, h1, h2, h3, h4, h5⟩ := C89_circular_coordinates x hx hr argsort ha hm hk hk' hf hp
  refine ⟨o, dgm, coc, σ, h1, h2, h3, h4, ?_⟩
  intro z j b d c₀ e1 e2 e3
  obtain ⟨ξ, hξ, h6⟩ := h5 z j b d c₀ e1 e2 e3
  refine ⟨ξ, hξ, ?_⟩
  intro env ε τ a1 a2 a3 a4 fuel history perc std bump a7 hb r hr2 hbel hlift
  obtain ⟨θ, w, c, f, g1, g2, g2', g3, g4, g5⟩ := (h6 env ε τ a1 a2 a3 a4 fuel history perc std bump a7 hb r hr2 hbel).1 hlift
  refine ⟨θ, w, c, f, g1, g2, g2', g3, g4, ?_⟩
  intro M n i l hM hl hs
  have hrange : ∀ u ∈ res.idxPerm.toFinset, u < x.rows := fun u hu => hr.range u (List.mem_toFinset.1 hu)
  obtain ⟨y, hy, ht⟩ := g5.turns_loop g3 hb (fun u hu i hi => hx.metric.nonneg u (hrange u hu) i hi)
    (fun u hu v hv i hi => hx.metric.triangle u (hrange u hu) v (hrange v hv) i hi) hM hl hs
  have hc := g2.pathValue_congr hl
  refine ⟨y, hy, ht, hc, fun hnd h0 => hnd ?_⟩
  have hz : pathValue c n l = 0 := by rw [ht] at h0; exact_mod_cast h0
  rw [hz, zero_sub] at hc
  exact dvd_neg.1 hc

theorem pathValue_sum {m : ℕ} (u : Fin m → ℤ) (c : Fin m → ℕ → ℕ → ℤ) (n : ℕ) (l : ℕ → ℕ) :
    pathValue (fun v w => ∑ a, u a * c a v w) n l = ∑ a, u a * pathValue (c a) n l := by
  unfold pathValue
  rw [Finset.sum_comm]
  simp only [Finset.mul_sum]

/-- **C111 (several classes).** The whole of `ToroidalCoords(X, n_landmarks, prime = p).get_coordinates(perc, cocycle_idxs, …)` as
in C90: there are integer cocycles `c a` congruent to the selected classes modulo `p` and a unimodular integer matrix `U` such
that along every closed path of data points with small steps the `q`-th coordinate turns exactly `∑ a, U q a * (value of c a on
the path of landmarks)` times; if the value of some selected class on the path is not divisible by `p`, some coordinate turns. -/
theorem C111_toroidal_winding (x : DataInput) (hx : DescribesData x δ) (hr : RipserSpec ρ x.rows k δ p maxdim res)
    (argsort : List (Fl ℝ) → List ℕ) (ha : ArgsortSpec argsort) (hm : 1 ≤ maxdim) (hk : 0 < k) (hk' : k ≤ 2345)
    (hf : x.distanceMatrix = true → x.dtype = .float) (hp : 0 < p) :
    ∃ o dgm coc σ, toroInit argsort res x k p maxdim = .ok o ∧ res.dgms[1]? = some dgm ∧ res.cocycles[1]? = some coc ∧
      PersistenceRanking dgm σ ∧
      ∀ (m : ℕ) (z : Fin m → ℕ) (b d : Fin m → ℝ) (ξ : Fin m → ℕ → ℕ → ℤ), SelectsClasses dgm coc σ z b d ξ →
      ∀ (env : Oracles) (ε τ : ℝ), 0 ≤ τ → 3 * ε + τ < 1 → SolverSound env.milp ε τ →
      ∀ (fuel : ℕ) (history : List (ℕ × Args)) (perc : ℝ) (std : Bool) (bump : Fl ℝ → Fl ℝ → Fl ℝ),
      PositiveBump bump → ∀ B D r : ℝ, IsGreatest (Set.range b) B → IsLeast (Set.range d) D → B < D →
      (if std then 2 * B else B) ≤ D → 2 * r = (1 - perc) * (if std then 2 * B else B) + perc * D → BelowDeath ρ (2 * r) D →
      ∀ coords, (getCoordinates env fuel (afterCalls env o history)
          ⟨.fin perc, List.ofFn fun a => .int (z a), bump, std, true⟩).2 = .ok coords →
        ∃ (θ : Fin m → ℕ → Fl ℝ) (w : ℕ → ℕ → ℝ) (c : Fin m → ℕ → ℕ → ℤ) (f : Fin m → ℕ → ℝ) (U : Matrix (Fin m) (Fin m) ℤ),
          coords = List.ofFn θ ∧ (U.det = 1 ∨ U.det = -1) ∧
          (∀ a, IsIntegerLift p res.idxPerm.toFinset δ (2 * r) (ξ a) (c a) ∧
            IsSmallestLift p res.idxPerm.toFinset δ (2 * r) (ξ a) (c a)) ∧ (m = 1 → U = 1) ∧
          IsBumpWeights res.idxPerm.toFinset x.nPoints δ r bump w ∧
          (ExactLsq env.lsqr → ∀ a g, dataEnergy res.idxPerm.toFinset δ (2 * r) (c a) (f a) ≤
            dataEnergy res.idxPerm.toFinset δ (2 * r) (c a) g) ∧
          ∀ (M : ℝ) (n : ℕ) (i l : ℕ → ℕ),
            (∀ q, FormBound res.idxPerm.toFinset δ (2 * r) (fun u v => ∑ a, U q a * c a u v) (fun u => ∑ a, U q a * f a u) M) →
            DataLoop res.idxPerm.toFinset x.nPoints δ r n i l → SmallSteps res.idxPerm.toFinset w M n i →
            ∃ y : Fin m → ℕ → ℝ, (∀ a, ∀ q ≤ n, θ a (i q) = .fin (y a q)) ∧
              (∀ q, turns n (y q) = ((∑ a, U q a * pathValue (c a) n l : ℤ) : ℝ)) ∧
              ∀ a, ¬ p ∣ pathValue (ξ a) n l → ∃ q, turns n (y q) ≠ 0 := by
  obtain ⟨o, dgm, coc, σ, h1, h2, h3, h4, h5⟩ := C90_toroidal_coordinates x hx hr argsort ha hm hk hk' hf hp
  refine ⟨o, dgm, coc, σ, h1, h2, h3, h4, ?_⟩
  intro m z b d ξ hsel env ε τ a1 a2 a3 fuel history perc std bump hb B D r b1 b2 b3 b4 hr2 hbel coords hok
  obtain ⟨θ, w, c, f, U, g0, g1, g2, gU, g3, g4, g5⟩ := h5 m z b d ξ hsel env ε τ a1 a2 a3 fuel history perc std bump hb B D r
    b1 b2 b3 b4 hr2 hbel coords hok
  refine ⟨θ, w, c, f, U, g0, g1, g2, gU, g3, g4, ?_⟩
  intro M n i l hM hl hs
  have hrange : ∀ u ∈ res.idxPerm.toFinset, u < x.rows := fun u hu => hr.range u (List.mem_toFinset.1 hu)
  have hq : ∀ q, ∃ y : ℕ → ℝ, (∀ q' ≤ n, θ q (i q') = .fin (y q')) ∧
      turns n y = ((∑ a, U q a * pathValue (c a) n l : ℤ) : ℝ) := by
    intro q
    rw [← pathValue_sum]
    exact (g5 q).turns_loop g3 hb (fun u hu i hi => hx.metric.nonneg u (hrange u hu) i hi)
      (fun u hu v hv i hi => hx.metric.triangle u (hrange u hu) v (hrange v hv) i hi) (hM q) hl hs
  choose y hy ht using hq
  refine ⟨y, hy, ht, ?_⟩
  intro a hnd
  by_contra hcon
  push Not at hcon
  apply hnd
  have hz : U.mulVec (fun a => pathValue (c a) n l) = 0 := by
    funext q
    have := (ht q).symm.trans (hcon q)
    have h0 : (∑ a, U q a * pathValue (c a) n l : ℤ) = 0 := by exact_mod_cast this
    simpa [Matrix.mulVec, dotProduct] using h0
  have hdet : U.det ≠ 0 := by rcases g1 with h | h <;> rw [h] <;> norm_num
  have hv := Matrix.eq_zero_of_mulVec_eq_zero hdet hz
  have hc := (g2 a).1.pathValue_congr hl
  rw [show pathValue (c a) n l = 0 from congrFun hv a, zero_sub] at hc
  exact dvd_neg.1 hc

end

end Dreimac
