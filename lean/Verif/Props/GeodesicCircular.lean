import Verif.Props.Geodesic
import Verif.Props.EndToEndWinding
import Verif.Props.EndToEndHolonomy
import Verif.Spec.GeodesicLoop

/-!
# C133: circular coordinates of geodesic distances
-/

namespace Dreimac

open Real

noncomputable section

theorem idxPerm_range {ρ : ℝ → ℝ} {n : ℕ} {δ : ℕ → ℕ → ℝ} {p : ℤ} {maxdim : ℕ} {res : RipserResult ℝ}
    (hr : RipserSpec ρ n n δ p maxdim res) : res.idxPerm.toFinset = Finset.range n := by
  refine Finset.eq_of_subset_of_card_le (fun u hu => Finset.mem_range.2 (hr.range u (List.mem_toFinset.1 hu))) ?_
  rw [Finset.card_range, List.toFinset_card_of_nodup hr.nodup, hr.count]

/-- **C133.** If the neighbour graph is connected, the array returned by `landmark_geodesic_distance` consists of real numbers, it is a
valid input of the constructors (with `distance_matrix=True`), and closed paths of neighbours, each edge in the geodesic ball of a
landmark, are closed paths of data points for this input. -/
theorem C133_geodesic_input {env : GeodesicEnv} (hq : QuerySpec env.query) (hsp : ShortestPathSpec env.shortestPath) {n d : ℕ}
    (X : ℕ → ℕ → ℝ) {nL nN : ℕ} (h1 : 0 < nL) (h2 : nL ≤ n) (h3 : 0 < nN) (h4 : nN ≤ n) :
    ∃ nbr dist permAll, landmarkGeodesic env n d X nL nN = .ok (dist, permAll) ∧ IsNeighbourGraph n nN (rowDist d X) nbr ∧
      (∀ i < nL, ∀ j < permAll.length, IsChainDistance nbr (rowDist d X) (permAll.getD i 0) (permAll.getD j 0) (dist i j)) ∧
      ((∀ u < n, ∀ v < n, u ≠ v → ∃ l < d, X u l ≠ X v l) → permAll.Perm (List.range n)) ∧
      (IsConnectedGraph n nbr (rowDist d X) → ∃ D : ℕ → ℕ → ℝ, (∀ i < nL, ∀ j < permAll.length, dist i j = D i j) ∧
        DescribesData ⟨nL, permAll.length, D, .float, true⟩ D ∧
        ∀ (r : ℝ) (m : ℕ) (i l : ℕ → ℕ),
          NeighbourLoop nbr (rowDist d X) (fun j => permAll.getD j 0) permAll.length nL D r m i l →
          DataLoop (Finset.range nL) permAll.length D r m i l) := by
  obtain ⟨nbr, dist, permAll, lam, E, he, hG, hcd, -, -, -, hfin⟩ := C113_graph_distance hq hsp (X := X) (d := d) h1 h2 h3 h4
  refine ⟨nbr, dist, permAll, he, hG, hcd, C113_permutation hq hsp h1 h2 h3 h4 he, ?_⟩
  intro hcon
  obtain ⟨D, hD, hx⟩ := C113_describes_data hq hsp h1 h2 h3 h4 he (hfin.2 hcon)
  refine ⟨D, hD, hx, ?_⟩
  intro r m i l hl
  have hball : ∀ q < m, ∀ j < permAll.length, ∀ j' < permAll.length,
      (permAll.getD j 0 ∈ nbr (permAll.getD j' 0) ∨ permAll.getD j' 0 ∈ nbr (permAll.getD j 0)) →
      D (l q) j + rowDist d X (permAll.getD j 0) (permAll.getD j' 0) < r → D (l q) j < r ∧ D (l q) j' < r := by
    intro q hq j hj j' hj' hedge hlt
    have h0 := rowDist_nonneg d X (permAll.getD j 0) (permAll.getD j' 0)
    refine ⟨by linarith, ?_⟩
    have hch := (hcd _ (hl.land q hq.le) _ hj).attained _ (hD _ (hl.land q hq.le) _ hj)
    have hstep := NeighbourChain.append hch (.step hedge.symm (.refl _))
    have hle := (hcd _ (hl.land q hq.le) _ hj').le _ hstep
    rw [hD _ (hl.land q hq.le) _ hj', add_zero] at hle
    exact lt_of_le_of_lt (WithTop.coe_le_coe.1 hle) hlt
  have hboth : ∀ q < m, D (l q) (i q) < r ∧ D (l q) (i (q + 1)) < r := by
    intro q hq
    rcases hl.near q hq with h | h
    · exact hball q hq _ (hl.data q hq.le) _ (hl.data (q + 1) hq) (hl.edge q hq).symm h
    · rw [rowDist_symm] at h
      exact (hball q hq _ (hl.data (q + 1) hq) _ (hl.data q hq.le) (hl.edge q hq) h).symm
  exact ⟨hl.pos, hl.closed_data, hl.closed_land, fun q hq => hl.data q hq.le, fun q hq =>
    Finset.mem_range.2 (hl.land q hq.le), fun q hq => (hboth q hq).1, fun q hq => (hboth q hq).2⟩

/-- **C133.** The pipeline for a point cloud `X` with geodesic distances: `landmark_geodesic_distance(X, n_landmarks, n_neighbors)`
returns an array and a list of points; if the neighbour graph is connected, the array consists of real numbers and can be given to
`CircularCoords(·, n_landmarks, distance_matrix=True, prime = p)`, whose coordinate for the column `j` belongs to the point
`perm_all_points[j]`.  Along every closed path of neighbours in the graph, where each edge is in the geodesic ball of a landmark and the
coordinate changes little, it turns as often as the integer cocycle says, in particular at least once if the value of the class on the
path is not divisible by `p`. -/
theorem C133_geodesic_circular {env : GeodesicEnv} (hq : QuerySpec env.query) (hsp : ShortestPathSpec env.shortestPath) {n d : ℕ}
    (X : ℕ → ℕ → ℝ) {nL nN : ℕ} (h1 : 0 < nL) (h2 : nL ≤ n) (h3 : 0 < nN) (h4 : nN ≤ n) (h5 : nL ≤ 2345) :
    ∃ nbr dist permAll, landmarkGeodesic env n d X nL nN = .ok (dist, permAll) ∧ IsNeighbourGraph n nN (rowDist d X) nbr ∧
      (∀ i < nL, ∀ j < permAll.length, IsChainDistance nbr (rowDist d X) (permAll.getD i 0) (permAll.getD j 0) (dist i j)) ∧
      ((∀ u < n, ∀ v < n, u ≠ v → ∃ l < d, X u l ≠ X v l) → permAll.Perm (List.range n)) ∧
      (IsConnectedGraph n nbr (rowDist d X) → ∃ D : ℕ → ℕ → ℝ, (∀ i < nL, ∀ j < permAll.length, dist i j = D i j) ∧
      ∀ (p : ℤ) (maxdim : ℕ) (res : RipserResult ℝ) (ρ : ℝ → ℝ) (argsort : List (Fl ℝ) → List ℕ), 0 < p → 1 ≤ maxdim →
      ArgsortSpec argsort → RipserSpec ρ nL nL D p maxdim res →
      ∃ o dgm coc σ, toroInit argsort res ⟨nL, permAll.length, D, .float, true⟩ nL p maxdim = .ok o ∧ res.dgms[1]? = some dgm ∧
        res.cocycles[1]? = some coc ∧ PersistenceRanking dgm σ ∧
        ∀ (z j : ℕ) (b dth : ℝ) (c₀ : List ZRow), σ[z]? = some j → dgm[j]? = some (.fin b, .fin dth) → coc[j]? = some c₀ →
        ∃ ξ, ListsCochain c₀ ξ ∧
        ∀ (orc : Oracles) (ε τ : ℝ), 0 ≤ τ → 3 * ε + τ < 1 → SolverSound orc.milp ε τ → SolverComplete orc.milp →
        ∀ (fuel : ℕ) (history : List (ℕ × Args)) (perc : ℝ) (std : Bool) (bump : Fl ℝ → Fl ℝ → Fl ℝ),
        (if std then 2 * b else b) ≤ dth → PositiveBump bump →
        ∀ r : ℝ, 2 * r = (1 - perc) * (if std then 2 * b else b) + perc * dth → BelowDeath ρ (2 * r) dth →
        (∃ c, IsIntegerLift p (Finset.range nL) D (2 * r) ξ c) →
          ∃ θ w c f, (circularGetCoordinates orc fuel (afterCalls orc o history) (.fin perc) (.int z) bump std true).2 = .ok θ ∧
            IsIntegerLift p (Finset.range nL) D (2 * r) ξ c ∧ IsSmallestLift p (Finset.range nL) D (2 * r) ξ c ∧
            IsBumpWeights (Finset.range nL) permAll.length D r bump w ∧
            (ExactLsq orc.lsqr → ∀ g, dataEnergy (Finset.range nL) D (2 * r) c f ≤ dataEnergy (Finset.range nL) D (2 * r) c g) ∧
            ∀ (M : ℝ) (m : ℕ) (i l : ℕ → ℕ), FormBound (Finset.range nL) D (2 * r) c f M →
              NeighbourLoop nbr (rowDist d X) (fun j => permAll.getD j 0) permAll.length nL D r m i l →
              SmallSteps (Finset.range nL) w M m i →
              ∃ y : ℕ → ℝ, (∀ q ≤ m, θ (i q) = .fin (y q)) ∧ turns m y = (pathValue c m l : ℝ) ∧
                p ∣ pathValue c m l - pathValue ξ m l ∧ (¬ p ∣ pathValue ξ m l → turns m y ≠ 0)) := by
  obtain ⟨nbr, dist, permAll, he, hG, hcd, hperm, hcon⟩ := C133_geodesic_input hq hsp X h1 h2 h3 h4
  refine ⟨nbr, dist, permAll, he, hG, hcd, hperm, fun hc => ?_⟩
  obtain ⟨D, hD, hx, hloop⟩ := hcon hc
  refine ⟨D, hD, ?_⟩
  intro p maxdim res ρ argsort hp hm ha hr
  obtain ⟨o, dgm, coc, σ, e1, e2, e3, e4, e5⟩ := C111_circular_winding _ hx hr argsort ha hm h1 h5 (fun _ => rfl) hp
  refine ⟨o, dgm, coc, σ, e1, e2, e3, e4, ?_⟩
  intro z j b dth c₀ g1 g2 g3
  obtain ⟨ξ, hξ, g4⟩ := e5 z j b dth c₀ g1 g2 g3
  refine ⟨ξ, hξ, ?_⟩
  rw [idxPerm_range hr] at g4
  intro orc ε τ a1 a2 a3 a4 fuel history perc std bump a7 hb r hr2 hbel hlift
  obtain ⟨θ, w, c, f, f1, f2, f3, f4, f5, f6⟩ := g4 orc ε τ a1 a2 a3 a4 fuel history perc std bump a7 hb r hr2 hbel hlift
  refine ⟨θ, w, c, f, f1, f2, f3, f4, f5, ?_⟩
  intro M m i l hM hl hs
  exact f6 M m i l hM (hloop r m i l hl) hs

/-- **C133.** The same for `ToroidalCoords`: the winding numbers along a closed path of neighbours are those of the combinations of
integer cocycles, and are not all zero if one of the classes has a nonzero value modulo `p` on the path. -/
theorem C133_geodesic_toroidal {env : GeodesicEnv} (hq : QuerySpec env.query) (hsp : ShortestPathSpec env.shortestPath) {n d : ℕ}
    (X : ℕ → ℕ → ℝ) {nL nN : ℕ} (h1 : 0 < nL) (h2 : nL ≤ n) (h3 : 0 < nN) (h4 : nN ≤ n) (h5 : nL ≤ 2345) :
    ∃ nbr dist permAll, landmarkGeodesic env n d X nL nN = .ok (dist, permAll) ∧ IsNeighbourGraph n nN (rowDist d X) nbr ∧
      (IsConnectedGraph n nbr (rowDist d X) → ∃ D : ℕ → ℕ → ℝ, (∀ i < nL, ∀ j < permAll.length, dist i j = D i j) ∧
      ∀ (p : ℤ) (maxdim : ℕ) (res : RipserResult ℝ) (ρ : ℝ → ℝ) (argsort : List (Fl ℝ) → List ℕ), 0 < p → 1 ≤ maxdim →
      ArgsortSpec argsort → RipserSpec ρ nL nL D p maxdim res →
      ∃ o dgm coc σ, toroInit argsort res ⟨nL, permAll.length, D, .float, true⟩ nL p maxdim = .ok o ∧ res.dgms[1]? = some dgm ∧
        res.cocycles[1]? = some coc ∧ PersistenceRanking dgm σ ∧
      ∀ (m : ℕ) (z : Fin m → ℕ) (b dth : Fin m → ℝ) (ξ : Fin m → ℕ → ℕ → ℤ), SelectsClasses dgm coc σ z b dth ξ →
      ∀ (orc : Oracles) (ε τ : ℝ), 0 ≤ τ → 3 * ε + τ < 1 → SolverSound orc.milp ε τ →
      ∀ (fuel : ℕ) (history : List (ℕ × Args)) (perc : ℝ) (std : Bool) (bump : Fl ℝ → Fl ℝ → Fl ℝ),
      PositiveBump bump → ∀ B T r : ℝ, IsGreatest (Set.range b) B → IsLeast (Set.range dth) T → B < T →
      (if std then 2 * B else B) ≤ T → 2 * r = (1 - perc) * (if std then 2 * B else B) + perc * T → BelowDeath ρ (2 * r) T →
      ∀ coords, (getCoordinates orc fuel (afterCalls orc o history)
          ⟨.fin perc, List.ofFn fun a => .int (z a), bump, std, true⟩).2 = .ok coords →
        ∃ (θ : Fin m → ℕ → Fl ℝ) (w : ℕ → ℕ → ℝ) (c : Fin m → ℕ → ℕ → ℤ) (f : Fin m → ℕ → ℝ) (U : Matrix (Fin m) (Fin m) ℤ),
          coords = List.ofFn θ ∧ (U.det = 1 ∨ U.det = -1) ∧
          (∀ a, IsIntegerLift p (Finset.range nL) D (2 * r) (ξ a) (c a)) ∧
          IsBumpWeights (Finset.range nL) permAll.length D r bump w ∧
          ∀ (M : ℝ) (k : ℕ) (i l : ℕ → ℕ),
            (∀ q, FormBound (Finset.range nL) D (2 * r) (fun u v => ∑ a, U q a * c a u v) (fun u => ∑ a, U q a * f a u) M) →
            NeighbourLoop nbr (rowDist d X) (fun j => permAll.getD j 0) permAll.length nL D r k i l →
            SmallSteps (Finset.range nL) w M k i →
            ∃ y : Fin m → ℕ → ℝ, (∀ a, ∀ q ≤ k, θ a (i q) = .fin (y a q)) ∧
              (∀ q, turns k (y q) = ((∑ a, U q a * pathValue (c a) k l : ℤ) : ℝ)) ∧
              ∀ a, ¬ p ∣ pathValue (ξ a) k l → ∃ q, turns k (y q) ≠ 0) := by
  obtain ⟨nbr, dist, permAll, he, hG, hcd, hperm, hcon⟩ := C133_geodesic_input hq hsp X h1 h2 h3 h4
  refine ⟨nbr, dist, permAll, he, hG, fun hc => ?_⟩
  obtain ⟨D, hD, hx, hloop⟩ := hcon hc
  refine ⟨D, hD, ?_⟩
  intro p maxdim res ρ argsort hp hm ha hr
  obtain ⟨o, dgm, coc, σ, e1, e2, e3, e4, e5⟩ := C111_toroidal_winding _ hx hr argsort ha hm h1 h5 (fun _ => rfl) hp
  refine ⟨o, dgm, coc, σ, e1, e2, e3, e4, ?_⟩
  rw [idxPerm_range hr] at e5
  intro m z b dth ξ hsel orc ε τ a1 a2 a3 fuel history perc std bump hb B T r b1 b2 b3 b4 hr2 hbel coords hok
  obtain ⟨θ, w, c, f, U, g0, g1, g2, -, g3, -, g5⟩ := e5 m z b dth ξ hsel orc ε τ a1 a2 a3 fuel history perc std bump hb B T r
    b1 b2 b3 b4 hr2 hbel coords hok
  exact ⟨θ, w, c, f, U, g0, g1, fun a => (g2 a).1, g3, fun M k i l hM hl hs => g5 M k i l hM (hloop r k i l hl) hs⟩

/-- **C133.** The same for `ProjectiveCoords` with full dimension: along a closed path of neighbours the lines turn around as the
class says. -/
theorem C133_geodesic_projective {env : GeodesicEnv} (hq : QuerySpec env.query) (hsp : ShortestPathSpec env.shortestPath) {n d : ℕ}
    (X : ℕ → ℕ → ℝ) {nL nN : ℕ} (h1 : 2 ≤ nL) (h2 : nL ≤ n) (h3 : 0 < nN) (h4 : nN ≤ n) :
    ∃ nbr dist permAll, landmarkGeodesic env n d X nL nN = .ok (dist, permAll) ∧ IsNeighbourGraph n nN (rowDist d X) nbr ∧
      (IsConnectedGraph n nbr (rowDist d X) → ∃ D : ℕ → ℕ → ℝ, (∀ i < nL, ∀ j < permAll.length, dist i j = D i j) ∧
      ∀ (maxdim : ℕ) (res : RipserResult ℝ) (ρ : ℝ → ℝ) (argsort : List (Fl ℝ) → List ℕ), 1 ≤ maxdim →
      ArgsortSpec argsort → RipserSpec ρ nL nL D 2 maxdim res →
      ∃ o dgm coc σ, projInit argsort res ⟨nL, permAll.length, D, .float, true⟩ maxdim = .ok o ∧ res.dgms[1]? = some dgm ∧
        res.cocycles[1]? = some coc ∧ PersistenceRanking dgm σ ∧
      ∀ (z j : ℕ) (b dth : ℝ) (c₀ : List ZRow), σ[z]? = some j → dgm[j]? = some (.fin b, .fin dth) → coc[j]? = some c₀ →
      ∃ ξ, ListsCochain c₀ ξ ∧
      ∀ (eigh : Eigh ℝ) (fuel : ℕ) (history : List ProjArgs) (perc : ℝ) (std check : Bool) (bump : Fl ℝ → Fl ℝ → Fl ℝ)
        (mode : RedMode), EighSpec eigh → nL ≤ fuel → (if std then 2 * b else b) ≤ dth → PositiveBump bump →
        mode ≠ .other →
      ∀ r : ℝ, 2 * r = (1 - perc) * (if std then 2 * b else b) + perc * dth → BelowDeath ρ (2 * r) dth →
      (∀ i < permAll.length, ∃ u < nL, D u i < r) →
      ∃ (Y : Arr ℝ) (y : ℕ → ℕ → ℝ), (projGetCoordinates eigh fuel (projHistory eigh fuel o history)
          ⟨.fin perc, .int z, (nL - 1 : ℕ), bump, std, check, mode⟩).2 = .ok Y ∧ Y.rows = permAll.length ∧ Y.cols = nL ∧
        (∀ i < permAll.length, ∀ m < nL, Y.at' i m = some (y i m)) ∧
        ∀ (k : ℕ) (i l : ℕ → ℕ),
          NeighbourLoop nbr (rowDist d X) (fun j => permAll.getD j 0) permAll.length nL D r k i l →
          (Even (pathValue ξ k l) → 0 < ∏ q ∈ Finset.range k, ∑ m ∈ Finset.range nL, y (i q) m * y (i (q + 1)) m) ∧
          (Odd (pathValue ξ k l) → ∏ q ∈ Finset.range k, ∑ m ∈ Finset.range nL, y (i q) m * y (i (q + 1)) m < 0)) := by
  obtain ⟨nbr, dist, permAll, he, hG, hcd, hperm, hcon⟩ := C133_geodesic_input hq hsp X (by omega) h2 h3 h4
  refine ⟨nbr, dist, permAll, he, hG, fun hc => ?_⟩
  obtain ⟨D, hD, hx, hloop⟩ := hcon hc
  refine ⟨D, hD, ?_⟩
  intro maxdim res ρ argsort hm ha hr
  obtain ⟨o, dgm, coc, σ, e1, e2, e3, e4, e5⟩ := C112_projective_holonomy _ hx hr argsort ha hm h1 (fun _ => rfl)
  refine ⟨o, dgm, coc, σ, e1, e2, e3, e4, ?_⟩
  intro z j b dth c₀ g1 g2 g3
  obtain ⟨ξ, hξ, g4⟩ := e5 z j b dth c₀ g1 g2 g3
  refine ⟨ξ, hξ, ?_⟩
  rw [idxPerm_range hr] at g4
  have hmem : ∀ u, u < nL → u ∈ res.idxPerm := fun u hu => List.mem_toFinset.1 (by rw [idxPerm_range hr]; exact Finset.mem_range.2 hu)
  intro eigh fuel history perc std check bump mode he hfuel hstart hb hmode r hr2 hbel hall
  obtain ⟨Y, y, c1, c2, c3, c4, c5⟩ := g4 eigh fuel history perc std check bump mode he hfuel hstart hb hmode r hr2 hbel
    (fun i hi => by obtain ⟨u, hu, h⟩ := hall i hi; exact ⟨u, hmem u hu, h⟩)
  exact ⟨Y, y, c1, c2, c3, c4, fun k i l hl => c5 k i l (hloop r k i l hl)⟩

end

end Dreimac
