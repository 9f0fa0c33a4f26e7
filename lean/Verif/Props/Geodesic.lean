import Verif.Lemmas.Geodesic
import Verif.Props.Geometry
import Verif.Props.Metrics
import Verif.Props.Construct

/-!
# Geodesic distances of landmarks (C113)
-/

namespace Dreimac

theorem rowDist_eq (d : ℕ) (X : ℕ → ℕ → ℝ) (u v : ℕ) : rowDist d X u v = getSsm d 0 X u v := by
  unfold getSsm
  rw [(C70_csm_euclidean d 0 0 X X u v).1]
  rfl

theorem rowDist_triangle (d : ℕ) (X : ℕ → ℕ → ℝ) (u v w : ℕ) : rowDist d X u w ≤ rowDist d X u v + rowDist d X v w := by
  rw [rowDist_eq, rowDist_eq, rowDist_eq]
  exact (C70_ssm_metric d 0 X u v w).2.2.1

theorem rowDist_eq_zero (d : ℕ) (X : ℕ → ℕ → ℝ) (u v : ℕ) : rowDist d X u v = 0 ↔ ∀ l < d, X u l = X v l := by
  rw [rowDist_eq]
  exact (C70_ssm_metric d 0 X u v v).2.2.2

/-- The list returned by `landmark_geodesic_distance` consists of the points (with repetitions, if a landmark is repeated). -/
theorem landmarkGeodesicDistance_mem {K : Type} [LinearOrder K] [Zero K] {n : ℕ} {sp : ℕ → ℕ → K} {nL nN : ℕ} (h1 : 0 < nL)
    (h2 : nL ≤ n) (h3 : 0 < nN) (h4 : nN ≤ n) {dist : ℕ → ℕ → K} {permAll : List ℕ}
    (he : landmarkGeodesicDistance n sp nL nN = .ok (dist, permAll)) :
    nL ≤ permAll.length ∧ ∀ x, x ∈ permAll ↔ x < n := by
  have := landmarkGeodesicDistance_ok sp h1 h2 h3 h4
  simp only at this
  have hinv := (gInv_iter (row := sp) (N := n) (by omega) true (nL - 1)).fps
  rw [show nL - 1 + 1 = nL by omega] at hinv
  rw [this] at he
  injection he with he
  have e1 := congrArg Prod.snd he
  simp only at e1
  set st := gIter true sp n (gInit true sp) (nL - 1)
  rw [← e1]
  refine ⟨by simp, fun x => ?_⟩
  rw [List.mem_append, List.mem_filter]
  simp only [Bool.not_eq_true', List.contains_eq_mem, decide_eq_false_iff_not]
  constructor
  · rintro (hx | hx)
    · obtain ⟨i, hi, rfl⟩ := List.mem_map.1 hx
      exact hinv.mem i (List.mem_range.1 hi)
    · exact List.mem_range.1 hx.1
  · intro hx
    by_cases hm : x ∈ (List.range nL).map st.perm
    · exact Or.inl hm
    · exact Or.inr ⟨List.mem_range.2 hx, hm⟩

section
variable {env : GeodesicEnv} (hq : QuerySpec env.query) (hsp : ShortestPathSpec env.shortestPath) {n d : ℕ}
  {X : ℕ → ℕ → ℝ} {nL nN : ℕ} (h1 : 0 < nL) (h2 : nL ≤ n) (h3 : 0 < nN) (h4 : nN ≤ n)

include hq hsp h1 h2 h3 h4

/-- C113: `landmark_geodesic_distance` succeeds; entry `(i, j)` of its first result is the length of a shortest chain of
neighbours from landmark `i` to the `j`-th point of its second result (infinite if there is none), in a graph that joins every
point to `n_neighbors` nearest points; the landmarks are a farthest point sample of these distances; the points are all listed;
and the entries are all finite exactly if the graph is connected. -/
theorem C113_graph_distance : ∃ nbr dist permAll lam, ∃ D : ℕ → ℕ → WithTop ℝ,
    landmarkGeodesic env n d X nL nN = .ok (dist, permAll) ∧
      IsNeighbourGraph n nN (rowDist d X) nbr ∧
      (∀ i < nL, ∀ j < permAll.length, IsChainDistance nbr (rowDist d X) (permAll.getD i 0) (permAll.getD j 0) (dist i j)) ∧
      (∀ u < n, ∀ v < n, IsChainDistance nbr (rowDist d X) u v (D u v)) ∧
      FarthestPointSample D n nL (fun i => permAll.getD i 0) lam ∧
      (nL ≤ permAll.length ∧ ∀ x, x ∈ permAll ↔ x < n) ∧
      ((∀ i < nL, ∀ j < permAll.length, dist i j ≠ ⊤) ↔ IsConnectedGraph n nbr (rowDist d X)) := by
  have hch := shortestPath_chain hq hsp d X n nN h3 h4
  have hG := queryNbr_graph hq d X n nN h3 h4
  set sp := env.shortestPath (kneighborsGraph n nN (env.query d X n nN)) n with hspd
  set nbr := queryNbr n (env.query d X n nN)
  obtain ⟨dist, permAll, he, hD, -⟩ := C76_geodesic_partial n sp nL nN h1 h2 h3 h4
  obtain ⟨dist', permAll', lam, he', hf, -⟩ := C72_greedy_geodesic n sp nL nN h1 h2 h3 h4
  rw [he] at he'
  injection he' with he'
  have e1 : permAll = permAll' := congrArg Prod.snd he'
  subst e1
  obtain ⟨hlen, hmem⟩ := landmarkGeodesicDistance_mem h1 h2 h3 h4 he
  have hlt : ∀ j < permAll.length, permAll.getD j 0 < n := fun j hj => by
    rw [← hmem]
    simp [List.getD, hj]
  have hcd : ∀ i < nL, ∀ j < permAll.length,
      IsChainDistance nbr (rowDist d X) (permAll.getD i 0) (permAll.getD j 0) (dist i j) := fun i hi j hj => by
    rw [hD i hi j hj]
    exact hch _ (hlt i (by omega)) _ (hlt j hj)
  refine ⟨nbr, dist, permAll, lam, sp, he, hG, hcd, hch, hf, ⟨hlen, hmem⟩, ?_⟩
  constructor
  · intro hfin u hu v hv
    have hz : ∀ x < n, ∃ s, NeighbourChain nbr (rowDist d X) (permAll.getD 0 0) x s := by
      intro x hx
      obtain ⟨j, hj, rfl⟩ := List.getElem_of_mem ((hmem x).2 hx)
      obtain ⟨s, hs⟩ := WithTop.ne_top_iff_exists.1 (hfin 0 h1 j hj)
      have := (hcd 0 h1 j hj).attained s hs.symm
      rw [show permAll.getD j 0 = permAll[j] by simp [List.getD, hj]] at this
      exact ⟨s, this⟩
    obtain ⟨s, hs⟩ := hz u hu
    obtain ⟨t, ht⟩ := hz v hv
    exact ⟨_, (hs.symm (rowDist_symm d X)).append ht⟩
  · intro hc i hi j hj htop
    obtain ⟨s, hs⟩ := hc _ (hlt i (by omega)) _ (hlt j hj)
    have := (hcd i hi j hj).le s hs
    rw [htop] at this
    exact absurd this (by simp)

/-- C113: the array of geodesic distances has zeros where the column is the landmark of the row, is symmetric on the landmarks,
satisfies the triangle inequality, and its entries are at least the Euclidean distances. -/
theorem C113_metric {dist : ℕ → ℕ → WithTop ℝ} {permAll : List ℕ}
    (he : landmarkGeodesic env n d X nL nN = .ok (dist, permAll)) :
    (∀ i < nL, dist i i = 0) ∧ (∀ i < nL, ∀ j < nL, dist i j = dist j i) ∧
      (∀ i < nL, ∀ k < nL, ∀ j < permAll.length, dist i j ≤ dist i k + dist k j) ∧
      (∀ i < nL, ∀ k < nL, ∀ j < permAll.length, dist i k ≤ dist i j + dist k j) ∧
      ∀ i < nL, ∀ j < permAll.length, (rowDist d X (permAll.getD i 0) (permAll.getD j 0) : WithTop ℝ) ≤ dist i j := by
  have hch := shortestPath_chain hq hsp d X n nN h3 h4
  have hm := chainMetric (rowDist_self d X) (rowDist_symm d X) (rowDist_triangle d X) hch
  obtain ⟨dist', permAll', he', hD, -⟩ := C76_geodesic_partial n
    (env.shortestPath (kneighborsGraph n nN (env.query d X n nN)) n) nL nN h1 h2 h3 h4
  unfold landmarkGeodesic at he
  simp only at he
  obtain ⟨hlen, hmem⟩ := landmarkGeodesicDistance_mem h1 h2 h3 h4 he
  rw [he] at he'
  injection he' with he'
  have e1 : permAll = permAll' := congrArg Prod.snd he'
  have e2 : dist = dist' := congrArg Prod.fst he'
  subst e1 e2
  have hlt : ∀ j < permAll.length, permAll.getD j 0 < n := fun j hj => by
    rw [← hmem]
    simp [List.getD, hj]
  refine ⟨fun i hi => ?_, fun i hi j hj => ?_, fun i hi k hk j hj => ?_, fun i hi k hk j hj => ?_, fun i hi j hj => ?_⟩
  · rw [hD i hi i (by omega)]
    exact hm.self _ (hlt i (by omega))
  · rw [hD i hi j (by omega), hD j hj i (by omega)]
    exact hm.symm _ (hlt i (by omega)) _ (hlt j (by omega))
  · rw [hD i hi k (by omega), hD k hk j hj, hD i hi j hj]
    exact hm.triangle _ (hlt i (by omega)) _ (hlt k (by omega)) _ (hlt j hj)
  · rw [hD i hi k (by omega), hD k hk j hj, hD i hi j hj, hm.symm _ (hlt k (by omega)) _ (hlt j hj)]
    exact hm.triangle _ (hlt i (by omega)) _ (hlt j hj) _ (hlt k (by omega))
  · rw [hD i hi j hj]
    exact hm.ge _ (hlt i (by omega)) _ (hlt j hj)

/-- C113: if the points are pairwise different, the second result is a permutation of the points. -/
theorem C113_permutation {dist : ℕ → ℕ → WithTop ℝ} {permAll : List ℕ}
    (he : landmarkGeodesic env n d X nL nN = .ok (dist, permAll))
    (hX : ∀ u < n, ∀ v < n, u ≠ v → ∃ l < d, X u l ≠ X v l) : permAll.Perm (List.range n) := by
  have hch := shortestPath_chain hq hsp d X n nN h3 h4
  have hm := chainMetric (rowDist_self d X) (rowDist_symm d X) (rowDist_triangle d X) hch
  obtain ⟨dist', permAll', he', hP⟩ := C76_geodesic_distinct_points_partial n
    (env.shortestPath (kneighborsGraph n nN (env.query d X n nN)) n) nL nN h1 h2 h3 h4 hm.self
    (fun i hi j hj hne => by
      refine lt_of_lt_of_le ?_ (hm.ge i hi j hj)
      obtain ⟨l, hl, hne'⟩ := hX i hi j hj hne
      refine WithTop.coe_lt_coe.2 (lt_of_le_of_ne (rowDist_nonneg d X i j) fun h0 => hne' ?_)
      exact (rowDist_eq_zero d X i j).1 h0.symm l hl)
  unfold landmarkGeodesic at he
  simp only at he
  rw [he] at he'
  injection he' with he'
  have e1 : permAll = permAll' := congrArg Prod.snd he'
  rw [e1]
  exact hP

/-- C113: with as many neighbours as points the distances are the Euclidean ones. -/
theorem C113_all_neighbours {dist : ℕ → ℕ → WithTop ℝ} {permAll : List ℕ}
    (he : landmarkGeodesic env n d X nL nN = .ok (dist, permAll)) (hall : nN = n) :
    ∀ i < nL, ∀ j < permAll.length, dist i j = (rowDist d X (permAll.getD i 0) (permAll.getD j 0) : WithTop ℝ) := by
  intro i hi j hj
  refine le_antisymm ?_ ((C113_metric hq hsp h1 h2 h3 h4 he).2.2.2.2 i hi j hj)
  obtain ⟨nbr, dist', permAll', lam, D, he', hG, hcd, -, -, ⟨hlen, hmem⟩, -⟩ :=
    C113_graph_distance hq hsp (X := X) (d := d) h1 h2 h3 h4
  rw [he] at he'
  injection he' with he'
  have e1 : permAll = permAll' := congrArg Prod.snd he'
  have e2 : dist = dist' := congrArg Prod.fst he'
  subst e1 e2
  have hlt : ∀ j < permAll.length, permAll.getD j 0 < n := fun j hj => by
    rw [← hmem]
    simp [List.getD, hj]
  have hu := hlt i (by omega)
  have hfull : nbr (permAll.getD i 0) = Finset.range n := by
    refine Finset.eq_of_subset_of_card_le (fun x hx => Finset.mem_range.2 (hG.points _ x hx).2) ?_
    rw [hG.card _ hu, Finset.card_range, hall]
  have : NeighbourChain nbr (rowDist d X) (permAll.getD i 0) (permAll.getD j 0)
      (rowDist d X (permAll.getD i 0) (permAll.getD j 0) + 0) :=
    .step (Or.inl (by rw [hfull]; exact Finset.mem_range.2 (hlt j hj))) (.refl _)
  rw [add_zero] at this
  exact (hcd i hi j hj).le _ this

/-- C113: if the entries are finite, the array is a distance matrix that can be passed to the coordinate constructors: the
data points are the columns and the landmarks are the first columns. -/
theorem C113_describes_data {dist : ℕ → ℕ → WithTop ℝ} {permAll : List ℕ}
    (he : landmarkGeodesic env n d X nL nN = .ok (dist, permAll))
    (hfin : ∀ i < nL, ∀ j < permAll.length, dist i j ≠ ⊤) :
    ∃ a : ℕ → ℕ → ℝ, (∀ i < nL, ∀ j < permAll.length, dist i j = a i j) ∧
      DescribesData { rows := nL, cols := permAll.length, entries := a, dtype := .float, distanceMatrix := true } a := by
  obtain ⟨h0, hs, ht, ht', hge⟩ := C113_metric hq hsp h1 h2 h3 h4 he
  have hlen : nL ≤ permAll.length := (landmarkGeodesicDistance_mem h1 h2 h3 h4 he).1
  have ha : ∀ i < nL, ∀ j < permAll.length, dist i j = ((dist i j).untopD 0 : ℝ) := fun i hi j hj => by
    obtain ⟨s, hs⟩ := WithTop.ne_top_iff_exists.1 (hfin i hi j hj)
    rw [← hs]
    rfl
  refine ⟨fun i j => (dist i j).untopD 0, ha, hlen, ⟨fun u hu i hi => ?_, fun u hu v hv => ?_, fun u hu v hv i hi => ?_⟩,
    fun _ _ _ _ _ => rfl⟩
  · have := hge u hu i hi
    rw [ha u hu i hi] at this
    exact le_trans (rowDist_nonneg d X _ _) (WithTop.coe_le_coe.1 this)
  · have := hs u hu v hv
    rw [ha u hu v (lt_of_lt_of_le hv hlen), ha v hv u (lt_of_lt_of_le hu hlen)] at this
    exact WithTop.coe_injective this
  · have := ht' u hu v hv i hi
    rw [ha u hu v (lt_of_lt_of_le hv hlen), ha u hu i hi, ha v hv i hi, ← WithTop.coe_add] at this
    exact WithTop.coe_le_coe.1 this

end

end Dreimac
