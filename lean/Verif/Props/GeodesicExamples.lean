import Verif.Props.Geodesic
import Mathlib.Algebra.Group.Submonoid.Pointwise
import Mathlib.Data.List.Sort

/-!
# Instances of C113
-/

namespace Dreimac

open Classical in
/-- Walks of minimal weight exist, because the weights are sums of finitely many nonnegative numbers. -/
theorem exists_shortestPath : ∃ sp, ShortestPathSpec sp := by
  have key : ∀ g n, CsrMatrix.Nonneg g n → ∀ u v, ∃ t : WithTop ℝ, (∀ s : ℝ, CsrWalk g n u v s → t ≤ s) ∧
      ∀ s : ℝ, t = s → CsrWalk g n u v s := by
    intro g n hg u v
    let S : Set ℝ := {a | ∃ u < n, ∃ p ∈ g.row u, p.2 = a}
    have hfin : S.Finite := by
      have : S = ⋃ u ∈ Finset.range n, ((g.row u).map Prod.snd).toFinset := by
        ext a
        simp [S]
      rw [this]
      exact Set.Finite.biUnion (Finset.finite_toSet _) fun u _ => Finset.finite_toSet _
    have hwf : (AddSubmonoid.closure S : Set ℝ).IsWF :=
      (Set.IsPWO.addSubmonoid_closure (s := S) (fun a ha => by
        obtain ⟨u, hu, p, hp, h⟩ := ha
        exact h ▸ (hg u hu p hp).2) hfin.isPWO).isWF
    have hmem : ∀ {u v s}, CsrWalk g n u v s → s ∈ AddSubmonoid.closure S := by
      intro u v s h
      induction h with
      | refl u => exact AddSubmonoid.zero_mem _
      | @step u x v a t hu hx he _ ih =>
        refine AddSubmonoid.add_mem _ (AddSubmonoid.subset_closure ?_) ih
        rcases he with he | he
        · exact ⟨u, hu, _, he, rfl⟩
        · exact ⟨x, hx, _, he, rfl⟩
    by_cases hne : {s | CsrWalk g n u v s}.Nonempty
    · have hw : {s | CsrWalk g n u v s}.IsWF := hwf.mono fun s hs => hmem hs
      refine ⟨(hw.min hne : ℝ), fun s hs => WithTop.coe_le_coe.2 (hw.min_le hne hs), fun s hs => ?_⟩
      rw [← WithTop.coe_injective hs]
      exact hw.min_mem hne
    · exact ⟨⊤, fun s hs => absurd ⟨s, hs⟩ hne, fun s hs => absurd hs (by simp)⟩
  refine ⟨fun g n u v => if h : g.Nonneg n then (key g n h u v).choose else 0, fun g n hg u hu v hv => ?_⟩
  simp only [dif_pos hg]
  exact (key g n hg u v).choose_spec

open Classical in
theorem exists_query : ∃ query, QuerySpec query := by
  let r : ℕ → (ℕ → ℕ → ℝ) → ℕ → ℕ → ℕ → Prop := fun d X u a b => rowDist d X u a ≤ rowDist d X u b
  let srt : ℕ → (ℕ → ℕ → ℝ) → ℕ → ℕ → List ℕ := fun d X n u => (List.range n).insertionSort (r d X u)
  have hperm : ∀ d X n u, (srt d X n u).Perm (List.range n) := fun d X n u => List.perm_insertionSort _ _
  have hnd : ∀ d X n u, (srt d X n u).Nodup := fun d X n u => (hperm d X n u).nodup_iff.2 List.nodup_range
  have hsorted : ∀ d X n u, (srt d X n u).Pairwise (r d X u) := fun d X n u => by
    haveI : Std.Total (r d X u) := ⟨fun a b => le_total _ _⟩
    haveI : IsTrans ℕ (r d X u) := ⟨fun a b c => le_trans⟩
    exact List.pairwise_insertionSort _ _
  refine ⟨fun d X n k u => ((srt d X n u).take k).map fun v => (v, rowDist d X u v), ?_, ?_, ?_, ?_⟩
  · intro d X n k u hu hk hkn
    have := (hperm d X n u).length_eq
    simp only [List.length_map, List.length_take, this, List.length_range]
    omega
  · intro d X n k u hu hk hkn
    simp only [List.map_map, Function.comp_def, List.map_id']
    exact (hnd d X n u).sublist (List.take_sublist _ _)
  · intro d X n k u hu hk hkn p hp
    obtain ⟨v, hv, rfl⟩ := List.mem_map.1 hp
    exact ⟨List.mem_range.1 ((hperm d X n u).mem_iff.1 (List.mem_of_mem_take hv)), rfl⟩
  · intro d X n k u hu hk hkn p hp x hx hxn
    obtain ⟨v, hv, rfl⟩ := List.mem_map.1 hp
    simp only [List.map_map, Function.comp_def, List.map_id'] at hxn
    have hx' : x ∈ (srt d X n u).drop k := by
      have : x ∈ srt d X n u := (hperm d X n u).mem_iff.2 (List.mem_range.2 hx)
      rw [← List.take_append_drop k (srt d X n u), List.mem_append] at this
      exact this.resolve_left hxn
    have := hsorted d X n u
    rw [← List.take_append_drop k (srt d X n u), List.pairwise_append] at this
    exact this.2.2 v hv x hx'

/-- Library routines as assumed exist. -/
theorem exists_geodesicEnv : ∃ env : GeodesicEnv, QuerySpec env.query ∧ ShortestPathSpec env.shortestPath := by
  obtain ⟨q, hq⟩ := exists_query
  obtain ⟨sp, hsp⟩ := exists_shortestPath
  exact ⟨⟨q, sp⟩, hq, hsp⟩

/-- Four points on a line, in two groups: 0, 1 and 10, 11. -/
def twoGroups (u _k : ℕ) : ℝ := if u < 2 then u else u + 8

theorem twoGroups_dist (u v : ℕ) : rowDist 1 twoGroups u v = |twoGroups u 0 - twoGroups v 0| := by
  simp [rowDist, Real.sqrt_sq_eq_abs]

theorem twoGroups_side {nbr : ℕ → Finset ℕ} (h : IsNeighbourGraph 4 2 (rowDist 1 twoGroups) nbr) {u v : ℕ} (hv : v ∈ nbr u) :
    u < 2 ↔ v < 2 := by
  obtain ⟨hu, hv4⟩ := h.points u v hv
  by_contra hne
  -- the points of the group of `u` are nearer than `v`, hence neighbours too: at least three neighbours
  have hgroup : ∀ x < 4, (x < 2 ↔ u < 2) → x ∈ nbr u := by
    intro x hx hxu
    by_contra hxn
    have := h.nearest u hu v hv x hx hxn
    rw [twoGroups_dist, twoGroups_dist] at this
    have h1 : |twoGroups u 0 - twoGroups x 0| ≤ 1 := by
      unfold twoGroups
      interval_cases u <;> interval_cases x <;> simp at hxu <;> norm_num
    have h2 : 9 ≤ |twoGroups u 0 - twoGroups v 0| := by
      unfold twoGroups
      interval_cases u <;> interval_cases v <;> simp at hne <;> norm_num
    linarith
  have hc := h.card u hu
  have hsub : insert v ((Finset.range 4).filter fun x => (x < 2 ↔ u < 2)) ⊆ nbr u := by
    intro x hx
    rcases Finset.mem_insert.1 hx with rfl | hx
    · exact hv
    · exact hgroup x (Finset.mem_range.1 (Finset.mem_filter.1 hx).1) (Finset.mem_filter.1 hx).2
  have := Finset.card_le_card hsub
  rw [hc, Finset.card_insert_of_notMem (by simp; omega)] at this
  have h2 : ((Finset.range 4).filter fun x => (x < 2 ↔ u < 2)).card = 2 := by
    interval_cases u <;> decide
  omega

theorem twoGroups_chain {nbr : ℕ → Finset ℕ} (h : IsNeighbourGraph 4 2 (rowDist 1 twoGroups) nbr) {u v : ℕ} {s : ℝ}
    (hc : NeighbourChain nbr (rowDist 1 twoGroups) u v s) : u < 2 ↔ v < 2 := by
  induction hc with
  | refl u => rfl
  | step he _ ih =>
    rw [← ih]
    rcases he with he | he
    · exact twoGroups_side h he
    · exact (twoGroups_side h he).symm

/-- Two neighbours per point (one of them the point itself): the two groups are not connected, and the array has infinite
entries. -/
example (env : GeodesicEnv) (hq : QuerySpec env.query) (hsp : ShortestPathSpec env.shortestPath) :
    ∃ dist permAll, landmarkGeodesic env 4 1 twoGroups 2 2 = .ok (dist, permAll) ∧
      ∃ i < 2, ∃ j < permAll.length, dist i j = ⊤ := by
  obtain ⟨nbr, dist, permAll, lam, D, he, hG, -, -, -, -, hfin⟩ :=
    C113_graph_distance hq hsp (X := twoGroups) (d := 1) (n := 4) (nL := 2) (nN := 2) (by omega) (by omega) (by omega) (by omega)
  refine ⟨dist, permAll, he, ?_⟩
  by_contra hno
  push Not at hno
  obtain ⟨s, hs⟩ := hfin.1 hno 0 (by omega) 2 (by omega)
  exact absurd (twoGroups_chain hG hs) (by decide)

/-- Four neighbours per point: the distances are Euclidean and the second result is a permutation. -/
example (env : GeodesicEnv) (hq : QuerySpec env.query) (hsp : ShortestPathSpec env.shortestPath) :
    ∃ dist permAll, landmarkGeodesic env 4 1 twoGroups 2 4 = .ok (dist, permAll) ∧ permAll.Perm (List.range 4) ∧
      ∀ i < 2, ∀ j < permAll.length, dist i j = (rowDist 1 twoGroups (permAll.getD i 0) (permAll.getD j 0) : WithTop ℝ) := by
  obtain ⟨nbr, dist, permAll, lam, D, he, -⟩ :=
    C113_graph_distance hq hsp (X := twoGroups) (d := 1) (n := 4) (nL := 2) (nN := 4) (by omega) (by omega) (by omega) (by omega)
  refine ⟨dist, permAll, he, C113_permutation hq hsp (by omega) (by omega) (by omega) (by omega) he fun u hu v hv hne => ?_,
    C113_all_neighbours hq hsp (by omega) (by omega) (by omega) (by omega) he rfl⟩
  refine ⟨0, by omega, ?_⟩
  unfold twoGroups
  interval_cases u <;> interval_cases v <;> simp at hne <;> norm_num

end Dreimac
