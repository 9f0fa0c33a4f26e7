import Verif.Lemmas.Geometry
import Mathlib.Data.Fintype.Pigeonhole
import Mathlib.Topology.MetricSpace.Basic
import Mathlib.Data.Rat.Defs
import Mathlib.Algebra.Order.Ring.Rat
import Mathlib.Data.List.Nodup
import Mathlib.Data.List.Perm.Basic

/-!
# Properties of the sampling functions (C72 - C76)
-/

namespace Dreimac

section
variable {K : Type} [LinearOrder K] [Zero K]

theorem FarthestPointSample.good {D : ℕ → ℕ → K} {N M : ℕ} {p : ℕ → ℕ} {lam : ℕ → K}
    (h : FarthestPointSample D N M p lam) : GoodSample D N M p lam := by
  refine ⟨?_, ?_, ?_⟩
  · intro i j h1 hij hj
    obtain ⟨m, hm⟩ := DistToFirst.exists D p (i := i) (by omega) (p j)
    refine le_trans ?_ (h.far i h1 (by omega) (p j) (h.mem j hj) m hm)
    obtain ⟨l, hl, hlm⟩ := hm.1
    exact (h.radius j (by omega) hj).2 ⟨l, by omega, hlm⟩
  · intro i j hij hj
    exact (h.radius j (by omega) hj).2 ⟨i, hij, rfl⟩
  · intro hM x hx
    obtain ⟨m, hm⟩ := DistToFirst.exists D p (i := M - 1) (by omega) x
    obtain ⟨l, hl, hlm⟩ := hm.1
    exact ⟨l, by omega, by rw [hlm]; exact h.far (M - 1) (by omega) (by omega) x hx m hm⟩

/-- C72 for `get_greedy_perm_dm`: for a square array with at least one row and at least one landmark the function returns
a farthest point sample and the rows of its landmarks. -/
theorem C72_greedy_dm (N : ℕ) (hN : 0 < N) (D : ℕ → ℕ → K) (M : ℕ) (hM : 0 < M) :
    ∃ res, getGreedyPermDm N N D M = .ok res ∧ FarthestPointSample D N M res.perm res.lambdas ∧
      GoodSample D N M res.perm res.lambdas ∧ ∀ i < M, ∀ j < N, res.DLandmarks i j = D (res.perm i) j := by
  refine ⟨_, getGreedyPermDm_ok hN D hM, ?_⟩
  have h := (gInv_iter (row := D) hN false (M - 1)).fps
  rw [show M - 1 + 1 = M by omega] at h
  exact ⟨h, h.good, fun i _ j _ => rfl⟩

/-- C72 for `get_greedy_perm_pc`, with any cross-similarity function. -/
theorem C72_greedy_pc {R : Type} (csm : ℕ → (ℕ → ℕ → R) → ℕ → (ℕ → ℕ → R) → ℕ → ℕ → K) (N : ℕ) (hN : 0 < N)
    (X : ℕ → ℕ → R) (M : ℕ) (hM : 0 < M) :
    ∃ res, getGreedyPermPc csm N X M = .ok res ∧
      FarthestPointSample (fun a b => csm 1 (fun _ => X a) N X 0 b) N M res.perm res.lambdas ∧
      GoodSample (fun a b => csm 1 (fun _ => X a) N X 0 b) N M res.perm res.lambdas ∧
      (∀ i < M, ∀ j < N, res.D i j = csm 1 (fun _ => X (res.perm i)) N X 0 j) ∧
      ∀ i < M, ∀ k, res.Y i k = X (res.perm i) k := by
  refine ⟨_, getGreedyPermPc_ok csm hN X hM, ?_⟩
  have h := (gInv_iter (row := fun a => csm 1 (fun _ => X a) N X 0) hN true (M - 1)).fps
  rw [show M - 1 + 1 = M by omega] at h
  refine ⟨h, h.good, fun i hi j _ => ?_, fun i _ k => rfl⟩
  exact congrFun (gIter_D (row := fun a => csm 1 (fun _ => X a) N X 0) (N := N) (M - 1) i (by omega)) j

/-- C72 for `landmark_geodesic_distance`, with any shortest path distances: the leading entries of the returned
permutation are a farthest point sample. -/
theorem C72_greedy_geodesic (n : ℕ) (sp : ℕ → ℕ → K) (nL nN : ℕ) (h1 : 0 < nL) (h2 : nL ≤ n) (h3 : 0 < nN)
    (h4 : nN ≤ n) :
    ∃ dist permAll lam, landmarkGeodesicDistance n sp nL nN = .ok (dist, permAll) ∧
      FarthestPointSample sp n nL (fun i => permAll.getD i 0) lam ∧
      GoodSample sp n nL (fun i => permAll.getD i 0) lam := by
  refine ⟨_, _, (gIter true sp n (gInit true sp) (nL - 1)).lambdas, landmarkGeodesicDistance_ok sp h1 h2 h3 h4, ?_⟩
  have h := (gInv_iter (row := sp) (N := n) (by omega) true (nL - 1)).fps
  rw [show nL - 1 + 1 = nL by omega] at h
  set st := gIter true sp n (gInit true sp) (nL - 1)
  set rest := (List.range n).filter fun x => !((List.range nL).map st.perm).contains x
  have hp : ∀ i < nL, st.perm i = ((List.range nL).map st.perm ++ rest).getD i 0 := by
    intro i hi
    rw [List.getD_append _ _ _ _ (by simpa using hi)]
    simp [List.getD, hi]
  have hf : FarthestPointSample sp n nL (fun i => ((List.range nL).map st.perm ++ rest).getD i 0) st.lambdas := by
    refine ⟨fun h0 => ⟨?_, (h.start h0).2⟩, fun i hi => ?_, fun i h1 hi => ?_, fun i h1 hi x hx m hm => ?_,
      fun i h1 hi x hx m hm => ?_⟩
    · rw [← hp 0 h0]; exact (h.start h0).1
    · rw [← hp i hi]; exact h.mem i hi
    · rw [← hp i hi]; exact (h.radius i h1 hi).congr fun j hj => hp j (by omega)
    · exact h.far i h1 hi x hx m (hm.congr fun j hj => (hp j (by omega)).symm)
    · rw [← hp i hi] at hx
      exact h.first i h1 hi x hx m (hm.congr fun j hj => (hp j (by omega)).symm)
  exact ⟨hf, hf.good⟩

/-- C72: the specification determines the landmarks and radii, so the three functions return the same sample of the same
distances. -/
theorem C72_sample_unique {D : ℕ → ℕ → K} {N M : ℕ} {p p' : ℕ → ℕ} {lam lam' : ℕ → K}
    (h : FarthestPointSample D N M p lam) (h' : FarthestPointSample D N M p' lam') :
    ∀ i < M, p i = p' i ∧ lam i = lam' i := h.unique (fun _ _ _ _ => rfl) h'

/-- C72: the calls that fail: no points, or (for point clouds and geodesic distances) no landmarks. -/
theorem C72_errors {R : Type} (csm : ℕ → (ℕ → ℕ → R) → ℕ → (ℕ → ℕ → R) → ℕ → ℕ → K) (X : ℕ → ℕ → R) (N M : ℕ)
    (D : ℕ → ℕ → K) :
    getGreedyPermPc csm 0 X M = .error .indexError ∧ getGreedyPermPc csm N X 0 = .error .indexError ∧
      getGreedyPermDm 0 N D M = .error .indexError ∧
      (0 < N → (getGreedyPermDm N N D 0).isOk) ∧
      (∀ nL nN, (landmarkGeodesicDistance N D nL nN).isOk ↔ 0 < nL ∧ nL ≤ N ∧ 0 < nN ∧ nN ≤ N) := by
  refine ⟨rfl, ?_, rfl, ?_, ?_⟩
  · unfold getGreedyPermPc
    by_cases h : N = 0
    · simp [h, bind, Except.bind, throw, throwThe, MonadExceptOf.throw]
    · simp [h, bind, Except.bind, throw, throwThe, MonadExceptOf.throw, pure, Except.pure]
  · intro h
    have : getRow N D 0 = .ok (D 0) := if_pos h
    simp [getGreedyPermDm, this, bind, Except.bind, pure, Except.pure, pyRange, Except.isOk, Except.toBool]
  · intro nL nN
    constructor
    · intro hok
      by_contra hne
      unfold landmarkGeodesicDistance at hok
      by_cases a : nL ≤ N
      · by_cases b : nN ≤ N
        · by_cases c : nN = 0
          · simp [a, c, bind, Except.bind, throw, throwThe, MonadExceptOf.throw, Except.isOk, Except.toBool, pure,
              Except.pure] at hok
          · have d : nL = 0 := by omega
            simp [d, b, c, bind, Except.bind, throw, throwThe, MonadExceptOf.throw, Except.isOk, Except.toBool, pure,
              Except.pure] at hok
        · simp [a, b, bind, Except.bind, throw, throwThe, MonadExceptOf.throw, Except.isOk, Except.toBool, pure,
            Except.pure] at hok
      · simp [a, bind, Except.bind, throw, throwThe, MonadExceptOf.throw, Except.isOk, Except.toBool] at hok
    · rintro ⟨h1, h2, h3, h4⟩
      have := landmarkGeodesicDistance_ok D h1 h2 h3 h4
      simp only at this
      rw [this]
      rfl

/-- C74: the sampled indices are distinct exactly when there are at least `M` pairwise distinct points, for any distances
for which being at distance zero is an equivalence relation. -/
theorem C74_distinct_iff {D : ℕ → ℕ → K} {N M : ℕ} {p : ℕ → ℕ} {lam : ℕ → K} (h : FarthestPointSample D N M p lam)
    (hnn : ∀ i < N, ∀ j < N, 0 ≤ D i j) (hrefl : ∀ i < N, D i i = 0)
    (hsymm : ∀ i < N, ∀ j < N, D i j = 0 → D j i = 0)
    (htrans : ∀ i < N, ∀ j < N, ∀ k < N, D i j = 0 → D j k = 0 → D i k = 0) :
    DistinctUpTo M p ↔ ∃ q : ℕ → ℕ, (∀ i < M, q i < N) ∧ ∀ i < M, ∀ j < M, i ≠ j → 0 < D (q i) (q j) := by
  constructor
  · intro hd
    have key : ∀ i j, i < j → j < M → 0 < D (p i) (p j) := by
      intro i j hij hj
      by_contra hc
      have hz : D (p i) (p j) ≤ 0 := not_lt.mp hc
      have hlam : lam j ≤ 0 := le_trans (h.good.packing i j hij hj) hz
      have hp0 : p j = 0 := by
        by_contra hne
        obtain ⟨m, hm⟩ := DistToFirst.exists D p (i := j) (by omega) 0
        have hlt := h.first j (by omega) hj 0 (by omega) m hm
        obtain ⟨l, hl, hlm⟩ := hm.1
        have : 0 ≤ m := by
          rw [← hlm]; exact hnn _ (h.mem l (by omega)) _ (by have := h.mem j hj; omega)
        exact absurd (lt_of_lt_of_le hlt hlam) (not_lt.mpr this)
      have := hd j hj 0 (by omega) (by rw [hp0, (h.start (by omega)).1])
      omega
    refine ⟨p, h.mem, fun i hi j hj hne => ?_⟩
    rcases Nat.lt_or_gt_of_ne hne with hlt | hgt
    · exact key i j hlt hj
    · refine lt_of_le_of_ne (hnn _ (h.mem i hi) _ (h.mem j hj)) fun he => ?_
      have := hsymm _ (h.mem i hi) _ (h.mem j hj) he.symm
      exact absurd (key j i hgt hi) (by rw [this]; exact lt_irrefl _)
  · rintro ⟨q, hq, hqd⟩
    have hpos : ∀ i, 1 ≤ i → i < M → 0 < lam i := by
      intro i h1 hi
      by_contra hc
      have hall : ∀ a : Fin M, ∃ j : Fin i, D (p j) (q a) = 0 := by
        intro a
        obtain ⟨m, hm⟩ := DistToFirst.exists D p (i := i) (by omega) (q a)
        have hle := le_trans (h.far i h1 hi _ (hq a a.2) m hm) (not_lt.mp hc)
        obtain ⟨l, hl, hlm⟩ := hm.1
        refine ⟨⟨l, hl⟩, le_antisymm (by rw [hlm]; exact hle) (hnn _ (h.mem l (by omega)) _ (hq a a.2))⟩
      choose f hf using hall
      obtain ⟨a, b, hab, he⟩ := Fintype.exists_ne_map_eq_of_card_lt f (by simpa using hi)
      have hj := (f a).2
      have h1' := hsymm _ (h.mem (f a) (by omega)) _ (hq a a.2) (hf a)
      have h2' := hf b
      rw [← he] at h2'
      have := htrans _ (hq a a.2) _ (h.mem (f a) (by omega)) _ (hq b b.2) h1' h2'
      exact absurd (hqd a a.2 b b.2 (fun hh => hab (Fin.ext hh))) (by rw [this]; exact lt_irrefl _)
    have key : ∀ i j, i < j → j < M → p i ≠ p j := by
      intro i j hij hj he
      have h1 := h.good.packing i j hij hj
      rw [← he, hrefl _ (h.mem i (by omega))] at h1
      exact absurd (hpos j (by omega) hj) (not_lt.mpr h1)
    intro i hi j hj he
    rcases lt_trichotomy i j with hlt | rfl | hgt
    · exact absurd he (key i j hlt hj)
    · rfl
    · exact absurd he.symm (key j i hgt hi)

/-- C74 (partial: distinct points only): with pairwise distinct points and `M ≤ N` the landmarks are distinct.
Missing: duplicate points, for which the property is false (`C74_duplicates`). -/
theorem C74_distinct_partial (N : ℕ) (D : ℕ → ℕ → K) (M : ℕ) (hM : 0 < M) (hMN : M ≤ N)
    (hrefl : ∀ i < N, D i i = 0) (hpos : ∀ i < N, ∀ j < N, i ≠ j → 0 < D i j) :
    ∃ res, getGreedyPermDm N N D M = .ok res ∧ DistinctUpTo M res.perm := by
  obtain ⟨res, h1, h2, -⟩ := C72_greedy_dm N (by omega) D M hM
  have hz : ∀ i < N, ∀ j < N, D i j = 0 → i = j := fun i hi j hj h => by
    by_contra hne
    exact absurd (hpos i hi j hj hne) (by rw [h]; exact lt_irrefl _)
  refine ⟨res, h1, (C74_distinct_iff h2 ?_ hrefl ?_ ?_).2 ⟨id, fun i hi => by simp; omega,
    fun i hi j hj hne => hpos i (by omega) j (by omega) hne⟩⟩
  · intro i hi j hj
    by_cases he : i = j
    · subst he; rw [hrefl i hi]
    · exact le_of_lt (hpos i hi j hj he)
  · intro i hi j hj h
    rw [← hz i hi j hj h]; exact hrefl i hi
  · intro i hi j hj k hk h h'
    rw [← hz j hj k hk h', ← hz i hi j hj h]; exact hrefl i hi

end

/-- C74 is false with duplicate points: if there are no `M` pairwise distinct points then an index is repeated.  (Already
for two equal points and `M = 2`: the result is `[0, 0]`.) -/
theorem C74_duplicates : ∃ res, getGreedyPermDm 2 2 (fun _ _ => (0 : ℚ)) 2 = .ok res ∧ res.perm 0 = 0 ∧ res.perm 1 = 0 :=
  ⟨_, rfl, rfl, by decide +kernel⟩

/-- The hypotheses of C72, C74 are met by a concrete array: three points on a line. -/
example : (match getGreedyPermDm 3 3 (fun (i j : ℕ) => |(i : ℚ) - (j : ℚ)|) 3 with
    | .ok res => decide ((List.range 3).map res.perm = [0, 2, 1] ∧ (List.range 3).map res.lambdas = [0, 2, 1])
    | .error _ => false) = true := by decide +kernel

/-- C73: the greedy landmarks cover within twice the radius of any other choice of `M` centres, in any pseudometric space
containing the points. -/
theorem C73_two_approximation {E : Type} [PseudoMetricSpace E] (N : ℕ) (hN : 0 < N) (P : ℕ → E) (M : ℕ) (hM : 0 < M)
    (c : Fin M → E) (r : ℝ) (hc : ∀ x < N, ∃ k, dist (P x) (c k) ≤ r) :
    ∃ res, getGreedyPermDm N N (fun i j => dist (P i) (P j)) M = .ok res ∧
      ∀ x < N, ∃ j < M, dist (P x) (P (res.perm j)) ≤ 2 * r := by
  obtain ⟨res, h1, h2, h3, -⟩ := C72_greedy_dm N hN (fun i j => dist (P i) (P j)) M hM
  refine ⟨res, h1, fun x hx => ?_⟩
  by_contra hcon
  push Not at hcon
  have hfar : ∀ i, 1 ≤ i → i < M → 2 * r < res.lambdas i := by
    intro i h1 hi
    obtain ⟨m, hm⟩ := DistToFirst.exists (fun i j => dist (P i) (P j)) res.perm (i := i) (by omega) x
    refine lt_of_lt_of_le ?_ (h2.far i h1 hi x hx m hm)
    obtain ⟨l, hl, hlm⟩ := hm.1
    rw [← hlm]
    have := hcon l (by omega)
    rw [dist_comm] at this
    exact this
  -- the landmarks and `x` are `M + 1` points, two of which share a centre
  let pt : ℕ → ℕ := fun i => if i < M then res.perm i else x
  have hpt : ∀ i, pt i < N := by
    intro i
    simp only [pt]
    split_ifs with hi
    · exact h2.mem i hi
    · exact hx
  have hsep : ∀ i j, i < j → j < M + 1 → 2 * r < dist (P (pt i)) (P (pt j)) := by
    intro i j hij hj
    by_cases hjM : j < M
    · simp only [pt, if_pos hjM, if_pos (show i < M by omega)]
      exact lt_of_lt_of_le (hfar j (by omega) hjM) (h3.packing i j hij hjM)
    · simp only [pt, if_neg hjM, if_pos (show i < M by omega)]
      have := hcon i (by omega)
      rw [dist_comm] at this
      exact this
  choose f hf using fun i : Fin (M + 1) => hc (pt i) (hpt i)
  obtain ⟨a, b, hab, he⟩ := Fintype.exists_ne_map_eq_of_card_lt f (by simp)
  have hd : dist (P (pt a)) (P (pt b)) ≤ 2 * r := by
    have h1 := hf a
    have h2 := hf b
    rw [← he] at h2
    have := dist_triangle_right (P (pt a)) (P (pt b)) (c (f a))
    linarith
  rcases Nat.lt_or_gt_of_ne (fun hh => hab (Fin.ext hh) : (a : ℕ) ≠ b) with hlt | hgt
  · exact absurd (hsep a b hlt b.2) (not_lt.mpr hd)
  · rw [dist_comm] at hd
    exact absurd (hsep b a hgt a.2) (not_lt.mpr hd)

/-- The hypotheses of C73 are met, with a bound that is attained: the points 0, 1, 2 of the line are within 1 of the one
centre 1, while the greedy landmark 0 only covers within 2. -/
example : ∀ x < 3, ∃ k : Fin 1, dist (((x : ℕ) : ℝ)) ((fun _ => 1 : Fin 1 → ℝ) k) ≤ 1 := by
  intro x hx
  refine ⟨0, ?_⟩
  rw [Real.dist_eq]
  have h1 : (0 : ℝ) ≤ x := Nat.cast_nonneg x
  have h2 : (x : ℝ) ≤ 2 := by exact_mod_cast (by omega : x ≤ 2)
  rw [abs_le]
  constructor <;> linarith

/-! ### The two variants agree (C75) -/

section
variable {K : Type} [LinearOrder K] [Zero K]

/-- C75: for a cross-similarity function that treats the rows of its first argument one by one,
`get_greedy_perm_pc` returns what `get_greedy_perm_dm` returns on the full matrix of pairwise distances. -/
theorem C75_pc_eq_dm {R : Type} (csm : ℕ → (ℕ → ℕ → R) → ℕ → (ℕ → ℕ → R) → ℕ → ℕ → K) (N : ℕ) (hN : 0 < N)
    (X : ℕ → ℕ → R) (hcsm : ∀ a < N, ∀ j < N, csm 1 (fun _ => X a) N X 0 j = csm N X N X a j) (M : ℕ) (hM : 0 < M) :
    ∃ a b, getGreedyPermPc csm N X M = .ok a ∧ getGreedyPermDm N N (csm N X N X) M = .ok b ∧
      ∀ i < M, a.perm i = b.perm i ∧ a.lambdas i = b.lambdas i ∧ (∀ j < N, a.D i j = b.DLandmarks i j) ∧
        ∀ k, a.Y i k = X (b.perm i) k := by
  obtain ⟨a, ha, fa, -, hD, hY⟩ := C72_greedy_pc csm N hN X M hM
  obtain ⟨b, hb, fb, -, hL⟩ := C72_greedy_dm N hN (csm N X N X) M hM
  refine ⟨a, b, ha, hb, fun i hi => ?_⟩
  obtain ⟨h1, h2⟩ := fa.unique hcsm fb i hi
  refine ⟨h1, h2, fun j hj => ?_, fun k => ?_⟩
  · rw [hD i hi j hj, hL i hi j hj, ← h1]
    exact hcsm _ (fa.mem i hi) j hj
  · rw [hY i hi k, h1]

/-- The hypothesis of C75 holds for the two cross-similarity functions of the library. -/
theorem C75_pc_eq_dm_library (d : ℕ) (csm : ℕ → (ℕ → ℕ → ℝ) → ℕ → (ℕ → ℕ → ℝ) → ℕ → ℕ → ℝ)
    (h : csm = getCsm d ∨ csm = getCsmProjarc d) (N : ℕ) (hN : 0 < N) (X : ℕ → ℕ → ℝ) (M : ℕ) (hM : 0 < M) :
    ∃ a b, getGreedyPermPc csm N X M = .ok a ∧ getGreedyPermDm N N (csm N X N X) M = .ok b ∧
      ∀ i < M, a.perm i = b.perm i ∧ a.lambdas i = b.lambdas i ∧ (∀ j < N, a.D i j = b.DLandmarks i j) ∧
        ∀ k, a.Y i k = X (b.perm i) k := by
  refine C75_pc_eq_dm csm N hN X ?_ M hM
  rcases h with rfl | rfl <;> intro a _ j _ <;> rfl

/-! ### Geodesic landmarks (C76) -/

/-- C76 (partial: distinct landmarks): if the landmarks found are distinct, `landmark_geodesic_distance` returns a
permutation of all points that starts with the landmarks; entry `(i, j)` of the array is the distance from the `i`-th
landmark to the `j`-th point of the permutation, in particular its leading square block holds the distances between
landmarks.  Missing: repeated landmarks, for which the property is false (`C76_duplicates`). -/
theorem C76_geodesic_partial (n : ℕ) (sp : ℕ → ℕ → K) (nL nN : ℕ) (h1 : 0 < nL) (h2 : nL ≤ n) (h3 : 0 < nN)
    (h4 : nN ≤ n) :
    ∃ dist permAll, landmarkGeodesicDistance n sp nL nN = .ok (dist, permAll) ∧
      (∀ i < nL, ∀ j < permAll.length, dist i j = sp (permAll.getD i 0) (permAll.getD j 0)) ∧
      (DistinctUpTo nL (fun i => permAll.getD i 0) → permAll.Perm (List.range n)) := by
  refine ⟨_, _, landmarkGeodesicDistance_ok sp h1 h2 h3 h4, ?_⟩
  have h := (gInv_iter (row := sp) (N := n) (by omega) true (nL - 1)).fps
  rw [show nL - 1 + 1 = nL by omega] at h
  have hD := gIter_D (row := sp) (N := n) (nL - 1)
  set st := gIter true sp n (gInit true sp) (nL - 1)
  set rest := (List.range n).filter fun x => !((List.range nL).map st.perm).contains x with hrest
  have hp : ∀ i < nL, ((List.range nL).map st.perm ++ rest).getD i 0 = st.perm i := by
    intro i hi
    rw [List.getD_append _ _ _ _ (by simpa using hi)]
    simp [List.getD, hi]
  constructor
  · intro i hi j hj
    rw [hD i (by omega), hp i hi]
  · intro hdist
    have hnd : ((List.range nL).map st.perm).Nodup := by
      refine List.Nodup.map_on ?_ List.nodup_range
      intro a ha b hb hab
      rw [List.mem_range] at ha hb
      exact hdist a ha b hb (by simp only [hp a ha, hp b hb, hab])
    refine (List.perm_ext_iff_of_nodup ?_ List.nodup_range).2 ?_
    · refine List.Nodup.append hnd (List.nodup_range.filter _) ?_
      intro x hx hx'
      rw [hrest, List.mem_filter] at hx'
      simp only [Bool.not_eq_true', List.contains_eq_mem, decide_eq_false_iff_not] at hx'
      exact hx'.2 hx
    · intro x
      rw [List.mem_append, hrest, List.mem_filter]
      simp only [Bool.not_eq_true', List.contains_eq_mem, decide_eq_false_iff_not]
      constructor
      · rintro (hx | hx)
        · obtain ⟨i, hi, rfl⟩ := List.mem_map.1 hx
          exact List.mem_range.2 (h.mem i (List.mem_range.1 hi))
        · exact hx.1
      · intro hx
        by_cases hm : x ∈ (List.range nL).map st.perm
        · exact Or.inl hm
        · exact Or.inr ⟨hx, hm⟩

/-- C76: with distances of which only the diagonal is zero (no two points at distance zero) the landmarks are distinct, so
the result is a permutation. -/
theorem C76_geodesic_distinct_points_partial (n : ℕ) (sp : ℕ → ℕ → K) (nL nN : ℕ) (h1 : 0 < nL) (h2 : nL ≤ n) (h3 : 0 < nN)
    (h4 : nN ≤ n) (hrefl : ∀ i < n, sp i i = 0) (hpos : ∀ i < n, ∀ j < n, i ≠ j → 0 < sp i j) :
    ∃ dist permAll, landmarkGeodesicDistance n sp nL nN = .ok (dist, permAll) ∧ permAll.Perm (List.range n) := by
  obtain ⟨dist, permAll, he, -, hP⟩ := C76_geodesic_partial n sp nL nN h1 h2 h3 h4
  obtain ⟨dist', permAll', lam, he', hf, -⟩ := C72_greedy_geodesic n sp nL nN h1 h2 h3 h4
  rw [he] at he'
  injection he' with he'
  have e1 : permAll = permAll' := congrArg Prod.snd he'
  subst e1
  have hz : ∀ i < n, ∀ j < n, sp i j = 0 → i = j := fun i hi j hj h => by
    by_contra hne
    exact absurd (hpos i hi j hj hne) (by rw [h]; exact lt_irrefl _)
  refine ⟨dist, permAll, he, hP ((C74_distinct_iff hf ?_ hrefl ?_ ?_).2 ⟨id, fun i hi => by simp; omega,
    fun i hi j hj hne => hpos i (by omega) j (by omega) hne⟩)⟩
  · intro i hi j hj
    by_cases he : i = j
    · subst he; rw [hrefl i hi]
    · exact le_of_lt (hpos i hi j hj he)
  · intro i hi j hj h
    rw [← hz i hi j hj h]; exact hrefl i hi
  · intro i hi j hj k hk h h'
    rw [← hz j hj k hk h', ← hz i hi j hj h]; exact hrefl i hi

/-- C76 is false when a landmark is repeated: the returned list is longer than the number of points. -/
theorem C76_duplicates (n : ℕ) (sp : ℕ → ℕ → K) (nL nN : ℕ) (h1 : 0 < nL) (h2 : nL ≤ n) (h3 : 0 < nN)
    (h4 : nN ≤ n) {dist : ℕ → ℕ → K} {permAll : List ℕ}
    (he : landmarkGeodesicDistance n sp nL nN = .ok (dist, permAll))
    (hrep : ¬ DistinctUpTo nL (fun i => permAll.getD i 0)) : n < permAll.length ∧ ¬ permAll.Nodup := by
  have := landmarkGeodesicDistance_ok sp h1 h2 h3 h4
  simp only at this
  have hinv := (gInv_iter (row := sp) (N := n) (by omega) true (nL - 1)).fps
  rw [show nL - 1 + 1 = nL by omega] at hinv
  rw [this] at he
  injection he with he
  have e1 := congrArg Prod.snd he
  simp only at e1
  set st := gIter true sp n (gInit true sp) (nL - 1)
  set rest := (List.range n).filter fun x => !((List.range nL).map st.perm).contains x with hrest
  have hp : ∀ i < nL, permAll.getD i 0 = st.perm i := by
    intro i hi
    rw [← e1, List.getD_append _ _ _ _ (by simpa using hi)]
    simp [List.getD, hi]
  have hnot : ¬ ((List.range nL).map st.perm).Nodup := by
    intro hnd
    apply hrep
    intro a ha b hb hab
    simp only [hp a ha, hp b hb] at hab
    exact List.inj_on_of_nodup_map hnd (List.mem_range.2 ha) (List.mem_range.2 hb) hab
  have hnot' : ¬ permAll.Nodup := by
    intro hnd
    rw [← e1, List.nodup_append] at hnd
    exact hnot hnd.1
  refine ⟨?_, hnot'⟩
  have hsub : List.range n ⊆ permAll := by
    intro x hx
    rw [← e1, List.mem_append, hrest, List.mem_filter]
    simp only [Bool.not_eq_true', List.contains_eq_mem, decide_eq_false_iff_not]
    by_cases hm : x ∈ (List.range nL).map st.perm
    · exact Or.inl hm
    · exact Or.inr ⟨hx, hm⟩
  have hcard : (Finset.range n).card ≤ permAll.toFinset.card := by
    apply Finset.card_le_card
    intro x hx
    rw [List.mem_toFinset]
    exact hsub (List.mem_range.2 (Finset.mem_range.1 hx))
  rw [Finset.card_range] at hcard
  refine lt_of_le_of_lt hcard (lt_of_le_of_ne (List.toFinset_card_le _) fun heq => hnot' ?_)
  exact (Multiset.toFinset_card_eq_card_iff_nodup (m := (permAll : Multiset ℕ))).1 heq

end

/-- Repeated landmarks do occur: two points at distance zero. -/
example : (match landmarkGeodesicDistance 2 (fun _ _ => (0 : ℚ)) 2 1 with
    | .ok res => decide (res.2 = [0, 0, 1])
    | .error _ => false) = true := by decide +kernel

/-- And distinct points do not repeat them: four points on a line, two landmarks. -/
example : (match landmarkGeodesicDistance 4 (fun (i j : ℕ) => |(i : ℚ) - (j : ℚ)|) 2 1 with
    | .ok res => decide (res.2 = [0, 3, 1, 2] ∧ (List.range 4).map (res.1 1) = [3, 0, 2, 1])
    | .error _ => false) = true := by decide +kernel

end Dreimac
