import Verif.Props.EndToEnd
import Verif.Lemmas.Dataset2

/-!
# C92: complex projective coordinates, from the data set to the output array
-/

namespace Dreimac

/-- The dense form of the lifted array is a lift of the listed values. -/
theorem listsLift2_of_dense {idx : List ℕ} (hnd : idx.Nodup) {p : ℤ} (hp : 2 ≤ p) {c₀ : List ZRow} {s : SparseCochain}
    (hren : List.Forall₂ (Renamed idx) c₀ s) (hval : ValidArray p idx.length 2 s) {N D : ℕ} (hN : idx.length ≤ N) (hD : 2 ≤ D)
    {v : List ℤ} (h : sparseCocycleToVector 2 (liftToIntegerCocycle s p) (cnsTable N D) idx.length = .ok v) :
    ListsLift2 p idx.toFinset c₀ (pushCochain2 idx fun e => v.getD e 0) := by
  obtain ⟨hrow, hzero⟩ := dense_tri hN hD (s := liftToIntegerCocycle s p) (by
    intro r hr
    obtain ⟨r', hr', rfl⟩ := List.mem_map.1 hr
    exact ⟨(hval.1 r' hr').1.1, (hval.1 r' hr').1.2, (hval.1 r' hr').1.3⟩) (by
    unfold liftToIntegerCocycle
    rw [List.pairwise_map]
    exact hval.2) h
  refine ⟨fun u _ v _ w _ => triVal_swap12 _ _ _ _, fun u _ v _ w _ => triVal_swap23 _ _ _ _, ?_, ?_⟩
  · intro r hr
    obtain ⟨j, hj, rfl⟩ := List.mem_iff_getElem.1 hr
    rw [List.forall₂_iff_get] at hren
    have hj' : j < s.length := hren.1 ▸ hj
    have h2 : Renamed idx c₀[j] s[j] := hren.2 j hj hj'
    obtain ⟨⟨q1, -, -⟩, q2, q3⟩ := hval.1 s[j] (List.getElem_mem _)
    match hs : s[j].verts, q1 with
    | [a, b, d], _ =>
      have ha := h2.bound a (by simp [hs])
      have hb := h2.bound b (by simp [hs])
      have hd := h2.bound d (by simp [hs])
      have hmem : ∀ l, l < idx.length → idx.getD l 0 ∈ idx.toFinset := by
        intro l hl; rw [getD_of_lt hl, List.mem_toFinset]; exact List.getElem_mem _
      refine ⟨idx.getD a 0, idx.getD b 0, idx.getD d 0, by rw [h2.verts, hs]; rfl, hmem a ha, hmem b hb, hmem d hd, ?_⟩
      have e : pushCochain2 idx (fun e => v.getD e 0) (idx.getD a 0) (idx.getD b 0) (idx.getD d 0) = liftVal p s[j].val := by
        unfold pushCochain2
        rw [idxOf_getD hnd ha, idxOf_getD hnd hb, idxOf_getD hnd hd]
        exact hrow { s[j] with val := liftVal p s[j].val }
          (List.mem_map.2 ⟨s[j], List.getElem_mem _, rfl⟩) a b d hs
      rw [e, ← h2.val]
      unfold liftVal
      split_ifs with hlt
      · exact ⟨⟨-1, by ring⟩, by omega, by omega⟩
      · exact ⟨⟨0, by ring⟩, by omega, by omega⟩
  · intro u hu v' hv' w hw hno
    have hu := List.mem_toFinset.1 hu
    have hv' := List.mem_toFinset.1 hv'
    have hw := List.mem_toFinset.1 hw
    refine hzero _ _ _ (idxOf_lt hu) (idxOf_lt hv') (idxOf_lt hw) ?_
    intro r hr hperm
    obtain ⟨r', hr', rfl⟩ := List.mem_map.1 hr
    obtain ⟨r₀, h1, h2⟩ := forall₂_mem_right hren hr'
    refine hno r₀ h1 ?_
    rw [h2.verts]
    have := hperm.map fun m => ((idx.getD m 0 : ℕ) : ℤ)
    simp only [List.map_cons, List.map_nil, getD_of_lt (idxOf_lt hu), getD_of_lt (idxOf_lt hv'), getD_of_lt (idxOf_lt hw),
      getElem_idxOf' hu, getElem_idxOf' hv', getElem_idxOf' hw] at this
    exact this

/-- There are at most `n choose 4` tetrahedra on `n` vertices. -/
theorem tetra_count {K : Type} [LT K] {n : ℕ} {dist : ℕ → ℕ → K} {t : K} {l : List (ℕ × ℕ × ℕ × ℕ)} (hnd : l.Nodup)
    (h : ∀ x ∈ l, RipsTetra n dist t x.1 x.2.1 x.2.2.1 x.2.2.2) : l.length ≤ Nat.choose n 4 := by
  have hb := C01_simplex_index_bijective n 3 n 3 le_rfl le_rfl
  have hs : ∀ x ∈ l, IsSimplex n 3 [x.1, x.2.1, x.2.2.1, x.2.2.2] := by
    intro x hx
    obtain ⟨⟨⟨e1, e2, -⟩, ⟨e3, e4, -⟩, -⟩, -, -, ⟨e5, e6, -⟩⟩ := h x hx
    refine ⟨rfl, ?_, ?_⟩
    · simp; omega
    · intro v hv; simp at hv; omega
  rw [← List.toFinset_card_of_nodup hnd, ← Finset.card_range (Nat.choose n 4)]
  refine Finset.card_le_card_of_injOn (fun x => cnsForward [x.1, x.2.1, x.2.2.1, x.2.2.2] (cnsTable n 3)) ?_ ?_
  · intro x hx
    have := hb.mapsTo (hs x (by simpa using hx))
    simpa using this
  · intro x hx y hy hxy
    have := hb.injOn (hs x (by simpa using hx)) (hs y (by simpa using hy)) hxy
    simp only [List.cons.injEq, and_true] at this
    exact Prod.ext this.1 (Prod.ext this.2.1 (Prod.ext this.2.2.1 this.2.2.2))

noncomputable section
variable {n k : ℕ} {δ : ℕ → ℕ → ℝ} {p : ℤ} {maxdim : ℕ} {res : RipserResult ℝ} {ρ : ℝ → ℝ}

theorem classMapVia_eq_ball {𝕜 : Type} {idx : List ℕ} {N : ℕ} {dist : ℕ → ℕ → ℝ} {r : ℝ} (hnd : idx.Nodup)
    (hdata : ∀ l (h : l < idx.length), ∀ i < N, dist l i = δ idx[l] i) {vec vec' : ℕ → ℕ → ℕ → 𝕜} {β : ℕ → ℕ}
    (hβ : ∀ i, (∃ l, InBall idx.length dist r l i) → InBall idx.length dist r (β i) i)
    (hvec : ∀ u i v, u ∈ idx → v ∈ idx → InBall idx.length dist r (idx.idxOf u) i →
      vec (idx.idxOf u) i (idx.idxOf v) = vec' u i v) :
    classMapVia idx.length N dist r vec β = dataClassMap idx N δ r vec' (fun i => idx.getD (β i) 0) := by
  unfold classMapVia dataClassMap
  congr 1
  funext i m
  by_cases h : i < N ∧ m < idx.length ∧ ∃ l, InBall idx.length dist r l i
  · have h1 := hβ i h.2.2
    have h2 : idx.getD (β i) 0 ∈ idx := by rw [getD_of_lt h1.1]; exact List.getElem_mem _
    have h3 : idx.getD m 0 ∈ idx := by rw [getD_of_lt h.2.1]; exact List.getElem_mem _
    have := hvec _ i _ h2 h3 (by rw [idxOf_getD hnd h1.1]; exact h1)
    rw [idxOf_getD hnd h1.1, idxOf_getD hnd h.2.1] at this
    rw [if_pos h, if_pos ⟨h.1, h.2.1, (covered_data hnd hdata h.1).2 h.2.2⟩, this]
  · rw [if_neg h, if_neg]
    rintro ⟨h1, h2, h3⟩
    exact h ⟨h1, h2, (covered_data hnd hdata h1).1 h3⟩

/-- The vector that the code assigns to data point `i` with the ball of the landmark `u`: `cpDataVector`, unless the class map has
at most `10 ^ 6` bytes, when all phases are lost (C51). -/
def cpDataAssigned (S : Finset ℕ) (N : ℕ) (c : ℕ → ℕ → ℕ → ℤ) (ν : ℕ → ℕ → ℝ) (w : ℕ → ℕ → ℝ) (u i v : ℕ) : ℂ :=
  if 8 * S.card * N ≤ 10 ^ 6 then ((√(w v i) : ℝ) : ℂ) else cpDataVector S c ν w u i v

/-- **C92.** The whole of `ComplexProjectiveCoords(X, n_landmarks, prime = p).get_coordinates(perc, cocycle_idx = z,
proj_dim = q, …)` for a data set with distances `δ`, with `1 ≤ q < n_landmarks ≤ 2345`: the constructor succeeds; if ripser's class
number `j` of dimension 2 is the `z`-th most persistent one, is alive on `[b, d)`, has the array `c₀`, and its lifetime is long
enough, then there is an integer lift `c` of the array (balanced values, zero on the other triples), such that after any history
of calls, for the radius `r` prescribed by `perc`: if the check is off or `c` is an integer cocycle at threshold `2 r`, the call
returns an array with one row per data point and `q + 1` columns, which is the dimensionality reduction of the array whose row `i`,
for a data point `i` in the ball of the landmark `u = β i`, is the vector of `c` computed with this ball, for the normalised bump
weights `w` and a 1-cochain `ν` that minimises the energy of `c - dν` (with an exact least squares solver); if `c` is an integer
cocycle, this row has norm 1, and with any other ball containing the data point it would be multiplied by a complex number of
modulus 1.  If the check is on and `c` is not an integer cocycle, the call raises `NameError` (as long as the number of
quadruples of landmarks is at most `2 ^ 31`). -/
theorem C92_complex_projective_coordinates (x : DataInput) (hx : DescribesData x δ) (hr : RipserSpec ρ x.rows k δ p maxdim res)
    (argsort : List (Fl ℝ) → List ℕ) (ha : ArgsortSpec argsort) (hm : 2 ≤ maxdim) (hk : 0 < k) (hk' : k ≤ 2345)
    (hf : x.distanceMatrix = true → x.dtype = .float) (hp : 2 ≤ p) :
    ∃ o dgm coc σ, cpInit argsort res x k p maxdim = .ok o ∧ res.dgms[2]? = some dgm ∧ res.cocycles[2]? = some coc ∧
      PersistenceRanking dgm σ ∧
      ∀ (z j : ℕ) (b d : ℝ) (c₀ : List ZRow), σ[z]? = some j → dgm[j]? = some (.fin b, .fin d) → coc[j]? = some c₀ →
      ∃ c, ListsLift2 p res.idxPerm.toFinset c₀ c ∧
      ∀ (env : CPOracles) (fuel : ℕ) (history : List ProjArgs) (perc : ℝ) (std check : Bool) (bump : Fl ℝ → Fl ℝ → Fl ℝ)
        (mode : RedMode) (q : ℕ), k ≤ fuel → (if std then 2 * b else b) ≤ d → PositiveBump bump →
        mode ≠ .other → 1 ≤ q → q < k →
      ∀ r : ℝ, 2 * r = (1 - perc) * (if std then 2 * b else b) + perc * d →
      ((check = true → IsDataCocycle2 res.idxPerm.toFinset δ (2 * r) c) →
        ∃ X w V β ν, (cpGetCoordinates env fuel (cpHistory env fuel o history)
            ⟨.fin perc, .int z, q, bump, std, check, mode⟩).2 = .ok X ∧ X.rows = x.nPoints ∧ X.cols = q + 1 ∧
          IsBumpWeights res.idxPerm.toFinset x.nPoints δ r bump w ∧
          (∀ u v, ν v u = -ν u v) ∧
          (ExactLsq env.lsqr → ∀ g : ℕ → ℕ → ℝ, (∀ u ∈ res.idxPerm, ∀ v ∈ res.idxPerm, g v u = -g u v) →
            dataEnergy2 res.idxPerm.toFinset δ (2 * r) c ν ≤ dataEnergy2 res.idxPerm.toFinset δ (2 * r) c g) ∧
          ppca env.eigh fuel (dataClassMap res.idxPerm x.nPoints δ r
            (cpDataAssigned res.idxPerm.toFinset x.nPoints c ν w) β) q mode = .ok ⟨V, X⟩ ∧
          ∀ i < x.nPoints, (∃ u ∈ res.idxPerm, δ u i < r) → β i ∈ res.idxPerm ∧ δ (β i) i < r ∧
            (IsDataCocycle2 res.idxPerm.toFinset δ (2 * r) c → ∀ u ∈ res.idxPerm, δ u i < r →
              ∑ v ∈ res.idxPerm.toFinset, ‖cpDataAssigned res.idxPerm.toFinset x.nPoints c ν w u i v‖ ^ 2 = 1 ∧
              ∃ ζ : ℂ, ‖ζ‖ = 1 ∧ ∀ v ∈ res.idxPerm, cpDataAssigned res.idxPerm.toFinset x.nPoints c ν w u i v =
                ζ * cpDataAssigned res.idxPerm.toFinset x.nPoints c ν w (β i) i v)) ∧
      (check = true → ¬ IsDataCocycle2 res.idxPerm.toFinset δ (2 * r) c → Nat.choose k 4 ≤ 2 ^ 31 →
        (cpGetCoordinates env fuel (cpHistory env fuel o history)
          ⟨.fin perc, .int z, q, bump, std, check, mode⟩).2 = .error .nameError) := by
  obtain ⟨o, h1, h2, h3, h4, h5, h6, h7, wf, hfv, hT⟩ :=
    C88_complex_projective_constructor x hx hr argsort ha (by omega) hk hk' hf
  obtain ⟨dgm, coc, σ, g1, g2, g3, g4⟩ := stored_class_dim 2 x hr h6 (by omega) hm h7
  refine ⟨o, dgm, coc, σ, h1, g1, g2, g3, ?_⟩
  intro z j b d c₀ hz hpt hc₀
  obtain ⟨pt, c₁, s, e1, e2, e3, e4, e5, e6⟩ := g4 z j hz
  rw [hpt] at e1
  injection e1 with e1
  subst e1
  rw [hc₀] at e2
  injection e2 with e2
  subst e2
  have hlen : res.idxPerm.length = o.nLand := by rw [hr.count, h3]
  have hlk : res.idxPerm.length = k := hr.count
  have hval : ValidTriClass o (.int z) b d s := ⟨e3, fun r hr' => h3 ▸ (e4.1 r hr').1, e4.2⟩
  obtain ⟨v, hv⟩ := lift_dense hval (N := k) (D := 3) h3.le (by norm_num)
  have hlift := listsLift2_of_dense hr.nodup hp e6 (hlk.symm ▸ e4) (N := k) (D := 3) hlk.le (by norm_num) (v := v)
    (by rw [hlen, ← h2]; exact hv)
  refine ⟨_, hlift, ?_⟩
  intro env fuel history perc std check bump mode q hfuel hstart hb hmode hq1 hq2 r hr2
  rw [C85_complex_projective_history env fuel o hfv]
  have hsym : ∀ u ∈ res.idxPerm, ∀ v ∈ res.idxPerm, δ u v = δ v u := fun u hu v hv' =>
    hx.metric.symm u (hr.range u hu) v (hr.range v hv')
  have htri : LandmarkTriangle res.idxPerm.length o.dist o.distLandLand := h5.triangle
  have hland : ∀ l (h : l < res.idxPerm.length), ∀ m (h' : m < res.idxPerm.length),
      o.distLandLand l m = δ res.idxPerm[l] res.idxPerm[m] := h5.land
  have hdat : ∀ l (h : l < res.idxPerm.length), ∀ i < x.nPoints, o.dist l i = δ res.idxPerm[l] i := h5.data
  have hcoc := isDataCocycle2_iff (t := 2 * r) hr.nodup hsym hland (fun e => v.getD e 0)
  obtain ⟨v', hv', c1, c2⟩ := C84_complex_projective_returns env fuel o ⟨.fin perc, .int z, q, bump, std, check, mode⟩ wf b d perc
    s hval rfl hstart hb hmode q rfl hq1 (h3 ▸ hq2) (h3 ▸ hfuel) r hr2
  obtain rfl : v = v' := by
    rw [hT, hv] at hv'
    injection hv'
  rw [← hlen] at c1 c2
  constructor
  · intro hchk
    obtain ⟨X, k1, k2, k3, k4⟩ := c1 fun h => hcoc.1 (hchk h)
    obtain ⟨w, V, β, ν, hcov, hmin, -, hppca, -, hvec⟩ := C50_complex_projective_class_map wf hb k1 k2 e3 hv'
      (hlen ▸ htri)
    have hpart := hcov.part
    have hfirst := hcov.first
    obtain ⟨cov, hcov1, hcov2⟩ := hcov.weights
    rw [← hlen] at hpart hfirst hmin hppca hvec hcov1 hcov2
    rw [h4] at hppca hvec hcov1
    set w' : ℕ → ℕ → ℝ := fun u i => w (res.idxPerm.idxOf u) i with hw'
    set S := res.idxPerm.toFinset with hS
    have hcard : S.card = res.idxPerm.length := List.toFinset_card_of_nodup hr.nodup
    have hV : ∀ u i y, u ∈ res.idxPerm → y ∈ res.idxPerm → InBall res.idxPerm.length o.dist r (res.idxPerm.idxOf u) i →
        cpAssigned res.idxPerm.length x.nPoints o.distLandLand r w (fun e => v.getD e 0) ν (res.idxPerm.idxOf u) i
          (res.idxPerm.idxOf y) =
        cpDataAssigned S x.nPoints (pushCochain2 res.idxPerm fun e => v.getD e 0) (pushForm res.idxPerm ν) w' u i y := by
      intro u i y hu hy hball
      unfold cpAssigned cpDataAssigned
      rw [hcard, cpVector_data hr.nodup htri hpart _ ν hu hy hball]
    rw [classMapVia_eq_ball hr.nodup hdat (fun i hi => (hfirst i hi).1) hV] at hppca
    refine ⟨X, w', V, fun i => res.idxPerm.getD (β i) 0, pushForm res.idxPerm ν, k1, by rw [k3, h4], k4,
      isBumpWeights_of_cov hr.nodup (by rw [hlen]; exact wf.pos) wf.nonneg hdat hb hcov1 hcov2,
      fun u y => edgeVal_antisymm _ _ _, ?_, hppca, ?_⟩
    · intro hex g hg
      obtain ⟨ν', hν'⟩ := dataEnergy2_dense (δ := δ) (t := 2 * r) hr.nodup (pushCochain2 res.idxPerm fun e => v.getD e 0) g hg
      rw [hν', dataEnergy2_eq hr.nodup hsym hland, dataEnergy2_eq hr.nodup hsym hland]
      have := hmin hex ν'
      linarith
    · intro i hi hcovd
      have hball := (covered_data hr.nodup hdat hi).1 hcovd
      have hβ := (hfirst i hball).1
      have hβm : res.idxPerm.getD (β i) 0 ∈ res.idxPerm := by rw [getD_of_lt hβ.1]; exact List.getElem_mem _
      refine ⟨hβm, ?_, ?_⟩
      · simp only
        rw [getD_of_lt hβ.1, ← hdat _ hβ.1 i hi]; exact hβ.2
      · intro hc u hu hui
        have hui' := (inBall_data hr.nodup hdat hu hi).1 hui
        obtain ⟨n1, ζ, n2, n3⟩ := hvec (hcoc.1 hc) i _ hui'
        refine ⟨?_, ζ, n2, ?_⟩
        · rw [← n1, ← sum_landmarks hr.nodup]
          refine Finset.sum_congr rfl fun y hy => ?_
          rw [hV u i y hu (List.mem_toFinset.1 hy) hui']
        · intro y hy
          have := n3 _ (idxOf_lt hy)
          rw [hV u i y hu hy hui'] at this
          rw [this]
          have e := hV _ i y hβm hy (by rw [idxOf_getD hr.nodup hβ.1]; exact hβ)
          rw [idxOf_getD hr.nodup hβ.1] at e
          rw [e]
  · intro hch hc hbound
    refine c2 hch (fun h => hc (hcoc.2 h)) fun l hl1 hl2 => ?_
    have := tetra_count hl1 hl2
    rw [hlk] at this
    exact this.trans hbound

end

end Dreimac
