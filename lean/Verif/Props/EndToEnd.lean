import Verif.Props.Construct
import Verif.Props.ClassMap2

/-!
# C90–: several circular coordinates, and the other coordinates, from the data set
-/

namespace Dreimac

noncomputable section
variable {n k : ℕ} {δ : ℕ → ℕ → ℝ} {p : ℤ} {maxdim : ℕ} {res : RipserResult ℝ} {ρ : ℝ → ℝ}

/-- The numbers `z a`, `a < m`, select classes of ripser with finite lifetimes `[b a, d a)`, in the ranking `σ` of the diagram
`dgm` by persistence, whose arrays (in `coc`) list the cochains `ξ a`. -/
structure SelectsClasses (dgm : List (Fl ℝ × Fl ℝ)) (coc : List (List ZRow)) (σ : List ℕ) {m : ℕ} (z : Fin m → ℕ)
    (b d : Fin m → ℝ) (ξ : Fin m → ℕ → ℕ → ℤ) : Prop where
  select : ∀ a, ∃ j c, σ[z a]? = some j ∧ dgm[j]? = some (.fin (b a), .fin (d a)) ∧ coc[j]? = some c ∧ ListsCochain c (ξ a)

theorem radius_of_call {env : Oracles} {fuel : ℕ} {o : ToroObj} {cl : List Selected} {perc : ℝ} {std : Bool} {B Dt r : ℝ}
    (h : SelectedClasses o cl perc std B Dt r) {bump : Fl ℝ → Fl ℝ → Fl ℝ} {check : Bool} {coords : List (ℕ → Fl ℝ)}
    (hok : (getCoordinates env fuel o ⟨.fin perc, cl.map Selected.arg, bump, std, check⟩).2 = .ok coords) :
    (getCoordinates env fuel o ⟨.fin perc, cl.map Selected.arg, bump, std, check⟩).1.radius = some (.fin r, .fin (2 * r)) := by
  obtain ⟨sel, b', d', rad, h1, h2, h3, h4⟩ := getCoordinates_radius hok
  have h5 := h.support
  simp only [bind, Except.bind] at h5
  simp only at h1
  rw [h1] at h5
  simp only at h5
  rw [h2] at h5
  simp only [Except.ok.injEq, Prod.mk.injEq] at h5
  obtain ⟨rfl, rfl⟩ := h5
  obtain ⟨r', thr, hrad, hthr, hr2, -⟩ := (C24_cover_radius B Dt perc std).2 h.long
  simp only at h3
  rw [hrad] at h3
  injection h3 with h3
  subst h3
  rw [h4, ← hr2]
  obtain rfl : r' = r := by have := h.radius; linarith
  rfl

theorem pushCochain_sum {m : ℕ} (idx : List ℕ) (U : Fin m → ℤ) (c : Fin m → ℕ → ℤ) :
    pushCochain idx (fun e => ∑ a, U a * c a e) = fun u v => ∑ a, U a * pushCochain idx (c a) u v := by
  funext u v
  exact edgeVal_sum _ _ _ _

/-- **C90.** The whole of `ToroidalCoords(X, n_landmarks, prime = p).get_coordinates(perc, cocycle_idxs = [z 0, …], …)` for a data
set with distances `δ`: the constructor succeeds; for any selection of classes with finite lifetimes whose common lifetime
`[B, D)` is not empty and long enough, for the radius `r` prescribed by `perc`, and after any history of calls: if the call
returns, it returns one coordinate per selected class, and there are integer cocycles `c a` congruent to the selected classes
modulo `p` (those with values between `-p / 2` and `p / 2`, if they exist), potentials `f a` that minimise their energies (with an exact least squares solver) and a unimodular integer matrix
`U`, such that the `q`-th coordinate is the circular coordinate of `∑ a, U q a * c a` with potential `∑ a, U q a * f a`, all for
the same normalised bump weights. -/
theorem C90_toroidal_coordinates (x : DataInput) (hx : DescribesData x δ) (hr : RipserSpec ρ x.rows k δ p maxdim res)
    (argsort : List (Fl ℝ) → List ℕ) (ha : ArgsortSpec argsort) (hm : 1 ≤ maxdim) (hk : 0 < k) (hk' : k ≤ 2345)
    (hf : x.distanceMatrix = true → x.dtype = .float) (hp : 0 < p) :
    ∃ o dgm coc σ, toroInit argsort res x k p maxdim = .ok o ∧ res.dgms[1]? = some dgm ∧ res.cocycles[1]? = some coc ∧
      PersistenceRanking dgm σ ∧
      ∀ (m : ℕ) (z : Fin m → ℕ) (b d : Fin m → ℝ) (ξ : Fin m → ℕ → ℕ → ℤ), SelectsClasses dgm coc σ z b d ξ →
      ∀ (env : Oracles) (ε τ : ℝ), 0 ≤ τ → 3 * ε + τ < 1 → SolverSound env.milp ε τ →
      ∀ (fuel : ℕ) (history : List (ℕ × Args)) (perc : ℝ) (std : Bool) (bump : Fl ℝ → Fl ℝ → Fl ℝ),
      PositiveBump bump → ∀ B D r : ℝ, IsGreatest (Set.range b) B → IsLeast (Set.range d) D → B < D →
      (if std then 2 * B else B) ≤ D → 2 * r = (1 - perc) * (if std then 2 * B else B) + perc * D → BelowDeath ρ (2 * r) D →
      ∀ coords, (getCoordinates env fuel (afterCalls env o history)
          ⟨.fin perc, List.ofFn fun a => .int (z a), bump, std, true⟩).2 = .ok coords →
        ∃ (θ : Fin m → ℕ → Fl ℝ) (w : ℕ → ℕ → ℝ) (c : Fin m → ℕ → ℕ → ℤ) (f : Fin m → ℕ → ℝ) (U : Matrix (Fin m) (Fin m) ℤ),
          coords = List.ofFn θ ∧ (U.det = 1 ∨ U.det = -1) ∧
          (∀ a, IsIntegerLift p res.idxPerm.toFinset δ (2 * r) (ξ a) (c a) ∧
            IsSmallestLift p res.idxPerm.toFinset δ (2 * r) (ξ a) (c a)) ∧ (m = 1 → U = 1) ∧
          IsBumpWeights res.idxPerm.toFinset x.nPoints δ r bump w ∧
          (ExactLsq env.lsqr → ∀ a g, dataEnergy res.idxPerm.toFinset δ (2 * r) (c a) (f a) ≤
            dataEnergy res.idxPerm.toFinset δ (2 * r) (c a) g) ∧
          ∀ q, IsDataCoordinate res.idxPerm.toFinset x.nPoints δ r w (fun u v => ∑ a, U q a * c a u v)
            (fun u => ∑ a, U q a * f a u) (θ q) := by
  obtain ⟨o, h1, h2, h3, h4, h5, h6, h7, wf, hv, hT⟩ := C88_toroidal_constructor x hx hr argsort ha hm hk (by omega) hf
  obtain ⟨dgm, coc, σ, g1, g2, g3, g4⟩ := stored_class x hr h6 hm h7
  refine ⟨o, dgm, coc, σ, h1, g1, g2, g3, ?_⟩
  intro m z b d ξ hsel env ε τ hτ hετ hsound fuel history perc std bump hb B D r hB hD hBD hstart hr2 hbel coords hok
  rw [(C08_repeatable env o hv history fuel _).1] at hok
  have hlen : res.idxPerm.length = o.nLand := by rw [hr.count, h3]
  -- the selected classes in terms of the object
  have hcls : ∀ a, ∃ s, repr1 o (.int (z a)) = .ok (.fin (b a), .fin (d a), s) ∧ ValidArray p k 1 s ∧ b a < d a ∧
      (∀ u v, ξ a v u = -ξ a u v) ∧ RepresentsPairs s (pullCochain res.idxPerm (ξ a)) ∧
      ∀ t, BelowDeath ρ t (d a) → CocycleModOn p res.idxPerm δ t (ξ a) := by
    intro a
    obtain ⟨j, c₀, e1, e2, e3, e4⟩ := hsel.select a
    obtain ⟨pt, c₁, s, ξ', f1, f2, f3, f4, f5, f6, f7, f8⟩ := g4 (z a) j e1
    rw [e2] at f1
    injection f1 with f1
    subst f1
    rw [e3] at f2
    injection f2 with f2
    subst f2
    obtain rfl := f6.unique e4
    refine ⟨s, f3, f4, ?_, e4.antisymm, f7, fun t ht => f8 t (Or.inl ⟨d a, rfl, ht⟩)⟩
    obtain ⟨b', q1, q2⟩ := f5
    simp only [Fl.fin.injEq] at q1
    rcases q2 with ⟨d', q3, q4⟩ | q3
    · simp only [Fl.fin.injEq] at q3; rw [q1, q3]; exact q4
    · simp at q3
  choose s s1 s2 s3 s4 s5 s6 using hcls
  have hval : ∀ a, ValidClass o (.int (z a)) (b a) (d a) (s a) := fun a =>
    ⟨s1 a, fun r hr' => h3 ▸ ((s2 a).1 r hr').1, (s2 a).2, s3 a⟩
  set cl : List Selected := List.ofFn fun a => ⟨.int (z a), b a, d a, s a⟩ with hcl
  have hargs : (List.ofFn fun a => ClassArg.int (z a)) = cl.map Selected.arg := by
    rw [hcl, List.map_ofFn]; rfl
  have hS : SelectedClasses o cl perc std B D r := by
    refine ⟨?_, ?_, ?_, hBD, hstart, hr2⟩
    · intro y hy
      rw [hcl, List.mem_ofFn] at hy
      obtain ⟨a, rfl⟩ := hy
      exact hval a
    · convert hB using 1
      ext y
      simp only [hcl, List.mem_ofFn, Set.mem_range]
      constructor
      · rintro ⟨_, ⟨a, rfl⟩, rfl⟩; exact ⟨a, rfl⟩
      · rintro ⟨a, rfl⟩; exact ⟨_, ⟨a, rfl⟩, rfl⟩
    · convert hD using 1
      ext y
      simp only [hcl, List.mem_ofFn, Set.mem_range]
      constructor
      · rintro ⟨_, ⟨a, rfl⟩, rfl⟩; exact ⟨a, rfl⟩
      · rintro ⟨a, rfl⟩; exact ⟨_, ⟨a, rfl⟩, rfl⟩
  have hthr : ∀ a, BelowDeath ρ (2 * r) (d a) := fun a y hy => (hbel y hy).trans_le (hD.2 ⟨a, rfl⟩)
  have hrad : (getCoordinates env fuel o ⟨.fin perc, List.ofFn fun a => .int (z a), bump, std, true⟩).1.radius =
      some (.fin r, .fin (2 * r)) := by
    rw [hargs] at hok ⊢
    exact radius_of_call hS hok
  have hsym : ∀ u ∈ res.idxPerm, ∀ v ∈ res.idxPerm, δ u v = δ v u := fun u hu v hv' =>
    hx.metric.symm u (hr.range u hu) v (hr.range v hv')
  have hland : ∀ l (h : l < res.idxPerm.length), ∀ m (h' : m < res.idxPerm.length),
      o.distLandLand l m = δ res.idxPerm[l] res.idxPerm[m] := h5.land
  have hdense : ∀ a, ∃ u, sparseCocycleToVector 1 (s a) o.table o.nLand = .ok u ∧
      ∀ l m, l < m → m < res.idxPerm.length → u.getD (edgeIdx l m) 0 = pullCochain res.idxPerm (ξ a) l m := by
    intro a
    obtain ⟨u, hu1, -, hu2⟩ := dense_eq (k := o.nLand) (N := k) (D := 2) h3.le (by omega) (hval a).edges (hval a).distinct (s5 a)
    rw [← hT] at hu1
    exact ⟨u, hu1, fun l m h h' => hu2 l m h (hlen ▸ h')⟩
  choose u hu1 hu2 using hdense
  have hmod : ∀ a, IsCocycle1Mod o.prime o.nLand o.distLandLand (2 * r) (fun e => (u a).getD e 0) := by
    intro a
    rw [h2, ← hlen]
    exact isCocycle1Mod_of_data (u := fun e => (u a).getD e 0) hland (hu2 a) (s6 a _ (hthr a))
  have hch : CheckedCall env o ⟨.fin perc, List.ofFn fun a => .int (z a), bump, std, true⟩ :=
    ⟨rfl, h2 ▸ hp, h3 ▸ hk', ε, τ, hτ, hετ, hsound⟩
  have hst : StoredCocycles o ⟨.fin perc, List.ofFn fun a => .int (z a), bump, std, true⟩ r := by
    intro y hy b' d' s' hs'
    simp only [List.mem_ofFn] at hy
    obtain ⟨a, rfl⟩ := hy
    rw [s1 a] at hs'
    simp only [Except.ok.injEq, Prod.mk.injEq] at hs'
    obtain ⟨-, -, rfl⟩ := hs'
    exact ⟨u a, hu1 a, hmod a⟩
  have htri : LandmarkTriangle o.nLand o.dist o.distLandLand := hlen ▸ h5.triangle
  obtain ⟨m', w, c, U, f, θ, hdata, hco, hcl', hkk⟩ := C35_represents_classes wf hv hb hok hrad hst hch htri
  have hm1 : m' = m := by simpa using hdata.len.symm
  subst hm1
  obtain ⟨cov, hcov, hw⟩ := hdata.weights
  have hdat : ∀ l (h : l < res.idxPerm.length), ∀ i < x.nPoints, o.dist l i = δ res.idxPerm[l] i := h5.data
  rw [h4] at hcov
  rw [← hlen] at hcov hw
  refine ⟨θ, fun u i => w (res.idxPerm.idxOf u) i, fun a => pushCochain res.idxPerm (c a),
    fun a u => f a (res.idxPerm.idxOf u), U, hco, hdata.unimodular, ?_, hdata.single, ?_, ?_, ?_⟩
  · intro a
    refine ⟨?_, ?_⟩
    case refine_2 =>
      obtain ⟨y, b'', d'', s'', vv, t1, t2, t3, t4, t5⟩ := hdata.classes a
      have hy : y = .int (z a) := by
        simp only [List.getElem?_ofFn, a.isLt, dif_pos, Option.some.injEq] at t1
        exact t1.symm
      subst hy
      rw [s1 a] at t2
      simp only [Except.ok.injEq, Prod.mk.injEq] at t2
      obtain ⟨-, -, rfl⟩ := t2
      obtain ⟨vv', t6, t7⟩ := dense_lift (p := o.prime) (hu1 a)
      rw [t6] at t3
      injection t3 with t3
      subst t3
      rw [h2] at t6 t7
      rw [← hlen] at t5
      exact isSmallestLift_of_dense hr.nodup hland (hu2 a) t7 (lifted_bound (fun r hr' => ((s2 a).1 r hr').2) hp t6)
        (fun h => t5 (Or.inr h))
    obtain ⟨y, b', d', s', u', q1, q2, q3, q4⟩ := hcl' a
    have hy : y = .int (z a) := by
      simp only [List.getElem?_ofFn, a.isLt, dif_pos, Option.some.injEq] at q1
      exact q1.symm
    subst hy
    rw [s1 a] at q2
    simp only [Except.ok.injEq, Prod.mk.injEq] at q2
    obtain ⟨-, -, rfl⟩ := q2
    rw [hu1 a] at q3
    injection q3 with q3
    subst q3
    rw [h2, ← hlen] at q4
    exact isIntegerLift_of_dense hr.nodup hsym hland (s4 a) (hu2 a) q4
  · exact isBumpWeights_of_cov hr.nodup (by rw [hlen]; exact wf.pos) wf.nonneg hdat hb hcov hw
  · intro hexact a g
    have hmin := hdata.minimal hexact a (fun l => g (res.idxPerm.getD l 0))
    rw [← hlen] at hmin
    have hf' := dataEnergy_eq hr.nodup hsym hland (r := r) (c := c a) (f := f a)
    rw [hf', dataEnergy_getD]
    have hg' := dataEnergy_eq hr.nodup hsym hland (r := r) (c := c a) (f := fun l => g (res.idxPerm.getD l 0))
    rw [hg']
    linarith
  · intro q
    have hkq := hkk q
    rw [← pushCochain_sum]
    refine isDataCoordinate_of_glued hr.nodup hdat (f := fun l => ∑ a, (U q a : ℝ) * f a l) ?_ ?_ ?_
    · intro i
      rw [hlen]
      refine C29_coordinates wf hv hb hok hrad (θ q) ?_ i
      rw [hco, List.mem_ofFn]
      exact ⟨q, rfl⟩
    · intro i l hl
      rw [hlen] at hl ⊢
      exact hkq.1 i l hl
    · intro i l m hl hm'
      rw [hlen] at hl hm' ⊢
      rw [hkq.2 i l m hl hm', edgeVal_sum]

/-! ### lens and projective coordinates -/

/-- The array with one row per data point and one column per landmark (a list of data points), whose row `i` is the vector
`vec (β i) i`, computed with the ball of the landmark `β i`; data points in no ball have rows of `nan`. -/
def dataClassMap {𝕜 : Type} (idx : List ℕ) (N : ℕ) (δ : ℕ → ℕ → ℝ) (r : ℝ) (vec : ℕ → ℕ → ℕ → 𝕜) (β : ℕ → ℕ) : Arr 𝕜 :=
  ⟨N, idx.length, fun i m =>
    if i < N ∧ m < idx.length ∧ ∃ u ∈ idx, δ u i < r then some (vec (β i) i (idx.getD m 0)) else none⟩

theorem inBall_data {idx : List ℕ} {N : ℕ} {dist : ℕ → ℕ → ℝ} {r : ℝ} (hnd : idx.Nodup)
    (hdata : ∀ l (h : l < idx.length), ∀ i < N, dist l i = δ idx[l] i) {u i : ℕ} (hu : u ∈ idx) (hi : i < N) :
    δ u i < r ↔ InBall idx.length dist r (idx.idxOf u) i := by
  unfold InBall
  rw [hdata _ (idxOf_lt hu) i hi, getElem_idxOf' hu]
  exact ⟨fun h => ⟨idxOf_lt hu, h⟩, fun h => h.2⟩

theorem covered_data {idx : List ℕ} {N : ℕ} {dist : ℕ → ℕ → ℝ} {r : ℝ} (hnd : idx.Nodup)
    (hdata : ∀ l (h : l < idx.length), ∀ i < N, dist l i = δ idx[l] i) {i : ℕ} (hi : i < N) :
    (∃ u ∈ idx, δ u i < r) ↔ ∃ l, InBall idx.length dist r l i := by
  constructor
  · rintro ⟨u, hu, h⟩
    exact ⟨_, (inBall_data hnd hdata hu hi).1 h⟩
  · rintro ⟨l, hl, h⟩
    exact ⟨idx[l], List.getElem_mem _, by rw [← hdata l hl i hi]; exact h⟩

theorem classMapVia_eq {𝕜 : Type} {idx : List ℕ} {N : ℕ} {dist : ℕ → ℕ → ℝ} {r : ℝ} (hnd : idx.Nodup)
    (hdata : ∀ l (h : l < idx.length), ∀ i < N, dist l i = δ idx[l] i) {vec vec' : ℕ → ℕ → ℕ → 𝕜} {β : ℕ → ℕ}
    (hβ : ∀ i, (∃ l, InBall idx.length dist r l i) → β i < idx.length)
    (hvec : ∀ l i m, l < idx.length → m < idx.length → vec l i m = vec' (idx.getD l 0) i (idx.getD m 0)) :
    classMapVia idx.length N dist r vec β = dataClassMap idx N δ r vec' (fun i => idx.getD (β i) 0) := by
  unfold classMapVia dataClassMap
  congr 1
  funext i m
  by_cases h : i < N ∧ m < idx.length ∧ ∃ l, InBall idx.length dist r l i
  · rw [if_pos h, if_pos ⟨h.1, h.2.1, (covered_data hnd hdata h.1).2 h.2.2⟩, hvec _ _ _ (hβ i h.2.2) h.2.1]
  · rw [if_neg h, if_neg]
    rintro ⟨h1, h2, h3⟩
    exact h ⟨h1, h2, (covered_data hnd hdata h1).1 h3⟩

theorem pairCocycleMod_of_data {idx : List ℕ} {dll : ℕ → ℕ → ℝ} {t : ℝ}
    (hland : ∀ l (h : l < idx.length), ∀ m (h' : m < idx.length), dll l m = δ idx[l] idx[m])
    {ξ : ℕ → ℕ → ℤ} (hc : CocycleModOn p idx δ t ξ) : PairCocycleMod p idx.length dll t (pullCochain idx ξ) := by
  rintro i j q ⟨⟨e1, e2, e3⟩, ⟨e4, e5, e6⟩, ⟨e7, e8, e9⟩⟩
  unfold pullCochain
  rw [if_pos ⟨by omega, by omega⟩, if_pos ⟨by omega, by omega⟩, if_pos ⟨by omega, by omega⟩,
    getD_of_lt (show i < _ by omega), getD_of_lt e2, getD_of_lt e5]
  rw [hland _ (by omega) _ (by omega)] at e3 e6 e9
  exact hc _ (List.getElem_mem _) _ (List.getElem_mem _) _ (List.getElem_mem _) e3 e6 e9

theorem idxOf_getD {idx : List ℕ} (hnd : idx.Nodup) {l : ℕ} (h : l < idx.length) : idx.idxOf (idx.getD l 0) = l := by
  rw [getD_of_lt h]
  exact hnd.idxOf_getElem l h

/-- **C91 (lens).** The whole of `LensCoords(X, n_landmarks, prime = p).get_coordinates(perc, cocycle_idx = z, complex_dim = q, …)`
for a data set with distances `δ`, with `2 ≤ q ≤ n_landmarks`: the constructor succeeds; if ripser's class number `j` is the
`z`-th most persistent one, is alive on `[b, d)`, its cocycle lists the values `ξ`, and its lifetime is long enough, then, after
any history of calls, for the radius `r` prescribed by `perc`, the call returns an array with one row per data point and `q`
columns, which is the dimensionality reduction of the array whose row `i`, for a data point `i` in the ball of the landmark
`u = β i`, has the entry `√(w v i) * exp(2πi ξ(u, v) / p)` for the landmark `v`, where `w` are the normalised bump weights.
This row has norm 1, and with any other ball containing the data point it would be multiplied by a `p`-th root of unity. -/
theorem C91_lens_coordinates (x : DataInput) (hx : DescribesData x δ) (hr : RipserSpec ρ x.rows k δ p maxdim res)
    (argsort : List (Fl ℝ) → List ℕ) (ha : ArgsortSpec argsort) (hm : 1 ≤ maxdim) (hk : 0 < k)
    (hf : x.distanceMatrix = true → x.dtype = .float) (hp : 0 < p) :
    ∃ o dgm coc σ, lensInit argsort res x p maxdim = .ok o ∧ res.dgms[1]? = some dgm ∧ res.cocycles[1]? = some coc ∧
      PersistenceRanking dgm σ ∧
      ∀ (z j : ℕ) (b d : ℝ) (c₀ : List ZRow), σ[z]? = some j → dgm[j]? = some (.fin b, .fin d) → coc[j]? = some c₀ →
      ∃ ξ, ListsCochain c₀ ξ ∧
      ∀ (eigh : Eigh ℂ) (fuel : ℕ) (history : List ProjArgs) (perc : ℝ) (std check : Bool) (bump : Fl ℝ → Fl ℝ → Fl ℝ)
        (mode : RedMode) (q : ℕ), k ≤ fuel → (if std then 2 * b else b) ≤ d → PositiveBump bump →
        mode ≠ .other → 2 ≤ q → q ≤ k →
      ∀ r : ℝ, 2 * r = (1 - perc) * (if std then 2 * b else b) + perc * d → BelowDeath ρ (2 * r) d →
      ∃ X w V β, (lensGetCoordinates eigh fuel (lensHistory eigh fuel o history)
          ⟨.fin perc, .int z, q, bump, std, check, mode⟩).2 = .ok X ∧ X.rows = x.nPoints ∧ X.cols = q ∧
        IsBumpWeights res.idxPerm.toFinset x.nPoints δ r bump w ∧
        ppca eigh fuel (dataClassMap res.idxPerm x.nPoints δ r (lensVector p ξ w) β) (q - 1) mode = .ok ⟨V, X⟩ ∧
        ∀ i < x.nPoints, (∃ u ∈ res.idxPerm, δ u i < r) → β i ∈ res.idxPerm ∧ δ (β i) i < r ∧
          ∀ u ∈ res.idxPerm, δ u i < r → ∑ v ∈ res.idxPerm.toFinset, ‖lensVector p ξ w u i v‖ ^ 2 = 1 ∧
            ∃ ζ : ℂ, ζ ^ p = 1 ∧ ∀ v ∈ res.idxPerm, lensVector p ξ w u i v = ζ * lensVector p ξ w (β i) i v := by
  obtain ⟨o, h1, h2, h3, h4, h5, h6, h7, wf⟩ := C88_lens_constructor x hx hr argsort ha hm hk hf
  obtain ⟨dgm, coc, σ, g1, g2, g3, g4⟩ := stored_class x hr h6 hm h7
  refine ⟨o, dgm, coc, σ, h1, g1, g2, g3, ?_⟩
  intro z j b d c₀ hz hpt hc₀
  obtain ⟨pt, c₁, s, ξ, e1, e2, e3, e4, e5, e6, e7, e8⟩ := g4 z j hz
  rw [hpt] at e1
  injection e1 with e1
  subst e1
  rw [hc₀] at e2
  injection e2 with e2
  subst e2
  refine ⟨ξ, e6, ?_⟩
  intro eigh fuel history perc std check bump mode q hfuel hstart hb hmode hq1 hq2 r hr2 hbel
  have hlen : res.idxPerm.length = o.nLand := by rw [hr.count, h3]
  rw [C85_lens_history]
  have hvp : ValidPairClass o (.int z) b d s := by
    refine ⟨e3, fun r hr' => ?_⟩
    obtain ⟨q1, q2, q3⟩ := (e4.1 r hr').1
    rw [h3]
    match hv : r.verts, q1 with
    | [l, m], _ => exact ⟨l, m, rfl, q3 l (by simp [hv]), q3 m (by simp [hv])⟩
  obtain ⟨X, r', c1, c2, c3, c4, c5⟩ := C84_lens_returns eigh fuel o ⟨.fin perc, .int z, q, bump, std, check, mode⟩ wf b d perc s
    hvp rfl hstart hb hmode q rfl hq1 (h3 ▸ hq2) (h3 ▸ hfuel)
  simp only at c3
  obtain rfl : r' = r := by linarith
  have htri : LandmarkTriangle o.nLand o.dist o.distLandLand := hlen ▸ h5.triangle
  have hland : ∀ l (h : l < res.idxPerm.length), ∀ m (h' : m < res.idxPerm.length),
      o.distLandLand l m = δ res.idxPerm[l] res.idxPerm[m] := h5.land
  have hdat : ∀ l (h : l < res.idxPerm.length), ∀ i < x.nPoints, o.dist l i = δ res.idxPerm[l] i := h5.data
  have hbefore : BeforeDeath ρ (.fin b, .fin d) (2 * r') := Or.inl ⟨d, rfl, hbel⟩
  have hmod : PairCocycleMod o.prime o.nLand o.distLandLand (2 * r') (pullCochain res.idxPerm ξ) := by
    rw [h2, ← hlen]
    exact pairCocycleMod_of_data hland (e8 _ hbefore)
  obtain ⟨w, V, β, hcov, hppca, -, hvec⟩ := C48_lens_class_map wf (h2 ▸ hp) hb c1 c2 e3 e7 htri hmod
  set w' : ℕ → ℕ → ℝ := fun u i => w (res.idxPerm.idxOf u) i with hw'
  have hV : ∀ l i m, l < res.idxPerm.length → m < res.idxPerm.length → lensVector p (pullCochain res.idxPerm ξ) w l i m =
      lensVector p ξ w' (res.idxPerm.getD l 0) i (res.idxPerm.getD m 0) := by
    intro l i m hl hm'
    unfold lensVector pullCochain
    rw [if_pos ⟨hl, hm'⟩, hw']
    simp only
    rw [idxOf_getD hr.nodup hm']
  rw [← hlen, h4, h2] at hppca
  rw [← hlen, h2] at hvec
  have hfirst := hcov.first
  rw [← hlen] at hfirst
  rw [classMapVia_eq (vec' := lensVector p ξ w') hr.nodup hdat (fun i hi => (hfirst i hi).1.1) hV] at hppca
  obtain ⟨cov, hcov1, hcov2⟩ := hcov.weights
  rw [h4, ← hlen] at hcov1
  rw [← hlen] at hcov2
  refine ⟨X, w', V, fun i => res.idxPerm.getD (β i) 0, c1, by rw [c4, h4], c5,
    isBumpWeights_of_cov hr.nodup (by rw [hlen]; exact wf.pos) wf.nonneg hdat hb hcov1 hcov2, hppca, ?_⟩
  intro i hi hcovd
  have hball := (covered_data hr.nodup hdat hi).1 hcovd
  have hβ := hfirst i hball
  have hβl : β i < res.idxPerm.length := hβ.1.1
  refine ⟨?_, ?_, ?_⟩
  · simp only
    rw [getD_of_lt hβl]; exact List.getElem_mem _
  · simp only
    rw [getD_of_lt hβl, ← hdat _ hβl i hi]; exact hβ.1.2
  · intro u hu hui
    have hui' := (inBall_data hr.nodup hdat hu hi).1 hui
    obtain ⟨n1, ζ, n2, n3⟩ := hvec i _ hui'
    have hu' : res.idxPerm.getD (res.idxPerm.idxOf u) 0 = u := by rw [getD_of_lt (idxOf_lt hu), getElem_idxOf' hu]
    refine ⟨?_, ζ, n2, ?_⟩
    · rw [← n1, ← sum_landmarks hr.nodup
        (fun m => ‖lensVector p (pullCochain res.idxPerm ξ) w (res.idxPerm.idxOf u) i m‖ ^ 2)]
      refine Finset.sum_congr rfl fun v hv => ?_
      have hv := List.mem_toFinset.1 hv
      have hv' : res.idxPerm.getD (res.idxPerm.idxOf v) 0 = v := by rw [getD_of_lt (idxOf_lt hv), getElem_idxOf' hv]
      rw [hV _ i _ (idxOf_lt hu) (idxOf_lt hv), hu', hv']
    · intro v hv
      have hv' : res.idxPerm.getD (res.idxPerm.idxOf v) 0 = v := by rw [getD_of_lt (idxOf_lt hv), getElem_idxOf' hv]
      have := n3 _ (idxOf_lt hv)
      rw [hV _ i _ (idxOf_lt hu) (idxOf_lt hv), hV _ i _ hβl (idxOf_lt hv), hu', hv'] at this
      exact this

/-- **C91 (projective).** The whole of `ProjectiveCoords(X, n_landmarks).get_coordinates(perc, cocycle_idx = z, proj_dim = q, …)`
for a data set with distances `δ`, with `1 ≤ q < n_landmarks`: the constructor succeeds; if ripser's class number `j` is the
`z`-th most persistent one, is alive on `[b, d)`, its cocycle lists the values `ξ`, and its lifetime is long enough, then, after
any history of calls, for the radius `r` prescribed by `perc`, the call returns an array with one row per data point and `q + 1`
columns, which is the dimensionality reduction of the array whose row `i`, for a data point `i` in the ball of the landmark
`u = β i`, has the entry `√(w v i) * (-1) ^ ξ(u, v)` for the landmark `v`, where `w` are the normalised bump weights.
This row has norm 1, and with any other ball containing the data point it would change at most its sign. -/
theorem C91_projective_coordinates (x : DataInput) (hx : DescribesData x δ) (hr : RipserSpec ρ x.rows k δ 2 maxdim res)
    (argsort : List (Fl ℝ) → List ℕ) (ha : ArgsortSpec argsort) (hm : 1 ≤ maxdim) (hk : 0 < k)
    (hf : x.distanceMatrix = true → x.dtype = .float) :
    ∃ o dgm coc σ, projInit argsort res x maxdim = .ok o ∧ res.dgms[1]? = some dgm ∧ res.cocycles[1]? = some coc ∧
      PersistenceRanking dgm σ ∧
      ∀ (z j : ℕ) (b d : ℝ) (c₀ : List ZRow), σ[z]? = some j → dgm[j]? = some (.fin b, .fin d) → coc[j]? = some c₀ →
      ∃ ξ, ListsCochain c₀ ξ ∧
      ∀ (eigh : Eigh ℝ) (fuel : ℕ) (history : List ProjArgs) (perc : ℝ) (std check : Bool) (bump : Fl ℝ → Fl ℝ → Fl ℝ)
        (mode : RedMode) (q : ℕ), k ≤ fuel → (if std then 2 * b else b) ≤ d → PositiveBump bump →
        mode ≠ .other → 1 ≤ q → q < k →
      ∀ r : ℝ, 2 * r = (1 - perc) * (if std then 2 * b else b) + perc * d → BelowDeath ρ (2 * r) d →
      ∃ X w V β, (projGetCoordinates eigh fuel (projHistory eigh fuel o history)
          ⟨.fin perc, .int z, q, bump, std, check, mode⟩).2 = .ok X ∧ X.rows = x.nPoints ∧ X.cols = q + 1 ∧
        IsBumpWeights res.idxPerm.toFinset x.nPoints δ r bump w ∧
        ppca eigh fuel (dataClassMap res.idxPerm x.nPoints δ r (signVector ξ w) β) q mode = .ok ⟨V, X⟩ ∧
        ∀ i < x.nPoints, (∃ u ∈ res.idxPerm, δ u i < r) → β i ∈ res.idxPerm ∧ δ (β i) i < r ∧
          ∀ u ∈ res.idxPerm, δ u i < r → ∑ v ∈ res.idxPerm.toFinset, (signVector ξ w u i v) ^ 2 = 1 ∧
            ((∀ v ∈ res.idxPerm, signVector ξ w u i v = signVector ξ w (β i) i v) ∨
              ∀ v ∈ res.idxPerm, signVector ξ w u i v = -signVector ξ w (β i) i v) := by
  obtain ⟨o, h1, h2, h3, h4, h5, h6, h7, wf⟩ := C88_projective_constructor x hx hr argsort ha hm hk hf
  obtain ⟨dgm, coc, σ, g1, g2, g3, g4⟩ := stored_class x hr h6 hm h7
  refine ⟨o, dgm, coc, σ, h1, g1, g2, g3, ?_⟩
  intro z j b d c₀ hz hpt hc₀
  obtain ⟨pt, c₁, s, ξ, e1, e2, e3, e4, e5, e6, e7, e8⟩ := g4 z j hz
  rw [hpt] at e1
  injection e1 with e1
  subst e1
  rw [hc₀] at e2
  injection e2 with e2
  subst e2
  refine ⟨ξ, e6, ?_⟩
  intro eigh fuel history perc std check bump mode q hfuel hstart hb hmode hq1 hq2 r hr2 hbel
  have hlen : res.idxPerm.length = o.nLand := by rw [hr.count, h3]
  rw [C85_projective_history]
  have hvp : ValidPairClass o (.int z) b d s := by
    refine ⟨e3, fun r hr' => ?_⟩
    obtain ⟨q1, q2, q3⟩ := (e4.1 r hr').1
    rw [h3]
    match hv : r.verts, q1 with
    | [l, m], _ => exact ⟨l, m, rfl, q3 l (by simp [hv]), q3 m (by simp [hv])⟩
  obtain ⟨X, r', c1, c2, c3, c4, c5⟩ := C84_projective_returns eigh fuel o ⟨.fin perc, .int z, q, bump, std, check, mode⟩ wf b d perc s
    hvp (fun r hr' => ((e4.1 r hr').2.1)) rfl hstart hb hmode q rfl hq1 (h3 ▸ hq2) (h3 ▸ hfuel)
  simp only at c3
  obtain rfl : r' = r := by linarith
  have htri : LandmarkTriangle o.nLand o.dist o.distLandLand := hlen ▸ h5.triangle
  have hland : ∀ l (h : l < res.idxPerm.length), ∀ m (h' : m < res.idxPerm.length),
      o.distLandLand l m = δ res.idxPerm[l] res.idxPerm[m] := h5.land
  have hdat : ∀ l (h : l < res.idxPerm.length), ∀ i < x.nPoints, o.dist l i = δ res.idxPerm[l] i := h5.data
  have hbefore : BeforeDeath ρ (.fin b, .fin d) (2 * r') := Or.inl ⟨d, rfl, hbel⟩
  have hmod : PairCocycleMod 2 o.nLand o.distLandLand (2 * r') (pullCochain res.idxPerm ξ) := by
    rw [← hlen]
    exact pairCocycleMod_of_data hland (e8 _ hbefore)
  obtain ⟨w, V, β, hcov, hppca, -, hvec⟩ := C49_projective_class_map wf hb c1 c2 e3 e7 htri hmod
  set w' : ℕ → ℕ → ℝ := fun u i => w (res.idxPerm.idxOf u) i with hw'
  have hV : ∀ l i m, l < res.idxPerm.length → m < res.idxPerm.length → signVector (pullCochain res.idxPerm ξ) w l i m =
      signVector ξ w' (res.idxPerm.getD l 0) i (res.idxPerm.getD m 0) := by
    intro l i m hl hm'
    unfold signVector pullCochain
    rw [if_pos ⟨hl, hm'⟩, hw']
    simp only
    rw [idxOf_getD hr.nodup hm']
  rw [← hlen, h4] at hppca
  rw [← hlen] at hvec
  have hfirst := hcov.first
  rw [← hlen] at hfirst
  rw [classMapVia_eq (vec' := signVector ξ w') hr.nodup hdat (fun i hi => (hfirst i hi).1.1) hV] at hppca
  obtain ⟨cov, hcov1, hcov2⟩ := hcov.weights
  rw [h4, ← hlen] at hcov1
  rw [← hlen] at hcov2
  refine ⟨X, w', V, fun i => res.idxPerm.getD (β i) 0, c1, by rw [c4, h4], c5,
    isBumpWeights_of_cov hr.nodup (by rw [hlen]; exact wf.pos) wf.nonneg hdat hb hcov1 hcov2, hppca, ?_⟩
  intro i hi hcovd
  have hball := (covered_data hr.nodup hdat hi).1 hcovd
  have hβ := hfirst i hball
  have hβl : β i < res.idxPerm.length := hβ.1.1
  refine ⟨?_, ?_, ?_⟩
  · simp only
    rw [getD_of_lt hβl]; exact List.getElem_mem _
  · simp only
    rw [getD_of_lt hβl, ← hdat _ hβl i hi]; exact hβ.1.2
  · intro u hu hui
    have hui' := (inBall_data hr.nodup hdat hu hi).1 hui
    obtain ⟨n1, n3⟩ := hvec i _ hui'
    have hu' : res.idxPerm.getD (res.idxPerm.idxOf u) 0 = u := by rw [getD_of_lt (idxOf_lt hu), getElem_idxOf' hu]
    refine ⟨?_, n3.imp ?_ ?_⟩
    · rw [← n1, ← sum_landmarks hr.nodup
        (fun m => (signVector (pullCochain res.idxPerm ξ) w (res.idxPerm.idxOf u) i m) ^ 2)]
      refine Finset.sum_congr rfl fun v hv => ?_
      have hv := List.mem_toFinset.1 hv
      have hv' : res.idxPerm.getD (res.idxPerm.idxOf v) 0 = v := by rw [getD_of_lt (idxOf_lt hv), getElem_idxOf' hv]
      rw [hV _ i _ (idxOf_lt hu) (idxOf_lt hv), hu', hv']
    · intro n3 v hv
      have hv' : res.idxPerm.getD (res.idxPerm.idxOf v) 0 = v := by rw [getD_of_lt (idxOf_lt hv), getElem_idxOf' hv]
      have := n3 _ (idxOf_lt hv)
      rw [hV _ i _ (idxOf_lt hu) (idxOf_lt hv), hV _ i _ hβl (idxOf_lt hv), hu', hv'] at this
      exact this
    · intro n3 v hv
      have hv' : res.idxPerm.getD (res.idxPerm.idxOf v) 0 = v := by rw [getD_of_lt (idxOf_lt hv), getElem_idxOf' hv]
      have := n3 _ (idxOf_lt hv)
      rw [hV _ i _ (idxOf_lt hu) (idxOf_lt hv), hV _ i _ hβl (idxOf_lt hv), hu', hv'] at this
      exact this

end

end Dreimac
