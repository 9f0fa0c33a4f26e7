import Verif.Props.EndToEndWinding

/-!
# C129: winding numbers do not depend on the options
-/

namespace Dreimac

noncomputable section
variable {k : ℕ} {δ : ℕ → ℕ → ℝ} {p : ℤ} {maxdim : ℕ} {res : RipserResult ℝ} {ρ : ℝ → ℝ}

theorem IsIntegerLift.mono {S : Finset ℕ} {t t' : ℝ} {ξ c : ℕ → ℕ → ℤ} (h : IsIntegerLift p S δ t ξ c) (ht : t' ≤ t) :
    IsIntegerLift p S δ t' ξ c where
  congr := h.congr
  antisymm := h.antisymm
  cocycle u hu v hv w hw e1 e2 e3 := h.cocycle u hu v hv w hw (e1.trans_le ht) (e2.trans_le ht) (e3.trans_le ht)

theorem DataLoop.mono {S : Finset ℕ} {N : ℕ} {r r' : ℝ} {n : ℕ} {i l : ℕ → ℕ} (h : DataLoop S N δ r' n i l) (hr : r' ≤ r) :
    DataLoop S N δ r n i l where
  pos := h.pos
  closed_data := h.closed_data
  closed_land := h.closed_land
  data := h.data
  land := h.land
  here q hq := (h.here q hq).trans_le hr
  next q hq := (h.next q hq).trans_le hr

theorem pathValue_eq {S : Finset ℕ} {N : ℕ} {r : ℝ} {n : ℕ} {i l : ℕ → ℕ} (h : DataLoop S N δ r n i l) {c c' : ℕ → ℕ → ℤ}
    (hc : ∀ u ∈ S, ∀ v ∈ S, c u v = c' u v) : pathValue c n l = pathValue c' n l :=
  Finset.sum_congr rfl fun _ hq => hc _ (h.land_le (Finset.mem_range.1 hq).le).1 _ (h.land_le (Finset.mem_range.1 hq)).1

theorem dataEnergy_ofEq {S : Finset ℕ} {c c' : ℕ → ℕ → ℤ} (h : ∀ u ∈ S, ∀ v ∈ S, c u v = c' u v) (t : ℝ) (g : ℕ → ℝ) :
    dataEnergy S δ t c g = dataEnergy S δ t c' g := by
  unfold dataEnergy
  refine Finset.sum_congr rfl fun u hu => Finset.sum_congr rfl fun v hv => ?_
  rw [h u hu v hv]

/-- **C129 (one class).** Two calls of `CircularCoords.get_coordinates` for the same class on the same object, after any
histories of calls, with different percentages, ranges, bump functions and solvers. If the class is the reduction of an integer
cocycle `c`, at the larger of the two thresholds, with values smaller than half of the prime, then both coordinates turn equally
often, `c` on the path of landmarks, along every closed path of data points with small steps in the balls of the smaller
radius. -/
theorem C129_circular_options (x : DataInput) (hx : DescribesData x δ) (hr : RipserSpec ρ x.rows k δ p maxdim res)
    (argsort : List (Fl ℝ) → List ℕ) (ha : ArgsortSpec argsort) (hm : 1 ≤ maxdim) (hk : 0 < k) (hk' : k ≤ 2345)
    (hf : x.distanceMatrix = true → x.dtype = .float) (hp : 0 < p) :
    ∃ o dgm coc σ, toroInit argsort res x k p maxdim = .ok o ∧ res.dgms[1]? = some dgm ∧ res.cocycles[1]? = some coc ∧
      PersistenceRanking dgm σ ∧
      ∀ (z j : ℕ) (b d : ℝ) (c₀ : List ZRow), σ[z]? = some j → dgm[j]? = some (.fin b, .fin d) → coc[j]? = some c₀ →
      ∃ ξ, ListsCochain c₀ ξ ∧
      ∀ (env env' : Oracles) (ε τ ε' τ' : ℝ), 0 ≤ τ → 3 * ε + τ < 1 → SolverSound env.milp ε τ → SolverComplete env.milp →
        0 ≤ τ' → 3 * ε' + τ' < 1 → SolverSound env'.milp ε' τ' → SolverComplete env'.milp →
      ∀ (fuel fuel' : ℕ) (history history' : List (ℕ × Args)) (perc perc' : ℝ) (std std' : Bool) (bump bump' : Fl ℝ → Fl ℝ → Fl ℝ),
      (if std then 2 * b else b) ≤ d → (if std' then 2 * b else b) ≤ d → PositiveBump bump → PositiveBump bump' →
      ∀ r r' : ℝ, 2 * r = (1 - perc) * (if std then 2 * b else b) + perc * d →
        2 * r' = (1 - perc') * (if std' then 2 * b else b) + perc' * d → r' ≤ r → BelowDeath ρ (2 * r) d → BelowDeath ρ (2 * r') d →
      ∀ c, IsIntegerLift p res.idxPerm.toFinset δ (2 * r) ξ c →
        (∀ u ∈ res.idxPerm.toFinset, ∀ v ∈ res.idxPerm.toFinset, |2 * c u v| < p) →
        ∃ θ w f θ' w' f',
          (circularGetCoordinates env fuel (afterCalls env o history) (.fin perc) (.int z) bump std true).2 = .ok θ ∧
          (circularGetCoordinates env' fuel' (afterCalls env' o history') (.fin perc') (.int z) bump' std' true).2 = .ok θ' ∧
          IsBumpWeights res.idxPerm.toFinset x.nPoints δ r bump w ∧ IsBumpWeights res.idxPerm.toFinset x.nPoints δ r' bump' w' ∧
          (ExactLsq env.lsqr → ∀ g, dataEnergy res.idxPerm.toFinset δ (2 * r) c f ≤
            dataEnergy res.idxPerm.toFinset δ (2 * r) c g) ∧
          (ExactLsq env'.lsqr → ∀ g, dataEnergy res.idxPerm.toFinset δ (2 * r') c f' ≤
            dataEnergy res.idxPerm.toFinset δ (2 * r') c g) ∧
          ∀ (M M' : ℝ) (n : ℕ) (i l : ℕ → ℕ), FormBound res.idxPerm.toFinset δ (2 * r) c f M →
            FormBound res.idxPerm.toFinset δ (2 * r') c f' M' → DataLoop res.idxPerm.toFinset x.nPoints δ r' n i l →
            SmallSteps res.idxPerm.toFinset w M n i → SmallSteps res.idxPerm.toFinset w' M' n i →
            ∃ y y' : ℕ → ℝ, (∀ q ≤ n, θ (i q) = .fin (y q)) ∧ (∀ q ≤ n, θ' (i q) = .fin (y' q)) ∧
              turns n y = (pathValue c n l : ℝ) ∧ turns n y' = turns n y := by
  obtain ⟨o, dgm, coc, σ, h1, h2, h3, h4, h5⟩ := C111_circular_winding x hx hr argsort ha hm hk hk' hf hp
  refine ⟨o, dgm, coc, σ, h1, h2, h3, h4, ?_⟩
  intro z j b d c₀ e1 e2 e3
  obtain ⟨ξ, hξ, h6⟩ := h5 z j b d c₀ e1 e2 e3
  refine ⟨ξ, hξ, ?_⟩
  intro env env' ε τ ε' τ' a1 a2 a3 a4 a1' a2' a3' a4' fuel fuel' history history' perc perc' std std' bump bump' a7 a7' hb hb' r r' hr2
    hr2' hrr hbel hbel' c hc hsmall
  have hc' : IsIntegerLift p res.idxPerm.toFinset δ (2 * r') ξ c := hc.mono (by linarith)
  obtain ⟨θ, w, c₁, f, g1, g2, g3, g4, g5, g6⟩ := h6 env ε τ a1 a2 a3 a4 fuel history perc std bump a7 hb r hr2 hbel ⟨c, hc⟩
  obtain ⟨θ', w', c₂, f', g1', g2', g3', g4', g5', g6'⟩ := h6 env' ε' τ' a1' a2' a3' a4' fuel' history' perc' std' bump' a7' hb' r' hr2'
    hbel' ⟨c, hc'⟩
  have q1 := g3 c hc hsmall
  have q2 := g3' c hc' hsmall
  refine ⟨θ, w, f, θ', w', f', g1, g1', g4, g4', ?_, ?_, ?_⟩
  · intro h g
    have := g5 h g
    rwa [dataEnergy_ofEq q1, dataEnergy_ofEq q1] at this
  · intro h g
    have := g5' h g
    rwa [dataEnergy_ofEq q2, dataEnergy_ofEq q2] at this
  intro M M' n i l hM hM' hl hs hs'
  obtain ⟨y, y1, y2, -⟩ := g6 M n i l (fun u hu v hv huv => by rw [q1 u hu v hv]; exact hM u hu v hv huv) (hl.mono hrr) hs
  obtain ⟨y', y1', y2', -⟩ := g6' M' n i l (fun u hu v hv huv => by rw [q2 u hu v hv]; exact hM' u hu v hv huv) hl hs'
  refine ⟨y, y', y1, y1', ?_, ?_⟩
  · rw [y2, pathValue_eq hl q1]
  · rw [y2', y2, pathValue_eq hl q1, pathValue_eq hl q2]

/-- **C129 (several classes).** Two calls of `ToroidalCoords.get_coordinates` for the same classes on the same object with
different options (as above; the classes are reductions of integer cocycles `c a` with small values): there is a unimodular integer
matrix, the same for all closed paths of data points with small steps, which turns the numbers of turns of the coordinates of one call
into those of the other. -/
theorem C129_toroidal_options (x : DataInput) (hx : DescribesData x δ) (hr : RipserSpec ρ x.rows k δ p maxdim res)
    (argsort : List (Fl ℝ) → List ℕ) (ha : ArgsortSpec argsort) (hm : 1 ≤ maxdim) (hk : 0 < k) (hk' : k ≤ 2345)
    (hf : x.distanceMatrix = true → x.dtype = .float) (hp : 0 < p) :
    ∃ o dgm coc σ, toroInit argsort res x k p maxdim = .ok o ∧ res.dgms[1]? = some dgm ∧ res.cocycles[1]? = some coc ∧
      PersistenceRanking dgm σ ∧
      ∀ (m : ℕ) (z : Fin m → ℕ) (b d : Fin m → ℝ) (ξ : Fin m → ℕ → ℕ → ℤ), SelectsClasses dgm coc σ z b d ξ →
      ∀ (env env' : Oracles) (ε τ ε' τ' : ℝ), 0 ≤ τ → 3 * ε + τ < 1 → SolverSound env.milp ε τ →
        0 ≤ τ' → 3 * ε' + τ' < 1 → SolverSound env'.milp ε' τ' →
      ∀ (fuel fuel' : ℕ) (history history' : List (ℕ × Args)) (perc perc' : ℝ) (std std' : Bool) (bump bump' : Fl ℝ → Fl ℝ → Fl ℝ),
      PositiveBump bump → PositiveBump bump' → ∀ B D r r' : ℝ, IsGreatest (Set.range b) B → IsLeast (Set.range d) D → B < D →
      (if std then 2 * B else B) ≤ D → (if std' then 2 * B else B) ≤ D →
      2 * r = (1 - perc) * (if std then 2 * B else B) + perc * D → 2 * r' = (1 - perc') * (if std' then 2 * B else B) + perc' * D →
      r' ≤ r → BelowDeath ρ (2 * r) D → BelowDeath ρ (2 * r') D →
      ∀ c : Fin m → ℕ → ℕ → ℤ, (∀ a, IsIntegerLift p res.idxPerm.toFinset δ (2 * r) (ξ a) (c a) ∧
        ∀ u ∈ res.idxPerm.toFinset, ∀ v ∈ res.idxPerm.toFinset, |2 * c a u v| < p) →
      ∀ coords coords', (getCoordinates env fuel (afterCalls env o history)
          ⟨.fin perc, List.ofFn fun a => .int (z a), bump, std, true⟩).2 = .ok coords →
        (getCoordinates env' fuel' (afterCalls env' o history')
          ⟨.fin perc', List.ofFn fun a => .int (z a), bump', std', true⟩).2 = .ok coords' →
        ∃ (θ θ' : Fin m → ℕ → Fl ℝ) (w w' : ℕ → ℕ → ℝ) (f f' : Fin m → ℕ → ℝ) (U U' V : Matrix (Fin m) (Fin m) ℤ),
          coords = List.ofFn θ ∧ coords' = List.ofFn θ' ∧ (U.det = 1 ∨ U.det = -1) ∧ (U'.det = 1 ∨ U'.det = -1) ∧
          (V.det = 1 ∨ V.det = -1) ∧ (m = 1 → U = 1 ∧ U' = 1 ∧ V = 1) ∧
          IsBumpWeights res.idxPerm.toFinset x.nPoints δ r bump w ∧ IsBumpWeights res.idxPerm.toFinset x.nPoints δ r' bump' w' ∧
          (ExactLsq env.lsqr → ∀ a g, dataEnergy res.idxPerm.toFinset δ (2 * r) (c a) (f a) ≤
            dataEnergy res.idxPerm.toFinset δ (2 * r) (c a) g) ∧
          (ExactLsq env'.lsqr → ∀ a g, dataEnergy res.idxPerm.toFinset δ (2 * r') (c a) (f' a) ≤
            dataEnergy res.idxPerm.toFinset δ (2 * r') (c a) g) ∧
          ∀ (M M' : ℝ) (n : ℕ) (i l : ℕ → ℕ),
            (∀ q, FormBound res.idxPerm.toFinset δ (2 * r) (fun u v => ∑ a, U q a * c a u v) (fun u => ∑ a, U q a * f a u) M) →
            (∀ q, FormBound res.idxPerm.toFinset δ (2 * r') (fun u v => ∑ a, U' q a * c a u v) (fun u => ∑ a, U' q a * f' a u) M') →
            DataLoop res.idxPerm.toFinset x.nPoints δ r' n i l →
            SmallSteps res.idxPerm.toFinset w M n i → SmallSteps res.idxPerm.toFinset w' M' n i →
            ∃ y y' : Fin m → ℕ → ℝ, (∀ a, ∀ q ≤ n, θ a (i q) = .fin (y a q)) ∧ (∀ a, ∀ q ≤ n, θ' a (i q) = .fin (y' a q)) ∧
              ∀ q, turns n (y' q) = ∑ a, V q a * turns n (y a) := by
  obtain ⟨o, dgm, coc, σ, h1, h2, h3, h4, h5⟩ := C111_toroidal_winding x hx hr argsort ha hm hk hk' hf hp
  refine ⟨o, dgm, coc, σ, h1, h2, h3, h4, ?_⟩
  intro m z b d ξ hsel env env' ε τ ε' τ' a1 a2 a3 a1' a2' a3' fuel fuel' history history' perc perc' std std' bump bump' hb hb' B D r r'
    b1 b2 b3 b4 b4' hr2 hr2' hrr hbel hbel' c hc coords coords' hok hok'
  obtain ⟨θ, w, c₁, f, U, g0, g1, g2, gU, g3, g4, g5⟩ := h5 m z b d ξ hsel env ε τ a1 a2 a3 fuel history perc std bump hb B D r
    b1 b2 b3 b4 hr2 hbel coords hok
  obtain ⟨θ', w', c₂, f', U', g0', g1', g2', gU', g3', g4', g5'⟩ := h5 m z b d ξ hsel env' ε' τ' a1' a2' a3' fuel' history' perc' std' bump'
    hb' B D r' b1 b2 b3 b4' hr2' hbel' coords' hok'
  have q1 : ∀ a, ∀ u ∈ res.idxPerm.toFinset, ∀ v ∈ res.idxPerm.toFinset, c₁ a u v = c a u v := fun a => (g2 a).2 _ (hc a).1 (hc a).2
  have q2 : ∀ a, ∀ u ∈ res.idxPerm.toFinset, ∀ v ∈ res.idxPerm.toFinset, c₂ a u v = c a u v :=
    fun a => (g2' a).2 _ ((hc a).1.mono (by linarith)) (hc a).2
  have hUu : IsUnit U.det := by rcases g1 with h | h <;> rw [h] <;> decide
  have hinv : U⁻¹.det = 1 ∨ U⁻¹.det = -1 := Int.isUnit_iff.1 ((Matrix.isUnit_nonsing_inv_det_iff).2 hUu)
  refine ⟨θ, θ', w, w', f, f', U, U', U' * U⁻¹, g0, g0', g1, g1', ?_, ?_, g3, g3', ?_, ?_, ?_⟩
  · rw [Matrix.det_mul]
    rcases g1' with h | h <;> rcases hinv with h' | h' <;> rw [h, h'] <;> simp
  · intro h
    refine ⟨gU h, gU' h, ?_⟩
    rw [gU h, gU' h]
    simp
  · intro h a g
    have := g4 h a g
    rwa [dataEnergy_ofEq (q1 a), dataEnergy_ofEq (q1 a)] at this
  · intro h a g
    have := g4' h a g
    rwa [dataEnergy_ofEq (q2 a), dataEnergy_ofEq (q2 a)] at this
  intro M M' n i l hM hM' hl hs hs'
  have hcong : ∀ {c₁ : Fin m → ℕ → ℕ → ℤ} (_ : ∀ a, ∀ u ∈ res.idxPerm.toFinset, ∀ v ∈ res.idxPerm.toFinset, c₁ a u v = c a u v)
      (q : Fin m → ℤ), ∀ u ∈ res.idxPerm.toFinset, ∀ v ∈ res.idxPerm.toFinset, ∑ a, q a * c₁ a u v = ∑ a, q a * c a u v :=
    fun h q u hu v hv => Finset.sum_congr rfl fun a _ => by rw [h a u hu v hv]
  obtain ⟨y, y1, y2, -⟩ := g5 M n i l (fun q u hu v hv huv => by
    beta_reduce
    rw [hcong q1 _ u hu v hv]
    exact hM q u hu v hv huv) (hl.mono hrr) hs
  obtain ⟨y', y1', y2', -⟩ := g5' M' n i l (fun q u hu v hv huv => by
    beta_reduce
    rw [hcong q2 _ u hu v hv]
    exact hM' q u hu v hv huv) hl hs'
  refine ⟨y, y', y1, y1', fun q => ?_⟩
  have e1 : ∀ q, turns n (y q) = ((U.mulVec (fun a => pathValue (c a) n l) q : ℤ) : ℝ) := by
    intro q
    rw [y2 q]
    congr 1
    exact Finset.sum_congr rfl fun a _ => by rw [pathValue_eq hl (q1 a)]
  have e2 : turns n (y' q) = ((U'.mulVec (fun a => pathValue (c a) n l) q : ℤ) : ℝ) := by
    rw [y2' q]
    congr 1
    exact Finset.sum_congr rfl fun a _ => by rw [pathValue_eq hl (q2 a)]
  rw [e2]
  have e3 : U'.mulVec (fun a => pathValue (c a) n l) = (U' * U⁻¹).mulVec (U.mulVec fun a => pathValue (c a) n l) := by
    rw [Matrix.mulVec_mulVec, Matrix.mul_assoc, Matrix.nonsing_inv_mul _ hUu, Matrix.mul_one]
  rw [e3]
  simp only [e1]
  rw [Matrix.mulVec, dotProduct]
  push_cast
  rfl

end

end Dreimac
