import Verif.Spec.DataLoop
import Verif.Props.EndToEnd
import Verif.Props.Holonomy

/-!
# C112: lens and projective coordinates of a data set detect the class
-/

namespace Dreimac

open Real

noncomputable section
variable {k : ℕ} {δ : ℕ → ℕ → ℝ} {p : ℤ} {maxdim : ℕ} {res : RipserResult ℝ} {ρ : ℝ → ℝ}

theorem DataLoop.toCover {idx : List ℕ} {N : ℕ} {dist : ℕ → ℕ → ℝ} {r : ℝ} (hnd : idx.Nodup)
    (hdata : ∀ l (h : l < idx.length), ∀ i < N, dist l i = δ idx[l] i) {n : ℕ} {i l : ℕ → ℕ}
    (h : DataLoop idx.toFinset N δ r n i l) :
    LoopInCover idx.length dist r n i (fun q => idx.idxOf (l q)) ∧ (∀ q ≤ n, i q < N) ∧
      ∀ ξ : ℕ → ℕ → ℤ, ∑ q ∈ Finset.range n, pullCochain idx ξ (idx.idxOf (l q)) (idx.idxOf (l (q + 1))) = pathValue ξ n l := by
  have hl : ∀ q ≤ n, l q ∈ idx ∧ i q < N := by
    intro q hq
    rcases hq.lt_or_eq with hq | rfl
    · exact ⟨List.mem_toFinset.1 (h.land q hq), h.data q hq⟩
    · rw [h.closed_land, h.closed_data]; exact ⟨List.mem_toFinset.1 (h.land 0 h.pos), h.data 0 h.pos⟩
  refine ⟨⟨h.pos, h.closed_data, by simp only [h.closed_land], ?_, ?_⟩, fun q hq => (hl q hq).2, ?_⟩
  · exact fun q hq => (inBall_data hnd hdata (hl q hq.le).1 (hl q hq.le).2).1 (h.here q hq)
  · exact fun q hq => (inBall_data hnd hdata (hl q hq.le).1 (hl (q + 1) hq).2).1 (h.next q hq)
  · intro ξ
    unfold pathValue pullCochain
    refine Finset.sum_congr rfl fun q hq => ?_
    have hq := Finset.mem_range.1 hq
    have h1 := (hl q hq.le).1
    have h2 := (hl (q + 1) hq).1
    rw [if_pos ⟨idxOf_lt h1, idxOf_lt h2⟩, getD_of_lt (idxOf_lt h1), getD_of_lt (idxOf_lt h2), getElem_idxOf' h1,
      getElem_idxOf' h2]

/-- **C112 (lens).** The whole of `LensCoords(X, n_landmarks, prime = p).get_coordinates(perc, cocycle_idx = z,
complex_dim = n_landmarks, …)` for a data set with distances `δ`, as in C91, if the balls cover the data set: the call returns
an array of finite rows `y`, and along every closed path of data points with consecutive points in the ball of a landmark the
product of the inner products of consecutive rows is a positive multiple of `exp(-2πi s / p)`, where `s` is the value of
ripser's class `ξ` on the path of landmarks.  The phase is trivial exactly if `p` divides `s`. -/
theorem C112_lens_holonomy (x : DataInput) (hx : DescribesData x δ) (hr : RipserSpec ρ x.rows k δ p maxdim res)
    (argsort : List (Fl ℝ) → List ℕ) (ha : ArgsortSpec argsort) (hm : 1 ≤ maxdim) (hk : 2 ≤ k)
    (hf : x.distanceMatrix = true → x.dtype = .float) (hp : 0 < p) :
    ∃ o dgm coc σ, lensInit argsort res x p maxdim = .ok o ∧ res.dgms[1]? = some dgm ∧ res.cocycles[1]? = some coc ∧
      PersistenceRanking dgm σ ∧
      ∀ (z j : ℕ) (b d : ℝ) (c₀ : List ZRow), σ[z]? = some j → dgm[j]? = some (.fin b, .fin d) → coc[j]? = some c₀ →
      ∃ ξ, ListsCochain c₀ ξ ∧
      ∀ (eigh : Eigh ℂ) (fuel : ℕ) (history : List ProjArgs) (perc : ℝ) (std check : Bool) (bump : Fl ℝ → Fl ℝ → Fl ℝ)
        (mode : RedMode), EighSpec eigh → k ≤ fuel → (if std then 2 * b else b) ≤ d → PositiveBump bump →
        mode ≠ .other →
      ∀ r : ℝ, 2 * r = (1 - perc) * (if std then 2 * b else b) + perc * d → BelowDeath ρ (2 * r) d → (∀ i < x.nPoints, ∃ u ∈ res.idxPerm, δ u i < r) →
      ∃ (X : Arr ℂ) (y : ℕ → ℕ → ℂ), (lensGetCoordinates eigh fuel (lensHistory eigh fuel o history)
          ⟨.fin perc, .int z, k, bump, std, check, mode⟩).2 = .ok X ∧ X.rows = x.nPoints ∧ X.cols = k ∧
        (∀ i < x.nPoints, ∀ m < k, X.at' i m = some (y i m)) ∧
        ∀ (n : ℕ) (i l : ℕ → ℕ), DataLoop res.idxPerm.toFinset x.nPoints δ r n i l →
          (∃ ρ : ℝ, 0 < ρ ∧ ∏ q ∈ Finset.range n, ∑ m ∈ Finset.range k, star (y (i q) m) * y (i (q + 1)) m =
            ρ * Complex.exp (2 * π * Complex.I * ((-pathValue ξ n l : ℤ) : ℂ) / p)) ∧
          ((∃ ρ : ℝ, 0 < ρ ∧ ∏ q ∈ Finset.range n, ∑ m ∈ Finset.range k, star (y (i q) m) * y (i (q + 1)) m = ρ) ↔
            p ∣ pathValue ξ n l) := by
  obtain ⟨o, h1, h2, h3, h4, h5, h6, h7, wf⟩ := C88_lens_constructor x hx hr argsort ha hm (by omega) hf
  obtain ⟨dgm, coc, σ, g1, g2, g3, g4⟩ := stored_class x hr h6 hm h7
  refine ⟨o, dgm, coc, σ, h1, g1, g2, g3, ?_⟩
  intro z j b d c₀ hz hpt hc₀
  obtain ⟨pt, c₁, s, ξ, e1, e2, e3, e4, e5, e6, e7, e8⟩ := g4 z j hz
  rw [hpt] at e1
  injection e1 with e1
  subst e1
  rw [hc₀] at e2
  injection e2 with e2
  subst e2
  refine ⟨ξ, e6, ?_⟩
  intro eigh fuel history perc std check bump mode he hfuel hstart hb hmode r hr2 hbel hall
  have hlen : res.idxPerm.length = o.nLand := by rw [hr.count, h3]
  rw [C85_lens_history]
  have hvp : ValidPairClass o (.int z) b d s := by
    refine ⟨e3, fun r hr' => ?_⟩
    obtain ⟨q1, q2, q3⟩ := (e4.1 r hr').1
    rw [h3]
    match hv : r.verts, q1 with
    | [l, m], _ => exact ⟨l, m, rfl, q3 l (by simp [hv]), q3 m (by simp [hv])⟩
  obtain ⟨X, r', c1, c2, c3, c4, c5⟩ := C84_lens_returns eigh fuel o ⟨.fin perc, .int z, k, bump, std, check, mode⟩ wf b d perc s
    hvp rfl hstart hb hmode k rfl hk (h3 ▸ le_rfl) (h3 ▸ hfuel)
  simp only at c3
  obtain rfl : r' = r := by linarith
  have htri : LandmarkTriangle o.nLand o.dist o.distLandLand := hlen ▸ h5.triangle
  have hland : ∀ l (h : l < res.idxPerm.length), ∀ m (h' : m < res.idxPerm.length),
      o.distLandLand l m = δ res.idxPerm[l] res.idxPerm[m] := h5.land
  have hdat : ∀ l (h : l < res.idxPerm.length), ∀ i < x.nPoints, o.dist l i = δ res.idxPerm[l] i := h5.data
  have hbefore : BeforeDeath ρ (.fin b, .fin d) (2 * r') := Or.inl ⟨d, rfl, hbel⟩
  have hmod : PairCocycleMod o.prime o.nLand o.distLandLand (2 * r') (pullCochain res.idxPerm ξ) := by
    rw [h2, ← hlen]
    exact pairCocycleMod_of_data hland (e8 _ hbefore)
  have hall' : ∀ i < o.nData, ∃ l < o.nLand, o.dist l i < r' := by
    intro i hi
    rw [h4] at hi
    obtain ⟨l, hl, hl'⟩ := (covered_data hr.nodup hdat hi).1 (hall i hi)
    exact ⟨l, hlen ▸ hl, hl'⟩
  obtain ⟨w, V, β, -, -, hholo⟩ := C107_lens_holonomy wf (h2 ▸ hp) hb c1 c2 e3 e7 htri hmod he hall' k rfl (by omega) (h3 ▸ le_rfl)
  obtain ⟨y, hy, hloop⟩ := hholo (Or.inl h3.symm)
  rw [c5, h4] at hy
  refine ⟨X, y, c1, by rw [c4, h4], c5, hy, ?_⟩
  intro n i l hl
  obtain ⟨l1, l2, l3⟩ := hl.toCover hr.nodup hdat
  have := hloop n i _ (hlen ▸ l1) (by rw [h4]; exact l2)
  rw [l3 ξ, h2, c5] at this
  exact this

/-- **C112 (real projective).** The whole of `ProjectiveCoords(X, n_landmarks).get_coordinates(perc, cocycle_idx = z,
proj_dim = n_landmarks - 1, …)`, as in C91, if the balls cover the data set: along every closed path of data points with
consecutive points in the ball of a landmark the product of the inner products of consecutive rows is positive if ripser's
class has an even value on the path of landmarks, and negative if it has an odd value. -/
theorem C112_projective_holonomy (x : DataInput) (hx : DescribesData x δ) (hr : RipserSpec ρ x.rows k δ 2 maxdim res)
    (argsort : List (Fl ℝ) → List ℕ) (ha : ArgsortSpec argsort) (hm : 1 ≤ maxdim) (hk : 2 ≤ k)
    (hf : x.distanceMatrix = true → x.dtype = .float) :
    ∃ o dgm coc σ, projInit argsort res x maxdim = .ok o ∧ res.dgms[1]? = some dgm ∧ res.cocycles[1]? = some coc ∧
      PersistenceRanking dgm σ ∧
      ∀ (z j : ℕ) (b d : ℝ) (c₀ : List ZRow), σ[z]? = some j → dgm[j]? = some (.fin b, .fin d) → coc[j]? = some c₀ →
      ∃ ξ, ListsCochain c₀ ξ ∧
      ∀ (eigh : Eigh ℝ) (fuel : ℕ) (history : List ProjArgs) (perc : ℝ) (std check : Bool) (bump : Fl ℝ → Fl ℝ → Fl ℝ)
        (mode : RedMode), EighSpec eigh → k ≤ fuel → (if std then 2 * b else b) ≤ d → PositiveBump bump →
        mode ≠ .other →
      ∀ r : ℝ, 2 * r = (1 - perc) * (if std then 2 * b else b) + perc * d → BelowDeath ρ (2 * r) d → (∀ i < x.nPoints, ∃ u ∈ res.idxPerm, δ u i < r) →
      ∃ (X : Arr ℝ) (y : ℕ → ℕ → ℝ), (projGetCoordinates eigh fuel (projHistory eigh fuel o history)
          ⟨.fin perc, .int z, (k - 1 : ℕ), bump, std, check, mode⟩).2 = .ok X ∧ X.rows = x.nPoints ∧ X.cols = k ∧
        (∀ i < x.nPoints, ∀ m < k, X.at' i m = some (y i m)) ∧
        ∀ (n : ℕ) (i l : ℕ → ℕ), DataLoop res.idxPerm.toFinset x.nPoints δ r n i l →
          (Even (pathValue ξ n l) → 0 < ∏ q ∈ Finset.range n, ∑ m ∈ Finset.range k, y (i q) m * y (i (q + 1)) m) ∧
          (Odd (pathValue ξ n l) → ∏ q ∈ Finset.range n, ∑ m ∈ Finset.range k, y (i q) m * y (i (q + 1)) m < 0) := by
  obtain ⟨o, h1, h2, h3, h4, h5, h6, h7, wf⟩ := C88_projective_constructor x hx hr argsort ha hm (by omega) hf
  obtain ⟨dgm, coc, σ, g1, g2, g3, g4⟩ := stored_class x hr h6 hm h7
  refine ⟨o, dgm, coc, σ, h1, g1, g2, g3, ?_⟩
  intro z j b d c₀ hz hpt hc₀
  obtain ⟨pt, c₁, s, ξ, e1, e2, e3, e4, e5, e6, e7, e8⟩ := g4 z j hz
  rw [hpt] at e1
  injection e1 with e1
  subst e1
  rw [hc₀] at e2
  injection e2 with e2
  subst e2
  refine ⟨ξ, e6, ?_⟩
  intro eigh fuel history perc std check bump mode he hfuel hstart hb hmode r hr2 hbel hall
  have hlen : res.idxPerm.length = o.nLand := by rw [hr.count, h3]
  rw [C85_projective_history]
  have hvp : ValidPairClass o (.int z) b d s := by
    refine ⟨e3, fun r hr' => ?_⟩
    obtain ⟨q1, q2, q3⟩ := (e4.1 r hr').1
    rw [h3]
    match hv : r.verts, q1 with
    | [l, m], _ => exact ⟨l, m, rfl, q3 l (by simp [hv]), q3 m (by simp [hv])⟩
  obtain ⟨X, r', c1, c2, c3, c4, c5⟩ := C84_projective_returns eigh fuel o ⟨.fin perc, .int z, (k - 1 : ℕ), bump, std, check, mode⟩
    wf b d perc s hvp (fun r hr' => (e4.1 r hr').2.1) rfl hstart hb hmode (k - 1) rfl (by omega) (by rw [h3]; omega) (h3 ▸ hfuel)
  simp only at c3
  obtain rfl : r' = r := by linarith
  have htri : LandmarkTriangle o.nLand o.dist o.distLandLand := hlen ▸ h5.triangle
  have hland : ∀ l (h : l < res.idxPerm.length), ∀ m (h' : m < res.idxPerm.length),
      o.distLandLand l m = δ res.idxPerm[l] res.idxPerm[m] := h5.land
  have hdat : ∀ l (h : l < res.idxPerm.length), ∀ i < x.nPoints, o.dist l i = δ res.idxPerm[l] i := h5.data
  have hbefore : BeforeDeath ρ (.fin b, .fin d) (2 * r') := Or.inl ⟨d, rfl, hbel⟩
  have hmod : PairCocycleMod 2 o.nLand o.distLandLand (2 * r') (pullCochain res.idxPerm ξ) := by
    rw [← hlen]
    exact pairCocycleMod_of_data hland (e8 _ hbefore)
  have hall' : ∀ i < o.nData, ∃ l < o.nLand, o.dist l i < r' := by
    intro i hi
    rw [h4] at hi
    obtain ⟨l, hl, hl'⟩ := (covered_data hr.nodup hdat hi).1 (hall i hi)
    exact ⟨l, hlen ▸ hl, hl'⟩
  obtain ⟨w, V, β, -, -, hholo⟩ := C107_projective_holonomy wf hb c1 c2 e3 e7 htri hmod he hall' (k - 1) rfl
    (by rw [h3]; omega)
  obtain ⟨y, hy, hloop⟩ := hholo (Or.inl (by rw [h3]; omega))
  have c5' : X.cols = k := by rw [c5]; omega
  rw [c5', h4] at hy
  refine ⟨X, y, c1, by rw [c4, h4], c5', hy, ?_⟩
  intro n i l hl
  obtain ⟨l1, l2, l3⟩ := hl.toCover hr.nodup hdat
  have := hloop n i _ (hlen ▸ l1) (by rw [h4]; exact l2)
  rw [l3 ξ, c5'] at this
  exact this

end

end Dreimac
