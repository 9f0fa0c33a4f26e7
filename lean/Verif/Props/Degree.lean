import Verif.Lemmas.Degree

/-!
# C126: the degree of pairs of circular coordinates
-/

namespace Dreimac

open Real Finset

noncomputable section
variable {k : ℕ} {δ : ℕ → ℕ → ℝ} {p : ℤ} {maxdim : ℕ} {res : RipserResult ℝ} {ρ : ℝ → ℝ}

theorem cup_congr {D F : Type} [Fintype D] {s : DataSurface D F} {S : Finset ℕ} {N : ℕ} {r : ℝ} {ℓ : F → ℕ} {β : ℕ → ℕ}
    (hball : s.InBalls S N δ r ℓ) (hch : ChosenLandmarks S N δ r β) {c c' ξ ξ' : ℕ → ℕ → ℤ} (h : ∀ u ∈ S, ∀ v ∈ S, p ∣ c u v - ξ u v)
    (h' : ∀ u ∈ S, ∀ v ∈ S, p ∣ c' u v - ξ' u v) : p ∣ s.cup c c' ℓ β - s.cup ξ ξ' ℓ β := by
  unfold DataSurface.cup
  rw [← sum_sub_distrib]
  refine dvd_sum fun d _ => ?_
  have m1 := (hch _ (hball.data d)).1
  have m2 := hball.land (s.face (s.opp d))
  have m3 := hball.land (s.face d)
  unfold wedge
  obtain ⟨x1, e1⟩ := h _ m1 _ m2
  obtain ⟨x2, e2⟩ := h _ m2 _ m3
  obtain ⟨x3, e3⟩ := h' _ m1 _ m2
  obtain ⟨x4, e4⟩ := h' _ m2 _ m3
  rw [sub_eq_iff_eq_add] at e1 e2 e3 e4
  rw [e1, e2, e3, e4]
  generalize ξ _ _ = g1
  generalize ξ _ _ = g2
  generalize ξ' _ _ = g3
  generalize ξ' _ _ = g4
  refine ⟨x1 * (p * x4 + g3) + g1 * x4 - x3 * (p * x2 + g2) - g4 * x2, by ring⟩

theorem cup_bilinear {D F : Type} [Fintype D] (s : DataSurface D F) (ℓ : F → ℕ) (β : ℕ → ℕ) {m : ℕ} (x y : Fin m → ℤ)
    (c : Fin m → ℕ → ℕ → ℤ) : s.cup (fun u v => ∑ a, x a * c a u v) (fun u v => ∑ a, y a * c a u v) ℓ β =
      ∑ a, ∑ b, x a * y b * s.cup (c a) (c b) ℓ β := by
  have e : ∀ (x y : Fin m → ℤ), (∑ a, x a) * ∑ b, y b = ∑ a, ∑ b, x a * y b := fun x y => sum_mul_sum _ _ _ _
  unfold DataSurface.cup wedge
  have h1 : ∀ a b, x a * y b * ∑ d, (c a (β (s.start d)) (ℓ (s.face (s.opp d))) * c b (ℓ (s.face (s.opp d))) (ℓ (s.face d)) -
      c b (β (s.start d)) (ℓ (s.face (s.opp d))) * c a (ℓ (s.face (s.opp d))) (ℓ (s.face d))) =
      ∑ d, x a * y b * (c a (β (s.start d)) (ℓ (s.face (s.opp d))) * c b (ℓ (s.face (s.opp d))) (ℓ (s.face d)) -
      c b (β (s.start d)) (ℓ (s.face (s.opp d))) * c a (ℓ (s.face (s.opp d))) (ℓ (s.face d))) := fun a b => mul_sum _ _ _
  rw [sum_congr rfl fun a _ => (sum_congr rfl fun b _ => h1 a b).trans sum_comm, sum_comm]
  refine sum_congr rfl fun d _ => ?_
  rw [e, mul_comm (∑ a, y a * _), e, ← sum_sub_distrib]
  refine sum_congr rfl fun a _ => ?_
  rw [← sum_sub_distrib]
  exact sum_congr rfl fun b _ => by ring

/-- **C126 (two circular coordinates).** Two calls of `get_coordinates` of one `CircularCoords` object on a data set with distances `δ`,
as in C89, for two classes `ξ 0` and `ξ 1` (with their own histories of calls, percentages, bump functions): on every closed oriented
surface of data points with short edges, whose polygons are in balls, the polygons can be unrolled into the plane by the two angles,
and their total signed area is `(2 π)² n`, for the value `n` of the cup product of the integer cocycles `c 0` and `c 1` on the
surface: an integer with `2 n` congruent modulo `p` to the value given by ripser's classes. -/
theorem C126_circular_degree (x : DataInput) (hx : DescribesData x δ) (hr : RipserSpec ρ x.rows k δ p maxdim res)
    (argsort : List (Fl ℝ) → List ℕ) (ha : ArgsortSpec argsort) (hm : 1 ≤ maxdim) (hk : 0 < k) (hk' : k ≤ 2345)
    (hf : x.distanceMatrix = true → x.dtype = .float) (hp : 0 < p) :
    ∃ o dgm coc σ, toroInit argsort res x k p maxdim = .ok o ∧ res.dgms[1]? = some dgm ∧ res.cocycles[1]? = some coc ∧
      PersistenceRanking dgm σ ∧
      ∀ (z : Fin 2 → ℕ) (b d : Fin 2 → ℝ) (ξ : Fin 2 → ℕ → ℕ → ℤ), SelectsClasses dgm coc σ z b d ξ →
      ∀ (env : Oracles) (ε τ : ℝ), 0 ≤ τ → 3 * ε + τ < 1 → SolverSound env.milp ε τ → SolverComplete env.milp →
      ∀ (fuel : ℕ) (history : Fin 2 → List (ℕ × Args)) (perc : Fin 2 → ℝ) (std : Fin 2 → Bool)
        (bump : Fin 2 → Fl ℝ → Fl ℝ → Fl ℝ), (∀ a, (if std a then 2 * b a else b a) ≤ d a) → (∀ a, PositiveBump (bump a)) →
      ∀ r : Fin 2 → ℝ, (∀ a, 2 * r a = (1 - perc a) * (if std a then 2 * b a else b a) + perc a * d a) →
      (∀ a, BelowDeath ρ (2 * r a) (d a)) → (∀ a, ∃ c, IsIntegerLift p res.idxPerm.toFinset δ (2 * r a) (ξ a) c) →
        ∃ (θ : Fin 2 → ℕ → Fl ℝ) (w : Fin 2 → ℕ → ℕ → ℝ) (c : Fin 2 → ℕ → ℕ → ℤ) (f : Fin 2 → ℕ → ℝ),
          (∀ a, (circularGetCoordinates env fuel (afterCalls env o (history a)) (.fin (perc a)) (.int (z a)) (bump a) (std a) true).2 =
            .ok (θ a)) ∧
          (∀ a, IsIntegerLift p res.idxPerm.toFinset δ (2 * r a) (ξ a) (c a) ∧
            IsSmallestLift p res.idxPerm.toFinset δ (2 * r a) (ξ a) (c a)) ∧
          (∀ a, IsBumpWeights res.idxPerm.toFinset x.nPoints δ (r a) (bump a) (w a)) ∧
          (ExactLsq env.lsqr → ∀ a g, dataEnergy res.idxPerm.toFinset δ (2 * r a) (c a) (f a) ≤
            dataEnergy res.idxPerm.toFinset δ (2 * r a) (c a) g) ∧
          ∀ M : Fin 2 → ℝ, (∀ a, FormBound res.idxPerm.toFinset δ (2 * r a) (c a) (f a) (M a)) →
          ∀ (D F : Type) [Fintype D] (s : DataSurface D F) (ℓ : F → ℕ) (β : ℕ → ℕ),
            (∀ a, s.InBalls res.idxPerm.toFinset x.nPoints δ (r a) ℓ) →
            (∀ a, ChosenLandmarks res.idxPerm.toFinset x.nPoints δ (r a) β) →
            (∀ a, s.ShortEdges res.idxPerm.toFinset (w a) (M a)) →
            (∀ a, ∃ X, s.Unrolls (θ a) X) ∧ ∃ n : ℤ, 2 * n = s.cup (c 0) (c 1) ℓ β ∧ p ∣ 2 * n - s.cup (ξ 0) (ξ 1) ℓ β ∧
              (¬ p ∣ s.cup (ξ 0) (ξ 1) ℓ β → n ≠ 0) ∧
              ∀ X Y, s.Unrolls (θ 0) X → s.Unrolls (θ 1) Y → s.signedArea X Y = (2 * π) ^ 2 * n := by
  obtain ⟨o, dgm, coc, σ, h1, h2, h3, h4, h5⟩ := C89_circular_coordinates x hx hr argsort ha hm hk hk' hf hp
  refine ⟨o, dgm, coc, σ, h1, h2, h3, h4, ?_⟩
  intro z b d ξ hsel env ε τ a1 a2 a3 a4 fuel history perc std bump hlong hb r hr2 hbel hlift
  have key : ∀ a, ∃ θ w c f, (circularGetCoordinates env fuel (afterCalls env o (history a)) (.fin (perc a)) (.int (z a)) (bump a) (std a)
        true).2 = .ok θ ∧ IsIntegerLift p res.idxPerm.toFinset δ (2 * r a) (ξ a) c ∧
        IsSmallestLift p res.idxPerm.toFinset δ (2 * r a) (ξ a) c ∧
        IsBumpWeights res.idxPerm.toFinset x.nPoints δ (r a) (bump a) w ∧
        (ExactLsq env.lsqr → ∀ g, dataEnergy res.idxPerm.toFinset δ (2 * r a) c f ≤ dataEnergy res.idxPerm.toFinset δ (2 * r a) c g) ∧
        IsDataCoordinate res.idxPerm.toFinset x.nPoints δ (r a) w c f θ := by
    intro a
    obtain ⟨j, c₀, e1, e2, e3, e4⟩ := hsel.select a
    obtain ⟨ξ', hξ', h6⟩ := h5 (z a) j (b a) (d a) c₀ e1 e2 e3
    obtain rfl := hξ'.unique e4
    exact (h6 env ε τ a1 a2 a3 a4 fuel (history a) (perc a) (std a) (bump a) (hlong a) (hb a) (r a) (hr2 a) (hbel a)).1 (hlift a)
  choose θ w c f g1 g2 g3 g4 g5 g6 using key
  refine ⟨θ, w, c, f, g1, fun a => ⟨g2 a, g3 a⟩, g4, fun hl a => g5 a hl, ?_⟩
  intro M hM D F _ s ℓ β hball hch hs
  have hrange : ∀ u ∈ res.idxPerm.toFinset, u < x.rows := fun u hu => hr.range u (List.mem_toFinset.1 hu)
  obtain ⟨hX, hY, n, hn, harea⟩ := degree_of_coordinates (fun u hu i hi => hx.metric.nonneg u (hrange u hu) i hi)
    (fun u hu v hv i hi => hx.metric.triangle u (hrange u hu) v (hrange v hv) i hi) (g6 0) (g4 0) (hb 0) (g6 1) (g4 1) (hb 1)
    (hM 0) (hM 1) (hball 0) (hball 1) (hch 0) (hch 1) (hs 0) (hs 1)
  have hcong : p ∣ 2 * n - s.cup (ξ 0) (ξ 1) ℓ β := by
    rw [hn]
    exact cup_congr (hball 0) (hch 0) (g2 0).congr (g2 1).congr
  refine ⟨fun a => ?_, n, hn, hcong, ?_, harea⟩
  · fin_cases a
    · exact hX
    · exact hY
  · rintro hnd rfl
    rw [mul_zero, zero_sub] at hcong
    exact hnd (dvd_neg.1 hcong)

/-- **C126 (toroidal coordinates).** The same for two of the coordinates returned by one call of `ToroidalCoords.get_coordinates`, as
in C90: the degree of the pair `q`, `q'` is the value of the cup product of the combined cocycles, a combination of the values of
pairs of the selected classes with coefficients from the unimodular matrix `U`; with two selected classes it is, up to sign, the
value `n` of the cup product of the two classes. -/
theorem C126_toroidal_degree (x : DataInput) (hx : DescribesData x δ) (hr : RipserSpec ρ x.rows k δ p maxdim res)
    (argsort : List (Fl ℝ) → List ℕ) (ha : ArgsortSpec argsort) (hm : 1 ≤ maxdim) (hk : 0 < k) (hk' : k ≤ 2345)
    (hf : x.distanceMatrix = true → x.dtype = .float) (hp : 0 < p) :
    ∃ o dgm coc σ, toroInit argsort res x k p maxdim = .ok o ∧ res.dgms[1]? = some dgm ∧ res.cocycles[1]? = some coc ∧
      PersistenceRanking dgm σ ∧
      ∀ (m : ℕ) (z : Fin m → ℕ) (b d : Fin m → ℝ) (ξ : Fin m → ℕ → ℕ → ℤ), SelectsClasses dgm coc σ z b d ξ →
      ∀ (env : Oracles) (ε τ : ℝ), 0 ≤ τ → 3 * ε + τ < 1 → SolverSound env.milp ε τ →
      ∀ (fuel : ℕ) (history : List (ℕ × Args)) (perc : ℝ) (std : Bool) (bump : Fl ℝ → Fl ℝ → Fl ℝ),
      PositiveBump bump → ∀ B D r : ℝ, IsGreatest (Set.range b) B → IsLeast (Set.range d) D → B < D →
      (if std then 2 * B else B) ≤ D → 2 * r = (1 - perc) * (if std then 2 * B else B) + perc * D → BelowDeath ρ (2 * r) D →
      ∀ coords, (getCoordinates env fuel (afterCalls env o history)
          ⟨.fin perc, List.ofFn fun a => .int (z a), bump, std, true⟩).2 = .ok coords →
        ∃ (θ : Fin m → ℕ → Fl ℝ) (w : ℕ → ℕ → ℝ) (c : Fin m → ℕ → ℕ → ℤ) (f : Fin m → ℕ → ℝ) (U : Matrix (Fin m) (Fin m) ℤ),
          coords = List.ofFn θ ∧ (U.det = 1 ∨ U.det = -1) ∧
          (∀ a, IsIntegerLift p res.idxPerm.toFinset δ (2 * r) (ξ a) (c a) ∧
            IsSmallestLift p res.idxPerm.toFinset δ (2 * r) (ξ a) (c a)) ∧
          IsBumpWeights res.idxPerm.toFinset x.nPoints δ r bump w ∧
          (ExactLsq env.lsqr → ∀ a g, dataEnergy res.idxPerm.toFinset δ (2 * r) (c a) (f a) ≤
            dataEnergy res.idxPerm.toFinset δ (2 * r) (c a) g) ∧
          ∀ M : ℝ, (∀ q, FormBound res.idxPerm.toFinset δ (2 * r) (fun u v => ∑ a, U q a * c a u v) (fun u => ∑ a, U q a * f a u) M) →
          ∀ (D F : Type) [Fintype D] (s : DataSurface D F) (ℓ : F → ℕ) (β : ℕ → ℕ),
            s.InBalls res.idxPerm.toFinset x.nPoints δ r ℓ → ChosenLandmarks res.idxPerm.toFinset x.nPoints δ r β →
            s.ShortEdges res.idxPerm.toFinset w M →
            (∀ q, ∃ X, s.Unrolls (θ q) X) ∧
            (∀ q q', ∃ n : ℤ, 2 * n = ∑ a, ∑ b, U q a * U q' b * s.cup (c a) (c b) ℓ β ∧
              ∀ X Y, s.Unrolls (θ q) X → s.Unrolls (θ q') Y → s.signedArea X Y = (2 * π) ^ 2 * n) ∧
            ∀ h : m = 2, ∃ n : ℤ, 2 * n = s.cup (c (Fin.cast h.symm 0)) (c (Fin.cast h.symm 1)) ℓ β ∧
              p ∣ 2 * n - s.cup (ξ (Fin.cast h.symm 0)) (ξ (Fin.cast h.symm 1)) ℓ β ∧
              ∀ X Y, s.Unrolls (θ (Fin.cast h.symm 0)) X → s.Unrolls (θ (Fin.cast h.symm 1)) Y →
                s.signedArea X Y = (2 * π) ^ 2 * ((U.det * n : ℤ) : ℝ) := by
  obtain ⟨o, dgm, coc, σ, h1, h2, h3, h4, h5⟩ := C90_toroidal_coordinates x hx hr argsort ha hm hk hk' hf hp
  refine ⟨o, dgm, coc, σ, h1, h2, h3, h4, ?_⟩
  intro m z b d ξ hsel env ε τ a1 a2 a3 fuel history perc std bump hb B D r b1 b2 b3 b4 hr2 hbel coords hok
  obtain ⟨θ, w, c, f, U, g0, g1, g2, gU, g3, g4, g5⟩ := h5 m z b d ξ hsel env ε τ a1 a2 a3 fuel history perc std bump hb B D r
    b1 b2 b3 b4 hr2 hbel coords hok
  refine ⟨θ, w, c, f, U, g0, g1, g2, g3, g4, ?_⟩
  intro M hM D F _ s ℓ β hball hch hs
  have hrange : ∀ u ∈ res.idxPerm.toFinset, u < x.rows := fun u hu => hr.range u (List.mem_toFinset.1 hu)
  have hdeg := fun q q' => degree_of_coordinates (fun u hu i hi => hx.metric.nonneg u (hrange u hu) i hi)
    (fun u hu v hv i hi => hx.metric.triangle u (hrange u hu) v (hrange v hv) i hi) (g5 q) g3 hb (g5 q') g3 hb
    (hM q) (hM q') hball hball hch hch hs hs
  refine ⟨fun q => (hdeg q q).1, fun q q' => ?_, ?_⟩
  · obtain ⟨-, -, n, hn, harea⟩ := hdeg q q'
    exact ⟨n, by rw [hn, cup_bilinear], harea⟩
  · rintro rfl
    obtain ⟨-, -, n, hn, harea⟩ := hdeg 0 1
    rw [cup_bilinear] at hn
    have hself : ∀ c, s.cup c c ℓ β = 0 := by
      intro c
      unfold DataSurface.cup wedge
      simp
    have hswap : s.cup (c 1) (c 0) ℓ β = -s.cup (c 0) (c 1) ℓ β := by
      unfold DataSurface.cup wedge
      rw [← sum_neg_distrib]
      exact sum_congr rfl fun d _ => by ring
    simp only [Fin.sum_univ_two, hself, hswap] at hn
    have hn' : 2 * n = U.det * s.cup (c 0) (c 1) ℓ β := by
      rw [hn, Matrix.det_fin_two]; ring
    have hdet : U.det * U.det = 1 := by rcases g1 with h | h <;> rw [h] <;> norm_num
    refine ⟨U.det * n, ?_, ?_, ?_⟩
    · show _ = s.cup (c 0) (c 1) ℓ β
      linear_combination U.det * hn' + s.cup (c 0) (c 1) ℓ β * hdet
    · have e : 2 * (U.det * n) = s.cup (c 0) (c 1) ℓ β := by
        linear_combination U.det * hn' + s.cup (c 0) (c 1) ℓ β * hdet
      rw [e]
      exact cup_congr hball hch (g2 0).1.congr (g2 1).1.congr
    · intro X Y hX hY
      rw [harea X Y hX hY, ← mul_assoc U.det, hdet, one_mul]

end

end Dreimac
