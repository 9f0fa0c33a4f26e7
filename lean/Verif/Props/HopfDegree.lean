import Verif.Spec.HopfDegree
import Verif.Props.ReducedChern
import Verif.Props.ProjUtils

/-!
# C135: the degree of the map to the sphere given by complex projective coordinates and the Hopf map
-/

namespace Dreimac

open Real Finset

noncomputable section

/-- The Bargmann identity, for vectors of any length. -/
theorem hopf_bargmann (a₀ a₁ b₀ b₁ c₀ c₁ : ℂ) :
    4 * ((star a₀ * b₀ + star a₁ * b₁) * (star b₀ * c₀ + star b₁ * c₁) * (star c₀ * a₀ + star c₁ * a₁)) =
      ⟨(‖a₀‖ ^ 2 + ‖a₁‖ ^ 2) * (‖b₀‖ ^ 2 + ‖b₁‖ ^ 2) * (‖c₀‖ ^ 2 + ‖c₁‖ ^ 2) +
        (‖c₀‖ ^ 2 + ‖c₁‖ ^ 2) * dot3 (hopfMap (a₀, a₁)) (hopfMap (b₀, b₁)) +
        (‖a₀‖ ^ 2 + ‖a₁‖ ^ 2) * dot3 (hopfMap (b₀, b₁)) (hopfMap (c₀, c₁)) +
        (‖b₀‖ ^ 2 + ‖b₁‖ ^ 2) * dot3 (hopfMap (c₀, c₁)) (hopfMap (a₀, a₁)),
        -det3 (hopfMap (a₀, a₁)) (hopfMap (b₀, b₁)) (hopfMap (c₀, c₁))⟩ := by
  have hn : ∀ z : ℂ, ‖z‖ ^ 2 = z.re * z.re + z.im * z.im := fun z => by rw [← Complex.normSq_eq_norm_sq, Complex.normSq_apply]
  simp only [hn]
  unfold dot3 det3 hopfMap
  apply Complex.ext
  · simp; ring
  · simp; ring

theorem det3_rev (x y z : ℝ × ℝ × ℝ) : det3 z y x = -det3 x y z := by unfold det3; ring

theorem dot3_comm (x y : ℝ × ℝ × ℝ) : dot3 x y = dot3 y x := by unfold dot3; ring

variable {D F : Type} [Fintype D] [Fintype F] [DecidableEq F]

/-- **C135.** Unit vectors `(y i 0, y i 1)` of `ℂ²`, one for each data point, and the points of the sphere that `hopf_map` makes of them.
Consider a closed surface of triangles of data points.  The total signed area of the triangles on the unit sphere is twice the sum of
the phases of the products of the inner products of consecutive vectors around the triangles; and the squared absolute value of the
inner product of two vectors is `(1 + h · h') / 2` for the two points `h`, `h'`, so that it is zero iff the points are antipodal. -/
theorem C135_hopf_area (s : DataSurface D F) (corner : F → D) (hs : s.Triangles corner) (y : ℕ → ℕ → ℂ)
    (hy : ∀ d, ‖y (s.start d) 0‖ ^ 2 + ‖y (s.start d) 1‖ ^ 2 = 1) :
    s.sphereArea corner (fun i => hopfMap (y i 0, y i 1)) = 2 * ∑ f, Complex.arg (s.around 2 y f) ∧
      ∀ d e, ‖∑ k ∈ range 2, star (y (s.start d) k) * y (s.start e) k‖ ^ 2 =
        (1 + dot3 (hopfMap (y (s.start d) 0, y (s.start d) 1)) (hopfMap (y (s.start e) 0, y (s.start e) 1))) / 2 := by
  classical
  constructor
  · unfold DataSurface.sphereArea
    rw [mul_sum]
    refine sum_congr rfl fun f _ => ?_
    set d := corner f with hd
    have e : s.around 2 y f = (∑ k ∈ range 2, star (y (s.start d) k) * y (s.start (s.next d)) k) *
        (∑ k ∈ range 2, star (y (s.start (s.next d)) k) * y (s.start (s.next (s.next d))) k) *
        (∑ k ∈ range 2, star (y (s.start (s.next (s.next d))) k) * y (s.start d) k) := by
      unfold DataSurface.around
      have h1 : (univ.filter fun d => s.face d = f) = {d, s.next d, s.next (s.next d)} := by
        ext e
        simp [hs.face e f, hd]
      have n1 : d ≠ s.next d := (hs.ne d).symm
      have n2 : s.next d ≠ s.next (s.next d) := (hs.ne _).symm
      have n3 : d ≠ s.next (s.next d) := fun h => hs.ne (s.next (s.next d)) (by rw [hs.three]; exact h)
      rw [h1, prod_insert (by simp [n1, n3]), prod_insert (by simp [n2]), prod_singleton, hs.three]
      ring
    have h4 : Complex.arg (s.around 2 y f) = Complex.arg (((4 : ℝ) : ℂ) * s.around 2 y f) :=
      (Complex.arg_real_mul _ (by norm_num)).symm
    rw [h4, e]
    simp only [sum_range_succ, range_zero, sum_empty, zero_add]
    have key := hopf_bargmann (y (s.start d) 0) (y (s.start d) 1) (y (s.start (s.next d)) 0) (y (s.start (s.next d)) 1)
      (y (s.start (s.next (s.next d))) 0) (y (s.start (s.next (s.next d))) 1)
    rw [hy, hy, hy] at key
    unfold sphericalArea
    congr 2
    rw [show ((4 : ℝ) : ℂ) = 4 by norm_num, key]
    apply Complex.ext
    · simp only [one_mul]
      rw [dot3_comm (hopfMap (y (s.start (s.next (s.next d))) 0, _)) (hopfMap (y (s.start (s.next d)) 0, _)),
        dot3_comm (hopfMap (y (s.start (s.next d)) 0, _)) (hopfMap (y (s.start d) 0, _)),
        dot3_comm (hopfMap (y (s.start d) 0, _)) (hopfMap (y (s.start (s.next (s.next d))) 0, _))]
      ring
    · exact det3_rev _ _ _
  · intro d e
    have hd := hy d
    have he := hy e
    have hn : ∀ z : ℂ, ‖z‖ ^ 2 = z.re * z.re + z.im * z.im := fun z => by
      rw [← Complex.normSq_eq_norm_sq, Complex.normSq_apply]
    simp only [sum_range_succ, range_zero, sum_empty, zero_add]
    have h2 : (1 : ℝ) = (‖y (s.start d) 0‖ ^ 2 + ‖y (s.start d) 1‖ ^ 2) * (‖y (s.start e) 0‖ ^ 2 + ‖y (s.start e) 1‖ ^ 2) := by
      rw [hd, he]; ring
    conv_rhs => rw [h2]
    simp only [hn]
    unfold dot3 hopfMap
    simp
    ring

variable {k : ℕ} {δ : ℕ → ℕ → ℝ} {p : ℤ} {maxdim : ℕ} {res : RipserResult ℝ} {ρ : ℝ → ℝ}

/-- **C135.** The whole of `ComplexProjectiveCoords(X, n_landmarks, prime = p).get_coordinates(perc, cocycle_idx = z, proj_dim = 1, …)`
as in C131, followed by `hopf_map`: for every closed surface of triangles of data points the total signed area of the triangles of
points of the unit sphere is twice the sum of the phases of the products of the inner products of consecutive rows around the triangles.
If the surface has the properties of C131 this is `4 π` times the value of the lift `c` of the class on the surface of landmarks: the map
to the sphere covers it as many times as the class says. -/
theorem C135_complex_projective_sphere (x : DataInput) (hx : DescribesData x δ) (hr : RipserSpec ρ x.rows k δ p maxdim res)
    (argsort : List (Fl ℝ) → List ℕ) (ha : ArgsortSpec argsort) (hm : 2 ≤ maxdim) (hk : 2 ≤ k) (hk' : k ≤ 2345)
    (hf : x.distanceMatrix = true → x.dtype = .float) (hp : 2 ≤ p) (hbig : 10 ^ 6 < 8 * k * x.nPoints) :
    ∃ o dgm coc σ, cpInit argsort res x k p maxdim = .ok o ∧ res.dgms[2]? = some dgm ∧ res.cocycles[2]? = some coc ∧
      PersistenceRanking dgm σ ∧
      ∀ (z j : ℕ) (b d : ℝ) (c₀ : List ZRow), σ[z]? = some j → dgm[j]? = some (.fin b, .fin d) → coc[j]? = some c₀ →
      ∃ c, ListsLift2 p res.idxPerm.toFinset c₀ c ∧
      ∀ (env : CPOracles) (fuel : ℕ) (history : List ProjArgs) (perc : ℝ) (std check : Bool) (bump : Fl ℝ → Fl ℝ → Fl ℝ)
        (mode : RedMode), EighSpec env.eigh → k ≤ fuel → (if std then 2 * b else b) ≤ d → PositiveBump bump →
        mode ≠ .other →
      ∀ r : ℝ, 2 * r = (1 - perc) * (if std then 2 * b else b) + perc * d →
      IsDataCocycle2 res.idxPerm.toFinset δ (2 * r) c → (∀ i < x.nPoints, ∃ u ∈ res.idxPerm, δ u i < r) →
      ∃ (X : Arr ℂ) (w ν : ℕ → ℕ → ℝ) (β : ℕ → ℕ), (cpGetCoordinates env fuel (cpHistory env fuel o history)
          ⟨.fin perc, .int z, 1, bump, std, check, mode⟩).2 = .ok X ∧ X.rows = x.nPoints ∧ X.cols = 2 ∧
        IsBumpWeights res.idxPerm.toFinset x.nPoints δ r bump w ∧ (∀ u v, ν v u = -ν u v) ∧
        (ExactLsq env.lsqr → ∀ g : ℕ → ℕ → ℝ, (∀ u ∈ res.idxPerm, ∀ v ∈ res.idxPerm, g v u = -g u v) →
          dataEnergy2 res.idxPerm.toFinset δ (2 * r) c ν ≤ dataEnergy2 res.idxPerm.toFinset δ (2 * r) c g) ∧
        (∀ i < x.nPoints, β i ∈ res.idxPerm ∧ δ (β i) i < r) ∧
        ∀ y : ℕ → ℕ → ℂ, (∀ i < x.nPoints, ∀ m < 2, X.at' i m = some (y i m)) →
        ∃ v s, IsNormalizedProjection 2 k x.nPoints v
            (fun i m => cpDataVector res.idxPerm.toFinset c ν w (β i) i (res.idxPerm.getD m 0)) y s ∧
          (mode = .direct → CapturesMost 2 k x.nPoints v
            (fun i m => cpDataVector res.idxPerm.toFinset c ν w (β i) i (res.idxPerm.getD m 0))) ∧
          ∀ (D F : Type) [Fintype D] [Fintype F] [DecidableEq F] (surf : DataSurface D F) (corner : F → D), surf.Triangles corner →
            (∀ d, surf.start d < x.nPoints) →
            surf.sphereArea corner (fun i => hopfMap (y i 0, y i 1)) = 2 * ∑ f, Complex.arg (surf.around 2 y f) ∧
            ∀ M, FormBound2 res.idxPerm.toFinset δ (2 * r) c ν M →
            ∀ (ℓ : F → ℕ) (a : ℕ → ℕ) (φ : D → ℝ),
            surf.InBalls res.idxPerm.toFinset x.nPoints δ r ℓ → (∀ d, M * surf.step res.idxPerm.toFinset w d < 1 / 4) →
            (∀ d, 0 ≤ φ d ∧ φ d ≤ 1 / 4) →
            (∀ f, ∑ d with surf.face d = f, (M * surf.step res.idxPerm.toFinset w d + φ d) < 1 / 2) →
            (∀ i < x.nPoints, a i ∈ res.idxPerm ∧ δ (a i) i < r) →
            (∀ d, lost (s (surf.start d)) * lost (s (surf.start (surf.next d))) <
              dataOverlap res.idxPerm.toFinset w (surf.start d) (surf.start (surf.next d)) *
                cos (2 * π * (M * surf.step res.idxPerm.toFinset w d)) * sin (2 * π * φ d)) →
            surf.sphereArea corner (fun i => hopfMap (y i 0, y i 1)) = 4 * π * surf.value c ℓ a := by
  obtain ⟨o, dgm, coc, σ, h1, h2, h3, h4, h5⟩ := C131_complex_projective_reduced x hx hr argsort ha hm hk hk' hf hp hbig
  refine ⟨o, dgm, coc, σ, h1, h2, h3, h4, ?_⟩
  intro z j b d c₀ hz hpt hc₀
  obtain ⟨c, hlift, h6⟩ := h5 z j b d c₀ hz hpt hc₀
  refine ⟨c, hlift, ?_⟩
  intro env fuel history perc std check bump mode he hfuel hstart hb hmode r hr2 hc hall
  by_cases hq : 1 < k
  · obtain ⟨X, w, ν, β, e1, e2, e3, e4, e5, e6, e7, e8⟩ :=
      h6 env fuel history perc std check bump mode 1 he hfuel hstart hb hmode le_rfl hq r hr2 hc hall
    refine ⟨X, w, ν, β, e1, e2, e3, e4, e5, e6, e7, ?_⟩
    intro y hy
    obtain ⟨v, s, f1, f2, f3⟩ := e8 y hy
    refine ⟨v, s, f1, f2, ?_⟩
    intro D F _ _ _ surf corner ht hN
    have area := (C135_hopf_area surf corner ht y fun d => by
      have := f1.unit _ (hN d)
      rwa [sum_range_succ, sum_range_succ, range_zero, sum_empty, zero_add] at this).1
    refine ⟨area, ?_⟩
    intro M hM ℓ a φ g1 g2 g3 g4 g5 g6
    rw [area, (f3 M hM D F surf ℓ a φ g1 g2 g3 g4 g5 g6).2]
    ring
  · omega

end

end Dreimac
