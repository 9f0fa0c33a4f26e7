import Verif.Lemmas.Holonomy
import Verif.Props.ClassMap
import Verif.Props.PpcaSpectral

/-!
# C107: lens and projective coordinates detect the class

`X` is the returned array, row `i` belongs to data point `i`.
-/

namespace Dreimac

open Real

/-- The rows `vec (β i) i` of the `N × L` class map lie in the span of `D` vectors. -/
def InSpanOf {𝕜 : Type} [RCLike 𝕜] (D L N : ℕ) (vec : ℕ → ℕ → ℕ → 𝕜) (β : ℕ → ℕ) : Prop :=
  ∃ u c : ℕ → ℕ → 𝕜, ∀ i < N, ∀ m < L, vec (β i) i m = ∑ k ∈ Finset.range D, c i k * u k m

theorem inSpanOf_all {𝕜 : Type} [RCLike 𝕜] (L N : ℕ) (vec : ℕ → ℕ → ℕ → 𝕜) (β : ℕ → ℕ) : InSpanOf L L N vec β := by
  refine ⟨fun k m => if k = m then 1 else 0, fun i k => vec (β i) i k, fun i _ m hm => ?_⟩
  simp [hm]

/-- The inner product of rows `i` and `j`, conjugating row `i`. -/
noncomputable def rowInner {𝕜 : Type} [RCLike 𝕜] (cols : ℕ) (y : ℕ → ℕ → 𝕜) (i j : ℕ) : 𝕜 :=
  ∑ k ∈ Finset.range cols, star (y i k) * y j k

section
variable {𝕜 : Type} [RCLike 𝕜] {p : ℤ} {χ : ℤ → 𝕜} {x : ℕ → ℕ → ℤ} {eigh : Eigh 𝕜} {fuel : ℕ} {o : ProjObj} {a : ProjArgs} {r : ℝ}
  {w : ℕ → ℕ → ℝ} {β : ℕ → ℕ} {V : List (Option ℝ)} {X : Arr 𝕜}

theorem flat_holonomy (he : EighSpec eigh) (hχ : IsCharacter p χ) (hx : ∀ l m, x m l = -x l m)
    (ht : LandmarkTriangle o.nLand o.dist o.distLandLand) (hcov : CoverData o a r w β)
    (hc : PairCocycleMod p o.nLand o.distLandLand (2 * r) x) (hall : ∀ i < o.nData, ∃ l, InBall o.nLand o.dist r l i)
    (D : ℕ) (hD : D < o.nLand)
    (h : ppca eigh fuel (classMapVia o.nLand o.nData o.dist r (fun l i m => ((√(w m i) : ℝ) : 𝕜) * χ (x l m)) β) D a.mode =
      .ok ⟨V, X⟩)
    (hspan : InSpanOf (D + 1) o.nLand o.nData (fun l i m => ((√(w m i) : ℝ) : 𝕜) * χ (x l m)) β) :
    ∃ y : ℕ → ℕ → 𝕜, (∀ i < o.nData, ∀ k < X.cols, X.at' i k = some (y i k)) ∧
      ∀ (n : ℕ) (i l : ℕ → ℕ), LoopInCover o.nLand o.dist r n i l → (∀ q ≤ n, i q < o.nData) →
        ∃ ρ : ℝ, 0 < ρ ∧ ∏ q ∈ Finset.range n, rowInner X.cols y (i q) (i (q + 1)) =
          (ρ : 𝕜) * χ (-∑ q ∈ Finset.range n, x (l q) (l (q + 1))) := by
  obtain ⟨u, c, huc⟩ := hspan
  obtain ⟨-, y, hy, hin⟩ := C103_lossless eigh he fuel _ (fun i m => ((√(w m i) : ℝ) : 𝕜) * χ (x (β i) m))
    (fun i hi m hm => if_pos ⟨hi, hm, hall i hi⟩)
    (fun i hi => charVector_norm hχ hcov.part (hcov.first i (hall i hi)).1) D hD u c huc a.mode ⟨V, X⟩ h
  refine ⟨y, hy, fun n i l hloop hi => ?_⟩
  obtain ⟨ρ, hρ, e⟩ := holonomy (𝕜 := 𝕜) hχ hx ht hcov.part hc hloop β (fun j hj => (hcov.first j hj).1)
  refine ⟨ρ, hρ, ?_⟩
  rw [← e]
  refine Finset.prod_congr rfl fun q hq => ?_
  have hq' := Finset.mem_range.1 hq
  exact hin _ (hi q hq'.le) _ (hi (q + 1) hq')

end

/-- **C107 (lens).** A call of `LensCoords.get_coordinates` that covers all data points, with a class that is a cocycle modulo
the prime and a correct eigenvector routine, and with `complex_dim = D` such that the reduction to `D` dimensions loses nothing
(for instance `D = n_landmarks`).  Then the returned rows `y` know the class: along every closed path of data points with
consecutive points in the ball of a landmark, the product of the inner products of consecutive rows is a positive multiple of
`exp(-2πi s / p)`, where `s` is the value of the class on the closed path of these landmarks.  So this phase, which is the same
for all choices of representatives of the points of the lens space, is trivial exactly if the prime divides `s`. -/
theorem C107_lens_holonomy {eigh : Eigh ℂ} {fuel : ℕ} {o : ProjObj} {a : ProjArgs} {X : Arr ℂ} {r t : ℝ} {b d : Fl ℝ}
    {s : SparseCochain} {x : ℕ → ℕ → ℤ} (wf : ProjWellFormed o) (hp : 0 < o.prime) (hb : PositiveBump a.bump)
    (hok : (lensGetCoordinates eigh fuel o a).2 = .ok X)
    (hr : (lensGetCoordinates eigh fuel o a).1.radius = some (.fin r, .fin t))
    (hs : getRepresentativeCocycle o.dgms o.cocycles a.cocycleIdx 1 = .ok (b, d, s)) (hx : RepresentsPairs s x)
    (ht : LandmarkTriangle o.nLand o.dist o.distLandLand) (hc : PairCocycleMod o.prime o.nLand o.distLandLand t x)
    (he : EighSpec eigh) (hall : ∀ i < o.nData, ∃ l < o.nLand, o.dist l i < r) (D : ℕ) (hD : a.dim = D) (hD1 : 1 ≤ D)
    (hDL : D ≤ o.nLand) :
    ∃ (w : ℕ → ℕ → ℝ) (V : List (Option ℝ)) (β : ℕ → ℕ), CoverData o a r w β ∧
      ppca eigh fuel (classMapVia o.nLand o.nData o.dist r (lensVector o.prime x w) β) (a.dim - 1) a.mode = .ok ⟨V, X⟩ ∧
      (D = o.nLand ∨ InSpanOf D o.nLand o.nData (lensVector o.prime x w) β →
        ∃ y : ℕ → ℕ → ℂ, (∀ i < o.nData, ∀ k < X.cols, X.at' i k = some (y i k)) ∧
          ∀ (n : ℕ) (i l : ℕ → ℕ), LoopInCover o.nLand o.dist r n i l → (∀ q ≤ n, i q < o.nData) →
            (∃ ρ : ℝ, 0 < ρ ∧ ∏ q ∈ Finset.range n, rowInner X.cols y (i q) (i (q + 1)) =
              ρ * Complex.exp (2 * π * Complex.I * ((-∑ q ∈ Finset.range n, x (l q) (l (q + 1)) : ℤ) : ℂ) / o.prime)) ∧
            ((∃ ρ : ℝ, 0 < ρ ∧ ∏ q ∈ Finset.range n, rowInner X.cols y (i q) (i (q + 1)) = ρ) ↔
              o.prime ∣ ∑ q ∈ Finset.range n, x (l q) (l (q + 1)))) := by
  obtain ⟨rfl, w, V, β, hcov, h1, -⟩ := flat_call (χ := fun v : ℤ => Complex.exp (2 * π * Complex.I * v / o.prime)) wf hb hok hr hs
    (fun M hM => lensMatrix_apply hp hx hM)
  refine ⟨w, V, β, hcov, h1, fun hspan => ?_⟩
  have hspan' : InSpanOf D o.nLand o.nData (lensVector o.prime x w) β := by
    rcases hspan with rfl | h
    · exact inSpanOf_all _ _ _ _
    · exact h
  obtain ⟨E, rfl⟩ : ∃ E, D = E + 1 := ⟨D - 1, by omega⟩
  have hE : a.dim - 1 = (E : ℕ) := by rw [hD]; push_cast; ring
  rw [hE] at h1
  obtain ⟨y, hy, hl⟩ := flat_holonomy (χ := fun v : ℤ => Complex.exp (2 * π * Complex.I * v / o.prime)) he (lens_character hp)
    hx.antisymm ht hcov hc (fun i hi => hall i hi) E (by omega) h1 hspan'
  refine ⟨y, hy, fun n i l hloop hi => ?_⟩
  obtain ⟨ρ, hρ, e⟩ := hl n i l hloop hi
  refine ⟨⟨ρ, hρ, e⟩, ?_⟩
  set S := ∑ q ∈ Finset.range n, x (l q) (l (q + 1))
  have hp0 : (o.prime : ℂ) ≠ 0 := by exact_mod_cast hp.ne'
  constructor
  · rintro ⟨ρ', hρ', e'⟩
    have hchar := lens_character hp
    have h2 : ((ρ : ℝ) : ℂ) * Complex.exp (2 * π * Complex.I * ((-S : ℤ) : ℂ) / o.prime) = (ρ' : ℝ) := by
      rw [← e']; exact e.symm
    have hn := congrArg norm h2
    rw [norm_mul, hchar.norm, mul_one, Complex.norm_real, Complex.norm_real, Real.norm_of_nonneg hρ.le,
      Real.norm_of_nonneg hρ'.le] at hn
    rw [← hn] at h2
    have hρ0 : ((ρ : ℝ) : ℂ) ≠ 0 := by exact_mod_cast hρ.ne'
    have h3 : Complex.exp (2 * π * Complex.I * ((-S : ℤ) : ℂ) / o.prime) = 1 :=
      mul_left_cancel₀ hρ0 (by rw [h2, mul_one])
    rw [Complex.exp_eq_one_iff] at h3
    obtain ⟨k, hk⟩ := h3
    have hpi : (2 * π * Complex.I : ℂ) ≠ 0 := by simp [Real.pi_ne_zero, Complex.I_ne_zero]
    have h4 : ((-S : ℤ) : ℂ) = k * o.prime := by
      field_simp at hk
      rw [hk, mul_comm]
    have h5 : -S = k * o.prime := by exact_mod_cast h4
    exact (dvd_neg.1 ⟨k, by rw [h5]; ring⟩)
  · intro hdvd
    refine ⟨ρ, hρ, e.trans ?_⟩
    rw [(lens_character hp).trivial _ (hdvd.neg_right), mul_one]
    rfl

/-- **C107 (real projective).** The same for `ProjectiveCoords.get_coordinates` with `proj_dim = D`: the product of the inner
products of consecutive rows along the closed path is positive if the class has an even value on the path of landmarks, and
negative if the value is odd. -/
theorem C107_projective_holonomy {eigh : Eigh ℝ} {fuel : ℕ} {o : ProjObj} {a : ProjArgs} {X : Arr ℝ} {r t : ℝ} {b d : Fl ℝ}
    {s : SparseCochain} {x : ℕ → ℕ → ℤ} (wf : ProjWellFormed o) (hb : PositiveBump a.bump)
    (hok : (projGetCoordinates eigh fuel o a).2 = .ok X)
    (hr : (projGetCoordinates eigh fuel o a).1.radius = some (.fin r, .fin t))
    (hs : getRepresentativeCocycle o.dgms o.cocycles a.cocycleIdx 1 = .ok (b, d, s)) (hx : RepresentsPairs s x)
    (ht : LandmarkTriangle o.nLand o.dist o.distLandLand) (hc : PairCocycleMod 2 o.nLand o.distLandLand t x)
    (he : EighSpec eigh) (hall : ∀ i < o.nData, ∃ l < o.nLand, o.dist l i < r) (D : ℕ) (hD : a.dim = D) (hDL : D < o.nLand) :
    ∃ (w : ℕ → ℕ → ℝ) (V : List (Option ℝ)) (β : ℕ → ℕ), CoverData o a r w β ∧
      ppca eigh fuel (classMapVia o.nLand o.nData o.dist r (signVector x w) β) a.dim a.mode = .ok ⟨V, X⟩ ∧
      (D + 1 = o.nLand ∨ InSpanOf (D + 1) o.nLand o.nData (signVector x w) β →
        ∃ y : ℕ → ℕ → ℝ, (∀ i < o.nData, ∀ k < X.cols, X.at' i k = some (y i k)) ∧
          ∀ (n : ℕ) (i l : ℕ → ℕ), LoopInCover o.nLand o.dist r n i l → (∀ q ≤ n, i q < o.nData) →
            (Even (∑ q ∈ Finset.range n, x (l q) (l (q + 1))) →
              0 < ∏ q ∈ Finset.range n, ∑ k ∈ Finset.range X.cols, y (i q) k * y (i (q + 1)) k) ∧
            (Odd (∑ q ∈ Finset.range n, x (l q) (l (q + 1))) →
              ∏ q ∈ Finset.range n, ∑ k ∈ Finset.range X.cols, y (i q) k * y (i (q + 1)) k < 0)) := by
  obtain ⟨rfl, w, V, β, hcov, h1, -⟩ := flat_call (χ := fun v : ℤ => (-1 : ℝ) ^ v) wf hb hok hr hs
    (fun M hM => projMatrix_apply hx hM)
  refine ⟨w, V, β, hcov, h1, fun hspan => ?_⟩
  have hspan' : InSpanOf (D + 1) o.nLand o.nData (signVector x w) β := by
    rcases hspan with h | h
    · rw [h]; exact inSpanOf_all _ _ _ _
    · exact h
  rw [hD] at h1
  obtain ⟨y, hy, hl⟩ := flat_holonomy (χ := fun v : ℤ => (-1 : ℝ) ^ v) he sign_character
    hx.antisymm ht hcov hc (fun i hi => hall i hi) D hDL h1 hspan'
  refine ⟨y, hy, fun n i l hloop hi => ?_⟩
  obtain ⟨ρ, hρ, e⟩ := hl n i l hloop hi
  have e' : ∏ q ∈ Finset.range n, ∑ k ∈ Finset.range X.cols, y (i q) k * y (i (q + 1)) k =
      ρ * (-1 : ℝ) ^ (-∑ q ∈ Finset.range n, x (l q) (l (q + 1))) := e
  rw [e']
  constructor
  · intro h
    rw [h.neg.neg_one_zpow, mul_one]; exact hρ
  · intro h
    rw [h.neg.neg_one_zpow]; linarith

end Dreimac
