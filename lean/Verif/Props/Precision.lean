import Verif.Props.EndToEnd
import Verif.Spec.SinglePrecision
import Verif.Lemmas.Rounding

/-!
# C119: ripser's single precision
-/

namespace Dreimac

variable {δ : ℕ → ℕ → ℝ} {k maxdim : ℕ} {p : ℤ} {res : RipserResult ℝ} {ρ : ℝ → ℝ} {u η : ℝ}

/-- 32-bit floats: relative error `2 ^ -24`, underflow error `2 ^ -150`. -/
theorem converts_single : Converts single (2 ^ (-24 : ℤ)) (2 ^ (-150 : ℤ)) where
  mono := fun _ _ h => roundUnbounded_mono (by norm_num) h
  error := fun x => by
    have := abs_roundUnbounded_sub_all (p := 24) (emin := -126) x
    exact this

/-- Exact arithmetic. -/
theorem converts_id : Converts id 0 0 := ⟨monotone_id, fun x => by simp⟩

/-- **C119.** The threshold prescribed by `perc` comes before the death in ripser's precision if the part
`(1 - perc) * (d - start)` of the lifetime that the percentage leaves is larger than the conversion error at the death. -/
theorem C119_threshold_partial (hρ : Converts ρ u η) (hu : 0 ≤ u) {start d perc t : ℝ} (h0 : 0 ≤ perc) (h1 : perc ≤ 1)
    (hs : 0 ≤ start) (hsd : start ≤ d) (hmargin : u * d + η < (1 - perc) * (d - start))
    (ht : t = (1 - perc) * start + perc * d) : BelowDeath ρ t d := by
  intro x hx
  have hd : t ≤ d := ht ▸ threshold_le h0 h1 hsd
  have ht0 : 0 ≤ t := by rw [ht]; exact add_nonneg (mul_nonneg (by linarith) hs) (mul_nonneg h0 (hs.trans hsd))
  have e := abs_le.1 (hρ.error t)
  rw [abs_of_nonneg ht0] at e
  have hm := hρ.mono hx.le
  have : u * t ≤ u * d := mul_le_mul_of_nonneg_left hd hu
  have : d - t = (1 - perc) * (d - start) := by rw [ht]; ring
  linarith [e.2]

/-- **C119.** The whole of `CircularCoords(…).get_coordinates(…)` (see C89) with a ripser that works in single precision: if the
percentage leaves more than the fraction `2 ^ -24` of the death (and the underflow error) of the lifetime, the call returns the
circular coordinate of an integer cocycle congruent to the class, or reports that there is none. -/
theorem C119_circular_coordinates_partial (x : DataInput) (hx : DescribesData x δ)
    (hr : RipserSpec single x.rows k δ p maxdim res) (argsort : List (Fl ℝ) → List ℕ) (ha : ArgsortSpec argsort) (hm : 1 ≤ maxdim)
    (hk : 0 < k) (hk' : k ≤ 2345) (hf : x.distanceMatrix = true → x.dtype = .float) (hp : 0 < p) :
    ∃ o dgm coc σ, toroInit argsort res x k p maxdim = .ok o ∧ res.dgms[1]? = some dgm ∧ res.cocycles[1]? = some coc ∧
      PersistenceRanking dgm σ ∧
      ∀ (z j : ℕ) (b d : ℝ) (c₀ : List ZRow), σ[z]? = some j → dgm[j]? = some (.fin b, .fin d) → coc[j]? = some c₀ →
      ∃ ξ, ListsCochain c₀ ξ ∧
      ∀ (env : Oracles) (ε τ : ℝ), 0 ≤ τ → 3 * ε + τ < 1 → SolverSound env.milp ε τ → SolverComplete env.milp →
      ∀ (fuel : ℕ) (history : List (ℕ × Args)) (perc : ℝ) (std : Bool) (bump : Fl ℝ → Fl ℝ → Fl ℝ),
      0 ≤ perc → perc ≤ 1 → 0 ≤ b → (if std then 2 * b else b) ≤ d →
      2 ^ (-24 : ℤ) * d + 2 ^ (-150 : ℤ) < (1 - perc) * (d - if std then 2 * b else b) → PositiveBump bump →
      ∀ r : ℝ, 2 * r = (1 - perc) * (if std then 2 * b else b) + perc * d →
      ((∃ c, IsIntegerLift p res.idxPerm.toFinset δ (2 * r) ξ c) →
        ∃ θ w c f, (circularGetCoordinates env fuel (afterCalls env o history) (.fin perc) (.int z) bump std true).2 = .ok θ ∧
          IsIntegerLift p res.idxPerm.toFinset δ (2 * r) ξ c ∧ IsSmallestLift p res.idxPerm.toFinset δ (2 * r) ξ c ∧
          IsBumpWeights res.idxPerm.toFinset x.nPoints δ r bump w ∧
          (ExactLsq env.lsqr → ∀ g, dataEnergy res.idxPerm.toFinset δ (2 * r) c f ≤
            dataEnergy res.idxPerm.toFinset δ (2 * r) c g) ∧
          IsDataCoordinate res.idxPerm.toFinset x.nPoints δ r w c f θ) ∧
      ((¬ ∃ c, IsIntegerLift p res.idxPerm.toFinset δ (2 * r) ξ c) →
        (circularGetCoordinates env fuel (afterCalls env o history) (.fin perc) (.int z) bump std true).2 =
          .error (.noIntegralLift 0)) := by
  obtain ⟨o, dgm, coc, σ, h1, h2, h3, h4, h5⟩ := C89_circular_coordinates x hx hr argsort ha hm hk hk' hf hp
  refine ⟨o, dgm, coc, σ, h1, h2, h3, h4, ?_⟩
  intro z j b d c₀ e1 e2 e3
  obtain ⟨ξ, hξ, h6⟩ := h5 z j b d c₀ e1 e2 e3
  refine ⟨ξ, hξ, ?_⟩
  intro env ε τ hτ hε hs hc fuel history perc std bump p0 p1 hb hbd hmar hbump r hr2
  refine h6 env ε τ hτ hε hs hc fuel history perc std bump hbd hbump r hr2 ?_
  refine C119_threshold_partial converts_single (by positivity) p0 p1 ?_ hbd hmar hr2
  split <;> linarith

/-- The defaults of the code (`perc = 0.5` and, for lens and projective coordinates, `perc = 0.9`) leave enough if the lifetime is at
least one millionth of the death, and the death is not tiny. -/
theorem C119_default_percentages {perc start d : ℝ} (hp : perc = 1 / 2 ∨ perc = 9 / 10) (hd : 2 ^ (-100 : ℤ) ≤ d)
    (h : d / 1000000 ≤ d - start) : 2 ^ (-24 : ℤ) * d + 2 ^ (-150 : ℤ) < (1 - perc) * (d - start) := by
  have e : (2 : ℝ) ^ (-150 : ℤ) = 2 ^ (-50 : ℤ) * 2 ^ (-100 : ℤ) := by rw [← zpow_add₀ two_ne_zero]; norm_num
  have h1 : (2 : ℝ) ^ (-150 : ℤ) ≤ 2 ^ (-50 : ℤ) * d := by
    rw [e]; exact mul_le_mul_of_nonneg_left hd (by positivity)
  have h2 : (0 : ℝ) < d := lt_of_lt_of_le (by positivity) hd
  have h3 : (2 : ℝ) ^ (-24 : ℤ) * d + 2 ^ (-50 : ℤ) * d < d / 10000000 := by
    have : ((2 : ℝ) ^ (-24 : ℤ) + 2 ^ (-50 : ℤ)) < 1 / 10000000 := by norm_num
    nlinarith
  clear e hd
  generalize (2 : ℝ) ^ (-150 : ℤ) = A at *
  generalize (2 : ℝ) ^ (-50 : ℤ) * d = B at *
  generalize (2 : ℝ) ^ (-24 : ℤ) * d = C at *
  rcases hp with rfl | rfl <;> linarith

end Dreimac
