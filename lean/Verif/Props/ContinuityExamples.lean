import Verif.Props.Continuity
import Verif.Props.ChernExamples
import Verif.Props.EndToEndHolonomyExamples

/-!
# C125 on the octagon and the octahedron, with a further data point near one of the others
-/

namespace Dreimac

open Real Finset

noncomputable section

/-- The distances `δ`, with copies of data point `i₀` moved by `ε` from number `n` on. -/
def addPoints (δ : ℕ → ℕ → ℝ) (n i₀ : ℕ) (ε : ℝ) (u i : ℕ) : ℝ := if i < n then δ u i else δ u i₀ + ε

theorem addPoints_old {δ : ℕ → ℕ → ℝ} {n i₀ : ℕ} {ε : ℝ} {u i : ℕ} (h : i < n) : addPoints δ n i₀ ε u i = δ u i := if_pos h

theorem addPoints_new {δ : ℕ → ℕ → ℝ} {n i₀ : ℕ} {ε : ℝ} {u i : ℕ} (h : ¬ i < n) : addPoints δ n i₀ ε u i = δ u i₀ + ε := if_neg h

theorem addPoints_table {δ : ℕ → ℕ → ℝ} {R n N i₀ : ℕ} {ε : ℝ} (hε : 0 ≤ ε) (hR : R ≤ n) (hi : i₀ < n) (h : IsDistanceTable R n δ) :
    IsDistanceTable R N (addPoints δ n i₀ ε) where
  nonneg u hu i _ := by
    by_cases hi' : i < n
    · rw [addPoints_old hi']; exact h.nonneg u hu i hi'
    · rw [addPoints_new hi']; exact add_nonneg (h.nonneg u hu _ hi) hε
  symm u hu v hv := by rw [addPoints_old (by omega), addPoints_old (by omega)]; exact h.symm u hu v hv
  triangle u hu v hv i _ := by
    rw [addPoints_old (i := v) (by omega)]
    by_cases hi' : i < n
    · rw [addPoints_old hi', addPoints_old hi']; exact h.triangle u hu v hv i hi'
    · rw [addPoints_new hi', addPoints_new hi']
      have := h.triangle u hu v hv _ hi
      linarith

/-- Ripser only sees the distances between rows. -/
theorem RipserSpec.congr {ρ : ℝ → ℝ} {n k : ℕ} {δ δ' : ℕ → ℕ → ℝ} {p : ℤ} {q : ℕ} {res : RipserResult ℝ} (h : RipserSpec ρ n k δ p q res)
    (he : ∀ u < n, ∀ v < n, δ' u v = δ u v) : RipserSpec ρ n k δ' p q res where
  count := h.count
  nodup := h.nodup
  range := h.range
  dists l hl i hi := by rw [he _ (h.range _ (List.getElem_mem hl)) _ hi]; exact h.dists l hl i hi
  dims := h.dims
  classes := h.classes
  intervals := h.intervals
  simplices := h.simplices
  cocycles dgm coc h1 h2 j pt c h3 h4 := by
    obtain ⟨x, hx, hc⟩ := h.cocycles dgm coc h1 h2 j pt c h3 h4
    refine ⟨x, hx, fun t ht u hu v hv w hw e1 e2 e3 => ?_⟩
    rw [he _ (h.range _ hu) _ (h.range _ hv)] at e1
    rw [he _ (h.range _ hv) _ (h.range _ hw)] at e2
    rw [he _ (h.range _ hu) _ (h.range _ hw)] at e3
    exact hc t ht u hu v hv w hw e1 e2 e3

theorem dataEnergy_congr {S : Finset ℕ} {δ δ' : ℕ → ℕ → ℝ} (he : ∀ u ∈ S, ∀ v ∈ S, δ' u v = δ u v) (t : ℝ) (c : ℕ → ℕ → ℤ) (f : ℕ → ℝ) :
    dataEnergy S δ' t c f = dataEnergy S δ t c f := by
  unfold dataEnergy
  refine sum_congr rfl fun u hu => sum_congr rfl fun v hv => ?_
  rw [he u hu v hv]

theorem dataEnergy2_congr {S : Finset ℕ} {δ δ' : ℕ → ℕ → ℝ} (he : ∀ u ∈ S, ∀ v ∈ S, δ' u v = δ u v) (t : ℝ) (c : ℕ → ℕ → ℕ → ℤ)
    (ν : ℕ → ℕ → ℝ) : dataEnergy2 S δ' t c ν = dataEnergy2 S δ t c ν := by
  unfold dataEnergy2
  refine sum_congr rfl fun u hu => sum_congr rfl fun v hv => sum_congr rfl fun w hw => ?_
  rw [he u hu v hv, he v hv w hw, he u hu w hw]

/-- The octagon with a ninth data point at distance `1/100` from point 1, as a rectangular distance matrix. -/
def nonaδ : ℕ → ℕ → ℝ := addPoints octδ 8 1 (1 / 100)

def nonaInput : DataInput := ⟨8, 9, nonaδ, .float, true⟩

theorem nonaInput_describes : DescribesData nonaInput nonaδ where
  rows := by show 8 ≤ 9; norm_num
  metric := addPoints_table (by norm_num) le_rfl (by norm_num) octInput_describes.metric
  entries := fun _ _ _ _ _ => rfl

theorem nonaRipser_spec (p a : ℤ) (h0 : 0 ≤ a) (hp : a < p) : RipserSpec id 8 4 nonaδ p 1 (octRipser a) :=
  (octRipser_spec p a h0 hp).congr fun _ _ _ hv => addPoints_old hv

theorem nona_covered (a : ℤ) : ∀ i < nonaInput.nPoints, ∃ u ∈ (octRipser a).idxPerm, nonaδ u i < 3 / 2 := by
  intro i hi
  by_cases h : i < 8
  · obtain ⟨u, hu, h'⟩ := oct_covered a i h
    exact ⟨u, hu, by unfold nonaδ; rw [addPoints_old h]; exact h'⟩
  · refine ⟨0, (by decide : 0 ∈ [0, 4, 2, 6]), ?_⟩
    unfold nonaδ
    rw [addPoints_new h]
    norm_num [octδ, cyc8]

theorem nona_nearby : NearbyPoints octS nonaInput.nPoints nonaδ (3 / 2) bumpLinear 0 1 8 (1 / 2) (1 / 100) where
  land := by decide
  data := by show 1 < 9 ∧ 8 < 9; norm_num
  ball := by
    unfold nonaδ
    rw [addPoints_old (by norm_num), addPoints_new (by norm_num)]
    norm_num [octδ, cyc8]
  height := by
    unfold nonaδ
    rw [addPoints_old (by norm_num)]
    norm_num [octδ, cyc8, bumpLinear]
  near v _ := by
    unfold nonaδ
    rw [addPoints_old (by norm_num), addPoints_new (by norm_num), sub_add_cancel_left, abs_neg, abs_of_pos] <;> norm_num

/-- C125: the rows of the lens coordinates of the points 1 and 8 have an inner product of absolute value at least `0.92`. -/
example (eigh : Eigh ℂ) (he : EighSpec eigh) : ∃ o X, ∃ y : ℕ → ℕ → ℂ, lensInit idealArgsort (octRipser 2) nonaInput 3 1 = .ok o ∧
    (lensGetCoordinates eigh 4 o ⟨.fin (1 / 2), .int 0, 4, bumpLinear, false, true, .exponential⟩).2 = .ok X ∧
    (∀ i < 9, ∀ m < 4, X.at' i m = some (y i m)) ∧ 92 / 100 ≤ ‖∑ m ∈ range 4, star (y 1 m) * y 8 m‖ := by
  obtain ⟨o, dgm, coc, σ, h1, h5, h6, h7, h8⟩ := C125_lens_lipschitz nonaInput nonaInput_describes
    (nonaRipser_spec 3 2 (by norm_num) (by norm_num)) idealArgsort idealArgsort_spec le_rfl (by norm_num) (fun _ => rfl) (by norm_num)
  simp only [octRipser] at h5 h6
  simp at h5 h6
  subst h5 h6
  have hσ : σ = [0] := List.perm_singleton.1 h7.1
  subst hσ
  obtain ⟨X, y, e1, -, -, e2, -, e3⟩ := h8 0 0 2 4 _ rfl rfl rfl eigh 4 [] (1 / 2) false true bumpLinear .exponential he le_rfl
    (by norm_num) positiveBump_linear (by simp) (3 / 2) (by norm_num) (belowDeath_id.2 (by norm_num)) (nona_covered 2)
  rw [octS_eq] at e3
  refine ⟨o, X, y, h1, e1, e2, ?_⟩
  have := e3 1 (C125_bump_functions (by norm_num)).1 0 1 8 _ _ nona_nearby
  norm_num at this ⊢
  exact this

/-- C125: the same for the projective coordinates. -/
example (eigh : Eigh ℝ) (he : EighSpec eigh) : ∃ o X, ∃ y : ℕ → ℕ → ℝ, projInit idealArgsort (octRipser 1) nonaInput 1 = .ok o ∧
    (projGetCoordinates eigh 4 o ⟨.fin (1 / 2), .int 0, 3, bumpLinear, false, true, .direct⟩).2 = .ok X ∧
    (∀ i < 9, ∀ m < 4, X.at' i m = some (y i m)) ∧ 92 / 100 ≤ |∑ m ∈ range 4, y 1 m * y 8 m| := by
  obtain ⟨o, dgm, coc, σ, h1, h5, h6, h7, h8⟩ := C125_projective_lipschitz nonaInput nonaInput_describes
    (nonaRipser_spec 2 1 (by norm_num) (by norm_num)) idealArgsort idealArgsort_spec le_rfl (by norm_num) (fun _ => rfl)
  simp only [octRipser] at h5 h6
  simp at h5 h6
  subst h5 h6
  have hσ : σ = [0] := List.perm_singleton.1 h7.1
  subst hσ
  obtain ⟨X, y, e1, -, -, e2, -, e3⟩ := h8 0 0 2 4 _ rfl rfl rfl eigh 4 [] (1 / 2) false true bumpLinear .direct he le_rfl
    (by norm_num) positiveBump_linear (by simp) (3 / 2) (by norm_num) (belowDeath_id.2 (by norm_num)) (nona_covered 1)
  rw [octS_eq] at e3
  refine ⟨o, X, y, h1, e1, e2, ?_⟩
  have := e3 1 (C125_bump_functions (by norm_num)).1 0 1 8 _ _ nona_nearby
  norm_num at this ⊢
  exact this

theorem nona_land : ∀ u ∈ octS, ∀ v ∈ octS, nonaδ u v = octδ u v := fun u _ v hv =>
  addPoints_old ((by decide : ∀ v ∈ octS, v < 8) v hv)

theorem nonaξ_small : IsIntegerLift 3 octS nonaδ 3 (octξ 2) (octξ (-1)) where
  congr := octξ_small.congr
  antisymm := octξ_small.antisymm
  cocycle u hu v hv w hw h1 h2 h3 := by
    rw [nona_land _ hu _ hv] at h1
    rw [nona_land _ hv _ hw] at h2
    rw [nona_land _ hu _ hw] at h3
    exact octξ_small.cocycle u hu v hv w hw h1 h2 h3

/-- C125: the angles of the points 1 and 8 of the coordinate of the class differ by at most `π / 12.5`, about 14 degrees, up to
a multiple of `2 π`. -/
example (fuel : ℕ) (history : List (ℕ × Args)) : ∃ o θ, toroInit idealArgsort (octRipser 2) nonaInput 4 3 1 = .ok o ∧
    (getCoordinates idealEnv fuel (afterCalls idealEnv o history) ⟨.fin (1 / 2), [.int 0], bumpLinear, false, true⟩).2 =
      .ok [θ] ∧ ∃ (y y' : ℝ) (t : ℤ), θ 1 = .fin y ∧ θ 8 = .fin y' ∧ |y - y' - t * (2 * π)| ≤ 8 / 100 * π := by
  obtain ⟨o, dgm, coc, σ, h1, h5, h6, h7, h8⟩ := C125_toroidal_lipschitz nonaInput nonaInput_describes
    (nonaRipser_spec 3 2 (by norm_num) (by norm_num)) idealArgsort idealArgsort_spec le_rfl (by norm_num) (by norm_num) (fun _ => rfl)
    (by norm_num)
  obtain ⟨o', dgm', coc', σ', h1', h5', h6', h7', h8'⟩ := C89_circular_coordinates nonaInput nonaInput_describes
    (nonaRipser_spec 3 2 (by norm_num) (by norm_num)) idealArgsort idealArgsort_spec le_rfl (by norm_num) (by norm_num) (fun _ => rfl)
    (by norm_num)
  rw [h1] at h1'
  injection h1' with h1'
  subst h1'
  simp only [octRipser] at h5 h6 h5' h6'
  simp at h5 h6 h5' h6'
  subst h5 h6 h5' h6'
  have hσ : σ = [0] := List.perm_singleton.1 h7.1
  have hσ' : σ' = [0] := List.perm_singleton.1 h7'.1
  subst hσ hσ'
  obtain ⟨ξ, hξ, h9⟩ := h8' 0 0 2 4 _ rfl rfl rfl
  obtain rfl := hξ.unique (octξ_lists 2)
  have h10 := (h9 idealEnv (1 / 10) (1 / 10) (by norm_num) (by norm_num) idealMilp_sound idealMilp_complete fuel history
    (1 / 2) false bumpLinear (by norm_num) positiveBump_linear (3 / 2) (by norm_num) (belowDeath_id.2 (by norm_num))).1
  rw [show (2 : ℝ) * (3 / 2) = 3 by norm_num, octS_eq] at h10
  obtain ⟨θ, -, -, -, e1, -⟩ := h10 ⟨_, nonaξ_small⟩
  have hT := C46_single_class idealEnv fuel (afterCalls idealEnv o history) (.fin (1 / 2)) (.int 0) bumpLinear false true
  simp only at hT
  have hok := (hT.2.2.2.1 θ).1 e1
  have hsel : SelectsClasses [(.fin 2, .fin 4)] [[⟨[6, 0], 2⟩]] [0] (fun _ : Fin 1 => 0) (fun _ => 2) (fun _ => 4) (fun _ => octξ 2) :=
    ⟨fun a => ⟨0, _, rfl, rfl, rfl, octξ_lists 2⟩⟩
  obtain ⟨θ', w, c, f, U, g0, -, gU, g2, -, -, g4, g5⟩ := h8 1 _ _ _ _ hsel idealEnv (1 / 10) (1 / 10) (by norm_num) (by norm_num)
    idealMilp_sound fuel history (1 / 2) false bumpLinear positiveBump_linear 2 4 (3 / 2)
    (by simp [IsGreatest, mem_upperBounds]) (by simp [IsLeast, mem_lowerBounds]) (by norm_num) (by norm_num) (by norm_num)
    (belowDeath_id.2 (by norm_num)) [θ] (by simpa using hok)
  rw [show (2 : ℝ) * (3 / 2) = 3 by norm_num, octS_eq] at g2 g4 g5
  have hc : ∀ u ∈ octS, ∀ v ∈ octS, c 0 u v = octξ (-1) u v := (g2 0).2 _ nonaξ_small (by decide)
  have hU := gU rfl
  subst hU
  have hM : FormBound octS nonaδ 3 (fun u v => ∑ a, (1 : Matrix (Fin 1) (Fin 1) ℤ) 0 a * c a u v)
      (fun u => ∑ a, ((1 : Matrix (Fin 1) (Fin 1) ℤ) 0 a : ℤ) * f a u) (1 / 4) := by
    have hmin : ∀ g, dataEnergy octS octδ 3 (c 0) (f 0) ≤ dataEnergy octS octδ 3 (c 0) g := by
      intro g
      rw [← dataEnergy_congr nona_land, ← dataEnergy_congr nona_land]
      exact g4 idealLsqr_exact 0 g
    intro u hu v hv h
    rw [nona_land u hu v hv] at h
    simpa using oct_formBound hc hmin u hu v hv h
  obtain ⟨y, y', t, q1, q2, q3⟩ := g5 0 (1 / 4) 1 hM (C125_bump_functions (by norm_num)).1 0 1 8 _ _ nona_nearby
  have hθ : θ = θ' 0 := by simpa using g0
  refine ⟨o, θ, h1, hok, y, y', t, by rw [hθ]; exact q1, by rw [hθ]; exact q2, q3.trans (le_of_eq ?_)⟩
  norm_num
  ring

/-- The octahedron, with data points from number 14 on that are close to the centre of the first face. -/
def chnδ : ℕ → ℕ → ℝ := addPoints cheδ 14 6 (1 / 1000)

def chnInput (N : ℕ) : DataInput := ⟨6, N, chnδ, .float, true⟩

theorem chnInput_describes {N : ℕ} (hN : 6 ≤ N) : DescribesData (chnInput N) chnδ where
  rows := hN
  metric := addPoints_table (by norm_num) (show 6 ≤ 14 by norm_num) (by norm_num) (cheInput_describes 14 (by norm_num)).metric
  entries := fun _ _ _ _ _ => rfl

theorem chn_land : ∀ u ∈ cheS, ∀ v ∈ cheS, chnδ u v = cheδ u v := fun u _ v hv =>
  addPoints_old ((by decide : ∀ v ∈ cheS, v < 14) v hv)

theorem chn_nearby {N : ℕ} (hN : 15 ≤ N) : NearbyPoints cheS N chnδ (3 / 4) bumpLinear 0 6 14 (3 / 20) (1 / 1000) where
  land := by decide
  data := by omega
  ball := by
    unfold chnδ
    rw [addPoints_old (by norm_num), addPoints_new (by norm_num)]
    norm_num [cheδ, cheDist]
  height := by
    unfold chnδ
    rw [addPoints_old (by norm_num)]
    norm_num [cheδ, cheDist, bumpLinear]
  near v _ := by
    unfold chnδ
    rw [addPoints_old (by norm_num), addPoints_new (by norm_num), sub_add_cancel_left, abs_neg, abs_of_pos] <;> norm_num

/-- C125 for complex projective coordinates, on 30000 data points and with exact solvers. -/
example : ∃ (env : CPOracles) (o : ProjObj) (X : Arr ℂ) (y : ℕ → ℕ → ℂ), EighSpec env.eigh ∧ ExactLsq env.lsqr ∧
    cpInit idealArgsort cheRipser (chnInput 30000) 6 41 2 = .ok o ∧
    (cpGetCoordinates env 6 o ⟨.fin (1 / 2), .int 0, 5, bumpLinear, false, true, .exponential⟩).2 = .ok X ∧
    (∀ i < 30000, ∀ m < 6, X.at' i m = some (y i m)) ∧
    96 / 100 * cos (π * (2 / 100)) ≤ ‖∑ m ∈ range 6, star (y 6 m) * y 14 m‖ := by
  obtain ⟨eigh, he⟩ := exists_eighSpec (𝕜 := ℂ)
  obtain ⟨o, dgm, coc, σ, h1, h5, h6, h7, h8⟩ := C125_complex_projective_lipschitz (chnInput 30000)
    (chnInput_describes (by norm_num)) (cheRipser_spec.congr fun _ _ v hv => addPoints_old (by omega)) idealArgsort idealArgsort_spec
    le_rfl (by norm_num) (by norm_num) (fun _ => rfl) (by norm_num)
  simp only [cheRipser] at h5 h6
  simp at h5 h6
  subst h5 h6
  have hσ : σ = [0] := List.perm_singleton.1 h7.1
  subst hσ
  obtain ⟨c, hc, h9⟩ := h8 0 0 1 2 _ rfl rfl rfl
  have hcoc : IsDataCocycle2 cheS chnδ (2 * (3 / 4)) c := by
    intro u hu v hv w hw z hz k1 k2 k3 k4 k5 k6
    rw [chn_land _ hu _ hv] at k1
    rw [chn_land _ hu _ hw] at k2
    rw [chn_land _ hu _ hz] at k3
    rw [chn_land _ hv _ hw] at k4
    rw [chn_land _ hv _ hz] at k5
    rw [chn_land _ hw _ hz] at k6
    exact che_cocycle hc u hu v hv w hw z hz k1 k2 k3 k4 k5 k6
  have hcov : ∀ i < 30000, ∃ u ∈ [3, 0, 2, 4, 1, 5], chnδ u i < 3 / 4 := by
    intro i _
    by_cases hi : i < 14
    · refine ⟨cheNear i, (cheNear_ok i).1, ?_⟩
      unfold chnδ
      rw [addPoints_old hi]
      exact (cheNear_ok i).2
    · refine ⟨0, by decide, ?_⟩
      unfold chnδ
      rw [addPoints_new hi]
      norm_num [cheδ, cheDist]
  obtain ⟨X, y, ν, e1, e2, e3, e4, e6, e7, e8⟩ := h9 ⟨idealLsqr, idealMilp, eigh⟩ 6 [] (1 / 2) false true bumpLinear
    .exponential he le_rfl (by norm_num) positiveBump_linear (by simp) (3 / 4) (by norm_num) hcoc hcov
  have hM : FormBound2 cheS chnδ (2 * (3 / 4)) c ν (1 / 8) := by
    have := che_bound (che_lift hc) e6 (fun g hg => by
      rw [← dataEnergy2_congr chn_land, ← dataEnergy2_congr chn_land]
      exact e7 idealLsqr_exact g hg)
    intro u hu v hv w hw k1 k2 k3
    rw [chn_land _ hu _ hv] at k1
    rw [chn_land _ hv _ hw] at k2
    rw [chn_land _ hu _ hw] at k3
    exact this u hu v hv w hw k1 k2 k3
  have q := e8 _ 1 hM (C125_bump_functions (by norm_num)).1 0 6 14 _ _ (chn_nearby (N := 30000) (by norm_num)) (by norm_num) (by norm_num)
  refine ⟨⟨idealLsqr, idealMilp, eigh⟩, o, X, y, he, idealLsqr_exact, h1, e1, e4, ?_⟩
  have e : (1 - ((6 : ℕ) : ℝ) * 1 * (1 / 1000) / (3 / 20)) * cos (4 * π * (1 / 8) * (((6 : ℕ) : ℝ) * 1 * (1 / 1000) / (3 / 20))) =
      96 / 100 * cos (π * (2 / 100)) := by
    congr 1
    · norm_num
    · congr 1
      norm_num
      ring
  rw [← e]
  exact q

end

end Dreimac
