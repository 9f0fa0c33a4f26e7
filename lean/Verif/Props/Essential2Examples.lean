import Verif.Props.Essential2
import Verif.Props.ChernExamples

/-! # C134 for an octahedron of landmarks -/

namespace Dreimac

open Real Finset

/-- The data point below 14 in the same place as `i`. -/
def cheRep (i : ℕ) : ℕ := if i < 6 then i else 6 + (i - 6) % 8

theorem cheRep_lt (i : ℕ) : cheRep i < 14 := by unfold cheRep; split_ifs <;> omega

theorem cheDist_rep (u i : ℕ) : cheDist u (cheRep i) = cheDist u i := by
  unfold cheRep
  split_ifs with h
  · rfl
  · exact (cheDist_face u i h).symm

/-- The weights: 1 at a vertex, `1 / 3` at the three vertices around the centre of a face. -/
def cheV (u i : ℕ) : ℚ := if i < 6 then (if u = i then 1 else 0) else if cheDist u i = 6 then 1 / 3 else 0

theorem che_all_weights {N : ℕ} {w : ℕ → ℕ → ℝ} (hw : IsBumpWeights cheS N cheδ (3 / 4) bumpLinear w) {i : ℕ} (hi : i < N) :
    ∀ u ∈ cheS, w u i = (cheV u (cheRep i) : ℝ) := by
  have key : ∀ i < 14, (∃ u ∈ cheS, cheDist u i ≤ 6) ∧
      (∀ u ∈ cheS, 8 ≤ cheDist u i ∨ cheDist u i ≤ 6) ∧
      0 < ∑ u ∈ cheS, (if cheDist u i ≤ 6 then (3 / 4 - cheDist u i / 10 : ℚ) else 0) ∧
      ∀ u ∈ cheS, (if cheDist u i ≤ 6 then (3 / 4 - cheDist u i / 10 : ℚ) else 0) = cheV u i *
        ∑ u ∈ cheS, (if cheDist u i ≤ 6 then (3 / 4 - cheDist u i / 10 : ℚ) else 0) := by decide +kernel
  obtain ⟨⟨u₀, hu₀, h₀⟩, hk, hpos, hval⟩ := key _ (cheRep_lt i)
  simp only [cheDist_rep] at h₀ hk hpos hval
  have hd6 : ∀ {u}, cheDist u i ≤ 6 → cheδ u i < 3 / 4 := by
    intro u h
    have : (cheDist u i : ℝ) ≤ 6 := by exact_mod_cast h
    unfold cheδ
    linarith
  obtain ⟨φ, f1, f2, f3⟩ := hw i hi ⟨u₀, hu₀, hd6 h₀⟩
  have hφ : ∀ u ∈ cheS, φ u = ((if cheDist u i ≤ 6 then (3 / 4 - cheDist u i / 10 : ℚ) else 0 : ℚ) : ℝ) := by
    intro u hu
    by_cases h : cheDist u i ≤ 6
    · have := (f1 u hu).1 (hd6 h)
      rw [if_pos h]
      unfold bumpLinear at this
      injection this with this
      rw [← this]
      unfold cheδ
      push_cast
      ring
    · rw [(f1 u hu).2, if_neg h]
      · simp
      · have h1 := (hk u hu).resolve_right h
        have : (8 : ℝ) ≤ cheDist u i := by exact_mod_cast h1
        unfold cheδ
        linarith
  set s : ℚ := ∑ u ∈ cheS, (if cheDist u i ≤ 6 then (3 / 4 - cheDist u i / 10 : ℚ) else 0) with hs
  have hsum : ∑ v ∈ cheS, φ v = (s : ℝ) := by rw [sum_congr rfl hφ, hs, Rat.cast_sum]
  have hs0 : (s : ℝ) ≠ 0 := by exact_mod_cast hpos.ne'
  intro u hu
  rw [f3 u hu, hφ u hu, hsum, hval u hu, Rat.cast_mul, mul_div_assoc, div_self hs0, mul_one]

/-- Within a ball the weights change by at most `4 / 3`. -/
theorem che_step {N : ℕ} {w : ℕ → ℕ → ℝ} (hw : IsBumpWeights cheS N cheδ (3 / 4) bumpLinear w) :
    OnCommonBalls cheS N cheδ (3 / 4) fun i i' => (1 / 8 : ℝ) * ∑ v ∈ cheS, |w v i' - w v i| ≤ 1 / 6 := by
  have key : ∀ u ∈ cheS, ∀ i < 14, ∀ i' < 14, cheDist u i < 8 → cheDist u i' < 8 →
      ∑ v ∈ cheS, |cheV v i' - cheV v i| ≤ 4 / 3 := by decide +kernel
  intro u hu i hi i' hi' hd hd'
  have hlt : ∀ {i}, cheδ u i < 3 / 4 → cheDist u (cheRep i) < 8 := by
    intro i h
    rw [cheDist_rep]
    exact che_lt (n := 8) (by push_cast; linarith)
  have h1 := key u hu _ (cheRep_lt i) _ (cheRep_lt i') (hlt hd) (hlt hd')
  have h2 : ∑ v ∈ cheS, |w v i' - w v i| = ((∑ v ∈ cheS, |cheV v (cheRep i') - cheV v (cheRep i)| : ℚ) : ℝ) := by
    rw [Rat.cast_sum]
    refine sum_congr rfl fun v hv => ?_
    rw [che_all_weights hw hi v hv, che_all_weights hw hi' v hv]
    push_cast
    rfl
  have h3 : ((∑ v ∈ cheS, |cheV v (cheRep i') - cheV v (cheRep i)| : ℚ) : ℝ) ≤ ((4 / 3 : ℚ) : ℝ) := by exact_mod_cast h1
  beta_reduce
  rw [h2]
  push_cast at h3 ⊢
  linarith

/-- The class of the octahedron does not vanish at its birth. -/
theorem che_born {c : ℕ → ℕ → ℕ → ℤ} (hc : ListsLift2 41 cheS [⟨[4, 0, 2], 40⟩] c) : BornAt2 id 41 cheS cheδ 1 c := by
  rintro ⟨m, -, hm⟩
  have k1 : ∀ u ∈ cheS, ∀ v ∈ cheS, ∑ w ∈ cheS, cheH u v w = 0 := by decide +kernel
  have k2 : ∀ v ∈ cheS, ∀ w ∈ cheS, ∑ u ∈ cheS, cheH u v w = 0 := by decide +kernel
  have k3 : ∀ u ∈ cheS, ∀ w ∈ cheS, ∑ v ∈ cheS, cheH u v w = 0 := by decide +kernel
  have e1 : ∑ u ∈ cheS, ∑ v ∈ cheS, ∑ w ∈ cheS, cheH u v w * m u v = 0 := by
    refine sum_eq_zero fun u hu => sum_eq_zero fun v hv => ?_
    rw [← sum_mul, k1 u hu v hv, zero_mul]
  have e2 : ∑ u ∈ cheS, ∑ v ∈ cheS, ∑ w ∈ cheS, cheH u v w * m v w = 0 := by
    rw [sum_comm]
    refine sum_eq_zero fun v hv => ?_
    rw [sum_comm]
    refine sum_eq_zero fun w hw => ?_
    rw [← sum_mul, k2 v hv w hw, zero_mul]
  have e3 : ∑ u ∈ cheS, ∑ v ∈ cheS, ∑ w ∈ cheS, cheH u v w * m u w = 0 := by
    refine sum_eq_zero fun u hu => ?_
    rw [sum_comm]
    refine sum_eq_zero fun w hw => ?_
    rw [← sum_mul, k3 u hu w hw, zero_mul]
  have hdvd : (41 : ℤ) ∣ ∑ u ∈ cheS, ∑ v ∈ cheS, ∑ w ∈ cheS, cheH u v w * (cheC u v w - (m u v + m v w - m u w)) := by
    refine dvd_sum fun u hu => dvd_sum fun v hv => dvd_sum fun w hw => ?_
    have key : ∀ u ∈ cheS, ∀ v ∈ cheS, ∀ w ∈ cheS, cheH u v w = 0 ∨ cheDist u v = 10 ∧ cheDist v w = 10 ∧ cheDist u w = 10 := by
      decide +kernel
    rcases key u hu v hv w hw with h | ⟨h1, h2, h3⟩
    · rw [h, zero_mul]; exact dvd_zero _
    · refine Dvd.dvd.mul_left ?_ _
      rw [← che_lift hc u hu v hv w hw]
      refine hm u hu v hv w hw ?_ ?_ ?_ <;> simp [cheδ, h1, h2, h3]
  have e : ∀ u v w, cheH u v w * (cheC u v w - (m u v + m v w - m u w)) = cheH u v w * cheC u v w - cheH u v w * m u v -
      cheH u v w * m v w + cheH u v w * m u w := fun u v w => by ring
  simp only [e, sum_add_distrib, sum_sub_distrib, e1, e2, e3] at hdvd
  have : ¬ (41 : ℤ) ∣ ∑ u ∈ cheS, ∑ v ∈ cheS, ∑ w ∈ cheS, cheH u v w * cheC u v w := by decide +kernel
  exact this (by simpa using hdvd)

theorem che_bridged {N : ℕ} (hN : 14 ≤ N) : Bridged2 id cheS N cheδ 1 (3 / 4) := by
  have key : ∀ u ∈ cheS, ∀ v ∈ cheS, ∀ z ∈ cheS, cheDist u v < 11 → cheDist v z < 11 → cheDist u z < 11 →
      ∃ i < 14, cheDist u i ≤ 6 ∧ cheDist v i ≤ 6 ∧ cheDist z i ≤ 6 := by decide +kernel
  have hle : ∀ {u v}, id (cheδ u v) ≤ 1 → cheDist u v < 11 := fun h => che_lt (n := 11) (by
    have : cheδ _ _ ≤ 1 := h
    push_cast; linarith)
  have hd6 : ∀ {u i}, cheDist u i ≤ 6 → cheδ u i < 3 / 4 := by
    intro u i h
    have : (cheDist u i : ℝ) ≤ 6 := by exact_mod_cast h
    unfold cheδ
    linarith
  intro u hu v hv z hz h1 h2 h3
  obtain ⟨i, hi, d1, d2, d3⟩ := key u hu v hv z hz (hle h1) (hle h2) (hle h3)
  exact ⟨i, by omega, hd6 d1, hd6 d2, hd6 d3⟩

/-- C134 on the octahedron with 30000 data points and exact solvers: the rows cannot be multiplied by phases such that all inner products
on common balls have phases below a sixth of a turn. -/
example (history : List ProjArgs) : ∃ (env : CPOracles) (o : ProjObj) (X : Arr ℂ) (y : ℕ → ℕ → ℂ), EighSpec env.eigh ∧
    ExactLsq env.lsqr ∧ cpInit idealArgsort cheRipser (cheInput 30000) 6 41 2 = .ok o ∧
    (cpGetCoordinates env 6 (cpHistory env 6 o history)
      ⟨.fin (1 / 2), .int 0, 5, bumpLinear, false, true, .exponential⟩).2 = .ok X ∧
    (∀ i < 30000, ∀ m < 6, X.at' i m = some (y i m)) ∧
    ¬ ∃ φ : ℕ → ℂ, (∀ i < 30000, ‖φ i‖ = 1) ∧ OnCommonBalls cheS 30000 cheδ (3 / 4) fun i i' =>
      |Complex.arg (∑ m ∈ range 6, star (φ i * y i m) * (φ i' * y i' m))| < π / 3 := by
  obtain ⟨eigh, he⟩ := exists_eighSpec (𝕜 := ℂ)
  obtain ⟨o, dgm, coc, σ, h1, h5, h6, h7, h8⟩ := C134_complex_projective_essential_partial (cheInput 30000)
    (cheInput_describes 30000 (by norm_num)) cheRipser_spec idealArgsort idealArgsort_spec le_rfl (by norm_num) (by norm_num)
    (fun _ => rfl) (by norm_num) (by show 10 ^ 6 < 8 * 6 * 30000; norm_num)
  simp only [cheRipser] at h5 h6
  simp at h5 h6
  subst h5 h6
  have hσ : σ = [0] := List.perm_singleton.1 h7.1
  subst hσ
  obtain ⟨c, hc, h9⟩ := h8 0 0 1 2 _ rfl rfl rfl
  obtain ⟨X, y, w, ν, e1, e2, e3, e4, e5, e6, e7, e8⟩ := h9 (che_born hc) ⟨idealLsqr, idealMilp, eigh⟩ 6 history (1 / 2) false true
    bumpLinear .exponential he le_rfl (by norm_num) positiveBump_linear (by simp) (3 / 4) (by norm_num)
    (che_bridged (show 14 ≤ 30000 by norm_num)) (che_cocycle hc) (fun i _ => ⟨cheNear i, cheNear_ok i⟩)
  have hM := che_bound (che_lift hc) e6 (e7 idealLsqr_exact)
  refine ⟨⟨idealLsqr, idealMilp, eigh⟩, o, X, y, he, idealLsqr_exact, h1, e1, e4, ?_⟩
  have := e8 _ (1 / 6) hM (by norm_num) (che_step e5)
  rwa [show 2 * π * (1 / 3 - 1 / 6) = π / 3 by ring] at this

/-- C134 on the same octahedron with 14 data points: all inner products on common balls are positive, although the class does not
vanish. -/
example (env : CPOracles) (he : EighSpec env.eigh) : ∃ (o : ProjObj) (X : Arr ℂ) (y : ℕ → ℕ → ℂ),
    cpInit idealArgsort cheRipser (cheInput 14) 6 41 2 = .ok o ∧
    (cpGetCoordinates env 6 o ⟨.fin (1 / 2), .int 0, 5, bumpLinear, false, true, .exponential⟩).2 = .ok X ∧
    (∀ i < 14, ∀ m < 6, X.at' i m = some (y i m)) ∧
    OnCommonBalls cheS 14 cheδ (3 / 4) fun i i' => ∃ t : ℝ, 0 < t ∧ ∑ m ∈ range 6, star (y i m) * y i' m = t := by
  obtain ⟨o, dgm, coc, σ, h1, h5, h6, h7, h8⟩ := C134_small_data (cheInput 14)
    (cheInput_describes 14 (by norm_num)) cheRipser_spec idealArgsort idealArgsort_spec le_rfl (by norm_num) (by norm_num)
    (fun _ => rfl) (by norm_num) (by show 8 * 6 * 14 ≤ 10 ^ 6; norm_num)
  simp only [cheRipser] at h5 h6
  simp at h5 h6
  subst h5 h6
  have hσ : σ = [0] := List.perm_singleton.1 h7.1
  subst hσ
  obtain ⟨c, hc, h9⟩ := h8 0 0 1 2 _ rfl rfl rfl
  obtain ⟨X, y, e1, e2, e3, e4, e5⟩ := h9 env 6 [] (1 / 2) false true bumpLinear .exponential he le_rfl (by norm_num)
    positiveBump_linear (by simp) (3 / 4) (by norm_num) (che_cocycle hc) (fun i _ => ⟨cheNear i, cheNear_ok i⟩)
  exact ⟨o, X, y, h1, e1, e4, e5⟩

/-- C134: with the standard range the radius exceeds the birth: for example, birth 1, death 4, percentage 1/2. -/
example : Bridged2 id cheS 30000 cheδ 1 (3 / 2) :=
  C134_standard_range (d := 4) (perc := 1 / 2) (η := 0) (fun u hu => by
      have : ∀ u ∈ cheS, u < 6 := by decide
      exact (this u hu).trans (by norm_num))
    (fun u hu => by
      have : ∀ u ∈ cheS, cheDist u u = 0 := by decide
      simp [cheδ, this u hu]) (fun x => by simp) le_rfl (by norm_num) (by norm_num) (by norm_num)

end Dreimac
