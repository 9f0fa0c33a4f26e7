import Verif.Props.Reduced
import Verif.Props.EndToEndHolonomyExamples

/-!
# C130 on the octagon: real projective coordinates in the projective line
-/

namespace Dreimac

open Real

noncomputable section

theorem oct_weights {w : ℕ → ℕ → ℝ} (hw : IsBumpWeights octS 8 octδ (3 / 2) bumpLinear w) {u i : ℕ} (hu : u ∈ octS) (hi : i < 8) :
    w u i = if cyc8 u i = 0 then 1 else if cyc8 u i = 1 then 1 / 2 else 0 := by
  obtain ⟨φ, h1, -, h3⟩ := hw i hi (by
    have := oct_covered 1 i hi
    obtain ⟨u, hu, h⟩ := this
    exact ⟨u, by rw [← octS_eq 1]; exact List.mem_toFinset.2 hu, h⟩)
  have hφ : ∀ u ∈ octS, φ u = if cyc8 u i ≤ 1 then 3 / 2 - (cyc8 u i : ℝ) else 0 := by
    intro u hu
    by_cases h : cyc8 u i ≤ 1
    · have h' : ((cyc8 u i : ℕ) : ℝ) ≤ (1 : ℕ) := by exact_mod_cast h
      push_cast at h'
      have := (h1 u hu).1 (by unfold octδ; linarith)
      have e : bumpLinear (Fl.fin (octδ u i)) (.fin (3 / 2)) = .fin (3 / 2 - octδ u i) := rfl
      rw [e] at this
      injection this with this
      rw [if_pos h, ← this]; rfl
    · have h' : ((2 : ℕ) : ℝ) ≤ (cyc8 u i : ℕ) := by exact_mod_cast (by omega : 2 ≤ cyc8 u i)
      push_cast at h'
      rw [if_neg h]
      exact (h1 u hu).2 (by unfold octδ; linarith)
  have e : ∑ v ∈ octS, φ v = φ 0 + φ 4 + φ 2 + φ 6 := by
    unfold octS
    rw [Finset.sum_insert (by decide), Finset.sum_insert (by decide), Finset.sum_insert (by decide), Finset.sum_singleton]
    ring
  rw [h3 u hu, e, hφ u hu, hφ 0 (by decide), hφ 4 (by decide), hφ 2 (by decide), hφ 6 (by decide)]
  have hu' : u = 0 ∨ u = 4 ∨ u = 2 ∨ u = 6 := by simpa [octS] using hu
  rcases hu' with rfl | rfl | rfl | rfl <;> interval_cases i <;> norm_num [cyc8]

/-- The component of the vector of data point `i` in direction `v`, squared. -/
def octComp (v : ℕ → ℝ) (i : ℕ) : ℝ := match i with
  | 0 => v 0 ^ 2
  | 1 => (v 0 + v 2) ^ 2 / 2
  | 2 => v 2 ^ 2
  | 3 => (v 2 + v 1) ^ 2 / 2
  | 4 => v 1 ^ 2
  | 5 => (v 1 + v 3) ^ 2 / 2
  | 6 => v 3 ^ 2
  | _ => (v 3 - v 0) ^ 2 / 2

theorem oct_comp {w : ℕ → ℕ → ℝ} (hw : IsBumpWeights octS 8 octδ (3 / 2) bumpLinear w) {β : ℕ → ℕ}
    (hβ : ∀ i < 8, β i ∈ [0, 4, 2, 6] ∧ octδ (β i) i < 3 / 2) (v : ℕ → ℝ) {i : ℕ} (hi : i < 8) :
    (∑ m ∈ Finset.range 4, star (v m) * signVector (octξ 1) w (β i) i ([0, 4, 2, 6].getD m 0)) ^ 2 = octComp v i := by
  obtain ⟨h1, h2⟩ := hβ i hi
  have h2' : cyc8 (β i) i ≤ 1 := by
    by_contra hc
    have : ((2 : ℕ) : ℝ) ≤ (cyc8 (β i) i : ℕ) := by exact_mod_cast (by omega : 2 ≤ cyc8 (β i) i)
    unfold octδ at h2
    push_cast at this
    linarith
  have e0 := oct_weights hw (u := 0) (by decide) hi
  have e4 := oct_weights hw (u := 4) (by decide) hi
  have e2 := oct_weights hw (u := 2) (by decide) hi
  have e6 := oct_weights hw (u := 6) (by decide) hi
  have hs : ((√2)⁻¹ : ℝ) ^ 2 = 1 / 2 := by rw [inv_pow, Real.sq_sqrt (by norm_num)]; norm_num
  simp only [Finset.sum_range_succ, Finset.sum_range_zero, star_trivial, zero_add, signVector, List.getD_cons_zero, List.getD_cons_succ]
  rw [e0, e4, e2, e6]
  simp only [List.mem_cons, List.not_mem_nil, or_false] at h1
  rcases h1 with h1 | h1 | h1 | h1 <;> rw [h1] at h2' ⊢ <;> interval_cases i <;>
    first
    | (exfalso; revert h2'; decide)
    | (norm_num [cyc8, octξ, octComp]; done)
    | (norm_num [cyc8, octξ, octComp]
       first
       | linear_combination (v 0 + v 2) ^ 2 * hs
       | linear_combination (v 2 + v 1) ^ 2 * hs
       | linear_combination (v 1 + v 3) ^ 2 * hs
       | linear_combination (v 3 - v 0) ^ 2 * hs)

/-- The data vectors of the octagon (up to sign). -/
theorem oct_energy_comp {a : ℕ → ℕ → ℝ} (ha : ∀ v : ℕ → ℝ, ∀ i < 8, (∑ m ∈ Finset.range 4, star (v m) * a i m) ^ 2 = octComp v i)
    (v : ℕ → ℕ → ℝ) : capturedEnergy 2 4 8 v a = ∑ k ∈ Finset.range 2, (2 * (v k 0 ^ 2 + v k 1 ^ 2 + v k 2 ^ 2 + v k 3 ^ 2) +
      (v k 0 * v k 2 + v k 2 * v k 1 + v k 1 * v k 3 - v k 3 * v k 0)) := by
  unfold capturedEnergy
  refine Finset.sum_congr rfl fun k _ => ?_
  have : ∑ n ∈ Finset.range 8, ‖∑ i ∈ Finset.range 4, star (v k i) * a n i‖ ^ 2 = ∑ n ∈ Finset.range 8, octComp (v k) n :=
    Finset.sum_congr rfl fun n hn => by rw [Real.norm_eq_abs, sq_abs, ha _ n (Finset.mem_range.1 hn)]
  rw [this]
  simp only [Finset.sum_range_succ, Finset.sum_range_zero, octComp]
  ring

def octBest : ℕ → ℕ → ℝ
  | 0, 0 => (√2)⁻¹
  | 0, 2 => 1 / 2
  | 0, 3 => -1 / 2
  | 1, 1 => (√2)⁻¹
  | 1, 2 => 1 / 2
  | 1, 3 => 1 / 2
  | _, _ => 0

theorem octBest_orthonormal : OrthonormalVecs 2 4 octBest := by
  have hs : ((√2)⁻¹ : ℝ) * (√2)⁻¹ = 1 / 2 := by rw [← sq, inv_pow, Real.sq_sqrt (by norm_num)]; norm_num
  intro j hj k hk
  interval_cases j <;> interval_cases k <;> simp [Finset.sum_range_succ, octBest, -mul_inv_cancel₀, hs] <;> norm_num

theorem oct_defect {t a b c d : ℝ} (ht : 0 < t) (hs : t ^ 2 = 1 / 2) (h : a ^ 2 + b ^ 2 + c ^ 2 + d ^ 2 = 1) :
    a * c + c * b + b * d - d * a ≤ t ∧ (t ≤ a * c + c * b + b * d - d * a → c = t * (a + b) ∧ d = t * (b - a)) := by
  have key : (c - d - 2 * t * a) ^ 2 + (c + d - 2 * t * b) ^ 2 + (a + b - 2 * t * c) ^ 2 + (b - a - 2 * t * d) ^ 2 =
      8 * t * (t - (a * c + c * b + b * d - d * a)) := by
    linear_combination (2 + 4 * t ^ 2) * h - 4 * hs
  have p1 := sq_nonneg (c - d - 2 * t * a)
  have p2 := sq_nonneg (c + d - 2 * t * b)
  have p3 := sq_nonneg (a + b - 2 * t * c)
  have p4 := sq_nonneg (b - a - 2 * t * d)
  constructor
  · by_contra hc
    have := mul_neg_of_pos_of_neg (by positivity : (0 : ℝ) < 8 * t) (by linarith : t - (a * c + c * b + b * d - d * a) < 0)
    linarith
  · intro hq
    have := mul_nonpos_of_nonneg_of_nonpos (by positivity : (0 : ℝ) ≤ 8 * t)
      (by linarith : t - (a * c + c * b + b * d - d * a) ≤ 0)
    have e3 : a + b - 2 * t * c = 0 := by
      rw [← sq_eq_zero_iff]; linarith
    have e4 : b - a - 2 * t * d = 0 := by
      rw [← sq_eq_zero_iff]; linarith
    exact ⟨by linear_combination (-t) * e3 - 2 * c * hs, by linear_combination (-t) * e4 - 2 * d * hs⟩

theorem oct_square {a b c d : ℝ} (h1 : a ^ 2 + b ^ 2 = 1 / 2) (h2 : c ^ 2 + d ^ 2 = 1 / 2) (h3 : a * c + b * d = 0) :
    a ^ 2 + c ^ 2 = 1 / 2 ∧ b ^ 2 + d ^ 2 = 1 / 2 ∧ a * b + c * d = 0 := by
  have key : (a ^ 2 + c ^ 2 - (b ^ 2 + d ^ 2)) ^ 2 + 4 * (a * b + c * d) ^ 2 = 0 := by
    linear_combination (a ^ 2 + b ^ 2 + 1 / 2 + 2 * (c ^ 2 + d ^ 2) - 4 * (c ^ 2 + d ^ 2)) * h1 + (c ^ 2 + d ^ 2 + 1 / 2 - 1) * h2 +
      4 * (a * c + b * d) * h3
  have p1 := sq_nonneg (a ^ 2 + c ^ 2 - (b ^ 2 + d ^ 2))
  have p2 := sq_nonneg (a * b + c * d)
  have e1 : a ^ 2 + c ^ 2 - (b ^ 2 + d ^ 2) = 0 := by rw [← sq_eq_zero_iff]; linarith
  have e2 : a * b + c * d = 0 := by rw [← sq_eq_zero_iff]; linarith
  exact ⟨by linarith, by linarith, e2⟩

/-- Two orthonormal directions that capture most of the energy of the octagon: each captures half of every even point, and more than
half of every odd point. -/
theorem oct_captured {a : ℕ → ℕ → ℝ} (ha : ∀ v : ℕ → ℝ, ∀ i < 8, (∑ m ∈ Finset.range 4, star (v m) * a i m) ^ 2 = octComp v i)
    {v : ℕ → ℕ → ℝ} (hv : CapturesMost 2 4 8 v a) : ∀ i < 8, octComp (v 0) i + octComp (v 1) i =
      if i % 2 = 0 then 1 / 2 else (1 + (√2)⁻¹) / 2 := by
  have hE := hv.2 octBest octBest_orthonormal
  rw [oct_energy_comp ha, oct_energy_comp ha] at hE
  have h00 := hv.1 0 (by norm_num) 0 (by norm_num)
  have h11 := hv.1 1 (by norm_num) 1 (by norm_num)
  have h01 := hv.1 0 (by norm_num) 1 (by norm_num)
  have hs : ((√2)⁻¹ : ℝ) ^ 2 = 1 / 2 := by rw [inv_pow, Real.sq_sqrt (by norm_num)]; norm_num
  have ht0 : (0 : ℝ) < (√2)⁻¹ := by positivity
  simp only [Finset.sum_range_succ, Finset.sum_range_zero, star_trivial, zero_add, octBest, if_true, zero_ne_one, if_false] at hE h00 h11 h01
  generalize (√2)⁻¹ = t at *
  have n0 : v 0 0 ^ 2 + v 0 1 ^ 2 + v 0 2 ^ 2 + v 0 3 ^ 2 = 1 := by linarith
  have n1 : v 1 0 ^ 2 + v 1 1 ^ 2 + v 1 2 ^ 2 + v 1 3 ^ 2 = 1 := by linarith
  obtain ⟨q0, r0⟩ := oct_defect ht0 hs n0
  obtain ⟨q1, r1⟩ := oct_defect ht0 hs n1
  rw [n0, n1] at hE
  have hE' : t + t ≤ (v 0 0 * v 0 2 + v 0 2 * v 0 1 + v 0 1 * v 0 3 - v 0 3 * v 0 0) +
      (v 1 0 * v 1 2 + v 1 2 * v 1 1 + v 1 1 * v 1 3 - v 1 3 * v 1 0) := by
    linear_combination hE - 4 * hs
  obtain ⟨c0, d0⟩ := r0 (by linarith)
  obtain ⟨c1, d1⟩ := r1 (by linarith)
  have f0 : v 0 0 ^ 2 + v 0 1 ^ 2 = 1 / 2 := by
    rw [c0, d0] at n0
    linear_combination n0 / 2 - (v 0 0 ^ 2 + v 0 1 ^ 2) * hs
  have f1 : v 1 0 ^ 2 + v 1 1 ^ 2 = 1 / 2 := by
    rw [c1, d1] at n1
    linear_combination n1 / 2 - (v 1 0 ^ 2 + v 1 1 ^ 2) * hs
  have f2 : v 0 0 * v 1 0 + v 0 1 * v 1 1 = 0 := by
    rw [c0, d0, c1, d1] at h01
    linear_combination h01 / 2 - (v 0 0 * v 1 0 + v 0 1 * v 1 1) * hs
  obtain ⟨g0, g1, g2⟩ := oct_square f0 f1 f2
  intro i hi
  interval_cases i <;> simp only [octComp, c0, c1, d0, d1] <;> norm_num
  · exact g0
  · linear_combination (1 / 2 + t + t ^ 2 / 2) * g0 + t ^ 2 / 2 * g1 + (t + t ^ 2) * g2 + 1 / 2 * hs
  · linear_combination t ^ 2 * (g0 + g1) + 2 * t ^ 2 * g2 + hs
  · linear_combination (1 / 2 + t + t ^ 2 / 2) * g1 + t ^ 2 / 2 * g0 + (t + t ^ 2) * g2 + 1 / 2 * hs
  · exact g1
  · linear_combination (1 / 2 + t + t ^ 2 / 2) * g1 + t ^ 2 / 2 * g0 - (t + t ^ 2) * g2 + 1 / 2 * hs
  · linear_combination t ^ 2 * (g0 + g1) - 2 * t ^ 2 * g2 + hs
  · linear_combination (1 / 2 + t + t ^ 2 / 2) * g0 + t ^ 2 / 2 * g1 - (t + t ^ 2) * g2 + 1 / 2 * hs

/-- C130: the octagon in the projective line.  With `proj_dim = 1` the four-dimensional vectors are reduced to two dimensions, half of
the length of some of them is lost, and the product of the inner products of consecutive points is still negative. -/
theorem oct_line (eigh : Eigh ℝ) (he : EighSpec eigh) : ∃ o X, ∃ y : ℕ → ℕ → ℝ, projInit idealArgsort (octRipser 1) octInput 1 = .ok o ∧
    (projGetCoordinates eigh 4 o ⟨.fin (1 / 2), .int 0, 1, bumpLinear, false, true, .direct⟩).2 = .ok X ∧ X.cols = 2 ∧
    (∀ i < 8, ∀ m < 2, X.at' i m = some (y i m)) ∧ (∀ i < 8, ∑ m ∈ Finset.range 2, y i m * y i m = 1) ∧
    ∏ q ∈ Finset.range 8, ∑ m ∈ Finset.range 2, y (q % 8) m * y ((q + 1) % 8) m < 0 := by
  obtain ⟨o, dgm, coc, σ, h1, h5, h6, h7, h8⟩ := C130_projective_reduced octInput octInput_describes
    (octRipser_spec 2 1 (by norm_num) (by norm_num)) idealArgsort idealArgsort_spec le_rfl (by norm_num) (fun _ => rfl)
  obtain ⟨o', dgm', coc', σ', h1', h5', h6', h7', h8'⟩ := C91_projective_coordinates octInput octInput_describes
    (octRipser_spec 2 1 (by norm_num) (by norm_num)) idealArgsort idealArgsort_spec le_rfl (by norm_num) (fun _ => rfl)
  rw [h1] at h1'
  injection h1' with h1'
  subst h1'
  simp only [octRipser] at h5 h6 h5' h6'
  simp at h5 h6 h5' h6'
  subst h5 h6 h5' h6'
  have hσ : σ = [0] := List.perm_singleton.1 h7.1
  have hσ' : σ' = [0] := List.perm_singleton.1 h7'.1
  subst hσ hσ'
  obtain ⟨ξ, hξ, h9⟩ := h8 0 0 2 4 _ rfl rfl rfl
  obtain rfl := hξ.unique (octξ_lists 1)
  obtain ⟨ξ, hξ', h9'⟩ := h8' 0 0 2 4 _ rfl rfl rfl
  obtain rfl := hξ'.unique (octξ_lists 1)
  obtain ⟨X, w, β, e1, e2, e3, e4, e5, e6⟩ := h9 eigh 4 [] (1 / 2) false true bumpLinear .direct 1 he le_rfl
    (by norm_num) positiveBump_linear (by simp) le_rfl (by norm_num) (3 / 2) (by norm_num) (belowDeath_id.2 (by norm_num)) (oct_covered 1)
  obtain ⟨X', w', V, β', e1', -, -, e4', e5', e6'⟩ := h9' eigh 4 [] (1 / 2) false true bumpLinear .direct 1 le_rfl
    (by norm_num) positiveBump_linear (by simp) le_rfl (by norm_num) (3 / 2) (by norm_num) (belowDeath_id.2 (by norm_num))
  rw [e1] at e1'
  injection e1' with e1'
  subst e1'
  rw [octS_eq] at e4 e4' e6
  have hfin : ∃ y : ℕ → ℕ → ℝ, ∀ n < 8, ∀ k < 2, X.at' n k = some (y n k) := by
    refine C130_direct_finite eigh he 4 (dataClassMap [0, 4, 2, 6] 8 octδ (3 / 2) (signVector (octξ 1) w') β')
      (fun i m => signVector (octξ 1) w' (β' i) i ([0, 4, 2, 6].getD m 0))
      (fun i hi m hm => if_pos ⟨hi, hm, oct_covered 1 i hi⟩) 1 (by decide : 1 < 4) ⟨V, X⟩ e5' ?_
    intro v hv n hn
    have hβ : ∀ i < 8, β' i ∈ [0, 4, 2, 6] ∧ octδ (β' i) i < 3 / 2 := fun i hi =>
      ⟨(e6' i hi (oct_covered 1 i hi)).1, (e6' i hi (oct_covered 1 i hi)).2.1⟩
    have hc := oct_captured (fun v i hi => oct_comp e4' hβ v hi) hv n hn
    by_contra hcon
    push Not at hcon
    have z0 := oct_comp e4' hβ (v 0) (i := n) hn
    have z1 := oct_comp e4' hβ (v 1) (i := n) hn
    rw [show ∑ m ∈ Finset.range 4, star (v 0 m) * signVector (octξ 1) w' (β' n) n ([0, 4, 2, 6].getD m 0) = 0 from
      hcon 0 (by norm_num)] at z0
    rw [show ∑ m ∈ Finset.range 4, star (v 1 m) * signVector (octξ 1) w' (β' n) n ([0, 4, 2, 6].getD m 0) = 0 from
      hcon 1 (by norm_num)] at z1
    rw [← z0, ← z1] at hc
    have : (0 : ℝ) < (√2)⁻¹ := by positivity
    split at hc <;> linarith
  obtain ⟨y, hy⟩ := hfin
  obtain ⟨v, s, hv, hmost, hmain⟩ := e6 y hy
  have hunit : ∀ i < 8, ∑ m ∈ Finset.range 2, y i m * y i m = 1 := fun i hi => by
    have hu := hv.unit i hi
    simp only [Real.norm_eq_abs, sq_abs] at hu
    rw [← hu]
    exact Finset.sum_congr rfl fun m _ => (sq _).symm
  refine ⟨o, X, y, h1, e1, e3, hy, hunit, (hmain 8 _ _ oct_dataLoop ?_).2 ?_⟩
  · have hc := oct_captured (fun v i hi => oct_comp e4 e5 v hi) (hmost rfl)
    have hs2 : ∀ i < 8, s i ^ 2 = if i % 2 = 0 then 1 / 2 else (1 + (√2)⁻¹) / 2 := by
      intro i hi
      rw [← hc i hi, ← oct_comp e4 e5 (v 0) hi, ← oct_comp e4 e5 (v 1) hi]
      have hu := hv.unit i hi
      have c0 := hv.comp i hi 0 (by norm_num)
      have c1 := hv.comp i hi 1 (by norm_num)
      simp only [Finset.sum_range_succ _ 1, Finset.sum_range_one, Real.norm_eq_abs, sq_abs] at hu
      rw [show ∑ m ∈ Finset.range 4, star (v 0 m) * signVector (octξ 1) w (β i) i ([0, 4, 2, 6].getD m 0) = s i * y i 0 from c0,
        show ∑ m ∈ Finset.range 4, star (v 1 m) * signVector (octξ 1) w (β i) i ([0, 4, 2, 6].getD m 0) = s i * y i 1 from c1]
      linear_combination (-(s i) ^ 2) * hu
    have heven : ∀ i < 8, i % 2 = 0 → lost (s i) = √(1 / 2) := by
      intro i hi h
      unfold lost
      rw [hs2 i hi, if_pos h]
      norm_num
    have hodd : ∀ i < 8, lost (s i) < 1 := by
      intro i hi
      unfold lost
      rw [Real.sqrt_lt' one_pos]
      have := pow_pos (hv.pos i hi) 2
      linarith
    have hov : ∀ i < 8, dataOverlap octS w i ((i + 1) % 8) = √(1 / 2) := by
      intro i hi
      unfold dataOverlap octS
      rw [Finset.sum_insert (by decide), Finset.sum_insert (by decide), Finset.sum_insert (by decide), Finset.sum_singleton]
      have hm : (i + 1) % 8 < 8 := Nat.mod_lt _ (by norm_num)
      rw [oct_weights e4 (by decide) hi, oct_weights e4 (by decide) hi, oct_weights e4 (by decide) hi, oct_weights e4 (by decide) hi,
        oct_weights e4 (by decide) hm, oct_weights e4 (by decide) hm, oct_weights e4 (by decide) hm, oct_weights e4 (by decide) hm]
      interval_cases i <;> norm_num [cyc8]
    have ht : (0 : ℝ) < √(1 / 2) := Real.sqrt_pos.2 (by norm_num)
    intro q hq
    simp only [Nat.mod_eq_of_lt hq]
    have hm : (q + 1) % 8 < 8 := Nat.mod_lt _ (by norm_num)
    rw [hov q hq]
    rcases Nat.mod_two_eq_zero_or_one q with h | h
    · rw [heven q hq h]
      exact mul_lt_of_lt_one_right ht (hodd _ hm)
    · rw [heven _ hm (by omega)]
      exact mul_lt_of_lt_one_left ht (hodd _ hq)
  · have : pathValue (octξ 1) 8 (fun (q : ℕ) => (q + 1) / 2 * 2 % 8) = 1 := by decide +kernel
    rw [this]; decide

/-- C130 for lens coordinates of the octagon, with nothing lost: the multiples of `2π / 3` nearest to the angles of the inner products
of consecutive rows add up to one turn modulo 3 (minus the value 2 of the class). -/
example (eigh : Eigh ℂ) (he : EighSpec eigh) : ∃ o X, ∃ y : ℕ → ℕ → ℂ, lensInit idealArgsort (octRipser 2) octInput 3 1 = .ok o ∧
    (lensGetCoordinates eigh 4 o ⟨.fin (1 / 2), .int 0, 4, bumpLinear, false, true, .exponential⟩).2 = .ok X ∧
    (∀ i < 8, ∀ m < 4, X.at' i m = some (y i m)) ∧
    ∃ t : ℕ → ℤ, (∀ q < 8, |(Complex.exp (2 * π * Complex.I * ((-t q : ℤ) : ℂ) / (3 : ℤ)) *
      ∑ m ∈ Finset.range 4, star (y (q % 8) m) * y ((q + 1) % 8) m).arg| < π / (3 : ℤ)) ∧ 3 ∣ ∑ q ∈ Finset.range 8, t q + 2 := by
  obtain ⟨o, dgm, coc, σ, h1, h5, h6, h7, h8⟩ := C130_lens_reduced octInput octInput_describes
    (octRipser_spec 3 2 (by norm_num) (by norm_num)) idealArgsort idealArgsort_spec le_rfl (by norm_num) (fun _ => rfl) (by norm_num)
  obtain ⟨o', dgm', coc', σ', h1', h5', h6', h7', h8'⟩ := C112_lens_holonomy octInput octInput_describes
    (octRipser_spec 3 2 (by norm_num) (by norm_num)) idealArgsort idealArgsort_spec le_rfl (by norm_num) (fun _ => rfl) (by norm_num)
  rw [h1] at h1'
  injection h1' with h1'
  subst h1'
  simp only [octRipser] at h5 h6 h5' h6'
  simp at h5 h6 h5' h6'
  subst h5 h6 h5' h6'
  have hσ : σ = [0] := List.perm_singleton.1 h7.1
  have hσ' : σ' = [0] := List.perm_singleton.1 h7'.1
  subst hσ hσ'
  obtain ⟨ξ, hξ, h9⟩ := h8 0 0 2 4 _ rfl rfl rfl
  obtain rfl := hξ.unique (octξ_lists 2)
  obtain ⟨ξ, hξ', h9'⟩ := h8' 0 0 2 4 _ rfl rfl rfl
  obtain rfl := hξ'.unique (octξ_lists 2)
  obtain ⟨X, w, β, e1, e2, e3, e4, e5, e6⟩ := h9 eigh 4 [] (1 / 2) false true bumpLinear .exponential 4 he le_rfl
    (by norm_num) positiveBump_linear (by simp) (by norm_num) le_rfl (3 / 2) (by norm_num) (belowDeath_id.2 (by norm_num))
    (oct_covered 2)
  obtain ⟨X', y, e1', -, -, e2', -⟩ := h9' eigh 4 [] (1 / 2) false true bumpLinear .exponential he le_rfl
    (by norm_num) positiveBump_linear (by simp) (3 / 2) (by norm_num) (belowDeath_id.2 (by norm_num)) (oct_covered 2)
  rw [e1] at e1'
  injection e1' with e1'
  subst e1'
  rw [octS_eq] at e4 e6
  obtain ⟨v, s, hv, -, hmain⟩ := e6 y e2'
  have hunit : ∀ i < 8, ∑ m ∈ Finset.range 4, ‖lensVector 3 (octξ 2) w (β i) i ([0, 4, 2, 6].getD m 0)‖ ^ 2 = 1 := by
    intro i hi
    have hn : ∀ m, ‖lensVector 3 (octξ 2) w (β i) i m‖ ^ 2 = √(w m i) ^ 2 := by
      intro m
      unfold lensVector
      rw [norm_mul, (lens_character (p := 3) (by norm_num)).norm, mul_one, Complex.norm_real, Real.norm_eq_abs, sq_abs]
    simp only [hn, Finset.sum_range_succ, Finset.sum_range_zero, zero_add, List.getD_cons_zero, List.getD_cons_succ]
    rw [oct_weights e4 (by decide) hi, oct_weights e4 (by decide) hi, oct_weights e4 (by decide) hi, oct_weights e4 (by decide) hi]
    interval_cases i <;> norm_num [cyc8]
  have hpos : ∀ i < 8, 0 < dataOverlap octS w i ((i + 1) % 8) := by
    intro i hi
    unfold dataOverlap octS
    rw [Finset.sum_insert (by decide), Finset.sum_insert (by decide), Finset.sum_insert (by decide), Finset.sum_singleton]
    have hm : (i + 1) % 8 < 8 := Nat.mod_lt _ (by norm_num)
    rw [oct_weights e4 (by decide) hi, oct_weights e4 (by decide) hi, oct_weights e4 (by decide) hi, oct_weights e4 (by decide) hi,
      oct_weights e4 (by decide) hm, oct_weights e4 (by decide) hm, oct_weights e4 (by decide) hm, oct_weights e4 (by decide) hm]
    interval_cases i <;> norm_num [cyc8]
  obtain ⟨⟨t, ht⟩, hall⟩ := hmain 8 _ _ oct_dataLoop (by
    intro q hq
    have hm : (q + 1) % 8 < 8 := Nat.mod_lt _ (by norm_num)
    simp only [Nat.mod_eq_of_lt hq]
    rw [lost_full hv hm (hunit _ hm), mul_zero]
    exact mul_pos (hpos q hq) (Real.sin_pos_of_pos_of_lt_pi (by positivity) (by
      have := Real.pi_pos
      push_cast
      linarith)))
  refine ⟨o, X, y, h1, e1, e2', t, ht, ?_⟩
  have := hall t ht
  rwa [show pathValue (octξ 2) 8 (fun (q : ℕ) => (q + 1) / 2 * 2 % 8) = 2 by decide +kernel] at this

end

end Dreimac
