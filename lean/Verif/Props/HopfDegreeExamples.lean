import Verif.Props.HopfDegree
import Verif.Props.ChernExamples

/-!
# C135 on the octahedron
-/

namespace Dreimac

open Real Finset

noncomputable section

/-- The triangles of the octahedron with the vertices 0, ..., 5. -/
def hopfOct : DataSurface (Fin 24) (Fin 8) where
  opp d := [8, 4, 12, 17, 1, 9, 20, 10, 0, 5, 7, 21, 2, 16, 18, 23, 13, 3, 14, 22, 6, 11, 19, 15].getD d 0
  next := ⟨fun d => ⟨3 * (d.val / 3) + (d.val % 3 + 1) % 3, by omega⟩, fun d => ⟨3 * (d.val / 3) + (d.val % 3 + 2) % 3, by omega⟩,
    by decide, by decide⟩
  face d := ⟨d.val / 3, by omega⟩
  start d := [0, 4, 2, 1, 2, 4, 0, 3, 4, 1, 4, 3, 0, 2, 5, 1, 5, 2, 0, 5, 3, 1, 3, 5].getD d 0
  opp_opp := by decide
  next_face := by decide
  next_start := by decide

theorem hopfOct_triangles : hopfOct.Triangles (fun f => ⟨3 * f.val, by omega⟩) where
  face := by decide
  three := by decide
  ne := by decide

/-- The six unit vectors of `ℂ²`. -/
def hopfOctVec : ℕ → ℕ → ℂ
  | 0, 0 => (√2⁻¹ : ℝ)
  | 0, 1 => (√2⁻¹ : ℝ)
  | 1, 0 => (√2⁻¹ : ℝ)
  | 1, 1 => -(√2⁻¹ : ℝ)
  | 2, 0 => Complex.I * (√2⁻¹ : ℝ)
  | 2, 1 => (√2⁻¹ : ℝ)
  | 3, 0 => -(Complex.I * (√2⁻¹ : ℝ))
  | 3, 1 => (√2⁻¹ : ℝ)
  | 4, 0 => 1
  | 5, 1 => 1
  | _, _ => 0

theorem hopfOctVec_hopf : ∀ i < 6, ‖hopfOctVec i 0‖ ^ 2 + ‖hopfOctVec i 1‖ ^ 2 = 1 ∧
    hopfMap (hopfOctVec i 0, hopfOctVec i 1) = [((1 : ℝ), (0 : ℝ), (0 : ℝ)), (-1, 0, 0), (0, 1, 0), (0, -1, 0), (0, 0, 1), (0, 0, -1)].getD i 0 := by
  have h2 : √2⁻¹ * √2⁻¹ = (2⁻¹ : ℝ) := Real.mul_self_sqrt (by norm_num)
  have hn : ∀ z : ℂ, ‖z‖ ^ 2 = z.re * z.re + z.im * z.im := fun z => by rw [← Complex.normSq_eq_norm_sq, Complex.normSq_apply]
  intro i hi
  simp only [hn]
  generalize hq : (√2⁻¹ : ℝ) = q at h2
  interval_cases i <;> (simp only [hopfOctVec, hopfMap, hq]; refine ⟨?_, ?_⟩) <;>
    first
      | (simp; done)
      | (simp; linarith)
      | (refine Prod.ext ?_ (Prod.ext ?_ ?_) <;> simp <;> linarith)

theorem arg_one_add_I : Complex.arg (⟨1, 1⟩ : ℂ) = π / 4 := by
  have h : √2 * (√2 / 2) = 1 := by rw [← mul_div_assoc, Real.mul_self_sqrt (by norm_num)]; norm_num
  have e : (⟨1, 1⟩ : ℂ) = ((√2 : ℝ) : ℂ) * (Complex.cos ((π / 4 : ℝ) : ℂ) + Complex.sin ((π / 4 : ℝ) : ℂ) * Complex.I) := by
    rw [← Complex.ofReal_cos, ← Complex.ofReal_sin, cos_pi_div_four, sin_pi_div_four]
    apply Complex.ext <;> simp [h]
  rw [e]
  have hpi := Real.pi_pos
  exact Complex.arg_mul_cos_add_sin_mul_I (by positivity) ⟨by linarith, by linarith⟩

/-- A right angle at every corner: an eighth of the unit sphere. -/
example : sphericalArea (1, 0, 0) (0, 1, 0) (0, 0, 1) = π / 2 := by
  unfold sphericalArea dot3 det3
  norm_num [arg_one_add_I]
  ring

/-- Three points on a great circle, not all in one half of it: half of the sphere, `2 π`, is the border case of the formula; three
points of one half: no area. -/
example : sphericalArea (1, 0, 0) (3 / 5, 4 / 5, 0) (0, 1, 0) = 0 := by
  unfold sphericalArea dot3 det3
  norm_num
  exact Complex.arg_ofReal_of_nonneg (x := 12 / 5) (by norm_num)

/-- The six vectors of the octahedron: the eight triangles cover the sphere once, and the phases add up to `2 π`. -/
example : hopfOct.Triangles (fun f => ⟨3 * f.val, by omega⟩) ∧
    hopfOct.sphereArea (fun f => ⟨3 * f.val, by omega⟩) (fun i => hopfMap (hopfOctVec i 0, hopfOctVec i 1)) = 4 * π ∧
    ∑ f, Complex.arg (hopfOct.around 2 hopfOctVec f) = 2 * π := by
  have hlt : ∀ d, hopfOct.start d < 6 := by decide
  obtain ⟨h1, -⟩ := C135_hopf_area hopfOct _ hopfOct_triangles hopfOctVec fun d => (hopfOctVec_hopf _ (hlt d)).1
  have h2 : hopfOct.sphereArea (fun f => ⟨3 * f.val, by omega⟩) (fun i => hopfMap (hopfOctVec i 0, hopfOctVec i 1)) = 4 * π := by
    unfold DataSurface.sphereArea
    have h : ∀ f : Fin 8, ∀ d : Fin 24, d = ⟨3 * f.val, by omega⟩ → sphericalArea
        (hopfMap (hopfOctVec (hopfOct.start (hopfOct.next (hopfOct.next d))) 0, hopfOctVec (hopfOct.start (hopfOct.next (hopfOct.next d))) 1))
        (hopfMap (hopfOctVec (hopfOct.start (hopfOct.next d)) 0, hopfOctVec (hopfOct.start (hopfOct.next d)) 1))
        (hopfMap (hopfOctVec (hopfOct.start d) 0, hopfOctVec (hopfOct.start d) 1)) = π / 2 := by
      intro f d hd
      rw [(hopfOctVec_hopf _ (hlt _)).2, (hopfOctVec_hopf _ (hlt _)).2, (hopfOctVec_hopf _ (hlt _)).2]
      subst hd
      fin_cases f <;> (simp [hopfOct, sphericalArea, dot3, det3, arg_one_add_I]; ring)
    rw [sum_congr rfl fun f _ => h f _ rfl]
    simp
    ring
  exact ⟨hopfOct_triangles, h2, by linarith⟩

/-- The whole of C135 on the octahedron with 30000 data points and exact solvers, if the entries of the array are numbers: the surface is
made of the landmarks. -/
example : ∃ (env : CPOracles) (o : ProjObj) (X : Arr ℂ), EighSpec env.eigh ∧
    cpInit idealArgsort cheRipser (cheInput 30000) 6 41 2 = .ok o ∧
    (cpGetCoordinates env 6 o ⟨.fin (1 / 2), .int 0, 1, bumpLinear, false, true, .exponential⟩).2 = .ok X ∧ X.cols = 2 ∧
    ∀ y : ℕ → ℕ → ℂ, (∀ i < 30000, ∀ m < 2, X.at' i m = some (y i m)) →
    hopfOct.sphereArea (fun f => ⟨3 * f.val, by omega⟩) (fun i => hopfMap (y i 0, y i 1)) =
      2 * ∑ f, Complex.arg (hopfOct.around 2 y f) := by
  obtain ⟨eigh, he⟩ := exists_eighSpec (𝕜 := ℂ)
  obtain ⟨o, dgm, coc, σ, h1, h5, h6, h7, h8⟩ := C135_complex_projective_sphere (cheInput 30000)
    (cheInput_describes 30000 (by norm_num)) cheRipser_spec idealArgsort idealArgsort_spec le_rfl (by norm_num) (by norm_num)
    (fun _ => rfl) (by norm_num) (by show 10 ^ 6 < 8 * 6 * 30000; norm_num)
  simp only [cheRipser] at h5 h6
  simp at h5 h6
  subst h5 h6
  have hσ : σ = [0] := List.perm_singleton.1 h7.1
  subst hσ
  obtain ⟨c, hc, h9⟩ := h8 0 0 1 2 _ rfl rfl rfl
  obtain ⟨X, w, ν, β, e1, e2, e3, e5, e6, e7, eβ, e8⟩ := h9 ⟨idealLsqr, idealMilp, eigh⟩ 6 [] (1 / 2) false true bumpLinear
    .exponential he le_rfl (by norm_num) positiveBump_linear (by simp) (3 / 4) (by norm_num)
    (che_cocycle hc) (fun i _ => ⟨cheNear i, cheNear_ok i⟩)
  refine ⟨⟨idealLsqr, idealMilp, eigh⟩, o, X, he, h1, e1, e3, fun y hy => ?_⟩
  obtain ⟨v, s, -, -, f3⟩ := e8 y hy
  refine (f3 _ _ hopfOct _ hopfOct_triangles fun d => ?_).1
  have : ∀ d, hopfOct.start d < 30000 := fun d => lt_trans ((by decide : ∀ d, hopfOct.start d < 6) d) (by norm_num)
  exact this d

end

end Dreimac
