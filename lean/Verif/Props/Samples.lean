import Verif.Model.Examples
import Mathlib.Analysis.SpecialFunctions.Complex.Arg
import Mathlib.Analysis.SpecialFunctions.Trigonometric.Angle
import Mathlib.Tactic.LinearCombination
import Mathlib.Tactic.Positivity
import Verif.Props.Examples

/-!
# Properties of the sampled shapes (C77, C86)
-/

namespace Dreimac

open Real

noncomputable section

/-! ### Angles -/

/-- Two angles in a half-open interval of length `2π` with the same cosine and sine are equal. -/
theorem angle_unique {a b : ℝ} (h : |a - b| < 2 * π) (hc : cos a = cos b) (hs : sin a = sin b) : a = b := by
  have h1 : cos (a - b) = 1 := by
    rw [cos_sub, hc, hs]
    linear_combination cos_sq_add_sin_sq b
  obtain ⟨n, hn⟩ := (cos_eq_one_iff _).1 h1
  have hpi := pi_pos
  have hn0 : n = 0 := by
    by_contra hne
    have h2 : (1 : ℝ) ≤ |(n : ℝ)| := by exact_mod_cast Int.one_le_abs hne
    rw [← hn, abs_mul, abs_of_pos (by positivity : (0 : ℝ) < 2 * π)] at h
    nlinarith
  rw [hn0] at hn
  push_cast at hn
  linarith

theorem polar_unique {ρ ρ' a b : ℝ} (h0 : 0 < ρ) (h1 : 0 < ρ') (hc : ρ * cos a = ρ' * cos b) (hs : ρ * sin a = ρ' * sin b) :
    ρ = ρ' ∧ cos a = cos b ∧ sin a = sin b := by
  have hsq : ρ ^ 2 = ρ' ^ 2 := by
    have ha := cos_sq_add_sin_sq a
    have hb := cos_sq_add_sin_sq b
    linear_combination (ρ * cos a + ρ' * cos b) * hc + (ρ * sin a + ρ' * sin b) * hs - ρ ^ 2 * ha + ρ' ^ 2 * hb
  have he : ρ = ρ' := (pow_left_inj₀ h0.le h1.le two_ne_zero).1 hsq
  subst he
  exact ⟨rfl, mul_left_cancel₀ h0.ne' hc, mul_left_cancel₀ h0.ne' hs⟩

/-! ### Torus and Klein bottle (C77) -/

theorem radius_pos {R r : ℝ} (hr : 0 < r) (hR : r < R) (s : ℝ) : 0 < R + r * cos s := by
  have := neg_one_le_cos s
  nlinarith

theorem unit_diff {s s' : ℝ} (h : |s - s'| < 1) : |s * 2 * π - s' * 2 * π| < 2 * π := by
  have hpi := pi_pos
  have : s * 2 * π - s' * 2 * π = (s - s') * (2 * π) := by ring
  rw [this, abs_mul, abs_of_pos (by positivity : (0 : ℝ) < 2 * π)]
  nlinarith

theorem abs_diff_lt {s s' : ℝ} (h : s ∈ Set.Ico (0 : ℝ) 1) (h' : s' ∈ Set.Ico (0 : ℝ) 1) : |s - s'| < 1 := by
  rw [abs_lt]
  constructor <;> linarith [h.1, h.2, h'.1, h'.2]

/-- C77: for `0 < r < R` different draws of `torus_3d` give different points. -/
theorem C77_torus_injective (R r s t s' t' : ℝ) (hr : 0 < r) (hR : r < R) (hs : s ∈ Set.Ico (0 : ℝ) 1)
    (ht : t ∈ Set.Ico (0 : ℝ) 1) (hs' : s' ∈ Set.Ico (0 : ℝ) 1) (ht' : t' ∈ Set.Ico (0 : ℝ) 1)
    (h : torus3d R r s t = torus3d R r s' t') : s = s' ∧ t = t' := by
  unfold torus3d at h
  simp only [Prod.mk.injEq] at h
  obtain ⟨h1, h2, h3⟩ := h
  obtain ⟨e1, e2, e3⟩ := polar_unique (radius_pos hr hR _) (radius_pos hr hR _) h1 h2
  have hpi := pi_pos
  have a1 := angle_unique (unit_diff (abs_diff_lt hs hs')) (mul_left_cancel₀ hr.ne' (add_left_cancel e1))
    (mul_left_cancel₀ hr.ne' h3)
  have a2 := angle_unique (unit_diff (abs_diff_lt ht ht')) e2 e3
  have hne : (2 * π) ≠ 0 := by positivity
  exact ⟨mul_right_cancel₀ hne (by linarith), mul_right_cancel₀ hne (by linarith)⟩

/-- C77: for `0 < r < R` different draws of `klein_bottle_4d` give different points. -/
theorem C77_klein_injective (R r s t s' t' : ℝ) (hr : 0 < r) (hR : r < R) (hs : s ∈ Set.Ico (0 : ℝ) 1)
    (ht : t ∈ Set.Ico (0 : ℝ) 1) (hs' : s' ∈ Set.Ico (0 : ℝ) 1) (ht' : t' ∈ Set.Ico (0 : ℝ) 1)
    (h : kleinBottle4d R r s t = kleinBottle4d R r s' t') : s = s' ∧ t = t' := by
  unfold kleinBottle4d at h
  simp only [Prod.mk.injEq] at h
  obtain ⟨h1, h2, h3, h4⟩ := h
  obtain ⟨e1, e2, e3⟩ := polar_unique (radius_pos hr hR _) (radius_pos hr hR _) h1 h2
  have hpi := pi_pos
  have hne : (2 * π) ≠ 0 := by positivity
  have a2 : t = t' := mul_right_cancel₀ hne (by linarith [angle_unique (unit_diff (abs_diff_lt ht ht')) e2 e3])
  subst a2
  have hsin : sin (s * 2 * π) = sin (s' * 2 * π) := by
    have hh := cos_sq_add_sin_sq (t * 2 * π / 2)
    have : r * sin (s * 2 * π) = r * sin (s' * 2 * π) := by
      linear_combination cos (t * 2 * π / 2) * h3 + sin (t * 2 * π / 2) * h4
        - (r * sin (s * 2 * π) - r * sin (s' * 2 * π)) * hh
    exact mul_left_cancel₀ hr.ne' this
  have a1 := angle_unique (unit_diff (abs_diff_lt hs hs')) (mul_left_cancel₀ hr.ne' (add_left_cancel e1)) hsin
  exact ⟨mul_right_cancel₀ hne (by linarith), rfl⟩

/-- C77: the identification that makes the shape a Klein bottle: one turn of the second angle comes back with the first angle
reversed; one turn of the first angle changes nothing. -/
theorem C77_klein_glue (R r s t : ℝ) :
    kleinBottle4d R r s (t + 1) = kleinBottle4d R r (-s) t ∧ kleinBottle4d R r (s + 1) t = kleinBottle4d R r s t := by
  have e1 : (t + 1) * 2 * π = t * 2 * π + 2 * π := by ring
  have e2 : (t * 2 * π + 2 * π) / 2 = t * 2 * π / 2 + π := by ring
  have e3 : -s * 2 * π = -(s * 2 * π) := by ring
  have e4 : (s + 1) * 2 * π = s * 2 * π + 2 * π := by ring
  unfold kleinBottle4d
  simp only [e1, e2, e3, e4, cos_add_two_pi, sin_add_two_pi, cos_add_pi, sin_add_pi, cos_neg, sin_neg]
  constructor
  · refine Prod.ext rfl (Prod.ext rfl (Prod.ext ?_ ?_)) <;> simp
  · trivial

/-- C77: the torus has no reversal: both angles are periodic. -/
theorem C77_torus_glue (R r s t : ℝ) :
    torus3d R r s (t + 1) = torus3d R r s t ∧ torus3d R r (s + 1) t = torus3d R r s t := by
  have e1 : (t + 1) * 2 * π = t * 2 * π + 2 * π := by ring
  have e4 : (s + 1) * 2 * π = s * 2 * π + 2 * π := by ring
  unfold torus3d
  simp only [e1, e4, cos_add_two_pi, sin_add_two_pi, and_self]

/-- C77: every solution of the equations of the Klein bottle is the row of some draws. -/
theorem C77_klein_surjective (R r : ℝ) (hr : 0 < r) (hR : r < R) (x : ℝ × ℝ × ℝ × ℝ) (h : OnKleinBottle R r x) :
    ∃ s t, kleinBottle4d R r s t = x := by
  obtain ⟨x, y, z, w⟩ := x
  unfold OnKleinBottle at h
  simp only at h
  set ρ := √(x ^ 2 + y ^ 2) with hρ
  obtain ⟨h1, h2, h3⟩ := h
  have hρ0 : 0 ≤ ρ := sqrt_nonneg _
  have hρsq : ρ ^ 2 = x ^ 2 + y ^ 2 := sq_sqrt (by positivity)
  have hρpos : 0 < ρ := by
    rcases hρ0.lt_or_eq with h | h
    · exact h
    · exfalso
      rw [← h] at h1
      nlinarith [sq_nonneg z, sq_nonneg w]
  have aux : ∀ a b c : ℝ, 0 ≤ c → a ^ 2 + b ^ 2 = c ^ 2 → ∃ s, c * cos (s * 2 * π) = a ∧ c * sin (s * 2 * π) = b := by
    intro a b c hc hab
    set w : ℂ := ⟨a, b⟩ with hw
    have hn : ‖w‖ = c := by
      have : ‖w‖ ^ 2 = c ^ 2 := by
        rw [← Complex.normSq_eq_norm_sq, Complex.normSq_apply, ← hab, hw]
        ring
      exact (pow_left_inj₀ (norm_nonneg _) hc two_ne_zero).1 this
    refine ⟨Complex.arg w / (2 * π), ?_⟩
    have e : Complex.arg w / (2 * π) * 2 * π = Complex.arg w := by
      have := pi_pos.ne'
      field_simp
    rw [e, ← hn]
    exact ⟨Complex.norm_mul_cos_arg w, Complex.norm_mul_sin_arg w⟩
  obtain ⟨t, ht1, ht2⟩ := aux x y ρ hρ0 hρsq.symm
  set C := cos (t * 2 * π / 2) with hC
  set S := sin (t * 2 * π / 2) with hS
  have hCS : C ^ 2 + S ^ 2 = 1 := cos_sq_add_sin_sq _
  have k1 : cos (t * 2 * π) = C ^ 2 - S ^ 2 := by
    have := cos_two_mul (t * 2 * π / 2)
    rw [show 2 * (t * 2 * π / 2) = t * 2 * π by ring] at this
    rw [this]; linear_combination hCS
  have k2 : sin (t * 2 * π) = 2 * S * C := by
    have := sin_two_mul (t * 2 * π / 2)
    rwa [show 2 * (t * 2 * π / 2) = t * 2 * π by ring] at this
  -- the line of `(z, w)` is spanned by `(C, S)`
  set q := z * C + w * S with hq
  have hcross : z * S - w * C = 0 := by
    have g1 : z ^ 2 - w ^ 2 = (z ^ 2 + w ^ 2) * (C ^ 2 - S ^ 2) := by
      apply mul_left_cancel₀ hρpos.ne'
      rw [h2, ← ht1, k1]; ring
    have g2 : 2 * z * w = (z ^ 2 + w ^ 2) * (2 * S * C) := by
      apply mul_left_cancel₀ hρpos.ne'
      rw [h3, ← ht2, k2]; ring
    have : (z * S - w * C) ^ 2 = 0 := by
      linear_combination (-(C ^ 2 - S ^ 2) / 2) * g1 - S * C * g2
        + (-(z ^ 2 + w ^ 2) * (C ^ 2 + S ^ 2) / 2 + z ^ 2 * S ^ 2 / 1 * 0 + 0) * hCS
    exact pow_eq_zero_iff two_ne_zero |>.1 this
  have hz : z = q * C := by linear_combination (-z) * hCS + S * hcross
  have hw : w = q * S := by linear_combination (-w) * hCS - C * hcross
  have hq2 : (ρ - R) ^ 2 + q ^ 2 = r ^ 2 := by
    rw [← h1]
    have : z ^ 2 + w ^ 2 = q ^ 2 := by
      rw [hz, hw]; linear_combination q ^ 2 * hCS
    rw [this]
  obtain ⟨s, hs1, hs2⟩ := aux (ρ - R) q r hr.le hq2
  refine ⟨s, t, ?_⟩
  unfold kleinBottle4d
  simp only
  rw [hs1, hs2, show R + (ρ - R) = ρ by ring, ht1, ht2, ← hC, ← hS, ← hz, ← hw]

/-! ### Spheres, circles, the trefoil and the genus two surface (C86) -/

/-- `x` differs from some point of the circle of radius `rad` around `c` by at most `ε` in each coordinate. -/
def NearCircle (c : ℝ × ℝ) (rad ε : ℝ) (x : ℝ × ℝ) : Prop :=
  ∃ p : ℝ × ℝ, (p.1 - c.1) ^ 2 + (p.2 - c.2) ^ 2 = rad ^ 2 ∧ |x.1 - p.1| ≤ ε ∧ |x.2 - p.2| ≤ ε

/-- The draws of `random` are in `[0, 1)`. -/
def UnitDraw (e : ℝ × ℝ) : Prop := e.1 ∈ Set.Ico (0 : ℝ) 1 ∧ e.2 ∈ Set.Ico (0 : ℝ) 1

theorem noise_le {e ε : ℝ} (he : e ∈ Set.Ico (0 : ℝ) 1) (hε : 0 ≤ ε) : |(e - 0.5) * ε| ≤ ε / 2 := by
  rw [abs_mul, abs_of_nonneg hε]
  have : |e - 0.5| ≤ 1 / 2 := by
    rw [abs_le]; constructor <;> norm_num <;> linarith [he.1, he.2]
  nlinarith

/-- C86: the rows of `sphere` are unit vectors, if no draw is exactly the centre of the cube. -/
theorem C86_sphere (e : ℝ × ℝ × ℝ) (he : e ≠ (1 / 2, 1 / 2, 1 / 2)) :
    let x := sphereSample e
    x.1 ^ 2 + x.2.1 ^ 2 + x.2.2 ^ 2 = 1 := by
  obtain ⟨a, b, c⟩ := e
  unfold sphereSample
  simp only [div_pow]
  set n := (2 * a - 1) ^ 2 + (2 * b - 1) ^ 2 + (2 * c - 1) ^ 2 with hn
  have hpos : 0 < n := by
    rcases (by positivity : 0 ≤ n).lt_or_eq with h | h
    · exact h
    · exfalso
      apply he
      have h1 : (2 * a - 1) ^ 2 = 0 := by nlinarith [sq_nonneg (2 * a - 1), sq_nonneg (2 * b - 1), sq_nonneg (2 * c - 1)]
      have h2 : (2 * b - 1) ^ 2 = 0 := by nlinarith [sq_nonneg (2 * a - 1), sq_nonneg (2 * b - 1), sq_nonneg (2 * c - 1)]
      have h3 : (2 * c - 1) ^ 2 = 0 := by nlinarith [sq_nonneg (2 * a - 1), sq_nonneg (2 * b - 1), sq_nonneg (2 * c - 1)]
      rw [pow_eq_zero_iff two_ne_zero] at h1 h2 h3
      refine Prod.ext ?_ (Prod.ext ?_ ?_) <;> simp only <;> linarith
  rw [sq_sqrt hpos.le]
  field_simp
  exact hn.symm

/-- C86: the rows of `noisy_circle` differ from a point of the unit circle by at most half the noise in each coordinate, so by
less than the noise in distance. -/
theorem C86_noisy_circle (noise : ℝ) (hnoise : 0 ≤ noise) (e e' : ℝ × ℝ) (he : e ≠ (1 / 2, 1 / 2)) (he' : UnitDraw e') :
    NearCircle (0, 0) 1 (noise / 2) (noisyCircle noise e e') := by
  obtain ⟨a, b⟩ := e
  set n := (a - 0.5) ^ 2 + (b - 0.5) ^ 2 with hn
  have hpos : 0 < n := by
    rcases (by positivity : 0 ≤ n).lt_or_eq with h | h
    · exact h
    · exfalso
      apply he
      have h1 : (a - 0.5) ^ 2 = 0 := by nlinarith [sq_nonneg (a - 0.5), sq_nonneg (b - 0.5)]
      have h2 : (b - 0.5) ^ 2 = 0 := by nlinarith [sq_nonneg (a - 0.5), sq_nonneg (b - 0.5)]
      rw [pow_eq_zero_iff two_ne_zero] at h1 h2
      refine Prod.ext ?_ ?_ <;> simp only <;> norm_num at h1 h2 ⊢ <;> linarith
  refine ⟨((a - 0.5) / √n, (b - 0.5) / √n), ?_, ?_, ?_⟩
  · simp only [sub_zero, div_pow, sq_sqrt hpos.le]
    rw [← add_div, ← hn, div_self hpos.ne']; norm_num
  · unfold noisyCircle
    simp only [← hn, add_sub_cancel_left]
    exact noise_le he'.1 hnoise
  · unfold noisyCircle
    simp only [← hn, add_sub_cancel_left]
    exact noise_le he'.2 hnoise

/-- C86: rows `200 c, ..., 200 c + 199` of `bullseye` are near the circle of radius `c + 1`. -/
theorem C86_bullseye (e : ℕ → ℝ × ℝ) (he : ∀ k, UnitDraw (e k)) (c i : ℕ) (hc : c < 3) (hi : i < 200) :
    NearCircle (0, 0) (c + 1) 0.05 (bullseye e (200 * c + i)) := by
  have key : ∀ (rad : ℝ) (k j : ℕ) (x : ℝ × ℝ), x = (rad * sin (linspaceOpen 0 (2 * π) 200 j),
      rad * cos (linspaceOpen 0 (2 * π) 200 j)) →
      NearCircle (0, 0) rad 0.05 (x.1 + ((e k).1 - 0.5) * 0.1, x.2 + ((e k).2 - 0.5) * 0.1) := by
    intro rad k j x hx
    refine ⟨x, ?_, ?_, ?_⟩
    · rw [hx]; simp only [sub_zero]
      linear_combination rad ^ 2 * cos_sq_add_sin_sq (linspaceOpen 0 (2 * π) 200 j)
    · simp only [add_sub_cancel_left]
      exact (noise_le (he k).1 (by norm_num)).trans (by norm_num)
    · simp only [add_sub_cancel_left]
      exact (noise_le (he k).2 (by norm_num)).trans (by norm_num)
  have hc' : c = 0 ∨ c = 1 ∨ c = 2 := by omega
  unfold bullseye
  simp only
  rcases hc' with rfl | rfl | rfl
  · rw [if_pos (by omega)]
    rw [show (((0 : ℕ) : ℝ) + 1) = 1 by norm_num]
    simp only [show 200 * 0 + i = i by omega]
    exact key 1 _ i _ rfl
  · rw [if_neg (by omega), if_pos (by omega)]
    rw [show (((1 : ℕ) : ℝ) + 1) = 2 by norm_num]
    simp only [show 200 * 1 + i - 200 = i by omega]
    exact key 2 _ i _ rfl
  · rw [if_neg (by omega), if_neg (by omega)]
    rw [show (((2 : ℕ) : ℝ) + 1) = 3 by norm_num]
    simp only [show 200 * 2 + i - 2 * 200 = i by omega]
    exact key 3 _ i _ rfl

/-- C86: `three_circles` has 50 rows near the unit circle, 500 near the circle of radius 2 around `(4, 0)` and 500 near the
circle of radius 2.5 around `(-4, 0)`. -/
theorem C86_three_circles (e : ℕ → ℝ × ℝ) (he : ∀ k, UnitDraw (e k)) (k : ℕ) (hk : k < 1050) :
    (k < 50 → NearCircle (0, 0) 1 0.15 (threeCircles e k)) ∧
      (50 ≤ k → k < 550 → NearCircle (4, 0) 2 0.15 (threeCircles e k)) ∧
      (550 ≤ k → NearCircle (-4, 0) 2.5 0.15 (threeCircles e k)) := by
  have key : ∀ (c rad : ℝ) (N j : ℕ) (x : ℝ × ℝ), x = (rad * sin (linspaceOpen 0 (2 * π) N j) + c,
      rad * cos (linspaceOpen 0 (2 * π) N j)) →
      NearCircle (c, 0) rad 0.15 (x.1 + ((e k).1 - 0.5) * 0.3, x.2 + ((e k).2 - 0.5) * 0.3) := by
    intro c rad N j x hx
    refine ⟨x, ?_, ?_, ?_⟩
    · rw [hx]; simp only [sub_zero, add_sub_cancel_right]
      linear_combination rad ^ 2 * cos_sq_add_sin_sq (linspaceOpen 0 (2 * π) N j)
    · simp only [add_sub_cancel_left]
      exact (noise_le (he k).1 (by norm_num)).trans (by norm_num)
    · simp only [add_sub_cancel_left]
      exact (noise_le (he k).2 (by norm_num)).trans (by norm_num)
  unfold threeCircles
  simp only
  refine ⟨fun h => ?_, fun h h' => ?_, fun h => ?_⟩
  · rw [if_pos h]
    exact key 0 1 50 k _ (by simp)
  · rw [if_neg (by omega), if_pos h']
    exact key 4 2 500 (k - 50) _ (by simp)
  · rw [if_neg (by omega), if_neg (by omega)]
    exact key (-4) 2.5 500 (k - 550) _ (by simp)

/-- The core curve of the trefoil, for `u` in `[0, 4π]`. -/
def trefoilCore (h u : ℝ) : ℝ × ℝ × ℝ :=
  (h * cos u * (1.5 + sin (1.5 * u) / 2), h * sin u * (1.5 + sin (1.5 * u) / 2), 4 * cos (1.5 * u))

theorem trefoil_polar_injective {A B : ℝ} (hA : 0 < A) (hB : A < B) {u u' : ℝ} (hu : |u - u'| < 4 * π)
    (h1 : (B + A * sin (1.5 * u)) * cos u = (B + A * sin (1.5 * u')) * cos u')
    (h2 : (B + A * sin (1.5 * u)) * sin u = (B + A * sin (1.5 * u')) * sin u')
    (h3 : 4 * cos (1.5 * u) = 4 * cos (1.5 * u')) : u = u' := by
  have pos : ∀ v, 0 < B + A * sin v := fun v => by nlinarith [neg_one_le_sin v]
  obtain ⟨e1, e2, e3⟩ := polar_unique (pos _) (pos _) h1 h2
  have hsin : sin (1.5 * u) = sin (1.5 * u') := mul_left_cancel₀ hA.ne' (add_left_cancel e1)
  have hcos : cos (1.5 * u) = cos (1.5 * u') := by linarith
  -- `cos (u - u') = 1` and `cos (1.5 (u - u')) = 1`
  have c1 : cos (u - u') = 1 := by
    rw [cos_sub, e2, e3]; linear_combination cos_sq_add_sin_sq u'
  have c2 : cos (1.5 * u - 1.5 * u') = 1 := by
    rw [cos_sub, hsin, hcos]; linear_combination cos_sq_add_sin_sq (1.5 * u')
  obtain ⟨n, hn⟩ := (cos_eq_one_iff _).1 c1
  obtain ⟨m, hm⟩ := (cos_eq_one_iff _).1 c2
  have hpi := pi_pos
  have hnm : 3 * n = 2 * m := by
    have : (3 * n : ℝ) * π = (2 * m : ℝ) * π := by
      have : (1.5 : ℝ) * u - 1.5 * u' = 1.5 * (u - u') := by ring
      rw [this, ← hn] at hm
      norm_num at hm
      linarith
    have := mul_right_cancel₀ hpi.ne' this
    exact_mod_cast this
  have hn2 : |(n : ℝ)| < 2 := by
    rw [← hn, abs_mul, abs_of_pos (by positivity : (0 : ℝ) < 2 * π)] at hu
    by_contra hc
    push Not at hc
    nlinarith
  have hn3 : |n| < 2 := by exact_mod_cast hn2
  rw [abs_lt] at hn3
  have hn0 : n = 0 := by omega
  rw [hn0] at hn
  push_cast at hn
  linarith

/-- C86: the rows of `trefoil(noisy=True)` are at distance 1 from the core curve, which is closed and does not meet itself. -/
theorem C86_trefoil_noisy (h u v : ℝ) (hu : u ∈ Set.Ico (0 : ℝ) 1) :
    let x := trefoilNoisy h u v
    (∃ w ∈ Set.Ico (0 : ℝ) (4 * π), (x.1 - (trefoilCore h w).1) ^ 2 + (x.2.1 - (trefoilCore h w).2.1) ^ 2
      + (x.2.2 - (trefoilCore h w).2.2) ^ 2 = 1) ∧
    trefoilCore h 0 = trefoilCore h (4 * π) ∧
    (0 < h → ∀ w ∈ Set.Ico (0 : ℝ) (4 * π), ∀ w' ∈ Set.Ico (0 : ℝ) (4 * π), trefoilCore h w = trefoilCore h w' → w = w') := by
  have hpi := pi_pos
  refine ⟨⟨4 * π * u, ⟨by have := hu.1; positivity, by nlinarith [hu.2]⟩, ?_⟩, ?_, ?_⟩
  · unfold trefoilNoisy trefoilCore
    simp only [add_sub_cancel_right]
    linear_combination cos (2 * π * v) ^ 2 * cos_sq_add_sin_sq (4 * π * u) + cos_sq_add_sin_sq (2 * π * v)
  · have e1 : (1.5 : ℝ) * (4 * π) = ((3 : ℕ) : ℝ) * (2 * π) := by push_cast; ring
    have e2 : (4 * π : ℝ) = ((2 : ℕ) : ℝ) * (2 * π) := by push_cast; ring
    have c1 : cos ((1.5 : ℝ) * (4 * π)) = 1 := by rw [e1]; exact cos_nat_mul_two_pi 3
    have s1 : sin ((1.5 : ℝ) * (4 * π)) = 0 := by
      rw [e1, show ((3 : ℕ) : ℝ) * (2 * π) = ((6 : ℕ) : ℝ) * π by push_cast; ring]; exact sin_nat_mul_pi 6
    have c2 : cos (4 * π) = 1 := by rw [e2]; exact cos_nat_mul_two_pi 2
    have s2 : sin (4 * π) = 0 := by
      rw [show (4 * π : ℝ) = ((4 : ℕ) : ℝ) * π by push_cast; ring]; exact sin_nat_mul_pi 4
    unfold trefoilCore
    rw [c1, s1, c2, s2]
    simp
  · intro hh w hw w' hw' he
    unfold trefoilCore at he
    simp only [Prod.mk.injEq] at he
    obtain ⟨h1, h2, h3⟩ := he
    refine trefoil_polar_injective (A := h / 2) (B := 1.5 * h) (by positivity) (by norm_num; linarith) ?_ ?_ ?_ h3
    · rw [abs_lt]; constructor <;> linarith [hw.1, hw.2, hw'.1, hw'.2]
    · linear_combination h1
    · linear_combination h2

/-- C86: `trefoil(noisy=False)` returns `n` different points, all on the tube of `trefoil(noisy=True)` (with `v = 0`). -/
theorem C86_trefoil_exact (h : ℝ) (hh : 0 < h) (n : ℕ) :
    (∀ k < n, ∃ u ∈ Set.Ico (0 : ℝ) 1, trefoilExact h n k = trefoilNoisy h u 0) ∧
      ∀ k < n, ∀ l < n, trefoilExact h n k = trefoilExact h n l → k = l := by
  have hpi := pi_pos
  have hu : ∀ k < n, linspaceOpen 0 1 n k ∈ Set.Ico (0 : ℝ) 1 := by
    intro k hk
    have hn : (0 : ℝ) < n := by exact_mod_cast (by omega : 0 < n)
    have hk' : (k : ℝ) < n := by exact_mod_cast hk
    unfold linspaceOpen
    rw [zero_add, sub_zero, mul_one_div]
    exact ⟨by positivity, (div_lt_one hn).2 hk'⟩
  refine ⟨fun k hk => ⟨_, hu k hk, ?_⟩, fun k hk l hl he => ?_⟩
  · unfold trefoilExact trefoilNoisy
    simp
  · unfold trefoilExact at he
    simp only [Prod.mk.injEq] at he
    obtain ⟨h1, h2, h3⟩ := he
    have hlt := abs_diff_lt (hu k hk) (hu l hl)
    have he : 4 * π * linspaceOpen 0 1 n k = 4 * π * linspaceOpen 0 1 n l := by
      refine trefoil_polar_injective (A := h / 2) (B := 1.5 * h + 1) (by positivity) (by norm_num; linarith) ?_ ?_ ?_ h3
      · rw [← mul_sub, abs_mul, abs_of_pos (by positivity : (0 : ℝ) < 4 * π)]
        nlinarith
      · linear_combination h1
      · linear_combination h2
    have he := mul_left_cancel₀ (by positivity : (4 * π) ≠ 0) he
    unfold linspaceOpen at he
    have hn : (0 : ℝ) < n := by exact_mod_cast (by omega : 0 < n)
    rw [zero_add, zero_add, sub_zero] at he
    have := mul_right_cancel₀ (by positivity : (1 / (n : ℝ)) ≠ 0) he
    exact_mod_cast this

/-- The point lies on the torus with radii 5 and 2 around the vertical line through `(c, 0, 0)`. -/
def OnTorus52 (c : ℝ) (x : ℝ × ℝ × ℝ) : Prop := (√((x.1 - c) ^ 2 + x.2.1 ^ 2) - 5) ^ 2 + x.2.2 ^ 2 = 2 ^ 2

theorem onTorus52_mk (c s t : ℝ) : OnTorus52 c (c + (5 + 2 * cos s) * cos t, (5 + 2 * cos s) * sin t, 2 * sin s) := by
  unfold OnTorus52
  simp only [add_sub_cancel_left]
  have hc := cos_sq_add_sin_sq t
  have hs := cos_sq_add_sin_sq s
  have h1 : ((5 + 2 * cos s) * cos t) ^ 2 + ((5 + 2 * cos s) * sin t) ^ 2 = (5 + 2 * cos s) ^ 2 := by
    linear_combination (5 + 2 * cos s) ^ 2 * hc
  rw [h1, sqrt_sq (by linarith [neg_one_le_cos s])]
  linear_combination 4 * hs

/-- C86: every row of `genus_two_surface` lies on the left torus and left of the plane `x = 4.5`, or on the right torus and
right of that plane. -/
theorem C86_genus_two (x : ℝ × ℝ × ℝ) (hx : x ∈ genusTwoSurface) :
    (OnTorus52 0 x ∧ x.1 ≤ 4.5) ∨ (OnTorus52 9 x ∧ 4.5 ≤ x.1) := by
  unfold genusTwoSurface at hx
  simp only [List.mem_append, List.mem_filter, List.mem_map, decide_eq_true_eq] at hx
  rcases hx with ⟨⟨p, -, rfl⟩, h⟩ | ⟨⟨p, -, rfl⟩, h⟩
  · refine Or.inl ⟨?_, h⟩
    have := onTorus52_mk 0 p.1 p.2
    rwa [zero_add] at this
  · exact Or.inr ⟨onTorus52_mk 9 p.1 p.2, h⟩

/-- C86: the sample of the genus two surface is symmetric under the reflection in the plane `x = 4.5`. -/
theorem C86_genus_two_symmetric (x y z : ℝ) (h : (x, y, z) ∈ genusTwoSurface) : (9 - x, y, z) ∈ genusTwoSurface := by
  have refl : ∀ a b : ℕ, b < 120 → ∃ b' < 120, cos (linspaceOpen 0 (2 * π) 120 b') = - cos (linspaceOpen 0 (2 * π) 120 b) ∧
      sin (linspaceOpen 0 (2 * π) 120 b') = sin (linspaceOpen 0 (2 * π) 120 b) := by
    intro a b hb
    rcases Nat.lt_or_ge 60 b with h | h
    · refine ⟨180 - b, by omega, ?_⟩
      have : linspaceOpen 0 (2 * π) 120 (180 - b) = π - linspaceOpen 0 (2 * π) 120 b + 2 * π := by
        unfold linspaceOpen
        rw [Nat.cast_sub (by omega)]
        push_cast; ring
      rw [this, cos_add_two_pi, sin_add_two_pi, cos_pi_sub, sin_pi_sub]
      exact ⟨rfl, rfl⟩
    · refine ⟨60 - b, by omega, ?_⟩
      have : linspaceOpen 0 (2 * π) 120 (60 - b) = π - linspaceOpen 0 (2 * π) 120 b := by
        unfold linspaceOpen
        rw [Nat.cast_sub (by omega)]
        push_cast; ring
      rw [this, cos_pi_sub, sin_pi_sub]
      exact ⟨rfl, rfl⟩
  unfold genusTwoSurface at h ⊢
  simp only [List.mem_append, List.mem_filter, List.mem_map, List.mem_flatMap, List.mem_range, decide_eq_true_eq,
    Prod.mk.injEq] at h ⊢
  rcases h with ⟨⟨p, ⟨a, ha, b, hb, rfl⟩, h1, h2, h3⟩, hle⟩ | ⟨⟨p, ⟨a, ha, b, hb, rfl⟩, h1, h2, h3⟩, hle⟩
  · obtain ⟨b', hb', hc, hs⟩ := refl a b hb
    refine Or.inr ⟨⟨_, ⟨a, ha, b', hb', rfl⟩, ?_, ?_, ?_⟩, by norm_num at hle ⊢; linarith⟩
    · simp only [hc] at h1 ⊢; linarith
    · simp only [hs] at h2 ⊢; exact h2
    · exact h3
  · obtain ⟨b', hb', hc, hs⟩ := refl a b hb
    refine Or.inl ⟨⟨_, ⟨a, ha, b', hb', rfl⟩, ?_, ?_, ?_⟩, by norm_num at hle ⊢; linarith⟩
    · simp only [hc] at h1 ⊢; linarith
    · simp only [hs] at h2 ⊢; exact h2
    · exact h3

/-- The sample is not empty: `(-7, 0, 0)` is on its left half. -/
example : (-7, 0, 0) ∈ genusTwoSurface := by
  unfold genusTwoSurface
  simp only [List.mem_append, List.mem_filter, List.mem_map, List.mem_flatMap, List.mem_range, decide_eq_true_eq]
  refine Or.inl ⟨⟨_, ⟨0, by norm_num, 60, by norm_num, rfl⟩, ?_⟩, by norm_num⟩
  have e1 : linspaceOpen 0 (2 * π) 120 60 = π := by unfold linspaceOpen; push_cast; ring
  have e2 : linspaceOpen 0 (2 * π) 80 0 = 0 := by unfold linspaceOpen; simp
  simp only [e1, e2]
  norm_num

/-- The hypotheses of the C86 theorems on draws are met. -/
example : UnitDraw (1 / 4, 3 / 4) ∧ ((1 / 4, 3 / 4) : ℝ × ℝ) ≠ (1 / 2, 1 / 2) ∧
    ((1 / 4, 1 / 2, 1 / 2) : ℝ × ℝ × ℝ) ≠ (1 / 2, 1 / 2, 1 / 2) := by
  refine ⟨⟨⟨by norm_num, by norm_num⟩, ⟨by norm_num, by norm_num⟩⟩, ?_, ?_⟩ <;>
  · intro h
    have := congrArg Prod.fst h
    norm_num at this

end

end Dreimac
