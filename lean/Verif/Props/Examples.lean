import Verif.Model.Examples
import Verif.Props.Metrics
import Mathlib.Analysis.SpecialFunctions.Complex.Arg
import Mathlib.Tactic.LinearCombination
import Mathlib.Tactic.FinCases
import Mathlib.Tactic.Positivity

/-!
# Properties of `GeometryExamples` (C71, C77 - C79, C86)
-/

namespace Dreimac

open Real

noncomputable section

/-! ### Surfaces (C77) -/

/-- C77: the points of `torus_3d` satisfy the equation of the torus. -/
theorem C77_torus (R r s t : ℝ) (hr : 0 ≤ r) (hR : r ≤ R) :
    let x := torus3d R r s t
    (√(x.1 ^ 2 + x.2.1 ^ 2) - R) ^ 2 + x.2.2 ^ 2 = r ^ 2 := by
  intro x
  have hc := cos_sq_add_sin_sq (t * 2 * π)
  have hs := cos_sq_add_sin_sq (s * 2 * π)
  have hpos : 0 ≤ R + r * cos (s * 2 * π) := by
    have := neg_one_le_cos (s * 2 * π)
    nlinarith
  have h1 : x.1 ^ 2 + x.2.1 ^ 2 = (R + r * cos (s * 2 * π)) ^ 2 := by
    show ((R + r * cos (s * 2 * π)) * cos (t * 2 * π)) ^ 2 + ((R + r * cos (s * 2 * π)) * sin (t * 2 * π)) ^ 2 = _
    linear_combination (R + r * cos (s * 2 * π)) ^ 2 * hc
  rw [h1, sqrt_sq hpos]
  show (R + r * cos (s * 2 * π) - R) ^ 2 + (r * sin (s * 2 * π)) ^ 2 = r ^ 2
  linear_combination r ^ 2 * hs

/-- The equations of the Klein bottle in `ℝ⁴`: with `ρ` the distance of `(x, y)` from the origin, `(ρ, z, w)` lies at distance
`r` from `(R, 0, 0)`, and the line spanned by `(z, w)` has half the angle of `(x, y)`. -/
def OnKleinBottle (R r : ℝ) (x : ℝ × ℝ × ℝ × ℝ) : Prop :=
  let ρ := √(x.1 ^ 2 + x.2.1 ^ 2)
  (ρ - R) ^ 2 + (x.2.2.1 ^ 2 + x.2.2.2 ^ 2) = r ^ 2 ∧
    ρ * (x.2.2.1 ^ 2 - x.2.2.2 ^ 2) = (x.2.2.1 ^ 2 + x.2.2.2 ^ 2) * x.1 ∧
    ρ * (2 * x.2.2.1 * x.2.2.2) = (x.2.2.1 ^ 2 + x.2.2.2 ^ 2) * x.2.1

/-- C77: the points of `klein_bottle_4d` satisfy the equations of the Klein bottle. -/
theorem C77_klein (R r s t : ℝ) (hr : 0 ≤ r) (hR : r ≤ R) : OnKleinBottle R r (kleinBottle4d R r s t) := by
  set θ := s * 2 * π with hθ
  set φ := t * 2 * π with hφ
  have hx : kleinBottle4d R r s t = ((R + r * cos θ) * cos φ, (R + r * cos θ) * sin φ, r * sin θ * cos (φ / 2),
    r * sin θ * sin (φ / 2)) := rfl
  have hc := cos_sq_add_sin_sq φ
  have hs := cos_sq_add_sin_sq θ
  have hh := cos_sq_add_sin_sq (φ / 2)
  have e1 : cos φ = cos (φ / 2) ^ 2 - sin (φ / 2) ^ 2 := by
    have := cos_two_mul (φ / 2)
    rw [show 2 * (φ / 2) = φ by ring] at this
    rw [this]; linear_combination hh
  have e2 : sin φ = 2 * sin (φ / 2) * cos (φ / 2) := by
    have := sin_two_mul (φ / 2)
    rwa [show 2 * (φ / 2) = φ by ring] at this
  have hpos : 0 ≤ R + r * cos θ := by
    have := neg_one_le_cos θ
    nlinarith
  have h1 : ((R + r * cos θ) * cos φ) ^ 2 + ((R + r * cos θ) * sin φ) ^ 2 = (R + r * cos θ) ^ 2 := by
    linear_combination (R + r * cos θ) ^ 2 * hc
  unfold OnKleinBottle
  rw [hx]
  simp only
  rw [h1, sqrt_sq hpos]
  refine ⟨?_, ?_, ?_⟩
  · linear_combination r ^ 2 * hs + (r * sin θ) ^ 2 * hh
  · rw [e1]
    linear_combination (-(R + r * cos θ) * (r * sin θ) ^ 2 * (cos (φ / 2) ^ 2 - sin (φ / 2) ^ 2)) * hh
  · rw [e2]
    linear_combination (-(R + r * cos θ) * (r * sin θ) ^ 2 * (2 * sin (φ / 2) * cos (φ / 2))) * hh

/-- C77: every point of the torus is reached by some draw. -/
theorem C77_torus_surjective (R r : ℝ) (hr : 0 < r) (x y z : ℝ) (h : (√(x ^ 2 + y ^ 2) - R) ^ 2 + z ^ 2 = r ^ 2) :
    ∃ s t, torus3d R r s t = (x, y, z) := by
  have aux : ∀ a b c : ℝ, 0 ≤ c → a ^ 2 + b ^ 2 = c ^ 2 → ∃ s, c * cos (s * 2 * π) = a ∧ c * sin (s * 2 * π) = b := by
    intro a b c hc hab
    set w : ℂ := ⟨a, b⟩ with hw
    have hn : ‖w‖ = c := by
      have : ‖w‖ ^ 2 = c ^ 2 := by
        rw [← Complex.normSq_eq_norm_sq, Complex.normSq_apply, ← hab, hw]
        ring
      exact (pow_left_inj₀ (norm_nonneg _) hc two_ne_zero).1 this
    refine ⟨Complex.arg w / (2 * π), ?_⟩
    have e : Complex.arg w / (2 * π) * 2 * π = Complex.arg w := by
      have := pi_pos.ne'
      field_simp
    rw [e, ← hn]
    exact ⟨Complex.norm_mul_cos_arg w, Complex.norm_mul_sin_arg w⟩
  obtain ⟨s, hs1, hs2⟩ := aux (√(x ^ 2 + y ^ 2) - R) z r hr.le h
  obtain ⟨t, ht1, ht2⟩ := aux x y (√(x ^ 2 + y ^ 2)) (sqrt_nonneg _) (sq_sqrt (by positivity)).symm
  refine ⟨s, t, ?_⟩
  unfold torus3d
  simp only
  rw [hs1, hs2, show R + (√(x ^ 2 + y ^ 2) - R) = √(x ^ 2 + y ^ 2) by ring, ht1, ht2]

/-- The hypotheses of C77 are met, on a point that is not degenerate. -/
example : torus3d 2 1 0 (1 / 4) = (0, 3, 0) := by
  unfold torus3d
  have : (1 / 4 : ℝ) * 2 * π = π / 2 := by ring
  simp only [this]
  norm_num

/-! ### Patches (C78) -/

theorem fill_inner {α : Type} (g : ℕ → α) (m : ℕ) (st : (ℕ → α) × ℕ) :
    let r := (List.range m).foldl (init := st) fun st j => (Function.update st.1 st.2 (g j), st.2 + 1)
    r.2 = st.2 + m ∧ (∀ j < m, r.1 (st.2 + j) = g j) ∧ ∀ k < st.2, r.1 k = st.1 k := by
  induction m with
  | zero => exact ⟨rfl, fun j hj => absurd hj (Nat.not_lt_zero j), fun k _ => rfl⟩
  | succ m ih =>
    intro r
    set r' := (List.range m).foldl (init := st) fun st j => (Function.update st.1 st.2 (g j), st.2 + 1) with hr'
    have hr : r = (Function.update r'.1 r'.2 (g m), r'.2 + 1) := by
      show (List.range (m + 1)).foldl _ st = _
      rw [List.range_succ, List.foldl_append]
      rfl
    obtain ⟨h1, h2, h3⟩ := ih
    rw [hr]
    refine ⟨by rw [h1]; omega, fun j hj => ?_, fun k hk => ?_⟩
    · by_cases hjm : j = m
      · subst hjm
        simp only
        rw [h1, Function.update_self]
      · simp only
        rw [Function.update_of_ne (by rw [h1]; omega)]
        exact h2 j (by omega)
    · simp only
      rw [Function.update_of_ne (by rw [h1]; omega)]
      exact h3 k hk

theorem fillLoop_spec {α : Type} (n m : ℕ) (f : ℕ → ℕ → α) (init : ℕ → α) :
    (fillLoop n m f init).2 = n * m ∧ ∀ i < n, ∀ j < m, (fillLoop n m f init).1 (i * m + j) = f i j := by
  induction n with
  | zero => exact ⟨by simp [fillLoop], fun i hi => absurd hi (Nat.not_lt_zero i)⟩
  | succ n ih =>
    have hstep : fillLoop (n + 1) m f init
        = (List.range m).foldl (init := fillLoop n m f init) fun st j => (Function.update st.1 st.2 (f n j), st.2 + 1) := by
      unfold fillLoop
      rw [List.range_succ, List.foldl_append]
      rfl
    obtain ⟨h1, h2⟩ := ih
    obtain ⟨g1, g2, g3⟩ := fill_inner (f n) m (fillLoop n m f init)
    rw [← hstep] at g1 g2 g3
    refine ⟨by rw [g1, h1]; ring, fun i hi j hj => ?_⟩
    rcases Nat.lt_succ_iff_lt_or_eq.mp hi with hi | rfl
    · rw [g3 _ ?_]
      · exact h2 i hi j hj
      · rw [h1]
        calc i * m + j < i * m + m := by omega
          _ = (i + 1) * m := by ring
          _ ≤ n * m := Nat.mul_le_mul_right m hi
    · rw [← h1]; exact g2 j hj

/-- C78: `line_patches` returns one row per pair of an angle and an offset, each with `dim * dim` pixels; the row of angle `i`
and offset `j` is `i * n_offsets + j`, and its pixel `(a, b)` is the Gaussian profile of the signed distance to the line. -/
theorem C78_line_patches (dim nAngles nOffsets : ℕ) (sigma : ℝ) :
    (linePatches dim nAngles nOffsets sigma).rows = nAngles * nOffsets ∧
      (linePatches dim nAngles nOffsets sigma).cols = dim * dim ∧
      ∀ i < nAngles, ∀ j < nOffsets, ∀ a < dim, ∀ b < dim,
        (linePatches dim nAngles nOffsets sigma).val (i * nOffsets + j) (a * dim + b)
          = exp (-((linspace (-0.5) 0.5 dim a * cos (i * π / nAngles) + linspace (-0.5) 0.5 dim b * sin (i * π / nAngles)
            + linspace (-1) 1 nOffsets j) ^ 2) / sigma ^ 2) := by
  refine ⟨rfl, rfl, fun i hi j hj a ha b hb => ?_⟩
  unfold linePatches
  simp only
  rw [(fillLoop_spec nAngles nOffsets _ _).2 i hi j hj]
  have e1 : (a * dim + b) / dim = a := by
    rw [mul_comm, Nat.mul_add_div (by omega), Nat.div_eq_of_lt hb, add_zero]
  have e2 : (a * dim + b) % dim = b := by
    rw [mul_comm, Nat.mul_add_mod, Nat.mod_eq_of_lt hb]
  simp only [e1, e2]
  have e3 : linspace 0 π (nAngles + 1) i = i * π / nAngles := by
    unfold linspace
    rw [if_neg (by omega)]
    push_cast
    rw [show (nAngles : ℝ) + 1 - 1 = nAngles by ring]
    ring
  rw [e3]

/-- C78 (partial: `dim = 10`): `moving_dot(s, sigma, dim)` returns `s²` rows of `dim * dim` pixels.  Missing: other values of
`dim`, for which it is false (`C78_moving_dot_wrong`). -/
theorem C78_moving_dot_partial (s : ℕ) (sigma : ℝ) (dim : ℕ) (hdim : dim = 10) :
    (movingDot s sigma dim).rows = s * s ∧ (movingDot s sigma dim).cols = dim * dim ∧
      ∀ i < s, ∀ j < s, ∀ a < 10, ∀ b < 10,
        (movingDot s sigma dim).val (i * s + j) (a * 10 + b)
          = exp (-0.5 * (((a : ℕ) : ℝ) - 4.5 - 15 * linspace (-1) 1 s i ^ 3) ^ 2 / sigma ^ 2)
            * exp (-0.5 * (((b : ℕ) : ℝ) - 4.5 + 15 * linspace (-1) 1 s j ^ 3) ^ 2 / sigma ^ 2) := by
  subst hdim
  refine ⟨?_, rfl, fun i hi j hj a ha b hb => ?_⟩
  · show s ^ 2 = s * s
    ring
  · unfold movingDot
    simp only
    rw [(fillLoop_spec s s _ _).2 i hi j hj]
    have e1 : (a * 10 + b) / 10 = a := by omega
    have e2 : (a * 10 + b) % 10 = b := by omega
    rw [e1, e2]
    have e3 : ∀ c : ℕ, linspace (-(((10 : ℕ) : ℝ) - 1) / 2) ((((10 : ℕ) : ℝ) - 1) / 2) 10 c = c - 4.5 := by
      intro c
      unfold linspace
      rw [if_neg (by norm_num)]
      push_cast
      ring
    rw [e3, e3]
    congr 3
    ring

/-- C78 is false for `moving_dot`: the requested patch size is ignored, rows always have 100 pixels. -/
theorem C78_moving_dot_wrong (s : ℕ) (sigma : ℝ) (dim : ℕ) (hdim : dim ≠ 10) :
    (movingDot s sigma dim).cols = 100 ∧ (movingDot s sigma dim).cols ≠ dim * dim := by
  refine ⟨rfl, fun h => hdim ?_⟩
  have h' : 10 * 10 = dim * dim := h
  exact (Nat.mul_self_inj.1 h').symm

/-! ### The projective plane (C71) -/

/-- C71 for `rp2_metric`: the returned points are unit vectors and the matrix is symmetric with zero diagonal, values in
`[0, π/2]` and the triangle inequality. -/
theorem C71_rp2_metric (n : ℕ) (G : ℕ → ℕ → ℝ) (hG : ∀ i < n, ∃ k < 3, G i k ≠ 0) (i j k : ℕ) (hi : i < n) (hj : j < n)
    (hk : k < n) :
    let X := (rp2Metric n G).1
    let D := (rp2Metric n G).2
    (∑ l ∈ Finset.range 3, X i l ^ 2 = 1) ∧ D i i = 0 ∧ 0 ≤ D i j ∧ D i j ≤ π / 2 ∧ D i j = D j i ∧ D i k ≤ D i j + D j k := by
  intro X D
  have hu : ∀ i < n, ∑ l ∈ Finset.range 3, X i l ^ 2 = 1 := by
    intro i hi
    obtain ⟨k, hk, hne⟩ := hG i hi
    have hpos : 0 < ∑ l ∈ Finset.range 3, G i l ^ 2 := by
      refine Finset.sum_pos' (fun l _ => sq_nonneg _) ⟨k, Finset.mem_range.2 hk, ?_⟩
      positivity
    have : ∀ l, X i l ^ 2 = G i l ^ 2 / ∑ l ∈ Finset.range 3, G i l ^ 2 := by
      intro l
      show (G i l / √(∑ l ∈ Finset.range 3, G i l ^ 2)) ^ 2 = _
      rw [div_pow, sq_sqrt hpos.le]
    rw [Finset.sum_congr rfl fun l _ => this l, ← Finset.sum_div, div_self hpos.ne']
  obtain ⟨⟨h1, h2⟩, h3, -, -, h5⟩ := C71_projarc_metric 3 n n n X X X i j k (hu i hi) (hu j hj) (hu k hk)
  have h4 := (C71_projarc_metric 3 n n n X X X i i i (hu i hi) (hu i hi) (hu i hi)).2.2.2.1.2 (Or.inl fun _ _ => rfl)
  exact ⟨hu i hi, h4, h1, h2, h3, h5⟩

/-! ### The Moore space (C79) -/

theorem norm2_nonneg (x : Fin 2 → ℝ) : 0 ≤ norm2 x := sqrt_nonneg _

theorem minOver_le (n : ℕ) (f : ℕ → ℝ) : ∀ i < n, minOver n f ≤ f i := by
  have aux : ∀ (m : ℕ), ∀ i ≤ m, (List.range m).foldl (fun a i => min a (f (i + 1))) (f 0) ≤ f i := by
    intro m
    induction m with
    | zero => intro i hi; have : i = 0 := by omega
              subst this; exact le_refl _
    | succ m ih =>
      intro i hi
      rw [List.range_succ, List.foldl_append]
      rcases Nat.lt_or_eq_of_le hi with h | rfl
      · exact (min_le_left _ _).trans (ih i (by omega))
      · exact min_le_right _ _
  intro i hi
  exact aux (n - 1) i (by omega)

theorem minOver_mem (n : ℕ) (hn : 0 < n) (f : ℕ → ℝ) : ∃ i < n, minOver n f = f i := by
  have aux : ∀ (m : ℕ), ∃ i ≤ m, (List.range m).foldl (fun a i => min a (f (i + 1))) (f 0) = f i := by
    intro m
    induction m with
    | zero => exact ⟨0, le_refl _, rfl⟩
    | succ m ih =>
      obtain ⟨i, hi, he⟩ := ih
      rw [List.range_succ, List.foldl_append]
      show ∃ i ≤ m + 1, min ((List.range m).foldl (fun a i => min a (f (i + 1))) (f 0)) (f (m + 1)) = f i
      rw [he]
      rcases min_choice (f i) (f (m + 1)) with h | h
      · exact ⟨i, by omega, h⟩
      · exact ⟨m + 1, le_refl _, h⟩
  obtain ⟨i, hi, he⟩ := aux (n - 1)
  exact ⟨i, by omega, he⟩

/-- C79 (partial): the matrix returned by `moore_space_distance_matrix` (as the first entry of a pair) has zero diagonal and
entries between 0 and the distance of the points in the disk.  Missing: symmetry, which is false (`C79_asymmetric`). -/
theorem C79_moore_partial (U : List (Fin 2 → ℝ)) (prime : ℕ) (hp : 0 < prime) (i j : ℕ)
    (hi : i < (mooreSpace U prime).2.length) (hj : j < (mooreSpace U prime).2.length) :
    (mooreSpace U prime).1 i i = 0 ∧ 0 ≤ (mooreSpace U prime).1 i j ∧
      (mooreSpace U prime).1 i j ≤ norm2 (fun k => (mooreSpace U prime).2.getD i 0 k - (mooreSpace U prime).2.getD j 0 k) := by
  have hnn : ∀ x y : Fin 2 → ℝ, 0 ≤ norm2 (fun k => x k - x k / norm2 x) + minOver prime fun i => norm2 fun k =>
      ((rotMat2 (2 * π / prime)) ^ i).mulVec (fun k => x k / norm2 x) k - y k := by
    intro x y
    obtain ⟨l, -, hl⟩ := minOver_mem prime hp fun i => norm2 fun k =>
      ((rotMat2 (2 * π / prime)) ^ i).mulVec (fun k => x k / norm2 x) k - y k
    rw [hl]
    exact add_nonneg (norm2_nonneg _) (norm2_nonneg _)
  refine ⟨?_, ?_, min_le_left _ _⟩
  · show min _ _ = _
    rw [min_eq_left]
    · unfold norm2; simp
    · refine le_trans (le_of_eq ?_) (hnn _ _)
      unfold norm2; simp
  · exact le_min (norm2_nonneg _) (hnn _ _)

/-- Rotation of the plane by an angle. -/
def turn (θ : ℝ) (x : Fin 2 → ℝ) : Fin 2 → ℝ := ![cos θ * x 0 - sin θ * x 1, sin θ * x 0 + cos θ * x 1]

theorem rotMat2_pow (θ : ℝ) (m : ℕ) (x : Fin 2 → ℝ) : (rotMat2 θ ^ m).mulVec x = turn (m * θ) x := by
  have hpow : rotMat2 θ ^ m = rotMat2 (m * θ) := by
    induction m with
    | zero =>
      unfold rotMat2
      ext i j
      fin_cases i <;> fin_cases j <;> simp
    | succ m ih =>
      have e : ((m + 1 : ℕ) : ℝ) * θ = m * θ + θ := by push_cast; ring
      rw [pow_succ, ih, e]
      unfold rotMat2
      rw [cos_add, sin_add]
      ext i j
      fin_cases i <;> fin_cases j <;> simp [Matrix.mul_apply, Fin.sum_univ_two] <;> ring
  rw [hpow]
  unfold rotMat2 turn
  ext k
  fin_cases k <;> simp [Matrix.mulVec, dotProduct, Fin.sum_univ_two]
  ring

/-- C79: the returned points are, in order, the draws scaled to `[-1, 1]²` that lie in the unit disk, and the entry for two
points is the least length of the direct way and of the ways along the radius to the boundary circle, then by some multiple of
a `prime`-th of a turn, then straight to the second point. -/
theorem C79_points_and_entries (U : List (Fin 2 → ℝ)) (prime : ℕ) (hp : 0 < prime) :
    let X := (mooreSpace U prime).2
    (∀ x ∈ X, x 0 ^ 2 + x 1 ^ 2 ≤ 1) ∧
      List.Sublist X (U.map fun u k => 2 * u k - 1) ∧
      (∀ u ∈ U, (2 * u 0 - 1) ^ 2 + (2 * u 1 - 1) ^ 2 ≤ 1 → (fun k => 2 * u k - 1) ∈ X) ∧
      ∀ i j, ∀ x y : Fin 2 → ℝ, X[i]? = some x → X[j]? = some y → x ≠ 0 →
        (∀ m < prime, (mooreSpace U prime).1 i j ≤ (1 - norm2 x)
          + norm2 fun k => turn (m * (2 * π / prime)) (fun k => x k / norm2 x) k - y k) ∧
        ((mooreSpace U prime).1 i j = norm2 (fun k => x k - y k) ∨
          ∃ m < prime, (mooreSpace U prime).1 i j = (1 - norm2 x)
            + norm2 fun k => turn (m * (2 * π / prime)) (fun k => x k / norm2 x) k - y k) := by
  intro X
  have hX : X = (U.map fun u k => (u k - 0.5) * 2).filter fun x => norm2 x ≤ 1 := rfl
  have hmap : (fun (u : Fin 2 → ℝ) k => (u k - 0.5) * 2) = fun u k => 2 * u k - 1 := by
    funext u k; norm_num; ring
  have hn : ∀ x : Fin 2 → ℝ, norm2 x ≤ 1 ↔ x 0 ^ 2 + x 1 ^ 2 ≤ 1 := by
    intro x
    unfold norm2
    rw [sqrt_le_left (by norm_num : (0:ℝ) ≤ 1), one_pow]
  have hle : ∀ x ∈ X, norm2 x ≤ 1 := by
    intro x hx
    rw [hX] at hx
    simpa using (List.mem_filter.1 hx).2
  refine ⟨fun x hx => (hn x).1 (hle x hx), ?_, ?_, ?_⟩
  · rw [hX, hmap]
    exact List.filter_sublist
  · intro u hu h
    rw [hX, hmap, List.mem_filter]
    refine ⟨List.mem_map.2 ⟨u, hu, rfl⟩, ?_⟩
    simpa using (hn _).2 h
  · intro i j x y hi hj hx0
    have hxn : norm2 x ≤ 1 := hle x (List.mem_of_getElem? hi)
    have hxpos : 0 < norm2 x := by
      unfold norm2
      refine sqrt_pos.2 ?_
      by_contra hc
      push Not at hc
      apply hx0
      have h0 : x 0 ^ 2 = 0 := by nlinarith [sq_nonneg (x 0), sq_nonneg (x 1)]
      have h1 : x 1 ^ 2 = 0 := by nlinarith [sq_nonneg (x 0), sq_nonneg (x 1)]
      rw [pow_eq_zero_iff two_ne_zero] at h0 h1
      funext k
      fin_cases k
      · exact h0
      · exact h1
    have hrad : norm2 (fun k => x k - x k / norm2 x) = 1 - norm2 x := by
      have hsq : x 0 ^ 2 + x 1 ^ 2 = norm2 x ^ 2 := by
        unfold norm2
        rw [sq_sqrt (by positivity)]
      have e : (x 0 - x 0 / norm2 x) ^ 2 + (x 1 - x 1 / norm2 x) ^ 2 = (1 - norm2 x) ^ 2 := by
        have : (x 0 - x 0 / norm2 x) ^ 2 + (x 1 - x 1 / norm2 x) ^ 2
            = (x 0 ^ 2 + x 1 ^ 2) * (1 - 1 / norm2 x) ^ 2 := by ring
        rw [this, hsq]
        field_simp
        ring
      show √((x 0 - x 0 / norm2 x) ^ 2 + (x 1 - x 1 / norm2 x) ^ 2) = 1 - norm2 x
      rw [e]
      exact sqrt_sq (by linarith)
    have hentry : (mooreSpace U prime).1 i j = mooreDist prime x y := by
      show mooreDist prime (X.getD i 0) (X.getD j 0) = _
      rw [List.getD_eq_getElem?_getD, List.getD_eq_getElem?_getD, hi, hj]
      rfl
    rw [hentry]
    unfold mooreDist
    simp only [hrad]
    simp only [rotMat2_pow]
    constructor
    · intro m hm
      refine (min_le_right _ _).trans ?_
      have := minOver_le prime (fun (i : ℕ) => norm2 fun k =>
        turn (i * (2 * π / prime)) (fun k => x k / norm2 x) k - y k) m hm
      linarith
    · rcases min_choice (norm2 fun k => x k - y k) (1 - norm2 x + minOver prime fun (i : ℕ) => norm2 fun k =>
        turn (i * (2 * π / prime)) (fun k => x k / norm2 x) k - y k) with h | h
      · exact Or.inl h
      · obtain ⟨m, hm, he⟩ := minOver_mem prime hp fun (i : ℕ) => norm2 fun k =>
          turn (i * (2 * π / prime)) (fun k => x k / norm2 x) k - y k
        exact Or.inr ⟨m, hm, by rw [h, he]⟩

/-- C79 is false: with `prime = 2` the entries for the points `(1, 0)` and `(-3/10, -2/5)` of the disk differ in the two
orders. -/
theorem C79_asymmetric :
    let x : Fin 2 → ℝ := ![1, 0]
    let y : Fin 2 → ℝ := ![-3 / 10, -2 / 5]
    norm2 x ≤ 1 ∧ norm2 y ≤ 1 ∧ mooreDist 2 x y < mooreDist 2 y x := by
  intro x y
  have hrot : rotMat2 (2 * π / ((2 : ℕ) : ℝ)) = !![-1, 0; 0, -1] := by
    unfold rotMat2
    have : 2 * π / ((2 : ℕ) : ℝ) = π := by push_cast; ring
    rw [this]
    simp
  have hx : norm2 x = 1 := by
    unfold norm2
    rw [show x 0 ^ 2 + x 1 ^ 2 = 1 by norm_num [x]]
    exact sqrt_one
  have hy : norm2 y = 1 / 2 := by
    unfold norm2
    rw [show y 0 ^ 2 + y 1 ^ 2 = (1 / 2) ^ 2 by norm_num [y]]
    exact sqrt_sq (by norm_num)
  have n1 : ∀ v : Fin 2 → ℝ, ∀ c : ℝ, 0 ≤ c → v 0 ^ 2 + v 1 ^ 2 ≤ c ^ 2 → norm2 v ≤ c := by
    intro v c hc h
    unfold norm2
    rw [← sqrt_sq hc]
    exact sqrt_le_sqrt h
  have n2 : ∀ v : Fin 2 → ℝ, ∀ c : ℝ, 0 ≤ c → c ^ 2 ≤ v 0 ^ 2 + v 1 ^ 2 → c ≤ norm2 v := by
    intro v c hc h
    unfold norm2
    rw [← sqrt_sq hc]
    exact sqrt_le_sqrt h
  refine ⟨hx.le, by rw [hy]; norm_num, ?_⟩
  have h1 : mooreDist 2 x y ≤ 9 / 10 := by
    unfold mooreDist
    simp only [hx]
    refine (min_le_right _ _).trans ?_
    have hz : norm2 (fun k => x k - x k / 1) = 0 := by unfold norm2; simp
    rw [hz, zero_add]
    refine (minOver_le 2 _ 1 (by norm_num)).trans (n1 _ _ (by norm_num) ?_)
    rw [hrot, pow_one]
    simp [x, y, Matrix.mulVec, dotProduct, Fin.sum_univ_two]
    norm_num
  have h2 : 1 ≤ mooreDist 2 y x := by
    unfold mooreDist
    simp only [hy]
    refine le_min (n2 _ _ (by norm_num) ?_) ?_
    · norm_num [x, y]
    · have hz : norm2 (fun k => y k - y k / (1 / 2)) = 1 / 2 := by
        unfold norm2
        rw [show (y 0 - y 0 / (1 / 2)) ^ 2 + (y 1 - y 1 / (1 / 2)) ^ 2 = (1 / 2) ^ 2 by norm_num [y]]
        exact sqrt_sq (by norm_num)
      rw [hz]
      obtain ⟨l, hl, he⟩ := minOver_mem 2 (by norm_num) fun i => norm2 fun k =>
        ((rotMat2 (2 * π / ((2 : ℕ) : ℝ))) ^ i).mulVec (fun k => y k / (1 / 2)) k - x k
      rw [he]
      have : 1 / 2 ≤ norm2 fun k =>
        ((rotMat2 (2 * π / ((2 : ℕ) : ℝ))) ^ l).mulVec (fun k => y k / (1 / 2)) k - x k := by
        refine n2 _ _ (by norm_num) ?_
        rw [hrot]
        have hl' : l = 0 ∨ l = 1 := by omega
        rcases hl' with rfl | rfl
        · simp [x, y]
          norm_num
        · rw [pow_one]
          simp [x, y, Matrix.mulVec, dotProduct, Fin.sum_univ_two]
          norm_num
      linarith
  linarith

end

end Dreimac
