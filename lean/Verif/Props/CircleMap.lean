import Mathlib.Tactic.Positivity
import Mathlib.Tactic.IntervalCases
import Mathlib.Algebra.BigOperators.Ring.Finset
import Mathlib.Analysis.Real.Pi.Bounds
import Mathlib.Analysis.SpecialFunctions.Trigonometric.Angle
import Verif.Lemmas.Fmod
import Verif.Lemmas.EMCoords
import Verif.Props.EMInit

/-!
# C47, C60–C63: circle-valued maps
-/

namespace Dreimac

open Real

/-! ### C60: offsets -/

/-- **C60.** `offset` returns the angle `x + 2π t` in `[0, 2π)`; offsets add up, an integer offset is the identity on
angles in `[0, 2π)`, and the offset `-t` undoes `t`. -/
theorem C60_offset (x s t : ℝ) :
    (0 ≤ offset x t ∧ offset x t < 2 * π ∧ SameAngle (offset x t) (x + 2 * π * t)) ∧
    offset (offset x s) t = offset x (s + t) ∧
    (0 ≤ x → x < 2 * π → (∀ k : ℤ, offset x k = x) ∧ offset (offset x t) (-t) = x) := by
  have h2 := two_pi_pos'
  have hadd : offset (offset x s) t = offset x (s + t) := by
    unfold offset
    rw [fmod_add_fmod h2]; congr 1; ring
  have hint : 0 ≤ x → x < 2 * π → ∀ k : ℤ, offset x k = x := by
    intro h0 h1 k
    unfold offset
    rw [fmod_add_int h2, fmod_of_mem h2 h0 h1]
  refine ⟨⟨fmod_nonneg h2 _, fmod_lt h2 _, ?_⟩, hadd, fun h0 h1 => ⟨hint h0 h1, ?_⟩⟩
  · have := sameAngle_fmod (x + t * (2 * π))
    unfold offset
    rwa [show x + 2 * π * t = x + t * (2 * π) by ring]
  · have e : offset (offset x t) (-t) = offset x (t + -t) := by
      unfold offset
      rw [fmod_add_fmod h2]; congr 1; ring
    rw [e, add_neg_cancel]
    simpa using hint h0 h1 0

/-! ### C62: sinebow -/

theorem sin_sq_add_int (y : ℝ) (k : ℤ) : sin (π * (y + k)) ^ 2 = sin (π * y) ^ 2 := by
  have h1 : sin (π * (y + k)) ^ 2 = 1 / 2 - cos (2 * (π * (y + k))) / 2 := Real.sin_sq_eq_half_sub _
  have h2 : sin (π * y) ^ 2 = 1 / 2 - cos (2 * (π * y)) / 2 := Real.sin_sq_eq_half_sub _
  rw [h1, h2, show 2 * (π * (y + k)) = 2 * (π * y) + k * (2 * π) by ring, Real.cos_add_int_mul_two_pi]

theorem cos_three (a : ℝ) : cos a + cos (a + 2 * π / 3) + cos (a + 4 * π / 3) = 0 := by
  have h1 : cos (2 * π / 3) = -1 / 2 := by
    rw [show 2 * π / 3 = π - π / 3 by ring, cos_pi_sub, cos_pi_div_three]; ring
  have h2 : cos (4 * π / 3) = -1 / 2 := by
    rw [show 4 * π / 3 = π / 3 + π by ring, cos_add_pi, cos_pi_div_three]; ring
  have h3 : sin (2 * π / 3) = sin (π / 3) := by
    rw [show 2 * π / 3 = π - π / 3 by ring, sin_pi_sub]
  have h4 : sin (4 * π / 3) = - sin (π / 3) := by
    rw [show 4 * π / 3 = π / 3 + π by ring, sin_add_pi]
  rw [cos_add, cos_add, h1, h2, h3, h4]; ring

/-- The three channels without reduction modulo 1. -/
theorem sinebow_closed (x : ℝ) :
    toSinebow x = (sin (x / 2) ^ 2, sin (x / 2 - π / 3) ^ 2, sin (x / 2 - 2 * π / 3) ^ 2) := by
  have hp := Real.pi_pos.ne'
  have key : ∀ c : ℝ, sin (π * (c - fmod (x / (2 * π) + 0.5) 1)) ^ 2 = sin (x / 2 - π * (c - 1 / 2)) ^ 2 := by
    intro c
    unfold fmod
    set k := ⌊(x / (2 * π) + 0.5) / 1⌋
    have e : π * (c - (x / (2 * π) + 0.5 - 1 * (k : ℝ))) = π * ((c - 1 / 2 - x / (2 * π)) + k) := by ring
    rw [e, sin_sq_add_int, ← neg_sq, ← Real.sin_neg]
    congr 2
    field_simp
    ring
  unfold toSinebow
  simp only [key]
  refine Prod.ext ?_ (Prod.ext ?_ ?_)
  · simp only; norm_num
  · simp only; congr 2; ring
  · simp only; congr 2; ring

theorem cos_sin_sameAngle {x y : ℝ} (hc : cos x = cos y) (hs : sin x = sin y) : SameAngle x y := by
  have h : (x : Real.Angle) = y := Real.Angle.cos_sin_inj hc hs
  obtain ⟨k, hk⟩ := Real.Angle.angle_eq_iff_two_pi_dvd_sub.1 h
  exact ⟨k, by rw [hk]; ring⟩

/-- **C62.** The colour that `to_sinebow` gives to an angle `x`: three channels `sin²(x/2)`, `sin²(x/2 - π/3)`,
`sin²(x/2 - 2π/3)`, which lie in `[0, 1]` and add up to `3/2`; two angles have the same colour exactly if they are equal
modulo `2π`. -/
theorem C62_sinebow (x : ℝ) :
    toSinebow x = (sin (x / 2) ^ 2, sin (x / 2 - π / 3) ^ 2, sin (x / 2 - 2 * π / 3) ^ 2) ∧
    (∀ y, toSinebow x = toSinebow y ↔ SameAngle x y) ∧
    (0 ≤ (toSinebow x).1 ∧ (toSinebow x).1 ≤ 1) ∧ (0 ≤ (toSinebow x).2.1 ∧ (toSinebow x).2.1 ≤ 1) ∧
    (0 ≤ (toSinebow x).2.2 ∧ (toSinebow x).2.2 ≤ 1) ∧
    (toSinebow x).1 + (toSinebow x).2.1 + (toSinebow x).2.2 = 3 / 2 := by
  have hb : ∀ z : ℝ, 0 ≤ sin z ^ 2 ∧ sin z ^ 2 ≤ 1 := fun z => ⟨sq_nonneg _, Real.sin_sq_le_one _⟩
  refine ⟨sinebow_closed x, fun y => ⟨fun h => ?_, ?_⟩, hb _, hb _, hb _, ?_⟩
  · rw [sinebow_closed, sinebow_closed] at h
    have h1 : sin (x / 2) ^ 2 = sin (y / 2) ^ 2 := congrArg Prod.fst h
    have h2 : sin (x / 2 - π / 3) ^ 2 = sin (y / 2 - π / 3) ^ 2 := congrArg (fun p => p.2.1) h
    rw [Real.sin_sq_eq_half_sub, Real.sin_sq_eq_half_sub] at h1 h2
    rw [show 2 * (x / 2) = x by ring, show 2 * (y / 2) = y by ring] at h1
    rw [show 2 * (x / 2 - π / 3) = x - (π - π / 3) by ring, show 2 * (y / 2 - π / 3) = y - (π - π / 3) by ring,
      cos_sub x (π - π / 3), cos_sub y (π - π / 3), cos_pi_sub, sin_pi_sub, cos_pi_div_three, sin_pi_div_three] at h2
    have hc : cos x = cos y := by linarith
    refine cos_sin_sameAngle hc ?_
    rw [hc] at h2
    have h3 : 0 < √3 := Real.sqrt_pos.2 (by norm_num)
    have h4 : (sin x - sin y) * √3 = 0 := by linarith
    rcases mul_eq_zero.1 h4 with h | h
    · linarith
    · exact absurd h h3.ne'
  · rintro ⟨k, hk⟩
    have : fmod (x / (2 * π) + 0.5) 1 = fmod (y / (2 * π) + 0.5) 1 := by
      rw [fmod_eq_iff one_pos]
      refine ⟨k, ?_⟩
      have h2 := two_pi_pos'.ne'
      rw [show x = y + k * (2 * π) by linarith]
      field_simp
      ring
    unfold toSinebow
    rw [this]
  · unfold toSinebow
    simp only [Real.sin_sq_eq_half_sub]
    set h := fmod (x / (2 * π) + 0.5) 1
    have := cos_three (2 * (π * (3 / 6 - h)))
    rw [show 2 * (π * (3 / 6 - h)) + 2 * π / 3 = 2 * (π * (5 / 6 - h)) by ring,
      show 2 * (π * (3 / 6 - h)) + 4 * π / 3 = 2 * (π * (7 / 6 - h)) by ring] at this
    linarith

/-- An example of C62: the angles `0` and `π` have different colours, `(0, 3/4, 3/4)` and `(1, 1/4, 1/4)`. -/
example : toSinebow 0 = (0, 3 / 4, 3 / 4) ∧ toSinebow π ≠ toSinebow 0 := by
  constructor
  · rw [(C62_sinebow 0).1]
    have h : sin (π / 3) ^ 2 = 3 / 4 := by rw [sin_pi_div_three, div_pow, Real.sq_sqrt (by norm_num)]; norm_num
    refine Prod.ext (by simp) (Prod.ext ?_ ?_)
    · simp only; rw [show (0 : ℝ) / 2 - π / 3 = -(π / 3) by ring, sin_neg, neg_sq, h]
    · simp only
      rw [show (0 : ℝ) / 2 - 2 * π / 3 = -(π - π / 3) by ring, sin_neg, neg_sq, sin_pi_sub, h]
  · intro h
    obtain ⟨k, hk⟩ := ((C62_sinebow π).2.1 0).1 h
    have hp := Real.pi_pos
    have h1 : (1 : ℝ) = 2 * k := by
      have : π * (2 * k - 1) = 0 := by linarith
      rcases mul_eq_zero.1 this with h | h <;> linarith
    have h2 : (1 : ℤ) = 2 * k := by exact_mod_cast h1
    omega

/-! ### C63: level sets -/

theorem fmod_two_int (z : ℤ) : fmod (z : ℝ) 2 = ((z % 2 : ℤ) : ℝ) := by
  unfold fmod
  have : ⌊(z : ℝ) / 2⌋ = z / 2 := by
    have := Int.floor_div_natCast (k := ℝ) (z : ℝ) 2
    simpa using this
  rw [this, Int.emod_def]; push_cast; ring

/-- **C63.** Invalid numbers of level sets are rejected; otherwise the value lies in `[0, 1]` and is `2π`-periodic,
and without smoothing it is the parity of the index `a` of the arc `[a, a+1) · 2π/(2n)` containing the angle. -/
theorem C63_levelset (n : ClassArg) (s x : ℝ) :
    ((n = .nonInt ∨ ∃ z ≤ 0, n = .int z) → levelsetColoring n s x = .error .assertionError) ∧
    ∀ z : ℤ, n = .int z → 0 < z → ∃ v, levelsetColoring n s x = .ok v ∧ 0 ≤ v ∧ v ≤ 1 ∧
      (∀ y, SameAngle x y → levelsetColoring n s y = .ok v) ∧
      (s = 0 → ∀ a : ℤ, a * (2 * π / (2 * z)) ≤ x → x < (a + 1) * (2 * π / (2 * z)) →
        v = if a % 2 = 0 then 0 else 1) := by
  have h2 := two_pi_pos'
  constructor
  · rintro (rfl | ⟨z, hz, rfl⟩)
    · rfl
    · simp only [levelsetColoring]; rw [if_neg (by omega)]
  · rintro z rfl hz
    have hz' : (0 : ℝ) < z := by exact_mod_cast hz
    have hper : ∀ y, SameAngle x y → ∃ k : ℤ, x / (2 * π) * ((z * 2 : ℤ) : ℝ) =
        y / (2 * π) * ((z * 2 : ℤ) : ℝ) + ((k * z * 2 : ℤ) : ℝ) := by
      rintro y ⟨k, hk⟩
      refine ⟨k, ?_⟩
      rw [show x = y + k * (2 * π) by linarith]
      push_cast
      field_simp
    by_cases hs : s = 0
    · subst hs
      simp only [levelsetColoring, hz, if_true]
      refine ⟨_, rfl, ?_, ?_, ?_, ?_⟩
      · exact fmod_nonneg two_pos _
      · rw [fmod_two_int]
        have : ⌊x / (2 * π) * ((z * 2 : ℤ) : ℝ)⌋ % 2 ≤ 1 := by omega
        exact_mod_cast this
      · intro y hy
        obtain ⟨k, hk⟩ := hper y hy
        rw [hk, Int.floor_add_intCast, fmod_two_int, fmod_two_int]
        congr 2
        omega
      · intro _ a ha1 ha2
        have : ⌊x / (2 * π) * ((z * 2 : ℤ) : ℝ)⌋ = a := by
          rw [Int.floor_eq_iff]
          push_cast
          constructor
          · have : (a : ℝ) = a * (2 * π / (2 * z)) / (2 * π) * (z * 2) := by field_simp
            rw [this]
            gcongr
          · have : (a + 1 : ℝ) = (a + 1) * (2 * π / (2 * z)) / (2 * π) * (z * 2) := by field_simp
            rw [this]
            gcongr
        rw [this, fmod_two_int]
        rcases Int.emod_two_eq_zero_or_one a with h | h <;> simp [h]
    · simp only [levelsetColoring, hz, if_true, hs, if_false]
      have hpos : ∀ y, 0 < 1 + Real.exp y := fun y => by positivity
      refine ⟨_, rfl, ?_, ?_, ?_, fun h => absurd h id⟩
      · unfold sigmoid; have := hpos (-((triangle (fmod (x / (2 * π) * ((z * 2 : ℤ) : ℝ)) 2) - 0.5) * 2) / s); positivity
      · unfold sigmoid
        rw [div_le_one (hpos _)]
        linarith [Real.exp_pos (-((triangle (fmod (x / (2 * π) * ((z * 2 : ℤ) : ℝ)) 2) - 0.5) * 2) / s)]
      · intro y hy
        obtain ⟨k, hk⟩ := hper y hy
        rw [hk]
        have : ((k * z * 2 : ℤ) : ℝ) = ((k * z : ℤ) : ℝ) * 2 := by push_cast; ring
        rw [this, fmod_add_int two_pos]

/-- **C63.** With smoothing `s ≠ 0` the colour is a logistic function of the distance, measured in arcs of length
`2π/(2n)`, from the angle to the nearest end `a · 2π/n` of a pair of arcs: `1/2` halfway through an arc, and the same
value from both sides of every boundary. -/
theorem C63_smoothed (z : ℤ) (hz : 0 < z) (s x : ℝ) (hs : s ≠ 0) (a : ℤ) (h : |x / (2 * π / (2 * z)) - 2 * a| ≤ 1) :
    levelsetColoring (.int z) s x =
      .ok (1 / (1 + Real.exp (-(2 * |x / (2 * π / (2 * z)) - 2 * a| - 1) / s))) := by
  have h2 := two_pi_pos'
  have hz' : (0 : ℝ) < z := by exact_mod_cast hz
  have hy : x / (2 * π) * ((z * 2 : ℤ) : ℝ) = x / (2 * π / (2 * z)) := by
    push_cast; field_simp
  simp only [levelsetColoring, hz, if_true, hs, if_false, hy]
  generalize x / (2 * π / (2 * z)) = y at h ⊢
  have ht : triangle (fmod y 2) = |y - 2 * a| := by
    rw [abs_le] at h
    unfold triangle
    by_cases hya : 2 * (a : ℝ) ≤ y
    · have : fmod y 2 = y - 2 * a := by
        rw [show y = (y - 2 * a) + (a : ℤ) * 2 by ring, fmod_add_int two_pos, fmod_of_mem two_pos] <;> linarith
      rw [this, abs_of_nonneg (by linarith)]
      split <;> linarith
    · push Not at hya
      have : fmod y 2 = y - 2 * a + 2 := by
        rw [show y = (y - 2 * a + 2) + ((a - 1 : ℤ) : ℝ) * 2 by push_cast; ring, fmod_add_int two_pos,
          fmod_of_mem two_pos] <;> push_cast <;> linarith
      rw [this, abs_of_neg (by linarith), if_neg (by linarith)]
      ring
  rw [ht, sigmoid]
  norm_num
  congr 4
  ring

/-- Every angle is within one arc of some such end, and halfway through the first arc the colour is `1/2`. -/
example (y : ℝ) : ∃ a : ℤ, |y - 2 * a| ≤ 1 := by
  refine ⟨round (y / 2), ?_⟩
  have := abs_sub_round (y / 2)
  rw [abs_le] at this ⊢
  constructor <;> linarith

example : levelsetColoring (.int 1) (1 / 10) (π / 2) = .ok (1 / 2) := by
  have hp := Real.pi_pos
  have e : π / 2 / (2 * π / (2 * ((1 : ℤ) : ℝ))) - 2 * ((0 : ℤ) : ℝ) = 1 / 2 := by push_cast; field_simp; norm_num
  rw [C63_smoothed 1 one_pos _ _ (by norm_num) 0 (by rw [e]; norm_num [abs_of_pos]), e]
  norm_num [abs_of_pos]

/-! ### C47: linear combinations -/

/-- An array of finite angles. -/
def finMaps (f : ℕ → ℕ → ℝ) : ℕ → ℕ → Fl ℝ := fun j p => Fl.fin (f j p)

theorem combineAt_fin (k : ℕ) (M f : ℕ → ℕ → ℝ) (i p : ℕ) :
    combineAt k M (finMaps f) i p = Fl.fin (fmod (∑ j ∈ Finset.range k, M i j * f j p) (2 * π)) := by
  unfold combineAt finMaps
  simp only [Fl.fin_mul, flSum_fin]
  rfl

/-- **C47.** `linear_combination` accepts an `l × k` matrix for `k` maps and returns, for each point, the angle
`Σ_j A_ij f_j` in `[0, 2π)`. -/
theorem C47_value (k n l : ℕ) (f A : ℕ → ℕ → ℝ) :
    ∃ g : ℕ → ℕ → ℝ, linearCombination (.d2 k n (finMaps f)) (.d2 l k A) = .ok (.d2 l n (finMaps g)) ∧
      ∀ i p, 0 ≤ g i p ∧ g i p < 2 * π ∧ SameAngle (g i p) (∑ j ∈ Finset.range k, A i j * f j p) := by
  refine ⟨fun i p => fmod (∑ j ∈ Finset.range k, A i j * f j p) (2 * π), ?_, fun i p =>
    ⟨fmod_nonneg two_pi_pos' _, fmod_lt two_pi_pos' _, sameAngle_fmod _⟩⟩
  simp only [linearCombination, if_true]
  congr 2
  funext i p
  rw [combineAt_fin]; rfl

/-- **C47.** With an integral matrix the result depends only on the angles modulo `2π`. -/
theorem C47_depends_on_angles (k n l : ℕ) (f f' : ℕ → ℕ → ℝ) (A : ℕ → ℕ → ℤ)
    (h : ∀ j < k, ∀ p, SameAngle (f j p) (f' j p)) :
    linearCombination (.d2 k n (finMaps f)) (.d2 l k fun i j => A i j) =
      linearCombination (.d2 k n (finMaps f')) (.d2 l k fun i j => A i j) := by
  simp only [linearCombination, if_true]
  congr 2
  funext i p
  rw [combineAt_fin, combineAt_fin, (fmod_eq_iff_sameAngle _ _).2]
  exact SameAngle.sum _ fun j hj => (h j (Finset.mem_range.1 hj) p).int_mul _

/-- **C47.** Applying `A` and then an integral `B` equals applying `B A`. -/
theorem C47_composition (k n l m : ℕ) (f A : ℕ → ℕ → ℝ) (B : ℕ → ℕ → ℤ) :
    (do let r ← linearCombination (.d2 k n (finMaps f)) (.d2 l k A)
        linearCombination r (.d2 m l fun i j => B i j)) =
      linearCombination (.d2 k n (finMaps f)) (.d2 m k fun i j => ∑ t ∈ Finset.range l, (B i t : ℝ) * A t j) := by
  have e : combineAt k A (finMaps f) = finMaps fun i p => fmod (∑ j ∈ Finset.range k, A i j * f j p) (2 * π) := by
    funext i p; rw [combineAt_fin]; rfl
  simp only [linearCombination, if_true, bind, Except.bind]
  congr 2
  funext i p
  rw [e, combineAt_fin, combineAt_fin]
  congr 1
  rw [fmod_eq_iff_sameAngle]
  have : ∑ j ∈ Finset.range k, (∑ t ∈ Finset.range l, (B i t : ℝ) * A t j) * f j p =
      ∑ t ∈ Finset.range l, (B i t : ℝ) * ∑ j ∈ Finset.range k, A t j * f j p := by
    simp only [Finset.sum_mul, Finset.mul_sum]
    rw [Finset.sum_comm]
    simp only [mul_assoc]
  rw [this]
  exact SameAngle.sum _ fun t _ => (sameAngle_fmod _).int_mul _

/-- **C47.** The one-dimensional form is the corresponding row. -/
theorem C47_one_dimensional (k n : ℕ) (f : ℕ → ℕ → Fl ℝ) (a : ℕ → ℝ) (l : ℕ) (A : ℕ → ℕ → ℝ) (i : ℕ)
    (ha : ∀ j, a j = A i j) :
    ∃ g h, linearCombination (.d2 k n f) (.d1 k a) = .ok (.d1 n g) ∧
      linearCombination (.d2 k n f) (.d2 l k A) = .ok (.d2 l n h) ∧ g = h i := by
  refine ⟨combineAt k (fun _ => a) f 0, combineAt k A f, by simp [linearCombination], by simp [linearCombination], ?_⟩
  funext p
  unfold combineAt
  simp only [ha]

/-- **C47.** Mismatched shapes are rejected. -/
theorem C47_shape_mismatch (maps : NdArr (Fl ℝ)) (M : NdArr ℝ) :
    ((∀ k n f, maps ≠ .d2 k n f) → linearCombination maps M = .error .assertionError) ∧
    (∀ k n f, maps = .d2 k n f → (∀ l A, M ≠ .d2 l k A) → (∀ a, M ≠ .d1 k a) →
      linearCombination maps M = .error .assertionError) := by
  constructor
  · intro h
    cases maps with
    | d2 k n f => exact absurd rfl (h k n f)
    | _ => rfl
  · rintro k n f rfl h1 h2
    cases M with
    | d2 l k' A =>
      simp only [linearCombination]
      rw [if_neg]; rintro rfl; exact h1 l A rfl
    | d1 k' a =>
      simp only [linearCombination]
      rw [if_neg]; rintro rfl; exact h2 a rfl
    | _ => rfl

/-! ### C61: centering -/

theorem argmaxFirst_spec (n : ℕ) (f : ℕ → ℕ) (hn : 0 < n) : argmaxFirst n f < n ∧ (∀ k < n, f k ≤ f (argmaxFirst n f)) ∧
    ∀ k < argmaxFirst n f, f k < f (argmaxFirst n f) := by
  unfold argmaxFirst
  induction n with
  | zero => omega
  | succ n ih =>
    rw [List.range_succ, List.foldl_append, List.foldl_cons, List.foldl_nil]
    rcases Nat.eq_zero_or_pos n with rfl | hpos
    · simp only [List.range_zero, List.foldl_nil, lt_irrefl, if_false]
      exact ⟨by omega, fun k hk => by rw [show k = 0 by omega], fun k hk => by omega⟩
    · obtain ⟨h1, h2, h3⟩ := ih hpos
      set b := (List.range n).foldl (fun best k => if f best < f k then k else best) 0
      split
      · rename_i h
        refine ⟨by omega, fun k hk => ?_, fun k hk => (h2 k hk).trans_lt h⟩
        rcases Nat.lt_succ_iff_lt_or_eq.1 hk with hk | rfl
        · exact (h2 k hk).trans h.le
        · exact le_refl _
      · rename_i h
        refine ⟨by omega, fun k hk => ?_, h3⟩
        rcases Nat.lt_succ_iff_lt_or_eq.1 hk with hk | rfl
        · exact h2 k hk
        · exact not_lt.1 h

theorem histRange_spec (xs : List ℝ) : (histRange xs).1 < (histRange xs).2 ∧
    (∀ x ∈ xs, (histRange xs).1 ≤ x ∧ x ≤ (histRange xs).2) ∧
    ((∀ x ∈ xs, 0 ≤ x ∧ x ≤ 2 * π) → (histRange xs).2 - (histRange xs).1 ≤ 2 * π) := by
  have hpi := Real.pi_gt_three
  cases xs with
  | nil => simp [histRange]; linarith
  | cons x l =>
    have h1 := foldl_min_isLeast l x
    have h2 := foldl_max_isGreatest l x
    have hb : ∀ y ∈ x :: l, l.foldl min x ≤ y ∧ y ≤ l.foldl max x := fun y hy => ⟨h1.2 hy, h2.2 hy⟩
    simp only [histRange]
    split
    · rename_i he
      refine ⟨by simp only; linarith, fun y hy => ?_, fun _ => by simp only; linarith⟩
      have := hb y hy
      simp only
      constructor <;> linarith [this.1, this.2]
    · rename_i hne
      have hx := hb x (by simp)
      refine ⟨lt_of_le_of_ne (hx.1.trans hx.2) hne, hb, fun h => ?_⟩
      have a1 := h _ h1.1
      have a2 := h _ h2.1
      simp only
      linarith [a1.1, a2.2]

/-- Membership in the `k`-th histogram bin. -/
def InBin (xs : List ℝ) (bins k : ℕ) (x : ℝ) : Prop :=
  histTick xs bins k ≤ x ∧ (x < histTick xs bins (k + 1) ∨ (k + 1 = bins ∧ x ≤ histTick xs bins (k + 1)))

theorem exists_bin (xs : List ℝ) (bins : ℕ) (hb : 0 < bins) (x : ℝ) (hx : x ∈ xs) :
    ∃ k < bins, InBin xs bins k x := by
  obtain ⟨hlt, hmem, -⟩ := histRange_spec xs
  obtain ⟨h1, h2⟩ := hmem x hx
  by_contra hno
  push Not at hno
  have step : ∀ k ≤ bins, k < bins → histTick xs bins k ≤ x := by
    intro k
    induction k with
    | zero => intro _ _; simpa [histTick] using h1
    | succ k ih =>
      intro h3 h4
      have := ih (by omega) (by omega)
      by_contra h
      exact hno k (by omega) ⟨this, Or.inl (not_le.1 h)⟩
  obtain ⟨b, rfl⟩ := Nat.exists_eq_add_of_lt hb
  rw [Nat.zero_add] at *
  have hl := step b (by omega) (by omega)
  refine hno b (by omega) ⟨hl, Or.inr ⟨rfl, ?_⟩⟩
  have : histTick xs (b + 1) (b + 1) = (histRange xs).2 := by
    unfold histTick
    have : ((b + 1 : ℕ) : ℝ) ≠ 0 := by positivity
    field_simp; ring
  rw [this]; exact h2

open Classical in
theorem histCount_eq (xs : List ℝ) (bins k : ℕ) :
    histCount xs bins k = xs.countP fun x => decide (InBin xs bins k x) := by
  unfold histCount
  apply List.countP_congr
  intro x _
  rw [decide_eq_true_iff, decide_eq_true_iff]; rfl

theorem countP_le_sum {α : Type} (l : List α) (n : ℕ) (p : ℕ → α → Bool) (h : ∀ a ∈ l, ∃ k < n, p k a = true) :
    l.length ≤ ∑ k ∈ Finset.range n, l.countP (p k) := by
  induction l with
  | nil => simp
  | cons a l ih =>
    have := ih fun a ha => h a (by simp [ha])
    simp only [List.countP_cons, Finset.sum_add_distrib, List.length_cons]
    obtain ⟨k, hk, hp⟩ := h a (by simp)
    have h1 : 1 ≤ ∑ k ∈ Finset.range n, (if p k a = true then 1 else 0) := by
      have := Finset.single_le_sum (f := fun k => if p k a = true then 1 else 0) (fun _ _ => Nat.zero_le _)
        (Finset.mem_range.2 hk)
      simpa [hp] using this
    omega

theorem histRange_eq {xs : List ℝ} {lo hi : ℝ} (hlo : lo ∈ xs) (hhi : hi ∈ xs) (hb : ∀ x ∈ xs, lo ≤ x ∧ x ≤ hi)
    (hlt : lo < hi) : histRange xs = (lo, hi) := by
  cases xs with
  | nil => simp at hlo
  | cons x l =>
    have e1 : l.foldl min x = lo := by
      have h1 := foldl_min_isLeast l x
      exact le_antisymm (h1.2 hlo) (hb _ h1.1).1
    have e2 : l.foldl max x = hi := by
      have h1 := foldl_max_isGreatest l x
      exact le_antisymm (hb _ h1.1).2 (h1.2 hhi)
    simp only [histRange]
    rw [e1, e2, if_neg hlt.ne]

/-- `x` lies in bin number `k` of fifty bins of equal width that divide `[lo, hi]`; bins contain their left end only, the
last one both ends. -/
def HistBin (lo hi : ℝ) (k : ℕ) (x : ℝ) : Prop :=
  lo + k * ((hi - lo) / 50) ≤ x ∧ (x < lo + (k + 1) * ((hi - lo) / 50) ∨ (k = 49 ∧ x ≤ hi))

theorem inBin_iff {xs : List ℝ} {lo hi : ℝ} (h : histRange xs = (lo, hi)) (k : ℕ) (x : ℝ) :
    InBin xs 50 k x ↔ HistBin lo hi k x := by
  unfold InBin HistBin histTick
  rw [h]
  simp only
  constructor
  · rintro ⟨h1, h2⟩
    refine ⟨by exact_mod_cast h1, h2.imp (fun h => ?_) fun h => ⟨by omega, ?_⟩⟩
    · push_cast at h; exact h
    · have hk : k = 49 := by omega
      subst hk
      have := h.2
      push_cast at this
      linarith
  · rintro ⟨h1, h2⟩
    refine ⟨by exact_mod_cast h1, h2.imp (fun h => ?_) fun h => ⟨by omega, ?_⟩⟩
    · push_cast; exact h
    · have hk : k = 49 := by omega
      subst hk
      have := h.2
      push_cast
      linarith

open Classical in
/-- **C61.** `center` for angles that spread over `[lo, hi]`: let `k` be the first of the fullest of the fifty histogram
bins (it contains at least one fiftieth of the angles).  The angles are rotated by `π - e`, where `e` is the left end of
that bin, and reduced to `[0, 2π)`; so the angles of that bin land in `[π, π + (hi - lo)/50]`. -/
theorem C61_center (xs : List ℝ) (lo hi : ℝ) (hlo : lo ∈ xs) (hhi : hi ∈ xs) (hb : ∀ x ∈ xs, lo ≤ x ∧ x ≤ hi)
    (hlt : lo < hi) (hw : hi - lo ≤ 2 * π) :
    ∃ k < 50,
      (∀ j < 50, xs.countP (fun x => decide (HistBin lo hi j x)) ≤ xs.countP (fun x => decide (HistBin lo hi k x))) ∧
      (∀ j < k, xs.countP (fun x => decide (HistBin lo hi j x)) < xs.countP (fun x => decide (HistBin lo hi k x))) ∧
      xs.length ≤ 50 * xs.countP (fun x => decide (HistBin lo hi k x)) ∧
      List.Forall₂ (fun x y => 0 ≤ y ∧ y < 2 * π ∧ SameAngle y (x + (π - (lo + k * ((hi - lo) / 50)))) ∧
        (HistBin lo hi k x → π ≤ y ∧ y ≤ π + (hi - lo) / 50)) xs (center xs) := by
  have hr := histRange_eq hlo hhi hb hlt
  obtain ⟨hk, hmax, hfirst⟩ := argmaxFirst_spec 50 (histCount xs 50) (by norm_num)
  have hpi := Real.pi_pos
  have hcount : ∀ j, histCount xs 50 j = xs.countP (fun x => decide (HistBin lo hi j x)) := by
    intro j
    rw [histCount_eq]
    apply List.countP_congr
    intro x _
    rw [decide_eq_true_iff, decide_eq_true_iff, inBin_iff hr]
  set k := argmaxFirst 50 (histCount xs 50) with hkdef
  refine ⟨k, hk, fun j hj => ?_, fun j hj => ?_, ?_, ?_⟩
  · have := hmax j hj
    rwa [hcount, hcount] at this
  · have := hfirst j hj
    rwa [hcount, hcount] at this
  · have h1 := countP_le_sum xs 50 (fun k x => decide (HistBin lo hi k x)) fun x hxm => by
      obtain ⟨j, hj, hb⟩ := exists_bin xs 50 (by norm_num) x hxm
      exact ⟨j, hj, by simpa using (inBin_iff hr j x).1 hb⟩
    have h2 : ∑ j ∈ Finset.range 50, xs.countP (fun x => decide (HistBin lo hi j x)) ≤
        ∑ _j ∈ Finset.range 50, xs.countP (fun x => decide (HistBin lo hi k x)) := by
      apply Finset.sum_le_sum
      intro j hj
      have := hmax j (Finset.mem_range.1 hj)
      rwa [hcount, hcount] at this
    rw [Finset.sum_const, Finset.card_range, smul_eq_mul] at h2
    exact h1.trans h2
  · have ht : histTick xs 50 k = lo + k * ((hi - lo) / 50) := by
      unfold histTick; rw [hr]; norm_num
    unfold center
    simp only [← hkdef, ht]
    rw [List.forall₂_map_right_iff, List.forall₂_same]
    intro x _
    refine ⟨fmod_nonneg two_pi_pos' _, fmod_lt two_pi_pos' _, ?_, ?_⟩
    · have := sameAngle_fmod (x - (lo + k * ((hi - lo) / 50)) + π)
      rwa [show x + (π - (lo + k * ((hi - lo) / 50))) = x - (lo + k * ((hi - lo) / 50)) + π by ring]
    · rintro ⟨h1, h2⟩
      have h3 : x ≤ lo + (k + 1) * ((hi - lo) / 50) := by
        rcases h2 with h | ⟨h, h'⟩
        · exact h.le
        · rw [h]; push_cast; linarith
      rw [fmod_of_mem two_pi_pos' (by linarith) (by linarith)]
      constructor <;> linarith

/-- **C61.** If all angles are equal they all go to `π`. -/
theorem C61_center_constant (c : ℝ) (n : ℕ) : center (List.replicate n c) = List.replicate n π := by
  cases n with
  | zero => rfl
  | succ n =>
    have hmin : ∀ m, (List.replicate m c).foldl min c = c := by
      intro m; induction m with
      | zero => rfl
      | succ m ih => rw [List.replicate_succ, List.foldl_cons, min_self, ih]
    have hmax : ∀ m, (List.replicate m c).foldl max c = c := by
      intro m; induction m with
      | zero => rfl
      | succ m ih => rw [List.replicate_succ, List.foldl_cons, max_self, ih]
    have hr : histRange (List.replicate (n + 1) c) = (c - 0.5, c + 0.5) := by
      rw [List.replicate_succ]
      simp only [histRange]
      rw [hmin, hmax, if_pos rfl]
    have ht : ∀ k, histTick (List.replicate (n + 1) c) 50 k = c - 0.5 + k / 50 := by
      intro k; unfold histTick; rw [hr]; norm_num; ring
    have hc : ∀ k, histCount (List.replicate (n + 1) c) 50 k = if k = 25 then n + 1 else 0 := by
      intro k
      unfold histCount
      rw [List.countP_replicate]
      simp only [ht, decide_eq_true_eq]
      congr 1
      rw [eq_iff_iff]
      constructor
      · rintro ⟨h1, h2⟩
        have e1 : (k : ℝ) ≤ 25 := by linarith
        have e1' : k ≤ 25 := by exact_mod_cast e1
        rcases h2 with h2 | ⟨h2, -⟩
        · push_cast at h2
          have e2 : (24 : ℝ) < k := by linarith
          have e2' : 24 < k := by exact_mod_cast e2
          omega
        · omega
      · rintro rfl
        refine ⟨by norm_num, Or.inl ?_⟩
        push_cast; linarith
    have hk : argmaxFirst 50 (histCount (List.replicate (n + 1) c) 50) = 25 := by
      obtain ⟨h1, h2, -⟩ := argmaxFirst_spec 50 (histCount (List.replicate (n + 1) c) 50) (by norm_num)
      have := h2 25 (by norm_num)
      rw [hc, hc, if_pos rfl] at this
      by_contra hne
      rw [if_neg hne] at this
      omega
    unfold center
    simp only [hk, ht]
    rw [List.map_replicate]
    congr 1
    have hpi := Real.pi_pos
    rw [show c - (c - 0.5 + ((25 : ℕ) : ℝ) / 50) + π = π by push_cast; ring]
    exact fmod_of_mem two_pi_pos' hpi.le (by linarith)

open Classical in
/-- An example of C61: of the angles `1, 1, 2` the first two share the fullest bin, number 0, and go to `π`; `2` goes to
`π + 1`. -/
example : center [1, 1, 2] = [π, π, π + 1] := by
  have hpi := Real.pi_gt_three
  obtain ⟨k, hk, hmax, -, -, h⟩ := C61_center [1, 1, 2] 1 2 (by simp) (by simp)
    (fun x hx => by
      simp only [List.mem_cons, List.not_mem_nil, or_false] at hx
      rcases hx with rfl | rfl | rfl <;> constructor <;> norm_num) (by norm_num) (by linarith)
  have hk0 : k = 0 := by
    by_contra hne
    have h0 := hmax 0 (by norm_num)
    have a0 : HistBin 1 2 0 1 := ⟨by norm_num, Or.inl (by norm_num)⟩
    have a1 : ¬ HistBin 1 2 k 1 := fun hb => by
      have := hb.1
      have h1 : (1 : ℝ) ≤ k := by exact_mod_cast Nat.one_le_iff_ne_zero.2 hne
      norm_num at this
      linarith
    have e1 : 2 ≤ [(1 : ℝ), 1, 2].countP fun x => decide (HistBin 1 2 0 x) := by
      rw [List.countP_cons_of_pos (by simpa using a0), List.countP_cons_of_pos (by simpa using a0)]
      omega
    have e2 : ([(1 : ℝ), 1, 2].countP fun x => decide (HistBin 1 2 k x)) ≤ 1 := by
      rw [List.countP_cons_of_neg (by simpa using a1), List.countP_cons_of_neg (by simpa using a1)]
      exact List.countP_le_length
    omega
  subst hk0
  have uniq : ∀ x y z : ℝ, 0 ≤ y → y < 2 * π → SameAngle y x → x = z → 0 ≤ z → z < 2 * π → y = z := by
    rintro x y z h1 h2 ⟨m, hm⟩ rfl h3 h4
    have e1 : (m : ℝ) < 1 := by
      by_contra hcon
      push Not at hcon
      nlinarith
    have e2 : (-1 : ℝ) < m := by
      by_contra hcon
      push Not at hcon
      nlinarith
    have e3 : m < 1 := by exact_mod_cast e1
    have e4 : -1 < m := by exact_mod_cast e2
    have : m = 0 := by omega
    rw [this] at hm
    simp only [Int.cast_zero, zero_mul] at hm
    linarith
  generalize center [1, 1, 2] = l at h
  cases h with
  | cons h1 h => cases h with
    | cons h2 h => cases h with
      | cons h3 h => cases h with
        | nil =>
          rw [uniq _ _ π h1.1 h1.2.1 h1.2.2.1 (by push_cast; ring) (by linarith) (by linarith),
            uniq _ _ π h2.1 h2.2.1 h2.2.2.1 (by push_cast; ring) (by linarith) (by linarith),
            uniq _ _ (π + 1) h3.1 h3.2.1 h3.2.2.1 (by push_cast; ring) (by linarith) (by linarith)]

end Dreimac
