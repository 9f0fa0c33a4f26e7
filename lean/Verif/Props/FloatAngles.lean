import Verif.Props.Float64

/-!
# C98, C99: angles and cover radii in floating point arithmetic
-/

namespace Dreimac

open Fl

section
variable {K : Type} [Field K] [LinearOrder K] [IsStrictOrderedRing K] [FloorRing K] {rnd : K → Fl K}

/-- The remainder has the sign of `x`, is smaller than the modulus, and differs from `x` by a multiple of it. -/
theorem cFmod_spec {m : K} (hm : 0 < m) (x : K) :
    |cFmod x m| < m ∧ (0 ≤ x → 0 ≤ cFmod x m) ∧ (x < 0 → cFmod x m ≤ 0) ∧ ∃ k : ℤ, cFmod x m = x - k * m := by
  unfold cFmod
  rcases le_or_gt 0 x with h | h
  · rw [if_pos h]
    have h1 := Int.floor_le (x / m)
    have h2 := Int.lt_floor_add_one (x / m)
    rw [le_div_iff₀ hm] at h1
    rw [div_lt_iff₀ hm] at h2
    refine ⟨?_, fun _ => by linarith, fun h' => absurd h (not_le.2 h'), ⌊x / m⌋, by ring⟩
    rw [abs_lt]; constructor <;> linarith
  · rw [if_neg (not_le.2 h)]
    have h1 := Int.le_ceil (x / m)
    have h2 := Int.ceil_lt_add_one (x / m)
    rw [div_le_iff₀ hm] at h1
    have h2' : (⌈x / m⌉ - 1 : K) * m < x := by rw [← lt_div_iff₀ hm]; linarith
    refine ⟨?_, fun h' => absurd h (not_lt.2 h'), fun _ => by linarith, ⌈x / m⌉, by ring⟩
    rw [abs_lt]; constructor <;> linarith

/-- **C98 (partial).** In the arithmetic of any number format every circular coordinate that is not `nan` lies in the closed
interval from 0 to the machine number `2 * np.pi` (`tau`), and agrees with the (rounded) number of turns times `tau` modulo
`tau` up to the error of a single rounding.  Missing: `tau` itself is not excluded. -/
theorem C98_angle_closed_interval_partial (R : Rounding rnd) {u eta : K} (E : ErrorBound rnd u eta) (hu : 0 ≤ u)
    (heta : 0 ≤ eta) {tau : K} (ht : 0 < tau)
    (mt : Machine rnd tau) (c x : K) (hx : rnd (tau * c) = fin x) :
    ∃ θ, angleF rnd tau (fin c) = fin θ ∧ 0 ≤ θ ∧ θ ≤ tau ∧ ∃ k : ℤ, |θ - (x - k * tau)| ≤ u * tau + eta := by
  obtain ⟨h1, h2, h3, k, hk⟩ := cFmod_spec ht x
  rw [abs_lt] at h1
  unfold angleF
  rw [fin_mul, round_fin, hx]
  simp only [npModF]
  have hub : 0 ≤ u * tau + eta := add_nonneg (mul_nonneg hu ht.le) heta
  rcases lt_or_ge (cFmod x tau) 0 with h | h
  · rw [if_pos h]
    obtain ⟨θ, e, t0, t1, -⟩ := R.between R.zero mt (by linarith : 0 ≤ cFmod x tau + tau) (by linarith)
    refine ⟨θ, e, t0, t1, k - 1, ?_⟩
    have he := E.all _ _ e
    rw [abs_of_nonneg (by linarith : 0 ≤ cFmod x tau + tau)] at he
    have e2 : x - ((k - 1 : ℤ) : K) * tau = cFmod x tau + tau := by rw [hk]; push_cast; ring
    rw [e2]
    refine he.trans ?_
    have : u * (cFmod x tau + tau) ≤ u * tau := mul_le_mul_of_nonneg_left (by linarith) hu
    linarith
  · rw [if_neg (not_lt.2 h)]
    refine ⟨_, rfl, h, h1.2.le, k, ?_⟩
    rw [hk, sub_self, abs_zero]; exact hub

/-- The machine number `2 * np.pi`. -/
def twoPi64 : ℚ := 884279719003555 / 140737488355328

/-- **C98 is false.** A circle-valued integral of `-2⁻⁶⁰` turns gives the coordinate `2π` and not 0: the interval is not
half-open. -/
theorem C98_full_turn_attained : angleF float64 twoPi64 (fin (-(1 / 2 ^ 60))) = fin twoPi64 := by decide +kernel

theorem machine_twoPi64 : Machine float64 twoPi64 :=
  machine_float64 884279719003555 (-47) (by norm_num [twoPi64]) (by norm_num) (by norm_num) (by norm_num)

example : ∃ θ, angleF float64 twoPi64 (fin (-(1 / 2 ^ 60))) = fin θ ∧ 0 ≤ θ ∧ θ ≤ twoPi64 ∧ ∃ k : ℤ,
    |θ - ((-(twoPi64 / 2 ^ 60)) - k * twoPi64)| ≤ 2 ^ (-53 : ℤ) * twoPi64 + 2 ^ (-1075 : ℤ) :=
  C98_angle_closed_interval_partial rounding_float64 errorBound_float64 (two_zpow_pos _).le (two_zpow_pos _).le
    (by norm_num [twoPi64]) machine_twoPi64 _ _ (by decide +kernel)

/-! ### Cover radius -/

/-- **C99 (end points).** `perc = 0` gives exactly the start and `perc = 1` exactly the end of the admissible interval, in
every number format. -/
theorem C99_endpoints_exact (R : Rounding rnd) (birth death s : K) (std : Bool) (mb : Machine rnd birth)
    (md : Machine rnd death) (hs : if std then rnd (2 * birth) = fin s else s = birth) (h : s ≤ death) :
    (∃ ρ, getCoverRadiusF rnd (fin 0) (fin birth) (fin death) std = .ok (ρ, fin s)) ∧
    (∃ ρ, getCoverRadiusF rnd (fin 1) (fin birth) (fin death) std = .ok (ρ, fin death)) := by
  have hstart : (if std then Fl.round rnd (fin 2 * fin birth) else fin birth) = fin s := by
    cases std
    · simp only [Bool.false_eq_true, if_false] at hs ⊢; rw [hs]
    · simp only [if_true] at hs ⊢; rw [fin_mul, round_fin, hs]
  have ms : Machine rnd s := by
    cases std
    · simp only [Bool.false_eq_true, if_false] at hs; rw [hs]; exact mb
    · simp only [if_true] at hs; exact R.idem _ _ hs
  have hz : rnd 0 = fin 0 := R.zero
  have h1 : rnd 1 = fin 1 := R.one
  have hss : rnd s = fin s := ms
  have hdd : rnd death = fin death := md
  unfold getCoverRadiusF
  simp only [hstart, lt_fin, not_lt.2 h, decide_false, Bool.false_eq_true, if_false]
  constructor
  · simp only [fin_sub, sub_zero, round_fin, h1, fin_mul, one_mul, zero_mul, hz, hss, fin_add, add_zero]
    exact ⟨_, rfl⟩
  · simp only [fin_sub, sub_self, round_fin, hz, fin_mul, zero_mul, one_mul, hdd, fin_add, zero_add]
    exact ⟨_, rfl⟩

/-- **C99 (partial).** In every number format: the error is raised exactly if the admissible interval is empty; otherwise the
threshold differs from the exact interpolation `t = (1 - perc) * start + perc * death` by at most three roundings:
`(1 - u)³ t - 2 eta ≤ threshold ≤ (1 + u)³ t + 2 (1 + u) eta`.  Missing: the threshold need not lie in the interval. -/
theorem C99_threshold_error_partial (R : Rounding rnd) {u eta : K} (E : ErrorBound rnd u eta) (hu : 0 ≤ u) (hu1 : u ≤ 1)
    (heta : 0 ≤ eta) (perc birth death s B : K) (std : Bool) (mp : Machine rnd perc)
    (hs : if std then rnd (2 * birth) = fin s else s = birth) (hs0 : 0 ≤ s) (p0 : 0 ≤ perc) (p1 : perc ≤ 1)
    (ms : Machine rnd s) (md : Machine rnd death) (mB : Machine rnd B) (hB : s + death ≤ B) :
    (death < s → getCoverRadiusF rnd (fin perc) (fin birth) (fin death) std = .error .tooShort) ∧
    (s ≤ death → ∃ ρ thr, getCoverRadiusF rnd (fin perc) (fin birth) (fin death) std = .ok (ρ, fin thr) ∧
      (1 - u) ^ 3 * ((1 - perc) * s + perc * death) - 2 * eta ≤ thr ∧
      thr ≤ (1 + u) ^ 3 * ((1 - perc) * s + perc * death) + 2 * (1 + u) * eta) := by
  have hstart : (if std then Fl.round rnd (fin 2 * fin birth) else fin birth) = fin s := by
    cases std
    · simp only [Bool.false_eq_true, if_false] at hs ⊢; rw [hs]
    · simp only [if_true] at hs ⊢; rw [fin_mul, round_fin, hs]
  unfold getCoverRadiusF
  simp only [hstart, lt_fin]
  constructor
  · intro h; simp only [h, decide_true, if_true]
  · intro h
    have hd0 : 0 ≤ death := hs0.trans h
    simp only [not_lt.2 h, decide_false, Bool.false_eq_true, if_false]
    obtain ⟨a, ea, a0, a1, ma⟩ := R.between R.zero R.one (by linarith : 0 ≤ 1 - perc) (by linarith)
    obtain ⟨b, eb, b0, b1, mb'⟩ := R.between R.zero ms (mul_nonneg a0 hs0) (by nlinarith : a * s ≤ s)
    obtain ⟨c, ec, c0, c1, mc⟩ := R.between R.zero md (mul_nonneg p0 hd0) (by nlinarith : perc * death ≤ death)
    obtain ⟨t, et, t0, -, -⟩ := R.between R.zero mB (by linarith : 0 ≤ b + c) (by linarith : b + c ≤ B)
    simp only [fin_sub, round_fin, ea, fin_mul, eb, ec, fin_add, et]
    refine ⟨_, t, rfl, ?_⟩
    have h1 := E.sum 1 (-perc) a R.one (R.machine_neg mp) (by rw [← sub_eq_add_neg]; exact ea)
    rw [← sub_eq_add_neg, abs_of_nonneg (by linarith : 0 ≤ 1 - perc), abs_le] at h1
    have h2 := E.all _ _ eb
    rw [abs_of_nonneg (mul_nonneg a0 hs0), abs_le] at h2
    have h3 := E.all _ _ ec
    rw [abs_of_nonneg (mul_nonneg p0 hd0), abs_le] at h3
    have h4 := E.sum b c t mb' mc et
    rw [abs_of_nonneg (by linarith : 0 ≤ b + c), abs_le] at h4
    set X := (1 - perc) * s with hX
    set Y := perc * death with hY
    have X0 : 0 ≤ X := mul_nonneg (by linarith) hs0
    have Y0 : 0 ≤ Y := mul_nonneg p0 hd0
    have au : a * s ≤ (1 + u) * X := by
      have := mul_le_mul_of_nonneg_right (by linarith [h1.2] : a ≤ (1 + u) * (1 - perc)) hs0
      rw [hX]; linarith
    have al : (1 - u) * X ≤ a * s := by
      have := mul_le_mul_of_nonneg_right (by linarith [h1.1] : (1 - u) * (1 - perc) ≤ a) hs0
      rw [hX]; linarith
    have bu : b ≤ (1 + u) * ((1 + u) * X) + eta := by
      have := mul_le_mul_of_nonneg_left au (by linarith : 0 ≤ 1 + u)
      linarith [h2.2]
    have bl : (1 - u) * ((1 - u) * X) - eta ≤ b := by
      have := mul_le_mul_of_nonneg_left al (by linarith : 0 ≤ 1 - u)
      linarith [h2.1]
    constructor
    · have k1 : (1 - u) * (b + c) ≤ t := by linarith [h4.1]
      have k2 := mul_le_mul_of_nonneg_left (add_le_add bl (by linarith [h3.1] : (1 - u) * Y - eta ≤ c))
        (by linarith : 0 ≤ 1 - u)
      have k3 : (1 - u) ^ 3 * Y ≤ (1 - u) * ((1 - u) * Y) := by
        have : (1 - u) * ((1 - u) * Y) - (1 - u) ^ 3 * Y = u * ((1 - u) * (1 - u) * Y) := by ring
        have h5 : 0 ≤ u * ((1 - u) * (1 - u) * Y) :=
          mul_nonneg hu (mul_nonneg (mul_nonneg (by linarith) (by linarith)) Y0)
        linarith
      have k4 : (1 - u) * eta ≤ eta := by nlinarith
      have k5 : (1 - u) ^ 3 * (X + Y) = (1 - u) * ((1 - u) * ((1 - u) * X)) + (1 - u) ^ 3 * Y := by ring
      linarith
    · have k1 : t ≤ (1 + u) * (b + c) := by linarith [h4.2]
      have k2 := mul_le_mul_of_nonneg_left (add_le_add bu (by linarith [h3.2] : c ≤ (1 + u) * Y + eta))
        (by linarith : 0 ≤ 1 + u)
      have k3 : (1 + u) * ((1 + u) * Y) ≤ (1 + u) ^ 3 * Y := by
        have : (1 + u) ^ 3 * Y - (1 + u) * ((1 + u) * Y) = u * ((1 + u) * (1 + u) * Y) := by ring
        have h5 : 0 ≤ u * ((1 + u) * (1 + u) * Y) :=
          mul_nonneg hu (mul_nonneg (mul_nonneg (by linarith) (by linarith)) Y0)
        linarith
      have k5 : (1 + u) ^ 3 * (X + Y) = (1 + u) * ((1 + u) * ((1 + u) * X)) + (1 + u) ^ 3 * Y := by ring
      linarith

/-- **C99 is false.** For a class whose life time is one unit in the last place, `perc = 0.46` gives a threshold beyond the
death, and `perc = 0.07` (and another class) one before the start. -/
theorem C99_threshold_outside_interval :
    (getCoverRadiusF (K := ℚ) float64 (fin (8286623314361713 / 2 ^ 54)) (fin (15 / 8)) (fin (15 / 8 + 1 / 2 ^ 52))
      false).toOption.map (fun ρ => ρ.2) = some (fin (15 / 8 + 2 / 2 ^ 52)) ∧
    (getCoverRadiusF (K := ℚ) float64 (fin (1261007895663739 / 2 ^ 54)) (fin (7093169413108531 / 2 ^ 50))
      (fin (7093169413108532 / 2 ^ 50)) false).toOption.map (fun ρ => ρ.2) = some (fin (7093169413108530 / 2 ^ 50)) := by
  constructor <;> decide +kernel

example : ∃ ρ thr : ℚ, getCoverRadiusF float64 (fin (8286623314361713 / 2 ^ 54)) (fin (15 / 8)) (fin (15 / 8 + 1 / 2 ^ 52))
    false = .ok (fin ρ, fin thr) ∧ thr = 15 / 8 + 2 / 2 ^ 52 := by
  refine ⟨15 / 16 + 1 / 2 ^ 52, 15 / 8 + 2 / 2 ^ 52, by decide +kernel, rfl⟩

/-- The hypotheses of `C99_threshold_error_partial` and `C99_endpoints_exact` hold for birth 1 and death 3. -/
example : ∃ ρ thr, getCoverRadiusF (K := ℚ) float64 (fin (1 / 4)) (fin 1) (fin 3) true = .ok (ρ, fin thr) ∧
      (1 - 2 ^ (-53 : ℤ)) ^ 3 * ((1 - 1 / 4) * 2 + 1 / 4 * 3) - 2 * 2 ^ (-1075 : ℤ) ≤ thr ∧
      thr ≤ (1 + 2 ^ (-53 : ℤ)) ^ 3 * ((1 - 1 / 4) * 2 + 1 / 4 * 3) + 2 * (1 + 2 ^ (-53 : ℤ)) * 2 ^ (-1075 : ℤ) :=
  (C99_threshold_error_partial rounding_float64 errorBound_float64 (two_zpow_pos _).le
    ((zpow_le_zpow_right₀ one_le_two (by norm_num : (-53 : ℤ) ≤ 0)).trans (zpow_zero _).le) (two_zpow_pos _).le
    (1 / 4) 1 3 2 8 true (by unfold Machine; decide +kernel) (by rw [if_pos rfl]; decide +kernel) (by norm_num) (by norm_num)
    (by norm_num) (by unfold Machine; decide +kernel) (by unfold Machine; decide +kernel)
    (by unfold Machine; decide +kernel) (by norm_num)).2 (by norm_num)

example : (∃ ρ, getCoverRadiusF (K := ℚ) float64 (fin 0) (fin 1) (fin 3) true = .ok (ρ, fin 2)) ∧
    (∃ ρ, getCoverRadiusF (K := ℚ) float64 (fin 1) (fin 1) (fin 3) true = .ok (ρ, fin 3)) :=
  C99_endpoints_exact rounding_float64 1 3 2 true (by unfold Machine; decide +kernel) (by unfold Machine; decide +kernel)
    (by rw [if_pos rfl]; decide +kernel) (by norm_num)

end

end Dreimac
