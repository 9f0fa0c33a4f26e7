import Verif.Model.CircleMapFloat
import Verif.Props.FloatAngles
import Verif.Lemmas.FloatSum
import Mathlib.Tactic.Positivity

/-!
# C114: circle maps in floating point arithmetic
-/

namespace Dreimac

open Fl

section
variable {K : Type} [Field K] [LinearOrder K] [IsStrictOrderedRing K] [FloorRing K] {rnd : K → Fl K}

theorem Machine.out {x : K} (h : Machine rnd x) : rnd x = fin x := h

/-- `np.mod` of a machine number: in the closed interval, and equal to it modulo `m` up to one rounding. -/
theorem npModF_spec (R : Rounding rnd) {u eta : K} (E : ErrorBound rnd u eta) (hu : 0 ≤ u) (heta : 0 ≤ eta) {m : K}
    (hm : 0 < m) (mm : Machine rnd m) (x : K) :
    ∃ θ, npModF rnd (fin x) m = fin θ ∧ 0 ≤ θ ∧ θ ≤ m ∧ ∃ k : ℤ, |θ - (x - k * m)| ≤ u * m + eta := by
  obtain ⟨h1, h2, h3, k, hk⟩ := cFmod_spec hm x
  rw [abs_lt] at h1
  simp only [npModF]
  have hub : 0 ≤ u * m + eta := add_nonneg (mul_nonneg hu hm.le) heta
  rcases lt_or_ge (cFmod x m) 0 with h | h
  · rw [if_pos h]
    obtain ⟨θ, e, t0, t1, -⟩ := R.between R.zero mm (by linarith : 0 ≤ cFmod x m + m) (by linarith)
    refine ⟨θ, e, t0, t1, k - 1, ?_⟩
    have he := E.all _ _ e
    rw [abs_of_nonneg (by linarith : 0 ≤ cFmod x m + m)] at he
    have e2 : x - ((k - 1 : ℤ) : K) * m = cFmod x m + m := by rw [hk]; push_cast; ring
    rw [e2]
    refine he.trans ?_
    have : u * (cFmod x m + m) ≤ u * m := mul_le_mul_of_nonneg_left (by linarith) hu
    linarith
  · rw [if_neg (not_lt.2 h)]
    refine ⟨_, rfl, h, h1.2.le, k, ?_⟩
    rw [hk, sub_self, abs_zero]; exact hub

/-- The range alone, without error bounds. -/
theorem npModF_range (R : Rounding rnd) {m : K} (hm : 0 < m) (mm : Machine rnd m) (v : Fl K) :
    npModF rnd v m = nan ∨ ∃ θ, npModF rnd v m = fin θ ∧ 0 ≤ θ ∧ θ ≤ m := by
  cases v with
  | fin x =>
    right
    obtain ⟨h1, h2, h3, k, hk⟩ := cFmod_spec hm x
    rw [abs_lt] at h1
    simp only [npModF]
    rcases lt_or_ge (cFmod x m) 0 with h | h
    · rw [if_pos h]
      obtain ⟨θ, e, t0, t1, -⟩ := R.between R.zero mm (by linarith : 0 ≤ cFmod x m + m) (by linarith)
      exact ⟨θ, e, t0, t1⟩
    · rw [if_neg (not_lt.2 h)]
      exact ⟨_, rfl, h, h1.2.le⟩
  | nan => left; rfl
  | pinf => left; rfl
  | ninf => left; rfl

theorem cFmod_of_range {m x : K} (h0 : 0 ≤ x) (h1 : x < m) : cFmod x m = x := by
  have hm : 0 < m := lt_of_le_of_lt h0 h1
  have : ⌊x / m⌋ = 0 := Int.floor_eq_zero_iff.2 ⟨div_nonneg h0 hm.le, (div_lt_one hm).2 h1⟩
  simp [cFmod, if_pos h0, this]

/-- C114: `offset` returns an angle in the closed interval from 0 to `tau`, the machine number `2 * np.pi`; it is the exact
rotation modulo `tau` up to three roundings. -/
theorem C114_offset (R : Rounding rnd) {u eta : K} (E : ErrorBound rnd u eta) (hu : 0 ≤ u) (heta : 0 ≤ eta) {tau : K}
    (ht : 0 < tau) (mt : Machine rnd tau) (x t y z : K) (hy : rnd (t * tau) = fin y) (hz : rnd (x + y) = fin z) :
    ∃ θ, offsetF rnd tau (fin x) (fin t) = fin θ ∧ 0 ≤ θ ∧ θ ≤ tau ∧
      ∃ k : ℤ, |θ - (x + t * tau - k * tau)| ≤ u * (tau + |x + y| + |t| * tau) + 3 * eta := by
  obtain ⟨θ, h1, h2, h3, k, hk⟩ := npModF_spec R E hu heta ht mt z
  refine ⟨θ, ?_, h2, h3, k, ?_⟩
  · unfold offsetF
    simp only [fin_mul, round_fin, hy, fin_add, hz, h1]
  · have e1 := E.all _ _ hy
    have e2 := E.all _ _ hz
    rw [abs_mul, abs_of_pos ht] at e1
    have : θ - (x + t * tau - k * tau) = (θ - (z - k * tau)) + (z - (x + y)) + (y - t * tau) := by ring
    rw [this]
    refine (abs_add_three _ _ _).trans ?_
    linarith

/-- C114: `offset` by 0 changes nothing: exactly for machine numbers in the half-open interval; `tau` becomes 0. -/
theorem C114_offset_zero (R : Rounding rnd) {tau : K} (ht : 0 < tau) (mt : Machine rnd tau) (x : K) (mx : Machine rnd x)
    (h0 : 0 ≤ x) (h1 : x ≤ tau) : offsetF rnd tau (fin x) (fin 0) = if x = tau then fin 0 else fin x := by
  unfold offsetF
  simp only [fin_mul, zero_mul, round_fin, Machine.out R.zero, fin_add, add_zero, Machine.out mx, npModF]
  by_cases h : x = tau
  · subst h
    have : cFmod x x = 0 := by simp [cFmod, h0, div_self ht.ne']
    rw [this, if_neg (lt_irrefl _), if_pos rfl]
  · rw [cFmod_of_range h0 (lt_of_le_of_ne h1 h), if_neg (not_lt.2 h0), if_neg h]

/-- C114: `center` moves all angles by the same amount up to three roundings, to angles in the closed interval. -/
theorem C114_center (R : Rounding rnd) {u eta : K} (E : ErrorBound rnd u eta) (hu : 0 ≤ u) (heta : 0 ≤ eta) {pi tau : K}
    (ht : 0 < tau) (mt : Machine rnd tau) (x tick y z : K) (hy : rnd (x - tick) = fin y) (hz : rnd (y + pi) = fin z) :
    ∃ θ, centerF rnd pi tau (fin tick) (fin x) = fin θ ∧ 0 ≤ θ ∧ θ ≤ tau ∧
      ∃ k : ℤ, |θ - (x - tick + pi - k * tau)| ≤ u * (tau + |y + pi| + |x - tick|) + 3 * eta := by
  obtain ⟨θ, h1, h2, h3, k, hk⟩ := npModF_spec R E hu heta ht mt z
  refine ⟨θ, ?_, h2, h3, k, ?_⟩
  · unfold centerF
    simp only [fin_sub, round_fin, hy, fin_add, hz, h1]
  · have e1 := E.all _ _ hy
    have e2 := E.all _ _ hz
    have : θ - (x - tick + pi - k * tau) = (θ - (z - k * tau)) + (z - (y + pi)) + (y - (x - tick)) := by ring
    rw [this]
    refine (abs_add_three _ _ _).trans ?_
    linarith

/-- C114: `linear_combination` returns angles in the closed interval (or `nan`, if an angle is `nan` or a sum overflows); up to
rounding they are the integer combinations modulo `tau`. -/
theorem C114_linear_combination (R : Rounding rnd) {u eta : K} (E : ErrorBound rnd u eta) (hu : 0 ≤ u) (heta : 0 ≤ eta)
    {tau : K} (ht : 0 < tau) (mt : Machine rnd tau) {d : ℕ} (order : SumTree) (ho : order.leaves.Perm (List.range d))
    (a c : ℕ → K) :
    (combineF rnd tau order a (fun j => fin (c j)) = nan ∨
      ∃ θ, combineF rnd tau order a (fun j => fin (c j)) = fin θ ∧ 0 ≤ θ ∧ θ ≤ tau) ∧
    ∀ s, order.eval rnd (fun j => rnd (a j * c j)) = fin s →
      ∃ θ, combineF rnd tau order a (fun j => fin (c j)) = fin θ ∧
        ∃ k : ℤ, |θ - (∑ j ∈ Finset.range d, a j * c j - k * tau)| ≤
          u * tau + eta + ((1 + u) ^ d - 1) * ∑ j ∈ Finset.range d, |a j * c j| + d * (1 + u) ^ (d - 1) * eta := by
  refine ⟨npModF_range R ht mt _, fun s hs => ?_⟩
  obtain ⟨-, hs'⟩ := order.eval_round_error R E hu (fun j => a j * c j) ho hs
  obtain ⟨θ, h1, -, -, k, hk⟩ := npModF_spec R E hu heta ht mt s
  refine ⟨θ, ?_, k, ?_⟩
  · unfold combineF
    simp only [fin_mul, round_fin, hs, h1]
  · have : θ - (∑ j ∈ Finset.range d, a j * c j - k * tau) = (θ - (s - k * tau)) + (s - ∑ j ∈ Finset.range d, a j * c j) := by ring
    rw [this]
    refine (abs_add_le _ _).trans ?_
    linarith

theorem SumTree.eval_single (R : Rounding rnd) {f : ℕ → Fl K} {i : ℕ} {x : K} (mx : Machine rnd x) (hi : f i = fin x)
    (t : SumTree) (hz : ∀ l ∈ t.leaves, l ≠ i → f l = fin 0) (hnd : t.leaves.Nodup) :
    t.eval rnd f = if i ∈ t.leaves then fin x else fin 0 := by
  induction t with
  | leaf l =>
    simp only [leaves, List.mem_singleton] at hz ⊢
    by_cases h : i = l
    · subst h; simpa [eval] using hi
    · rw [if_neg h]; exact hz l rfl (Ne.symm h)
  | node s t ihs iht =>
    simp only [leaves, List.mem_append] at hz ⊢
    simp only [leaves, List.nodup_append] at hnd
    rw [eval, ihs (fun l hl => hz l (Or.inl hl)) hnd.1, iht (fun l hl => hz l (Or.inr hl)) hnd.2.1]
    by_cases h1 : i ∈ s.leaves
    · have h2 : i ∉ t.leaves := fun h => hnd.2.2 i h1 i h rfl
      simp [h1, h2, Machine.out mx]
    · by_cases h2 : i ∈ t.leaves
      · simp [h1, h2, Machine.out mx]
      · simp [h1, h2, Machine.out R.zero]

/-- C114: a row of the identity matrix returns its angle exactly, if it is a machine number less than `tau`. -/
theorem C114_identity_row (R : Rounding rnd) {tau : K} {d : ℕ} (order : SumTree) (ho : order.leaves.Perm (List.range d))
    (c : ℕ → K) (i : ℕ) (hi : i < d) (mc : Machine rnd (c i)) (h0 : 0 ≤ c i) (h1 : c i < tau) :
    combineF rnd tau order (fun j => if j = i then 1 else 0) (fun j => fin (c j)) = fin (c i) := by
  unfold combineF
  rw [SumTree.eval_single R (i := i) mc (by simp [Machine.out mc]) order (fun l _ hl => by simp [hl, Machine.out R.zero])
    (ho.nodup_iff.2 List.nodup_range), if_pos (ho.mem_iff.2 (List.mem_range.2 hi))]
  simp only [npModF]
  rw [cFmod_of_range h0 h1, if_neg (not_lt.2 h0)]

/-- C114: `levelset_coloring` without smoothing returns 0 or 1 for every finite quotient. -/
theorem C114_levelset_hard (R : Rounding rnd) {tau n2 : K} (x q y : K) (ht : tau ≠ 0) (hq : rnd (x / tau) = fin q)
    (hy : rnd (q * n2) = fin y) :
    levelsetHardF rnd tau n2 (fin x) = fin (if Even ⌊y⌋ then 0 else 1) := by
  unfold levelsetHardF
  simp only [fin_div x tau ht, round_fin, hq, fin_mul, hy, Fl.floorF, npModF]
  obtain ⟨h1, h2, h3, k, hk⟩ := cFmod_spec (show (0 : K) < 2 by norm_num) ((⌊y⌋ : ℤ) : K)
  have hc : cFmod ((⌊y⌋ : ℤ) : K) 2 = ((⌊y⌋ - k * 2 : ℤ) : K) := by rw [hk]; push_cast; ring
  generalize ⌊y⌋ = z at *
  rw [hc] at h1
  have h1' : |z - k * 2| < 2 := by exact_mod_cast h1
  rw [abs_lt] at h1'
  rw [hc]
  have hone := Machine.out R.one
  have : z - k * 2 = -1 ∨ z - k * 2 = 0 ∨ z - k * 2 = 1 := by omega
  rcases this with h | h | h
  · have hodd : ¬ Even z := by rw [Int.not_even_iff_odd]; exact ⟨k - 1, by omega⟩
    rw [h, if_neg hodd, if_pos (by norm_num)]
    have : ((-1 : ℤ) : K) + 2 = 1 := by norm_num
    rw [this, hone]
  · have hev : Even z := ⟨k, by omega⟩
    rw [h, if_pos hev, if_neg (by norm_num)]; simp
  · have hodd : ¬ Even z := by rw [Int.not_even_iff_odd]; exact ⟨k, by omega⟩
    rw [h, if_neg hodd, if_neg (by norm_num)]; simp

end

/-! ### Colours -/

section
variable {rnd : ℝ → Fl ℝ}

theorem triangleF_range (R : Rounding rnd) {y : ℝ} (h0 : 0 ≤ y) (h1 : y ≤ 2) :
    ∃ v, triangleF rnd (fin y) = fin v ∧ 0 ≤ v ∧ v ≤ 1 := by
  unfold triangleF
  by_cases h : y < 1
  · exact ⟨y, by simp [h], h0, h.le⟩
  · obtain ⟨v, hv, v0, v1, -⟩ := R.between R.zero R.one (by linarith : 0 ≤ 2 - y) (by push Not at h; linarith)
    exact ⟨v, by simp [h, hv], v0, v1⟩

/-- The rounded value of `1 + exp` is infinite or a number at least 1. -/
theorem onePlusExp (R : Rounding rnd) (w : Fl ℝ) (hw : w ≠ nan) :
    Fl.round rnd (fin 1 + Fl.round rnd (Fl.exp w)) = pinf ∨ ∃ s, Fl.round rnd (fin 1 + Fl.round rnd (Fl.exp w)) = fin s ∧ 1 ≤ s := by
  have hnn : ∀ x : ℝ, 0 ≤ x → Fl.round rnd (fin 1 + rnd x) = pinf ∨ ∃ s, Fl.round rnd (fin 1 + rnd x) = fin s ∧ 1 ≤ s := by
    intro x hx
    rcases R.nonneg hx with h | ⟨y, y0, h, -⟩
    · left; rw [h]; rfl
    · rw [h, fin_add, round_fin]
      rcases R.nonneg (show (0 : ℝ) ≤ 1 + y by linarith) with h' | ⟨s, s0, h', -⟩
      · exact Or.inl h'
      · exact Or.inr ⟨s, h', R.le_of_machine R.one (by linarith) h'⟩
  cases w with
  | nan => exact absurd rfl hw
  | ninf => exact hnn 0 le_rfl
  | pinf => left; rfl
  | fin x => exact hnn _ (Real.exp_pos x).le

theorem sigmoidF_range (R : Rounding rnd) (mhalf : Machine rnd (1 / 2)) {k v : ℝ} (hk : k ≠ 0) (v0 : 0 ≤ v) (v1 : v ≤ 1) :
    ∃ s, sigmoidF rnd (fin k) (fin v) = fin s ∧ 0 ≤ s ∧ s ≤ 1 := by
  unfold sigmoidF
  obtain ⟨y, hy, hyb, my⟩ := R.abs_between mhalf (abs_le.2 ⟨by linarith, by linarith⟩ : |v - 1 / 2| ≤ 1 / 2)
  have hy2 : |y * 2| ≤ 1 := by rw [abs_mul, abs_two]; linarith
  obtain ⟨x, hx, hxb, mx⟩ := R.abs_between R.one hy2
  simp only [fin_sub, round_fin, hy, fin_mul, hx]
  have hneg : (-(fin x) : Fl ℝ) = fin (-x) := rfl
  rw [hneg, fin_div _ _ hk, round_fin]
  rcases onePlusExp R (rnd (-x / k)) (R.notNan _) with h | ⟨s, h, hs⟩
  · rw [h]
    exact ⟨0, by show rnd 0 = _; exact R.zero, le_rfl, zero_le_one⟩
  · rw [h, fin_div _ _ (by linarith), round_fin]
    obtain ⟨θ, hθ, t0, t1, -⟩ := R.between R.zero R.one (by positivity : 0 ≤ 1 / s) ((div_le_one (by linarith)).2 hs)
    exact ⟨θ, hθ, t0, t1⟩

/-- C114: `levelset_coloring` with smoothing returns numbers in the unit interval. -/
theorem C114_levelset_smooth (R : Rounding rnd) (mhalf : Machine rnd (1 / 2)) (mtwo : Machine rnd 2) {tau n2 k : ℝ} (hk : k ≠ 0)
    (ht : tau ≠ 0) (x q y : ℝ) (hq : rnd (x / tau) = fin q) (hy : rnd (q * n2) = fin y) :
    ∃ s, levelsetSmoothF rnd tau n2 (fin k) (fin x) = fin s ∧ 0 ≤ s ∧ s ≤ 1 := by
  unfold levelsetSmoothF
  simp only [fin_div x tau ht, round_fin, hq, fin_mul, hy]
  rcases npModF_range R (by norm_num) mtwo (fin y) with h | ⟨m, h, m0, m1⟩
  · simp only [npModF] at h
    split at h
    · exact absurd h (R.notNan _)
    · exact absurd h (by simp)
  · rw [h]
    obtain ⟨v, hv, v0, v1⟩ := triangleF_range R m0 m1
    rw [hv]
    exact sigmoidF_range R mhalf hk v0 v1

/-- C114: the channels of `to_sinebow` are numbers in the unit interval. -/
theorem C114_sinebow (R : Rounding rnd) {pi tau a : ℝ} (ht : tau ≠ 0) (x q y : ℝ) (hq : rnd (x / tau) = fin q)
    (hy : rnd (q + 1 / 2) = fin y) (B : ℝ) (mB : Machine rnd B) (C : ℝ) (mC : Machine rnd C) (hB : |a| + 1 ≤ B)
    (hC : |pi| * B ≤ C) :
    ∃ s, sinebowF rnd pi tau a (fin x) = fin s ∧ 0 ≤ s ∧ s ≤ 1 := by
  unfold sinebowF
  simp only [fin_div x tau ht, round_fin, hq, fin_add, hy]
  rcases npModF_range R zero_lt_one R.one (fin y) with h | ⟨m, h, m0, m1⟩
  · simp only [npModF] at h
    split at h
    · exact absurd h (R.notNan _)
    · exact absurd h (by simp)
  · rw [h]
    have h1 : |a - m| ≤ B := by
      refine (abs_sub _ _).trans ?_
      rw [abs_of_nonneg m0]; linarith
    obtain ⟨w, hw, hwb, -⟩ := R.abs_between mB h1
    have h2 : |pi * w| ≤ C := by
      rw [abs_mul]
      exact (mul_le_mul_of_nonneg_left hwb (abs_nonneg _)).trans hC
    obtain ⟨z, hz, -, -⟩ := R.abs_between mC h2
    obtain ⟨s, hs, hsb, -⟩ := R.abs_between R.one (Real.abs_sin_le_one z)
    have h3 : s * s ≤ 1 := by
      have := abs_le.1 hsb
      nlinarith [abs_le.1 hsb]
    obtain ⟨θ, hθ, t0, t1, -⟩ := R.between R.zero R.one (mul_self_nonneg s) h3
    exact ⟨θ, by simp only [fin_sub, round_fin, hw, fin_mul, hz, Fl.sin, hs, hθ], t0, t1⟩

end

end Dreimac
