import Mathlib.Tactic.Linarith
import Mathlib.Tactic.FieldSimp
import Mathlib.Tactic.Ring
import Verif.Model.CircleMap

namespace Dreimac

open Real

/-- Two reals are the same angle. -/
def SameAngle (x y : ℝ) : Prop := ∃ k : ℤ, x - y = k * (2 * π)

theorem two_pi_pos' : (0 : ℝ) < 2 * π := two_pi_pos

theorem fmod_nonneg {m : ℝ} (hm : 0 < m) (x : ℝ) : 0 ≤ fmod x m := by
  unfold fmod
  have := Int.floor_le (x / m)
  have h2 : m * ⌊x / m⌋ ≤ m * (x / m) := mul_le_mul_of_nonneg_left this hm.le
  rw [mul_div_cancel₀ _ hm.ne'] at h2
  linarith

theorem fmod_lt {m : ℝ} (hm : 0 < m) (x : ℝ) : fmod x m < m := by
  unfold fmod
  have := Int.lt_floor_add_one (x / m)
  have h2 : m * (x / m) < m * (⌊x / m⌋ + 1) := mul_lt_mul_of_pos_left this hm
  rw [mul_div_cancel₀ _ hm.ne'] at h2
  linarith

theorem fmod_sub (m x : ℝ) : ∃ k : ℤ, fmod x m = x - k * m := ⟨⌊x / m⌋, by unfold fmod; ring⟩

theorem fmod_add_int {m : ℝ} (hm : 0 < m) (x : ℝ) (k : ℤ) : fmod (x + k * m) m = fmod x m := by
  unfold fmod
  rw [add_div, mul_div_assoc, div_self hm.ne', mul_one, Int.floor_add_intCast]
  push_cast; ring

theorem fmod_eq_iff {m : ℝ} (hm : 0 < m) (x y : ℝ) : fmod x m = fmod y m ↔ ∃ k : ℤ, x - y = k * m := by
  constructor
  · intro h
    obtain ⟨a, ha⟩ := fmod_sub m x
    obtain ⟨b, hb⟩ := fmod_sub m y
    exact ⟨a - b, by push_cast; linarith⟩
  · rintro ⟨k, hk⟩
    rw [show x = y + k * m by linarith, fmod_add_int hm]

theorem fmod_of_mem {m : ℝ} (hm : 0 < m) {x : ℝ} (h0 : 0 ≤ x) (h1 : x < m) : fmod x m = x := by
  unfold fmod
  have : ⌊x / m⌋ = 0 := Int.floor_eq_zero_iff.2 ⟨div_nonneg h0 hm.le, (div_lt_one hm).2 h1⟩
  rw [this]; simp

theorem fmod_fmod {m : ℝ} (hm : 0 < m) (x : ℝ) : fmod (fmod x m) m = fmod x m :=
  fmod_of_mem hm (fmod_nonneg hm x) (fmod_lt hm x)

theorem fmod_add_fmod {m : ℝ} (hm : 0 < m) (x y : ℝ) : fmod (fmod x m + y) m = fmod (x + y) m := by
  rw [fmod_eq_iff hm]
  obtain ⟨k, hk⟩ := fmod_sub m x
  exact ⟨-k, by rw [hk]; push_cast; ring⟩

theorem sameAngle_fmod (x : ℝ) : SameAngle (fmod x (2 * π)) x := by
  obtain ⟨k, hk⟩ := fmod_sub (2 * π) x
  exact ⟨-k, by rw [hk]; push_cast; ring⟩

theorem fmod_eq_iff_sameAngle (x y : ℝ) : fmod x (2 * π) = fmod y (2 * π) ↔ SameAngle x y :=
  fmod_eq_iff two_pi_pos' x y

theorem SameAngle.refl (x : ℝ) : SameAngle x x := ⟨0, by simp⟩
theorem SameAngle.symm {x y : ℝ} (h : SameAngle x y) : SameAngle y x := by
  obtain ⟨k, hk⟩ := h; exact ⟨-k, by push_cast; linarith⟩
theorem SameAngle.trans {x y z : ℝ} (h : SameAngle x y) (h' : SameAngle y z) : SameAngle x z := by
  obtain ⟨k, hk⟩ := h; obtain ⟨l, hl⟩ := h'; exact ⟨k + l, by push_cast; linarith⟩
theorem SameAngle.add {x y z w : ℝ} (h : SameAngle x y) (h' : SameAngle z w) : SameAngle (x + z) (y + w) := by
  obtain ⟨k, hk⟩ := h; obtain ⟨l, hl⟩ := h'; exact ⟨k + l, by push_cast; linarith⟩
theorem SameAngle.int_mul {x y : ℝ} (h : SameAngle x y) (a : ℤ) : SameAngle (a * x) (a * y) := by
  obtain ⟨k, hk⟩ := h
  exact ⟨a * k, by push_cast; linear_combination (a : ℝ) * hk⟩

theorem SameAngle.sum {ι : Type} (s : Finset ι) {f g : ι → ℝ} (h : ∀ i ∈ s, SameAngle (f i) (g i)) :
    SameAngle (∑ i ∈ s, f i) (∑ i ∈ s, g i) := by
  classical
  induction s using Finset.induction_on with
  | empty => simpa using SameAngle.refl 0
  | insert a s ha ih =>
    rw [Finset.sum_insert ha, Finset.sum_insert ha]
    exact (h a (by simp)).add (ih fun i hi => h i (by simp [hi]))

end Dreimac
