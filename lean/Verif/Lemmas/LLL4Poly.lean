import Mathlib.Tactic.Linarith
import Mathlib.Tactic.Ring
import Mathlib.Tactic.Positivity
import Mathlib.Tactic.LinearCombination
import Mathlib.Algebra.Order.Field.Basic
import Mathlib.Tactic.FieldSimp
import Mathlib.Tactic.NormNum
import Mathlib.Algebra.Order.Ring.Abs
/-!
# The inequality behind the termination of `_lll` with four classes

`a` and `b` are the squared lengths of two successive third Gram-Schmidt columns, in units of the second one.
-/

namespace Dreimac

variable {K : Type} [Field K] [LinearOrder K] [IsStrictOrderedRing K]

/-- An affine function positive at both ends of an interval is positive between them. -/
theorem affine_pos {c e s s1 s2 : K} (h1 : s1 ≤ s) (h2 : s ≤ s2) (p1 : 0 < c + e * s1) (p2 : 0 < c + e * s2) :
    0 < c + e * s := by
  rcases le_total 0 e with he | he
  · have := mul_le_mul_of_nonneg_left h1 he
    linarith
  · have := mul_le_mul_of_nonpos_left h2 he
    linarith

/-- The polynomial of the estimate. -/
def lllShape (a L k U m t : K) : K :=
  (6 * L ^ 2 + 18 * k ^ 2) * (2 * t * (U - m * (L + k) - L) - t ^ 2 + 249 / 1000 * a ^ 2) + 249 / 1000 * a ^ 3
      - a * (L + k) ^ 2 - 2 * a * (L + k) * (U - m * (L + k) - L)

/-- The lower bound of a quadratic by its tangents. -/
theorem tangent_bound (a L k U m t c L0 k0 s0 s2 : K) (ha : 0 ≤ a) (hm : 0 ≤ m) (ht : 0 ≤ t)
    (hL : L ≤ 1 / 6) (hs : L + k ≤ s2)
    (hc : c = 2 * t * (U - m * s2 - 1 / 6) - t ^ 2 + 249 / 1000 * a ^ 2) (h6 : 0 ≤ 6 * c + a) (h18 : 0 ≤ 18 * c - a)
    (hlin : 0 < (6 * c + a) * (2 * L0 * L - L0 ^ 2) + (18 * c - a) * (2 * k0 * k - k0 ^ 2)
      + 2 * m * a * (2 * s0 * (L + k) - s0 ^ 2) + 249 / 1000 * a ^ 3 - 2 * a * U * (L + k)) :
    0 < lllShape a L k U m t := by
  have e1 : 0 ≤ (6 * c + a) * (L - L0) ^ 2 := mul_nonneg h6 (sq_nonneg _)
  have e2 : 0 ≤ (18 * c - a) * (k - k0) ^ 2 := mul_nonneg h18 (sq_nonneg _)
  have e3 : 0 ≤ 2 * m * a * (L + k - s0) ^ 2 := mul_nonneg (by positivity) (sq_nonneg _)
  have e4 : 0 ≤ (6 * L ^ 2 + 18 * k ^ 2) * (2 * t * (m * (s2 - (L + k)) + (1 / 6 - L))) := by
    have : 0 ≤ m * (s2 - (L + k)) := mul_nonneg hm (by linarith)
    exact mul_nonneg (by positivity) (mul_nonneg (by positivity) (by linarith))
  subst hc
  unfold lllShape
  linarith [e1, e2, e3, e4]

theorem strip_bound (a L k U m t c L0 k0 s0 s1 s2 : K) (ha : 0 ≤ a) (hm : 0 ≤ m) (ht : 0 ≤ t)
    (hL : L ≤ 1 / 6) (hk : k ≤ 1 / 6) (hs1 : s1 ≤ L + k) (hs : L + k ≤ s2)
    (hc : c = 2 * t * (U - m * s2 - 1 / 6) - t ^ 2 + 249 / 1000 * a ^ 2) (h6 : 0 ≤ 6 * c + a) (h18 : 0 ≤ 18 * c - a)
    (hlin : ∀ L k, (L = 1 / 6 ∧ k = s1 - 1 / 6 ∨ k = 1 / 6 ∧ L = s1 - 1 / 6 ∨
        L = 1 / 6 ∧ k = s2 - 1 / 6 ∨ k = 1 / 6 ∧ L = s2 - 1 / 6) →
      0 < (6 * c + a) * (2 * L0 * L - L0 ^ 2) + (18 * c - a) * (2 * k0 * k - k0 ^ 2)
      + 2 * m * a * (2 * s0 * (L + k) - s0 ^ 2) + 249 / 1000 * a ^ 3 - 2 * a * U * (L + k)) :
    0 < lllShape a L k U m t := by
  refine tangent_bound a L k U m t c L0 k0 s0 s2 ha hm ht hL hs hc h6 h18 ?_
  have v1 := hlin (1 / 6) (s1 - 1 / 6) (Or.inl ⟨rfl, rfl⟩)
  have v2 := hlin (s1 - 1 / 6) (1 / 6) (Or.inr (Or.inl ⟨rfl, rfl⟩))
  have v3 := hlin (1 / 6) (s2 - 1 / 6) (Or.inr (Or.inr (Or.inl ⟨rfl, rfl⟩)))
  have v4 := hlin (s2 - 1 / 6) (1 / 6) (Or.inr (Or.inr (Or.inr ⟨rfl, rfl⟩)))
  clear hlin hc
  set A := 6 * c + a
  set B := 18 * c - a
  rcases le_total (2 * L0 * A) (2 * k0 * B) with h | h
  · -- `L` as large as possible
    have h1 := mul_nonneg (sub_nonneg.2 h) (sub_nonneg.2 hL)
    have := affine_pos (s := L + k) (s1 := s1) (s2 := s2)
      (c := A * (2 * L0 * (1 / 6) - L0 ^ 2) + B * (- 2 * k0 * (1 / 6) - k0 ^ 2) - 2 * m * a * s0 ^ 2 + 249 / 1000 * a ^ 3)
      (e := B * 2 * k0 + 2 * m * a * 2 * s0 - 2 * a * U) hs1 hs (by linarith) (by linarith)
    linarith
  · have h1 := mul_nonneg (sub_nonneg.2 h) (sub_nonneg.2 hk)
    have := affine_pos (s := L + k) (s1 := s1) (s2 := s2)
      (c := A * (- 2 * L0 * (1 / 6) - L0 ^ 2) + B * (2 * k0 * (1 / 6) - k0 ^ 2) - 2 * m * a * s0 ^ 2 + 249 / 1000 * a ^ 3)
      (e := A * 2 * L0 + 2 * m * a * 2 * s0 - 2 * a * U) hs1 hs (by linarith) (by linarith)
    linarith

theorem strip_a1 (a L k : K) (h1 : 29 / 50 ≤ a) (h2 : a ≤ 7 / 10) (hL : L ≤ 1 / 6) (hk : k ≤ 1 / 6) (hs1 : 1 / 6 ≤ L + k)
    (hs : L + k ≤ 9 / 50) : 0 < lllShape a L k (a + 73 / 200 - 3 / 8) (36 / 25) (7 / 40) := by
  refine strip_bound a L k _ _ _ _ (2 / 25) (3 / 40) (13 / 75) (1 / 6) (9 / 50) (by linarith) (by norm_num) (by norm_num) hL hk
    hs1 hs rfl ?_ ?_ ?_
  · nlinarith
  · nlinarith
  · rintro L k (⟨rfl, rfl⟩ | ⟨rfl, rfl⟩ | ⟨rfl, rfl⟩ | ⟨rfl, rfl⟩) <;>
      nlinarith [mul_nonneg (sub_nonneg.2 h1) (sub_nonneg.2 h2)]

theorem strip_a2 (a L k : K) (h1 : 7 / 10 ≤ a) (hL : L ≤ 1 / 6) (hk : k ≤ 1 / 6) (hs1 : 1 / 6 ≤ L + k)
    (hs : L + k ≤ 9 / 50) : 0 < lllShape a L k (a + 73 / 200 - 3 / 8) (36 / 25) (1 / 5) := by
  refine strip_bound a L k _ _ _ _ (19 / 200) (13 / 200) (13 / 75) (1 / 6) (9 / 50) (by linarith) (by norm_num) (by norm_num) hL hk
    hs1 hs rfl ?_ ?_ ?_
  · nlinarith
  · nlinarith
  · rintro L k (⟨rfl, rfl⟩ | ⟨rfl, rfl⟩ | ⟨rfl, rfl⟩ | ⟨rfl, rfl⟩) <;>
      nlinarith [mul_nonneg (sub_nonneg.2 h1) (sub_nonneg.2 h1), mul_nonneg (mul_nonneg (sub_nonneg.2 h1) (sub_nonneg.2 h1)) (sub_nonneg.2 h1)]

theorem strip_b1 (a L k : K) (h1 : 29 / 50 ≤ a) (h2 : a ≤ 7 / 10) (hL : L ≤ 1 / 6) (hk : k ≤ 1 / 6) (hs1 : 9 / 50 ≤ L + k)
    (hs : L + k ≤ 1 / 5) : 0 < lllShape a L k (a + 169 / 500 - 3 / 8) (129 / 100) (1 / 8) := by
  refine strip_bound a L k _ _ _ _ (19 / 200) (9 / 100) (19 / 100) (9 / 50) (1 / 5) (by linarith) (by norm_num) (by norm_num) hL hk
    hs1 hs rfl ?_ ?_ ?_
  · nlinarith
  · nlinarith
  · rintro L k (⟨rfl, rfl⟩ | ⟨rfl, rfl⟩ | ⟨rfl, rfl⟩ | ⟨rfl, rfl⟩) <;>
      nlinarith [mul_nonneg (sub_nonneg.2 h1) (sub_nonneg.2 h2)]

theorem strip_b2 (a L k : K) (h1 : 7 / 10 ≤ a) (hL : L ≤ 1 / 6) (hk : k ≤ 1 / 6) (hs1 : 9 / 50 ≤ L + k)
    (hs : L + k ≤ 1 / 5) : 0 < lllShape a L k (a + 169 / 500 - 3 / 8) (129 / 100) (1 / 5) := by
  refine strip_bound a L k _ _ _ _ (21 / 200) (3 / 40) (19 / 100) (9 / 50) (1 / 5) (by linarith) (by norm_num) (by norm_num) hL hk
    hs1 hs rfl ?_ ?_ ?_
  · nlinarith
  · nlinarith
  · rintro L k (⟨rfl, rfl⟩ | ⟨rfl, rfl⟩ | ⟨rfl, rfl⟩ | ⟨rfl, rfl⟩) <;>
      nlinarith [mul_nonneg (sub_nonneg.2 h1) (sub_nonneg.2 h1), mul_nonneg (mul_nonneg (sub_nonneg.2 h1) (sub_nonneg.2 h1)) (sub_nonneg.2 h1)]

theorem strip_c1 (a L k : K) (h1 : 29 / 50 ≤ a) (h2 : a ≤ 7 / 10) (hL : L ≤ 1 / 6) (hk : k ≤ 1 / 6) (hs1 : 1 / 5 ≤ L + k)
    (hs : L + k ≤ 1 / 4) : 0 < lllShape a L k (a + 11 / 40 - 3 / 8) (39 / 40) (1 / 10) := by
  refine strip_bound a L k _ _ _ _ (1 / 10) (1 / 10) (9 / 40) (1 / 5) (1 / 4) (by linarith) (by norm_num) (by norm_num) hL hk
    hs1 hs rfl ?_ ?_ ?_
  · nlinarith
  · nlinarith
  · rintro L k (⟨rfl, rfl⟩ | ⟨rfl, rfl⟩ | ⟨rfl, rfl⟩ | ⟨rfl, rfl⟩) <;>
      nlinarith [mul_nonneg (sub_nonneg.2 h1) (sub_nonneg.2 h2)]

theorem strip_c2 (a L k : K) (h1 : 7 / 10 ≤ a) (hL : L ≤ 1 / 6) (hk : k ≤ 1 / 6) (hs1 : 1 / 5 ≤ L + k)
    (hs : L + k ≤ 1 / 4) : 0 < lllShape a L k (a + 11 / 40 - 3 / 8) (39 / 40) (1 / 5) := by
  refine strip_bound a L k _ _ _ _ (13 / 100) (1 / 10) (9 / 40) (1 / 5) (1 / 4) (by linarith) (by norm_num) (by norm_num) hL hk
    hs1 hs rfl ?_ ?_ ?_
  · nlinarith
  · nlinarith
  · rintro L k (⟨rfl, rfl⟩ | ⟨rfl, rfl⟩ | ⟨rfl, rfl⟩ | ⟨rfl, rfl⟩) <;>
      nlinarith [mul_nonneg (sub_nonneg.2 h1) (sub_nonneg.2 h1), mul_nonneg (mul_nonneg (sub_nonneg.2 h1) (sub_nonneg.2 h1)) (sub_nonneg.2 h1)]

theorem strip_d (a L k : K) (h1 : 29 / 50 ≤ a) (hL : L ≤ 1 / 6) (hk : k ≤ 1 / 6) (hs1 : 1 / 4 ≤ L + k)
    (hs : L + k ≤ 1 / 3) : 0 < lllShape a L k (a + 1 / 8 - 3 / 8) (3 / 8) (1 / 20) := by
  refine strip_bound a L k _ _ _ _ (13 / 100) (3 / 25) (7 / 24) (1 / 4) (1 / 3) (by linarith) (by norm_num) (by norm_num) hL hk
    hs1 hs rfl ?_ ?_ ?_
  · nlinarith
  · nlinarith
  · rintro L k (⟨rfl, rfl⟩ | ⟨rfl, rfl⟩ | ⟨rfl, rfl⟩ | ⟨rfl, rfl⟩) <;>
      nlinarith [mul_nonneg (show (0 : K) ≤ a by linarith) (sq_nonneg (a - 4 / 5)), sq_nonneg (a - 4 / 5), mul_nonneg (sub_nonneg.2 h1) (sub_nonneg.2 h1), mul_nonneg (mul_nonneg (sub_nonneg.2 h1) (sub_nonneg.2 h1)) (sub_nonneg.2 h1)]

theorem triangle_bound (a L k : K) (h1 : 29 / 50 ≤ a) (hL : 0 ≤ L) (hk : 0 ≤ k) (hs : L + k ≤ 1 / 6) :
    0 < lllShape a L k (a - 1 / 4) 0 (3 / 20) := by
  refine tangent_bound a L k _ _ _ _ (17 / 200) (3 / 40) 0 (1 / 6) (by linarith) le_rfl (by norm_num) (by linarith) hs rfl ?_ ?_ ?_
  · nlinarith
  · nlinarith
  · have v : ∀ L k : K, (L = 0 ∧ k = 0 ∨ L = 1 / 6 ∧ k = 0 ∨ L = 0 ∧ k = 1 / 6) →
        0 < (6 * (2 * (3 / 20) * (a - 1 / 4 - 0 * (1 / 6) - 1 / 6) - (3 / 20) ^ 2 + 249 / 1000 * a ^ 2) + a) *
          (2 * (17 / 200) * L - (17 / 200) ^ 2) +
        (18 * (2 * (3 / 20) * (a - 1 / 4 - 0 * (1 / 6) - 1 / 6) - (3 / 20) ^ 2 + 249 / 1000 * a ^ 2) - a) *
          (2 * (3 / 40) * k - (3 / 40) ^ 2) + 2 * 0 * a * (2 * 0 * (L + k) - 0 ^ 2) + 249 / 1000 * a ^ 3 -
        2 * a * (a - 1 / 4) * (L + k) := by
      rintro L k (⟨rfl, rfl⟩ | ⟨rfl, rfl⟩ | ⟨rfl, rfl⟩) <;>
      nlinarith [mul_nonneg (sub_nonneg.2 h1) (sub_nonneg.2 h1),
        mul_nonneg (mul_nonneg (sub_nonneg.2 h1) (sub_nonneg.2 h1)) (sub_nonneg.2 h1), mul_nonneg (show (0:K) ≤ a by linarith) (sq_nonneg (a - 64/100))]
    have v0 := v 0 0 (by simp)
    have v1 := v (1 / 6) 0 (by simp)
    have v2 := v 0 (1 / 6) (by simp)
    clear v
    generalize (2 * (3 / 20) * (a - 1 / 4 - 0 * (1 / 6) - 1 / 6) - (3 / 20) ^ 2 + 249 / 1000 * a ^ 2) = c at *
    have w0 := mul_nonneg v0.le (show 0 ≤ 1 - 6 * L - 6 * k by linarith)
    have w1 := mul_nonneg v1.le (show 0 ≤ 6 * L by linarith)
    have w2 := mul_nonneg v2.le (show 0 ≤ 6 * k by linarith)
    rcases eq_or_lt_of_le (show 0 ≤ 1 - 6 * L - 6 * k by linarith) with h | h
    · rcases eq_or_lt_of_le hL with h' | h'
      · have := mul_pos v2 (show 0 < 6 * k by linarith)
        linarith
      · have := mul_pos v1 (show 0 < 6 * L by linarith)
        linarith
    · have := mul_pos v0 h
      linarith

theorem square_bound (a L k : K) (h1 : 1 / 2 ≤ a) (h2 : a ≤ 29 / 50) (hL : 0 ≤ L) (hL' : L ≤ 1 / 6) (hk : 0 ≤ k) (hk' : k ≤ 1 / 6) :
    0 < lllShape a L k (2 * a - 7 / 8) 0 (1 / 10) := by
  refine tangent_bound a L k _ _ _ _ (7 / 50) (7 / 50) 0 (1 / 3) (by linarith) le_rfl (by norm_num) hL' (by linarith) rfl ?_ ?_ ?_
  · nlinarith
  · nlinarith
  · have v : ∀ L k : K, (L = 0 ∧ k = 0 ∨ L = 1 / 6 ∧ k = 0 ∨ L = 0 ∧ k = 1 / 6 ∨ L = 1 / 6 ∧ k = 1 / 6) →
        0 < (6 * (2 * (1 / 10) * (2 * a - 7 / 8 - 0 * (1 / 3) - 1 / 6) - (1 / 10) ^ 2 + 249 / 1000 * a ^ 2) + a) *
          (2 * (7 / 50) * L - (7 / 50) ^ 2) +
        (18 * (2 * (1 / 10) * (2 * a - 7 / 8 - 0 * (1 / 3) - 1 / 6) - (1 / 10) ^ 2 + 249 / 1000 * a ^ 2) - a) *
          (2 * (7 / 50) * k - (7 / 50) ^ 2) + 2 * 0 * a * (2 * 0 * (L + k) - 0 ^ 2) + 249 / 1000 * a ^ 3 -
        2 * a * (2 * a - 7 / 8) * (L + k) := by
      rintro L k (⟨rfl, rfl⟩ | ⟨rfl, rfl⟩ | ⟨rfl, rfl⟩ | ⟨rfl, rfl⟩) <;>
      nlinarith [mul_nonneg (sub_nonneg.2 h1) (sub_nonneg.2 h2), mul_nonneg (mul_nonneg (sub_nonneg.2 h1) (sub_nonneg.2 h2)) (sub_nonneg.2 h1)]
    have v0 := v 0 0 (by simp)
    have v1 := v (1 / 6) 0 (by simp)
    have v2 := v 0 (1 / 6) (by simp)
    have v3 := v (1 / 6) (1 / 6) (by simp)
    clear v
    generalize (2 * (1 / 10) * (2 * a - 7 / 8 - 0 * (1 / 3) - 1 / 6) - (1 / 10) ^ 2 + 249 / 1000 * a ^ 2) = c at *
    have x0 := affine_pos (s := L) (c := (6 * c + a) * (- (7 / 50) ^ 2) + (18 * c - a) * (- (7 / 50) ^ 2) + 249 / 1000 * a ^ 3)
      (e := (6 * c + a) * (2 * (7 / 50)) - 2 * a * (2 * a - 7 / 8)) hL hL' (by linarith) (by linarith)
    have x1 := affine_pos (s := L) (c := (6 * c + a) * (- (7 / 50) ^ 2) + (18 * c - a) * (2 * (7 / 50) * (1 / 6) - (7 / 50) ^ 2)
        + 249 / 1000 * a ^ 3 - 2 * a * (2 * a - 7 / 8) * (1 / 6))
      (e := (6 * c + a) * (2 * (7 / 50)) - 2 * a * (2 * a - 7 / 8)) hL hL' (by linarith) (by linarith)
    have x2 := affine_pos (s := k) (c := (6 * c + a) * (2 * (7 / 50) * L - (7 / 50) ^ 2) + (18 * c - a) * (- (7 / 50) ^ 2)
        + 249 / 1000 * a ^ 3 - 2 * a * (2 * a - 7 / 8) * L)
      (e := (18 * c - a) * (2 * (7 / 50)) - 2 * a * (2 * a - 7 / 8)) hk hk' (by linarith) (by linarith)
    linarith

theorem shift_bound (a b L k y U m ν t : K) (ha : 1 / 2 ≤ a) (hb : 999 / 1000 * a ≤ b) (hL : 0 ≤ L) (hL' : L ≤ 1 / 6)
    (hk : 0 ≤ k) (hk' : k ≤ 1 / 6) (hν : 0 ≤ ν) (hν' : ν ≤ 1) (ht : 0 ≤ t) (hta : 3 * t ≤ a)
    (hy : y ≤ U - m * (L + k) - L + ν * (b - 999 / 1000 * a)) (hP : 0 < lllShape a L k U m t) :
    0 < (6 * L ^ 2 + 18 * k ^ 2) * (y ^ 2 + a * (b - 3 / 4 * a)) - 2 * a * (L + k) * y - a * (L + k) ^ 2
      + a ^ 2 * (b - 3 / 4 * a) := by
  unfold lllShape at hP
  set Y := U - m * (L + k) - L with hY
  set E := 6 * L ^ 2 + 18 * k ^ 2 with hE
  have hE0 : 0 ≤ E := by positivity
  have hEs : E ≤ 3 * (L + k) := by nlinarith
  have hE2 : 9 / 2 * (L + k) ^ 2 ≤ E := by nlinarith [sq_nonneg (L - 3 * k)]
  have hs : 0 ≤ L + k := by linarith
  set s := L + k with hs'
  have e1 : 0 ≤ E * (y - t) ^ 2 := mul_nonneg hE0 (sq_nonneg _)
  have e2 : 2 * t * E ≤ 2 * a * s := by
    calc 2 * t * E ≤ 2 * t * (3 * s) := mul_le_mul_of_nonneg_left hEs (by linarith)
      _ = 2 * (3 * t) * s := by ring
      _ ≤ 2 * a * s := mul_le_mul_of_nonneg_right (by linarith) hs
  have e3 : 0 ≤ (2 * a * s - 2 * t * E) * (Y + ν * (b - 999 / 1000 * a) - y) :=
    mul_nonneg (by linarith) (by linarith)
  have e4 : 0 ≤ a * (a + E) - ν * (2 * a * s - 2 * t * E) := by
    have h1 : ν * (2 * a * s - 2 * t * E) ≤ 2 * a * s := by
      have : 0 ≤ t * E := mul_nonneg ht hE0
      have h2 : 0 ≤ 2 * a * s - 2 * t * E := by linarith
      have h3 := mul_le_mul_of_nonneg_right hν' h2
      linarith
    have h2 : 0 ≤ a * (a + 9 / 2 * s ^ 2 - 2 * s) := by
      refine mul_nonneg (by linarith) ?_
      nlinarith [sq_nonneg (s - 2 / 9)]
    have h3 := mul_le_mul_of_nonneg_left hE2 (show 0 ≤ a by linarith)
    linarith
  have e5 := mul_nonneg (sub_nonneg.2 hb) e4
  linarith

theorem chord_bound {s s1 s2 c e : K} (h1 : s1 ≤ s) (h2 : s ≤ s2) (e1 : (1 - 3 * s1) ^ 2 / 2 = c - e * s1)
    (e2 : (1 - 3 * s2) ^ 2 / 2 = c - e * s2) : (1 - 3 * s) ^ 2 / 2 ≤ c - e * s := by
  have h := mul_nonneg (sub_nonneg.2 h1) (sub_nonneg.2 h2)
  rcases eq_or_lt_of_le (h1.trans h2) with h3 | h3
  · have : s = s1 := le_antisymm (by linarith) h1
    rw [this]; exact e1.le
  · have e3 : (9 / 2 * (s1 + s2) - 3 + e) * (s2 - s1) = 0 := by linear_combination e2 - e1
    have e4 : e = 3 - 9 / 2 * (s1 + s2) := by
      rcases mul_eq_zero.1 e3 with h4 | h4 <;> linarith
    subst e4
    linarith

/-- The core inequality. -/
theorem lll4_core (a b L k y G E : K) (ha : 1 / 2 ≤ a) (hb : 999 / 1000 * a ≤ b) (hL : 0 ≤ L) (hL' : L ≤ 1 / 6)
    (hk : 0 ≤ k) (hk' : k ≤ 1 / 6) (hE : 6 * L ^ 2 + 18 * k ^ 2 ≤ E) (hG : 0 ≤ G) (hG1 : G ≤ 1 / 2)
    (hG2 : G ≤ 1 - 3 * (L + k)) (hG3 : G ≤ 2 * a + 2 * b - 2) (hy : y + L ≤ (a + b) / 2 + G ^ 2 / 2 - 3 / 8) :
    0 < E * (y ^ 2 + a * (b - 3 / 4 * a)) - 2 * a * (L + k) * y - a * (L + k) ^ 2 + a ^ 2 * (b - 3 / 4 * a) := by
  have hd : 0 ≤ y ^ 2 + a * (b - 3 / 4 * a) :=
    add_nonneg (sq_nonneg _) (mul_nonneg (by linarith) (by linarith))
  suffices h : 0 < (6 * L ^ 2 + 18 * k ^ 2) * (y ^ 2 + a * (b - 3 / 4 * a)) - 2 * a * (L + k) * y - a * (L + k) ^ 2
      + a ^ 2 * (b - 3 / 4 * a) by
    have := mul_le_mul_of_nonneg_right hE hd
    linarith
  by_cases h1 : a ≤ 29 / 50
  · refine shift_bound a b L k y _ _ 1 _ ha hb hL hL' hk hk' (by norm_num) le_rfl (by norm_num) (by linarith) ?_
      (square_bound a L k ha h1 hL hL' hk hk')
    nlinarith
  push Not at h1
  by_cases h2 : L + k ≤ 1 / 6
  · refine shift_bound a b L k y _ _ (1 / 2) _ ha hb hL hL' hk hk' (by norm_num) (by norm_num) (by norm_num)
      (by linarith) ?_ (triangle_bound a L k h1.le hL hk h2)
    nlinarith
  push Not at h2
  have hG4 : G ^ 2 ≤ (1 - 3 * (L + k)) ^ 2 := by nlinarith
  have half : ∀ U m t : K, 0 < lllShape a L k U m t → 0 ≤ t → 3 * t ≤ a →
      (1 - 3 * (L + k)) ^ 2 / 2 ≤ (U - a + 3 / 8) - m * (L + k) →
      0 < (6 * L ^ 2 + 18 * k ^ 2) * (y ^ 2 + a * (b - 3 / 4 * a)) - 2 * a * (L + k) * y - a * (L + k) ^ 2
        + a ^ 2 * (b - 3 / 4 * a) := by
    intro U m t hP ht hta hU
    refine shift_bound a b L k y U m (1 / 2) t ha hb hL hL' hk hk' (by norm_num) (by norm_num) ht hta ?_ hP
    linarith
  by_cases h3 : L + k ≤ 9 / 50
  · by_cases h4 : a ≤ 7 / 10
    · refine half _ _ _ (strip_a1 a L k h1.le h4 hL' hk' h2.le h3) (by norm_num) (by linarith) ?_
      exact chord_bound h2.le h3 (by ring) (by ring)
    · push Not at h4
      refine half _ _ _ (strip_a2 a L k h4.le hL' hk' h2.le h3) (by norm_num) (by linarith) ?_
      exact chord_bound h2.le h3 (by ring) (by ring)
  push Not at h3
  by_cases h5 : L + k ≤ 1 / 5
  · by_cases h4 : a ≤ 7 / 10
    · refine half _ _ _ (strip_b1 a L k h1.le h4 hL' hk' h3.le h5) (by norm_num) (by linarith) ?_
      exact chord_bound h3.le h5 (by ring) (by ring)
    · push Not at h4
      refine half _ _ _ (strip_b2 a L k h4.le hL' hk' h3.le h5) (by norm_num) (by linarith) ?_
      exact chord_bound h3.le h5 (by ring) (by ring)
  push Not at h5
  by_cases h6 : L + k ≤ 1 / 4
  · by_cases h4 : a ≤ 7 / 10
    · refine half _ _ _ (strip_c1 a L k h1.le h4 hL' hk' h5.le h6) (by norm_num) (by linarith) ?_
      exact chord_bound h5.le h6 (by ring) (by ring)
    · push Not at h4
      refine half _ _ _ (strip_c2 a L k h4.le hL' hk' h5.le h6) (by norm_num) (by linarith) ?_
      exact chord_bound h5.le h6 (by ring) (by ring)
  push Not at h6
  refine half _ _ _ (strip_d a L k h1.le hL' hk' h6.le (by linarith)) (by norm_num) (by linarith) ?_
  exact chord_bound (s2 := 1 / 3) h6.le (by linarith) (by ring) (by ring)

end Dreimac
