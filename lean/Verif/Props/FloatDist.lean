import Verif.Lemmas.RoundingCast
import Verif.Props.Float64

/-!
# C100: cross-similarity in floating point arithmetic
-/

namespace Dreimac

open Fl

theorem Fl.add_comm' {K : Type} [Field K] [LinearOrder K] (a b : Fl K) : a + b = b + a := by
  cases a <;> cases b <;> first | rfl | exact congrArg Fl.fin (add_comm _ _)

/-- The dot product as a loop with fused multiply-add instructions: each product is added without being rounded first. -/
def fmaDot {K : Type} [Field K] [LinearOrder K] (rnd : K → Fl K) (d : ℕ) (x y : ℕ → K) : Fl K :=
  (List.range d).foldl (fun acc k => Fl.round rnd (acc + fin (x k * y k))) 0

/-- **C100 (partial).** In every number format, for every order of summation, as long as no intermediate result overflows:
the computed distance is a finite non-negative number; it is symmetric if the matrix product is; and a point has distance 0
from itself if the matrix product sums the squares as `np.sum` does.  Missing: the distance of different points can be 0, and
that of a point from itself positive. -/
theorem C100_distance_partial {rnd : ℝ → Fl ℝ} (R : Rounding rnd) (order : SumTree) (dot : (ℕ → ℝ) → (ℕ → ℝ) → Fl ℝ)
    (x y : ℕ → ℝ) :
    ((∃ c, csmSquareF rnd order dot x y = fin c) → ∀ B, Machine rnd B →
      (∀ c, csmSquareF rnd order dot x y = fin c → Real.sqrt c ≤ B) →
      ∃ v, getCsmF rnd order dot x y = fin v ∧ 0 ≤ v) ∧
    (dot x y = dot y x → getCsmF rnd order dot x y = getCsmF rnd order dot y x) ∧
    (∀ s t, dot x x = fin s → order.eval rnd (fun k => Fl.round rnd (fin (x k) * fin (x k))) = fin s → rnd (s + s) = fin t →
      getCsmF rnd order dot x x = fin 0) := by
  have hnn : ∀ c, csmSquareF rnd order dot x y = fin c → 0 ≤ c := by
    intro c h
    unfold csmSquareF at h
    simp only at h
    split at h
    · injection h with h; rw [← h]
    · rename_i hlt
      rw [h] at hlt
      by_contra hc
      exact hlt (by rw [Fl.zero_def, lt_fin]; exact decide_eq_true (not_le.1 hc))
  refine ⟨?_, ?_, ?_⟩
  · rintro ⟨c, hc⟩ B mB hB
    have c0 := hnn c hc
    obtain ⟨v, hv, v0, -, -⟩ := R.between R.zero mB (Real.sqrt_nonneg c) (hB c hc)
    refine ⟨v, ?_, v0⟩
    unfold getCsmF
    rw [hc]
    simp only [Fl.sqrtF, not_lt.2 c0, if_false, hv]
  · intro h
    unfold getCsmF csmSquareF
    simp only [h]
    rw [Fl.add_comm']
  · intro s t hd hs ht
    unfold getCsmF csmSquareF
    rw [hd]
    simp only [hs]
    simp only [fin_add, fin_mul, round_fin, two_mul, ht]
    rw [fin_sub, sub_self, round_fin, R.zero]
    simp only [Fl.zero_def, lt_fin, lt_irrefl, decide_false, Bool.false_eq_true, if_false, Fl.sqrtF, Real.sqrt_zero]
    exact R.zero

/-- **C100 is false (different points).** In `float64` the computed distance of the points `2^27` and `2^27 + 1` on a line
(whose distance is 1) is 0, whatever the order of summation. -/
theorem C100_distinct_points_at_distance_zero (dot : (ℕ → ℝ) → (ℕ → ℝ) → Fl ℝ)
    (hdot : ∀ x y : ℕ → ℝ, dot x y = float64 (x 0 * y 0)) :
    getCsmF float64 (.leaf 0) dot (fun _ => 2 ^ 27) (fun _ => 2 ^ 27 + 1) = fin 0 := by
  have e1 : float64 ((2 : ℝ) ^ 27 * 2 ^ 27) = fin (2 ^ 54) := by
    have := float64_of_rat (K := ℝ) (q := 2 ^ 27 * 2 ^ 27) (q' := 2 ^ 54) (by decide +kernel)
    push_cast at this; exact this
  have e2 : float64 (((2 : ℝ) ^ 27 + 1) * (2 ^ 27 + 1)) = fin (2 ^ 54 + 2 ^ 28) := by
    have := float64_of_rat (K := ℝ) (q := (2 ^ 27 + 1) * (2 ^ 27 + 1)) (q' := 2 ^ 54 + 2 ^ 28) (by decide +kernel)
    push_cast at this; exact this
  have e3 : float64 ((2 : ℝ) ^ 27 * (2 ^ 27 + 1)) = fin (2 ^ 54 + 2 ^ 27) := by
    have := float64_of_rat (K := ℝ) (q := 2 ^ 27 * (2 ^ 27 + 1)) (q' := 2 ^ 54 + 2 ^ 27) (by decide +kernel)
    push_cast at this; exact this
  have e4 : float64 ((2 : ℝ) ^ 54 + (2 ^ 54 + 2 ^ 28)) = fin (2 ^ 55 + 2 ^ 28) := by
    have := float64_of_rat (K := ℝ) (q := 2 ^ 54 + (2 ^ 54 + 2 ^ 28)) (q' := 2 ^ 55 + 2 ^ 28) (by decide +kernel)
    push_cast at this; exact this
  have e5 : float64 ((2 : ℝ) * (2 ^ 54 + 2 ^ 27)) = fin (2 ^ 55 + 2 ^ 28) := by
    have := float64_of_rat (K := ℝ) (q := 2 * (2 ^ 54 + 2 ^ 27)) (q' := 2 ^ 55 + 2 ^ 28) (by decide +kernel)
    push_cast at this; exact this
  unfold getCsmF csmSquareF
  simp only [hdot, SumTree.eval, fin_mul, round_fin, e1, e2, e3, fin_add, e4, e5, fin_sub, sub_self]
  rw [show float64 (0 : ℝ) = fin 0 from rounding_float64.zero]
  simp only [Fl.zero_def, lt_fin, lt_irrefl, decide_false, Bool.false_eq_true, if_false, Fl.sqrtF, Real.sqrt_zero]
  exact rounding_float64.zero

/-- The machine numbers `0.3` and `0.1`. -/
def p3 : ℚ := 5404319552844595 / 2 ^ 54
@[inherit_doc p3]
def p1 : ℚ := 3602879701896397 / 2 ^ 55

theorem float64_real {x : ℝ} (q q' : ℚ) (hx : x = q) (h : float64 q = fin q') : float64 x = fin (q' : ℝ) := by
  rw [hx]; exact float64_of_rat h

/-- **C100 is false (equal points).** If the matrix product uses fused multiply-add instructions, then the computed distance of
the point `(0.3, 0.1)` from itself is positive (about `5·10⁻⁹`). -/
theorem C100_self_distance_positive :
    ∃ v, getCsmF float64 (.node (.leaf 0) (.leaf 1)) (fmaDot float64 2)
      (fun k => if k = 0 then (p3 : ℝ) else p1) (fun k => if k = 0 then (p3 : ℝ) else p1) = fin v ∧ 2 ^ (-28 : ℤ) ≤ v := by
  have e1 := float64_real (x := (p3 : ℝ) * p3) (p3 * p3) (3242591731706757 / 2 ^ 55) (by push_cast; rfl) (by decide +kernel)
  have e2 := float64_real (x := (p1 : ℝ) * p1) (p1 * p1) (1441151880758559 / 2 ^ 57) (by push_cast; rfl) (by decide +kernel)
  have e3 := float64_real (x := ((3242591731706757 / 2 ^ 55 : ℚ) : ℝ) + ((1441151880758559 / 2 ^ 57 : ℚ) : ℝ)) _
    (3602879701896397 / 2 ^ 55) (Rat.cast_add _ _).symm (by decide +kernel)
  have e4 := float64_real (x := ((3242591731706757 / 2 ^ 55 : ℚ) : ℝ) + p1 * p1) (3242591731706757 / 2 ^ 55 + p1 * p1)
    (7205759403792793 / 2 ^ 56) (by push_cast; rfl) (by decide +kernel)
  have e5 := float64_real (x := ((3602879701896397 / 2 ^ 55 : ℚ) : ℝ) + ((3602879701896397 / 2 ^ 55 : ℚ) : ℝ)) _
    (3602879701896397 / 2 ^ 54) (Rat.cast_add _ _).symm (by decide +kernel)
  have e6 := float64_real (x := 2 * ((7205759403792793 / 2 ^ 56 : ℚ) : ℝ)) (2 * (7205759403792793 / 2 ^ 56))
    (7205759403792793 / 2 ^ 55) (by push_cast; rfl) (by decide +kernel)
  have e7 := float64_real (x := ((3602879701896397 / 2 ^ 54 : ℚ) : ℝ) - ((7205759403792793 / 2 ^ 55 : ℚ) : ℝ)) _
    (1 / 2 ^ 55) (Rat.cast_sub _ _).symm (by decide +kernel)
  have hdot : fmaDot float64 2 (fun k => if k = 0 then (p3 : ℝ) else p1) (fun k => if k = 0 then (p3 : ℝ) else p1) =
      fin ((7205759403792793 / 2 ^ 56 : ℚ) : ℝ) := by
    unfold fmaDot
    simp only [List.range_succ, List.range_zero, List.nil_append, List.foldl_append, List.foldl_cons, List.foldl_nil, if_true,
      one_ne_zero, if_false, Fl.zero_def, fin_add, zero_add, round_fin, e1, e4]
  have hsq : csmSquareF float64 (.node (.leaf 0) (.leaf 1)) (fmaDot float64 2)
      (fun k => if k = 0 then (p3 : ℝ) else p1) (fun k => if k = 0 then (p3 : ℝ) else p1) =
        fin ((1 / 2 ^ 55 : ℚ) : ℝ) := by
    unfold csmSquareF
    simp only [hdot, SumTree.eval, if_true, one_ne_zero, if_false, fin_mul, round_fin, e1, e2, fin_add, e3, e5, e6, fin_sub, e7]
    rw [if_neg]
    rw [Fl.zero_def, lt_fin, decide_eq_true_eq]
    norm_num
  have hlo : (2 : ℝ) ^ (-28 : ℤ) ≤ Real.sqrt ((1 / 2 ^ 55 : ℚ) : ℝ) := by
    apply Real.le_sqrt_of_sq_le
    norm_num
  have hhi : Real.sqrt ((1 / 2 ^ 55 : ℚ) : ℝ) ≤ 1 := by
    rw [Real.sqrt_le_one]
    norm_num
  obtain ⟨v, hv, v0, -⟩ := (rounding_float64 (K := ℝ)).between
    (machine_float64 1 (-28) (by rw [Int.cast_one, one_mul]) (by norm_num) (by norm_num) (by norm_num))
    rounding_float64.one hlo hhi
  refine ⟨v, ?_, v0⟩
  unfold getCsmF
  rw [hsq]
  simp only [Fl.sqrtF]
  rw [if_neg (by norm_num), hv]

/-- The hypotheses of `C100_distance_partial` hold for the points 0 and 3 on a line. -/
example : ∃ v, getCsmF float64 (.leaf 0) (fun x y => float64 (x 0 * y 0)) (fun _ => 0) (fun _ => 3) = fin v ∧ 0 ≤ v := by
  have h9 : float64 ((3 : ℝ) * 3) = fin 9 := by
    have := float64_real (x := 3 * 3) 9 9 (by norm_num) (by decide +kernel); exact_mod_cast this
  have h9' : float64 (9 : ℝ) = fin 9 := by
    have := float64_real (x := 9) 9 9 (by norm_num) (by decide +kernel); exact_mod_cast this
  have hz : float64 (0 : ℝ) = fin 0 := rounding_float64.zero
  have hsq : csmSquareF float64 (.leaf 0) (fun x y : ℕ → ℝ => float64 (x 0 * y 0)) (fun _ => 0) (fun _ => 3) = fin 9 := by
    unfold csmSquareF
    simp only [SumTree.eval, fin_mul, round_fin, mul_zero, zero_mul, hz, h9, fin_add, zero_add, h9', fin_sub, sub_zero]
    rw [if_neg]
    rw [Fl.zero_def, lt_fin, decide_eq_true_eq]; norm_num
  refine (C100_distance_partial rounding_float64 _ _ _ _).1 ⟨9, hsq⟩ 4
    (machine_float64 4 0 (by norm_num) (by norm_num) (by norm_num) (by norm_num)) ?_
  intro c hc
  rw [hsq] at hc; injection hc with hc; subst hc
  rw [Real.sqrt_le_left (by norm_num)]; norm_num

end Dreimac
