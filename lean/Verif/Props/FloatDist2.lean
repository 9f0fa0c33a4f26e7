import Verif.Lemmas.FloatSum
import Verif.Props.FloatDist

/-!
# C100: how far the computed distances are from the true ones
-/

namespace Dreimac

open Fl Finset

section
variable {K : Type} [Field K] [LinearOrder K] [IsStrictOrderedRing K] {rnd : K → Fl K}

/-- A matrix product that rounds every product and every addition, in any order. -/
def treeDot (rnd : K → Fl K) (order : SumTree) (x y : ℕ → K) : Fl K :=
  order.eval rnd fun k => Fl.round rnd (fin (x k) * fin (y k))

/-- **C100 (squared distances).** In every number format and for every order of summation: if the computed squared distance and
inner product are finite, then the former differs from the squared Euclidean distance in dimension `d` by at most
`((1+u)^(d+2) + (1+u)^2 - 2) (|x|² + |y|²) + 2 d (1+u)^(d+1) eta + 2 (1+u)^2 δ`, where `δ` is the error of the inner product. -/
theorem C100_square_error (R : Rounding rnd) {u eta : K} (E : ErrorBound rnd u eta) (hu : 0 ≤ u) (heta : 0 ≤ eta)
    (order : SumTree) {d : ℕ} (ho : order.leaves.Perm (List.range d)) (dot : (ℕ → K) → (ℕ → K) → Fl K) (x y : ℕ → K) {D δ c : K}
    (hD : dot x y = fin D) (mD : Machine rnd D) (hδ : |D - ∑ k ∈ range d, x k * y k| ≤ δ)
    (hc : csmSquareF rnd order dot x y = fin c) (hovf : rnd (2 * D) ≠ pinf) :
    |c - ∑ k ∈ range d, (x k - y k) ^ 2| ≤
      ((1 + u) ^ (d + 2) + (1 + u) ^ 2 - 2) * (∑ k ∈ range d, x k ^ 2 + ∑ k ∈ range d, y k ^ 2) +
        2 * d * (1 + u) ^ (d + 1) * eta + 2 * (1 + u) ^ 2 * δ := by
  have hsq : ∀ (v : ℕ → K), (fun k => Fl.round rnd (fin (v k) * fin (v k))) = fun k => rnd (v k * v k) := by
    intro v; funext k; simp only [fin_mul, round_fin]
  unfold csmSquareF at hc
  simp only [hsq, hD, fin_mul, round_fin] at hc
  -- the two sums of squares
  have hval : ∀ v : ℕ → K, order.eval rnd (fun k => rnd (v k * v k)) = pinf ∨
      ∃ s, order.eval rnd (fun k => rnd (v k * v k)) = fin s ∧ 0 ≤ s := by
    intro v
    have : ∀ t : SumTree, t.eval rnd (fun k => rnd (v k * v k)) = pinf ∨
        ∃ s, t.eval rnd (fun k => rnd (v k * v k)) = fin s ∧ 0 ≤ s := by
      intro t
      induction t with
      | leaf l =>
        rcases R.nonneg (mul_self_nonneg (v l)) with h | ⟨s, s0, h, -⟩
        · exact .inl h
        · exact .inr ⟨s, h, s0⟩
      | node a b iha ihb =>
        simp only [SumTree.eval]
        rcases iha with h | ⟨s, h, s0⟩ <;> rcases ihb with h' | ⟨s', h', s0'⟩ <;> rw [h, h']
        · exact .inl rfl
        · exact .inl rfl
        · exact .inl rfl
        · rw [fin_add, round_fin]
          rcases R.nonneg (add_nonneg s0 s0') with e | ⟨w, w0, e, -⟩
          · exact .inl e
          · exact .inr ⟨w, e, w0⟩
    exact this order
  have hP : ∃ p, rnd (2 * D) = fin p := by
    cases hp : rnd (2 * D) with
    | fin p => exact ⟨p, rfl⟩
    | nan => exact absurd hp (R.notNan _)
    | pinf => exact absurd hp hovf
    | ninf =>
      exfalso
      rw [hp] at hc
      rcases hval x with h | ⟨X, hX, X0⟩ <;> rcases hval y with h' | ⟨Y, hY, Y0⟩
      · rw [h, h'] at hc; exact absurd hc (by intro e; cases e)
      · rw [h, hY] at hc; exact absurd hc (by intro e; cases e)
      · rw [hX, h'] at hc; exact absurd hc (by intro e; cases e)
      · rw [hX, hY, fin_add, round_fin] at hc
        rcases R.nonneg (add_nonneg X0 Y0) with e | ⟨w, w0, e, -⟩ <;> rw [e] at hc <;> exact absurd hc (by intro e; cases e)
  obtain ⟨P, hP⟩ := hP
  rw [hP] at hc
  obtain ⟨X, Y, A, C, hX, hY, hA, A0, hC, hcC⟩ : ∃ X Y A C, order.eval rnd (fun k => rnd (x k * x k)) = fin X ∧
      order.eval rnd (fun k => rnd (y k * y k)) = fin Y ∧ rnd (X + Y) = fin A ∧ 0 ≤ A ∧ rnd (A - P) = fin C ∧
      (c = C ∨ (c = 0 ∧ C < 0)) := by
    rcases hval x with h | ⟨X, hX, X0⟩ <;> rcases hval y with h' | ⟨Y, hY, Y0⟩
    · rw [h, h'] at hc; exact absurd hc (by intro e; cases e)
    · rw [h, hY] at hc; exact absurd hc (by intro e; cases e)
    · rw [hX, h'] at hc; exact absurd hc (by intro e; cases e)
    · rw [hX, hY, fin_add, round_fin] at hc
      rcases R.nonneg (add_nonneg X0 Y0) with e | ⟨A, A0, e, mA⟩ <;> rw [e] at hc
      · exact absurd hc (by intro e; cases e)
      · rw [fin_sub, round_fin] at hc
        cases hC : rnd (A - P) with
        | nan => rw [hC] at hc; exact absurd hc (by intro e; cases e)
        | pinf => rw [hC] at hc; exact absurd hc (by intro e; cases e)
        | ninf =>
          exfalso
          have := R.mono (-P) (A - P) (by linarith)
          rw [hC, R.machine_neg (R.idem _ _ hP)] at this
          exact this
        | fin C =>
          rw [hC] at hc
          refine ⟨X, Y, A, C, hX, hY, e, A0, hC, ?_⟩
          rw [Fl.zero_def, lt_fin] at hc
          split at hc
          · rename_i h; injection hc with hc; exact .inr ⟨hc.symm, of_decide_eq_true h⟩
          · injection hc with hc; exact .inl hc.symm
  obtain ⟨mX, eX⟩ := order.eval_round_error R E hu (fun k => x k * x k) ho hX
  obtain ⟨mY, eY⟩ := order.eval_round_error R E hu (fun k => y k * y k) ho hY
  have eA := E.sum X Y A mX mY hA
  have eP := E.sum D D P mD mD (by rw [← two_mul]; exact hP)
  have eC := E.sum A (-P) C (R.idem _ _ hA) (R.machine_neg (R.idem _ _ hP)) (by rw [← sub_eq_add_neg]; exact hC)
  have sx : ∀ v : ℕ → K, ∑ k ∈ range d, |v k * v k| = ∑ k ∈ range d, v k ^ 2 := fun v =>
    Finset.sum_congr rfl fun k _ => by rw [abs_of_nonneg (mul_self_nonneg _), sq]
  have sx' : ∀ v : ℕ → K, ∑ k ∈ range d, v k * v k = ∑ k ∈ range d, v k ^ 2 := fun v =>
    Finset.sum_congr rfl fun k _ => by rw [sq]
  simp only [sx, sx'] at eX eY
  have hT : ∑ k ∈ range d, (x k - y k) ^ 2 =
      ∑ k ∈ range d, x k ^ 2 + ∑ k ∈ range d, y k ^ 2 - 2 * ∑ k ∈ range d, x k * y k := by
    rw [Finset.mul_sum, ← Finset.sum_add_distrib, ← Finset.sum_sub_distrib]
    exact Finset.sum_congr rfl fun k _ => by ring
  have hT0 : 0 ≤ ∑ k ∈ range d, (x k - y k) ^ 2 := Finset.sum_nonneg fun k _ => sq_nonneg _
  have hT1 : 0 ≤ ∑ k ∈ range d, (x k + y k) ^ 2 := Finset.sum_nonneg fun k _ => sq_nonneg _
  have hT2 : ∑ k ∈ range d, (x k + y k) ^ 2 =
      ∑ k ∈ range d, x k ^ 2 + ∑ k ∈ range d, y k ^ 2 + 2 * ∑ k ∈ range d, x k * y k := by
    rw [Finset.mul_sum, ← Finset.sum_add_distrib, ← Finset.sum_add_distrib]
    exact Finset.sum_congr rfl fun k _ => by ring
  have hx0 : 0 ≤ ∑ k ∈ range d, x k ^ 2 := Finset.sum_nonneg fun k _ => sq_nonneg _
  have hy0 : 0 ≤ ∑ k ∈ range d, y k ^ 2 := Finset.sum_nonneg fun k _ => sq_nonneg _
  have hcl : |c - ∑ k ∈ range d, (x k - y k) ^ 2| ≤ |C - ∑ k ∈ range d, (x k - y k) ^ 2| := by
    rcases hcC with h | ⟨h, h'⟩
    · rw [h]
    · rw [h, abs_sub_comm, abs_sub_comm C, abs_of_nonneg (by linarith), abs_of_nonneg (by linarith)]; linarith
  refine hcl.trans ?_
  rw [hT] at hT0 ⊢
  rw [hT2] at hT1
  have hd : 0 < d := by have := order.length_pos; rw [ho.length_eq, List.length_range] at this; exact this
  have hp : (1 + u) ^ d = (1 + u) ^ (d - 1) * (1 + u) := by rw [← pow_succ]; congr 1; omega
  have hp1 : (1 + u) ^ (d + 1) = (1 + u) ^ (d - 1) * (1 + u) ^ 2 := by rw [← pow_add]; congr 1; omega
  have hp2 : (1 + u) ^ (d + 2) = (1 + u) ^ (d - 1) * (1 + u) ^ 3 := by rw [← pow_add]; congr 1; omega
  rw [hp] at eX eY
  rw [hp1, hp2]
  have hQ : (1 : K) ≤ (1 + u) ^ (d - 1) := one_le_pow₀ (by linarith)
  generalize (1 + u) ^ (d - 1) = Q at *
  clear hc hsq hval hX hY hA hC hP hovf hD hcl hcC hp hp1 hp2 sx sx' hT hT2 ho mX mY mD
  generalize ∑ k ∈ range d, x k ^ 2 = sX at *
  generalize ∑ k ∈ range d, y k ^ 2 = sY at *
  generalize ∑ k ∈ range d, x k * y k = sD at *
  have hde : 0 ≤ (d : K) * Q * eta := by positivity
  have hW : 2 * (d : K) * (Q * (1 + u) ^ 2) * eta = 2 * (1 + u) ^ 2 * (d * Q * eta) := by ring
  rw [hW]
  generalize (d : K) * Q * eta = W at *
  clear hW hd
  have hS0 : 0 ≤ sX + sY := by linarith
  have h1 : |X + Y - (sX + sY)| ≤ (Q * (1 + u) - 1) * (sX + sY) + 2 * W := by
    have : X + Y - (sX + sY) = (X - sX) + (Y - sY) := by ring
    rw [this]; exact (abs_add_le _ _).trans (by linarith)
  have h2 : |X + Y| ≤ Q * (1 + u) * (sX + sY) + 2 * W := by
    have := abs_sub_abs_le_abs_sub (X + Y) (sX + sY); rw [abs_of_nonneg hS0] at this; linarith
  have h3 : |A - (sX + sY)| ≤ (Q * (1 + u) ^ 2 - 1) * (sX + sY) + 2 * (1 + u) * W := by
    have := abs_sub_le A (X + Y) (sX + sY)
    have := mul_le_mul_of_nonneg_left h2 hu
    linarith
  have h4 : 2 * |sD| ≤ sX + sY := by
    rcases abs_cases sD with ⟨h, -⟩ | ⟨h, -⟩ <;> rw [h] <;> linarith
  have h5 : |D + D| ≤ sX + sY + 2 * δ := by
    have := abs_sub_abs_le_abs_sub D sD; rw [← two_mul, abs_mul, abs_two]; linarith
  have h6 : |P - 2 * sD| ≤ u * (sX + sY) + 2 * (1 + u) * δ := by
    have e1 := abs_sub_le P (D + D) (2 * sD)
    have e2 := mul_le_mul_of_nonneg_left h5 hu
    have e3 : |D + D - 2 * sD| = 2 * |D - sD| := by rw [← two_mul, ← mul_sub, abs_mul, abs_two]
    linarith
  have h7 : |A + -P - (sX + sY - 2 * sD)| ≤
      (Q * (1 + u) ^ 2 - 1 + u) * (sX + sY) + 2 * (1 + u) * W + 2 * (1 + u) * δ := by
    have : A + -P - (sX + sY - 2 * sD) = (A - (sX + sY)) - (P - 2 * sD) := by ring
    rw [this]; exact (abs_sub _ _).trans (by linarith)
  have h8 : |A + -P| ≤ 2 * (sX + sY) + ((Q * (1 + u) ^ 2 - 1 + u) * (sX + sY) + 2 * (1 + u) * W + 2 * (1 + u) * δ) := by
    have := abs_sub_abs_le_abs_sub (A + -P) (sX + sY - 2 * sD); rw [abs_of_nonneg hT0] at this
    have := neg_abs_le sD
    linarith
  have h9 := abs_sub_le C (A + -P) (sX + sY - 2 * sD)
  have h10 := mul_le_mul_of_nonneg_left h8 hu
  linarith

theorem one_add_pow_le {u : K} (hu : 0 ≤ u) (n : ℕ) (h : 2 * n * u ≤ 1) : (1 + u) ^ n ≤ 1 + 2 * n * u := by
  induction n with
  | zero => simp
  | succ n ih =>
    push_cast at h ⊢
    have h' : 2 * (n : K) * u ≤ 1 := by linarith
    rw [pow_succ]
    have := mul_le_mul_of_nonneg_right (ih h') (by linarith : 0 ≤ 1 + u)
    have := mul_le_mul_of_nonneg_right h' hu
    linarith

/-- **C100 (squared distances, rounded products).** If the matrix product rounds every product and every addition (in any
order), the error is at most `2 ((1+u)^(d+2) - 1) (|x|² + |y|²) + 4 d (1+u)^(d+1) eta`. -/
theorem C100_square_error_tree (R : Rounding rnd) {u eta : K} (E : ErrorBound rnd u eta) (hu : 0 ≤ u) (heta : 0 ≤ eta)
    (order order' : SumTree) {d : ℕ} (ho : order.leaves.Perm (List.range d)) (ho' : order'.leaves.Perm (List.range d))
    (x y : ℕ → K) {D c : K} (hD : treeDot rnd order' x y = fin D) (hovf : rnd (2 * D) ≠ pinf)
    (hc : csmSquareF rnd order (treeDot rnd order') x y = fin c) :
    |c - ∑ k ∈ range d, (x k - y k) ^ 2| ≤
      2 * ((1 + u) ^ (d + 2) - 1) * (∑ k ∈ range d, x k ^ 2 + ∑ k ∈ range d, y k ^ 2) + 4 * d * (1 + u) ^ (d + 1) * eta := by
  have hdot : treeDot rnd order' x y = order'.eval rnd (fun k => rnd (x k * y k)) := rfl
  obtain ⟨mD, eD⟩ := order'.eval_round_error R E hu (fun k => x k * y k) ho' (hdot ▸ hD)
  have key := C100_square_error R E hu heta order ho (treeDot rnd order') x y hD mD eD hc hovf
  refine key.trans ?_
  have h1 : 2 * ∑ k ∈ range d, |x k * y k| ≤ ∑ k ∈ range d, x k ^ 2 + ∑ k ∈ range d, y k ^ 2 := by
    rw [Finset.mul_sum, ← Finset.sum_add_distrib]
    apply Finset.sum_le_sum
    intro k _
    have := two_mul_le_add_sq |x k| |y k|
    rw [abs_mul]; rw [sq_abs, sq_abs] at this; linarith
  have hd : 0 < d := by have := order.length_pos; rw [ho.length_eq, List.length_range] at this; exact this
  have hp : (1 + u) ^ d = (1 + u) ^ (d - 1) * (1 + u) := by rw [← pow_succ]; congr 1; omega
  have hp1 : (1 + u) ^ (d + 1) = (1 + u) ^ (d - 1) * (1 + u) ^ 2 := by rw [← pow_add]; congr 1; omega
  have hp2 : (1 + u) ^ (d + 2) = (1 + u) ^ (d - 1) * (1 + u) ^ 3 := by rw [← pow_add]; congr 1; omega
  have hQ : (1 : K) ≤ (1 + u) ^ (d - 1) := one_le_pow₀ (by linarith)
  have hQ2 : (1 : K) ≤ (1 + u) ^ d := one_le_pow₀ (by linarith)
  rw [hp] at hQ2
  rw [hp, hp1, hp2]
  generalize (1 + u) ^ (d - 1) = Q at *
  generalize ∑ k ∈ range d, x k ^ 2 + ∑ k ∈ range d, y k ^ 2 = S at *
  have h2 := mul_le_mul_of_nonneg_left h1 (mul_nonneg (sq_nonneg (1 + u)) (by linarith : 0 ≤ Q * (1 + u) - 1))
  nlinarith

end

/-- **C100 (`float64`).** For points with coordinates up to `2^400` in dimension at most `2^49`, every order of summation and
every matrix product that rounds its products and additions: the computed distance is finite, non-negative, and differs from the
Euclidean distance `dist` by at most
`2⁻⁵³ dist + (1 + 2⁻⁵³) sqrt((d + 2) 2⁻⁵¹ (|x|² + |y|²) + d 2⁻¹⁰⁷²) + 2⁻¹⁰⁷⁵`. -/
theorem C100_float64_distance_error (order order' : SumTree) {d : ℕ} (ho : order.leaves.Perm (List.range d))
    (ho' : order'.leaves.Perm (List.range d)) (hd : d ≤ 2 ^ 49) (x y : ℕ → ℝ) (hx : ∀ k < d, |x k| ≤ 2 ^ (400 : ℤ))
    (hy : ∀ k < d, |y k| ≤ 2 ^ (400 : ℤ)) :
    ∃ v, getCsmF float64 order (treeDot float64 order') x y = fin v ∧ 0 ≤ v ∧
      |v - Real.sqrt (∑ k ∈ range d, (x k - y k) ^ 2)| ≤
        2 ^ (-53 : ℤ) * Real.sqrt (∑ k ∈ range d, (x k - y k) ^ 2) +
        (1 + 2 ^ (-53 : ℤ)) * Real.sqrt ((d + 2) * 2 ^ (-51 : ℤ) * (∑ k ∈ range d, x k ^ 2 + ∑ k ∈ range d, y k ^ 2) +
          d * 2 ^ (-1072 : ℤ)) + 2 ^ (-1075 : ℤ) := by
  have R := rounding_float64 (K := ℝ)
  have E := errorBound_float64 (K := ℝ)
  have hu : (0 : ℝ) ≤ 2 ^ (-53 : ℤ) := (two_zpow_pos _).le
  have heta : (0 : ℝ) ≤ 2 ^ (-1075 : ℤ) := (two_zpow_pos _).le
  have mp : ∀ e : ℤ, 0 ≤ e → e ≤ 970 → Machine (float64 (K := ℝ)) (2 ^ e) := fun e h1 h2 =>
    machine_float64 1 e (by simp) (by norm_num) (by omega) h2
  have hdR : (d : ℝ) ≤ 2 ^ (49 : ℤ) := by exact_mod_cast hd
  have hdu : 2 * ((d + 2 : ℕ) : ℝ) * 2 ^ (-53 : ℤ) ≤ 1 := by
    have : ((d + 2 : ℕ) : ℝ) ≤ 2 ^ (50 : ℤ) := by
      push_cast
      calc (d : ℝ) + 2 ≤ 2 ^ (49 : ℤ) + 2 := by linarith
        _ ≤ 2 ^ (50 : ℤ) := by norm_num
    calc 2 * ((d + 2 : ℕ) : ℝ) * 2 ^ (-53 : ℤ) ≤ 2 * 2 ^ (50 : ℤ) * 2 ^ (-53 : ℤ) := by gcongr
      _ ≤ 1 := by norm_num
  have hpow : ∀ n ≤ d + 2, (1 + (2 : ℝ) ^ (-53 : ℤ)) ^ n ≤ 2 := by
    intro n hn
    calc (1 + (2 : ℝ) ^ (-53 : ℤ)) ^ n ≤ (1 + (2 : ℝ) ^ (-53 : ℤ)) ^ (d + 2) := pow_le_pow_right₀ (by linarith) hn
      _ ≤ 1 + 2 * ((d + 2 : ℕ) : ℝ) * 2 ^ (-53 : ℤ) := one_add_pow_le hu _ hdu
      _ ≤ 2 := by linarith
  have hd0 : 0 < d := by have := order.length_pos; rw [ho.length_eq, List.length_range] at this; exact this
  -- a rounded sum of products of bounded numbers is finite
  have hsum : ∀ (t : SumTree), t.leaves.Perm (List.range d) → ∀ a b : ℕ → ℝ, (∀ k < d, |a k| ≤ 2 ^ (400 : ℤ)) →
      (∀ k < d, |b k| ≤ 2 ^ (400 : ℤ)) → ∃ s, t.eval float64 (fun k => float64 (a k * b k)) = fin s ∧ |s| ≤ 2 ^ (850 : ℤ) := by
    intro t ht a b ha hb
    have hlen : t.leaves.length = d := by rw [ht.length_eq, List.length_range]
    have hprod : ∀ k < d, ∃ q, float64 (a k * b k) = fin q ∧ |q| ≤ 2 ^ (800 : ℤ) ∧ Machine float64 q := by
      intro k hk
      apply R.abs_between (mp 800 (by norm_num) (by norm_num))
      rw [abs_mul]
      calc |a k| * |b k| ≤ 2 ^ (400 : ℤ) * 2 ^ (400 : ℤ) := mul_le_mul (ha k hk) (hb k hk) (abs_nonneg _) (two_zpow_pos _).le
        _ = 2 ^ (800 : ℤ) := by rw [← zpow_add₀ two_ne_zero]; norm_num
    choose! q hq using hprod
    have hev : ∀ t' : SumTree, (∀ l ∈ t'.leaves, l < d) →
        t'.eval float64 (fun k => float64 (a k * b k)) = t'.eval float64 (fun k => fin (q k)) := by
      intro t'
      induction t' with
      | leaf l => intro h; exact (hq l (h l (by simp [SumTree.leaves]))).1
      | node r s ihr ihs =>
        intro h
        simp only [SumTree.leaves, List.mem_append] at h
        simp only [SumTree.eval, ihr (fun l hl => h l (.inl hl)), ihs (fun l hl => h l (.inr hl))]
    have hin : ∀ l ∈ t.leaves, l < d := fun l hl => List.mem_range.1 (ht.mem_iff.1 hl)
    rw [hev t hin]
    have hbound : (1 + (2 : ℝ) ^ (-53 : ℤ)) ^ (t.leaves.length - 1) * (t.leaves.length * 2 ^ (800 : ℤ)) ≤ 2 ^ (850 : ℤ) := by
      rw [hlen]
      calc _ ≤ 2 * (2 ^ (49 : ℤ) * (2 : ℝ) ^ (800 : ℤ)) := by
            apply mul_le_mul (hpow _ (by omega)) _ (by positivity) (by norm_num)
            exact mul_le_mul_of_nonneg_right hdR (two_zpow_pos _).le
        _ = 2 ^ (850 : ℤ) := by rw [← zpow_add₀ two_ne_zero, ← zpow_one_add₀ two_ne_zero]; norm_num
    obtain ⟨s, hs, -, hs'⟩ := t.eval_bounded R E hu q (two_zpow_pos 800).le (mp 850 (by norm_num) (by norm_num))
      (fun l hl => (hq l (hin l hl)).2.2) (fun l hl => (hq l (hin l hl)).2.1) hbound
    exact ⟨s, hs, hs'.trans hbound⟩
  obtain ⟨X, hX, bX⟩ := hsum order ho x x hx hx
  obtain ⟨Y, hY, bY⟩ := hsum order ho y y hy hy
  obtain ⟨D, hD, bD⟩ := hsum order' ho' x y hx hy
  have h851 : (2 : ℝ) ^ (851 : ℤ) = 2 * 2 ^ (850 : ℤ) := by rw [← zpow_one_add₀ two_ne_zero]; norm_num
  have h852 : (2 : ℝ) ^ (852 : ℤ) = 2 * 2 ^ (851 : ℤ) := by rw [← zpow_one_add₀ two_ne_zero]; norm_num
  have h400 : (2 : ℝ) ^ (852 : ℤ) = 2 ^ (426 : ℤ) * 2 ^ (426 : ℤ) := by rw [← zpow_add₀ two_ne_zero]; norm_num
  have m851 := mp 851 (by norm_num) (by norm_num)
  have m852 := mp 852 (by norm_num) (by norm_num)
  have m426 := mp 426 (by norm_num) (by norm_num)
  have q0 : (0 : ℝ) ≤ 2 ^ (850 : ℤ) := (two_zpow_pos _).le
  have h426 : (0 : ℝ) ≤ 2 ^ (426 : ℤ) := (two_zpow_pos _).le
  rw [h852, h851] at m852 h400
  rw [h851] at m851
  clear h851 h852 hsum
  generalize (2 : ℝ) ^ (850 : ℤ) = q at *
  generalize (2 : ℝ) ^ (426 : ℤ) = q' at *
  obtain ⟨A, hA, bA, -⟩ := R.abs_between m851 (x := X + Y) ((abs_add_le _ _).trans (by linarith))
  obtain ⟨P, hP, bP, -⟩ := R.abs_between m851 (x := 2 * D) (by rw [abs_mul, abs_two]; linarith)
  obtain ⟨C, hC, bC, -⟩ := R.abs_between m852 (x := A - P) ((abs_sub _ _).trans (by linarith))
  have hDt : treeDot float64 order' x y = fin D := hD
  obtain ⟨c, hc, c0, cb⟩ : ∃ c, csmSquareF float64 order (treeDot float64 order') x y = fin c ∧ 0 ≤ c ∧ c ≤ 2 * (2 * q) := by
    unfold csmSquareF
    rw [hDt]
    simp only [fin_mul, round_fin, hX, hY, fin_add, hA, hP, fin_sub, hC, Fl.zero_def, lt_fin]
    by_cases h : C < 0
    · exact ⟨0, by simp [h], le_rfl, by linarith⟩
    · exact ⟨C, by simp [h], not_lt.1 h, (le_abs_self C).trans bC⟩
  have err := C100_square_error_tree R E hu heta order order' ho ho' x y hDt (by rw [hP]; simp) hc
  have hsq : Real.sqrt c ≤ q' := by
    rw [Real.sqrt_le_left h426, sq, ← h400]; exact cb
  obtain ⟨v, hv, v0, -, -⟩ := R.between R.zero m426 (Real.sqrt_nonneg c) hsq
  have ev := E.all _ _ hv
  refine ⟨v, ?_, v0, ?_⟩
  · unfold getCsmF; rw [hc]; simp only [Fl.sqrtF, not_lt.2 c0, if_false, hv]
  have hT0 : 0 ≤ ∑ k ∈ range d, (x k - y k) ^ 2 := Finset.sum_nonneg fun k _ => sq_nonneg _
  have hS0 : 0 ≤ ∑ k ∈ range d, x k ^ 2 + ∑ k ∈ range d, y k ^ 2 :=
    add_nonneg (Finset.sum_nonneg fun k _ => sq_nonneg _) (Finset.sum_nonneg fun k _ => sq_nonneg _)
  have hbig : |c - ∑ k ∈ range d, (x k - y k) ^ 2| ≤
      (d + 2) * 2 ^ (-51 : ℤ) * (∑ k ∈ range d, x k ^ 2 + ∑ k ∈ range d, y k ^ 2) + d * 2 ^ (-1072 : ℤ) := by
    refine err.trans (add_le_add ?_ ?_)
    · apply mul_le_mul_of_nonneg_right _ hS0
      have := one_add_pow_le hu _ hdu
      have h51 : (2 : ℝ) ^ (-51 : ℤ) = 4 * 2 ^ (-53 : ℤ) := by norm_num
      rw [h51]; push_cast at this ⊢; linarith
    · have h1072 : (2 : ℝ) ^ (-1072 : ℤ) = 8 * 2 ^ (-1075 : ℤ) := by
        rw [show (8 : ℝ) = 2 ^ (3 : ℤ) by norm_num, ← zpow_add₀ two_ne_zero]; norm_num
      rw [h1072]
      have h2 := hpow (d + 1) (by omega)
      have h3 : (0 : ℝ) ≤ 4 * d := by positivity
      have h4 := mul_le_mul_of_nonneg_right (mul_le_mul_of_nonneg_left h2 h3) heta
      generalize (2 : ℝ) ^ (-1075 : ℤ) = eta at *
      linarith
  generalize (d + 2) * (2 : ℝ) ^ (-51 : ℤ) * (∑ k ∈ range d, x k ^ 2 + ∑ k ∈ range d, y k ^ 2) + d * 2 ^ (-1072 : ℤ) = Z at *
  generalize ∑ k ∈ range d, (x k - y k) ^ 2 = T at *
  have hZ0 : 0 ≤ Z := (abs_nonneg _).trans hbig
  have hadd : ∀ a b : ℝ, 0 ≤ a → 0 ≤ b → Real.sqrt (a + b) ≤ Real.sqrt a + Real.sqrt b := by
    intro a b ha hb
    rw [Real.sqrt_le_left (add_nonneg (Real.sqrt_nonneg _) (Real.sqrt_nonneg _)), add_sq, Real.sq_sqrt ha, Real.sq_sqrt hb]
    have := mul_nonneg (Real.sqrt_nonneg a) (Real.sqrt_nonneg b)
    linarith
  have hs : |Real.sqrt c - Real.sqrt T| ≤ Real.sqrt Z := by
    rw [abs_le] at hbig ⊢
    have a1 : Real.sqrt T ≤ Real.sqrt c + Real.sqrt Z :=
      (Real.sqrt_le_sqrt (by linarith : T ≤ c + Z)).trans (hadd _ _ c0 hZ0)
    have a2 : Real.sqrt c ≤ Real.sqrt T + Real.sqrt Z :=
      (Real.sqrt_le_sqrt (by linarith : c ≤ T + Z)).trans (hadd _ _ hT0 hZ0)
    constructor <;> linarith
  rw [abs_of_nonneg (Real.sqrt_nonneg c)] at ev
  have b1 := abs_sub_le v (Real.sqrt c) (Real.sqrt T)
  have b2 : Real.sqrt c ≤ Real.sqrt T + Real.sqrt Z := by have := (abs_le.1 hs).2; linarith
  have b3 := mul_le_mul_of_nonneg_left b2 hu
  generalize (2 : ℝ) ^ (-1075 : ℤ) = eta at *
  linarith

/-- The hypotheses hold for the points `(3, 4)` and `(0, 0)`, with different orders of summation: the computed distance is 5 up
to the error bound. -/
example : ∃ v, getCsmF float64 (.node (.leaf 0) (.leaf 1)) (treeDot float64 (.node (.leaf 1) (.leaf 0)))
      (fun k => if k = 0 then 3 else 4) (fun _ => 0) = fin v ∧ 0 ≤ v ∧
    |v - 5| ≤ 2 ^ (-53 : ℤ) * 5 + (1 + 2 ^ (-53 : ℤ)) * Real.sqrt (100 * 2 ^ (-51 : ℤ) + 2 * 2 ^ (-1072 : ℤ)) + 2 ^ (-1075 : ℤ) := by
  have big : (4 : ℝ) ≤ 2 ^ (400 : ℤ) := by
    calc (4 : ℝ) = 2 ^ (2 : ℤ) := by norm_num
      _ ≤ 2 ^ (400 : ℤ) := zpow_le_zpow_right₀ one_le_two (by norm_num)
  obtain ⟨v, hv, v0, h⟩ := C100_float64_distance_error (.node (.leaf 0) (.leaf 1)) (.node (.leaf 1) (.leaf 0)) (d := 2)
    (by decide) (by decide) (by norm_num) (fun k => if k = 0 then 3 else 4) (fun _ => 0)
    (by intro k _; split_ifs; exacts [by rw [abs_of_nonneg (by norm_num)]; exact le_trans (by norm_num) big, by rw [abs_of_nonneg (by norm_num)]; exact big])
    (by intro k _; simp)
  refine ⟨v, hv, v0, ?_⟩
  have h25 : Real.sqrt 25 = 5 := by rw [show (25 : ℝ) = 5 ^ 2 by norm_num, Real.sqrt_sq (by norm_num)]
  have e1 : ∑ k ∈ range 2, (((if k = 0 then 3 else 4 : ℝ)) - 0) ^ 2 = 25 := by simp [Finset.sum_range_succ]; norm_num
  have e2 : ∑ k ∈ range 2, ((if k = 0 then 3 else 4 : ℝ)) ^ 2 = 25 := by simp [Finset.sum_range_succ]; norm_num
  rw [e1, e2, h25] at h
  refine h.trans (le_of_eq ?_)
  have : ((2 : ℕ) + 2 : ℝ) * 2 ^ (-51 : ℤ) * (25 + ∑ k ∈ range 2, (0 : ℝ) ^ 2) + (2 : ℕ) * 2 ^ (-1072 : ℤ) =
      100 * 2 ^ (-51 : ℤ) + 2 * 2 ^ (-1072 : ℤ) := by
    generalize (2 : ℝ) ^ (-1072 : ℤ) = w
    generalize (2 : ℝ) ^ (-51 : ℤ) = w'
    simp; ring
  rw [this]

end Dreimac
