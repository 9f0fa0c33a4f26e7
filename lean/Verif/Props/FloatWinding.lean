import Verif.Spec.FloatTurns
import Verif.Spec.Winding
import Verif.Props.SparseIntegrateFloat

/-!
# C116: winding numbers of circular coordinates in floating point arithmetic
-/

namespace Dreimac

open Fl

section
variable {K : Type} [Field K] [LinearOrder K] [IsStrictOrderedRing K] [FloorRing K]
variable {E : Type} [LinearOrder E]

theorem shortStep_of_close {tau x y s : K} (ht : 0 < tau) (k : ℤ) (h1 : y - x = tau * (s - k)) (h2 : |s| < 1 / 2) :
    shortStep tau x y = y - x + tau * k := by
  unfold shortStep
  have : round ((y - x) / tau) = -k := by
    rw [h1, mul_div_cancel_left₀ _ ht.ne', round_eq, Int.floor_eq_iff]
    rw [abs_lt] at h2
    push_cast
    constructor <;> linarith
  rw [this]; push_cast; ring

/-- Angles that are, up to an error, the values of local lifts with integer transitions turn around as often as the transitions
say. -/
theorem turnsOf_lifts {tau : K} (ht : 0 < tau) (n : ℕ) (y : ℕ → K) (S S' : ℕ → K) (k k' : ℕ → ℤ) (ε : K)
    (here : ∀ q < n, |y q - tau * (S q - k q)| ≤ ε * tau) (next : ∀ q < n, |y (q + 1) - tau * (S' q - k' q)| ≤ ε * tau)
    (hs : ∀ q < n, |S' q - S q| + 2 * ε < 1 / 2) (hy : y n = y 0) (hk : k n = k 0) :
    turnsOf tau n y = ((∑ q ∈ Finset.range n, (k' q - k (q + 1)) : ℤ) : K) := by
  have hstep : ∀ q ∈ Finset.range n, shortStep tau (y q) (y (q + 1)) = y (q + 1) - y q + tau * ((k' q - k q : ℤ) : K) := by
    intro q hq
    have hq := Finset.mem_range.1 hq
    refine shortStep_of_close ht (k' q - k q) (s := (y (q + 1) - y q) / tau + (k' q - k q : ℤ)) ?_ ?_
    · field_simp; push_cast; ring
    · have e1 : |y q / tau - (S q - k q)| ≤ ε := by
        have : y q / tau - (S q - k q) = (y q - tau * (S q - k q)) / tau := by field_simp
        rw [this, abs_div, abs_of_pos ht, div_le_iff₀ ht]; exact here q hq
      have e2 : |y (q + 1) / tau - (S' q - k' q)| ≤ ε := by
        have : y (q + 1) / tau - (S' q - k' q) = (y (q + 1) - tau * (S' q - k' q)) / tau := by field_simp
        rw [this, abs_div, abs_of_pos ht, div_le_iff₀ ht]; exact next q hq
      have e3 : (y (q + 1) - y q) / tau + ((k' q - k q : ℤ) : K) =
          (y (q + 1) / tau - (S' q - k' q)) + -(y q / tau - (S q - k q)) + (S' q - S q) := by
        rw [sub_div]; push_cast; ring
      rw [e3]
      refine lt_of_le_of_lt (abs_add_three _ _ _) ?_
      rw [abs_neg]
      have := hs q hq
      linarith
  unfold turnsOf
  rw [Finset.sum_congr rfl hstep, Finset.sum_add_distrib, Finset.sum_range_sub, hy, sub_self, zero_add, ← Finset.mul_sum,
    mul_div_cancel_left₀ _ ht.ne', ← Int.cast_sum]
  congr 1
  have : ∑ q ∈ Finset.range n, (k' q - k q) = ∑ q ∈ Finset.range n, (k' q - k (q + 1)) + ∑ q ∈ Finset.range n, (k (q + 1) - k q) := by
    rw [← Finset.sum_add_distrib]; exact Finset.sum_congr rfl fun q _ => by ring
  rw [this, Finset.sum_range_sub, hk, sub_self, add_zero]

/-- **C116.** In `float64`: along every closed path of covered data points with consecutive points in the ball of a landmark, the
computed coordinates turn around the circle exactly as often as the cocycle says, if over each ball the lift changes by less than
half a turn (less a rounding allowance) between consecutive points.  The length of the path does not matter. -/
theorem C116_winding_in_floating_point (order order' : SumTree) (L N : ℕ) (hL : 0 < L) (hL' : L ≤ 65536)
    (ho : order.leaves.Perm (List.range L)) (ho' : order'.leaves.Perm (List.range L)) (dist : ℕ → ℕ → K)
    (hd : ∀ l i, 0 ≤ dist l i) (hm : ∀ l i, Machine float64 (dist l i)) (r : K) (bump : Fl K → Fl K → Fl K)
    (hb : FloatBump float64 bump r) (hbb : ∀ d v, 0 ≤ d → d < r → bump (fin d) (fin r) = fin v → v ≤ 2 ^ (900 : ℤ))
    (dll : ℕ → ℕ → E) (thr : E) (T D : ℕ) (hT : L ≤ T) (hD : 1 ≤ D) (c : ℕ → ℤ) (hc : IsCocycle1 L dll thr c)
    (f : ℕ → K) (mf : ∀ l, Machine float64 (f l)) (A : K) (hA : 1 ≤ A) (hA' : A ≤ 2 ^ (900 : ℤ))
    (hfA : ∀ l, |f l| ≤ A) (hcA : ∀ e, |(c e : K)| ≤ A) (tau : K) (ht : 1 ≤ tau) (ht' : tau ≤ 8) (mt : Machine float64 tau)
    (hnerve : ∀ i l m, l < m → m < L → dist l i < r → dist m i < r → dll l m < thr) :
    ∃ C delta0, getCoveringPartitionF float64 order L N (fun l i => fin (dist l i)) (fin r) bump = .ok C ∧
      makeDelta0 L dll thr (cnsTable T D) = .ok delta0 ∧
      ∀ (n : ℕ) (i l : ℕ → ℕ), i n = i 0 → l n = l 0 → (∀ q ≤ n, ∃ m < L, C.varphi m (i q) ≠ nan) →
        (∀ q < n, l q < L ∧ dist (l q) (i q) < r ∧ dist (l q) (i (q + 1)) < r) →
        ∃ (y : ℕ → K) (w : ℕ → ℕ → K), (∀ q ≤ n, ∀ m < L, C.varphi m (i q) = fin (w q m)) ∧
          (∀ q ≤ n, sparseIntegrateF float64 tau order' (harmRepF float64 c delta0 fun l => fin (f l)) (fun l => fin (f l)) C L dll thr
            (cnsTable T D) (i q) = fin (y q)) ∧
          ((∀ q < n, |∑ m ∈ Finset.range L, (f m + (edgeVal c (l q) m : ℤ)) * w (q + 1) m -
              ∑ m ∈ Finset.range L, (f m + (edgeVal c (l q) m : ℤ)) * w q m| + 2 * ((20 * L + 51) * A * 2 ^ (-53 : ℤ)) < 1 / 2) →
            turnsOf tau n y = (loopVal c n l : ℤ)) := by
  obtain ⟨C, delta0, hC, hdel, h⟩ := C115_class_in_floating_point order order' L N hL hL' ho ho' dist hd hm r bump hb hbb dll thr T D hT hD
    c hc f mf A hA hA' hfA hcA tau ht ht' mt
  refine ⟨C, delta0, hC, hdel, fun n i l hin hln hcov hball => ?_⟩
  have hex : ∀ p, ∃ (y : K) (w : ℕ → K) (k : ℕ → ℤ), (∃ m < L, C.varphi m p ≠ nan) →
      (∀ l < L, C.varphi l p = fin (w l)) ∧
      sparseIntegrateF float64 tau order' (harmRepF float64 c delta0 fun l => fin (f l)) (fun l => fin (f l)) C L dll thr
            (cnsTable T D) p = fin y ∧
      (∀ l m, l < L → m < L → dist l p < r → dist m p < r → k l - k m = edgeVal c l m) ∧
      ∀ l < L, dist l p < r → |y - tau * (∑ m ∈ Finset.range L, (f m + (edgeVal c l m : ℤ)) * w m - k l)| ≤
        (20 * L + 51) * A * 2 ^ (-53 : ℤ) * tau := by
    intro p
    by_cases hp : ∃ m < L, C.varphi m p ≠ nan
    · obtain ⟨y, w, h1, h2, -, -, k, h3, h4⟩ := h p hp (hnerve p)
      exact ⟨y, w, k, fun _ => ⟨h1, h2, h3, h4⟩⟩
    · exact ⟨0, 0, 0, fun hp' => absurd hp' hp⟩
  choose y w k hk using hex
  refine ⟨fun q => y (i q), fun q => w (i q), fun q hq => (hk _ (hcov q hq)).1, fun q hq => (hk _ (hcov q hq)).2.1, fun hs => ?_⟩
  rw [turnsOf_lifts (by linarith) n (fun q => y (i q))
    (fun q => ∑ m ∈ Finset.range L, (f m + (edgeVal c (l q) m : ℤ)) * w (i q) m)
    (fun q => ∑ m ∈ Finset.range L, (f m + (edgeVal c (l q) m : ℤ)) * w (i (q + 1)) m)
    (fun q => k (i q) (l q)) (fun q => k (i (q + 1)) (l q)) ((20 * L + 51) * A * 2 ^ (-53 : ℤ))
    (fun q hq => (hk _ (hcov q hq.le)).2.2.2 _ (hball q hq).1 (hball q hq).2.1)
    (fun q hq => (hk _ (hcov (q + 1) hq)).2.2.2 _ (hball q hq).1 (hball q hq).2.2) hs (by simp only [hin]) (by simp only [hin, hln])]
  congr 1
  unfold loopVal
  refine Finset.sum_congr rfl fun q hq => ?_
  have hq := Finset.mem_range.1 hq
  have hnext : l (q + 1) < L ∧ dist (l (q + 1)) (i (q + 1)) < r := by
    rcases Nat.lt_or_ge (q + 1) n with h' | h'
    · exact ⟨(hball _ h').1, (hball _ h').2.1⟩
    · have e : q + 1 = n := by omega
      rw [e, hln, hin]
      exact ⟨(hball 0 (by omega)).1, (hball 0 (by omega)).2.1⟩
  exact (hk _ (hcov (q + 1) hq)).2.2.1 _ _ (hball q hq).1 hnext.1 (hball q hq).2.2 hnext.2

end

end Dreimac
