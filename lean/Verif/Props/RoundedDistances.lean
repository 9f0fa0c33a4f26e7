import Verif.Props.FloatRadius
import Verif.Props.FloatWinding

/-!
# C120: rounding the distances keeps the balls compatible with the Rips complex
-/

namespace Dreimac

open Fl

section
variable {K : Type} [Field K] [LinearOrder K] [IsStrictOrderedRing K] [FloorRing K] {p : ℕ} {emin : ℤ}

/-- Doubling a number that is not subnormal increases its exponent by one. -/
theorem expo_double {x : K} (h : 2 ^ emin ≤ |x|) : expo emin (2 * x) = expo emin x + 1 := by
  have h0 : x ≠ 0 := by rintro rfl; rw [abs_zero] at h; exact absurd (two_zpow_pos (K := K) emin) (not_lt.2 h)
  have hx := abs_pos.2 h0
  have h2 : |2 * x| = 2 * |x| := by rw [abs_mul, abs_of_pos (zero_lt_two (α := K))]
  have key : Int.log 2 (2 * |x|) = Int.log 2 |x| + 1 := by
    apply le_antisymm
    · rw [← Int.lt_add_one_iff, ← Int.lt_zpow_iff_log_lt (by norm_num) (by positivity)]
      have := Int.lt_zpow_succ_log_self (b := 2) (by norm_num) |x|
      push_cast at this ⊢
      rw [zpow_add_one₀ two_ne_zero, mul_comm]
      exact mul_lt_mul_of_pos_right this two_pos
    · rw [← Int.zpow_le_iff_le_log (by norm_num) (by positivity)]
      have := Int.zpow_log_le_self (b := 2) (by norm_num) hx
      push_cast at this ⊢
      rw [zpow_add_one₀ two_ne_zero, mul_comm]
      exact mul_le_mul_of_nonneg_left this two_pos.le
  have hlog : emin ≤ Int.log 2 |x| := (Int.zpow_le_iff_le_log (b := 2) (by norm_num) hx).1 (by exact_mod_cast h)
  unfold expo
  rw [h2, key]
  omega

/-- Rounding commutes with doubling, for numbers that are not subnormal. -/
theorem roundUnbounded_double {x : K} (h : 2 ^ emin ≤ |x|) : roundUnbounded p emin (2 * x) = 2 * roundUnbounded p emin x := by
  have hs : spacing p emin (2 * x) = 2 * spacing p emin x := by
    rw [spacing_eq, spacing_eq, expo_double h, ← zpow_one_add₀ two_ne_zero]
    congr 1; ring
  have hp := spacing_pos (p := p) (emin := emin) x
  unfold roundUnbounded
  rw [hs, mul_div_mul_left _ _ two_ne_zero]
  ring

/-- **C120.** Let the distances be the correctly rounded values of numbers that satisfy the triangle inequality.  Then two balls of
radius `r` with a common data point have centres at (rounded) distance less than `2 * r`: rounding the distances never leads to a data
point that is in two balls whose centres are not joined by an edge. -/
theorem C120_nerve (δ δll dist dll : ℕ → ℕ → K) (r : K) (hbig : 2 ^ (-1021 : ℤ) ≤ r)
    (hδ : ∀ l i, 0 ≤ δ l i) (htri : ∀ i l m, δll l m ≤ δ l i + δ m i)
    (hdist : ∀ l i, float64 (δ l i) = fin (dist l i)) (hdll : ∀ l m, float64 (δll l m) = fin (dll l m)) :
    ∀ i l m, dist l i < r → dist m i < r → dll l m < 2 * r := by
  intro i l m h1 h2
  obtain ⟨e, -⟩ := binary_fin (hdll l m)
  -- the larger of the two distances
  obtain ⟨x, y, hx, hxy, hyr, hle⟩ : ∃ x y, 0 ≤ x ∧ roundUnbounded 53 (-1022) x = y ∧ y < r ∧ δll l m ≤ 2 * x := by
    rcases le_total (δ l i) (δ m i) with h | h
    · exact ⟨δ m i, dist m i, hδ m i, ((binary_fin (hdist m i)).1).symm, h2, by linarith [htri i l m]⟩
    · exact ⟨δ l i, dist l i, hδ l i, ((binary_fin (hdist l i)).1).symm, h1, by linarith [htri i l m]⟩
  rw [e]
  refine lt_of_le_of_lt (roundUnbounded_mono (by norm_num) hle) ?_
  by_cases hnorm : (2 : K) ^ (-1022 : ℤ) ≤ x
  · rw [roundUnbounded_double (by rwa [abs_of_nonneg hx]), hxy]
    linarith
  · have hlt : 2 * x ≤ 2 ^ (-1021 : ℤ) := by
      have : (2 : K) ^ (-1021 : ℤ) = 2 * 2 ^ (-1022 : ℤ) := by rw [← zpow_one_add₀ two_ne_zero]; norm_num
      rw [this]; linarith [not_le.1 hnorm]
    refine lt_of_le_of_lt (roundUnbounded_mono (by norm_num) hlt) ?_
    have hself : roundUnbounded 53 (-1022) ((2 : K) ^ (-1021 : ℤ)) = 2 ^ (-1021 : ℤ) := by
      refine roundUnbounded_of_form (by norm_num) (m := 1) (e := -969) (by norm_num) ?_ ?_
      · norm_num
      · rw [abs_of_pos (two_zpow_pos _)]; exact zpow_le_zpow_right₀ one_le_two (by norm_num)
    rw [hself]
    have := two_zpow_pos (K := K) (-1021)
    linarith

/-- **C120 (winding numbers).** C116 for a distance matrix with correctly rounded entries and the radius computed by
`get_cover_radius` in floating point: along every closed path of covered data points the computed coordinates turn around the circle
exactly as often as the cocycle says, if over each ball the lift changes by less than half a turn (less a rounding allowance) between
consecutive points. -/
theorem C120_winding (perc birth death : Fl K) (std : Bool) (r thr : K)
    (hrad : getCoverRadiusF float64 perc birth death std = .ok (fin r, fin thr)) (hbig : 2 ^ (-1020 : ℤ) ≤ thr)
    (order order' : SumTree) (L N : ℕ) (hL : 0 < L) (hL' : L ≤ 65536)
    (ho : order.leaves.Perm (List.range L)) (ho' : order'.leaves.Perm (List.range L)) (δ : ℕ → ℕ → K) (land : ℕ → ℕ)
    (hδ : ∀ u i, 0 ≤ δ u i) (htri : ∀ u v i, δ u v ≤ δ u i + δ v i)
    (dist : ℕ → ℕ → K) (hdist : ∀ l i, float64 (δ (land l) i) = fin (dist l i)) (bump : Fl K → Fl K → Fl K)
    (hb : FloatBump float64 bump r) (hbb : ∀ d v, 0 ≤ d → d < r → bump (fin d) (fin r) = fin v → v ≤ 2 ^ (900 : ℤ))
    (T D : ℕ) (hT : L ≤ T) (hD : 1 ≤ D) (c : ℕ → ℤ) (hc : IsCocycle1 L (fun l m => dist l (land m)) thr c)
    (f : ℕ → K) (mf : ∀ l, Machine float64 (f l)) (A : K) (hA : 1 ≤ A) (hA' : A ≤ 2 ^ (900 : ℤ))
    (hfA : ∀ l, |f l| ≤ A) (hcA : ∀ e, |(c e : K)| ≤ A) (tau : K) (ht : 1 ≤ tau) (ht' : tau ≤ 8) (mt : Machine float64 tau) :
    ∃ C delta0, getCoveringPartitionF float64 order L N (fun l i => fin (dist l i)) (fin r) bump = .ok C ∧
      makeDelta0 L (fun l m => dist l (land m)) thr (cnsTable T D) = .ok delta0 ∧
      ∀ (n : ℕ) (i l : ℕ → ℕ), i n = i 0 → l n = l 0 → (∀ q ≤ n, ∃ m < L, C.varphi m (i q) ≠ nan) →
        (∀ q < n, l q < L ∧ dist (l q) (i q) < r ∧ dist (l q) (i (q + 1)) < r) →
        ∃ (y : ℕ → K) (w : ℕ → ℕ → K), (∀ q ≤ n, ∀ m < L, C.varphi m (i q) = fin (w q m)) ∧
          (∀ q ≤ n, sparseIntegrateF float64 tau order' (harmRepF float64 c delta0 fun l => fin (f l)) (fun l => fin (f l)) C L
            (fun l m => dist l (land m)) thr (cnsTable T D) (i q) = fin (y q)) ∧
          ((∀ q < n, |∑ m ∈ Finset.range L, (f m + (edgeVal c (l q) m : ℤ)) * w (q + 1) m -
              ∑ m ∈ Finset.range L, (f m + (edgeVal c (l q) m : ℤ)) * w q m| + 2 * ((20 * L + 51) * A * 2 ^ (-53 : ℤ)) < 1 / 2) →
            turnsOf tau n y = (loopVal c n l : ℤ)) := by
  have hpos : (0 : K) < thr := lt_of_lt_of_le (two_zpow_pos _) hbig
  have hbig' : (2 : K) ^ (-1021 : ℤ) ≤ |thr| := by
    rw [abs_of_pos hpos]; exact (zpow_le_zpow_right₀ one_le_two (by norm_num)).trans hbig
  have hr := (C99_radius_is_half_the_threshold perc birth death std (fin r) thr hrad hbig').1
  injection hr with hr
  have hr1 : (2 : K) ^ (-1021 : ℤ) ≤ r := by
    have : (2 : K) ^ (-1020 : ℤ) = 2 * 2 ^ (-1021 : ℤ) := by rw [← zpow_one_add₀ two_ne_zero]; norm_num
    rw [hr]; rw [this] at hbig; linarith
  have hthr : thr = 2 * r := by rw [hr]; ring
  refine C116_winding_in_floating_point order order' L N hL hL' ho ho' dist ?_ ?_ r bump hb hbb (fun l m => dist l (land m)) thr T D hT hD c
    hc f mf A hA hA' hfA hcA tau ht ht' mt ?_
  · intro l i
    rw [(binary_fin (hdist l i)).1]
    exact roundUnbounded_nonneg (hδ _ _)
  · exact fun l i => rounding_float64.idem _ _ (hdist l i)
  · intro i l m _ _ h1 h2
    rw [hthr]
    exact C120_nerve (fun l i => δ (land l) i) (fun l m => δ (land l) (land m)) dist (fun l m => dist l (land m)) r hr1
      (fun _ _ => hδ _ _) (fun i l m => htri _ _ _) hdist (fun l m => hdist l (land m)) i l m h1 h2

end
end Dreimac
