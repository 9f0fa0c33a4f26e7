import Verif.Spec.Essential
import Verif.Spec.DataLoop

/-! # Lemmas for C132 -/

namespace Dreimac

open Real

variable {p : ℤ} {S : Finset ℕ} {N : ℕ} {δ : ℕ → ℕ → ℝ} {r : ℝ} {E : ℕ → ℕ → Prop} {ξ c : ℕ → ℕ → ℤ}

/-- If the transition functions of locally defined real functions are not a difference, then there is no global function that agrees
with them up to integers and changes by less than a half within each ball. -/
theorem not_unrolled (hE : ∀ u ∈ S, ∀ v ∈ S, E u v → ∃ i < N, δ u i < r ∧ δ v i < r)
    (hcong : ∀ u ∈ S, ∀ v ∈ S, p ∣ c u v - ξ u v) (hnd : ¬ IsDifferenceMod p S E ξ) {L : ℕ → ℕ → ℝ}
    (htrans : ∀ u ∈ S, ∀ v ∈ S, ∀ i < N, δ u i < r → δ v i < r → L u i - L v i = (c u v : ℝ))
    (hstep : ∀ u ∈ S, ∀ i < N, ∀ i' < N, δ u i < r → δ u i' < r → |L u i' - L u i| < 1 / 2) {g : ℕ → ℝ}
    (hg : ∀ u ∈ S, ∀ i < N, δ u i < r → ∃ z : ℤ, L u i - g i = z) :
    ¬ OnCommonBalls S N δ r fun i i' => |g i' - g i| < 1 / 2 := by
  classical
  intro hsmall
  apply hnd
  have hz : ∀ u, ∃ z : ℤ, ∀ i < N, u ∈ S → δ u i < r → L u i - g i = z := by
    intro u
    by_cases h : ∃ i < N, u ∈ S ∧ δ u i < r
    · obtain ⟨i, hi, hu, hd⟩ := h
      obtain ⟨z, hz⟩ := hg u hu i hi hd
      refine ⟨z, fun i' hi' _ hd' => ?_⟩
      obtain ⟨z', hz'⟩ := hg u hu i' hi' hd'
      have h1 := abs_lt.1 (hstep u hu i hi i' hi' hd hd')
      have h2 := abs_lt.1 (hsmall u hu i hi i' hi' hd hd')
      have h3 : (z' : ℝ) < z + 1 := by linarith [h1.2, h2.1]
      have h4 : (z : ℝ) < z' + 1 := by linarith [h1.1, h2.2]
      have h5 : z' < z + 1 := by exact_mod_cast h3
      have h6 : z < z' + 1 := by exact_mod_cast h4
      rw [hz', show z' = z by omega]
    · exact ⟨0, fun i hi hu hd => absurd ⟨i, hi, hu, hd⟩ h⟩
  choose z hz using hz
  refine ⟨fun u => -z u, fun u hu v hv huv => ?_⟩
  obtain ⟨i, hi, h1, h2⟩ := hE u hu v hv huv
  have h3 := htrans u hu v hv i hi h1 h2
  have h4 := hz u i hi hu h1
  have h5 := hz v i hi hv h2
  have h6 : ((z u - z v : ℤ) : ℝ) = (c u v : ℝ) := by push_cast; linarith
  have h7 : z u - z v = c u v := by exact_mod_cast h6
  have h8 := hcong u hu v hv
  rw [show ξ u v - (-z v - -z u) = -(c u v - ξ u v) by omega]
  exact (dvd_neg).2 h8

/-- A walk from `u` to `v` with value `s`. -/
inductive Walk (S : Finset ℕ) (E : ℕ → ℕ → Prop) (ξ : ℕ → ℕ → ℤ) (u : ℕ) : ℕ → ℤ → Prop
  | nil : Walk S E ξ u u 0
  | snoc {v w : ℕ} {s : ℤ} : Walk S E ξ u v s → v ∈ S → w ∈ S → E v w → Walk S E ξ u w (s + ξ v w)

theorem Walk.append {u v w : ℕ} {s t : ℤ} (h : Walk S E ξ u v s) (h' : Walk S E ξ v w t) : Walk S E ξ u w (s + t) := by
  induction h' with
  | nil => simpa using h
  | snoc _ h1 h2 h3 ih => rw [← add_assoc]; exact ih.snoc h1 h2 h3

theorem Walk.reverse (hE : ∀ u ∈ S, ∀ v ∈ S, E u v → E v u) (hx : ∀ u v, ξ v u = -ξ u v) {u v : ℕ} {s : ℤ} (h : Walk S E ξ u v s) :
    Walk S E ξ v u (-s) := by
  induction h with
  | nil => simpa using Walk.nil
  | @snoc v w s _ h1 h2 h3 ih =>
    have := (Walk.nil (S := S) (E := E) (ξ := ξ) (u := w)).snoc h2 h1 (hE _ h1 _ h2 h3)
    have := this.append ih
    rwa [zero_add, hx v w, show -ξ v w + -s = -(s + ξ v w) by ring] at this

theorem Walk.toPath {u v : ℕ} {s : ℤ} (h : Walk S E ξ u v s) : ∃ (n : ℕ) (l : ℕ → ℕ), l 0 = u ∧ l n = v ∧
    (∀ q < n, l q ∈ S ∧ l (q + 1) ∈ S ∧ E (l q) (l (q + 1))) ∧ pathValue ξ n l = s := by
  induction h with
  | nil => exact ⟨0, fun _ => u, rfl, rfl, fun q hq => absurd hq (by omega), by simp [pathValue]⟩
  | @snoc v w s _ h1 h2 h3 ih =>
    obtain ⟨n, l, e1, e2, e3, e4⟩ := ih
    refine ⟨n + 1, fun q => if q ≤ n then l q else w, by simp [e1], by simp, fun q hq => ?_, ?_⟩
    · beta_reduce
      rcases Nat.lt_succ_iff_lt_or_eq.1 hq with hq | rfl
      · rw [if_pos hq.le, if_pos (by omega)]
        exact e3 q hq
      · rw [if_pos le_rfl, if_neg (by omega), e2]
        exact ⟨h1, h2, h3⟩
    · unfold pathValue at e4 ⊢
      rw [Finset.sum_range_succ]
      beta_reduce
      rw [if_pos le_rfl, if_neg (by omega), e2, ← e4]
      congr 1
      refine Finset.sum_congr rfl fun q hq => ?_
      have hq := Finset.mem_range.1 hq
      rw [if_pos hq.le, if_pos (by omega)]

/-- If `ξ` is not a difference, it has a value not divisible by `p` on some closed path. -/
theorem exists_closed_path (hE : ∀ u ∈ S, ∀ v ∈ S, E u v → E v u) (hx : ∀ u v, ξ v u = -ξ u v) (hnd : ¬ IsDifferenceMod p S E ξ) :
    ∃ (n : ℕ) (l : ℕ → ℕ), 0 < n ∧ l n = l 0 ∧ (∀ q < n, l q ∈ S ∧ l (q + 1) ∈ S ∧ E (l q) (l (q + 1))) ∧
      ¬ p ∣ pathValue ξ n l := by
  classical
  by_contra hcon
  push Not at hcon
  have hclosed : ∀ u s, Walk S E ξ u u s → p ∣ s := by
    intro u s h
    obtain ⟨n, l, e1, e2, e3, e4⟩ := h.toPath
    rcases Nat.eq_zero_or_pos n with rfl | hn
    · rw [← e4]; simp [pathValue]
    · rw [← e4]; exact hcon n l hn (by rw [e1, e2]) e3
  apply hnd
  let R : Setoid ℕ := ⟨fun u v => ∃ s, Walk S E ξ u v s, fun u => ⟨0, .nil⟩, fun ⟨s, h⟩ => ⟨-s, h.reverse hE hx⟩,
    fun ⟨s, h⟩ ⟨t, h'⟩ => ⟨s + t, h.append h'⟩⟩
  let root : ℕ → ℕ := fun u => (Quotient.mk R u).out
  have hroot : ∀ u, ∃ s, Walk S E ξ (root u) u s := fun u => Quotient.exact (Quotient.out_eq (Quotient.mk R u))
  choose g hg using hroot
  refine ⟨g, fun u hu v hv huv => ?_⟩
  have hs : Walk S E ξ u v (0 + ξ u v) := Walk.nil.snoc hu hv huv
  have hr : root u = root v := congrArg Quotient.out (Quotient.sound (s := R) ⟨_, hs⟩)
  have h1 := ((hg u).append hs).append ((hg v).reverse hE hx)
  rw [← hr] at h1
  have := hclosed _ _ h1
  rwa [show g u + (0 + ξ u v) + -g v = ξ u v - (g v - g u) by ring] at this

/-- A path of landmarks with common points in the balls of consecutive ones is accompanied by a path of data points. -/
theorem exists_dataLoop (hE : ∀ u ∈ S, ∀ v ∈ S, E u v → ∃ i < N, δ u i < r ∧ δ v i < r) {n : ℕ} {l : ℕ → ℕ} (hn : 0 < n)
    (hc : l n = l 0) (hl : ∀ q < n, l q ∈ S ∧ l (q + 1) ∈ S ∧ E (l q) (l (q + 1))) : ∃ i : ℕ → ℕ, DataLoop S N δ r n i l := by
  have hj : ∀ q, ∃ i, q < n → i < N ∧ δ (l q) i < r ∧ δ (l (q + 1)) i < r := by
    intro q
    by_cases hq : q < n
    · obtain ⟨i, h⟩ := hE _ (hl q hq).1 _ (hl q hq).2.1 (hl q hq).2.2
      exact ⟨i, fun _ => h⟩
    · exact ⟨0, fun h => absurd h hq⟩
  choose j hj using hj
  refine ⟨fun q => if q = 0 then j (n - 1) else j (q - 1), hn, ?_, hc, fun q hq => ?_, fun q hq => (hl q hq).1, fun q hq => ?_,
    fun q hq => ?_⟩
  · simp [hn.ne']
  · rcases Nat.eq_zero_or_pos q with rfl | h0
    · simpa using (hj (n - 1) (by omega)).1
    · simpa [h0.ne'] using (hj (q - 1) (by omega)).1
  · rcases Nat.eq_zero_or_pos q with rfl | h0
    · have := (hj (n - 1) (by omega)).2.2
      rw [show n - 1 + 1 = n by omega, hc] at this
      simpa using this
    · have := (hj (q - 1) (by omega)).2.2
      rw [show q - 1 + 1 = q by omega] at this
      simpa [h0.ne'] using this
  · simpa using (hj q hq).2.1

end Dreimac
