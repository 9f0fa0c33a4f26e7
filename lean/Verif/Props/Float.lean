import Mathlib.Data.Rat.Floor
import Mathlib.Data.Set.Card
import Mathlib.Algebra.Order.BigOperators.Ring.Finset
import Verif.Lemmas.Float
import Verif.Props.EMCoords

/-!
# C96, C97: the partition of unity in floating point arithmetic
-/

namespace Dreimac

open Fl

section
variable {K : Type} [Field K] [LinearOrder K] [IsStrictOrderedRing K]

/-- A bump function whose values at machine numbers inside the ball are finite and non-negative. -/
def FloatBump (rnd : K → Fl K) (bump : Fl K → Fl K → Fl K) (r : K) : Prop :=
  ∀ d, Machine rnd d → 0 ≤ d → d < r → ∃ v, bump (fin d) (fin r) = fin v ∧ 0 ≤ v ∧ Machine rnd v

/-- The exact value of the computed weight (for a finite weight). -/
def Fl.toK : Fl K → K
  | .fin x => x
  | _ => 0

/-- With exact arithmetic (`rnd = fin`) the rounded functions are the functions of the exact model. -/
theorem float_model_exact [FloorRing K] (perc birth death : Fl K) (std : Bool) (d r : Fl K) (dist : ℕ → ℕ → Fl K)
    (bump : Fl K → Fl K → Fl K) (L N : ℕ) (order : SumTree)
    (ho : ∀ f : ℕ → Fl K, order.eval fin f = flSum ((List.range L).map f)) :
    getCoverRadiusF fin perc birth death std = getCoverRadius perc birth death std ∧
    bumpLinearF fin d r = bumpLinear d r ∧ bumpQuadraticF fin d r = bumpQuadratic d r ∧
    getCoveringPartitionF fin order L N dist r bump = getCoveringPartition .float L N dist r bump := by
  refine ⟨?_, ?_, ?_, ?_⟩
  · unfold getCoverRadiusF getCoverRadius; simp only [round_exact]
  · unfold bumpLinearF bumpLinear; rw [round_exact]
  · unfold bumpQuadraticF bumpQuadratic; simp only [round_exact]
  · unfold getCoveringPartitionF getCoveringPartition
    simp only [round_exact, ho, DType.cast]
    rw [if_neg (by simp : ¬ (_ ∧ DType.float = DType.int))]
    rfl

variable {rnd : K → Fl K}

theorem floatBump_linear (R : Rounding rnd) {r : K} (hr : Machine rnd r) : FloatBump rnd (bumpLinearF rnd) r := by
  intro d _ h0 h
  obtain ⟨y, hy, y0, -, my⟩ := R.between R.zero hr (by linarith : 0 ≤ r - d) (by linarith)
  exact ⟨y, by unfold bumpLinearF; rw [fin_sub, round_fin, hy], y0, my⟩

theorem bumpLinearF_le (R : Rounding rnd) {r : K} (hr : Machine rnd r) (d v : K) (h0 : 0 ≤ d)
    (hv : bumpLinearF rnd (fin d) (fin r) = fin v) : v ≤ r := by
  unfold bumpLinearF at hv
  rw [fin_sub, round_fin] at hv
  have := R.mono (r - d) r (by linarith)
  rw [hv, hr] at this
  exact this

theorem floatBump_quadratic (R : Rounding rnd) {r : K} (hr : Machine rnd r) (h2 : rnd (r * r) ≠ pinf) :
    FloatBump rnd (bumpQuadraticF rnd) r := by
  intro d _ h0 h
  obtain ⟨y, hy, y0, yr, my⟩ := R.between R.zero hr (by linarith : 0 ≤ r - d) (by linarith)
  have hle : y * y ≤ r * r := by nlinarith
  have hm := R.mono _ _ hle
  rcases R.nonneg (mul_nonneg y0 y0) with hp | ⟨v, v0, hv, mv⟩
  · rw [hp] at hm
    rcases R.nonneg (mul_self_nonneg r) with hq | ⟨w, w0, hw, mw⟩
    · exact absurd hq h2
    · rw [hw] at hm; exact absurd hm (by simp [Fl.Le])
  · exact ⟨v, by unfold bumpQuadraticF; simp only [fin_sub, round_fin, hy, fin_mul, hv], v0, mv⟩

/-- The intermediate arrays of `get_covering_partition`. -/
theorem coveringF_spec (R : Rounding rnd) (order : SumTree) (L N : ℕ) (hL : 0 < L) (dist : ℕ → ℕ → K)
    (hd : ∀ l i, 0 ≤ dist l i) (hm : ∀ l i, Machine rnd (dist l i)) (r : K) {bump : Fl K → Fl K → Fl K}
    (hb : FloatBump rnd bump r) :
    ∃ (C : Covering K) (phi : ℕ → ℕ → K),
      getCoveringPartitionF rnd order L N (fun l i => fin (dist l i)) (fin r) bump = .ok C ∧
      (∀ l i, 0 ≤ phi l i) ∧ (∀ l i, Machine rnd (phi l i)) ∧
      (∀ l i, dist l i < r → bump (fin (dist l i)) (fin r) = fin (phi l i)) ∧ (∀ l i, r ≤ dist l i → phi l i = 0) ∧
      (∀ l i, C.varphi l i = Fl.round rnd (fin (phi l i) / (if (order.eval rnd fun l => fin (phi l i)).isZero then nan else
        order.eval rnd fun l => fin (phi l i)))) ∧
      C.warning = (let k := (List.range N).countP fun i => (order.eval rnd fun l => fin (phi l i)).isZero
        if 0 < k then some k else none) := by
  classical
  choose v hv v0 vm using hb
  let phi : ℕ → ℕ → K := fun l i => if h : dist l i < r then v (dist l i) (hm l i) (hd l i) h else 0
  have hphi : ∀ l i, (if Fl.lt (fin (dist l i)) (fin r) then bump (fin (dist l i)) (fin r) else 0) = fin (phi l i) := by
    intro l i
    simp only [lt_fin, decide_eq_true_eq]
    by_cases h : dist l i < r
    · rw [if_pos h, hv _ (hm l i) (hd l i) h]; simp [phi, h]
    · rw [if_neg h]; simp [phi, h, Fl.zero_def]
  unfold getCoveringPartitionF
  simp only [hphi]
  rw [if_neg (by omega)]
  refine ⟨_, phi, rfl, ?_, ?_, ?_, ?_, ?_, rfl⟩
  · intro l i
    by_cases h : dist l i < r
    · simp only [phi, h, dite_true]; exact v0 _ _ _ _
    · simp [phi, h]
  · intro l i
    by_cases h : dist l i < r
    · simp only [phi, h, dite_true]; exact vm _ _ _ _
    · simp only [phi, h, dite_false]; exact R.zero
  · intro l i h
    rw [hv _ (hm l i) (hd l i) h]; simp [phi, h]
  · intro l i h; simp [phi, not_lt.2 h]
  · intro l i; rfl

/-- **C96.** In the arithmetic of any number format, with any order of summation: at every data point the weights are all
`nan`, or they are all finite and in `[0, 1]`, and 0 for landmarks whose ball does not contain the point. -/
theorem C96_weights_unit_interval (R : Rounding rnd) (order : SumTree) (L N : ℕ) (hL : 0 < L)
    (ho : ∀ l < L, l ∈ order.leaves) (dist : ℕ → ℕ → K)
    (hd : ∀ l i, 0 ≤ dist l i) (hm : ∀ l i, Machine rnd (dist l i)) (r : K) (bump : Fl K → Fl K → Fl K)
    (hb : FloatBump rnd bump r) :
    ∃ C, getCoveringPartitionF rnd order L N (fun l i => fin (dist l i)) (fin r) bump = .ok C ∧
      ∀ i, (∀ l < L, C.varphi l i = nan) ∨
        ∀ l < L, ∃ w, C.varphi l i = fin w ∧ 0 ≤ w ∧ w ≤ 1 ∧ (r ≤ dist l i → w = 0) := by
  obtain ⟨C, phi, hC, p0, pm, -, pz, hw, -⟩ := coveringF_spec R order L N hL dist hd hm r hb
  refine ⟨C, hC, fun i => ?_⟩
  rcases order.eval_nonneg R (fun l => phi l i) (fun l => p0 l i) (fun l => pm l i) with h | ⟨s, h, ms, s0, hs, -, -⟩
  · right
    intro l _
    refine ⟨0, ?_, le_rfl, zero_le_one, fun _ => rfl⟩
    rw [hw, h]
    show rnd 0 = _
    exact R.zero
  · rcases eq_or_ne s 0 with hs0 | hs0
    · left
      intro l _
      rw [hw, h, hs0]; simp [Fl.isZero]
    · right
      intro l hl
      have hsp : 0 < s := lt_of_le_of_ne s0 (Ne.symm hs0)
      have h1 : phi l i / s ≤ 1 := (div_le_one hsp).2 (hs l (ho l hl))
      have h2 : 0 ≤ phi l i / s := div_nonneg (p0 l i) s0
      obtain ⟨w, ew, w0, w1, -⟩ := R.between R.zero R.one h2 h1
      refine ⟨w, ?_, w0, w1, ?_⟩
      · rw [hw, h]; simp only [Fl.isZero, hs0, decide_false, Bool.false_eq_true, if_false]
        rw [fin_div _ _ hs0, round_fin, ew]
      · intro hr
        rw [pz l i hr, zero_div, R.zero] at ew
        injection ew with ew; exact ew.symm

/-- **C96 (sum).** If the sum of the bump values does not overflow, then the weights of every data point whose weights are not
`nan` add up to 1 up to rounding: with relative error `u` and underflow error `eta` of the format, and `L` landmarks,
`(1 - u) / (1 + u)^(L-1) - L eta ≤ ∑ w ≤ (1 + u) / (1 - u)^(L-1) + L eta`. -/
theorem C96_weights_sum (R : Rounding rnd) {u eta : K} (E : ErrorBound rnd u eta) (hu : 0 ≤ u) (hu1 : u < 1)
    (order : SumTree) (L N : ℕ) (hL : 0 < L)
    (ho : order.leaves.Perm (List.range L)) (dist : ℕ → ℕ → K)
    (hd : ∀ l i, 0 ≤ dist l i) (hm : ∀ l i, Machine rnd (dist l i)) (r : K) (bump : Fl K → Fl K → Fl K)
    (hb : FloatBump rnd bump r) (b B : K) (hB : Machine rnd B) (hbB : (1 + u) ^ (L - 1) * (L * b) ≤ B) (hb0 : 0 ≤ b)
    (hbb : ∀ d v, 0 ≤ d → d < r → bump (fin d) (fin r) = fin v → v ≤ b) :
    ∃ C, getCoveringPartitionF rnd order L N (fun l i => fin (dist l i)) (fin r) bump = .ok C ∧
      ∀ i, (∃ l < L, C.varphi l i ≠ nan) →
        (1 - u) / (1 + u) ^ (L - 1) - L * eta ≤ ∑ l ∈ Finset.range L, (C.varphi l i).toK ∧
        ∑ l ∈ Finset.range L, (C.varphi l i).toK ≤ (1 + u) / (1 - u) ^ (L - 1) + L * eta := by
  obtain ⟨C, phi, hC, p0, pm, pv, pz, hw, -⟩ := coveringF_spec R order L N hL dist hd hm r hb
  refine ⟨C, hC, fun i hi => ?_⟩
  have hlen : order.leaves.length = L := by rw [ho.length_eq, List.length_range]
  have hsum := sum_leaves (fun l => phi l i) ho
  have hpb : ∀ l, phi l i ≤ b := by
    intro l
    rcases lt_or_ge (dist l i) r with h | h
    · exact hbb _ _ (hd l i) h (pv l i h)
    · rw [pz l i h]; exact hb0
  have hover : (1 + u) ^ (order.leaves.length - 1) * (order.leaves.map fun l => phi l i).sum ≤ B := by
    rw [hlen, hsum]
    refine le_trans (mul_le_mul_of_nonneg_left ?_ (pow_nonneg (by linarith) _)) hbB
    calc ∑ l ∈ Finset.range L, phi l i ≤ ∑ _l ∈ Finset.range L, b := Finset.sum_le_sum fun l _ => hpb l
      _ = L * b := by simp
  obtain ⟨s, es, ms, s0, sl, su⟩ := order.eval_error R E hu hu1.le (fun l => phi l i) (fun l => p0 l i)
    (fun l => pm l i) B hB hover
  rw [hlen, hsum] at sl su
  set D := ∑ l ∈ Finset.range L, phi l i with hD
  have hs0 : s ≠ 0 := by
    rintro rfl
    obtain ⟨l, -, hl⟩ := hi
    apply hl
    rw [hw, es]; simp [Fl.isZero]
  have hsp : 0 < s := lt_of_le_of_ne s0 (Ne.symm hs0)
  have hDp : 0 < D := by
    by_contra hc
    have hD0 : D = 0 := le_antisymm (not_lt.1 hc) (Finset.sum_nonneg fun l _ => p0 l i)
    rw [hD0] at su; simp at su; linarith
  have hle : ∀ l ∈ Finset.range L, phi l i ≤ s := by
    intro l hl
    rcases order.eval_nonneg R (fun l => phi l i) (fun l => p0 l i) (fun l => pm l i) with h | ⟨s', h, -, -, hs', -⟩
    · rw [h] at es; exact absurd es (by simp)
    · rw [h] at es; injection es with es; subst es
      exact hs' l (ho.mem_iff.2 (List.mem_range.2 (Finset.mem_range.1 hl)))
  have hterm : ∀ l ∈ Finset.range L, (1 - u) * (phi l i / s) - eta ≤ (C.varphi l i).toK ∧
      (C.varphi l i).toK ≤ (1 + u) * (phi l i / s) + eta := by
    intro l hl
    have h2 : 0 ≤ phi l i / s := div_nonneg (p0 l i) s0
    obtain ⟨w, ew, -⟩ := R.between R.zero R.one h2 ((div_le_one hsp).2 (hle l hl))
    have hx : C.varphi l i = fin w := by
      rw [hw, es]; simp only [Fl.isZero, hs0, decide_false, Bool.false_eq_true, if_false]
      rw [fin_div _ _ hs0, round_fin, ew]
    have he := E.all _ _ ew
    rw [abs_of_nonneg h2, abs_le] at he
    rw [hx]
    show _ ≤ w ∧ w ≤ _
    constructor <;> linarith [he.1, he.2]
  have hsumd : ∑ l ∈ Finset.range L, phi l i / s = D / s := by rw [← Finset.sum_div]
  have hlow : ∑ l ∈ Finset.range L, ((1 - u) * (phi l i / s) - eta) = (1 - u) * (D / s) - L * eta := by
    rw [Finset.sum_sub_distrib, ← Finset.mul_sum, hsumd]; simp
  have hup : ∑ l ∈ Finset.range L, ((1 + u) * (phi l i / s) + eta) = (1 + u) * (D / s) + L * eta := by
    rw [Finset.sum_add_distrib, ← Finset.mul_sum, hsumd]; simp
  have hP : 0 < (1 + u) ^ (L - 1) := pow_pos (by linarith) _
  have hQ : 0 < (1 - u) ^ (L - 1) := pow_pos (by linarith) _
  constructor
  · refine le_trans ?_ (Finset.sum_le_sum fun l hl => (hterm l hl).1)
    rw [hlow]
    have : 1 / (1 + u) ^ (L - 1) ≤ D / s := by
      rw [div_le_div_iff₀ hP hsp]; linarith
    have := mul_le_mul_of_nonneg_left this (by linarith : 0 ≤ 1 - u)
    rw [mul_one_div] at this
    linarith
  · refine le_trans (Finset.sum_le_sum fun l hl => (hterm l hl).2) ?_
    rw [hup]
    have : D / s ≤ 1 / (1 - u) ^ (L - 1) := by
      rw [div_le_div_iff₀ hsp hQ]; linarith
    have := mul_le_mul_of_nonneg_left this (by linarith : 0 ≤ 1 + u)
    rw [mul_one_div] at this
    linarith

/-! ### Which points are lost -/

theorem countP_isZero {L N : ℕ} {dist : ℕ → ℕ → K} {r : K} {g : ℕ → Fl K}
    (h : ∀ i, (g i).isZero = true ↔ ¬ Covered L dist r i) :
    ((List.range N).countP fun i => (g i).isZero) = Set.ncard {i | i < N ∧ ¬ Covered L dist r i} := by
  classical
  have hset : {i | i < N ∧ ¬ Covered L dist r i} =
      (((List.range N).filter fun i => (g i).isZero).toFinset : Set ℕ) := by
    ext i; simp [h i]
  rw [hset, Set.ncard_coe_finset, List.toFinset_card_of_nodup (List.nodup_range.filter _), List.countP_eq_length_filter]

/-- **C97 (partial).** In the arithmetic of any number format with gradual underflow the *linear* bump function loses no point:
the weights of a data point are `nan` exactly if it lies in no ball, and the warning carries the number of these points.
Missing: the quadratic and the exponential bump functions, for which this is false. -/
theorem C97_linear_partial (R : Rounding rnd) (order : SumTree) (L N : ℕ) (hL : 0 < L)
    (ho : order.leaves.Perm (List.range L)) (dist : ℕ → ℕ → K)
    (hd : ∀ l i, 0 ≤ dist l i) (hm : ∀ l i, Machine rnd (dist l i)) (r : K) (hr : Machine rnd r) :
    ∃ C, getCoveringPartitionF rnd order L N (fun l i => fin (dist l i)) (fin r) (bumpLinearF rnd) = .ok C ∧
      (∀ l i, C.varphi l i = nan ↔ ¬ Covered L dist r i) ∧
      (∀ k, C.warning = some k ↔ 0 < k ∧ k = Set.ncard {i | i < N ∧ ¬ Covered L dist r i}) := by
  obtain ⟨C, phi, hC, p0, pm, pv, pz, hw, hwarn⟩ := coveringF_spec R order L N hL dist hd hm r (floatBump_linear R hr)
  have hpos : ∀ l i, dist l i < r → phi l i ≠ 0 := by
    intro l i h e
    have h1 := pv l i h
    unfold bumpLinearF at h1
    rw [fin_sub, round_fin, e] at h1
    exact absurd (R.gradual r (dist l i) hr (hm l i) h1) h.ne'
  have hz : ∀ i, (order.eval rnd fun l => fin (phi l i)).isZero = true ↔ ¬ Covered L dist r i := by
    intro i
    rcases order.eval_nonneg R (fun l => phi l i) (fun l => p0 l i) (fun l => pm l i) with h | ⟨s, h, -, -, hs, h0, h0'⟩
    · rw [h]
      simp only [Fl.isZero, Bool.false_eq_true, false_iff, not_not]
      by_contra hc
      have hall : ∀ l < L, phi l i = 0 := fun l hl => pz l i (not_lt.1 fun hlt => hc ⟨l, hl, hlt⟩)
      have : ∀ t : SumTree, (∀ l ∈ t.leaves, phi l i = 0) → t.eval rnd (fun l => fin (phi l i)) = fin 0 := by
        intro t
        induction t with
        | leaf l => intro ht; simp [SumTree.eval, ht l (by simp [SumTree.leaves])]
        | node s t ihs iht =>
          intro ht
          simp only [SumTree.eval]
          rw [ihs fun l hl => ht l (List.mem_append.2 (Or.inl hl)), iht fun l hl => ht l (List.mem_append.2 (Or.inr hl)),
            fin_add, add_zero, round_fin, R.zero]
      rw [this order fun l hl => hall l (List.mem_range.1 (ho.mem_iff.1 hl))] at h
      exact absurd h (by simp)
    · rw [h]
      simp only [Fl.isZero, decide_eq_true_eq]
      constructor
      · rintro e ⟨l, hl, hlt⟩
        exact hpos l i hlt (h0' e l (ho.mem_iff.2 (List.mem_range.2 hl)))
      · intro hc
        apply h0
        intro l hl
        exact pz l i (not_lt.1 fun hlt => hc ⟨l, List.mem_range.1 (ho.mem_iff.1 hl), hlt⟩)
  refine ⟨C, hC, ?_, ?_⟩
  · intro l i
    rw [← hz i, hw]
    by_cases hzi : (order.eval rnd fun l => fin (phi l i)).isZero = true
    · simp [hzi]
    · simp only [hzi, if_false, iff_false, Bool.false_eq_true]
      rcases order.eval_nonneg R (fun l => phi l i) (fun l => p0 l i) (fun l => pm l i) with h | ⟨s, h, -, -, hs, -⟩
      · rw [h]
        show rnd 0 ≠ nan
        exact R.notNan _
      · rw [h] at hzi ⊢
        have hs0 : s ≠ 0 := by simpa [Fl.isZero] using hzi
        rw [fin_div _ _ hs0, round_fin]
        exact R.notNan _
  · intro k
    rw [hwarn, countP_isZero hz]
    simp only
    split
    · rename_i h; simp only [Option.some.injEq]
      exact ⟨fun e => e ▸ ⟨h, rfl⟩, fun e => e.2.symm⟩
    · rename_i h; simp only [reduceCtorEq, false_iff, not_and]
      rintro h1 rfl; exact h h1

end

end Dreimac
