import Mathlib.Tactic.Linarith
import Mathlib.Tactic.Positivity
import Mathlib.Tactic.FieldSimp
import Mathlib.Data.Rat.Floor
import Mathlib.Algebra.BigOperators.Field
import Mathlib.Algebra.Order.Archimedean.Real.Basic
import Verif.Lemmas.EMCoords
import Verif.Lemmas.Reindex

/-!
# C24–C26, C28–C32, C59: cover radius, persistence order, partition of unity, class selection
-/

namespace Dreimac

open Fl

section radius
variable {K : Type} [Field K] [LinearOrder K] [IsStrictOrderedRing K]

/-- **C24.** For a class with finite birth and death: the error is raised exactly if the admissible interval
`[start, death]` is empty, where `start` is `2 * birth` (standard range) or `birth`; otherwise the threshold is the
point of the interval at fraction `perc` and the radius is half of it. -/
theorem C24_cover_radius (birth death perc : K) (std : Bool) :
    let start := if std then 2 * birth else birth
    (death < start → getCoverRadius (fin perc) (fin birth) (fin death) std = .error .tooShort) ∧
    (start ≤ death → ∃ r thr : K, getCoverRadius (fin perc) (fin birth) (fin death) std = .ok (fin r, fin thr) ∧
      thr - start = perc * (death - start) ∧ 2 * r = thr ∧
      (0 ≤ perc → perc ≤ 1 → start ≤ thr ∧ thr ≤ death)) := by
  intro start
  have hs : (if std then Fl.fin 2 * Fl.fin birth else Fl.fin birth) = Fl.fin start := by
    cases std <;> rfl
  unfold getCoverRadius
  simp only [hs]
  simp only [lt_fin, decide_eq_true_eq, fin_sub, fin_mul, fin_add]
  constructor
  · intro h; rw [if_pos h]
  · intro h
    rw [if_neg (not_lt.2 h), fin_div _ _ two_ne_zero]
    refine ⟨_, _, rfl, by ring, by field_simp, ?_⟩
    intro h0 h1
    have e : (1 - perc) * start + perc * death = start + perc * (death - start) := by ring
    have e' : (1 - perc) * start + perc * death = death - (1 - perc) * (death - start) := by ring
    constructor
    · rw [e]
      have := mul_nonneg h0 (sub_nonneg.2 h)
      linarith
    · rw [e']
      have := mul_nonneg (sub_nonneg.2 h1) (sub_nonneg.2 h)
      linarith

/-- **C24.** The threshold moves monotonically from `start` (at `perc = 0`) to `death` (at `perc = 1`). -/
theorem C24_monotone (birth death p q : K) (std : Bool) (r s t u : K)
    (hp : getCoverRadius (fin p) (fin birth) (fin death) std = .ok (fin r, fin t))
    (hq : getCoverRadius (fin q) (fin birth) (fin death) std = .ok (fin s, fin u)) (hpq : p ≤ q) :
    t ≤ u ∧ (p = 0 → t = if std then 2 * birth else birth) ∧ (q = 1 → u = death) := by
  have h1 := C24_cover_radius birth death p std
  have h2 := C24_cover_radius birth death q std
  simp only at h1 h2
  set start := if std = true then 2 * birth else birth
  rcases lt_or_ge death start with h | h
  · rw [h1.1 h] at hp; exact absurd hp (by simp)
  · obtain ⟨r', t', e1, f1, -⟩ := h1.2 h
    obtain ⟨s', u', e2, f2, -⟩ := h2.2 h
    rw [e1] at hp; rw [e2] at hq
    simp only [Except.ok.injEq, Prod.mk.injEq, Fl.fin.injEq] at hp hq
    obtain ⟨rfl, rfl⟩ := hp
    obtain ⟨rfl, rfl⟩ := hq
    refine ⟨?_, ?_, ?_⟩
    · have := mul_le_mul_of_nonneg_right hpq (sub_nonneg.2 h)
      linarith
    · rintro rfl; linarith
    · rintro rfl; linarith

example : getCoverRadius (K := ℚ) (fin (1/2)) (fin 1) (fin 4) true = .ok (fin (3/2), fin 3) := by decide +kernel
example : getCoverRadius (K := ℚ) (fin (1/2)) (fin 3) (fin 4) true = .error .tooShort := by decide +kernel

/-- **C25 is false.** For a class that never dies, every `perc` in `(0, 1]` gives an infinite radius and `perc = 0`
gives `nan`; no `perc` in `[0, 1]` gives a finite one, and no error is raised. -/
theorem C25_essential_class_no_finite_radius (birth perc : K) (std : Bool) (h0 : 0 ≤ perc) (h1 : perc ≤ 1) :
    (0 < perc → getCoverRadius (fin perc) (fin birth) pinf std = .ok (pinf, pinf)) ∧
    (perc = 0 → getCoverRadius (fin perc) (fin birth) pinf std = .ok (nan, nan)) := by
  have hs : ∃ start : K, (if std then Fl.fin 2 * Fl.fin birth else Fl.fin birth) = Fl.fin start := by
    cases std <;> exact ⟨_, rfl⟩
  obtain ⟨start, hs⟩ := hs
  unfold getCoverRadius
  simp only [hs]
  have hlt : Fl.lt (pinf : Fl K) (fin start) = false := rfl
  have hdiv : (pinf : Fl K) / fin 2 = pinf := by
    show (if (2 : K) < 0 then ninf else pinf) = (pinf : Fl K)
    rw [if_neg (by linarith [zero_lt_two (α := K)])]
  simp only [hlt]
  constructor
  · intro h
    have : (fin perc : Fl K) * pinf = pinf := by show infSign perc = _; unfold infSign; rw [if_pos h]
    rw [this]
    have h2 : ∀ x : K, (fin x : Fl K) + pinf = pinf := fun _ => rfl
    simp only [fin_sub, fin_mul, h2, hdiv]
    rfl
  · rintro rfl
    have : (fin (0 : K) : Fl K) * pinf = nan := by show infSign (0 : K) = _; unfold infSign; simp
    rw [this]; simp

/-- **C25 (partial).** The radius is finite for every class with a finite death that is long enough.  Missing: classes
with death `inf`. -/
theorem C25_finite_death_partial (birth death perc : K) (std : Bool)
    (h : (if std then 2 * birth else birth) ≤ death) :
    ∃ r thr : K, getCoverRadius (fin perc) (fin birth) (fin death) std = .ok (fin r, fin thr) := by
  obtain ⟨r, thr, h, -⟩ := (C24_cover_radius birth death perc std).2 h
  exact ⟨r, thr, h⟩

end radius

/-! ### Partition of unity -/

/-- Data point `i` lies in the open ball of radius `r` around some of the `L` landmarks. -/
def Covered {K : Type} [LT K] (L : ℕ) (dist : ℕ → ℕ → K) (r : K) (i : ℕ) : Prop := ∃ l < L, dist l i < r

/-- A bump function that is finite and positive inside the ball. -/
def PositiveBump {K : Type} [Zero K] [LinearOrder K] (bump : Fl K → Fl K → Fl K) : Prop :=
  ∀ d r : K, 0 ≤ d → d < r → ∃ v, 0 < v ∧ bump (fin d) (fin r) = fin v

section partition
variable {K : Type} [Field K] [LinearOrder K] [IsStrictOrderedRing K]

theorem positiveBump_linear : PositiveBump (bumpLinear (K := K)) :=
  fun d r _ h => ⟨r - d, by linarith, by simp [bumpLinear]⟩

theorem positiveBump_quadratic : PositiveBump (bumpQuadratic (K := K)) :=
  fun d r _ h => ⟨(r - d) * (r - d), mul_pos (by linarith) (by linarith), by simp [bumpQuadratic]⟩

theorem positiveBump_exp : PositiveBump bumpExp := by
  intro d r hd h
  have hne : d * d - r * r ≠ 0 := by nlinarith
  refine ⟨Real.exp (r * r / (d * d - r * r)), Real.exp_pos _, ?_⟩
  unfold bumpExp
  rw [fin_mul, fin_mul, fin_sub, fin_div _ _ hne]
  rfl

variable [FloorRing K]

/-- Everything about `get_covering_partition` on finite non-negative distances and a finite radius (float arrays). -/
theorem covering_spec_full {bump : Fl K → Fl K → Fl K} (hb : PositiveBump bump) (L N : ℕ) (hL : 0 < L)
    (dist : ℕ → ℕ → K) (hd : ∀ l i, 0 ≤ dist l i) (r : K) :
    ∃ (C : Covering K) (phi : ℕ → ℕ → K), getCoveringPartition .float L N (fun l i => fin (dist l i)) (fin r) bump = .ok C ∧
      (∀ l i, (dist l i < r → bump (fin (dist l i)) (fin r) = fin (phi l i)) ∧ (¬ dist l i < r → phi l i = 0)) ∧
      (∀ l i, (0 < phi l i ↔ dist l i < r) ∧ 0 ≤ phi l i) ∧
      (∀ l i, Covered L dist r i → C.varphi l i = fin (phi l i / ∑ m ∈ Finset.range L, phi m i)) ∧
      (∀ l i, ¬ Covered L dist r i → C.varphi l i = nan) ∧
      (∀ i, (Covered L dist r i ↔ 0 < ∑ m ∈ Finset.range L, phi m i)) ∧
      (∀ i, C.ballIndx i = ((List.range L).find? fun l => decide (dist l i < r)).getD 0) ∧
      C.warning = (let k := ((List.range N).filter fun i => !decide (0 < ∑ m ∈ Finset.range L, phi m i)).length
        if 0 < k then some k else none) := by
  classical
  have hb' := hb
  choose v hv hbv using hb'
  let phi : ℕ → ℕ → K := fun l i => if h : dist l i < r then v (dist l i) r (hd l i) h else 0
  have hphi : ∀ l i, (if Fl.lt (fin (dist l i)) (fin r) then DType.float.cast (bump (fin (dist l i)) (fin r)) else 0)
      = fin (phi l i) := by
    intro l i
    simp only [lt_fin, decide_eq_true_eq, DType.cast]
    by_cases h : dist l i < r
    · rw [if_pos h, hbv _ _ (hd l i) h]; simp [phi, h]
    · rw [if_neg h]; simp [phi, h, Fl.zero_def]
  have hpos : ∀ l i, (0 < phi l i ↔ dist l i < r) ∧ 0 ≤ phi l i := by
    intro l i
    by_cases h : dist l i < r
    · simp only [phi, h, dite_true, iff_true]; exact ⟨hv _ _ _ _, (hv _ _ _ _).le⟩
    · simp [phi, h]
  have hval : ∀ l i, (dist l i < r → bump (fin (dist l i)) (fin r) = fin (phi l i)) ∧ (¬ dist l i < r → phi l i = 0) := by
    intro l i
    refine ⟨fun h => ?_, fun h => by simp [phi, h]⟩
    rw [hbv _ _ (hd l i) h]; simp [phi, h]
  have hcov : ∀ i, Covered L dist r i ↔ 0 < ∑ m ∈ Finset.range L, phi m i := by
    intro i
    constructor
    · rintro ⟨l, hl, hlt⟩
      exact Finset.sum_pos' (fun m _ => (hpos m i).2) ⟨l, Finset.mem_range.2 hl, (hpos l i).1.2 hlt⟩
    · intro h
      by_contra hc
      have : ∑ m ∈ Finset.range L, phi m i = 0 := by
        apply Finset.sum_eq_zero
        intro m hm
        have : ¬ dist m i < r := fun hlt => hc ⟨m, Finset.mem_range.1 hm, hlt⟩
        simp [phi, this]
      rw [this] at h; exact lt_irrefl _ h
  have hnn : ∀ i, 0 ≤ ∑ m ∈ Finset.range L, phi m i := fun i => Finset.sum_nonneg fun m _ => (hpos m i).2
  have hz : ∀ i, (fin (∑ m ∈ Finset.range L, phi m i) : Fl K).isZero =
      !decide (0 < ∑ m ∈ Finset.range L, phi m i) := by
    intro i
    simp only [Fl.isZero]
    rw [Bool.eq_iff_iff]
    simp only [decide_eq_true_eq, Bool.not_eq_true', decide_eq_false_iff_not, not_lt]
    exact ⟨fun h => h.le, fun h => le_antisymm h (hnn i)⟩
  unfold getCoveringPartition
  simp only [hphi, flSum_fin, hz]
  rw [if_neg (by simp), if_neg (by omega)]
  refine ⟨_, phi, rfl, hval, hpos, ?_, ?_, hcov, ?_, ?_⟩
  · intro l i h
    have h' := (hcov i).1 h
    simp only [h', decide_true, Bool.not_true, Bool.false_eq_true, if_false]
    exact fin_div _ _ h'.ne'
  · intro l i h
    have h' : ¬ 0 < ∑ m ∈ Finset.range L, phi m i := fun h' => h ((hcov i).2 h')
    simp only [h', decide_false, Bool.not_false, if_true, div_nan]
  · intro i; rfl
  · simp only [List.countP_eq_length_filter]

/-- The same without the formula for the weights. -/
theorem covering_spec {bump : Fl K → Fl K → Fl K} (hb : PositiveBump bump) (L N : ℕ) (hL : 0 < L)
    (dist : ℕ → ℕ → K) (hd : ∀ l i, 0 ≤ dist l i) (r : K) :
    ∃ (C : Covering K) (phi : ℕ → ℕ → K), getCoveringPartition .float L N (fun l i => fin (dist l i)) (fin r) bump = .ok C ∧
      (∀ l i, (0 < phi l i ↔ dist l i < r) ∧ 0 ≤ phi l i) ∧
      (∀ l i, Covered L dist r i → C.varphi l i = fin (phi l i / ∑ m ∈ Finset.range L, phi m i)) ∧
      (∀ l i, ¬ Covered L dist r i → C.varphi l i = nan) ∧
      (∀ i, (Covered L dist r i ↔ 0 < ∑ m ∈ Finset.range L, phi m i)) ∧
      (∀ i, C.ballIndx i = ((List.range L).find? fun l => decide (dist l i < r)).getD 0) ∧
      C.warning = (let k := ((List.range N).filter fun i => !decide (0 < ∑ m ∈ Finset.range L, phi m i)).length
        if 0 < k then some k else none) := by
  obtain ⟨C, phi, h, -, h'⟩ := covering_spec_full hb L N hL dist hd r
  exact ⟨C, phi, h, h'⟩

/-- **C28.** For each built-in bump function, every finite table of non-negative distances and every radius: the
weights of a covered data point are finite, non-negative, sum to one, and are positive exactly on the landmarks closer
than the radius. -/
theorem C28_partition_of_unity (bump : Fl ℝ → Fl ℝ → Fl ℝ)
    (hb : bump = bumpLinear ∨ bump = bumpQuadratic ∨ bump = bumpExp) (L N : ℕ) (hL : 0 < L)
    (dist : ℕ → ℕ → ℝ) (hd : ∀ l i, 0 ≤ dist l i) (r : ℝ) :
    ∃ C, getCoveringPartition .float L N (fun l i => fin (dist l i)) (fin r) bump = .ok C ∧
      ∀ i, Covered L dist r i → ∃ w : ℕ → ℝ, (∀ l, C.varphi l i = fin (w l)) ∧ (∀ l, 0 ≤ w l) ∧
        ∑ l ∈ Finset.range L, w l = 1 ∧ ∀ l, 0 < w l ↔ dist l i < r := by
  have hb' : PositiveBump bump := by
    rcases hb with rfl | rfl | rfl
    · exact positiveBump_linear
    · exact positiveBump_quadratic
    · exact positiveBump_exp
  obtain ⟨C, phi, hC, hpos, hw, -, hcov, -⟩ := covering_spec hb' L N hL dist hd r
  refine ⟨C, hC, fun i hi => ⟨fun l => phi l i / ∑ m ∈ Finset.range L, phi m i, fun l => hw l i hi, ?_, ?_, ?_⟩⟩
  · intro l; exact div_nonneg (hpos l i).2 ((hcov i).1 hi).le
  · rw [← Finset.sum_div]; exact div_self ((hcov i).1 hi).ne'
  · intro l
    rw [← (hpos l i).1]
    exact div_pos_iff_of_pos_right ((hcov i).1 hi)

/-- **C28 (formula).** The weight of landmark `l` at a covered data point is its bump value divided by the sum of the bump values
of the landmarks whose ball contains the point: with `d` the distance, the value is `r - d`, `(r - d)²` or
`exp(r² / (d² - r²))`. -/
theorem C28_weight_formula (L N : ℕ) (hL : 0 < L) (dist : ℕ → ℕ → ℝ) (hd : ∀ l i, 0 ≤ dist l i) (r : ℝ)
    (bump : Fl ℝ → Fl ℝ → Fl ℝ) (φ : ℝ → ℝ)
    (hb : (bump = bumpLinear ∧ φ = fun d => r - d) ∨ (bump = bumpQuadratic ∧ φ = fun d => (r - d) ^ 2) ∨
      (bump = bumpExp ∧ φ = fun d => Real.exp (r ^ 2 / (d ^ 2 - r ^ 2)))) :
    ∃ C, getCoveringPartition .float L N (fun l i => fin (dist l i)) (fin r) bump = .ok C ∧
      ∀ i, Covered L dist r i → ∀ l, C.varphi l i =
        fin ((if dist l i < r then φ (dist l i) else 0) /
          ∑ m ∈ Finset.range L, if dist m i < r then φ (dist m i) else 0) := by
  have hb' : PositiveBump bump := by
    rcases hb with ⟨rfl, -⟩ | ⟨rfl, -⟩ | ⟨rfl, -⟩
    · exact positiveBump_linear
    · exact positiveBump_quadratic
    · exact positiveBump_exp
  obtain ⟨C, phi, hC, hval, -, hw, -⟩ := covering_spec_full hb' L N hL dist hd r
  have hφ : ∀ l i, phi l i = if dist l i < r then φ (dist l i) else 0 := by
    intro l i
    by_cases h : dist l i < r
    · have h1 := (hval l i).1 h
      rw [if_pos h]
      rcases hb with ⟨rfl, rfl⟩ | ⟨rfl, rfl⟩ | ⟨rfl, rfl⟩
      · simp only [bumpLinear, fin_sub, Fl.fin.injEq] at h1
        exact h1.symm
      · simp only [bumpQuadratic, fin_sub, fin_mul, Fl.fin.injEq] at h1
        rw [← h1]; ring
      · have hne : dist l i * dist l i - r * r ≠ 0 := by nlinarith [hd l i]
        unfold bumpExp at h1
        rw [fin_mul, fin_mul, fin_sub, fin_div _ _ hne] at h1
        simp only [Fl.exp, Fl.fin.injEq] at h1
        rw [← h1]; simp only [pow_two]
    · rw [if_neg h]; exact (hval l i).2 h
  refine ⟨C, hC, fun i hi l => ?_⟩
  rw [hw l i hi, hφ l i]
  congr 2
  exact Finset.sum_congr rfl fun m _ => hφ m i

/-- **C29.** A warning is issued iff some data point is uncovered, it carries the exact number of such points, and the
weights are `nan` at exactly those points. -/
theorem C29_uncovered_points (bump : Fl K → Fl K → Fl K) (hb : PositiveBump bump) (L N : ℕ) (hL : 0 < L)
    (dist : ℕ → ℕ → K) (hd : ∀ l i, 0 ≤ dist l i) (r : K) :
    ∃ C, getCoveringPartition .float L N (fun l i => fin (dist l i)) (fin r) bump = .ok C ∧
      (C.warning = none ↔ ∀ i < N, Covered L dist r i) ∧
      (∀ k, C.warning = some k ↔ 0 < k ∧ k = Set.ncard {i | i < N ∧ ¬ Covered L dist r i}) ∧
      (∀ l i, C.varphi l i = nan ↔ ¬ Covered L dist r i) := by
  classical
  obtain ⟨C, phi, hC, hpos, hw, hn, hcov, -, hwarn⟩ := covering_spec hb L N hL dist hd r
  have hfil : ((List.range N).filter fun i => !decide (0 < ∑ m ∈ Finset.range L, phi m i)).length =
      Set.ncard {i | i < N ∧ ¬ Covered L dist r i} := by
    have hset : {i | i < N ∧ ¬ Covered L dist r i} =
        (((List.range N).filter fun i => !decide (0 < ∑ m ∈ Finset.range L, phi m i)).toFinset : Set ℕ) := by
      ext i; simp [hcov i]
    rw [hset, Set.ncard_coe_finset, List.toFinset_card_of_nodup (List.nodup_range.filter _)]
  refine ⟨C, hC, ?_, ?_, ?_⟩
  · rw [hwarn]
    simp only
    rw [hfil]
    constructor
    · intro h i hi
      by_contra hc
      have hfin : {i | i < N ∧ ¬ Covered L dist r i}.Finite := (Set.finite_lt_nat N).subset fun i h => h.1
      have : 0 < Set.ncard {i | i < N ∧ ¬ Covered L dist r i} := (Set.ncard_pos hfin).2 ⟨i, hi, hc⟩
      rw [if_pos this] at h; exact absurd h (by simp)
    · intro h
      have : {i | i < N ∧ ¬ Covered L dist r i} = ∅ := by
        ext i; simp only [Set.mem_ofPred_eq, Set.mem_empty_iff_false, iff_false, not_and, not_not]; exact h i
      rw [this]; simp
  · intro k
    rw [hwarn]
    simp only
    rw [hfil]
    split
    · rename_i h; simp only [Option.some.injEq]
      exact ⟨fun e => e ▸ ⟨h, rfl⟩, fun e => e.2.symm⟩
    · rename_i h; simp only [reduceCtorEq, false_iff, not_and]
      rintro h1 rfl; exact h h1
  · intro l i
    constructor
    · intro h hc
      rw [hw l i hc] at h; exact absurd h (by simp)
    · exact hn l i

/-- **C30.** The ball index of a covered point is the smallest landmark whose ball contains it, and 0 for an uncovered
point; all landmarks below the ball index have weight 0 at a covered point. -/
theorem C30_ball_index (bump : Fl K → Fl K → Fl K) (hb : PositiveBump bump) (L N : ℕ) (hL : 0 < L)
    (dist : ℕ → ℕ → K) (hd : ∀ l i, 0 ≤ dist l i) (r : K) :
    ∃ C, getCoveringPartition .float L N (fun l i => fin (dist l i)) (fin r) bump = .ok C ∧
      (∀ i, Covered L dist r i → C.ballIndx i < L ∧ dist (C.ballIndx i) i < r ∧
        ∀ l < C.ballIndx i, ¬ dist l i < r ∧ C.varphi l i = fin 0) ∧
      (∀ i, ¬ Covered L dist r i → C.ballIndx i = 0) := by
  obtain ⟨C, phi, hC, hpos, hw, hn, hcov, hball, -⟩ := covering_spec hb L N hL dist hd r
  refine ⟨C, hC, ?_, ?_⟩
  · intro i hi
    have := (find?_range_getD L fun l => decide (dist l i < r)).1 (by simpa [Covered] using hi)
    rw [← hball i] at this
    obtain ⟨h1, h2, h3⟩ := this
    refine ⟨h1, by simpa using h2, fun l hl => ?_⟩
    have hl' : ¬ dist l i < r := by simpa using h3 l hl
    refine ⟨hl', ?_⟩
    have hz : phi l i = 0 := le_antisymm (not_lt.1 fun h => hl' ((hpos l i).1.1 h)) (hpos l i).2
    rw [hw l i hi, hz, zero_div]
  · intro i hi
    rw [hball i]
    exact (find?_range_getD L fun l => decide (dist l i < r)).2 (by simpa [Covered] using hi)

/-- Non-vacuity of C28–C30: two landmarks, three points, one of them uncovered. -/
example : (getCoveringPartition (K := ℚ) .float 2 3
      (fun l i => fin (if i = 2 then 5 else if l = i then 0 else 1)) (fin 2) bumpLinear).toOption.map
        (fun C => (C.warning, C.ballIndx 1, C.varphi 0 1, C.varphi 1 1, C.varphi 0 2)) =
    some (some 1, 0, fin (1 / 3), fin (2 / 3), nan) := by decide +kernel

/-! ### Essential classes and integer distance matrices -/

theorem flSum_pinf (L : ℕ) (hL : 0 < L) (f : ℕ → Fl K) (h : ∀ l, f l = pinf) :
    flSum ((List.range L).map f) = pinf := by
  obtain ⟨m, rfl⟩ := Nat.exists_eq_add_of_lt hL
  have : (List.range (0 + m + 1)).map f = List.replicate (m + 1) pinf := by
    rw [List.eq_replicate_iff]; simp [h]
  rw [this]
  unfold flSum
  rw [List.replicate_succ, List.foldl_cons]
  have h2 : (0 + pinf : Fl K) = pinf := rfl
  rw [h2]
  clear this h2
  induction m with
  | zero => rfl
  | succ m ih => rw [List.replicate_succ, List.foldl_cons]; exact ih (by omega)

/-- **C25 is false (consequence).** With the infinite radius of an essential class, every weight of every data point is
`nan` for all three built-in bump functions, and no warning is issued. -/
theorem C25_essential_class_all_nan (bump : Fl ℝ → Fl ℝ → Fl ℝ)
    (hb : bump = bumpLinear ∨ bump = bumpQuadratic ∨ bump = bumpExp) (L N : ℕ) (hL : 0 < L) (dist : ℕ → ℕ → ℝ) :
    ∃ C, getCoveringPartition .float L N (fun l i => fin (dist l i)) pinf bump = .ok C ∧ C.warning = none ∧
      ∀ l i, C.varphi l i = nan := by
  have hU : ∀ x : ℝ, Fl.lt (fin x) (pinf : Fl ℝ) = true := fun _ => rfl
  have hden : (∀ x : ℝ, bump (fin x) pinf = pinf) ∨ (∀ x : ℝ, bump (fin x) pinf = nan) := by
    rcases hb with rfl | rfl | rfl
    · exact Or.inl fun _ => rfl
    · exact Or.inl fun _ => rfl
    · exact Or.inr fun _ => rfl
  unfold getCoveringPartition
  simp only [hU, if_true, DType.cast]
  rcases hden with h | h
  · simp only [h, flSum_pinf L hL _ (fun _ => rfl)]
    have hz : (pinf : Fl ℝ).isZero = false := rfl
    simp only [hz]
    rw [if_neg (by simp), if_neg (by omega)]
    exact ⟨_, rfl, by simp, fun l i => rfl⟩
  · have hs : flSum ((List.range L).map fun _ => (nan : Fl ℝ)) = nan :=
      flSum_nan (List.mem_map.2 ⟨0, List.mem_range.2 hL, rfl⟩)
    simp only [h, hs]
    have hz : (nan : Fl ℝ).isZero = false := rfl
    simp only [hz]
    rw [if_neg (by simp), if_neg (by omega)]
    exact ⟨_, rfl, by simp, fun l i => rfl⟩

/-- **C25 is false (consequence).** With the radius `nan` that an essential class has for `perc = 0`, no data point lies in a ball:
every weight is `nan`, and if there are data points the warning counts all of them. -/
theorem C25_zero_percent_warns_about_every_point (bump : Fl K → Fl K → Fl K) (L N : ℕ) (hL : 0 < L) (hN : 0 < N)
    (birth : K) (std : Bool) (dist : ℕ → ℕ → K) :
    ∃ r thr C, getCoverRadius (fin 0) (fin birth) pinf std = .ok (r, thr) ∧
      getCoveringPartition .float L N (fun l i => fin (dist l i)) r bump = .ok C ∧ C.warning = some N ∧
      ∀ l i, C.varphi l i = nan := by
  have hU : ∀ x : K, Fl.lt (fin x) (nan : Fl K) = false := fun _ => rfl
  have hs : flSum ((List.range L).map fun _ => (0 : Fl K)) = fin 0 := by
    have := flSum_fin L fun _ => (0 : K)
    rw [Finset.sum_const_zero] at this
    exact this
  have hz : (fin 0 : Fl K).isZero = true := by simp [Fl.isZero]
  have key : ∃ C, getCoveringPartition .float L N (fun l i => fin (dist l i)) nan bump = .ok C ∧ C.warning = some N ∧
      ∀ l i, C.varphi l i = nan := by
    unfold getCoveringPartition
    simp only [hU, Bool.false_eq_true, if_false, hs, hz, if_true, List.countP_true, List.length_range]
    rw [if_neg (by simp), if_neg (by omega)]
    exact ⟨_, rfl, if_pos hN, fun l i => rfl⟩
  obtain ⟨C, h⟩ := key
  exact ⟨nan, nan, C, (C25_essential_class_no_finite_radius birth 0 std le_rfl zero_le_one).2 rfl, h⟩

/-- In an integer array a point whose depth in every ball is less than one gets the bump sum 0, which cannot be replaced by
`nan`. -/
theorem covering_int_fails (L N : ℕ) (dist : ℕ → ℕ → K) (r : K) (i : ℕ) (hi : i < N) (hshallow : ∀ l < L, r - dist l i < 1) :
    getCoveringPartition .int L N (fun l i => fin (dist l i)) (fin r) bumpLinear = .error .valueError := by
  have hphi : ∀ l i, (if Fl.lt (fin (dist l i)) (fin r) then
      DType.int.cast (bumpLinear (fin (dist l i)) (fin r)) else 0)
      = fin (if (dist l i) < r then (⌊r - dist l i⌋ : K) else 0) := by
    intro l i
    simp only [lt_fin, decide_eq_true_eq, bumpLinear, fin_sub, DType.cast]
    by_cases h : (dist l i) < r
    · rw [if_pos h, if_pos h, if_pos (by linarith)]
    · rw [if_neg h, if_neg h]; rfl
  unfold getCoveringPartition
  simp only [hphi, flSum_fin]
  rw [if_pos]
  refine ⟨?_, trivial⟩
  rw [List.countP_pos_iff]
  refine ⟨i, List.mem_range.2 hi, ?_⟩
  have : ∑ l ∈ Finset.range L, (if (dist l i) < r then (⌊r - dist l i⌋ : K) else 0) = 0 := by
    apply Finset.sum_eq_zero
    intro l hl
    have h1 := hshallow l (Finset.mem_range.1 hl)
    split
    · rename_i h
      have : ⌊r - (dist l i)⌋ = 0 := Int.floor_eq_iff.2 ⟨by simp; linarith, by simpa using h1⟩
      rw [this]; simp
    · rfl
  rw [this]; simp [Fl.isZero]

/-- **C31 is false.** With an integer distance matrix and the default (linear) bump function, a data point whose depth
in every ball is less than one — covered or not — makes the call fail with `ValueError`. -/
theorem C31_integer_matrix_fails (L N : ℕ) (dist : ℕ → ℕ → ℤ) (r : K) (i : ℕ) (hi : i < N)
    (hshallow : ∀ l < L, r - (dist l i : K) < 1) :
    getCoveringPartition .int L N (fun l i => fin (dist l i : K)) (fin r) bumpLinear = .error .valueError :=
  covering_int_fails L N (fun l i => (dist l i : K)) r i hi hshallow

/-- Non-vacuity: a covered point (distance 1, radius 3/2). -/
example : (∀ l < 1, (3/2 : ℚ) - ((fun _ _ => 1 : ℕ → ℕ → ℤ) l 0 : ℚ) < 1) ∧
    Covered 1 (fun _ _ => (1 : ℚ)) (3/2) 0 := by
  refine ⟨fun l _ => by norm_num, 0, by norm_num, by norm_num⟩

/-- **C31 (partial).** With an integer distance matrix and the linear bump, if every data point is at depth at least
one in some ball, the weights are finite, non-negative and sum to one.  For floating point matrices see C28, which has
no such restriction.  Missing: covered points of depth less than one (`C31_integer_matrix_fails`). -/
theorem C31_integer_matrix_deep_partial (L N : ℕ) (dist : ℕ → ℕ → ℤ) (r : K)
    (hdeep : ∀ i < N, ∃ l < L, (dist l i : K) ≤ r - 1) (hL : 0 < L) :
    ∃ C, getCoveringPartition .int L N (fun l i => fin (dist l i : K)) (fin r) bumpLinear = .ok C ∧
      C.warning = none ∧ ∀ i < N, ∃ w : ℕ → K, (∀ l, C.varphi l i = fin (w l)) ∧ (∀ l, 0 ≤ w l) ∧
        ∑ l ∈ Finset.range L, w l = 1 := by
  let phi : ℕ → ℕ → K := fun l i => if (dist l i : K) < r then (⌊r - dist l i⌋ : K) else 0
  have hphi : ∀ l i, (if Fl.lt (fin (dist l i : K)) (fin r) then
      DType.int.cast (bumpLinear (fin (dist l i : K)) (fin r)) else 0) = fin (phi l i) := by
    intro l i
    simp only [lt_fin, decide_eq_true_eq, bumpLinear, fin_sub, DType.cast, phi]
    by_cases h : (dist l i : K) < r
    · rw [if_pos h, if_pos h, if_pos (by linarith)]
    · rw [if_neg h, if_neg h]; rfl
  have hnn : ∀ l i, 0 ≤ phi l i := by
    intro l i
    simp only [phi]
    split
    · rename_i h
      have : 0 ≤ ⌊r - (dist l i : K)⌋ := Int.floor_nonneg.2 (by linarith)
      exact_mod_cast this
    · exact le_refl _
  have hpos : ∀ i < N, 0 < ∑ l ∈ Finset.range L, phi l i := by
    intro i hi
    obtain ⟨l, hl, hd⟩ := hdeep i hi
    refine Finset.sum_pos' (fun l _ => hnn l i) ⟨l, Finset.mem_range.2 hl, ?_⟩
    have h1 : (dist l i : K) < r := by linarith
    have : 0 < ⌊r - (dist l i : K)⌋ := Int.floor_pos.2 (by linarith)
    simp only [phi, h1, if_true]
    exact_mod_cast this
  have hz : ∀ i < N, (fin (∑ l ∈ Finset.range L, phi l i) : Fl K).isZero = false := by
    intro i hi
    simp only [Fl.isZero, decide_eq_false_iff_not]
    exact (hpos i hi).ne'
  have hcount : (List.range N).countP (fun i => (fin (∑ l ∈ Finset.range L, phi l i) : Fl K).isZero) = 0 := by
    rw [List.countP_eq_zero]
    intro i hi
    simp [hz i (List.mem_range.1 hi)]
  unfold getCoveringPartition
  simp only [hphi, flSum_fin, hcount]
  rw [if_neg (by simp), if_neg (by omega)]
  refine ⟨_, rfl, by simp, ?_⟩
  intro i hi
  refine ⟨fun l => phi l i / ∑ m ∈ Finset.range L, phi m i, fun l => ?_, fun l => div_nonneg (hnn l i) (hpos i hi).le, ?_⟩
  · simp only [hz i hi, Bool.false_eq_true, if_false]
    exact fin_div _ _ (hpos i hi).ne'
  · rw [← Finset.sum_div]; exact div_self (hpos i hi).ne'

end partition

end Dreimac
