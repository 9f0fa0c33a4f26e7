import Mathlib.Tactic.IntervalCases
import Verif.Props.Winding

/-! # Concrete cases of C105 and C106 -/

namespace Dreimac

open Real Matrix

/-- The class of the octagon as a vector: 1 on the edge `0 3`. -/
def octVec : List ℤ := [0, 0, 0, 1, 0, 0]

theorem oct_edge (l m : ℕ) : RipsEdge octObj.nLand octObj.distLandLand (2 * (3 / 2 : ℝ)) l m ↔
    (l = 0 ∧ m = 1) ∨ (l = 1 ∧ m = 2) ∨ (l = 2 ∧ m = 3) ∨ (l = 0 ∧ m = 3) := by
  have e : RipsEdge octObj.nLand octObj.distLandLand (2 * (3 / 2 : ℝ)) l m ↔ l < m ∧ m < 4 ∧ octDist l (2 * m) < 3 := by
    have h3 : ((octDist l (2 * m) : ℕ) : ℝ) < 2 * (3 / 2) ↔ octDist l (2 * m) < 3 := by
      rw [show (2 * (3 / 2) : ℝ) = ((3 : ℕ) : ℝ) by norm_num]; exact Nat.cast_lt
    constructor
    · rintro ⟨h1, h2, h⟩; exact ⟨h1, h2, h3.1 h⟩
    · rintro ⟨h1, h2, h⟩; exact ⟨h1, h2, h3.2 h⟩
  rw [e]
  constructor
  · rintro ⟨h1, h2, h⟩
    interval_cases m <;> interval_cases l <;> first | decide | (revert h; decide)
  · rintro (⟨rfl, rfl⟩ | ⟨rfl, rfl⟩ | ⟨rfl, rfl⟩ | ⟨rfl, rfl⟩) <;> decide

open Classical in
theorem oct_sum (F : ℕ → ℕ → ℝ) : (∑ l ∈ Finset.range octObj.nLand, ∑ m ∈ Finset.range octObj.nLand,
    if RipsEdge octObj.nLand octObj.distLandLand (2 * (3 / 2 : ℝ)) l m then F l m else 0) =
    F 0 1 + F 0 3 + F 1 2 + F 2 3 := by
  simp only [oct_edge]
  rw [show octObj.nLand = 4 from rfl]
  simp [Finset.sum_range_succ]

/-- The harmonic form of the octagon's class has absolute value `1/4` on the four edges. -/
theorem oct_harmonic (f : ℕ → ℝ)
    (hf : ∀ g, formEnergy octObj.nLand octObj.distLandLand (3 / 2) (fun e => ((octVec.getD e 0 : ℤ) : ℝ)) f ≤
      formEnergy octObj.nLand octObj.distLandLand (3 / 2) (fun e => ((octVec.getD e 0 : ℤ) : ℝ)) g) (l m : ℕ) :
    |ripsForm octObj.nLand octObj.distLandLand (3 / 2) (fun e => octVec.getD e 0) f l m| ≤ 1 / 4 := by
  have h := hf (fun (m : ℕ) => if m = 0 then 3 / 4 else if m = 1 then 1 / 2 else if m = 2 then 1 / 4 else 0)
  unfold formEnergy at h
  rw [oct_sum, oct_sum] at h
  norm_num [octVec, edgeIdx, Nat.choose] at h
  have hs : (f 0 - f 1 - 1 / 4) ^ 2 + (f 1 - f 2 - 1 / 4) ^ 2 + (f 2 - f 3 - 1 / 4) ^ 2 + (3 / 4 - (f 0 - f 3)) ^ 2 ≤ 0 := by
    nlinarith
  have h1 : f 0 - f 1 = 1 / 4 := by nlinarith [sq_nonneg (f 0 - f 1 - 1 / 4), sq_nonneg (f 1 - f 2 - 1 / 4), sq_nonneg (f 2 - f 3 - 1 / 4), sq_nonneg (3 / 4 - (f 0 - f 3))]
  have h2 : f 1 - f 2 = 1 / 4 := by nlinarith [sq_nonneg (f 0 - f 1 - 1 / 4), sq_nonneg (f 1 - f 2 - 1 / 4), sq_nonneg (f 2 - f 3 - 1 / 4), sq_nonneg (3 / 4 - (f 0 - f 3))]
  have h3 : f 2 - f 3 = 1 / 4 := by nlinarith [sq_nonneg (f 0 - f 1 - 1 / 4), sq_nonneg (f 1 - f 2 - 1 / 4), sq_nonneg (f 2 - f 3 - 1 / 4), sq_nonneg (3 / 4 - (f 0 - f 3))]
  have key : ∀ l m, RipsEdge octObj.nLand octObj.distLandLand (2 * (3 / 2 : ℝ)) l m →
      |((edgeVal (fun e => octVec.getD e 0) l m : ℤ) : ℝ) - (f l - f m)| ≤ 1 / 4 := by
    intro l m he
    rw [oct_edge] at he
    rcases he with ⟨rfl, rfl⟩ | ⟨rfl, rfl⟩ | ⟨rfl, rfl⟩ | ⟨rfl, rfl⟩
    · rw [h1]; norm_num [edgeVal, octVec, edgeIdx, Nat.choose]
    · rw [h2]; norm_num [edgeVal, octVec, edgeIdx, Nat.choose]
    · rw [h3]; norm_num [edgeVal, octVec, edgeIdx, Nat.choose]
    · rw [show f 0 - f 3 = 3 / 4 by linarith]; norm_num [edgeVal, octVec, edgeIdx, Nat.choose, abs_le]
  unfold ripsForm
  split
  · next hrel =>
    rcases hrel with rfl | he | he
    · simp [edgeVal]
    · exact key l m he
    · have := key m l he
      rw [edgeVal_antisymm]
      rw [← abs_neg]
      push_cast at this ⊢
      rw [show -(-((edgeVal (fun e => octVec.getD e 0) m l : ℤ) : ℝ) - (f l - f m)) =
        ((edgeVal (fun e => octVec.getD e 0) m l : ℤ) : ℝ) - (f m - f l) by ring]
      exact this
  · norm_num

/-- Once around the octagon. -/
theorem oct_loop : LoopInCover octObj.nLand octObj.dist (3 / 2) 8 (fun (q : ℕ) => q % 8) (fun (q : ℕ) => (q + 1) / 2 % 4) := by
  have key : ∀ q < 8, ((q + 1) / 2 % 4 < 4 ∧ octDist ((q + 1) / 2 % 4) (q % 8) ≤ 1 ∧
    octDist ((q + 1) / 2 % 4) ((q + 1) % 8) ≤ 1) := by decide +kernel
  have hd : ∀ l i, octDist l i ≤ 1 → octObj.dist l i < 3 / 2 := by
    intro l i h
    show ((octDist l i : ℕ) : ℝ) < _
    have : ((octDist l i : ℕ) : ℝ) ≤ (1 : ℕ) := by exact_mod_cast h
    push_cast at this; linarith
  exact ⟨by norm_num, rfl, rfl, fun q hq => ⟨(key q hq).1, hd _ _ (key q hq).2.1⟩,
    fun q hq => ⟨(key q hq).1, hd _ _ (key q hq).2.2⟩⟩

/-- C105: going once around the octagon, the coordinate turns exactly once. -/
example (fuel : ℕ) : ∃ θ : ℕ → Fl ℝ, (circularGetCoordinates idealEnv fuel octObj (.fin (1 / 2)) (.int 0) bumpLinear false true).2 = .ok θ ∧
    ∃ y : ℕ → ℝ, (∀ q ≤ 8, θ (q % 8) = .fin (y q)) ∧ turns 8 y = -1 := by
  obtain ⟨θ, h1, h2⟩ := octObj_call fuel
  have hT := C46_single_class idealEnv fuel octObj (.fin (1 / 2)) (.int 0) bumpLinear false true
  simp only at hT
  have hok := (hT.2.2.2.1 θ).2 h1
  have hr := h2
  unfold octArgs at hr
  rw [← hT.1] at hr
  obtain ⟨b, d, s, u, w, c, f, hs, hu, hl, -, hmin, hc, hall⟩ := C105_winding_number octObj_wf octObj_fieldValued positiveBump_linear
    hok hr octObj_stored octObj_checked octObj_triangle
  rw [octObj_class.stored] at hs
  simp only [Except.ok.injEq, Prod.mk.injEq] at hs
  obtain ⟨-, -, rfl⟩ := hs
  have hc' := hc octVec oct_dense (fun i j k h => absurd h (octObj_no_triangle i j k))
  subst hc'
  obtain ⟨y, hy, ht, -⟩ := hall (1 / 4) (oct_harmonic f (hmin idealLsqr_exact)) 8 _ _ oct_loop (Or.inl le_rfl)
  refine ⟨θ, hok, y, hy, ?_⟩
  rw [ht]
  have : loopVal (fun e => octVec.getD e 0) 8 (fun (q : ℕ) => (q + 1) / 2 % 4) = -1 := by decide +kernel
  rw [this]; norm_num

/-- The angles `0, π/2, π, 3π/2, 0`. -/
noncomputable def quarterTurns (q : ℕ) : ℝ := (q % 4 : ℕ) * (π / 2)

theorem quarterTurns_step (q : ℕ) : angleStep (quarterTurns q) (quarterTurns (q + 1)) = π / 2 := by
  have hpi := Real.pi_pos
  have h : ∀ q, SameAngle (quarterTurns q) (q * (π / 2)) := by
    intro q
    refine ⟨-((Nat.div q 4 : ℕ) : ℤ), ?_⟩
    unfold quarterTurns
    have : ((q : ℕ) : ℝ) = ((4 * (q / 4) + q % 4 : ℕ) : ℝ) := by rw [Nat.div_add_mod]
    rw [this]
    show _ = ((-(((q / 4 : ℕ) : ℕ) : ℤ) : ℤ) : ℝ) * (2 * π)
    rw [Int.cast_neg, Int.cast_natCast, Nat.cast_add, Nat.cast_mul]
    push_cast; ring
  rw [angleStep_of_lift (h q) (h (q + 1))]
  · push_cast; ring
  · push_cast
    rw [show ((q : ℝ) + 1) * (π / 2) - q * (π / 2) = π / 2 by ring, abs_of_pos (by linarith)]
    linarith

/-- C106: one turn, and one turn again after a rotation. -/
example : turns 4 quarterTurns = 1 ∧ turns 4 (fun q => offset (quarterTurns q) (1 / 3)) = 1 := by
  have : turns 4 quarterTurns = 1 := by
    unfold turns
    rw [Finset.sum_congr rfl fun q _ => quarterTurns_step q]
    have := Real.pi_pos
    simp; field_simp; norm_num
  exact ⟨this, (C106_offset 4 quarterTurns (1 / 3)).trans this⟩

/-- C106: the negative of the map turns `-1` times. -/
example : ∃ g : ℕ → ℕ → ℝ, linearCombination (.d2 1 4 (finMaps fun _ => quarterTurns)) (.d2 1 1 fun _ _ => ((-1 : ℤ) : ℝ)) =
    .ok (.d2 1 4 (finMaps g)) ∧ turns 4 (fun q => g 0 q) = -1 := by
  obtain ⟨g, hg, -⟩ := C47_value 1 4 1 (fun _ => quarterTurns) fun _ _ => ((-1 : ℤ) : ℝ)
  refine ⟨g, hg, ?_⟩
  have hpi := Real.pi_pos
  have h := C106_linear_combination 1 4 1 (fun _ => quarterTurns) g (fun _ _ => -1) hg 0 4 (fun q => q) (by
    intro q _
    simp only [Finset.sum_range_one, quarterTurns_step]
    rw [abs_of_pos (show 0 < π / 2 by linarith)]
    norm_num
    exact hpi)
  rw [h]
  have : turns 4 quarterTurns = 1 := by
    unfold turns
    rw [Finset.sum_congr rfl fun q _ => quarterTurns_step q]
    simp; field_simp; norm_num
  simp [this]

/-- C106: `center` on the four angles. -/
example : turns 4 (fun q => (center [0, π / 2, π, 3 * π / 2]).getD (q % 4) 0) =
    turns 4 (fun q => [0, π / 2, π, 3 * π / 2].getD (q % 4) 0) :=
  (C106_center [0, π / 2, π, 3 * π / 2] 4 (fun q => q % 4) (fun q _ => Nat.mod_lt _ (by norm_num))).2

end Dreimac
