import Verif.Lemmas.Winding
import Verif.Props.CircularExamples
import Verif.Props.CircleMap
import Verif.Props.Instances3

/-!
# C105, C106: how often the returned coordinates turn around the circle
-/

namespace Dreimac

open Real Matrix

section
variable {env : Oracles} {fuel : ℕ} {o : ToroObj} {a : Args} {coords : List (ℕ → Fl ℝ)} {r t : ℝ}

theorem loopVal_sum {m : ℕ} (u : Fin m → ℤ) (c : Fin m → ℕ → ℤ) (n : ℕ) (l : ℕ → ℕ) :
    loopVal (fun e => ∑ j, u j * c j e) n l = ∑ j, u j * loopVal (c j) n l := by
  unfold loopVal
  rw [Finset.sum_congr rfl fun q _ => edgeVal_sum u c (l q) (l (q + 1)), Finset.sum_comm]
  simp only [Finset.mul_sum]

theorem loopVal_congr {p : ℤ} {c u : ℕ → ℤ} (h : ∀ e, p ∣ c e - u e) (n : ℕ) (l : ℕ → ℕ) :
    p ∣ loopVal c n l - loopVal u n l := by
  unfold loopVal
  rw [← Finset.sum_sub_distrib]
  apply Finset.dvd_sum
  intro q _
  unfold edgeVal
  split
  · exact h _
  · split
    · have := (h (edgeIdx (l (q + 1)) (l q))).neg_right
      rwa [show -c (edgeIdx (l (q + 1)) (l q)) - -u (edgeIdx (l (q + 1)) (l q)) =
        -(c (edgeIdx (l (q + 1)) (l q)) - u (edgeIdx (l (q + 1)) (l q))) by ring]
    · simp

/-- Two points of a common ball share weight, so their weights differ by less than 2 in total. -/
theorem IsPartitionOfUnity.sum_abs_lt {L : ℕ} {dist : ℕ → ℕ → ℝ} {r : ℝ} {w : ℕ → ℕ → ℝ}
    (hw : IsPartitionOfUnity L dist r w) {l i i' : ℕ} (h : InBall L dist r l i) (h' : InBall L dist r l i') :
    ∑ s ∈ Finset.range L, |w s i' - w s i| < 2 := by
  have hi : ∃ m, InBall L dist r m i := ⟨l, h⟩
  have hi' : ∃ m, InBall L dist r m i' := ⟨l, h'⟩
  calc ∑ s ∈ Finset.range L, |w s i' - w s i| < ∑ s ∈ Finset.range L, (w s i' + w s i) := by
        apply Finset.sum_lt_sum
        · intro s _
          have h1 := hw.nonneg s i hi
          have h2 := hw.nonneg s i' hi'
          rw [abs_le]; constructor <;> linarith
        · refine ⟨l, Finset.mem_range.2 h.1, ?_⟩
          have h1 := (hw.support l i hi).2 h.2
          have h2 := (hw.support l i' hi').2 h'.2
          rw [abs_lt]; constructor <;> linarith
    _ = 2 := by rw [Finset.sum_add_distrib, hw.sum_one i hi, hw.sum_one i' hi']; norm_num

/-- **C105 (several classes).** A checked call; a closed path of data points with each two consecutive points in the ball
of a landmark, and `M` a bound on the harmonic form of the `k`-th coordinate such that consecutive points have close
weights (`M ∑ |Δw| < 1/2`; automatic if `M ≤ 1/4`).  Then the `k`-th coordinate turns, along the path, exactly as many
times as the integer cocycle `∑ j, U k j * c j` of C35 says on the closed path of landmarks. -/
theorem C105_winding_numbers (wf : WellFormed o) (hv : FieldValued o.prime o.cocycles) (hb : PositiveBump a.bump)
    (hok : (getCoordinates env fuel o a).2 = .ok coords)
    (hr : (getCoordinates env fuel o a).1.radius = some (.fin r, .fin t)) (hst : StoredCocycles o a r)
    (hch : CheckedCall env o a) (htri : LandmarkTriangle o.nLand o.dist o.distLandLand) :
    ∃ (m : ℕ) (w : ℕ → ℕ → ℝ) (c : Fin m → ℕ → ℤ) (U : Matrix (Fin m) (Fin m) ℤ) (f : Fin m → ℕ → ℝ)
      (θ : Fin m → ℕ → Fl ℝ),
      CoordinateData env o a r m w c f U θ ∧ coords = List.ofFn θ ∧
      (∀ j : Fin m, ∃ x b d s u, a.cocycleIdxs[(j : ℕ)]? = some x ∧ repr1 o x = .ok (b, d, s) ∧
        sparseCocycleToVector 1 s o.table o.nLand = .ok u ∧
        IntegralLift1 o.prime o.nLand o.distLandLand (2 * r) (fun e => u.getD e 0) (c j)) ∧
      ∀ (k : Fin m) (M : ℝ), (∀ l s, |ripsForm o.nLand o.distLandLand r (fun e => ∑ j, U k j * c j e)
          (fun l => ∑ j, U k j * f j l) l s| ≤ M) →
        ∀ (n : ℕ) (i l : ℕ → ℕ), LoopInCover o.nLand o.dist r n i l →
          (M ≤ 1 / 4 ∨ ∀ q < n, M * ∑ s ∈ Finset.range o.nLand, |w s (i (q + 1)) - w s (i q)| < 1 / 2) →
          ∃ y : ℕ → ℝ, (∀ q ≤ n, θ k (i q) = .fin (y q)) ∧
            turns n y = ((∑ j, U k j * loopVal (c j) n l : ℤ) : ℝ) := by
  obtain ⟨-, ⟨W⟩⟩ := callWitness wf hv hb hok hr
  refine ⟨W.m, W.w, W.c, W.U, W.f, W.out, witness_data hok W, W.out_eq, witness_lift hok W hst hch, ?_⟩
  intro k M hM n i l hloop hstep
  have hc := witness_out_cocycle hok W hst hch k
  have hval : ∀ q, ∃ y : ℝ, q ≤ n → W.out k (i q) = .fin y := by
    intro q
    by_cases hq : q ≤ n
    · have hin : ∃ m, InBall o.nLand o.dist r m (i q) := by
        rcases hq.lt_or_eq with hq | rfl
        · exact ⟨_, hloop.here q hq⟩
        · rw [hloop.closed_data]; exact ⟨_, hloop.here 0 hloop.pos⟩
      obtain ⟨m, hm⟩ := hin
      obtain ⟨y, hy, -⟩ := (W.out_coord k).every_ball htri W.part hc hm
      exact ⟨y, fun _ => hy⟩
    · exact ⟨0, fun h => absurd h hq⟩
  choose y hy using hval
  refine ⟨y, hy, ?_⟩
  rw [← loopVal_sum]
  refine (W.out_coord k).turns_loop htri W.part hc hM hloop.closed_data hloop.closed_land
    (fun q hq => ⟨hloop.here q hq, hloop.next q hq⟩) (fun q hq => ?_) hy
  rcases hstep with h | h
  · have h1 := W.part.sum_abs_lt (hloop.here q hq) (hloop.next q hq)
    have h2 : 0 ≤ ∑ s ∈ Finset.range o.nLand, |W.w s (i (q + 1)) - W.w s (i q)| :=
      Finset.sum_nonneg fun _ _ => abs_nonneg _
    nlinarith
  · exact h q hq

/-- **C105 (one class).** `CircularCoords.get_coordinates`: there is an integer cocycle `c`, congruent to the selected class
modulo the prime, such that along every closed path with small steps the coordinate turns exactly `loopVal c` times; in
particular the number of turns is an integer congruent modulo the prime to the value of the stored class on the path of
landmarks, and the coordinate is not constant along a path on which that value is not divisible by the prime. -/
theorem C105_winding_number {perc : Fl ℝ} {z : ClassArg} {bump : Fl ℝ → Fl ℝ → Fl ℝ} {std check : Bool} {θ : ℕ → Fl ℝ}
    (wf : WellFormed o) (hv : FieldValued o.prime o.cocycles) (hb : PositiveBump bump)
    (hok : (circularGetCoordinates env fuel o perc z bump std check).2 = .ok θ)
    (hr : (circularGetCoordinates env fuel o perc z bump std check).1.radius = some (.fin r, .fin t))
    (hst : StoredCocycles o ⟨perc, [z], bump, std, check⟩ r) (hch : CheckedCall env o ⟨perc, [z], bump, std, check⟩)
    (htri : LandmarkTriangle o.nLand o.dist o.distLandLand) :
    ∃ (b d : Fl ℝ) (s : SparseCochain) (u : List ℤ) (w : ℕ → ℕ → ℝ) (c : ℕ → ℤ) (f : ℕ → ℝ),
      repr1 o z = .ok (b, d, s) ∧ sparseCocycleToVector 1 s o.table o.nLand = .ok u ∧
      IntegralLift1 o.prime o.nLand o.distLandLand (2 * r) (fun e => u.getD e 0) c ∧
      IsPartitionOfUnity o.nLand o.dist r w ∧
      (ExactLsq env.lsqr → ∀ g, formEnergy o.nLand o.distLandLand r (fun e => (c e : ℝ)) f ≤
        formEnergy o.nLand o.distLandLand r (fun e => (c e : ℝ)) g) ∧
      (∀ v, sparseCocycleToVector 1 (liftToIntegerCocycle s o.prime) o.table o.nLand = .ok v →
        IsCocycle1 o.nLand o.distLandLand (2 * r) (fun e => v.getD e 0) → c = fun e => v.getD e 0) ∧
      ∀ M : ℝ, (∀ l s, |ripsForm o.nLand o.distLandLand r c f l s| ≤ M) →
        ∀ (n : ℕ) (i l : ℕ → ℕ), LoopInCover o.nLand o.dist r n i l →
          (M ≤ 1 / 4 ∨ ∀ q < n, M * ∑ s ∈ Finset.range o.nLand, |w s (i (q + 1)) - w s (i q)| < 1 / 2) →
          ∃ y : ℕ → ℝ, (∀ q ≤ n, θ (i q) = .fin (y q)) ∧ turns n y = (loopVal c n l : ℝ) ∧
            o.prime ∣ loopVal c n l - loopVal (fun e => u.getD e 0) n l ∧
            (¬ o.prime ∣ loopVal (fun e => u.getD e 0) n l → turns n y ≠ 0) := by
  have hT := C46_single_class env fuel o perc z bump std check
  simp only at hT
  have hok' := (hT.2.2.2.1 θ).1 hok
  rw [hT.1] at hr
  obtain ⟨m, w, c, U, f, θ', hdata, hco, hcl, hk⟩ := C105_winding_numbers wf hv hb hok' hr hst hch htri
  have hm1 : m = 1 := by simpa using hdata.len.symm
  subst hm1
  have hU := hdata.single
  obtain ⟨x, b, d, s, u, hx, hs, hu, hl⟩ := hcl 0
  have hx' : x = z := by simpa using hx.symm
  subst hx'
  have hθ : θ = θ' 0 := by simpa using hco
  have hc : (fun e => ∑ j, U 0 j * c j e) = c 0 := by rw [hU rfl]; funext e; simp
  have hf : (fun l => ∑ j, (U 0 j : ℝ) * f j l) = f 0 := by rw [hU rfl]; funext e; simp
  have hk0 := hk 0
  rw [hc, hf] at hk0
  refine ⟨b, d, s, u, w, c 0, f 0, hs, hu, hl, hdata.part, fun hex => hdata.minimal hex 0, ?_, ?_⟩
  · intro v hv' hcoc
    obtain ⟨x', b', d', s', v'', e1, e2, e3, -, e5⟩ := hdata.classes 0
    have : x' = x := by simpa using e1.symm
    subst this
    rw [hs] at e2
    simp only [Except.ok.injEq, Prod.mk.injEq] at e2
    obtain ⟨-, -, rfl⟩ := e2
    rw [hv'] at e3
    injection e3 with e3
    subst e3
    exact e5 (Or.inr hcoc)
  · intro M hM n i l hloop hstep
    obtain ⟨y, hy, ht⟩ := hk0 M hM n i l hloop hstep
    have ht' : turns n y = (loopVal (c 0) n l : ℝ) := by rw [ht, hU rfl]; simp
    refine ⟨y, fun q hq => by rw [hθ]; exact hy q hq, ht', loopVal_congr hl.2 n l, fun hnd h0 => hnd ?_⟩
    have hz : loopVal (c 0) n l = 0 := by rw [ht'] at h0; exact_mod_cast h0
    have := loopVal_congr hl.2 n l
    rw [hz, zero_sub] at this
    exact (dvd_neg.1 this)

end

/-! ### C106: operations on circle maps -/

/-- **C106.** `offset` changes no number of turns. -/
theorem C106_offset (n : ℕ) (y : ℕ → ℝ) (t : ℝ) : turns n (fun q => offset (y q) t) = turns n y := by
  unfold turns
  congr 1
  refine Finset.sum_congr rfl fun q _ => angleStep_congr ?_
  obtain ⟨k, hk⟩ := (C60_offset (y q) 0 t).1.2.2
  obtain ⟨k', hk'⟩ := (C60_offset (y (q + 1)) 0 t).1.2.2
  exact ⟨k' - k, by push_cast; linear_combination hk' - hk⟩

/-- **C106.** `center` changes no number of turns along a path `i 0, ..., i n` of data points. -/
theorem C106_center (xs : List ℝ) (n : ℕ) (i : ℕ → ℕ) (hi : ∀ q ≤ n, i q < xs.length) :
    (center xs).length = xs.length ∧
      turns n (fun q => (center xs).getD (i q) 0) = turns n (fun q => xs.getD (i q) 0) := by
  refine ⟨by simp [center], ?_⟩
  unfold turns
  congr 1
  refine Finset.sum_congr rfl fun q hq => angleStep_congr ?_
  have hq' := Finset.mem_range.1 hq
  have key : ∃ T : ℝ, ∀ j < xs.length, SameAngle ((center xs).getD j 0) (xs.getD j 0 - T + π) := by
    refine ⟨histTick xs 50 (argmaxFirst 50 (histCount xs 50)), fun j hj => ?_⟩
    have : (center xs).getD j 0 = fmod ((xs.getD j 0 - histTick xs 50 (argmaxFirst 50 (histCount xs 50))) + π) (2 * π) := by
      simp [center, List.getD, hj]
    rw [this]
    exact sameAngle_fmod _
  obtain ⟨T, hT⟩ := key
  obtain ⟨k, hk⟩ := hT (i q) (hi q hq'.le)
  obtain ⟨k', hk'⟩ := hT (i (q + 1)) (hi (q + 1) hq')
  exact ⟨k' - k, by push_cast; linear_combination hk' - hk⟩

/-- **C106.** Row `i` of `linear_combination` with an integer matrix `A` turns `∑ j, A i j * turns (map j)` times, if the
steps `∑ j, |A i j| |step of map j|` stay below half a turn. -/
theorem C106_linear_combination (k p l : ℕ) (f g : ℕ → ℕ → ℝ) (A : ℕ → ℕ → ℤ)
    (h : linearCombination (.d2 k p (finMaps f)) (.d2 l k fun i j => (A i j : ℝ)) = .ok (.d2 l p (finMaps g)))
    (i n : ℕ) (x : ℕ → ℕ)
    (hs : ∀ q < n, ∑ j ∈ Finset.range k, |(A i j : ℝ)| * |angleStep (f j (x q)) (f j (x (q + 1)))| < π) :
    turns n (fun q => g i (x q)) = ∑ j ∈ Finset.range k, A i j * turns n (fun q => f j (x q)) := by
  obtain ⟨g', hg', hv⟩ := C47_value k p l f fun i j => (A i j : ℝ)
  rw [h] at hg'
  simp only [Except.ok.injEq, NdArr.d2.injEq, true_and] at hg'
  have hgg : ∀ i p, g i p = g' i p := fun i p => by
    have := congrFun (congrFun hg' i) p
    unfold finMaps at this
    injection this
  have hone : ∀ q < n, angleStep (g i (x q)) (g i (x (q + 1))) =
      ∑ j ∈ Finset.range k, A i j * angleStep (f j (x q)) (f j (x (q + 1))) := by
    intro q hq
    have h1 := (hv i (x q)).2.2
    have h2 := (hv i (x (q + 1))).2.2
    rw [← hgg] at h1 h2
    have h3 : SameAngle (g i (x (q + 1))) (∑ j ∈ Finset.range k, A i j * f j (x q) +
        ∑ j ∈ Finset.range k, A i j * angleStep (f j (x q)) (f j (x (q + 1)))) := by
      refine h2.trans ?_
      rw [← Finset.sum_add_distrib]
      refine SameAngle.sum _ fun j _ => ?_
      rw [← mul_add]
      refine SameAngle.int_mul ?_ _
      obtain ⟨z, hz⟩ := sameAngle_angleStep (f j (x q)) (f j (x (q + 1)))
      exact ⟨-z, by push_cast; linear_combination -hz⟩
    rw [angleStep_of_lift h1 h3]
    · ring
    · rw [add_sub_cancel_left]
      refine (Finset.abs_sum_le_sum_abs _ _).trans_lt ?_
      simp only [abs_mul]
      exact hs q hq
  unfold turns
  rw [Finset.sum_congr rfl fun q hq => hone q (Finset.mem_range.1 hq), Finset.sum_comm, Finset.sum_div]
  refine Finset.sum_congr rfl fun j _ => ?_
  rw [← Finset.mul_sum, mul_div_assoc]

end Dreimac
