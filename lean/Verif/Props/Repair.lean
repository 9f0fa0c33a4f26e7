import Verif.Props.Cocycle

/-!
# C19–C23: the repair of lifted cocycles
-/

namespace Dreimac

section spec
variable {F : Type} [Field F] [LinearOrder F]

/-- Every answer of the solver is integral up to `ε` and satisfies every constraint up to `τ`
(MIP and feasibility tolerances). -/
def SolverSound (milp : Milp F) (ε τ : F) : Prop :=
  ∀ (A : SparseMat) (y : ℕ → ℤ) (x : ℕ → F), milp A y = some x →
    (∃ m : ℕ → ℤ, ∀ e < A.nCols, |x e - m e| ≤ ε) ∧ ∀ r < A.nRows, |A.mulVec x r - y r| ≤ τ

/-- The solver only gives up on infeasible integer programs. -/
def SolverComplete (milp : Milp F) : Prop :=
  ∀ (A : SparseMat) (y : ℕ → ℤ), milp A y = none → ¬ ∃ z : ℕ → ℤ, ∀ r < A.nRows, A.mulVec z r = y r

/-- An integer 1-cocycle congruent modulo `p` to `c` on every edge slot. -/
def IntegralLift1 {K : Type} [LT K] (p : ℤ) (n : ℕ) (dist : ℕ → ℕ → K) (t : K) (c c' : ℕ → ℤ) : Prop :=
  IsCocycle1 n dist t c' ∧ ∀ e, p ∣ c' e - c e

/-- An integer 2-cocycle congruent modulo `p` to `c` on every triangle slot. -/
def IntegralLift2 {K : Type} [LT K] (p : ℤ) (n : ℕ) (dist : ℕ → ℕ → K) (t : K) (c c' : ℕ → ℤ) : Prop :=
  IsCocycle2 n dist t c' ∧ ∀ e, p ∣ c' e - c e

end spec

section
variable {F : Type} [Field F] [LinearOrder F] [IsStrictOrderedRing F] [FloorRing F]
variable {K : Type} [LinearOrder K]

theorem edgeIdx_lt_choose {n i j : ℕ} (hij : i < j) (hj : j < n) : edgeIdx i j < Nat.choose n 2 := edgeIdx_lt hij hj

/-- **C19 (edges).** The repaired cochain is an integer cocycle congruent to the lifted one, as soon as the solver's
answer is integral and feasible up to tolerances with `3 ε + τ < 1`. -/
theorem C19_repaired_one_cochain (n N D : ℕ) (hn : n ≤ N) (hD : 2 ≤ D) (hsz : n ≤ 2345) (dist : ℕ → ℕ → K) (t : K)
    (M : SparseMat) (hM : makeDelta1Compact n dist t (cnsTable N D) = .ok M)
    (milp : Milp F) (ε τ : F) (hτ : 0 ≤ τ) (htol : 3 * ε + τ < 1) (hs : SolverSound milp ε τ)
    (p : ℤ) (hp : 0 < p) (c c' : ℕ → ℤ) (hc : IsCocycle1Mod p n dist t c)
    (h : repairWith milp M p c = some c') : IntegralLift1 p n dist t c c' := by
  obtain ⟨M', hM', hcols, tris, _, hmem, hrows, hval⟩ := C13_delta1_compact n N D hn hD hsz dist t
  rw [hM] at hM'
  injection hM' with hM'
  subst hM'
  unfold repairWith at h
  simp only at h
  split at h
  · exact absurd h (by simp)
  · rename_i x hx
    injection h with h
    subst h
    obtain ⟨⟨m, hm⟩, hfeas⟩ := hs _ _ _ hx
    refine ⟨?_, fun e => ⟨- rint (x e), by ring⟩⟩
    intro i j k hijk
    obtain ⟨r, hr, hrr⟩ := List.mem_iff_getElem.1 ((hmem i j k).2 hijk)
    have hr' : tris[r]? = some (i, j, k) := by rw [List.getElem?_eq_getElem hr, hrr]
    have hf := hfeas r (by omega)
    rw [hval F x r i j k hr', hval ℤ c r i j k hr'] at hf
    obtain ⟨q, hq⟩ := hc i j k hijk
    rw [hq, Int.mul_ediv_cancel_left _ hp.ne'] at hf
    obtain ⟨⟨h1, h2, _⟩, ⟨h3, h4, _⟩, ⟨h5, h6, _⟩⟩ := hijk
    have e1 := hm (edgeIdx i j) (by rw [hcols]; exact edgeIdx_lt h1 h2)
    have e2 := hm (edgeIdx j k) (by rw [hcols]; exact edgeIdx_lt h3 h4)
    have e3 := hm (edgeIdx i k) (by rw [hcols]; exact edgeIdx_lt h5 h6)
    have hε : ε < 1 / 2 := by
      have := abs_nonneg (x (edgeIdx i j) - m (edgeIdx i j))
      linarith
    beta_reduce
    rw [rint_eq (e1.trans_lt hε), rint_eq (e2.trans_lt hε), rint_eq (e3.trans_lt hε)]
    have hz : m (edgeIdx i j) + m (edgeIdx j k) - m (edgeIdx i k) = q := by
      apply int_eq_of_abs_lt (F := F)
      push_cast
      rw [abs_le] at e1 e2 e3 hf
      rw [abs_lt]
      constructor <;> linarith [e1.1, e1.2, e2.1, e2.2, e3.1, e3.2, hf.1, hf.2]
    linear_combination hq - p * hz

/-- **C19 (triangles).** The same for 2-cochains, with `4 ε + τ < 1`. -/
theorem C19_repaired_two_cochain (n N D : ℕ) (hn : n ≤ N) (hD : 3 ≤ D) (hsz : n ≤ 2345) (dist : ℕ → ℕ → K) (t : K)
    (hsz' : ∀ l : List (ℕ × ℕ × ℕ × ℕ), l.Nodup → (∀ x ∈ l, RipsTetra n dist t x.1 x.2.1 x.2.2.1 x.2.2.2) →
      l.length ≤ 2 ^ 31)
    (M : SparseMat) (hM : makeDelta2Compact n dist t (cnsTable N D) = .ok M)
    (milp : Milp F) (ε τ : F) (hτ : 0 ≤ τ) (htol : 4 * ε + τ < 1) (hs : SolverSound milp ε τ)
    (p : ℤ) (hp : 0 < p) (c c' : ℕ → ℤ) (hc : IsCocycle2Mod p n dist t c)
    (h : repairWith milp M p c = some c') : IntegralLift2 p n dist t c c' := by
  obtain ⟨M', hM', hcols, tets, _, hmem, hrows, hval⟩ := C13_delta2_compact n N D hn hD hsz dist t hsz'
  rw [hM] at hM'
  injection hM' with hM'
  subst hM'
  unfold repairWith at h
  simp only at h
  split at h
  · exact absurd h (by simp)
  · rename_i x hx
    injection h with h
    subst h
    obtain ⟨⟨m, hm⟩, hfeas⟩ := hs _ _ _ hx
    refine ⟨?_, fun e => ⟨- rint (x e), by ring⟩⟩
    intro i j k l hijk
    obtain ⟨r, hr, hrr⟩ := List.mem_iff_getElem.1 ((hmem i j k l).2 hijk)
    have hr' : tets[r]? = some (i, j, k, l) := by rw [List.getElem?_eq_getElem hr, hrr]
    have hf := hfeas r (by omega)
    rw [hval F x r i j k l hr', hval ℤ c r i j k l hr'] at hf
    obtain ⟨q, hq⟩ := hc i j k l hijk
    rw [hq, Int.mul_ediv_cancel_left _ hp.ne'] at hf
    obtain ⟨⟨⟨h1, h2, _⟩, ⟨h3, h4, _⟩, _⟩, _, _, ⟨h5, h6, _⟩⟩ := hijk
    have e1 := hm (triIdx i j k) (by rw [hcols]; exact triIdx_lt h1 h3 h4)
    have e2 := hm (triIdx i j l) (by rw [hcols]; exact triIdx_lt h1 (by omega) h6)
    have e3 := hm (triIdx i k l) (by rw [hcols]; exact triIdx_lt (by omega) h5 h6)
    have e4 := hm (triIdx j k l) (by rw [hcols]; exact triIdx_lt h3 h5 h6)
    have hε : ε < 1 / 2 := by
      have := abs_nonneg (x (triIdx i j k) - m (triIdx i j k))
      linarith
    beta_reduce
    rw [rint_eq (e1.trans_lt hε), rint_eq (e2.trans_lt hε), rint_eq (e3.trans_lt hε), rint_eq (e4.trans_lt hε)]
    have hz : m (triIdx i j k) - m (triIdx i j l) + m (triIdx i k l) - m (triIdx j k l) = q := by
      apply int_eq_of_abs_lt (F := F)
      push_cast
      rw [abs_le] at e1 e2 e3 e4 hf
      rw [abs_lt]
      constructor <;> linarith [e1.1, e1.2, e2.1, e2.2, e3.1, e3.2, e4.1, e4.2, hf.1, hf.2]
    linear_combination hq - p * hz

/-- **C20.** For a cocycle modulo `p`, the integer program `δ z = (δ c) // p` is feasible iff there is an integer
cocycle congruent to `c` modulo `p`. -/
theorem C20_feasible_iff_lift (n N D : ℕ) (hn : n ≤ N) (hD : 2 ≤ D) (hsz : n ≤ 2345) (dist : ℕ → ℕ → K) (t : K)
    (M : SparseMat) (hM : makeDelta1Compact n dist t (cnsTable N D) = .ok M)
    (p : ℤ) (hp : 0 < p) (c : ℕ → ℤ) (hc : IsCocycle1Mod p n dist t c) :
    (∃ z : ℕ → ℤ, ∀ r < M.nRows, M.mulVec z r = M.mulVec c r / p) ↔ ∃ c', IntegralLift1 p n dist t c c' := by
  obtain ⟨M', hM', hcols, tris, _, hmem, hrows, hval⟩ := C13_delta1_compact n N D hn hD hsz dist t
  rw [hM] at hM'
  injection hM' with hM'
  subst hM'
  constructor
  · rintro ⟨z, hz⟩
    refine ⟨fun e => c e - p * z e, ?_, fun e => ⟨- z e, by ring⟩⟩
    intro i j k hijk
    obtain ⟨r, hr, hrr⟩ := List.mem_iff_getElem.1 ((hmem i j k).2 hijk)
    have hr' : tris[r]? = some (i, j, k) := by rw [List.getElem?_eq_getElem hr, hrr]
    have := hz r (by omega)
    obtain ⟨q, hq⟩ := hc i j k hijk
    rw [hval ℤ z r i j k hr', hval ℤ c r i j k hr', hq, Int.mul_ediv_cancel_left _ hp.ne'] at this
    linear_combination hq - p * this
  · rintro ⟨c', hc', hcong⟩
    choose w hw using hcong
    refine ⟨fun e => - w e, ?_⟩
    intro r hr
    rw [hrows] at hr
    rcases hx : tris[r] with ⟨i, j, k⟩
    have hr' : tris[r]? = some (i, j, k) := by rw [List.getElem?_eq_getElem hr, hx]
    have hijk := (hmem i j k).1 (hx ▸ List.getElem_mem hr)
    rw [hval ℤ _ r i j k hr', hval ℤ c r i j k hr']
    obtain ⟨q, hq⟩ := hc i j k hijk
    rw [hq, Int.mul_ediv_cancel_left _ hp.ne']
    have h0 := hc' i j k hijk
    have : p * (-w (edgeIdx i j) + -w (edgeIdx j k) - -w (edgeIdx i k)) = p * q := by
      linear_combination hq - h0 + hw (edgeIdx i j) + hw (edgeIdx j k) - hw (edgeIdx i k)
    exact Int.eq_of_mul_eq_mul_left hp.ne' this

/-- The answer of the repair step with a correct solver: it fails iff there is no integral lift. -/
theorem repairWith_none_iff (n N D : ℕ) (hn : n ≤ N) (hD : 2 ≤ D) (hsz : n ≤ 2345) (dist : ℕ → ℕ → K) (t : K)
    (M : SparseMat) (hM : makeDelta1Compact n dist t (cnsTable N D) = .ok M)
    (milp : Milp F) (ε τ : F) (hτ : 0 ≤ τ) (htol : 3 * ε + τ < 1) (hs : SolverSound milp ε τ)
    (hcpl : SolverComplete milp) (p : ℤ) (hp : 0 < p) (c : ℕ → ℤ) (hc : IsCocycle1Mod p n dist t c) :
    repairWith milp M p c = none ↔ ¬ ∃ c', IntegralLift1 p n dist t c c' := by
  constructor
  · intro h
    rw [← C20_feasible_iff_lift n N D hn hD hsz dist t M hM p hp c hc]
    unfold repairWith at h
    simp only at h
    split at h
    · rename_i hnone
      exact hcpl _ _ hnone
    · exact absurd h (by simp)
  · intro h
    rcases hr : repairWith milp M p c with _ | c'
    · rfl
    · exact absurd ⟨c', C19_repaired_one_cochain n N D hn hD hsz dist t M hM milp ε τ hτ htol hs p hp c c' hc hr⟩ h

/-- **C20.** With a correct solver, `get_coordinates` on one class raises the "no integral lift" error iff the class
has no integral lift. -/
theorem C20_error_iff_no_lift (n N D : ℕ) (hn : n ≤ N) (hD : 2 ≤ D) (hsz : n ≤ 2345) (dist : ℕ → ℕ → K) (t : K)
    (milp : Milp F) (ε τ : F) (hτ : 0 ≤ τ) (htol : 3 * ε + τ < 1) (hs : SolverSound milp ε τ)
    (hcpl : SolverComplete milp) (p : ℤ) (hp : 0 < p) (c : ℕ → ℤ) (hc : IsCocycle1Mod p n dist t c) :
    (∃ i, checkAndRepair milp n dist t (cnsTable N D) p true [c] = .error (.noIntegralLift i)) ↔
      ¬ ∃ c', IntegralLift1 p n dist t c c' := by
  obtain ⟨M, hM, -⟩ := C13_delta1_compact n N D hn hD hsz dist t
  have key := repairWith_none_iff n N D hn hD hsz dist t M hM milp ε τ hτ htol hs hcpl p hp c hc
  have hchk := C17_one_cocycle_check n N D hn (by omega) dist t c
  unfold checkAndRepair
  simp only [if_true, repairLoop, deltaOr, hM, bind, Except.bind, pure, Except.pure]
  by_cases h1 : (isOneCocycle c n dist t (cnsTable N D)).1 = true
  · rw [if_pos h1]
    have : ∃ c', IntegralLift1 p n dist t c c' := ⟨c, hchk.1 h1, fun e => by simp⟩
    simp [this]
  · rw [if_neg h1, ← key]
    rcases repairWith milp M p c with _ | c' <;> simp

/-! ### Several classes -/

theorem sparseTruth_delta1 {n N D : ℕ} (hn : n ≤ N) (hD : 2 ≤ D) (hsz : n ≤ 2345) {dist : ℕ → ℕ → K} {t : K}
    {M : SparseMat} (hM : makeDelta1Compact n dist t (cnsTable N D) = .ok M) : sparseTruth M = .error .valueError := by
  obtain ⟨M', hM', hcols, tris, _, hmem, hrows, hval⟩ := C13_delta1_compact n N D hn hD hsz dist t
  rw [hM] at hM'
  injection hM' with hM'
  subst hM'
  unfold sparseTruth
  rw [if_neg]
  rintro ⟨h1, h2⟩
  rw [hcols] at h2
  have : tris ≠ [] := by intro h; rw [h] at hrows; simp [hrows] at h1
  obtain ⟨⟨i, j, k⟩, hx⟩ := List.exists_mem_of_ne_nil _ this
  obtain ⟨⟨h3, _, _⟩, ⟨h4, h5, _⟩, _⟩ := (hmem i j k).1 hx
  have : Nat.choose 3 2 ≤ Nat.choose n 2 := Nat.choose_le_choose 2 (by omega)
  rw [h2] at this
  revert this; decide

/-- Once `delta1` is set, classes that pass the check are kept as they are. -/
theorem repairLoop_cocycles (milp : Milp F) {n N D : ℕ} (hn : n ≤ N) (hD : 1 ≤ D) (dist : ℕ → ℕ → K) (t : K) (p : ℤ)
    (idx : ℕ) (d : Option SparseMat) (cs : List (ℕ → ℤ)) (h : ∀ c ∈ cs, IsCocycle1 n dist t c) :
    repairLoop milp n dist t (cnsTable N D) p idx d cs = .ok cs := by
  induction cs generalizing idx with
  | nil => rfl
  | cons c cs ih =>
    rw [repairLoop, if_pos ((C17_one_cocycle_check n N D hn hD dist t c).2 (h c (by simp))),
      ih _ (fun c' hc' => h c' (by simp [hc']))]
    rfl

theorem repairLoop_append (milp : Milp F) {n N D : ℕ} (hn : n ≤ N) (hD : 1 ≤ D) (dist : ℕ → ℕ → K) (t : K) (p : ℤ)
    (idx : ℕ) (d : Option SparseMat) (pre cs : List (ℕ → ℤ)) (h : ∀ c ∈ pre, IsCocycle1 n dist t c) :
    repairLoop milp n dist t (cnsTable N D) p idx d (pre ++ cs) =
      (do let r ← repairLoop milp n dist t (cnsTable N D) p (idx + pre.length) d cs; pure (pre ++ r)) := by
  induction pre generalizing idx with
  | nil =>
    simp only [List.nil_append, List.length_nil, Nat.add_zero, bind, Except.bind, pure, Except.pure]
    rcases repairLoop milp n dist t (cnsTable N D) p idx d cs with _ | _ <;> rfl
  | cons c pre ih =>
    rw [List.cons_append, repairLoop, if_pos ((C17_one_cocycle_check n N D hn hD dist t c).2 (h c (by simp))),
      ih _ (fun c' hc' => h c' (by simp [hc']))]
    rw [show idx + 1 + pre.length = idx + (c :: pre).length by rw [List.length_cons]; omega]
    simp only [bind, Except.bind, pure, Except.pure]
    rcases repairLoop milp n dist t (cnsTable N D) p (idx + (c :: pre).length) d cs with _ | _ <;> rfl

/-- **C21 (partial).** If at most one of the selected classes needs fixing (here: `c`, after `pre` and before `post`,
all of which already are integer cocycles) then with a correct solver the outcome is right: either `c` has an
integral lift and exactly one is substituted, the other classes being untouched, or it has none and the error is
raised.  Missing from the full statement: two or more classes needing repair, where the program fails
(`C21_second_repair_crashes`). -/
theorem C21_repairs_one_class_partial (n N D : ℕ) (hn : n ≤ N) (hD : 2 ≤ D) (hsz : n ≤ 2345) (dist : ℕ → ℕ → K)
    (t : K) (milp : Milp F) (ε τ : F) (hτ : 0 ≤ τ) (htol : 3 * ε + τ < 1) (hs : SolverSound milp ε τ)
    (hcpl : SolverComplete milp) (p : ℤ) (hp : 0 < p) (pre post : List (ℕ → ℤ)) (c : ℕ → ℤ)
    (hpre : ∀ x ∈ pre, IsCocycle1 n dist t x) (hpost : ∀ x ∈ post, IsCocycle1 n dist t x)
    (hc : IsCocycle1Mod p n dist t c) :
    ((∃ c', IntegralLift1 p n dist t c c') → ∃ c', IntegralLift1 p n dist t c c' ∧
      checkAndRepair milp n dist t (cnsTable N D) p true (pre ++ c :: post) = .ok (pre ++ c' :: post)) ∧
    ((¬ ∃ c', IntegralLift1 p n dist t c c') →
      checkAndRepair milp n dist t (cnsTable N D) p true (pre ++ c :: post) = .error (.noIntegralLift pre.length)) := by
  obtain ⟨M, hM, -⟩ := C13_delta1_compact n N D hn hD hsz dist t
  have key := repairWith_none_iff n N D hn hD hsz dist t M hM milp ε τ hτ htol hs hcpl p hp c hc
  have hchk := C17_one_cocycle_check n N D hn (by omega) dist t c
  unfold checkAndRepair
  simp only [if_true]
  rw [repairLoop_append milp hn (by omega) dist t p 0 none pre _ hpre, repairLoop]
  by_cases h1 : (isOneCocycle c n dist t (cnsTable N D)).1 = true
  · rw [if_pos h1, repairLoop_cocycles milp hn (by omega) dist t p _ _ post hpost]
    have hlift : IntegralLift1 p n dist t c c := ⟨hchk.1 h1, fun e => by simp⟩
    exact ⟨fun _ => ⟨c, hlift, rfl⟩, fun h => absurd ⟨c, hlift⟩ h⟩
  · rw [if_neg h1]
    simp only [deltaOr, hM, bind, Except.bind, pure, Except.pure, Nat.zero_add]
    rcases hr : repairWith milp M p c with _ | c'
    · exact ⟨fun h => absurd h (key.1 hr), fun _ => rfl⟩
    · have hl := C19_repaired_one_cochain n N D hn hD hsz dist t M hM milp ε τ hτ htol hs p hp c c' hc hr
      simp only
      rw [repairLoop_cocycles milp hn (by omega) dist t p _ _ post hpost]
      exact ⟨fun _ => ⟨c', hl, rfl⟩, fun h => absurd ⟨c', hl⟩ h⟩

/-- **C21 is false.** Whatever the data and the solver: if two of the selected classes fail the check and the first
one is repaired successfully, the call raises a `ValueError` (truth value of a sparse array), even if both have
integral lifts. -/
theorem C21_second_repair_crashes (n N D : ℕ) (hn : n ≤ N) (hD : 2 ≤ D) (hsz : n ≤ 2345) (dist : ℕ → ℕ → K)
    (t : K) (milp : Milp F) (hcpl : SolverComplete milp) (p : ℤ) (hp : 0 < p)
    (pre mid post : List (ℕ → ℤ)) (c₁ c₂ : ℕ → ℤ)
    (hpre : ∀ x ∈ pre, IsCocycle1 n dist t x) (hmid : ∀ x ∈ mid, IsCocycle1 n dist t x)
    (hc₁ : IsCocycle1Mod p n dist t c₁) (hlift : ∃ c', IntegralLift1 p n dist t c₁ c')
    (h₁ : ¬ IsCocycle1 n dist t c₁) (h₂ : ¬ IsCocycle1 n dist t c₂) :
    checkAndRepair milp n dist t (cnsTable N D) p true (pre ++ c₁ :: (mid ++ c₂ :: post)) = .error .valueError := by
  obtain ⟨M, hM, -⟩ := C13_delta1_compact n N D hn hD hsz dist t
  have hr : ∃ c', repairWith milp M p c₁ = some c' := by
    rcases hr : repairWith milp M p c₁ with _ | c'
    · exfalso
      unfold repairWith at hr
      simp only at hr
      split at hr
      · rename_i hnone
        exact hcpl _ _ hnone ((C20_feasible_iff_lift n N D hn hD hsz dist t M hM p hp c₁ hc₁).2 hlift)
      · exact absurd hr (by simp)
    · exact ⟨c', rfl⟩
  obtain ⟨c', hr⟩ := hr
  rw [← C17_one_cocycle_check n N D hn (by omega) dist t] at h₁ h₂
  unfold checkAndRepair
  simp only [if_true]
  rw [repairLoop_append milp hn (by omega) dist t p 0 none pre _ hpre, repairLoop, if_neg h₁]
  simp only [deltaOr, hM, bind, Except.bind, hr]
  rw [repairLoop_append milp hn (by omega) dist t p _ (some M) mid _ hmid, repairLoop, if_neg h₂]
  simp only [deltaOr, sparseTruth_delta1 hn hD hsz hM, bind, Except.bind]

/-- **C22 is false.** Whenever the lifted 2-cochain is not an integer cocycle, the call as shipped raises `NameError`
(the module never imports `scipy`), whatever the data and the solver, so even if an integral lift exists. -/
theorem C22_repair_raises_name_error (n N D : ℕ) (hn : n ≤ N) (hD : 3 ≤ D) (hsz : n ≤ 2345) (dist : ℕ → ℕ → K)
    (t : K)
    (hsz' : ∀ l : List (ℕ × ℕ × ℕ × ℕ), l.Nodup → (∀ x ∈ l, RipsTetra n dist t x.1 x.2.1 x.2.2.1 x.2.2.2) →
      l.length ≤ 2 ^ 31)
    (milp : Milp F) (p idx : ℤ) (c : ℕ → ℤ) (hc : ¬ IsCocycle2 n dist t c) :
    checkAndRepair2AsIs milp n dist t (cnsTable N D) p idx true c = .error .nameError := by
  obtain ⟨M, hM, -⟩ := C13_delta2_compact n N D hn hD hsz dist t hsz'
  rw [← C18_two_cocycle_check n N D hn (by omega) dist t] at hc
  unfold checkAndRepair2AsIs checkAndRepair2
  rw [if_pos ⟨rfl, by simpa using hc⟩]
  simp only [hM, bind, Except.bind, if_true]

/-- The integer program for 2-cochains is feasible if there is an integral lift. -/
theorem feasible2_of_lift (n N D : ℕ) (hn : n ≤ N) (hD : 3 ≤ D) (hsz : n ≤ 2345) (dist : ℕ → ℕ → K) (t : K)
    (hsz' : ∀ l : List (ℕ × ℕ × ℕ × ℕ), l.Nodup → (∀ x ∈ l, RipsTetra n dist t x.1 x.2.1 x.2.2.1 x.2.2.2) →
      l.length ≤ 2 ^ 31)
    (M : SparseMat) (hM : makeDelta2Compact n dist t (cnsTable N D) = .ok M)
    (p : ℤ) (hp : 0 < p) (c : ℕ → ℤ) (hc : IsCocycle2Mod p n dist t c) (c' : ℕ → ℤ) (hl : IntegralLift2 p n dist t c c') :
    ∃ z : ℕ → ℤ, ∀ r < M.nRows, M.mulVec z r = M.mulVec c r / p := by
  obtain ⟨M', hM', hcols, tets, _, hmem, hrows, hval⟩ := C13_delta2_compact n N D hn hD hsz dist t hsz'
  rw [hM] at hM'
  injection hM' with hM'
  subst hM'
  obtain ⟨hc', hcong⟩ := hl
  choose w hw using hcong
  refine ⟨fun e => - w e, ?_⟩
  intro r hr
  rw [hrows] at hr
  rcases hx : tets[r] with ⟨i, j, k, l⟩
  have hr' : tets[r]? = some (i, j, k, l) := by rw [List.getElem?_eq_getElem hr, hx]
  have hijk := (hmem i j k l).1 (hx ▸ List.getElem_mem hr)
  rw [hval ℤ _ r i j k l hr', hval ℤ c r i j k l hr']
  obtain ⟨q, hq⟩ := hc i j k l hijk
  rw [hq, Int.mul_ediv_cancel_left _ hp.ne']
  have h0 := hc' i j k l hijk
  have : p * (-w (triIdx i j k) - -w (triIdx i j l) + -w (triIdx i k l) - -w (triIdx j k l)) = p * q := by
    linear_combination hq - h0 + hw (triIdx i j k) - hw (triIdx i j l) + hw (triIdx i k l) - hw (triIdx j k l)
  exact Int.eq_of_mul_eq_mul_left hp.ne' this

/-- **C22 (partial).** A lifted 2-cochain that already is an integer cocycle is accepted unchanged; and if the name
`scipy` were bound, a correct solver would return an integral lift if there is one and raise the error naming the
selected class otherwise.  Missing: the shipped code raises `NameError` instead (`C22_repair_raises_name_error`). -/
theorem C22_repair_if_imported_partial (n N D : ℕ) (hn : n ≤ N) (hD : 3 ≤ D) (hsz : n ≤ 2345) (dist : ℕ → ℕ → K)
    (t : K)
    (hsz' : ∀ l : List (ℕ × ℕ × ℕ × ℕ), l.Nodup → (∀ x ∈ l, RipsTetra n dist t x.1 x.2.1 x.2.2.1 x.2.2.2) →
      l.length ≤ 2 ^ 31)
    (milp : Milp F) (ε τ : F) (hτ : 0 ≤ τ) (htol : 4 * ε + τ < 1) (hs : SolverSound milp ε τ) (hcpl : SolverComplete milp)
    (p idx : ℤ) (hp : 0 < p) (c : ℕ → ℤ) (hc : IsCocycle2Mod p n dist t c) :
    (IsCocycle2 n dist t c → checkAndRepair2AsIs milp n dist t (cnsTable N D) p idx true c = .ok c) ∧
    ((∃ c', IntegralLift2 p n dist t c c') → ∃ c', IntegralLift2 p n dist t c c' ∧
      checkAndRepair2 true milp n dist t (cnsTable N D) p idx true c = .ok c') ∧
    ((¬ ∃ c', IntegralLift2 p n dist t c c') →
      checkAndRepair2 true milp n dist t (cnsTable N D) p idx true c = .error (.noIntegralLift idx)) := by
  obtain ⟨M, hM, -⟩ := C13_delta2_compact n N D hn hD hsz dist t hsz'
  have hchk := C18_two_cocycle_check n N D hn (by omega) dist t c
  refine ⟨fun h => ?_, ?_⟩
  · rw [← hchk] at h
    unfold checkAndRepair2AsIs checkAndRepair2
    rw [if_neg (by simp [h])]
  · by_cases h1 : isTwoCocycle c n dist t (cnsTable N D) = true
    · have hl : IntegralLift2 p n dist t c c := ⟨hchk.1 h1, fun e => by simp⟩
      unfold checkAndRepair2
      rw [if_neg (by simp [h1])]
      exact ⟨fun _ => ⟨c, hl, rfl⟩, fun h => absurd ⟨c, hl⟩ h⟩
    · unfold checkAndRepair2
      rw [if_pos ⟨rfl, by simpa using h1⟩]
      simp only [hM, bind, Except.bind, Bool.true_eq_false, if_false]
      rcases hr : repairWith milp M p c with _ | c'
      · refine ⟨fun ⟨c', hl⟩ => ?_, fun _ => rfl⟩
        exfalso
        unfold repairWith at hr
        simp only at hr
        split at hr
        · rename_i hnone
          exact hcpl _ _ hnone (feasible2_of_lift n N D hn hD hsz dist t hsz' M hM p hp c hc c' hl)
        · exact absurd hr (by simp)
      · have hl := C19_repaired_two_cochain n N D hn hD hsz dist t hsz' M hM milp ε τ hτ htol hs p hp c c' hc hr
        exact ⟨fun _ => ⟨c', hl, rfl⟩, fun h => absurd ⟨c', hl⟩ h⟩

/-- **C23 (partial).** The index in the error message is the *position in the list of selected classes* of the first
class without an integral lift.  Missing: it is not the class index the user passed (`C23_wrong_index`). -/
theorem C23_error_position_partial (n N D : ℕ) (hn : n ≤ N) (hD : 2 ≤ D) (hsz : n ≤ 2345) (dist : ℕ → ℕ → K)
    (t : K) (milp : Milp F) (ε τ : F) (hτ : 0 ≤ τ) (htol : 3 * ε + τ < 1) (hs : SolverSound milp ε τ)
    (hcpl : SolverComplete milp) (p : ℤ) (hp : 0 < p) (pre post : List (ℕ → ℤ)) (c : ℕ → ℤ)
    (hpre : ∀ x ∈ pre, IsCocycle1 n dist t x) (hpost : ∀ x ∈ post, IsCocycle1 n dist t x)
    (hc : IsCocycle1Mod p n dist t c) (hno : ¬ ∃ c', IntegralLift1 p n dist t c c') :
    checkAndRepair milp n dist t (cnsTable N D) p true (pre ++ c :: post) = .error (.noIntegralLift pre.length) :=
  (C21_repairs_one_class_partial n N D hn hD hsz dist t milp ε τ hτ htol hs hcpl p hp pre post c hpre hpost hc).2 hno

/-- **C23 is false.** If the user selects the single class `idx` and it has no integral lift, the message names the
class at index `0`, whatever `idx` is; nothing of `idx` survives into the repair step. -/
theorem C23_wrong_index (n N D : ℕ) (hn : n ≤ N) (hD : 2 ≤ D) (hsz : n ≤ 2345) (dist : ℕ → ℕ → K)
    (t : K) (milp : Milp F) (ε τ : F) (hτ : 0 ≤ τ) (htol : 3 * ε + τ < 1) (hs : SolverSound milp ε τ)
    (hcpl : SolverComplete milp) (p : ℤ) (hp : 0 < p) (classes : List (ℕ → ℤ)) (idx : ℕ) (c : ℕ → ℤ)
    (_hsel : classes[idx]? = some c) (hidx : idx ≠ 0)
    (hc : IsCocycle1Mod p n dist t c) (hno : ¬ ∃ c', IntegralLift1 p n dist t c c') :
    ∃ i, checkAndRepair milp n dist t (cnsTable N D) p true [c] = .error (.noIntegralLift i) ∧ i ≠ idx :=
  ⟨0, C23_error_position_partial n N D hn hD hsz dist t milp ε τ hτ htol hs hcpl p hp [] [] c (by simp) (by simp) hc hno,
    by exact_mod_cast (Ne.symm hidx)⟩

end

/-! ### Non-vacuity -/

section ideal
variable {F : Type} [Field F] [LinearOrder F] [IsStrictOrderedRing F]

/-- An ideal solver exists. -/
noncomputable def idealMilp : Milp F := by
  classical
  exact fun A y => if h : ∃ z : ℕ → ℤ, ∀ r < A.nRows, A.mulVec z r = y r then some fun e => (h.choose e : F) else none

theorem mulVec_cast (A : SparseMat) (z : ℕ → ℤ) (r : ℕ) :
    A.mulVec (fun e => (z e : F)) r = ((A.mulVec z r : ℤ) : F) := by
  unfold SparseMat.mulVec
  induction A.entries with
  | nil => simp
  | cons e l ih =>
    simp only [List.map_cons, List.sum_cons, ih]
    push_cast
    split <;> simp

theorem idealMilp_sound : SolverSound (idealMilp : Milp F) (1 / 10) (1 / 10) := by
  intro A y x hx
  unfold idealMilp at hx
  split at hx
  · rename_i h
    injection hx with hx
    subst hx
    refine ⟨⟨h.choose, fun e _ => by norm_num⟩, fun r hr => ?_⟩
    rw [mulVec_cast, h.choose_spec r hr]
    norm_num
  · exact absurd hx (by simp)

theorem idealMilp_complete : SolverComplete (idealMilp : Milp F) := by
  intro A y hx
  unfold idealMilp at hx
  split at hx
  · exact absurd hx (by simp)
  · assumption

end ideal

example : (3 : ℚ) * (1 / 10) + 1 / 10 < 1 ∧ (4 : ℚ) * (1 / 10) + 1 / 10 < 1 := by norm_num

/-- A cochain on a filled triangle that is a cocycle modulo 3 and not over `ℤ`, with an integral lift. -/
def exampleCochain : ℕ → ℤ := fun e => if e = 0 then 1 else if e = 2 then 1 else if e = 1 then -1 else 0

example : IsCocycle1Mod 3 3 (fun _ _ => (1 : ℕ)) 2 exampleCochain ∧
    ¬ IsCocycle1 3 (fun _ _ => (1 : ℕ)) 2 exampleCochain ∧
    ∃ c', IntegralLift1 3 3 (fun _ _ => (1 : ℕ)) 2 exampleCochain c' := by
  have tri : ∀ i j k, RipsTriangle 3 (fun _ _ => (1 : ℕ)) 2 i j k → i = 0 ∧ j = 1 ∧ k = 2 := by
    rintro i j k ⟨⟨h1, _, _⟩, ⟨h2, h3, _⟩, _⟩; omega
  refine ⟨?_, ?_, fun e => if e = 1 then 2 else exampleCochain e, ?_, ?_⟩
  · intro i j k h
    obtain ⟨rfl, rfl, rfl⟩ := tri i j k h
    decide
  · intro h
    have := h 0 1 2 ⟨⟨by decide, by decide, by decide⟩, ⟨by decide, by decide, by decide⟩,
      ⟨by decide, by decide, by decide⟩⟩
    revert this; decide
  · intro i j k h
    obtain ⟨rfl, rfl, rfl⟩ := tri i j k h
    decide
  · intro e
    by_cases h : e = 1
    · subst h; decide
    · simp [h]

/-- **C19, C40 (rounding).** `np.rint` and `round` as modelled: a nearest integer, the even one on ties. -/
theorem C19_rint_half_even {F : Type} [Field F] [LinearOrder F] [IsStrictOrderedRing F] [FloorRing F] (x : F) :
    |x - rint x| ≤ 1 / 2 ∧ (|x - rint x| = 1 / 2 → Even (rint x)) := by
  have h0 := Int.fract_nonneg x
  have h1 := Int.fract_lt_one x
  have hx : x = ⌊x⌋ + Int.fract x := (Int.floor_add_fract x).symm
  unfold rint
  split_ifs with h2 h3 h4
  · have : x - (⌊x⌋ : F) = Int.fract x := by linarith
    rw [this, abs_of_nonneg h0]
    exact ⟨h2.le, fun h => absurd h h2.ne⟩
  · have : x - ((⌊x⌋ + 1 : ℤ) : F) = -(1 - Int.fract x) := by push_cast; linarith
    rw [this, abs_neg, abs_of_nonneg (by linarith)]
    exact ⟨by linarith, fun h => by linarith⟩
  · have e : Int.fract x = 1 / 2 := le_antisymm (not_lt.1 h3) (not_lt.1 h2)
    have : x - (⌊x⌋ : F) = 1 / 2 := by linarith
    rw [this, abs_of_pos (by norm_num)]
    exact ⟨le_rfl, fun _ => Int.even_iff.2 h4⟩
  · have e : Int.fract x = 1 / 2 := le_antisymm (not_lt.1 h3) (not_lt.1 h2)
    have : x - ((⌊x⌋ + 1 : ℤ) : F) = -(1 / 2) := by push_cast; linarith
    rw [this, abs_neg, abs_of_pos (by norm_num)]
    exact ⟨le_rfl, fun _ => Int.even_iff.2 (by omega)⟩

example : rint (5 / 2 : ℚ) = 2 ∧ rint (7 / 2 : ℚ) = 4 ∧ rint (-5 / 2 : ℚ) = -2 ∧ rint (9 / 4 : ℚ) = 2 := by decide +kernel

end Dreimac
