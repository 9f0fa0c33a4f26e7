import Mathlib.Tactic.IntervalCases
import Verif.Lemmas.ClassMap
import Verif.Props.Cocycle

/-! # Lemmas about complex projective class maps -/

namespace Dreimac

open Real

/-! ### antisymmetry -/

section
variable {R : Type} [Ring R] (c : ℕ → R)

theorem triVal_swap12 (a b d : ℕ) : triVal c b a d = -triVal c a b d := by
  unfold triVal
  split_ifs <;> first | omega | simp

theorem triVal_swap23 (a b d : ℕ) : triVal c a d b = -triVal c a b d := by
  unfold triVal
  split_ifs <;> first | omega | simp

theorem triVal_swap13 (a b d : ℕ) : triVal c d b a = -triVal c a b d := by
  unfold triVal
  split_ifs <;> first | omega | simp

theorem triVal_rot (a b d : ℕ) : triVal c b d a = triVal c a b d := by
  unfold triVal
  split_ifs <;> first | omega | simp

theorem triVal_sorted {a b d : ℕ} (h1 : a < b) (h2 : b < d) : triVal c a b d = c (triIdx a b d) := by
  simp [triVal, h1, h2]

theorem triVal_self12 (a d : ℕ) : triVal c a a d = 0 := by
  unfold triVal
  split_ifs <;> first | omega | rfl

theorem triVal_self23 (a d : ℕ) : triVal c a d d = 0 := by
  unfold triVal
  split_ifs <;> first | omega | rfl

theorem triVal_self13 (a d : ℕ) : triVal c a d a = 0 := by
  unfold triVal
  split_ifs <;> first | omega | rfl

end

theorem triVal_cast (c : ℕ → ℤ) (a b d : ℕ) : triVal (fun e => (c e : ℝ)) a b d = ((triVal c a b d : ℤ) : ℝ) := by
  unfold triVal
  split_ifs <;> simp

/-! ### the cocycle condition for vertices in any order -/

section
variable {K : Type} [LinearOrder K] {n : ℕ} {dist : ℕ → ℕ → K} {t : K} {c : ℕ → ℤ}

/-- The coboundary of a 2-cochain on four landmarks. -/
def cob2 (c : ℕ → ℤ) (a b d e : ℕ) : ℤ := triVal c a b d - triVal c a b e + triVal c a d e - triVal c b d e

theorem cob2_swap12 (a b d e : ℕ) : cob2 c b a d e = -cob2 c a b d e := by
  unfold cob2; rw [triVal_swap12 c a b d, triVal_swap12 c a b e]; ring

theorem cob2_swap23 (a b d e : ℕ) : cob2 c a d b e = -cob2 c a b d e := by
  unfold cob2; rw [triVal_swap23 c a b d, triVal_swap12 c b d e]; ring

theorem cob2_swap34 (a b d e : ℕ) : cob2 c a b e d = -cob2 c a b d e := by
  unfold cob2; rw [triVal_swap23 c a d e, triVal_swap23 c b d e]; ring

/-- Four landmarks that are pairwise equal or joined by an edge. -/
def RipsRel4 (n : ℕ) (dist : ℕ → ℕ → K) (t : K) (a b d e : ℕ) : Prop :=
  RipsRel3 n dist t a b d ∧ RipsRel n dist t a e ∧ RipsRel n dist t b e ∧ RipsRel n dist t d e

theorem RipsRel4.swap12 {a b d e : ℕ} (h : RipsRel4 n dist t a b d e) : RipsRel4 n dist t b a d e :=
  ⟨⟨h.1.1.symm, h.1.2.2, h.1.2.1⟩, h.2.2.1, h.2.1, h.2.2.2⟩

theorem RipsRel4.swap23 {a b d e : ℕ} (h : RipsRel4 n dist t a b d e) : RipsRel4 n dist t a d b e :=
  ⟨⟨h.1.2.2, h.1.2.1.symm, h.1.1⟩, h.2.1, h.2.2.2, h.2.2.1⟩

theorem RipsRel4.swap34 {a b d e : ℕ} (h : RipsRel4 n dist t a b d e) : RipsRel4 n dist t a b e d :=
  ⟨⟨h.1.1, h.2.2.1, h.2.1⟩, h.1.2.2, h.1.2.1, h.2.2.2.symm⟩

theorem cob2_sorted (hc : IsCocycle2 n dist t c) {a b d e : ℕ} (h : RipsRel4 n dist t a b d e) (h1 : a ≤ b) (h2 : b ≤ d)
    (h3 : d ≤ e) : cob2 c a b d e = 0 := by
  rcases h1.eq_or_lt with rfl | h1
  · have := cob2_swap12 (c := c) a a d e; omega
  rcases h2.eq_or_lt with rfl | h2
  · have := cob2_swap23 (c := c) a b b e; omega
  rcases h3.eq_or_lt with rfl | h3
  · have := cob2_swap34 (c := c) a b d d; omega
  obtain ⟨⟨r1, r2, r3⟩, r4, r5, r6⟩ := h
  unfold cob2
  rw [triVal_sorted c h1 h2, triVal_sorted c h1 (h2.trans h3), triVal_sorted c (h1.trans h2) h3, triVal_sorted c h2 h3]
  exact hc a b d e ⟨⟨ripsRel_of_lt r1 h1, ripsRel_of_lt r2 h2, ripsRel_of_lt r3 (h1.trans h2)⟩,
    ripsRel_of_lt r4 (h1.trans (h2.trans h3)), ripsRel_of_lt r5 (h2.trans h3), ripsRel_of_lt r6 h3⟩

theorem cob2_sorted3 (hc : IsCocycle2 n dist t c) {a b d e : ℕ} (h : RipsRel4 n dist t a b d e) (h1 : a ≤ b)
    (h2 : b ≤ d) : cob2 c a b d e = 0 := by
  rcases le_total d e with h3 | h3
  · exact cob2_sorted hc h h1 h2 h3
  rw [← neg_eq_zero, ← cob2_swap34]
  have h := h.swap34
  rcases le_total b e with h4 | h4
  · exact cob2_sorted hc h h1 h4 h3
  rw [← neg_eq_zero, ← cob2_swap23]
  have h := h.swap23
  rcases le_total a e with h5 | h5
  · exact cob2_sorted hc h h5 h4 h2
  rw [← neg_eq_zero, ← cob2_swap12]
  exact cob2_sorted hc h.swap12 h5 h1 h2

theorem cob2_sorted2 (hc : IsCocycle2 n dist t c) {a b d e : ℕ} (h : RipsRel4 n dist t a b d e) (h1 : a ≤ b) :
    cob2 c a b d e = 0 := by
  rcases le_total b d with h2 | h2
  · exact cob2_sorted3 hc h h1 h2
  rw [← neg_eq_zero, ← cob2_swap23]
  have h := h.swap23
  rcases le_total a d with h4 | h4
  · exact cob2_sorted3 hc h h4 h2
  rw [← neg_eq_zero, ← cob2_swap12]
  exact cob2_sorted3 hc h.swap12 h4 h1

/-- The cocycle condition for four vertices in any order. -/
theorem cob2_eq_zero (hc : IsCocycle2 n dist t c) {a b d e : ℕ} (h : RipsRel4 n dist t a b d e) : cob2 c a b d e = 0 := by
  rcases le_total a b with h1 | h1
  · exact cob2_sorted2 hc h h1
  rw [← neg_eq_zero, ← cob2_swap12]
  exact cob2_sorted2 hc h.swap12 h1

end

/-! ### the vectors -/

section
variable {L : ℕ} {dist dll : ℕ → ℕ → ℝ} {r : ℝ} {w : ℕ → ℕ → ℝ} {c : ℕ → ℤ} {ν : ℕ → ℝ}

theorem ripsRel3_of_balls (ht : LandmarkTriangle L dist dll) {a b d i : ℕ} (ha : InBall L dist r a i)
    (hb : InBall L dist r b i) (hd : InBall L dist r d i) : RipsRel3 L dll (2 * r) a b d :=
  ⟨ripsRel_of_balls ht ha hb, ripsRel_of_balls ht hb hd, ripsRel_of_balls ht ha hd⟩

/-- The phases of two balls differ by an integer plus a number that does not depend on the entry. -/
theorem cpPhase_sub (ht : LandmarkTriangle L dist dll) (hw : IsPartitionOfUnity L dist r w)
    (hc : IsCocycle2 L dll (2 * r) c) {l l' i m : ℕ} (hl : InBall L dist r l i) (hl' : InBall L dist r l' i)
    (hm : InBall L dist r m i) :
    cpPhase L dll r w c ν l' i m - cpPhase L dll r w c ν l i m = -(triVal c m l l' : ℤ) +
      ∑ t ∈ Finset.range L, w t i * ((triVal c l l' t : ℤ) + edgeVal ν l t - edgeVal ν l' t) := by
  have hi : ∃ m, InBall L dist r m i := ⟨l, hl⟩
  have h1 : nuForm L dll r ν m l = edgeVal ν m l := if_pos (ripsRel_of_balls ht hm hl)
  have h2 : nuForm L dll r ν m l' = edgeVal ν m l' := if_pos (ripsRel_of_balls ht hm hl')
  unfold cpPhase
  rw [h1, h2]
  have key : ∀ s ∈ Finset.range L, w s i * etaForm L dll r c ν m l' s - w s i * etaForm L dll r c ν m l s =
      w s i * ((triVal c l l' s : ℤ) + edgeVal ν l s - edgeVal ν l' s) +
        (edgeVal ν m l - edgeVal ν m l' - (triVal c m l l' : ℤ)) * w s i := by
    intro s hs
    by_cases hd : dist s i < r
    · have hs' : InBall L dist r s i := ⟨Finset.mem_range.1 hs, hd⟩
      rw [etaForm, etaForm, if_pos (ripsRel3_of_balls ht hm hl' hs'), if_pos (ripsRel3_of_balls ht hm hl hs')]
      have h4 : RipsRel4 L dll (2 * r) m l l' s := ⟨ripsRel3_of_balls ht hm hl hl', ripsRel_of_balls ht hm hs',
        ripsRel_of_balls ht hl hs', ripsRel_of_balls ht hl' hs'⟩
      have h5 := cob2_eq_zero hc h4
      unfold cob2 at h5
      have h6 : ((triVal c m l l' : ℤ) : ℝ) - (triVal c m l s : ℤ) + (triVal c m l' s : ℤ) - (triVal c l l' s : ℤ) = 0 := by
        exact_mod_cast h5
      linear_combination w s i * h6
    · rw [hw.zero hi hd]; ring
  have hsum : ∑ s ∈ Finset.range L, w s i * etaForm L dll r c ν m l' s - ∑ s ∈ Finset.range L, w s i * etaForm L dll r c ν m l s =
      ∑ s ∈ Finset.range L, w s i * ((triVal c l l' s : ℤ) + edgeVal ν l s - edgeVal ν l' s) +
        (edgeVal ν m l - edgeVal ν m l' - (triVal c m l l' : ℤ)) := by
    rw [← Finset.sum_sub_distrib, Finset.sum_congr rfl key, Finset.sum_add_distrib, ← Finset.mul_sum, hw.sum_one i hi, mul_one]
  linear_combination hsum

/-- Two balls containing a data point give vectors that differ by a unit complex factor. -/
theorem cpVector_twist (ht : LandmarkTriangle L dist dll) (hw : IsPartitionOfUnity L dist r w)
    (hc : IsCocycle2 L dll (2 * r) c) {l l' i m : ℕ} (hl : InBall L dist r l i) (hl' : InBall L dist r l' i) (hm : m < L) :
    cpVector L dll r w c ν l' i m =
      Complex.exp (2 * π * Complex.I * ((∑ t ∈ Finset.range L,
        w t i * ((triVal c l l' t : ℤ) + edgeVal ν l t - edgeVal ν l' t) : ℝ) : ℂ)) * cpVector L dll r w c ν l i m := by
  unfold cpVector
  by_cases hd : dist m i < r
  · have h := cpPhase_sub (ν := ν) ht hw hc hl hl' ⟨hm, hd⟩
    have e : cpPhase L dll r w c ν l' i m = ∑ t ∈ Finset.range L,
        w t i * ((triVal c l l' t : ℤ) + edgeVal ν l t - edgeVal ν l' t) + cpPhase L dll r w c ν l i m +
          ((-triVal c m l l' : ℤ) : ℝ) := by
      push_cast; linear_combination h
    rw [e, ← mul_assoc, ← Complex.exp_add]
    congr 1
    rw [Complex.exp_eq_exp_iff_exists_int]
    refine ⟨-triVal c m l l', ?_⟩
    push_cast
    ring
  · rw [hw.zero ⟨l, hl⟩ hd]; simp

theorem norm_phase (y : ℝ) : ‖Complex.exp (2 * π * Complex.I * (y : ℂ))‖ = 1 := by
  have : (2 * π * Complex.I * y : ℂ) = ((2 * π * y : ℝ) : ℂ) * Complex.I := by push_cast; ring
  rw [this, Complex.norm_exp_ofReal_mul_I]

theorem cpVector_norm (hw : IsPartitionOfUnity L dist r w) {l i : ℕ} (hl : InBall L dist r l i) :
    ∑ m ∈ Finset.range L, ‖cpVector L dll r w c ν l i m‖ ^ 2 = 1 := by
  rw [← hw.sum_one i ⟨l, hl⟩]
  apply Finset.sum_congr rfl
  intro m _
  rw [cpVector, norm_mul, norm_phase, one_mul, Complex.norm_real, Real.norm_eq_abs, sq_abs,
    Real.sq_sqrt (hw.nonneg m i ⟨l, hl⟩)]

end

/-! ### the tensors -/

open Classical in
theorem foldl_set3 {α β : Type} (l : List β) (pa pb pc : β → ℕ) (v : β → α) (g : ℕ → ℕ → ℕ → α)
    (h : ∀ e ∈ l, v e = g (pa e) (pb e) (pc e)) (M : ℕ → ℕ → ℕ → α) (i j k : ℕ) :
    (l.foldl (fun M e => set3 M (pa e) (pb e) (pc e) (v e)) M) i j k =
      if ∃ e ∈ l, pa e = i ∧ pb e = j ∧ pc e = k then g i j k else M i j k := by
  induction l generalizing M with
  | nil => simp
  | cons e l ih =>
    rw [List.foldl_cons, ih (fun e he => h e (by simp [he]))]
    by_cases h1 : ∃ e ∈ l, pa e = i ∧ pb e = j ∧ pc e = k
    · obtain ⟨e', he', h2⟩ := h1
      rw [if_pos ⟨e', he', h2⟩, if_pos ⟨e', by simp [he'], h2⟩]
    · rw [if_neg h1, set3_apply]
      by_cases h2 : i = pa e ∧ j = pb e ∧ k = pc e
      · rw [if_pos h2, if_pos ⟨e, by simp, h2.1.symm, h2.2.1.symm, h2.2.2.symm⟩, h e (by simp), h2.1, h2.2.1, h2.2.2]
      · rw [if_neg h2, if_neg]
        rintro ⟨e', he', h3⟩
        rcases List.mem_cons.1 he' with rfl | he'
        · exact h2 ⟨h3.1.symm, h3.2.1.symm, h3.2.2.symm⟩
        · exact h1 ⟨e', he', h3⟩

section
variable {K : Type} [LinearOrder K] {n N D : ℕ} {dist : ℕ → ℕ → K} {t : K}

open Classical in
/-- The tensor of a 1-cochain. -/
theorem oneTensor_apply (hn : n ≤ N) (hD : 1 ≤ D) (ν : ℕ → ℝ) (a b : ℕ) :
    oneTensor ν n dist t (cnsTable N D) a b = if RipsRel n dist t a b then edgeVal ν a b else 0 := by
  let W : ℕ × ℕ → List ((ℕ × ℕ) × ℝ) := fun e =>
    [((e.1, e.2), ν (cnsD1 e.1 e.2 (cnsTable N D))), ((e.2, e.1), -ν (cnsD1 e.1 e.2 (cnsTable N D)))]
  have h : oneTensor ν n dist t (cnsTable N D) =
      ((ripsEdges n dist t).flatMap W).foldl (fun M e => set2 M e.1.1 e.1.2 e.2) fun _ _ => 0 := by
    unfold oneTensor ripsEdges
    simp only [List.foldl_flatMap, foldl_ite_single, W, List.foldl_cons, List.foldl_nil]
  rw [h, foldl_set2 ((ripsEdges n dist t).flatMap W) (fun e : (ℕ × ℕ) × ℝ => e.1.1) (fun e => e.1.2) (fun e => e.2) fun a b => edgeVal ν a b]
  · by_cases h1 : ∃ e ∈ (ripsEdges n dist t).flatMap W, e.1.1 = a ∧ e.1.2 = b
    · rw [if_pos h1, if_pos]
      obtain ⟨e, he, rfl, rfl⟩ := h1
      obtain ⟨⟨i, j⟩, hij, he⟩ := List.mem_flatMap.1 he
      rw [mem_ripsEdges] at hij
      simp only [W, List.mem_cons, List.not_mem_nil, or_false] at he
      rcases he with rfl | rfl
      · exact Or.inr (Or.inl hij)
      · exact Or.inr (Or.inr hij)
    · rw [if_neg h1]
      split
      · next h2 =>
        rcases h2 with rfl | h2 | h2
        · rw [edgeVal_self]
        · exact absurd ⟨((a, b), _), List.mem_flatMap.2 ⟨(a, b), mem_ripsEdges.2 h2, by simp only [W, List.mem_cons]; exact Or.inl rfl⟩,
            rfl, rfl⟩ h1
        · exact absurd ⟨((a, b), _), List.mem_flatMap.2 ⟨(b, a), mem_ripsEdges.2 h2, by
            simp only [W, List.mem_cons]; exact Or.inr (Or.inl rfl)⟩, rfl, rfl⟩ h1
      · rfl
  · intro e he
    obtain ⟨⟨i, j⟩, hij, he⟩ := List.mem_flatMap.1 he
    rw [mem_ripsEdges] at hij
    obtain ⟨h2, h3, -⟩ := hij
    simp only [W, List.mem_cons, List.not_mem_nil, or_false] at he
    have e1 : cnsD1 i j (cnsTable N D) = edgeIdx i j := cnsD1_edgeIdx (by omega) (by omega) hD
    rcases he with rfl | rfl
    · simp only [edgeVal, h2, if_true, e1]
    · simp only [edgeVal, h2, if_true, not_lt_of_gt h2, if_false, e1]

open Classical in
/-- The tensor of a 2-cochain. -/
theorem twoTensor_apply (hn : n ≤ N) (hD : 2 ≤ D) (c : ℕ → ℝ) (a b d : ℕ) :
    twoTensor c n dist t (cnsTable N D) a b d = if RipsRel3 n dist t a b d then triVal c a b d else 0 := by
  let W : ℕ × ℕ × ℕ → List ((ℕ × ℕ × ℕ) × ℝ) := fun e =>
    let v := c (cnsD2 e.1 e.2.1 e.2.2 (cnsTable N D))
    [((e.1, e.2.1, e.2.2), v), ((e.1, e.2.2, e.2.1), -v), ((e.2.1, e.1, e.2.2), -v), ((e.2.2, e.2.1, e.1), -v),
      ((e.2.2, e.1, e.2.1), v), ((e.2.1, e.2.2, e.1), v)]
  have h : twoTensor c n dist t (cnsTable N D) =
      ((ripsTris n dist t).flatMap W).foldl (fun M e => set3 M e.1.1 e.1.2.1 e.1.2.2 e.2) fun _ _ _ => 0 := by
    unfold twoTensor ripsTris
    have hif : ∀ {β γ : Type} (f : β → γ → β) (p : Prop) [Decidable p] (l : List γ) (b : β),
        (if p then l else []).foldl f b = if p then l.foldl f b else b := by
      intro β γ f p _ l b; split <;> rfl
    simp only [List.foldl_flatMap, hif, W, List.foldl_cons, List.foldl_nil]
  rw [h, foldl_set3 ((ripsTris n dist t).flatMap W) (fun e : (ℕ × ℕ × ℕ) × ℝ => e.1.1) (fun e => e.1.2.1) (fun e => e.1.2.2) (fun e => e.2)
    fun a b d => triVal c a b d]
  · have hmem : ∀ i j k, RipsTriangle n dist t i j k → ∀ e ∈ W (i, j, k), e ∈ (ripsTris n dist t).flatMap W :=
      fun i j k hT e he => List.mem_flatMap.2 ⟨(i, j, k), mem_ripsTris.2 hT, he⟩
    by_cases h1 : ∃ e ∈ (ripsTris n dist t).flatMap W, e.1.1 = a ∧ e.1.2.1 = b ∧ e.1.2.2 = d
    · rw [if_pos h1, if_pos]
      obtain ⟨e, he, rfl, rfl, rfl⟩ := h1
      obtain ⟨⟨i, j, k⟩, hij, he⟩ := List.mem_flatMap.1 he
      rw [mem_ripsTris] at hij
      obtain ⟨e1, e2, e3⟩ := hij
      simp only [W, List.mem_cons, List.not_mem_nil, or_false] at he
      have r1 : RipsRel n dist t i j := Or.inr (Or.inl e1)
      have r2 : RipsRel n dist t j k := Or.inr (Or.inl e2)
      have r3 : RipsRel n dist t i k := Or.inr (Or.inl e3)
      rcases he with rfl | rfl | rfl | rfl | rfl | rfl
      · exact ⟨r1, r2, r3⟩
      · exact ⟨r3, r2.symm, r1⟩
      · exact ⟨r1.symm, r3, r2⟩
      · exact ⟨r2.symm, r1.symm, r3.symm⟩
      · exact ⟨r3.symm, r1, r2.symm⟩
      · exact ⟨r2, r3.symm, r1.symm⟩
    · rw [if_neg h1]
      split
      · next h2 =>
        obtain ⟨r1, r2, r3⟩ := h2
        have key : ∀ v, ((a, b, d), v) ∉ (ripsTris n dist t).flatMap W := fun v hv => h1 ⟨_, hv, rfl, rfl, rfl⟩
        rcases lt_trichotomy a b with hab | hab | hab
        · rcases lt_trichotomy b d with hbd | hbd | hbd
          · exact absurd (hmem a b d ⟨ripsRel_of_lt r1 hab, ripsRel_of_lt r2 hbd, ripsRel_of_lt r3 (hab.trans hbd)⟩
              ((a, b, d), _) (by simp only [W, List.mem_cons]; exact Or.inl rfl)) (key _)
          · subst hbd; rw [triVal_self23]
          · rcases lt_trichotomy a d with had | had | had
            · exact absurd (hmem a d b ⟨ripsRel_of_lt r3 had, ripsRel_of_lt r2.symm hbd, ripsRel_of_lt r1 hab⟩
                ((a, b, d), _) (by simp only [W, List.mem_cons]; exact Or.inr (Or.inl rfl))) (key _)
            · subst had; rw [triVal_self13]
            · exact absurd (hmem d a b ⟨ripsRel_of_lt r3.symm had, ripsRel_of_lt r1 hab, ripsRel_of_lt r2.symm hbd⟩
                ((a, b, d), _) (by simp only [W, List.mem_cons]; exact Or.inr (Or.inr (Or.inr (Or.inr (Or.inr (Or.inl rfl))))))) (key _)
        · subst hab; rw [triVal_self12]
        · rcases lt_trichotomy b d with hbd | hbd | hbd
          · rcases lt_trichotomy a d with had | had | had
            · exact absurd (hmem b a d ⟨ripsRel_of_lt r1.symm hab, ripsRel_of_lt r3 had, ripsRel_of_lt r2 hbd⟩
                ((a, b, d), _) (by simp only [W, List.mem_cons]; exact Or.inr (Or.inr (Or.inl rfl)))) (key _)
            · subst had; rw [triVal_self13]
            · exact absurd (hmem b d a ⟨ripsRel_of_lt r2 hbd, ripsRel_of_lt r3.symm had, ripsRel_of_lt r1.symm hab⟩
                ((a, b, d), _) (by simp only [W, List.mem_cons]; exact Or.inr (Or.inr (Or.inr (Or.inr (Or.inl rfl)))))) (key _)
          · subst hbd; rw [triVal_self23]
          · exact absurd (hmem d b a ⟨ripsRel_of_lt r2.symm hbd, ripsRel_of_lt r1.symm hab, ripsRel_of_lt r3.symm (hbd.trans hab)⟩
              ((a, b, d), _) (by simp only [W, List.mem_cons]; exact Or.inr (Or.inr (Or.inr (Or.inl rfl))))) (key _)
      · rfl
  · intro e he
    obtain ⟨⟨i, j, k⟩, hij, he⟩ := List.mem_flatMap.1 he
    rw [mem_ripsTris] at hij
    obtain ⟨⟨h2, h3, -⟩, ⟨h4, h5, -⟩, -⟩ := hij
    simp only [W, List.mem_cons, List.not_mem_nil, or_false] at he
    have e1 : cnsD2 i j k (cnsTable N D) = triIdx i j k := cnsD2_triIdx (by omega) (by omega) (by omega) hD
    have e2 := triVal_sorted c h2 h4
    rw [e1] at he
    rcases he with rfl | rfl | rfl | rfl | rfl | rfl
    · exact e2.symm
    · simp only; rw [triVal_swap23, e2]
    · simp only; rw [triVal_swap12, e2]
    · simp only; rw [triVal_swap13, e2]
    · simp only; rw [← triVal_rot c k i j, e2]
    · simp only; rw [triVal_rot, e2]

end

/-! ### real distances -/

theorem ripsRel_coe (n : ℕ) (dist : ℕ → ℕ → ℝ) (t : ℝ) (a b : ℕ) :
    RipsRel n (fun l m => (dist l m : EReal)) (t : EReal) a b ↔ RipsRel n dist t a b := by
  unfold RipsRel; simp only [ripsEdge_coe]

theorem ripsRel3_coe (n : ℕ) (dist : ℕ → ℕ → ℝ) (t : ℝ) (a b d : ℕ) :
    RipsRel3 n (fun l m => (dist l m : EReal)) (t : EReal) a b d ↔ RipsRel3 n dist t a b d := by
  unfold RipsRel3; simp only [ripsRel_coe]

theorem isCocycle2_coe (n : ℕ) (dist : ℕ → ℕ → ℝ) (t : ℝ) (c : ℕ → ℤ) :
    IsCocycle2 n (fun l m => (dist l m : EReal)) (t : EReal) c ↔ IsCocycle2 n dist t c := by
  unfold IsCocycle2 RipsTetra RipsTriangle; simp only [ripsEdge_coe]

/-! ### the harmonic representative on triangles in any order -/

section
variable {K : Type} [LinearOrder K] {n : ℕ} {dist : ℕ → ℕ → K} {t : K}

theorem harm_tri {h ν : ℕ → ℝ} {c : ℕ → ℤ}
    (hh : ∀ i j k, RipsTriangle n dist t i j k →
      h (triIdx i j k) = (c (triIdx i j k) : ℝ) - (ν (edgeIdx i j) + ν (edgeIdx j k) - ν (edgeIdx i k)))
    {a b d : ℕ} (hr : RipsRel3 n dist t a b d) :
    triVal h a b d = (triVal c a b d : ℤ) - (edgeVal ν a b + edgeVal ν b d - edgeVal ν a d) := by
  let G : ℕ → ℕ → ℕ → ℝ := fun a b d =>
    triVal h a b d - ((triVal c a b d : ℤ) - (edgeVal ν a b + edgeVal ν b d - edgeVal ν a d))
  have s12 : ∀ a b d, G b a d = -G a b d := by
    intro a b d
    simp only [G, triVal_swap12 h a b d, triVal_swap12 c a b d, edgeVal_antisymm ν a b]
    push_cast; ring
  have s23 : ∀ a b d, G a d b = -G a b d := by
    intro a b d
    simp only [G, triVal_swap23 h a b d, triVal_swap23 c a b d, edgeVal_antisymm ν b d]
    push_cast; ring
  have w12 : ∀ {a b d}, RipsRel3 n dist t a b d → RipsRel3 n dist t b a d := fun h => ⟨h.1.symm, h.2.2, h.2.1⟩
  have w23 : ∀ {a b d}, RipsRel3 n dist t a b d → RipsRel3 n dist t a d b := fun h => ⟨h.2.2, h.2.1.symm, h.1⟩
  have sorted : ∀ a b d, RipsRel3 n dist t a b d → a ≤ b → b ≤ d → G a b d = 0 := by
    intro a b d hr h1 h2
    rcases h1.eq_or_lt with rfl | h1
    · have := s12 a a d; linarith
    rcases h2.eq_or_lt with rfl | h2
    · have := s23 a b b; linarith
    have e := hh a b d ⟨ripsRel_of_lt hr.1 h1, ripsRel_of_lt hr.2.1 h2, ripsRel_of_lt hr.2.2 (h1.trans h2)⟩
    simp only [G, triVal_sorted h h1 h2, triVal_sorted c h1 h2, edgeVal, h1, h2, h1.trans h2, if_true, e]
    ring
  have sorted2 : ∀ a b d, RipsRel3 n dist t a b d → a ≤ b → G a b d = 0 := by
    intro a b d hr h1
    rcases le_total b d with h2 | h2
    · exact sorted a b d hr h1 h2
    rw [← neg_eq_zero, ← s23]
    rcases le_total a d with h3 | h3
    · exact sorted a d b (w23 hr) h3 h2
    rw [← neg_eq_zero, ← s12]
    exact sorted d a b (w12 (w23 hr)) h3 h1
  have : G a b d = 0 := by
    rcases le_total a b with h1 | h1
    · exact sorted2 a b d hr h1
    rw [← neg_eq_zero, ← s12]
    exact sorted2 b a d (w12 hr) h1
  simp only [G] at this
  linarith

end

/-! ### the accumulated phases -/

theorem accumulate_fin {L : ℕ} {nu : ℕ → ℕ → ℝ} {eta : ℕ → ℕ → ℕ → ℝ} {cov : Covering ℝ} {b : ℕ} {w : ℕ → ℝ}
    (hw : ∀ l, cov.varphi l b = .fin (w l)) (i : ℕ) :
    accumulate L nu eta cov b i =
      .fin (nu i (cov.ballIndx b) + ∑ t ∈ Finset.range L, w t * eta i (cov.ballIndx b) t) := by
  unfold accumulate
  induction L with
  | zero => simp only [List.range_zero, List.foldl_nil, Finset.range_zero, Finset.sum_empty, Fl.fin_add]; congr 1; ring
  | succ L ih =>
    rw [List.range_succ, List.foldl_append, ih]
    simp only [List.foldl_cons, List.foldl_nil, hw, Fl.fin_mul, Fl.fin_add, Finset.sum_range_succ]
    congr 1; ring

/-! ### what a successful call has computed -/

theorem cp_success {env : CPOracles} {fuel : ℕ} {o : ProjObj} {a : ProjArgs} {X : Arr ℂ}
    (h : (cpGetCoordinates env fuel o a).2 = .ok X) :
    ∃ b d s radius cov delta1 v c V, getRepresentativeCocycle o.dgms o.cocycles a.cocycleIdx 2 = .ok (b, d, s) ∧
      getCoverRadius a.perc b d a.standardRange = .ok radius ∧
      getCoveringPartition o.dtype o.nLand o.nData (fun l i => Fl.fin (o.dist l i)) radius.1 a.bump = .ok cov ∧
      makeDelta1 o.nLand (fun l m => (o.distLandLand l m : EReal)) (ripsThr radius.2) o.table = .ok delta1 ∧
      sparseCocycleToVector 2 (liftToIntegerCocycle s o.prime) o.table o.nLand = .ok v ∧
      checkAndRepair2AsIs env.milp o.nLand (fun l m => (o.distLandLand l m : EReal)) (ripsThr radius.2) o.table o.prime
        a.cocycleIdx.toInt a.check (fun e => v.getD e 0) = .ok c ∧
      ppca env.eigh fuel (sparseIntegrate2 (harmonic2 env.lsqr c delta1).1 (harmonic2 env.lsqr c delta1).2 cov o.nLand
        o.nData (fun l m => (o.distLandLand l m : EReal)) (ripsThr radius.2) o.table) a.dim a.mode = .ok ⟨V, X⟩ ∧
      (cpGetCoordinates env fuel o a).1 = { o with
        radius := some radius, cocycles := o.cocycles.modify 2 (liftSelected o.prime [a.cocycleIdx]), variance := some V } := by
  unfold cpGetCoordinates at h ⊢
  generalize getRepresentativeCocycle o.dgms o.cocycles a.cocycleIdx 2 = e1 at h ⊢
  rcases e1 with e | ⟨b, d, s⟩
  · cases h
  simp only at h ⊢
  generalize h2 : getCoverRadius a.perc b d a.standardRange = e2 at h ⊢
  rcases e2 with e | radius
  · cases h
  simp only at h ⊢
  generalize h3 : getCoveringPartition o.dtype o.nLand o.nData (fun l i => Fl.fin (o.dist l i)) radius.1 a.bump = e3 at h ⊢
  rcases e3 with e | cov
  · cases h
  simp only at h ⊢
  generalize h4 : makeDelta1 o.nLand (fun l m => (o.distLandLand l m : EReal)) (ripsThr radius.2) o.table = e4 at h ⊢
  rcases e4 with e | delta1
  · cases h
  simp only at h ⊢
  generalize h5 : sparseCocycleToVector 2 (liftToIntegerCocycle s o.prime) o.table o.nLand = e5 at h ⊢
  rcases e5 with e | v
  · cases h
  simp only at h ⊢
  generalize h6 : checkAndRepair2AsIs env.milp o.nLand (fun l m => (o.distLandLand l m : EReal)) (ripsThr radius.2) o.table o.prime
        a.cocycleIdx.toInt a.check (fun e => v.getD e 0) = e6 at h ⊢
  rcases e6 with e | c
  · cases h
  simp only at h ⊢
  generalize h7 : ppca env.eigh fuel (sparseIntegrate2 (harmonic2 env.lsqr c delta1).1 (harmonic2 env.lsqr c delta1).2 cov o.nLand
        o.nData (fun l m => (o.distLandLand l m : EReal)) (ripsThr radius.2) o.table) a.dim a.mode = e7 at h ⊢
  rcases e7 with e | ⟨V, X'⟩
  · cases h
  simp only [Except.ok.injEq] at h ⊢
  subst h
  exact ⟨b, d, s, radius, cov, delta1, v, c, V, rfl, h2, h3, h4, h5, h6, h7, rfl⟩

/-- The code as it is never repairs: a successful call used the lifted cochain itself, which is a cocycle if the check
was on. -/
theorem repair2_asIs {K F : Type} [LinearOrder K] [Field F] [LinearOrder F] [IsStrictOrderedRing F] [FloorRing F]
    {milp : Milp F} {n N D : ℕ} (hn : n ≤ N) (hD : 2 ≤ D) {dist : ℕ → ℕ → K} {t : K} {p idx : ℤ} {check : Bool}
    {c c' : ℕ → ℤ} (h : checkAndRepair2AsIs milp n dist t (cnsTable N D) p idx check c = .ok c') :
    c' = c ∧ (check = true → IsCocycle2 n dist t c) := by
  unfold checkAndRepair2AsIs checkAndRepair2 at h
  split at h
  · exfalso
    generalize makeDelta2Compact n dist t (cnsTable N D) = e at h
    rcases e with e | M <;> simp [bind, Except.bind] at h
  · next hne =>
    simp only [Except.ok.injEq] at h
    refine ⟨h.symm, fun hc => ?_⟩
    rw [← C18_two_cocycle_check n N D hn hD dist t c]
    by_contra h'
    exact hne ⟨hc, by simpa using h'⟩

theorem ripsTriangle_coe' (n : ℕ) (d : ℕ → ℕ → ℝ) (t : ℝ) (i j k : ℕ) :
    RipsTriangle n (fun l m => (d l m : EReal)) (t : EReal) i j k ↔ RipsTriangle n d t i j k := by
  simp only [RipsTriangle, RipsEdge, EReal.coe_lt_coe_iff]

/-- With an exact solver the potential minimises the energy. -/
theorem integral2_minimises {lsqr : Lsqr} (hex : ExactLsq lsqr) {n : ℕ} {dll : ℕ → ℕ → ℝ} {r : ℝ} {M : SparseMat}
    (hrows : M.nRows = Nat.choose n 3)
    (hM : ∀ (x : ℕ → ℝ) (i j k : ℕ), i < j → j < k → k < n →
      (RipsTriangle n (fun l m => (dll l m : EReal)) ((2 * r : ℝ) : EReal) i j k →
        M.mulVec x (triIdx i j k) = x (edgeIdx i j) + x (edgeIdx j k) - x (edgeIdx i k)) ∧
      (¬ RipsTriangle n (fun l m => (dll l m : EReal)) ((2 * r : ℝ) : EReal) i j k → M.mulVec x (triIdx i j k) = 0))
    (c : ℕ → ℤ) (g : ℕ → ℝ) :
    formEnergy2 n dll r c (harmonic2 lsqr c M).2 ≤ formEnergy2 n dll r c g := by
  classical
  have hE : ∀ x : ℕ → ℝ, ∑ e ∈ Finset.range M.nRows, (M.mulVec x e - (c e : ℝ)) ^ 2 =
      formEnergy2 n dll r c x + ∑ i ∈ Finset.range n, ∑ j ∈ Finset.range n, ∑ k ∈ Finset.range n,
        if i < j ∧ j < k ∧ ¬ RipsTriangle n dll (2 * r) i j k then (c (triIdx i j k) : ℝ) ^ 2 else 0 := by
    intro x
    rw [hrows, sum_slots3]
    unfold formEnergy2
    simp only [← Finset.sum_add_distrib]
    apply Finset.sum_congr rfl; intro i _
    apply Finset.sum_congr rfl; intro j _
    apply Finset.sum_congr rfl; intro k hk
    by_cases h : i < j ∧ j < k
    · rw [if_pos h]
      have hm := hM x i j k h.1 h.2 (Finset.mem_range.1 hk)
      rw [ripsTriangle_coe'] at hm
      by_cases ht : RipsTriangle n dll (2 * r) i j k
      · rw [hm.1 ht, if_pos ht, if_neg (fun h' => h'.2.2 ht)]; ring
      · rw [hm.2 ht, if_neg ht, if_pos ⟨h.1, h.2, ht⟩]; ring
    · rw [if_neg h, if_neg (fun ht => h ⟨ht.1.1, ht.2.1.1⟩), if_neg (fun h' => h ⟨h'.1, h'.2.1⟩), add_zero]
  have := hex M (fun e => (c e : ℝ)) g
  rw [hE, hE] at this
  show formEnergy2 n dll r c (lsqr M fun e => (c e : ℝ)) ≤ _
  linarith

end Dreimac
