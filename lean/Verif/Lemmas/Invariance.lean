import Mathlib.Data.List.Basic
import Verif.Spec.Invariance
import Verif.Lemmas.ToroidalState

/-! # What the results depend on: congruence lemmas for the loops -/

namespace Dreimac

theorem mem_pyRange {a b i : ℕ} : i ∈ pyRange a b ↔ a ≤ i ∧ i < b := by
  unfold pyRange
  rw [List.mem_range'_1]
  omega

theorem foldlM_congr {α β : Type} {f g : β → α → Except PyErr β} {l : List α}
    (h : ∀ b, ∀ a ∈ l, f b a = g b a) (b : β) : l.foldlM f b = l.foldlM g b := by
  induction l generalizing b with
  | nil => rfl
  | cons a l ih =>
    rw [List.foldlM_cons, List.foldlM_cons, h b a List.mem_cons_self]
    congr 1
    funext x
    exact ih (fun b a ha => h b a (List.mem_cons_of_mem _ ha)) x

theorem foldl_rel {α β γ : Type} (R : β → γ → Prop) {f : β → α → β} {g : γ → α → γ} {l : List α}
    (h : ∀ b c, ∀ a ∈ l, R b c → R (f b a) (g c a)) (b : β) (c : γ) (hbc : R b c) :
    R (l.foldl f b) (l.foldl g c) := by
  induction l generalizing b c with
  | nil => exact hbc
  | cons a l ih =>
    exact ih (fun b c a ha => h b c a (List.mem_cons_of_mem _ ha)) _ _ (h b c a List.mem_cons_self hbc)

theorem find?_congr_mem {α : Type} {f g : α → Bool} {l : List α} (h : ∀ a ∈ l, f a = g a) : l.find? f = l.find? g := by
  induction l with
  | nil => rfl
  | cons a l ih =>
    rw [List.find?_cons, List.find?_cons, h a List.mem_cons_self,
      ih fun b hb => h b (List.mem_cons_of_mem _ hb)]

/-- The two distance tables have the same Rips edges at their thresholds. -/
def SameEdges {K K' : Type} [LT K] [LT K'] (n : ℕ) (dist : ℕ → ℕ → K) (t : K) (dist' : ℕ → ℕ → K') (t' : K') : Prop :=
  ∀ i j, i < j → j < n → (dist' i j < t' ↔ dist i j < t)

section loops
variable {K K' : Type} [LinearOrder K] [LinearOrder K'] {n : ℕ} {dist : ℕ → ℕ → K} {t : K} {dist' : ℕ → ℕ → K'} {t' : K'}

theorem makeDelta0_congr (h : SameEdges n dist t dist' t') (T : Table) :
    makeDelta0 n dist' t' T = makeDelta0 n dist t T := by
  unfold makeDelta0 delta0Loop
  simp only
  congr 1
  refine foldlM_congr (fun buf i hi => foldlM_congr (fun buf j hj => ?_) _) _
  have hi := mem_pyRange.1 hi; have hj := mem_pyRange.1 hj
  simp only [h i j (by omega) hj.2]

theorem makeInnerProduct_congr (h : SameEdges n dist t dist' t') (T : Table) :
    makeInnerProduct n dist' t' T = makeInnerProduct n dist t T := by
  unfold makeInnerProduct innerProductLoop
  simp only
  congr 1
  refine foldlM_congr (fun buf i hi => foldlM_congr (fun buf j hj => ?_) _) _
  have hi := mem_pyRange.1 hi; have hj := mem_pyRange.1 hj
  simp only [h i j (by omega) hj.2]

theorem makeDelta1_congr (h : SameEdges n dist t dist' t') (T : Table) :
    makeDelta1 n dist' t' T = makeDelta1 n dist t T := by
  unfold makeDelta1 delta1Loop
  simp only
  congr 1
  refine foldlM_congr (fun buf i hi => foldlM_congr (fun buf j hj => ?_) _) _
  have hi := mem_pyRange.1 hi; have hj := mem_pyRange.1 hj
  simp only [h i j (by omega) hj.2]
  split
  · refine foldlM_congr (fun buf k hk => ?_) _
    have hk := mem_pyRange.1 hk
    simp only [h i k (by omega) hk.2, h j k (by omega) hk.2]
  · rfl

theorem makeDelta1Compact_congr (h : SameEdges n dist t dist' t') (T : Table) :
    makeDelta1Compact n dist' t' T = makeDelta1Compact n dist t T := by
  unfold makeDelta1Compact delta1CompactLoop
  simp only
  congr 1
  refine foldlM_congr (fun buf i hi => foldlM_congr (fun buf j hj => ?_) _) _
  have hi := mem_pyRange.1 hi; have hj := mem_pyRange.1 hj
  simp only [h i j (by omega) hj.2]
  split
  · refine foldlM_congr (fun buf k hk => ?_) _
    have hk := mem_pyRange.1 hk
    simp only [h i k (by omega) hk.2, h j k (by omega) hk.2]
  · rfl

theorem makeDelta2Compact_congr (h : SameEdges n dist t dist' t') (T : Table) :
    makeDelta2Compact n dist' t' T = makeDelta2Compact n dist t T := by
  unfold makeDelta2Compact delta2CompactLoop
  simp only
  congr 1
  refine foldlM_congr (fun buf i hi => foldlM_congr (fun buf j hj => ?_) _) _
  have hi := mem_pyRange.1 hi; have hj := mem_pyRange.1 hj
  simp only [h i j (by omega) hj.2]
  split
  · refine foldlM_congr (fun buf k hk => ?_) _
    have hk := mem_pyRange.1 hk
    simp only [h i k (by omega) hk.2, h j k (by omega) hk.2]
    split
    · refine foldlM_congr (fun buf l hl => ?_) _
      have hl := mem_pyRange.1 hl
      simp only [h i l (by omega) hl.2, h j l (by omega) hl.2, h k l (by omega) hl.2]
    · rfl
  · rfl

theorem isOneCocycle_congr (h : SameEdges n dist t dist' t') (T : Table) (c : ℕ → ℤ) :
    (isOneCocycle c n dist' t' T).1 = (isOneCocycle c n dist t T).1 := by
  unfold isOneCocycle
  refine foldl_rel (fun (b : Bool × WithTop K') (c : Bool × WithTop K) => b.1 = c.1) (fun b c i hi hb => ?_) _ _ rfl
  refine foldl_rel (fun (b : Bool × WithTop K') (c : Bool × WithTop K) => b.1 = c.1) (fun b c j hj hb => ?_) _ _ hb
  have hi := mem_pyRange.1 hi; have hj := mem_pyRange.1 hj
  simp only [h i j (by omega) hj.2]
  split
  · refine foldl_rel (fun (b : Bool × WithTop K') (c : Bool × WithTop K) => b.1 = c.1) (fun b c k hk hb => ?_) _ _ hb
    have hk := mem_pyRange.1 hk
    simp only [h i k (by omega) hk.2, h j k (by omega) hk.2]
    split
    · split
      · rfl
      · exact hb
    · exact hb
  · exact hb

theorem isTwoCocycle_congr (h : SameEdges n dist t dist' t') (T : Table) (c : ℕ → ℤ) :
    isTwoCocycle c n dist' t' T = isTwoCocycle c n dist t T := by
  unfold isTwoCocycle
  refine foldl_rel (fun (b c : Bool) => b = c) (fun b c i hi hb => ?_) _ _ rfl
  refine foldl_rel (fun (b c : Bool) => b = c) (fun b c j hj hb => ?_) _ _ hb
  have hi := mem_pyRange.1 hi; have hj := mem_pyRange.1 hj
  simp only [h i j (by omega) hj.2]
  split
  · refine foldl_rel (fun (b c : Bool) => b = c) (fun b c k hk hb => ?_) _ _ hb
    have hk := mem_pyRange.1 hk
    simp only [h i k (by omega) hk.2, h j k (by omega) hk.2]
    split
    · refine foldl_rel (fun (b c : Bool) => b = c) (fun b c l hl hb => ?_) _ _ hb
      have hl := mem_pyRange.1 hl
      simp only [h i l (by omega) hl.2, h j l (by omega) hl.2, h k l (by omega) hl.2]
      rw [hb]
    · exact hb
  · exact hb

theorem thetaMatrix_congr (h : SameEdges n dist t dist' t') (T : Table) (harm : ℕ → ℝ) :
    thetaMatrix harm n dist' t' T = thetaMatrix harm n dist t T := by
  unfold thetaMatrix
  refine foldl_rel (fun (b c : ℕ → ℕ → ℝ) => b = c) (fun b c i hi hb => ?_) _ _ rfl
  refine foldl_rel (fun (b c : ℕ → ℕ → ℝ) => b = c) (fun b c j hj hb => ?_) _ _ hb
  have hi := mem_pyRange.1 hi; have hj := mem_pyRange.1 hj
  simp only [h i j (by omega) hj.2]
  rw [hb]

theorem oneTensor_congr (h : SameEdges n dist t dist' t') (T : Table) (x : ℕ → ℝ) :
    oneTensor x n dist' t' T = oneTensor x n dist t T := by
  unfold oneTensor
  refine foldl_rel (fun (b c : ℕ → ℕ → ℝ) => b = c) (fun b c i hi hb => ?_) _ _ rfl
  refine foldl_rel (fun (b c : ℕ → ℕ → ℝ) => b = c) (fun b c j hj hb => ?_) _ _ hb
  have hi := mem_pyRange.1 hi; have hj := mem_pyRange.1 hj
  simp only [h i j (by omega) hj.2]
  rw [hb]

theorem twoTensor_congr (h : SameEdges n dist t dist' t') (T : Table) (x : ℕ → ℝ) :
    twoTensor x n dist' t' T = twoTensor x n dist t T := by
  unfold twoTensor
  refine foldl_rel (fun (b c : ℕ → ℕ → ℕ → ℝ) => b = c) (fun b c i hi hb => ?_) _ _ rfl
  refine foldl_rel (fun (b c : ℕ → ℕ → ℕ → ℝ) => b = c) (fun b c j hj hb => ?_) _ _ hb
  have hi := mem_pyRange.1 hi; have hj := mem_pyRange.1 hj
  simp only [h i j (by omega) hj.2]
  split
  · refine foldl_rel (fun (b c : ℕ → ℕ → ℕ → ℝ) => b = c) (fun b c k hk hb => ?_) _ _ hb
    have hk := mem_pyRange.1 hk
    simp only [h i k (by omega) hk.2, h j k (by omega) hk.2]
    rw [hb]
  · exact hb

variable {F : Type} [Field F] [LinearOrder F] [IsStrictOrderedRing F] [FloorRing F]

theorem repairLoop_congr (h : SameEdges n dist t dist' t') (T : Table) (milp : Milp F) (p : ℤ) (idx : ℕ)
    (d : Option SparseMat) (cs : List (ℕ → ℤ)) :
    repairLoop milp n dist' t' T p idx d cs = repairLoop milp n dist t T p idx d cs := by
  induction cs generalizing idx d with
  | nil => rfl
  | cons c cs ih =>
    unfold repairLoop
    simp only [isOneCocycle_congr h, makeDelta1Compact_congr h, ih]

theorem checkAndRepair_congr (h : SameEdges n dist t dist' t') (T : Table) (milp : Milp F) (p : ℤ) (check : Bool)
    (cs : List (ℕ → ℤ)) : checkAndRepair milp n dist' t' T p check cs = checkAndRepair milp n dist t T p check cs := by
  unfold checkAndRepair
  rw [repairLoop_congr h]

theorem checkAndRepair2_congr (h : SameEdges n dist t dist' t') (T : Table) (b : Bool) (milp : Milp F) (p z : ℤ)
    (check : Bool) (c : ℕ → ℤ) :
    checkAndRepair2 b milp n dist' t' T p z check c = checkAndRepair2 b milp n dist t T p z check c := by
  unfold checkAndRepair2
  simp only [isTwoCocycle_congr h, makeDelta2Compact_congr h]

end loops

/-! ### units -/

section scale
variable {c : ℝ} (hc : 0 < c)

@[simp] theorem Fl.scale_fin (x : ℝ) : (Fl.fin x).scale c = .fin (c * x) := rfl
@[simp] theorem Fl.scale_nan : (Fl.nan : Fl ℝ).scale c = .nan := rfl
@[simp] theorem Fl.scale_pinf : (Fl.pinf : Fl ℝ).scale c = .pinf := rfl
@[simp] theorem Fl.scale_ninf : (Fl.ninf : Fl ℝ).scale c = .ninf := rfl

theorem Fl.scale_one (v : Fl ℝ) : v.scale 1 = v := by cases v <;> simp [Fl.scale]

theorem scaleDgms_one (d : List (List (Fl ℝ × Fl ℝ))) : scaleDgms 1 d = d := by
  unfold scaleDgms; simp [Fl.scale_one]

include hc

theorem Fl.infSign_scale (x : ℝ) : Fl.infSign (c * x) = Fl.infSign x := by
  unfold Fl.infSign
  have h1 : 0 < c * x ↔ 0 < x := mul_pos_iff_of_pos_left hc
  have h2 : c * x < 0 ↔ x < 0 := by rw [mul_neg_iff]; simp [hc, hc.le, not_lt.2 hc.le]
  simp only [h1, h2]

theorem Fl.add_scale (a b : Fl ℝ) : a.scale c + b.scale c = (a + b).scale c := by
  show Fl.add _ _ = Fl.scale c (Fl.add _ _)
  cases a <;> cases b <;> simp [Fl.add, Fl.scale, mul_add]

theorem Fl.neg_scale (a : Fl ℝ) : -(a.scale c) = (-a).scale c := by
  show Fl.neg _ = Fl.scale c (Fl.neg _)
  cases a <;> simp [Fl.neg, Fl.scale]

theorem Fl.sub_scale (a b : Fl ℝ) : a.scale c - b.scale c = (a - b).scale c := by
  show a.scale c + -(b.scale c) = (a + -b).scale c
  rw [Fl.neg_scale hc, Fl.add_scale hc]

theorem Fl.mul_scale (a b : Fl ℝ) : a * b.scale c = (a * b).scale c := by
  show Fl.mul _ _ = Fl.scale c (Fl.mul _ _)
  have hs : ∀ x : ℝ, Fl.scale c (Fl.infSign x) = Fl.infSign x := by
    intro x; unfold Fl.infSign; split_ifs <;> rfl
  have hn : ∀ x : ℝ, Fl.scale c (Fl.neg (Fl.infSign x)) = Fl.neg (Fl.infSign x) := by
    intro x; unfold Fl.infSign; split_ifs <;> rfl
  cases a <;> cases b <;> simp [Fl.mul, hs, hn, Fl.infSign_scale hc, mul_left_comm]

theorem Fl.scale_mul (a b : Fl ℝ) : a.scale c * b = (a * b).scale c := by
  show Fl.mul _ _ = Fl.scale c (Fl.mul _ _)
  have hs : ∀ x : ℝ, Fl.scale c (Fl.infSign x) = Fl.infSign x := by
    intro x; unfold Fl.infSign; split_ifs <;> rfl
  have hn : ∀ x : ℝ, Fl.scale c (Fl.neg (Fl.infSign x)) = Fl.neg (Fl.infSign x) := by
    intro x; unfold Fl.infSign; split_ifs <;> rfl
  cases a <;> cases b <;> simp [Fl.mul, hs, hn, Fl.infSign_scale hc, mul_assoc]

theorem Fl.div_scale (a b : Fl ℝ) : a.scale c / b.scale c = a / b := by
  show Fl.div _ _ = Fl.div _ _
  have h2 : ∀ x : ℝ, c * x < 0 ↔ x < 0 := by
    intro x; rw [mul_neg_iff]; simp [hc, not_lt.2 hc.le]
  cases a <;> cases b <;> simp [Fl.div, Fl.scale, Fl.infSign_scale hc, h2, hc.ne', mul_div_mul_left]

theorem Fl.scale_div (a : Fl ℝ) (y : ℝ) (hy : 0 < y) : a.scale c / Fl.fin y = (a / Fl.fin y).scale c := by
  show Fl.div _ _ = Fl.scale c (Fl.div _ _)
  cases a <;> simp [Fl.div, Fl.scale, hy.ne', not_lt.2 hy.le, mul_div_assoc]

theorem Fl.lt_scale (a b : Fl ℝ) : Fl.lt (a.scale c) (b.scale c) = Fl.lt a b := by
  cases a <;> cases b <;> simp [Fl.lt, Fl.scale, hc]

theorem Fl.isZero_scale (a : Fl ℝ) : (a.scale c).isZero = a.isZero := by
  cases a <;> simp [Fl.isZero, Fl.scale, hc.ne']

theorem Fl.isNan_scale (a : Fl ℝ) : (a.scale c).isNan = a.isNan := by
  cases a <;> simp [Fl.isNan, Fl.scale]

theorem flSum_scale (l : List ℕ) (f : ℕ → Fl ℝ) :
    flSum (l.map fun x => (f x).scale c) = (flSum (l.map f)).scale c := by
  unfold flSum
  have h : ∀ (l : List (Fl ℝ)) (a : Fl ℝ), (l.map (Fl.scale c)).foldl (· + ·) (a.scale c) = (l.foldl (· + ·) a).scale c := by
    intro l
    induction l with
    | nil => intro a; rfl
    | cons x l ih => intro a; simp only [List.map_cons, List.foldl_cons]; rw [Fl.add_scale hc, ih]
  have h0 : (0 : Fl ℝ) = (0 : Fl ℝ).scale c := by simp [Fl.zero_def, Fl.scale]
  have e : (l.map fun x => (f x).scale c) = (l.map f).map (Fl.scale c) := by simp
  rw [e]
  conv_lhs => rw [h0, h]

theorem ripsThr_scale (x : ℝ) (t : Fl ℝ) : ((c * x : ℝ) : EReal) < ripsThr (t.scale c) ↔ (x : EReal) < ripsThr t := by
  cases t with
  | fin y => simp only [ripsThr, Fl.scale, EReal.coe_lt_coe_iff]; exact mul_lt_mul_iff_right₀ hc
  | nan => simp [ripsThr, Fl.scale]
  | pinf => simp only [ripsThr, Fl.scale, EReal.coe_lt_top]
  | ninf => simp [ripsThr, Fl.scale]

theorem getCoverRadius_scale (perc b d : Fl ℝ) (sr : Bool) :
    getCoverRadius perc (b.scale c) (d.scale c) sr =
      (getCoverRadius perc b d sr).map fun q => (q.1.scale c, q.2.scale c) := by
  unfold getCoverRadius
  have hstart : (if sr then Fl.fin 2 * b.scale c else b.scale c) = (if sr then Fl.fin 2 * b else b).scale c := by
    split
    · exact Fl.mul_scale hc _ _
    · rfl
  simp only [hstart, Fl.lt_scale hc]
  generalize (if sr then Fl.fin 2 * b else b) = s
  split
  · rfl
  · simp only [Except.map, Fl.mul_scale hc, Fl.add_scale hc, Fl.scale_div hc _ 2 (by norm_num)]

theorem pyMax_scale (x : Fl ℝ) (xs : List (Fl ℝ)) :
    pyMax (x.scale c) (xs.map (Fl.scale c)) = (pyMax x xs).scale c := by
  unfold pyMax
  induction xs generalizing x with
  | nil => rfl
  | cons y l ih =>
    simp only [List.map_cons, List.foldl_cons, Fl.lt_scale hc]
    split <;> exact ih _

theorem pyMin_scale (x : Fl ℝ) (xs : List (Fl ℝ)) :
    pyMin (x.scale c) (xs.map (Fl.scale c)) = (pyMin x xs).scale c := by
  unfold pyMin
  induction xs generalizing x with
  | nil => rfl
  | cons y l ih =>
    simp only [List.map_cons, List.foldl_cons, Fl.lt_scale hc]
    split <;> exact ih _

theorem Fl.ge_scale (a b : Fl ℝ) : Fl.ge (a.scale c) (b.scale c) = Fl.ge a b := by
  unfold Fl.ge
  rw [Fl.isNan_scale hc, Fl.isNan_scale hc, Fl.lt_scale hc]

/-- The provided bump functions do not depend on the unit. -/
theorem unitFree_linear : UnitFree c bumpLinear := ⟨c, hc, fun _ _ => Fl.sub_scale hc _ _⟩

theorem unitFree_quadratic : UnitFree c bumpQuadratic := by
  refine ⟨c * c, mul_pos hc hc, fun d r => ?_⟩
  unfold bumpQuadratic
  rw [Fl.sub_scale hc, Fl.mul_scale hc, Fl.scale_mul hc]
  cases (r - d) * (r - d) <;> simp [mul_assoc]

theorem unitFree_exp : UnitFree c bumpExp := by
  refine ⟨1, one_pos, fun d r => ?_⟩
  unfold bumpExp
  rw [Fl.scale_one]
  simp only [Fl.mul_scale hc, Fl.scale_mul hc]
  rw [Fl.sub_scale hc, Fl.sub_scale hc, Fl.div_scale hc, Fl.div_scale hc]

end scale

theorem unitFree_one (bump : Fl ℝ → Fl ℝ → Fl ℝ) : UnitFree 1 bump :=
  ⟨1, one_pos, fun _ _ => by simp only [Fl.scale_one]⟩

/-! ### the covering -/

/-- The weights and ball indices of a covering at one data point. -/
def SameCover (cov cov' : Covering ℝ) (L p p' : ℕ) : Prop :=
  cov'.ballIndx p' = cov.ballIndx p ∧ ∀ l < L, cov'.varphi l p' = cov.varphi l p

theorem getCoveringPartition_scale {c : ℝ} (hc : 0 < c) {bump : Fl ℝ → Fl ℝ → Fl ℝ} (hb : UnitFree c bump) (L N N' : ℕ)
    (dist dist' : ℕ → ℕ → ℝ) (r : Fl ℝ) :
    (getCoveringPartition .float L N (fun l i => Fl.fin (dist l i)) r bump = .error .valueError ∧
      getCoveringPartition .float L N' (fun l i => Fl.fin (dist' l i)) (r.scale c) bump = .error .valueError) ∨
    ∃ cov cov', getCoveringPartition .float L N (fun l i => Fl.fin (dist l i)) r bump = .ok cov ∧
      getCoveringPartition .float L N' (fun l i => Fl.fin (dist' l i)) (r.scale c) bump = .ok cov' ∧
      ∀ p p', (∀ l < L, dist' l p' = c * dist l p) → SameCover cov cov' L p p' := by
  unfold getCoveringPartition
  simp only [reduceCtorEq, and_false, if_false]
  by_cases hL : L = 0
  · rw [if_pos hL, if_pos hL]; exact Or.inl ⟨rfl, rfl⟩
  · rw [if_neg hL, if_neg hL]
    refine Or.inr ⟨_, _, rfl, rfl, fun p p' hp => ?_⟩
    obtain ⟨k, hk, hb⟩ := hb
    have hd : ∀ l < L, (Fl.fin (dist' l p') : Fl ℝ) = (Fl.fin (dist l p)).scale c := fun l hl => by
      rw [hp l hl]; rfl
    have hU : ∀ l < L, Fl.lt (Fl.fin (dist' l p')) (r.scale c) = Fl.lt (Fl.fin (dist l p)) r := fun l hl => by
      rw [hd l hl, Fl.lt_scale hc]
    have hphi : ∀ l < L, (if Fl.lt (Fl.fin (dist' l p')) (r.scale c) = true then
        DType.float.cast (bump (Fl.fin (dist' l p')) (r.scale c)) else 0) =
        (if Fl.lt (Fl.fin (dist l p)) r = true then DType.float.cast (bump (Fl.fin (dist l p)) r) else 0).scale k := by
      intro l hl
      rw [hU l hl]
      split
      · simp only [DType.cast]; rw [hd l hl, hb]
      · simp [Fl.zero_def]
    have hden : flSum ((List.range L).map fun l => if Fl.lt (Fl.fin (dist' l p')) (r.scale c) = true then
        DType.float.cast (bump (Fl.fin (dist' l p')) (r.scale c)) else 0) =
        (flSum ((List.range L).map fun l => if Fl.lt (Fl.fin (dist l p)) r = true then
          DType.float.cast (bump (Fl.fin (dist l p)) r) else 0)).scale k := by
      rw [← flSum_scale hk]
      congr 1
      exact List.map_congr_left fun l hl => hphi l (List.mem_range.1 hl)
    refine ⟨?_, fun l hl => ?_⟩
    · simp only
      congr 1
      apply find?_congr_mem
      intro l hl
      exact hU l (List.mem_range.1 hl)
    · simp only
      rw [hphi l hl, hden, Fl.isZero_scale hk]
      generalize (flSum _ : Fl ℝ) = den
      generalize (if Fl.lt (Fl.fin (dist l p)) r = true then _ else 0 : Fl ℝ) = num
      split
      · rw [Fl.div_nan, Fl.div_nan]
      · exact Fl.div_scale hk _ _

end Dreimac
