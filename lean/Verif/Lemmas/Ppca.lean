import Mathlib.Algebra.BigOperators.Ring.Finset
import Mathlib.Algebra.BigOperators.Field
import Mathlib.Tactic.Linarith
import Mathlib.Tactic.Ring
import Mathlib.Tactic.FieldSimp
import Verif.Model.Ppca

/-! # Lemmas about sums of possibly non-finite numbers and about `ppca` -/

namespace Dreimac

open Real

section sums
variable {α : Type} [AddCommMonoid α]

theorem foldl_oAdd_some (l : List α) (a : α) : (l.map some).foldl oAdd (some a) = some (a + l.sum) := by
  induction l generalizing a with
  | nil => simp
  | cons x l ih => simp only [List.map_cons, List.foldl_cons, List.sum_cons, oAdd, Option.bind_some, Option.map_some]
                   rw [ih, add_assoc]

theorem oSum_some (n : ℕ) (f : ℕ → α) :
    oSum ((List.range n).map fun i => some (f i)) = some (∑ i ∈ Finset.range n, f i) := by
  have : (List.range n).map (fun i => some (f i)) = ((List.range n).map f).map some := by simp
  rw [oSum, this, foldl_oAdd_some, zero_add]
  rfl

theorem oSum_congr_some {n : ℕ} {g : ℕ → Option α} (f : ℕ → α) (h : ∀ i < n, g i = some (f i)) :
    oSum ((List.range n).map g) = some (∑ i ∈ Finset.range n, f i) := by
  rw [← oSum_some]
  congr 1
  apply List.map_congr_left
  intro i hi
  exact h i (List.mem_range.1 hi)

omit [AddCommMonoid α] in
theorem foldl_oAdd_none [Add α] (l : List (Option α)) : l.foldl oAdd (none : Option α) = none := by
  induction l with
  | nil => rfl
  | cons x l ih => simpa [oAdd] using ih

omit [AddCommMonoid α] in
theorem foldl_oAdd_mem [Add α] (l : List (Option α)) (a : Option α) (h : none ∈ l) : l.foldl oAdd a = none := by
  induction l generalizing a with
  | nil => simp at h
  | cons x l ih =>
    rcases List.mem_cons.1 h with h | h
    · subst h
      rw [List.foldl_cons, show oAdd a none = none by cases a <;> rfl, foldl_oAdd_none]
    · exact ih _ h

theorem oSum_none {n : ℕ} {g : ℕ → Option α} {i : ℕ} (hi : i < n) (h : g i = none) :
    oSum ((List.range n).map g) = none :=
  foldl_oAdd_mem _ _ (List.mem_map.2 ⟨i, List.mem_range.2 hi, h⟩)

/-- A sum is finite iff all terms are. -/
theorem oSum_eq_some {n : ℕ} {g : ℕ → Option α} {s : α} (h : oSum ((List.range n).map g) = some s) :
    ∃ f : ℕ → α, (∀ i < n, g i = some (f i)) ∧ s = ∑ i ∈ Finset.range n, f i := by
  have hall : ∀ i < n, ∃ x, g i = some x := by
    intro i hi
    rcases hg : g i with _ | x
    · rw [oSum_none hi hg] at h; cases h
    · exact ⟨x, rfl⟩
  refine ⟨fun i => (g i).getD 0, ?_, ?_⟩
  · intro i hi
    obtain ⟨x, hx⟩ := hall i hi
    simp [hx]
  · have := oSum_congr_some (n := n) (g := g) (fun i => (g i).getD 0) (by
      intro i hi
      obtain ⟨x, hx⟩ := hall i hi
      simp [hx])
    rw [h] at this
    exact Option.some.inj this

end sums

section twist
variable {𝕜 : Type} [RCLike 𝕜]

/-- Multiplication of a possibly non-finite number by a number. -/
def oScale (z : 𝕜) (a : Option 𝕜) : Option 𝕜 := a.map fun x => z * x

theorem oAdd_oScale (z : 𝕜) (a b : Option 𝕜) : oAdd (oScale z a) (oScale z b) = oScale z (oAdd a b) := by
  cases a <;> cases b <;> simp [oAdd, oScale, mul_add]

theorem oSum_oScale (z : 𝕜) (l : List (Option 𝕜)) : oSum (l.map (oScale z)) = oScale z (oSum l) := by
  have : ∀ a : Option 𝕜, (l.map (oScale z)).foldl oAdd (oScale z a) = oScale z (l.foldl oAdd a) := by
    induction l with
    | nil => intro a; rfl
    | cons x l ih => intro a; simp only [List.map_cons, List.foldl_cons, oAdd_oScale, ih]
  have h := this (some 0)
  simpa [oScale, oSum] using h

theorem oSum_range_oScale (z : 𝕜) (n : ℕ) (g : ℕ → Option 𝕜) :
    oSum ((List.range n).map fun i => oScale z (g i)) = oScale z (oSum ((List.range n).map g)) := by
  rw [← oSum_oScale, List.map_map]; rfl

theorem oMul_oScale_right (z : 𝕜) (a b : Option 𝕜) : oMul a (oScale z b) = oScale z (oMul a b) := by
  cases a <;> cases b <;> simp [oMul, oScale, mul_left_comm]

theorem mul_star_self_of_norm {z : 𝕜} (hz : ‖z‖ = 1) : z * star z = 1 := by
  have := RCLike.mul_conj z
  rw [hz] at this
  simpa using this

theorem oMul_oConj_oScale {z : 𝕜} (hz : ‖z‖ = 1) (a b : Option 𝕜) :
    oMul (oScale z a) (oConj (oScale z b)) = oMul a (oConj b) := by
  cases a with
  | none => cases b <;> rfl
  | some x =>
    cases b with
    | none => rfl
    | some y =>
      simp only [oMul, oScale, oConj, Option.map_some, Option.bind_some, Option.some.injEq]
      rw [star_mul]
      calc z * x * (star y * star z) = (z * star z) * (x * star y) := by ring
        _ = _ := by rw [mul_star_self_of_norm hz, one_mul]

theorem norm_oScale {z : 𝕜} (hz : ‖z‖ = 1) (a : Option 𝕜) : (oScale z a).map (fun x => ‖x‖) = a.map fun x => ‖x‖ := by
  cases a <;> simp [oScale, hz]

/-- Multiply column `n` by `z n`. -/
def twistCols (z : ℕ → 𝕜) (X : Arr 𝕜) : Arr 𝕜 := ⟨X.rows, X.cols, fun i n => oScale (z n) (X.at' i n)⟩

/-- Multiply row `n` by `z n`. -/
def twistRows (z : ℕ → 𝕜) (X : Arr 𝕜) : Arr 𝕜 := ⟨X.rows, X.cols, fun n i => oScale (z n) (X.at' n i)⟩

variable {z : ℕ → 𝕜}

theorem T_twistRows (X : Arr 𝕜) : (twistRows z X).T = twistCols z X.T := rfl
theorem T_twistCols (X : Arr 𝕜) : (twistCols z X).T = twistRows z X.T := rfl

theorem gramArr_twist (hz : ∀ n, ‖z n‖ = 1) (X : Arr 𝕜) : gramArr (twistCols z X) = gramArr X := by
  funext i j
  simp only [gramArr, twistCols]
  congr 1
  apply List.map_congr_left
  intro n _
  exact oMul_oConj_oScale (hz n) _ _

theorem eigBasis_twist (hz : ∀ n, ‖z n‖ = 1) (eigh : Eigh 𝕜) (X : Arr 𝕜) :
    eigBasis eigh (twistCols z X) = eigBasis eigh X := by
  unfold eigBasis
  rw [gramArr_twist hz]
  rfl

theorem rotateArr_twist (U : ℕ → ℕ → Option 𝕜) (X : Arr 𝕜) :
    rotateArr U (twistCols z X) = twistCols z (rotateArr U X) := by
  simp only [rotateArr, twistCols, Arr.mk.injEq, true_and]
  funext k n
  rw [← oSum_range_oScale]
  congr 1
  apply List.map_congr_left
  intro i _
  exact oMul_oScale_right _ _ _

theorem colNorm_twist (hz : ∀ n, ‖z n‖ = 1) (Y : Arr 𝕜) (n : ℕ) : colNorm (twistCols z Y) n = colNorm Y n := by
  unfold colNorm
  congr 2
  apply List.map_congr_left
  intro i _
  simp only [twistCols]
  cases Y.at' i n <;> simp [oScale, hz n]

theorem oDivNorm_oScale (z : 𝕜) (a : Option 𝕜) (r : Option ℝ) : oDivNorm (oScale z a) r = oScale z (oDivNorm a r) := by
  cases a with
  | none => rfl
  | some x =>
    cases r with
    | none => rfl
    | some s =>
      simp only [oDivNorm, oScale, Option.map_some, Option.bind_some]
      split <;> simp [mul_div_assoc]

theorem normalizeCols_twist (hz : ∀ n, ‖z n‖ = 1) (Y : Arr 𝕜) :
    normalizeCols (twistCols z Y) = twistCols z (normalizeCols Y) := by
  have : ∀ i n, (normalizeCols (twistCols z Y)).at' i n = (twistCols z (normalizeCols Y)).at' i n := by
    intro i n
    simp only [normalizeCols]
    rw [colNorm_twist hz]
    exact oDivNorm_oScale _ _ _
  exact congrArg (Arr.mk Y.rows Y.cols) (funext fun i => funext (this i))

theorem slice_twist (Y : Arr 𝕜) (k : ℕ) :
    (⟨k, (twistCols z Y).cols, (twistCols z Y).at'⟩ : Arr 𝕜) = twistCols z ⟨k, Y.cols, Y.at'⟩ := rfl

theorem oneStep_twist (hz : ∀ n, ‖z n‖ = 1) (eigh : Eigh 𝕜) (X : Arr 𝕜) (k : ℤ) :
    oneStep eigh (twistCols z X) k = twistCols z (oneStep eigh X k) := by
  unfold oneStep
  simp only
  rw [eigBasis_twist hz, rotateArr_twist, slice_twist, normalizeCols_twist hz]
  rfl

theorem expLoop_twist (hz : ∀ n, ‖z n‖ = 1) (eigh : Eigh 𝕜) (total : ℤ) (fuel : ℕ) (k : ℤ) (X : Arr 𝕜) :
    expLoop eigh total fuel k (twistCols z X) = (expLoop eigh total fuel k X).map (twistCols z) := by
  induction fuel generalizing k X with
  | zero => unfold expLoop; split <;> rfl
  | succ f ih =>
    unfold expLoop
    split
    · rw [oneStep_twist hz, ih]
    · rfl

theorem exponentialMode_twist (hz : ∀ n, ‖z n‖ = 1) (eigh : Eigh 𝕜) (total : ℤ) (fuel : ℕ) (X : Arr 𝕜) :
    exponentialMode eigh fuel (twistCols z X) total = (exponentialMode eigh fuel X total).map (twistCols z) := by
  unfold exponentialMode
  rw [expLoop_twist hz]
  show _ = Option.map _ (Option.map _ (expLoop eigh total fuel (((X.rows : ℤ) - total) / 2) X))
  rw [show (twistCols z X).rows = X.rows from rfl]
  generalize expLoop eigh total fuel (((X.rows : ℤ) - total) / 2) X = o
  cases o with
  | none => rfl
  | some Y =>
    simp only [Option.map_some, Option.some.injEq]
    rw [show (twistCols z Y).rows = Y.rows from rfl]
    split
    · exact oneStep_twist hz _ _ _
    · rfl

theorem varianceEntry_twist (hz : ∀ n, ‖z n‖ = 1) (U : ℕ → ℕ → Option 𝕜) (X : Arr 𝕜) :
    varianceEntry U (twistCols z X) = varianceEntry U X := by
  unfold varianceEntry
  simp only [twistCols]
  congr 2
  apply List.map_congr_left
  intro n _
  congr 2
  rw [← norm_oScale (hz n) (oSum ((List.range X.rows).map fun i => oMul (U i (X.rows - 1)) (X.at' i n))),
    ← oSum_range_oScale]
  simp only [oMul_oScale_right]

/-- The loop state with `X` and `XRet` multiplied by the phases. -/
def LoopState.twist (z : ℕ → 𝕜) (st : LoopState 𝕜) : LoopState 𝕜 :=
  ⟨twistCols z st.X, st.ret.map (twistCols z), st.variance⟩

theorem oneByOneStep_twist (hz : ∀ n, ‖z n‖ = 1) (eigh : Eigh 𝕜) (nDim : ℕ) (p : ℤ) (st : LoopState 𝕜) (i : ℕ) :
    oneByOneStep eigh nDim p (st.twist z) i = (oneByOneStep eigh nDim p st i).twist z := by
  unfold oneByOneStep LoopState.twist
  simp only
  rw [eigBasis_twist hz, rotateArr_twist, slice_twist, normalizeCols_twist hz, varianceEntry_twist hz]
  congr 1
  split <;> rfl

theorem oneByOneLoop_twist (hz : ∀ n, ‖z n‖ = 1) (eigh : Eigh 𝕜) (X : Arr 𝕜) (p : ℤ) (v : List (Option ℝ)) :
    oneByOneLoop eigh (twistCols z X) p v = (oneByOneLoop eigh X p v).twist z := by
  unfold oneByOneLoop
  rw [show (twistCols z X).rows = X.rows from rfl]
  have : ∀ (l : List ℕ) (st : LoopState 𝕜), l.foldl (oneByOneStep eigh X.rows p) (st.twist z) =
      (l.foldl (oneByOneStep eigh X.rows p) st).twist z := by
    intro l
    induction l with
    | nil => intro st; rfl
    | cons i l ih => intro st; simp only [List.foldl_cons, oneByOneStep_twist hz, ih]
  exact this _ ⟨X, none, v⟩

/-! ### The three modes -/

theorem ppca_direct (eigh : Eigh 𝕜) (fuel : ℕ) (A : Arr 𝕜) (p : ℤ) (h : A.cols ≠ 0) :
    ppca eigh fuel A p .direct = .ok ⟨List.replicate (A.cols - 1) (some 0), (oneStep eigh A.T (p + 1)).T⟩ := by
  have h' : ¬ A.T.rows = 0 := h
  simp only [ppca, h', if_false, reduceCtorEq]
  rfl

theorem ppca_exponential (eigh : Eigh 𝕜) (fuel : ℕ) (A : Arr 𝕜) (p : ℤ) (h : A.cols ≠ 0) :
    ppca eigh fuel A p .exponential = match exponentialMode eigh fuel A.T (p + 1) with
      | none => .error .outOfFuel
      | some Y => .ok ⟨List.replicate (A.cols - 1) (some 0), Y.T⟩ := by
  have h' : ¬ A.T.rows = 0 := h
  simp only [ppca, h', if_false, reduceCtorEq]
  rfl

theorem ppca_oneByOne (eigh : Eigh 𝕜) (fuel : ℕ) (A : Arr 𝕜) (p : ℤ) (h : A.cols ≠ 0) :
    ppca eigh fuel A p .oneByOne =
      match (oneByOneLoop eigh A.T p (List.replicate (A.cols - 1) (some 0))).ret with
      | none => .error .attributeError
      | some Y => .ok ⟨(oneByOneLoop eigh A.T p (List.replicate (A.cols - 1) (some 0))).variance, Y.T⟩ := by
  have h' : ¬ A.T.rows = 0 := h
  simp only [ppca, h', if_false, reduceCtorEq]
  rfl

theorem ppca_empty (eigh : Eigh 𝕜) (fuel : ℕ) (A : Arr 𝕜) (p : ℤ) (mode : RedMode) (hm : mode ≠ .other)
    (h : A.cols = 0) : ppca eigh fuel A p mode = .error .valueError := by
  have h' : A.T.rows = 0 := h
  simp only [ppca, h', if_true, hm, if_false]

theorem ppca_twist (hz : ∀ n, ‖z n‖ = 1) (eigh : Eigh 𝕜) (fuel : ℕ) (A : Arr 𝕜) (p : ℤ) (mode : RedMode) :
    ppca eigh fuel (twistRows z A) p mode = (ppca eigh fuel A p mode).map fun R => ⟨R.variance, twistRows z R.X⟩ := by
  by_cases hm : mode = .other
  · subst hm; rfl
  by_cases h0 : A.cols = 0
  · rw [ppca_empty _ _ _ _ _ hm h0, ppca_empty _ _ _ _ _ hm (show (twistRows z A).cols = 0 from h0)]; rfl
  have h0' : (twistRows z A).cols ≠ 0 := h0
  have hr : (twistRows z A).cols = A.cols := rfl
  cases mode with
  | direct => rw [ppca_direct _ _ _ _ h0, ppca_direct _ _ _ _ h0', T_twistRows, oneStep_twist hz, T_twistCols, hr]; rfl
  | exponential =>
    rw [ppca_exponential _ _ _ _ h0, ppca_exponential _ _ _ _ h0', T_twistRows, exponentialMode_twist hz, hr]
    cases exponentialMode eigh fuel A.T (p + 1) with
    | none => rfl
    | some Y => rfl
  | oneByOne =>
    rw [ppca_oneByOne _ _ _ _ h0, ppca_oneByOne _ _ _ _ h0', T_twistRows, oneByOneLoop_twist hz, hr]
    generalize oneByOneLoop eigh A.T p (List.replicate (A.cols - 1) (some 0)) = st
    obtain ⟨X, ret, v⟩ := st
    cases ret <;> rfl
  | other => exact absurd rfl hm

end twist

end Dreimac
