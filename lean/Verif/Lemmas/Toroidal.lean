import Mathlib.Tactic.Ring
import Mathlib.Tactic.Linarith
import Verif.Lemmas.CoboundaryMat
import Verif.Lemmas.EMCoords
import Verif.Model.Toroidal

/-! # Lemmas about the toroidal pipeline: the inner product, the edge matrix, sparse products -/

namespace Dreimac

open Real

section
variable {K : Type} [LT K] [DecidableLT K] {dist : ℕ → ℕ → K} {t : K} {n N D : ℕ}

theorem innerProductLoop_eq (T : Table) (cap : ℕ) :
    innerProductLoop dist t T n cap = (ripsEdges n dist t).foldlM
      (fun buf e => push cap buf ⟨(cnsD1 e.1 e.2 T : ℕ), (cnsD1 e.1 e.2 T : ℕ), 1⟩) [] := by
  unfold innerProductLoop ripsEdges
  simp only [foldlM_flatMap, foldlM_ite, foldlM_single]

theorem foldlM_push {α : Type} (l : List α) (g : α → Entry) (cap : ℕ) (buf : List Entry)
    (h : buf.length + l.length ≤ cap) :
    l.foldlM (fun b a => push cap b (g a)) buf = .ok (buf ++ l.map g) := by
  induction l generalizing buf with
  | nil => simp; rfl
  | cons a l ih =>
    simp only [List.length_cons] at h
    rw [List.foldlM_cons]
    have : push cap buf (g a) = .ok (buf ++ [g a]) := by unfold push; rw [if_pos (by omega)]
    rw [this]
    show List.foldlM _ (buf ++ [g a]) l = _
    rw [ih _ (by simp; omega)]
    simp

theorem innerProductLoop_ok (T : Table) :
    innerProductLoop dist t T n (Nat.choose n 2) =
      .ok ((ripsEdges n dist t).map fun e => ⟨(cnsD1 e.1 e.2 T : ℕ), (cnsD1 e.1 e.2 T : ℕ), 1⟩) := by
  rw [innerProductLoop_eq, foldlM_push]
  · simp
  · have := length_ripsEdges_le n dist t
    simp only [List.length_nil]; omega

/-- The entries of the inner product matrix. -/
def innerEntries (n : ℕ) (dist : ℕ → ℕ → K) (t : K) : List (ℕ × ℕ × ℤ) :=
  (ripsEdges n dist t).map fun e => (edgeIdx e.1 e.2, edgeIdx e.1 e.2, 1)

theorem makeInnerProduct_ok (hn : n ≤ N) (hD : 1 ≤ D) :
    makeInnerProduct n dist t (cnsTable N D) = .ok ⟨Nat.choose n 2, Nat.choose n 2, innerEntries n dist t⟩ := by
  unfold makeInnerProduct
  simp only [nEdges_eq, innerProductLoop_ok, bind, Except.bind]
  have hidx : ∀ e ∈ ripsEdges n dist t, cnsD1 e.1 e.2 (cnsTable N D) = edgeIdx e.1 e.2 ∧
      edgeIdx e.1 e.2 < Nat.choose n 2 := by
    rintro ⟨i, j⟩ h
    rw [mem_ripsEdges] at h
    obtain ⟨h1, h2, _⟩ := h
    exact ⟨cnsD1_edgeIdx (by simp only; omega) (by simp only; omega) hD, edgeIdx_lt h1 h2⟩
  unfold csrArray
  rw [if_pos]
  · congr 2
    rw [List.map_map]
    unfold innerEntries
    apply List.map_congr_left
    intro e he
    simp only [Function.comp, (hidx e he).1, Int.toNat_natCast]
  · rw [List.all_eq_true]
    intro x hx
    obtain ⟨e, he, rfl⟩ := List.mem_map.1 hx
    obtain ⟨h1, h2⟩ := hidx e he
    apply decide_eq_true
    simp only [h1]
    exact ⟨Int.natCast_nonneg _, Int.ofNat_lt.2 h2, Int.natCast_nonneg _, Int.ofNat_lt.2 h2⟩

theorem inner_mulVec {R : Type} [Ring R] (nr nc : ℕ) (x : ℕ → R) {i j : ℕ} (hij : i < j) (hj : j < n) :
    SparseMat.mulVec ⟨nr, nc, innerEntries n dist t⟩ x (edgeIdx i j) =
      if dist i j < t then x (edgeIdx i j) else 0 := by
  unfold SparseMat.mulVec innerEntries
  simp only [List.map_map, Function.comp_def]
  split
  · next hd =>
    rw [sum_map_single _ _ (i, j) (mem_ripsEdges.2 ⟨hij, hj, hd⟩) (nodup_ripsEdges n dist t)]
    · simp
    · rintro ⟨a, b⟩ hab hne
      rw [mem_ripsEdges] at hab
      simp only
      rw [if_neg]
      intro h
      obtain ⟨h1, h2⟩ := edgeIdx_inj hab.1 hij h
      exact hne (by rw [h1, h2])
  · next hd =>
    apply sum_map_zero
    rintro ⟨a, b⟩ hab
    rw [mem_ripsEdges] at hab
    simp only
    rw [if_neg]
    intro h
    obtain ⟨h1, h2⟩ := edgeIdx_inj hab.1 hij h
    exact hd (by rw [← h1, ← h2]; exact hab.2.2)

/-! ### sparse products -/

theorem mul_mulVec {R : Type} [CommRing R] (A B : SparseMat) (x : ℕ → R) (r : ℕ) :
    (A.mul B).mulVec x r = A.mulVec (B.mulVec x) r := by
  unfold SparseMat.mul SparseMat.mulVec
  simp only [sum_map_flatMap]
  congr 1
  apply List.map_congr_left
  intro e _
  simp only [List.map_map, Function.comp_def]
  split
  · next h =>
    rw [← List.sum_map_mul_left]
    induction B.entries with
    | nil => simp
    | cons f l ih =>
      by_cases hf : f.1 = e.2.1
      · simp only [List.filter_cons, hf, decide_true, if_true, List.map_cons, List.sum_cons, ih]
        push_cast; ring
      · simp only [List.filter_cons, hf, decide_false, Bool.false_eq_true, if_false, List.map_cons, List.sum_cons, ih,
          mul_zero, zero_add]
  · next h => simp

/-! ### the edge matrix -/

theorem foldl_update {α : Type} (l : List (ℕ × ℕ)) (v : ℕ → ℕ → α) (M : ℕ → ℕ → α) (i j : ℕ) :
    (l.foldl (fun M e => Function.update M e.1 (Function.update (M e.1) e.2 (v e.1 e.2))) M) i j =
      if (i, j) ∈ l then v i j else M i j := by
  induction l generalizing M with
  | nil => simp
  | cons e l ih =>
    rw [List.foldl_cons, ih]
    by_cases h : (i, j) ∈ l
    · simp [h]
    · rw [if_neg h]
      by_cases he : (i, j) = e
      · subst he; simp
      · rw [if_neg (by simp [h, he])]
        by_cases h1 : i = e.1
        · subst h1
          rw [Function.update_self, Function.update_of_ne]
          intro h2; exact he (by rw [h2])
        · rw [Function.update_of_ne h1]

theorem foldl_ite_single {β γ : Type} (f : β → γ → β) (c : Prop) [Decidable c] (x : γ) (b : β) :
    (if c then [x] else []).foldl f b = if c then f b x else b := by
  split <;> rfl

theorem thetaMatrix_apply (hn : n ≤ N) (hD : 1 ≤ D) (harm : ℕ → ℝ) (i j : ℕ) :
    thetaMatrix harm n dist t (cnsTable N D) i j =
      if i < j ∧ j < n ∧ dist i j < t then harm (edgeIdx i j) else 0 := by
  have h : thetaMatrix harm n dist t (cnsTable N D) = (ripsEdges n dist t).foldl (fun M e => Function.update M e.1
      (Function.update (M e.1) e.2 (harm (cnsD1 e.1 e.2 (cnsTable N D))))) (fun _ _ => 0) := by
    unfold thetaMatrix ripsEdges
    simp only [List.foldl_flatMap, foldl_ite_single]
  rw [h, foldl_update _ (fun a b => harm (cnsD1 a b (cnsTable N D)))]
  by_cases he : i < j ∧ j < n ∧ dist i j < t
  · rw [if_pos (mem_ripsEdges.2 he), if_pos he, cnsD1_edgeIdx (by omega) (by omega) hD]
  · rw [if_neg (fun h => he (mem_ripsEdges.1 h)), if_neg he]

/-- The coordinate of a data point with finite weights. -/
theorem sparseIntegrate_fin (hn : n ≤ N) (hD : 1 ≤ D) (harm f : ℕ → ℝ) (cov : Covering ℝ) (i : ℕ) (w : ℕ → ℝ)
    (hw : ∀ l, cov.varphi l i = Fl.fin (w l)) :
    sparseIntegrate harm f cov n dist t (cnsTable N D) i =
      Fl.fin (fmod (2 * π * (f (cov.ballIndx i) + ∑ s ∈ Finset.range n,
        (if cov.ballIndx i < s ∧ s < n ∧ dist (cov.ballIndx i) s < t then harm (edgeIdx (cov.ballIndx i) s) else 0)
          * w s)) (2 * π)) := by
  unfold sparseIntegrate
  simp only [hw, Fl.fin_mul, flSum_fin, Fl.fin_add, flmod, thetaMatrix_apply hn hD]

theorem sparseIntegrate_nan (hn : 0 < n) (harm f : ℕ → ℝ) (cov : Covering ℝ) (T : Table) (i : ℕ)
    (hw : ∀ l, cov.varphi l i = Fl.nan) :
    sparseIntegrate harm f cov n dist t T i = Fl.nan := by
  unfold sparseIntegrate
  simp only [hw, Fl.mul_nan]
  rw [flSum_nan, Fl.add_nan, Fl.mul_nan]
  · rfl
  · rw [List.mem_map]
    exact ⟨0, List.mem_range.2 hn, rfl⟩

end

end Dreimac
