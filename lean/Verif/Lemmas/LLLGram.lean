import Mathlib.Data.Rat.Cast.Order
import Mathlib.Data.Rat.Floor
import Verif.Lemmas.LLL3

/-!
The course of `_lll` on the first `n` of `N` columns depends only on the Gram matrix of these columns (here: rational Gram
matrix, basis in any field), as long as the loop does not go beyond them.
-/

namespace Dreimac

open Matrix

variable {K : Type} [Field K] [LinearOrder K] [IsStrictOrderedRing K] [FloorRing K] {n N : ℕ} {hN : n ≤ N}

/-- The Gram matrix of the first `n` columns of `B'` is that of `B`. -/
def SameGram (hN : n ≤ N) (B : Matrix (Fin n) (Fin n) ℚ) (B' : Matrix (Fin N) (Fin N) K) : Prop :=
  ∀ i j, B'.col (Fin.castLE hN i) ⬝ᵥ B'.col (Fin.castLE hN j) = ((B.col i ⬝ᵥ B.col j : ℚ) : K)

def VRel (hN : n ≤ N) (B : Matrix (Fin n) (Fin n) ℚ) (B' : Matrix (Fin N) (Fin N) K) (v : Fin n → ℚ) (v' : Fin N → K) : Prop :=
  ∀ j, v' ⬝ᵥ B'.col (Fin.castLE hN j) = ((v ⬝ᵥ B.col j : ℚ) : K)

def RRel (hN : n ≤ N) (B : Matrix (Fin n) (Fin n) ℚ) (B' : Matrix (Fin N) (Fin N) K) (v : Fin n → ℚ) (v' : Fin N → K) : Prop :=
  VRel hN B B' v v' ∧ ∀ w w', VRel hN B B' w w' → v' ⬝ᵥ w' = ((v ⬝ᵥ w : ℚ) : K)

theorem rrel_col {B : Matrix (Fin n) (Fin n) ℚ} {B' : Matrix (Fin N) (Fin N) K} (h : SameGram hN B B') (i : Fin n) :
    RRel hN B B' (B.col i) (B'.col (Fin.castLE hN i)) :=
  ⟨fun j => h i j, fun w w' hw => by rw [dotProduct_comm, hw i, dotProduct_comm]⟩

theorem rrel_sub_smul {B : Matrix (Fin n) (Fin n) ℚ} {B' : Matrix (Fin N) (Fin N) K} {v w : Fin n → ℚ} {v' w' : Fin N → K}
    (h : RRel hN B B' v v') (h2 : RRel hN B B' w w') (c : ℚ) : RRel hN B B' (v - c • w) (v' - (c : K) • w') := by
  constructor
  · intro j
    simp only [sub_dotProduct, smul_dotProduct, smul_eq_mul]
    rw [h.1 j, h2.1 j]; push_cast; rfl
  · intro u u' hu
    simp only [sub_dotProduct, smul_dotProduct, smul_eq_mul]
    rw [h.2 u u' hu, h2.2 u u' hu]; push_cast; rfl

theorem below_castLE (hN : n ≤ N) (i : Fin n) : below (Fin.castLE hN i) = (below i).map (Fin.castLE hN) := by
  unfold below
  apply List.map_injective_iff.2 Fin.val_injective
  have key : ∀ (M : ℕ) (a : Fin M), ((List.finRange M).filter (· < a)).map Fin.val = List.range a.1 := by
    intro M a
    have e1 : ((List.finRange M).filter (· < a)).map Fin.val = (((List.finRange M).map Fin.val).filter (· < a.1)) := by
      rw [List.filter_map]; rfl
    rw [e1, List.map_coe_finRange_eq_range]
    have hle := a.2.le
    generalize a.1 = b at hle
    obtain ⟨c, rfl⟩ := Nat.exists_eq_add_of_le hle
    rw [List.range_add, List.filter_append, List.filter_eq_self.2, List.filter_eq_nil_iff.2, List.append_nil]
    · intro x hx
      simp only [List.mem_map] at hx
      obtain ⟨y, _, rfl⟩ := hx
      simp
    · intro x hx
      simpa using hx
  rw [key, List.map_map]
  exact (key n i).symm

theorem rrel_gs {B : Matrix (Fin n) (Fin n) ℚ} {B' : Matrix (Fin N) (Fin N) K} (h : SameGram hN B B') (i : Fin n) :
    RRel hN B B' ((gramSchmidt B).col i) ((gramSchmidt B').col (Fin.castLE hN i)) := by
  have key : ∀ (l : List (Fin n)) (v : Fin n → ℚ) (v' : Fin N → K), RRel hN B B' v v' →
      RRel hN B B' (l.foldl (fun Ai j => Ai - proj (B.col j) Ai) v)
        ((l.map (Fin.castLE hN)).foldl (fun Ai j => Ai - proj (B'.col j) Ai) v') := by
    intro l
    induction l with
    | nil => intro v v' h; exact h
    | cons j l ih =>
      intro v v' hv
      rw [List.map_cons, List.foldl_cons, List.foldl_cons]
      apply ih
      unfold proj
      have e : v' ⬝ᵥ B'.col (Fin.castLE hN j) / (B'.col (Fin.castLE hN j) ⬝ᵥ B'.col (Fin.castLE hN j)) =
          ((v ⬝ᵥ B.col j / (B.col j ⬝ᵥ B.col j) : ℚ) : K) := by
        rw [hv.1 j, h j j]; push_cast; rfl
      rw [e]
      exact rrel_sub_smul hv (rrel_col h j) _
  have := key (below i) _ _ (rrel_col h i)
  rw [← below_castLE] at this
  exact this

theorem mu_gram {B : Matrix (Fin n) (Fin n) ℚ} {B' : Matrix (Fin N) (Fin N) K} (h : SameGram hN B B') (i j : Fin n) :
    lllMu B' (Fin.castLE hN i) (Fin.castLE hN j) = ((lllMu B i j : ℚ) : K) := by
  unfold lllMu
  rw [(rrel_col h i).2 _ _ (rrel_gs h j).1, (rrel_gs h j).2 _ _ (rrel_gs h j).1]
  push_cast; rfl

theorem rint_cast (x : ℚ) : rint ((x : ℚ) : K) = rint x := by
  unfold rint
  have e1 : ⌊(x : K)⌋ = ⌊x⌋ := Rat.floor_cast x
  have e2 : Int.fract (x : K) = ((Int.fract x : ℚ) : K) := by
    unfold Int.fract; rw [e1]; push_cast; rfl
  have e3 : ((Int.fract x : ℚ) : K) < 1 / 2 ↔ Int.fract x < 1 / 2 := by
    rw [show (1 / 2 : K) = ((1 / 2 : ℚ) : K) by push_cast; rfl, Rat.cast_lt]
  have e4 : (1 / 2 : K) < ((Int.fract x : ℚ) : K) ↔ 1 / 2 < Int.fract x := by
    rw [show (1 / 2 : K) = ((1 / 2 : ℚ) : K) by push_cast; rfl, Rat.cast_lt]
  simp only [e1, e2, e3, e4]

theorem sameGram_reduce {B : Matrix (Fin n) (Fin n) ℚ} {B' : Matrix (Fin N) (Fin N) K} (h : SameGram hN B B')
    (C : Matrix (Fin n) (Fin n) ℚ) (C' : Matrix (Fin N) (Fin N) K) (k j : Fin n) :
    SameGram hN (lengthReduce k (B, C) j).1 (lengthReduce (Fin.castLE hN k) (B', C') (Fin.castLE hN j)).1 := by
  have hc : (1 / 2 < |lllMu B' (Fin.castLE hN k) (Fin.castLE hN j)|) ↔ 1 / 2 < |lllMu B k j| := by
    rw [mu_gram h, ← Rat.cast_abs, show (1 / 2 : K) = ((1 / 2 : ℚ) : K) by push_cast; rfl, Rat.cast_lt]
  unfold lengthReduce
  by_cases hm : 1 / 2 < |lllMu B k j|
  · rw [if_pos hm, if_pos (hc.2 hm)]
    intro a b
    simp only
    rw [mu_gram h, rint_cast]
    set r := rint (lllMu B k j)
    have hcast : ((r : ℤ) : K) = (((r : ℤ) : ℚ) : K) := by push_cast; rfl
    rw [hcast]
    have hkk := rrel_sub_smul (rrel_col h k) (rrel_col h j) (r : ℚ)
    have hne : ∀ {a : Fin n}, a ≠ k → Fin.castLE hN a ≠ Fin.castLE hN k := fun h hh => h (Fin.castLE_injective hN hh)
    by_cases ha : a = k <;> by_cases hb : b = k
    · subst ha; subst hb
      rw [col_updateCol_self, col_updateCol_self]; exact hkk.2 _ _ hkk.1
    · subst ha
      rw [col_updateCol_self, col_updateCol_self, col_updateCol_ne _ hb, col_updateCol_ne _ (hne hb)]; exact hkk.1 b
    · subst hb
      rw [col_updateCol_self, col_updateCol_self, col_updateCol_ne _ ha, col_updateCol_ne _ (hne ha), dotProduct_comm, hkk.1 a,
        dotProduct_comm]
    · rw [col_updateCol_ne _ ha, col_updateCol_ne _ (hne ha), col_updateCol_ne _ hb, col_updateCol_ne _ (hne hb)]; exact h a b
  · rw [if_neg hm, if_neg (fun hh => hm (hc.1 hh))]; exact h

theorem sameGram_foldl (k : Fin n) (l : List (Fin n)) : ∀ (s : Matrix (Fin n) (Fin n) ℚ × Matrix (Fin n) (Fin n) ℚ)
    (s' : Matrix (Fin N) (Fin N) K × Matrix (Fin N) (Fin N) K), SameGram hN s.1 s'.1 →
    SameGram hN (l.foldl (lengthReduce k) s).1 ((l.map (Fin.castLE hN)).foldl (lengthReduce (Fin.castLE hN k)) s').1 := by
  induction l with
  | nil => intro s s' h; exact h
  | cons j l ih =>
    rintro ⟨B, C⟩ ⟨B', C'⟩ h
    rw [List.map_cons, List.foldl_cons, List.foldl_cons]
    exact ih _ _ (sameGram_reduce h C C' k j)

theorem sameGram_swap {B : Matrix (Fin n) (Fin n) ℚ} {B' : Matrix (Fin N) (Fin N) K} (h : SameGram hN B B') {k k1 : Fin n}
    (hk : k ≠ k1) : SameGram hN (swapCols B k k1) (swapCols B' (Fin.castLE hN k) (Fin.castLE hN k1)) := by
  intro i j
  rw [swapCols_eq B hk, swapCols_eq B' fun hh => hk (Fin.castLE_injective hN hh)]
  have e : ∀ i, Equiv.swap (Fin.castLE hN k) (Fin.castLE hN k1) (Fin.castLE hN i) = Fin.castLE hN (Equiv.swap k k1 i) :=
    fun i => ((Fin.castLE_injective hN).swap_apply k k1 i)
  have := h (Equiv.swap k k1 i) (Equiv.swap k k1 j)
  rw [← e, ← e] at this
  exact this

theorem sameGram_step (s : LLLState ℚ n) (s' : LLLState K N) (hB : SameGram hN s.B s'.B) (hk : s'.k = s.k) (h1 : 1 ≤ s.k)
    (hlt : s.k < n) :
    SameGram hN (lllStep (3 / 4) s).B (lllStep (3 / 4) s').B ∧ (lllStep (3 / 4) s').k = (lllStep (3 / 4) s).k ∧
      1 ≤ (lllStep (3 / 4) s).k := by
  obtain ⟨B, C, k⟩ := s
  obtain ⟨B', C', k'⟩ := s'
  simp only at hB hk h1 hlt
  subst hk
  have hlt' : k' < N := lt_of_lt_of_le hlt hN
  unfold lllStep
  simp only [hlt, hlt', dite_true]
  have hf := sameGram_foldl (hN := hN) ⟨k', hlt⟩ (below ⟨k', hlt⟩).reverse (B, C) (B', C') hB
  rw [List.map_reverse, ← below_castLE] at hf
  change SameGram hN _ (List.foldl (lengthReduce ⟨k', hlt'⟩) (B', C') (below ⟨k', hlt'⟩).reverse).1 at hf
  set F := List.foldl (lengthReduce ⟨k', hlt⟩) (B, C) (below ⟨k', hlt⟩).reverse
  set F' := List.foldl (lengthReduce ⟨k', hlt'⟩) (B', C') (below ⟨k', hlt'⟩).reverse
  set k1 : Fin n := ⟨k' - 1, by omega⟩
  change SameGram hN (ite _ _ _ : LLLState ℚ n).B (ite ((3 / 4 - lllMu F'.1 (Fin.castLE hN ⟨k', hlt⟩) (Fin.castLE hN k1) ^ 2) *
    ((gramSchmidt F'.1).col (Fin.castLE hN k1) ⬝ᵥ (gramSchmidt F'.1).col (Fin.castLE hN k1)) <
      (gramSchmidt F'.1).col (Fin.castLE hN ⟨k', hlt⟩) ⬝ᵥ (gramSchmidt F'.1).col (Fin.castLE hN ⟨k', hlt⟩))
      (⟨F'.1, F'.2, k' + 1⟩ : LLLState K N)
      ⟨swapCols F'.1 (Fin.castLE hN ⟨k', hlt⟩) (Fin.castLE hN k1),
        swapCols F'.2 (Fin.castLE hN ⟨k', hlt⟩) (Fin.castLE hN k1), max (k' - 1) 1⟩ : LLLState K N).B ∧
    (ite ((3 / 4 - lllMu F'.1 (Fin.castLE hN ⟨k', hlt⟩) (Fin.castLE hN k1) ^ 2) *
    ((gramSchmidt F'.1).col (Fin.castLE hN k1) ⬝ᵥ (gramSchmidt F'.1).col (Fin.castLE hN k1)) <
      (gramSchmidt F'.1).col (Fin.castLE hN ⟨k', hlt⟩) ⬝ᵥ (gramSchmidt F'.1).col (Fin.castLE hN ⟨k', hlt⟩))
      (⟨F'.1, F'.2, k' + 1⟩ : LLLState K N)
      ⟨swapCols F'.1 (Fin.castLE hN ⟨k', hlt⟩) (Fin.castLE hN k1),
        swapCols F'.2 (Fin.castLE hN ⟨k', hlt⟩) (Fin.castLE hN k1), max (k' - 1) 1⟩ : LLLState K N).k = _ ∧ _
  have hc : ((3 / 4 - lllMu F'.1 (Fin.castLE hN ⟨k', hlt⟩) (Fin.castLE hN k1) ^ 2) *
      ((gramSchmidt F'.1).col (Fin.castLE hN k1) ⬝ᵥ (gramSchmidt F'.1).col (Fin.castLE hN k1)) <
      (gramSchmidt F'.1).col (Fin.castLE hN ⟨k', hlt⟩) ⬝ᵥ (gramSchmidt F'.1).col (Fin.castLE hN ⟨k', hlt⟩)) ↔
    ((3 / 4 - lllMu F.1 ⟨k', hlt⟩ k1 ^ 2) * ((gramSchmidt F.1).col k1 ⬝ᵥ (gramSchmidt F.1).col k1) <
      (gramSchmidt F.1).col ⟨k', hlt⟩ ⬝ᵥ (gramSchmidt F.1).col ⟨k', hlt⟩) := by
    rw [mu_gram hf, (rrel_gs hf k1).2 _ _ (rrel_gs hf k1).1,
      (rrel_gs hf ⟨k', hlt⟩).2 _ _ (rrel_gs hf ⟨k', hlt⟩).1]
    rw [show ((3 / 4 : K) - ((lllMu F.1 ⟨k', hlt⟩ k1 : ℚ) : K) ^ 2) *
        (((gramSchmidt F.1).col k1 ⬝ᵥ (gramSchmidt F.1).col k1 : ℚ) : K) =
        (((3 / 4 - lllMu F.1 ⟨k', hlt⟩ k1 ^ 2) * ((gramSchmidt F.1).col k1 ⬝ᵥ (gramSchmidt F.1).col k1) : ℚ) : K) by
      push_cast; rfl, Rat.cast_lt]
  by_cases hcond : ((3 / 4 - lllMu F.1 ⟨k', hlt⟩ k1 ^ 2) * ((gramSchmidt F.1).col k1 ⬝ᵥ (gramSchmidt F.1).col k1) <
      (gramSchmidt F.1).col ⟨k', hlt⟩ ⬝ᵥ (gramSchmidt F.1).col ⟨k', hlt⟩)
  · rw [if_pos hcond, if_pos (hc.2 hcond)]; exact ⟨hf, rfl, by simp⟩
  · rw [if_neg hcond, if_neg (fun hh => hcond (hc.1 hh))]
    refine ⟨sameGram_swap hf ?_, rfl, le_max_right _ _⟩
    rw [Ne, Fin.mk.injEq]; omega

/-- As long as the run on the small matrix stays below `n`, the run on the large one has the same `k`. -/
theorem sameGram_run (m : ℕ) : ∀ (s : LLLState ℚ n) (s' : LLLState K N), SameGram hN s.B s'.B → s'.k = s.k → 1 ≤ s.k →
    (∀ l < m, (lllRun (3 / 4) l s).k < n) → (lllRun (3 / 4) m s').k = (lllRun (3 / 4) m s).k := by
  induction m with
  | zero => intro s s' _ h _ _; exact h
  | succ m ih =>
    intro s s' h1 h2 h3 h4
    unfold lllRun at ih h4 ⊢
    rw [Function.iterate_succ_apply, Function.iterate_succ_apply]
    obtain ⟨a, b, c⟩ := sameGram_step s s' h1 h2 h3 (h4 0 (by omega))
    exact ih _ _ a b c fun l hl => by
      have := h4 (l + 1) (by omega)
      rwa [Function.iterate_succ_apply] at this

end Dreimac
