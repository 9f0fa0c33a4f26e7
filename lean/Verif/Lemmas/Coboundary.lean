import Mathlib.Algebra.BigOperators.Group.List.Basic
import Mathlib.Tactic.Ring
import Mathlib.Tactic.NormNum.NatFactorial
import Mathlib.Data.Nat.Choose.Basic
import Verif.Lemmas.Loops

namespace Dreimac

/-! ### Buffers -/

theorem pushAll_ok (cap : ℕ) (buf es : List Entry) (h : buf.length + es.length ≤ cap) :
    es.foldlM (push cap) buf = .ok (buf ++ es) := by
  induction es generalizing buf with
  | nil => simp [pure, Except.pure]
  | cons e es ih =>
    rw [List.foldlM_cons]
    simp only [List.length_cons] at h
    simp only [push, show buf.length < cap by omega, if_true, bind, Except.bind]
    rw [ih _ (by simp; omega)]; simp

theorem pushChunks_ok {α : Type} (cap m : ℕ) (chunk : α → List Entry) (l : List α) (buf : List Entry)
    (hm : ∀ a ∈ l, (chunk a).length = m) (h : buf.length + m * l.length ≤ cap) :
    l.foldlM (fun buf a => (chunk a).foldlM (push cap) buf) buf = .ok (buf ++ l.flatMap chunk) := by
  rw [← foldlM_flatMap]
  apply pushAll_ok
  have : (l.flatMap chunk).length = m * l.length := by
    clear h
    induction l with
    | nil => simp
    | cons a l ih =>
      simp only [List.flatMap_cons, List.length_append, List.length_cons]
      rw [hm a (by simp), ih (fun b hb => hm b (by simp [hb]))]; ring
  omega

theorem pushChunksCounted_ok {α : Type} (cap m : ℕ) (chunk : ℕ → α → List Entry) (l : List α) (buf : List Entry)
    (c : ℕ) (hm : ∀ i a, (chunk i a).length = m) (h : buf.length + m * l.length ≤ cap) :
    l.foldlM (fun (st : List Entry × ℕ) a => do
        let buf ← (chunk st.2 a).foldlM (push cap) st.1
        pure (buf, st.2 + 1)) (buf, c) =
      .ok (buf ++ (l.zipIdx c).flatMap (fun x => chunk x.2 x.1), c + l.length) := by
  induction l generalizing buf c with
  | nil => simp [pure, Except.pure]
  | cons a l ih =>
    rw [List.foldlM_cons]
    simp only [List.length_cons, Nat.mul_succ] at h
    rw [pushAll_ok cap buf (chunk c a) (by rw [hm]; omega)]
    simp only [bind, Except.bind, pure, Except.pure] at *
    rw [ih _ _ (by rw [List.length_append, hm]; omega)]
    simp only [List.zipIdx_cons, List.flatMap_cons, List.append_assoc, List.length_cons]
    congr 2; omega

/-! ### The loops as folds over the simplices -/

/-- Buffer entry for a mathematical entry. -/
def toEntry (e : ℕ × ℕ × ℤ) : Entry := ⟨store32 e.1, store32 e.2.1, e.2.2⟩

theorem toEntry_row (e : ℕ × ℕ × ℤ) : (toEntry e).row = store32 e.1 := rfl

def chunk0 (T : Table) (e : ℕ × ℕ) : List (ℕ × ℕ × ℤ) :=
  [(cnsD1 e.1 e.2 T, e.1, 1), (cnsD1 e.1 e.2 T, e.2, -1)]

def chunk1row (T : Table) (r : ℕ) (e : ℕ × ℕ × ℕ) : List (ℕ × ℕ × ℤ) :=
  [(r, cnsD1 e.1 e.2.1 T, 1), (r, cnsD1 e.2.1 e.2.2 T, 1), (r, cnsD1 e.1 e.2.2 T, -1)]

def chunk1 (T : Table) (e : ℕ × ℕ × ℕ) : List (ℕ × ℕ × ℤ) := chunk1row T (cnsD2 e.1 e.2.1 e.2.2 T) e

def chunk2row (T : Table) (r : ℕ) (e : ℕ × ℕ × ℕ × ℕ) : List (ℕ × ℕ × ℤ) :=
  [(r, cnsD2 e.1 e.2.1 e.2.2.1 T, 1), (r, cnsD2 e.1 e.2.1 e.2.2.2 T, -1), (r, cnsD2 e.1 e.2.2.1 e.2.2.2 T, 1),
    (r, cnsD2 e.2.1 e.2.2.1 e.2.2.2 T, -1)]

section
variable {K : Type} [LT K] [DecidableLT K] (dist : ℕ → ℕ → K) (t : K) (T : Table) (n cap : ℕ)

theorem delta0Loop_eq :
    delta0Loop dist t T n cap =
      (ripsEdges n dist t).foldlM (fun buf e => ((chunk0 T e).map toEntry).foldlM (push cap) buf) [] := by
  unfold delta0Loop ripsEdges
  simp only [foldlM_flatMap, foldlM_ite, chunk0, List.map_cons, List.map_nil, List.foldlM_cons,
    List.foldlM_nil, toEntry, bind_pure]

theorem delta1Loop_eq :
    delta1Loop dist t T n cap =
      (ripsTris n dist t).foldlM (fun buf e => ((chunk1 T e).map toEntry).foldlM (push cap) buf) [] := by
  unfold delta1Loop ripsTris
  simp only [foldlM_flatMap, foldlM_ite, chunk1, chunk1row, List.map_cons, List.map_nil,
    List.foldlM_cons, List.foldlM_nil, toEntry, bind_pure]

theorem delta1CompactLoop_eq :
    delta1CompactLoop dist t T n cap =
      (ripsTris n dist t).foldlM (fun (st : List Entry × ℕ) e => do
        let buf ← ((chunk1row T st.2 e).map toEntry).foldlM (push cap) st.1
        pure (buf, st.2 + 1)) ([], 0) := by
  unfold delta1CompactLoop ripsTris
  simp only [foldlM_flatMap, foldlM_ite, chunk1row, List.map_cons, List.map_nil,
    List.foldlM_cons, List.foldlM_nil, toEntry, bind_assoc, bind_pure]

theorem delta2CompactLoop_eq :
    delta2CompactLoop dist t T n cap =
      (ripsTets n dist t).foldlM (fun (st : List Entry × ℕ) e => do
        let buf ← ((chunk2row T st.2 e).map toEntry).foldlM (push cap) st.1
        pure (buf, st.2 + 1)) ([], 0) := by
  unfold delta2CompactLoop ripsTets
  simp only [foldlM_flatMap, foldlM_ite, chunk2row, List.map_cons, List.map_nil,
    List.foldlM_cons, List.foldlM_nil, toEntry, bind_assoc, bind_pure]

end

/-! ### 32-bit stores and the csr constructor -/

theorem store32_eq {z : ℕ} (h : z < 2 ^ 31) : store32 z = z := by
  unfold store32
  rw [Int.bmod_eq_of_le] <;> omega

theorem csrArray_ok {nRows nCols : ℕ} {es : List (ℕ × ℕ × ℤ)} (hr : nRows ≤ 2 ^ 31) (hc : nCols ≤ 2 ^ 31)
    (h : ∀ e ∈ es, e.1 < nRows ∧ e.2.1 < nCols) :
    csrArray nRows nCols (es.map toEntry) = .ok ⟨nRows, nCols, es⟩ := by
  unfold csrArray
  rw [if_pos]
  · congr 2
    rw [List.map_map]
    conv_rhs => rw [← List.map_id es]
    apply List.map_congr_left
    intro e he
    obtain ⟨h1, h2⟩ := h e he
    have e1 := store32_eq (lt_of_lt_of_le h1 hr)
    have e2 := store32_eq (lt_of_lt_of_le h2 hc)
    simp only [Function.comp, toEntry, e1, e2, Int.toNat_natCast, id]
  · rw [List.all_eq_true]
    intro x hx
    obtain ⟨e, he, rfl⟩ := List.mem_map.1 hx
    obtain ⟨h1, h2⟩ := h e he
    have e1 := store32_eq (lt_of_lt_of_le h1 hr)
    have e2 := store32_eq (lt_of_lt_of_le h2 hc)
    apply decide_eq_true
    simp only [toEntry, e1, e2]
    exact ⟨Int.natCast_nonneg _, Int.ofNat_lt.2 h1, Int.natCast_nonneg _, Int.ofNat_lt.2 h2⟩

/-! ### Matrix-vector products -/

section mulVec
variable {R : Type} [Ring R]

theorem sum_map_flatMap {α β : Type} (l : List α) (g : α → List β) (f : β → R) :
    ((l.flatMap g).map f).sum = (l.map fun a => ((g a).map f).sum).sum := by
  induction l with
  | nil => simp
  | cons a l ih => simp [ih]

theorem sum_map_zero {α : Type} (l : List α) (f : α → R) (h : ∀ a ∈ l, f a = 0) : (l.map f).sum = 0 := by
  induction l with
  | nil => rfl
  | cons a l ih =>
    rw [List.map_cons, List.sum_cons, h a (by simp), ih (fun b hb => h b (by simp [hb])), add_zero]

theorem sum_map_single {α : Type} (l : List α) (f : α → R) (a : α) (ha : a ∈ l) (hl : l.Nodup)
    (h : ∀ b ∈ l, b ≠ a → f b = 0) : (l.map f).sum = f a := by
  induction l with
  | nil => simp at ha
  | cons b l ih =>
    rw [List.nodup_cons] at hl
    rw [List.map_cons, List.sum_cons]
    by_cases hb : b = a
    · subst hb
      rw [sum_map_zero l f, add_zero]
      intro c hc
      exact h c (by simp [hc]) (fun h' => hl.1 (h' ▸ hc))
    · rw [h b (by simp) hb, zero_add]
      exact ih ((List.mem_cons.1 ha).resolve_left (Ne.symm hb)) hl.2 (fun c hc => h c (by simp [hc]))

end mulVec

theorem choose2_le {n : ℕ} (h : n ≤ 65536) : Nat.choose n 2 ≤ 2 ^ 31 :=
  (Nat.choose_le_choose 2 h).trans (by norm_num [Nat.choose_two_right])

theorem choose3_le {n : ℕ} (h : n ≤ 2345) : Nat.choose n 3 ≤ 2 ^ 31 :=
  (Nat.choose_le_choose 3 h).trans (by
    rw [Nat.choose_eq_descFactorial_div_factorial]; norm_num [Nat.descFactorial, Nat.factorial])

end Dreimac
