import Mathlib.Algebra.BigOperators.Group.List.Basic
import Mathlib.Data.List.NodupEquivFin
import Mathlib.Data.List.Range
import Mathlib.Tactic.Linarith
import Verif.Model.Combinatorial
import Verif.Spec.Simplex

namespace Dreimac

theorem table_read {N D i l : ℕ} (hi : i ≤ N) (hl : l ≤ D + 1) :
    (cnsTable N D).read i l = Nat.choose i l := by
  have h1 : i < N + 1 := by omega
  have h2 : l < D + 2 := by omega
  simp [Table.read, cnsTable, h1, h2]

theorem table_inBounds {N D i l : ℕ} (hi : i ≤ N) (hl : l ≤ D + 1) :
    (cnsTable N D).InBounds i l := by
  have h1 : i < N + 1 := by omega
  refine ⟨(List.range (D + 2)).map fun l => Nat.choose i l, ?_, ?_⟩
  · simp [cnsTable, h1]
  · simp; omega

/-- The intended index: `∑ l, choose s_l (l+1)`, with `k` vertices already consumed. -/
def colexSum : ℕ → List ℕ → ℕ
  | _, [] => 0
  | k, v :: s => Nat.choose v (k + 1) + colexSum (k + 1) s

theorem colexSum_append_singleton (k : ℕ) (s : List ℕ) (v : ℕ) :
    colexSum k (s ++ [v]) = colexSum k s + Nat.choose v (k + s.length + 1) := by
  induction s generalizing k with
  | nil => simp [colexSum]
  | cons a s ih => simp only [List.cons_append, colexSum, ih, List.length_cons]; rw [show k + 1 + s.length + 1 = k + (s.length + 1) + 1 by omega]; omega

theorem foldl_add_eq {α : Type} (f : α → ℕ) (l : List α) (a : ℕ) :
    l.foldl (fun r x => r + f x) a = a + (l.map f).sum := by
  induction l generalizing a with
  | nil => simp
  | cons x l ih => simp [ih]; omega

theorem cnsForward_eq_sum (s : List ℕ) (T : Table) :
    cnsForward s T = ((List.range s.length).map fun l => T.read (s.getD l 0) (l + 1)).sum := by
  unfold cnsForward
  rw [foldl_add_eq]; simp

theorem colexSum_eq_sum (s : List ℕ) (k : ℕ) :
    colexSum k s = ((List.range s.length).map fun l => Nat.choose (s.getD l 0) (k + l + 1)).sum := by
  induction s generalizing k with
  | nil => simp [colexSum]
  | cons a s ih =>
    simp only [colexSum, ih, List.length_cons, List.range_succ_eq_map, List.map_cons, List.sum_cons,
      List.map_map]
    congr 1
    apply congrArg
    apply List.map_congr_left
    intro l _
    simp only [Function.comp, List.getD_cons_succ, Nat.succ_eq_add_one]
    congr 1; omega

theorem cnsForward_eq_colexSum {N D : ℕ} {s : List ℕ} (hs : ∀ v ∈ s, v ≤ N) (hl : s.length ≤ D + 1) :
    cnsForward s (cnsTable N D) = colexSum 0 s := by
  rw [cnsForward_eq_sum, colexSum_eq_sum]
  apply congrArg
  apply List.map_congr_left
  intro l hl'
  rw [List.mem_range] at hl'
  rw [table_read _ (by omega)]
  · simp
  · rw [List.getD_eq_getElem?_getD, List.getElem?_eq_getElem hl']; exact hs _ (List.getElem_mem _)

theorem lex_cons_iff' {a b : ℕ} {l m : List ℕ} :
    List.Lex (· < ·) (a :: l) (b :: m) ↔ a < b ∨ (a = b ∧ List.Lex (· < ·) l m) := by
  constructor
  · intro h
    cases h with
    | cons h => exact Or.inr ⟨rfl, h⟩
    | rel h => exact Or.inl h
  · rintro (h | ⟨rfl, h⟩)
    · exact List.Lex.rel h
    · exact List.Lex.cons h

theorem colexSum_lt {s : List ℕ} {n : ℕ} (hs : s.Pairwise (· < ·)) (hn : ∀ v ∈ s, v < n) :
    colexSum 0 s < Nat.choose n s.length := by
  induction s using List.reverseRecOn generalizing n with
  | nil => simp [colexSum]
  | append_singleton s v ih =>
    rw [List.pairwise_append] at hs
    have h1 := ih hs.1 (n := v) (fun a ha => hs.2.2 a ha v (by simp))
    rw [colexSum_append_singleton]
    simp only [Nat.zero_add, List.length_append, List.length_cons, List.length_nil]
    have hv : v < n := hn v (by simp)
    calc colexSum 0 s + Nat.choose v (s.length + 1)
        < Nat.choose v s.length + Nat.choose v (s.length + 1) := by omega
      _ = Nat.choose (v + 1) (s.length + 1) := (Nat.choose_succ_succ v s.length).symm
      _ ≤ Nat.choose n (s.length + 1) := Nat.choose_le_choose _ hv

theorem colexSum_lt_iff {s t : List ℕ} (hlen : s.length = t.length) (hs : s.Pairwise (· < ·))
    (ht : t.Pairwise (· < ·)) : colexSum 0 s < colexSum 0 t ↔ ColexLt s t := by
  induction s using List.reverseRecOn generalizing t with
  | nil =>
    have : t = [] := by simpa using hlen.symm
    subst this; simp [ColexLt]
  | append_singleton s v ih =>
    rcases List.eq_nil_or_concat t with rfl | ⟨t, w, rfl⟩
    · simp at hlen
    rw [List.concat_eq_append] at *
    rw [List.pairwise_append] at hs ht
    have hlen' : s.length = t.length := by simpa using hlen
    rw [colexSum_append_singleton, colexSum_append_singleton]
    have key : ∀ {s t : List ℕ} {v w : ℕ}, s.length = t.length → s.Pairwise (· < ·) →
        (∀ a ∈ s, a < v) → v < w →
        colexSum 0 s + Nat.choose v (0 + s.length + 1) < colexSum 0 t + Nat.choose w (0 + t.length + 1) := by
      intro s t v w hl hs hv hvw
      have h1 := colexSum_lt hs hv
      have h2 : Nat.choose (v + 1) (s.length + 1) ≤ Nat.choose w (s.length + 1) :=
        Nat.choose_le_choose _ hvw
      rw [Nat.choose_succ_succ] at h2
      rw [← hl]
      simp only [Nat.zero_add, Nat.succ_eq_add_one] at *
      omega
    have hv : ∀ a ∈ s, a < v := fun a ha => hs.2.2 a ha v (by simp)
    have hw : ∀ a ∈ t, a < w := fun a ha => ht.2.2 a ha w (by simp)
    simp only [ColexLt, List.reverse_append, List.reverse_cons, List.reverse_nil, List.nil_append,
      List.cons_append]
    rw [lex_cons_iff']
    rcases lt_trichotomy v w with h | h | h
    · exact ⟨fun _ => Or.inl h, fun _ => key hlen' hs.1 hv h⟩
    · subst h
      rw [hlen', Nat.add_lt_add_iff_right, ih hlen' hs.1 ht.1]
      simp [ColexLt]
    · have := key hlen'.symm ht.1 hw h
      constructor
      · intro h'; omega
      · rintro (h' | ⟨h', _⟩) <;> omega

theorem colexSum_injective {s t : List ℕ} (hlen : s.length = t.length) (hs : s.Pairwise (· < ·))
    (ht : t.Pairwise (· < ·)) (h : colexSum 0 s = colexSum 0 t) : s = t := by
  induction s using List.reverseRecOn generalizing t with
  | nil => simpa using hlen.symm
  | append_singleton s v ih =>
    rcases List.eq_nil_or_concat t with rfl | ⟨t, w, rfl⟩
    · simp at hlen
    rw [List.concat_eq_append] at *
    have hlen' : s.length = t.length := by simpa using hlen
    have a1 := (colexSum_lt_iff hlen hs ht).not.1 (by omega)
    have a2 := (colexSum_lt_iff hlen.symm ht hs).not.1 (by omega)
    simp only [ColexLt, List.reverse_append, List.reverse_cons, List.reverse_nil, List.nil_append,
      List.cons_append, lex_cons_iff', not_or, not_and] at a1 a2
    have hvw : v = w := by omega
    subst hvw
    rw [List.pairwise_append] at hs ht
    rw [colexSum_append_singleton, colexSum_append_singleton, hlen', Nat.add_right_cancel_iff] at h
    rw [ih hlen' hs.1 ht.1 h]

theorem colexSum_surjective (k n m : ℕ) (hm : m < Nat.choose n k) :
    ∃ s : List ℕ, s.length = k ∧ s.Pairwise (· < ·) ∧ (∀ v ∈ s, v < n) ∧ colexSum 0 s = m := by
  induction k generalizing n m with
  | zero => exact ⟨[], by simp, by simp, by simp, by simp [colexSum] at *; omega⟩
  | succ k ih =>
    induction n with
    | zero => simp at hm
    | succ n ihn =>
      by_cases h : m < Nat.choose n (k + 1)
      · obtain ⟨s, h1, h2, h3, h4⟩ := ihn h
        exact ⟨s, h1, h2, fun v hv => (h3 v hv).trans (Nat.lt_succ_self n), h4⟩
      · rw [Nat.choose_succ_succ] at hm
        obtain ⟨s, h1, h2, h3, h4⟩ := ih n (m - Nat.choose n (k + 1)) (by simp at *; omega)
        refine ⟨s ++ [n], by simp [h1], ?_, ?_, ?_⟩
        · rw [List.pairwise_append]
          exact ⟨h2, by simp, by simpa using h3⟩
        · intro v hv
          rcases List.mem_append.1 hv with hv | hv
          · exact (h3 v hv).trans (Nat.lt_succ_self n)
          · simp at hv; omega
        · rw [colexSum_append_singleton, h4, h1]; simp at *; omega

theorem cnsD1_eq {N D i j : ℕ} (hi : i ≤ N) (hj : j ≤ N) (hD : 1 ≤ D) :
    cnsD1 i j (cnsTable N D) = Nat.choose i 1 + Nat.choose j 2 := by
  unfold cnsD1; rw [table_read hi (by omega), table_read hj (by omega)]

theorem cnsD2_eq {N D i j k : ℕ} (hi : i ≤ N) (hj : j ≤ N) (hk : k ≤ N) (hD : 2 ≤ D) :
    cnsD2 i j k (cnsTable N D) = Nat.choose i 1 + Nat.choose j 2 + Nat.choose k 3 := by
  unfold cnsD2; rw [table_read hi (by omega), table_read hj (by omega), table_read hk (by omega)]

theorem cnsD1_eq_forward (i j : ℕ) (T : Table) : cnsD1 i j T = cnsForward [i, j] T := by
  simp [cnsD1, cnsForward, List.range_succ]

theorem cnsD2_eq_forward (i j k : ℕ) (T : Table) : cnsD2 i j k T = cnsForward [i, j, k] T := by
  simp [cnsD2, cnsForward, List.range_succ]

end Dreimac
