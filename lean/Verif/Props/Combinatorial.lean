import Mathlib.Data.Set.Function
import Mathlib.Data.Finset.Powerset
import Mathlib.Data.Finset.Sort
import Verif.Lemmas.Combinatorial

/-!
# C01–C03: the combinatorial number system
-/

namespace Dreimac

/-- **C01.** For a table built for `N ≥ n` vertices and dimension `D ≥ d`, the index function is a bijection from the
`d`-simplices on `n` vertices onto `{0, …, C(n, d+1) - 1}`. -/
theorem C01_simplex_index_bijective (N D n d : ℕ) (hn : n ≤ N) (hd : d ≤ D) :
    Set.BijOn (fun s => cnsForward s (cnsTable N D)) {s | IsSimplex n d s} (Set.Iio (Nat.choose n (d + 1))) := by
  have heq : ∀ s, IsSimplex n d s → cnsForward s (cnsTable N D) = colexSum 0 s := fun s hs =>
    cnsForward_eq_colexSum (fun v hv => ((hs.vertices v hv).trans_le hn).le) (by rw [hs.card]; omega)
  refine ⟨?_, ?_, ?_⟩
  · intro s hs
    simp only [Set.mem_Iio]
    rw [heq s hs, ← hs.card]
    exact colexSum_lt hs.increasing hs.vertices
  · intro s hs t ht h
    simp only at h
    rw [heq s hs, heq t ht] at h
    exact colexSum_injective (hs.card.trans ht.card.symm) hs.increasing ht.increasing h
  · intro m hm
    obtain ⟨s, h1, h2, h3, h4⟩ := colexSum_surjective (d + 1) n m hm
    have hs : IsSimplex n d s := ⟨h1, h2, h3⟩
    exact ⟨s, hs, by simp only; rw [heq s hs, h4]⟩

/-- **C01 (memory).** All table reads performed for a simplex on the table's vertices are inside the table. -/
theorem C01_reads_in_bounds (N D n d : ℕ) (hn : n ≤ N) (hd : d ≤ D) (s : List ℕ) (hs : IsSimplex n d s)
    (l : ℕ) (hl : l < s.length) : (cnsTable N D).InBounds (s.getD l 0) (l + 1) := by
  apply table_inBounds
  · rw [List.getD_eq_getElem?_getD, List.getElem?_eq_getElem hl]
    exact ((hs.vertices _ (List.getElem_mem _)).trans_le hn).le
  · have := hs.card; omega

example : IsSimplex 6 2 [1, 3, 4] ∧ cnsForward [1, 3, 4] (cnsTable 6 3) = 8 :=
  ⟨⟨rfl, by decide, by decide⟩, by decide⟩

/-- **C02.** The specialised indexers agree with the general one, on every table and all vertices. -/
theorem C02_specialised_agree (T : Table) (i j k : ℕ) :
    cnsD1 i j T = cnsForward [i, j] T ∧ cnsD2 i j k T = cnsForward [i, j, k] T :=
  ⟨cnsD1_eq_forward i j T, cnsD2_eq_forward i j k T⟩

/-- **C02.** Indices are ordered colexicographically. -/
theorem C02_colex_order (N D n d : ℕ) (hn : n ≤ N) (hd : d ≤ D) (s t : List ℕ)
    (hs : IsSimplex n d s) (ht : IsSimplex n d t) :
    cnsForward s (cnsTable N D) < cnsForward t (cnsTable N D) ↔ ColexLt s t := by
  rw [cnsForward_eq_colexSum (fun v hv => ((hs.vertices v hv).trans_le hn).le) (by rw [hs.card]; omega),
    cnsForward_eq_colexSum (fun v hv => ((ht.vertices v hv).trans_le hn).le) (by rw [ht.card]; omega)]
  exact colexSum_lt_iff (hs.card.trans ht.card.symm) hs.increasing ht.increasing

/-- **C02.** The index of a simplex does not depend on the size of the table. -/
theorem C02_index_stable (N D N' D' n d : ℕ) (hn : n ≤ N) (hd : d ≤ D) (hn' : n ≤ N') (hd' : d ≤ D')
    (s : List ℕ) (hs : IsSimplex n d s) : cnsForward s (cnsTable N D) = cnsForward s (cnsTable N' D') := by
  rw [cnsForward_eq_colexSum (fun v hv => ((hs.vertices v hv).trans_le hn).le) (by rw [hs.card]; omega),
    cnsForward_eq_colexSum (fun v hv => ((hs.vertices v hv).trans_le hn').le) (by rw [hs.card]; omega)]

example : IsSimplex 5 2 [0, 1, 4] ∧ IsSimplex 5 2 [1, 2, 3] ∧ ColexLt [1, 2, 3] [0, 1, 4] :=
  ⟨⟨rfl, by decide, by decide⟩, ⟨rfl, by decide, by decide⟩, List.Lex.rel (by decide)⟩

/-- **C03.** The number of simplices read from the table is the number of `d`-simplices on `n` vertices (there is a
one-to-one correspondence with a set of that many elements). -/
theorem C03_number_of_simplices (N D n d : ℕ) (hn : n ≤ N) (hd : d ≤ D) :
    Nonempty ({s // IsSimplex n d s} ≃ Fin (numberOfSimplices d n (cnsTable N D))) := by
  unfold numberOfSimplices
  rw [table_read hn (by omega)]
  refine ⟨(C01_simplex_index_bijective N D n d hn hd).equiv.trans ⟨fun x => ⟨x.1, x.2⟩, fun x => ⟨x.1, x.2⟩, ?_, ?_⟩⟩
  · intro x; rfl
  · intro x; rfl

/-- **C03.** For edges this is the closed form `(n * (n - 1)) // 2` that the matrix builders use
(utils.py 318, 363, 452; toroidalcoords.py 233). -/
theorem C03_number_of_edges (N D n : ℕ) (hn : n ≤ N) (hD : 1 ≤ D) :
    numberOfSimplices 1 n (cnsTable N D) = (n * (n - 1)) / 2 := by
  unfold numberOfSimplices
  rw [table_read hn (by omega), Nat.choose_two_right]

example : numberOfSimplices 2 6 (cnsTable 7 3) = 20 := by decide

end Dreimac
