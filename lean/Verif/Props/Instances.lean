import Verif.Props.Combinatorial
import Verif.Props.Cochain
import Verif.Props.Cocycle
import Verif.Props.Coboundary
import Mathlib.Tactic.NormNum
import Mathlib.Tactic.IntervalCases

/-!
# Worked instances of C01–C16

Each theorem is applied to concrete data that meet its hypotheses, and the conclusion is read off.
-/

namespace Dreimac

/-- C01: 20 triangles on 6 vertices; some triangle has index 13. -/
example : ∃ s, IsSimplex 6 2 s ∧ cnsForward s (cnsTable 7 3) = 13 := by
  obtain ⟨s, hs, h⟩ := (C01_simplex_index_bijective 7 3 6 2 (by omega) (by omega)).2.2
    (show 13 ∈ Set.Iio (Nat.choose 6 3) by decide)
  exact ⟨s, hs, h⟩

example : (cnsTable 6 3).InBounds 4 3 :=
  C01_reads_in_bounds 6 3 6 2 (by omega) (by omega) [1, 3, 4] ⟨rfl, by decide, by decide⟩ 2 (by decide)

/-- C02: colexicographic order, agreement with the specialised indexers, independence of the table. -/
example : cnsForward [1, 2, 3] (cnsTable 9 4) < cnsForward [0, 1, 4] (cnsTable 9 4) ∧
    cnsForward [1, 2, 3] (cnsTable 9 4) = cnsForward [1, 2, 3] (cnsTable 5 2) ∧
    cnsD2 1 2 3 (cnsTable 9 4) = triIdx 1 2 3 :=
  ⟨(C02_colex_order 9 4 5 2 (by omega) (by omega) _ _ ⟨rfl, by decide, by decide⟩ ⟨rfl, by decide, by decide⟩).2
      (List.Lex.rel (by decide)),
    C02_index_stable 9 4 5 2 5 2 (by omega) (by omega) (by omega) (by omega) _ ⟨rfl, by decide, by decide⟩,
    (C02_specialised_agree _ 1 2 3).2.trans (C02_edge_and_triangle_index 9 4 1 2 3 (by omega) (by omega) (by omega)
      (by omega)).2⟩

/-- C03: there are 20 triangles on 6 vertices. -/
example : Nonempty ({s // IsSimplex 6 2 s} ≃ Fin 20) := by
  have h := C03_number_of_simplices 7 3 6 2 (by omega) (by omega)
  rwa [show numberOfSimplices 2 6 (cnsTable 7 3) = 20 by decide] at h

example : numberOfSimplices 1 40 (cnsTable 40 2) = 780 := C03_number_of_edges 40 2 40 (by omega) (by omega)

/-- C04 on a list. -/
example : ∃ z, parity [3, 1, 0, 2] = .ok z := by
  obtain ⟨σ, -, h⟩ := C04_parity_total 4 [3, 1, 0, 2] (by decide)
  exact ⟨_, h⟩

/-- C05: swapping two vertices of `(5, 2, 9)` flips the sign. -/
example : ∃ sgn, orderSimplex [5, 2, 9] = .ok ([2, 5, 9], sgn) ∧ orderSimplex [2, 5, 9] = .ok ([2, 5, 9], -sgn) := by
  obtain ⟨s, sgn, h, hs, hp, hρ, -, -⟩ := C05_order_simplex 3 ![5, 2, 9] (by decide)
  have e : s = [2, 5, 9] :=
    (hp.trans (show (List.ofFn ![5, 2, 9]).Perm [2, 5, 9] by decide)).eq_of_pairwise
      (fun a b _ _ h h' => absurd h (lt_asymm h')) hs (by decide)
  subst e
  refine ⟨sgn, h, ?_⟩
  have := hρ (Equiv.swap 0 1)
  have e2 : List.ofFn (![5, 2, 9] ∘ (Equiv.swap (0 : Fin 3) 1)) = [2, 5, 9] := by decide
  rw [e2] at this
  rw [this]
  simp

/-- A cochain on the edges of 4 vertices, listed in arbitrary orientation. -/
def exCochain : SparseCochain := [⟨[2, 0], 3⟩, ⟨[1, 2], 4⟩]

theorem exCochain_valid : ∀ r ∈ exCochain, r.Valid 4 1 := by
  intro r hr
  simp only [exCochain, List.mem_cons, List.not_mem_nil, or_false] at hr
  rcases hr with rfl | rfl <;> exact ⟨rfl, by decide, by decide⟩

theorem exCochain_distinct : exCochain.Pairwise (fun r r' => ¬ r.verts.Perm r'.verts) := by
  simp only [exCochain, List.pairwise_cons, List.mem_singleton, forall_eq, List.not_mem_nil, IsEmpty.forall_iff,
    implies_true, List.Pairwise.nil, and_true]
  decide

/-- C06: the edge listed as `(2, 0)` with value 3 holds `-3`, the edge `{0, 3}` holds 0. -/
example : ∃ vec, sparseCocycleToVector 1 exCochain (cnsTable 4 2) 4 = .ok vec ∧ vec.length = 6 ∧
    vec[slot 4 2 [0, 2]]? = some (-3) ∧ vec[slot 4 2 [0, 3]]? = some 0 := by
  obtain ⟨vec, h, hl, h1, h2⟩ := C06_sparse_to_dense 4 1 4 2 (by omega) (by omega) exCochain exCochain_valid
    exCochain_distinct
  refine ⟨vec, h, hl, ?_, ?_⟩
  · have := h1 ⟨[2, 0], 3⟩ (by simp [exCochain]) ![2, 0] (Equiv.swap 0 1) (by simp) (by decide)
    simpa [List.ofFn_succ] using this
  · refine h2 [0, 3] ⟨rfl, by decide, by decide⟩ ?_
    intro r hr
    simp only [exCochain, List.mem_cons, List.not_mem_nil, or_false] at hr
    rcases hr with rfl | rfl <;> decide

example : ∃ s, IsSimplex 4 1 s ∧ slot 4 2 s = 5 := C06_every_slot_is_a_simplex 4 1 4 2 (by omega) (by omega) 5 (by decide)

example : sparseCocycleToVector 1 exCochain (cnsTable 4 2) 4 =
    sparseCocycleToVector 1 [⟨[1, 2], 4⟩, ⟨[2, 0], 3⟩] (cnsTable 4 2) 4 :=
  C06_row_order_irrelevant 4 1 4 2 (by omega) (by omega) _ _ exCochain_valid exCochain_distinct (List.Perm.swap ..)

example : sparseCocycleToVector 1 exCochain (cnsTable 4 2) 4 =
    sparseCocycleToVector 1 [⟨[0, 2], -3⟩, ⟨[1, 2], 4⟩] (cnsTable 4 2) 4 := by
  refine C06_orientation_irrelevant 4 1 4 2 (by omega) (by omega) _ _ exCochain_valid ?_
  refine .cons ⟨![2, 0], Equiv.swap 0 1, by simp, by simp [List.ofFn_succ], by simp⟩ (.cons ?_ .nil)
  exact ⟨![1, 2], 1, by simp, by simp, by simp⟩

/-- C07 with the prime 41. -/
example : ∀ r ∈ liftToIntegerCocycle [⟨[0, 1], 40⟩, ⟨[1, 2], 3⟩, ⟨[0, 2], 20⟩] 41, |r.val| ≤ 20 := by
  have h := C07_lift_balanced 41 (by norm_num) [⟨[0, 1], 40⟩, ⟨[1, 2], 3⟩, ⟨[0, 2], 20⟩] (by decide)
  intro r hr
  obtain ⟨i, hi, e⟩ := List.getElem_of_mem hr
  have := (List.forall₂_iff_get.1 h).2 i (by rw [(List.forall₂_iff_get.1 h).1]; exact hi) hi
  simpa [e] using this.2.2.2.2 (by norm_num)

example : liftVal 41 30 = -11 :=
  C07_lift_unique 41 (by norm_num) (by norm_num) 30 (-11) (by norm_num) (by norm_num) (by norm_num)

/-- C10: landmarks 4, 7, 2 of 9 points. -/
example : ∃ out, reindexCocycles [[[⟨[7, 2], 5⟩, ⟨[2, 0], -1⟩]]] [4, 7, 2] 9 = .ok out := by
  obtain ⟨out, h, -⟩ := C10_reindex [4, 7, 2] 9 (by decide) (by decide) [[[⟨[7, 2], 5⟩, ⟨[2, 0], -1⟩]]] (by decide)
  exact ⟨out, h⟩

/-- Five points on a line at unit distance, threshold 3: the edges `{0,3}`, `{0,4}`, `{1,4}` are missing. -/
def exLine (i j : ℕ) : ℕ := (i - j) + (j - i)

/-- C11: the matrix applied to a function on the landmarks. -/
example : ∃ M, makeDelta0 5 exLine 3 (cnsTable 5 3) = .ok M ∧ M.mulVec (fun (i : ℕ) => (i : ℤ) ^ 2) (edgeIdx 1 3) = -8 ∧
    M.mulVec (fun (i : ℕ) => (i : ℤ) ^ 2) (edgeIdx 0 3) = 0 := by
  obtain ⟨M, h, -, -, hM⟩ := C11_delta0 5 5 3 (by omega) (by omega) (by omega) exLine 3
  refine ⟨M, h, ?_, ?_⟩
  · rw [(hM ℤ _ 1 3 (by omega) (by omega)).1 ⟨by omega, by omega, by decide⟩]; norm_num
  · exact (hM ℤ _ 0 3 (by omega) (by omega)).2 fun h => absurd h.2.2 (by decide)

example : ∃ i j k, i < j ∧ j < k ∧ k < 5 ∧ triIdx i j k = 7 := (C12_rows_are_simplices 5 7).2 (by decide)

/-- C13: one row per triangle of the complex; it has at least the triangle `{1,2,3}` and not `{0,1,3}`. -/
example : ∃ M, makeDelta1Compact 5 exLine 3 (cnsTable 5 3) = .ok M ∧ 0 < M.nRows ∧
    ∃ r < M.nRows, M.mulVec (fun (e : ℕ) => if e = edgeIdx 1 3 then (1 : ℤ) else 0) r = -1 := by
  obtain ⟨M, h, -, tris, -, hmem, hr, hM⟩ := C13_delta1_compact 5 5 3 (by omega) (by omega) (by omega) exLine 3
  have h123 : (1, 2, 3) ∈ tris := (hmem 1 2 3).2 ⟨⟨by omega, by omega, by decide⟩, ⟨by omega, by omega, by decide⟩,
    ⟨by omega, by omega, by decide⟩⟩
  obtain ⟨r, hr', e⟩ := List.getElem_of_mem h123
  refine ⟨M, h, by omega, r, by omega, ?_⟩
  rw [hM ℤ _ r 1 2 3 (by rw [List.getElem?_eq_getElem hr', e])]
  decide

/-- The bound on the number of tetrahedra of C13 and C14 holds for all complexes on few landmarks. -/
theorem exLine_tetra (l : List (ℕ × ℕ × ℕ × ℕ)) (hl : l.Nodup)
    (h : ∀ x ∈ l, RipsTetra 5 exLine 4 x.1 x.2.1 x.2.2.1 x.2.2.2) : l.length ≤ 2 ^ 31 := by
  have hsub : l.toFinset ⊆ ((Finset.range 5 ×ˢ Finset.range 5 ×ˢ Finset.range 5 ×ˢ Finset.range 5) :
      Finset (ℕ × ℕ × ℕ × ℕ)) := by
    intro x hx
    have hx' := h x (List.mem_toFinset.1 hx)
    obtain ⟨⟨⟨a1, a2, -⟩, ⟨a3, a4, -⟩, -⟩, -, -, ⟨a5, a6, -⟩⟩ := hx'
    simp only [Finset.mem_product, Finset.mem_range]
    omega
  have := Finset.card_le_card hsub
  rw [List.toFinset_card_of_nodup hl] at this
  refine this.trans ?_
  simp

/-- C13 for tetrahedra, at threshold 4: `{0,1,2,3}` is a tetrahedron. -/
example : ∃ M, makeDelta2Compact 5 exLine 4 (cnsTable 5 3) = .ok M ∧ 0 < M.nRows := by
  obtain ⟨M, h, -, tets, -, hmem, hr, -⟩ := C13_delta2_compact 5 5 3 (by omega) (by omega) (by omega) exLine 4 exLine_tetra
  have h1 : (0, 1, 2, 3) ∈ tets := (hmem 0 1 2 3).2 (by
    refine ⟨⟨?_, ?_, ?_⟩, ?_, ?_, ?_⟩ <;> exact ⟨by omega, by omega, by decide⟩)
  exact ⟨M, h, hr ▸ List.length_pos_of_mem h1⟩

/-- C13: the coboundary of a function is annihilated, an indicator of an edge of a triangle is not. -/
example : ∃ M, makeDelta1Compact 5 exLine 3 (cnsTable 5 3) = .ok M ∧
    ¬ ∀ r < M.nRows, M.mulVec (fun (e : ℕ) => if e = edgeIdx 1 3 then (1 : ℤ) else 0) r = 0 := by
  obtain ⟨M, h, -⟩ := C13_delta1_compact 5 5 3 (by omega) (by omega) (by omega) exLine 3
  refine ⟨M, h, fun hall => ?_⟩
  have := (C13_kernel 5 5 3 (by omega) (by omega) (by omega) exLine 3 M h ℤ _).1 hall 1 2 3
    (by refine ⟨?_, ?_, ?_⟩ <;> exact ⟨by omega, by omega, by decide⟩)
  revert this; decide

example : ∃ M, makeDelta2Compact 5 exLine 4 (cnsTable 5 3) = .ok M ∧
    ¬ ∀ r < M.nRows, M.mulVec (fun (e : ℕ) => if e = triIdx 0 1 2 then (1 : ℤ) else 0) r = 0 := by
  obtain ⟨M, h, -⟩ := C13_delta2_compact 5 5 3 (by omega) (by omega) (by omega) exLine 4 exLine_tetra
  refine ⟨M, h, fun hall => ?_⟩
  have := (C13_kernel2 5 5 3 (by omega) (by omega) (by omega) exLine 4 exLine_tetra M h ℤ _).1 hall 0 1 2 3
    (by refine ⟨⟨?_, ?_, ?_⟩, ?_, ?_, ?_⟩ <;> exact ⟨by omega, by omega, by decide⟩)
  revert this; decide

/-- C14 on the complex of exLine. -/
example : ∃ M0 M1 M2, makeDelta0 5 exLine 4 (cnsTable 5 3) = .ok M0 ∧ makeDelta1 5 exLine 4 (cnsTable 5 3) = .ok M1 ∧
    makeDelta2Compact 5 exLine 4 (cnsTable 5 3) = .ok M2 ∧ M1.nRows = 10 ∧
    (∀ r < 10, M1.mulVec (M0.mulVec fun (i : ℕ) => (i : ℤ) ^ 3) r = 0) ∧
    (∀ r < M2.nRows, M2.mulVec (M1.mulVec fun (i : ℕ) => (i : ℤ) ^ 3) r = 0) := by
  obtain ⟨M0, h0, -⟩ := C11_delta0 5 5 3 (by omega) (by omega) (by omega) exLine 4
  obtain ⟨M1, h1, hr, -⟩ := C12_delta1 5 5 3 (by omega) (by omega) (by omega) exLine 4
  obtain ⟨M2, h2, -⟩ := C13_delta2_compact 5 5 3 (by omega) (by omega) (by omega) exLine 4 exLine_tetra
  refine ⟨M0, M1, M2, h0, h1, h2, hr, fun r hr' => ?_, fun r hr' => ?_⟩
  · exact C14_delta1_delta0 5 5 3 (by omega) (by omega) (by omega) exLine 4 M0 M1 h0 h1 ℤ _ r (by rw [hr]; exact hr')
  · exact C14_delta2_delta1 5 5 3 (by omega) (by omega) (by omega) exLine 4 exLine_tetra M1 M2 h1 h2 ℤ _ r hr'

/-- C15 on the same complex. -/
example : StoresInBounds (delta0Loop exLine 3 (cnsTable 5 3) 5 20) 10 5 :=
  (C15_writes_in_bounds 5 5 3 (by omega) (by omega) exLine 3).1

example : makeDelta2Compact 5 exLine 4 (cnsTable 5 3) ≠ .error .outOfBoundsWrite :=
  (C15_no_out_of_bounds 5 5 3 (by omega) (by omega) exLine 4).2.2.2

/-- C16: 1000 landmarks are fine; complete complexes on 2346 (triangles) and 65537 (edges) landmarks fail; 100000
landmarks can go wrong without an error. -/
example : store32 (triIdx 10 500 999) = triIdx 10 500 999 :=
  (C16_int32_exact_partial 1000).2 (by omega) 10 500 999 (by omega) (by omega) (by omega)

example : makeDelta1 2346 (fun _ _ => (0 : ℕ)) 1 (cnsTable 2346 3) = .error .valueError ∧
    makeDelta0 65537 (fun _ _ => (0 : ℕ)) 1 (cnsTable 65537 3) = .error .valueError :=
  ⟨(C16_wraps_beyond 2346 2346 3 (by omega) (by omega) _ 1 fun _ _ _ _ => Nat.zero_lt_one).2 (by omega),
    (C16_wraps_beyond 65537 65537 3 (by omega) (by omega) _ 1 fun _ _ _ _ => Nat.zero_lt_one).1 (by omega)⟩

example : ∃ (dist : ℕ → ℕ → ℕ) (t : ℕ) (M : SparseMat), makeDelta0 100000 dist t (cnsTable 100000 2) = .ok M ∧
    ¬ RipsEdge 100000 dist t 0 1 ∧ ∃ f : ℕ → ℤ, M.mulVec f (edgeIdx 0 1) ≠ 0 :=
  C16_silent_corruption 100000 100000 2 (by omega) (by omega) (by omega) (by norm_num)

end Dreimac
