import Mathlib.Algebra.Ring.Rat
import Mathlib.Data.Rat.Floor
import Verif.Lemmas.CoboundaryMat

/-!
# C11–C16: the coboundary matrices

Throughout, `n` is the number of landmarks, the lookup table was built for `N ≥ n` vertices and dimension `D`,
`dist` is any distance table with values in any type with a decidable `<`, and cochains take values in any ring.
`edgeIdx i j` and `triIdx i j k` are the slots of simplices in dense cochain vectors (C02, below).
-/

namespace Dreimac

variable {K : Type} [LT K] [DecidableLT K]

/-- **C02.** `edgeIdx` and `triIdx` are the indices the code computes. -/
theorem C02_edge_and_triangle_index (N D i j k : ℕ) (hi : i ≤ N) (hj : j ≤ N) (hk : k ≤ N) (hD : 2 ≤ D) :
    cnsForward [i, j] (cnsTable N D) = edgeIdx i j ∧ cnsForward [i, j, k] (cnsTable N D) = triIdx i j k := by
  rw [← cnsD1_eq_forward, ← cnsD2_eq_forward]
  exact ⟨cnsD1_edgeIdx hi hj (by omega), cnsD2_triIdx hi hj hk hD⟩

/-- **C11.** `make_delta0` returns the matrix of the coboundary from functions to edge cochains. -/
theorem C11_delta0 (n N D : ℕ) (hn : n ≤ N) (hD : 1 ≤ D) (hsz : n ≤ 65536) (dist : ℕ → ℕ → K) (t : K) :
    ∃ M, makeDelta0 n dist t (cnsTable N D) = .ok M ∧ M.nRows = Nat.choose n 2 ∧ M.nCols = n ∧
      ∀ (R : Type) [Ring R] (f : ℕ → R) (i j : ℕ), i < j → j < n →
        (RipsEdge n dist t i j → M.mulVec f (edgeIdx i j) = f i - f j) ∧
        (¬ RipsEdge n dist t i j → M.mulVec f (edgeIdx i j) = 0) := by
  refine ⟨_, makeDelta0_ok hn hD hsz, rfl, rfl, ?_⟩
  intro R _ f i j hij hj
  rw [delta0_mulVec hn hD _ _ f hij hj]
  refine ⟨fun h => by rw [if_pos h.2.2], fun h => by rw [if_neg (fun h' => h ⟨hij, hj, h'⟩)]⟩

/-- **C12.** `make_delta1` returns the matrix of the coboundary from edge cochains to triangle cochains. -/
theorem C12_delta1 (n N D : ℕ) (hn : n ≤ N) (hD : 2 ≤ D) (hsz : n ≤ 2345) (dist : ℕ → ℕ → K) (t : K) :
    ∃ M, makeDelta1 n dist t (cnsTable N D) = .ok M ∧ M.nRows = Nat.choose n 3 ∧ M.nCols = Nat.choose n 2 ∧
      ∀ (R : Type) [Ring R] (c : ℕ → R) (i j k : ℕ), i < j → j < k → k < n →
        (RipsTriangle n dist t i j k →
          M.mulVec c (triIdx i j k) = c (edgeIdx i j) + c (edgeIdx j k) - c (edgeIdx i k)) ∧
        (¬ RipsTriangle n dist t i j k → M.mulVec c (triIdx i j k) = 0) := by
  refine ⟨_, makeDelta1_ok hn hD hsz, rfl, rfl, ?_⟩
  intro R _ c i j k hij hjk _
  exact delta1_mulVec hn hD _ _ c hij hjk

/-- Every row of `make_delta0` and `make_delta1` is the row of an edge, resp. triangle, so C11 and C12 describe all
rows. -/
theorem C12_rows_are_simplices (n r : ℕ) :
    (r < Nat.choose n 2 → ∃ i j, i < j ∧ j < n ∧ edgeIdx i j = r) ∧
    (r < Nat.choose n 3 → ∃ i j k, i < j ∧ j < k ∧ k < n ∧ triIdx i j k = r) :=
  ⟨fun h => exists_edge_of_lt h, fun h => exists_tri_of_lt h⟩

/-- **C13.** `make_delta1_compact` has exactly one row per Rips triangle, holding the coboundary on that triangle. -/
theorem C13_delta1_compact (n N D : ℕ) (hn : n ≤ N) (hD : 2 ≤ D) (hsz : n ≤ 2345) (dist : ℕ → ℕ → K) (t : K) :
    ∃ M, makeDelta1Compact n dist t (cnsTable N D) = .ok M ∧ M.nCols = Nat.choose n 2 ∧
      ∃ tris : List (ℕ × ℕ × ℕ), tris.Nodup ∧ (∀ i j k, (i, j, k) ∈ tris ↔ RipsTriangle n dist t i j k) ∧
        M.nRows = tris.length ∧
        ∀ (R : Type) [Ring R] (c : ℕ → R) (r i j k : ℕ), tris[r]? = some (i, j, k) →
          M.mulVec c r = c (edgeIdx i j) + c (edgeIdx j k) - c (edgeIdx i k) := by
  refine ⟨_, makeDelta1Compact_ok hn hD (by omega) ((length_ripsTris_le n dist t).trans (choose3_le hsz)), rfl,
    ripsTris n dist t, nodup_ripsTris n dist t, fun _ _ _ => mem_ripsTris, rfl, ?_⟩
  intro R _ c r i j k h
  rw [List.getElem?_eq_some_iff] at h
  obtain ⟨hr, h⟩ := h
  rw [delta1c_mulVec hn (by omega) _ _ c r hr, h]

/-- **C13.** `make_delta2_compact` has exactly one row per Rips tetrahedron, holding the alternating sum over its
faces.  (`hsz'`: at most `2^31` tetrahedra exist at the threshold.) -/
theorem C13_delta2_compact (n N D : ℕ) (hn : n ≤ N) (hD : 3 ≤ D) (hsz : n ≤ 2345) (dist : ℕ → ℕ → K) (t : K)
    (hsz' : ∀ l : List (ℕ × ℕ × ℕ × ℕ), l.Nodup → (∀ x ∈ l, RipsTetra n dist t x.1 x.2.1 x.2.2.1 x.2.2.2) →
      l.length ≤ 2 ^ 31) :
    ∃ M, makeDelta2Compact n dist t (cnsTable N D) = .ok M ∧ M.nCols = Nat.choose n 3 ∧
      ∃ tets : List (ℕ × ℕ × ℕ × ℕ), tets.Nodup ∧ (∀ i j k l, (i, j, k, l) ∈ tets ↔ RipsTetra n dist t i j k l) ∧
        M.nRows = tets.length ∧
        ∀ (R : Type) [Ring R] (c : ℕ → R) (r i j k l : ℕ), tets[r]? = some (i, j, k, l) →
          M.mulVec c r = c (triIdx i j k) - c (triIdx i j l) + c (triIdx i k l) - c (triIdx j k l) := by
  have hlen : (ripsTets n dist t).length ≤ 2 ^ 31 :=
    hsz' _ (nodup_ripsTets n dist t) (fun ⟨_, _, _, _⟩ hx => mem_ripsTets.1 hx)
  refine ⟨_, makeDelta2Compact_ok hn hD hsz hlen, rfl,
    ripsTets n dist t, nodup_ripsTets n dist t, fun _ _ _ _ => mem_ripsTets, rfl, ?_⟩
  intro R _ c r i j k l h
  rw [List.getElem?_eq_some_iff] at h
  obtain ⟨hr, h⟩ := h
  rw [delta2c_mulVec hn (by omega) _ _ c r hr h]

/-- **C13.** A cochain is annihilated by the compact matrix iff its coboundary vanishes on every Rips triangle. -/
theorem C13_kernel (n N D : ℕ) (hn : n ≤ N) (hD : 2 ≤ D) (hsz : n ≤ 2345) (dist : ℕ → ℕ → K) (t : K)
    (M : SparseMat) (hM : makeDelta1Compact n dist t (cnsTable N D) = .ok M) (R : Type) [Ring R] (c : ℕ → R) :
    (∀ r < M.nRows, M.mulVec c r = 0) ↔
      ∀ i j k, RipsTriangle n dist t i j k → c (edgeIdx i j) + c (edgeIdx j k) - c (edgeIdx i k) = 0 := by
  obtain ⟨M', hM', _, tris, _, hmem, hrows, hval⟩ := C13_delta1_compact n N D hn hD hsz dist t
  rw [hM] at hM'
  injection hM' with hM'
  subst hM'
  constructor
  · intro h i j k hijk
    obtain ⟨r, hr, hrr⟩ := List.mem_iff_getElem.1 ((hmem i j k).2 hijk)
    have hr' : tris[r]? = some (i, j, k) := by rw [List.getElem?_eq_getElem hr, hrr]
    rw [← hval R c r i j k hr']
    exact h r (by omega)
  · intro h r hr
    rw [hrows] at hr
    rcases hx : tris[r] with ⟨i, j, k⟩
    rw [hval R c r i j k (by rw [List.getElem?_eq_getElem hr, hx])]
    exact h i j k ((hmem i j k).1 (hx ▸ List.getElem_mem hr))

/-- **C13.** The same for `make_delta2_compact` and tetrahedra. -/
theorem C13_kernel2 (n N D : ℕ) (hn : n ≤ N) (hD : 3 ≤ D) (hsz : n ≤ 2345) (dist : ℕ → ℕ → K) (t : K)
    (hsz' : ∀ l : List (ℕ × ℕ × ℕ × ℕ), l.Nodup → (∀ x ∈ l, RipsTetra n dist t x.1 x.2.1 x.2.2.1 x.2.2.2) →
      l.length ≤ 2 ^ 31)
    (M : SparseMat) (hM : makeDelta2Compact n dist t (cnsTable N D) = .ok M) (R : Type) [Ring R] (c : ℕ → R) :
    (∀ r < M.nRows, M.mulVec c r = 0) ↔
      ∀ i j k l, RipsTetra n dist t i j k l →
        c (triIdx i j k) - c (triIdx i j l) + c (triIdx i k l) - c (triIdx j k l) = 0 := by
  obtain ⟨M', hM', _, tets, _, hmem, hrows, hval⟩ := C13_delta2_compact n N D hn hD hsz dist t hsz'
  rw [hM] at hM'
  injection hM' with hM'
  subst hM'
  constructor
  · intro h i j k l hijk
    obtain ⟨r, hr, hrr⟩ := List.mem_iff_getElem.1 ((hmem i j k l).2 hijk)
    have hr' : tets[r]? = some (i, j, k, l) := by rw [List.getElem?_eq_getElem hr, hrr]
    rw [← hval R c r i j k l hr']
    exact h r (by omega)
  · intro h r hr
    rw [hrows] at hr
    rcases hx : tets[r] with ⟨i, j, k, l⟩
    rw [hval R c r i j k l (by rw [List.getElem?_eq_getElem hr, hx])]
    exact h i j k l ((hmem i j k l).1 (hx ▸ List.getElem_mem hr))

/-- **C14.** `delta1 (delta0 f) = 0` in every row, for every function `f` on the landmarks. -/
theorem C14_delta1_delta0 (n N D : ℕ) (hn : n ≤ N) (hD : 2 ≤ D) (hsz : n ≤ 2345) (dist : ℕ → ℕ → K) (t : K)
    (M0 M1 : SparseMat) (h0 : makeDelta0 n dist t (cnsTable N D) = .ok M0)
    (h1 : makeDelta1 n dist t (cnsTable N D) = .ok M1) (R : Type) [Ring R] (f : ℕ → R) (r : ℕ) (hr : r < M1.nRows) :
    M1.mulVec (M0.mulVec f) r = 0 := by
  obtain ⟨M0', h0', _, _, H0⟩ := C11_delta0 n N D hn (by omega) (by omega) dist t
  obtain ⟨M1', h1', hr1, _, H1⟩ := C12_delta1 n N D hn hD hsz dist t
  rw [h0] at h0'; rw [h1] at h1'
  injection h0' with h0'; injection h1' with h1'
  subst h0'; subst h1'
  rw [hr1] at hr
  obtain ⟨i, j, k, hij, hjk, hk, rfl⟩ := exists_tri_of_lt hr
  by_cases ht : RipsTriangle n dist t i j k
  · rw [(H1 R _ i j k hij hjk hk).1 ht, (H0 R f i j hij (by omega)).1 ht.1, (H0 R f j k hjk hk).1 ht.2.1,
      (H0 R f i k (by omega) hk).1 ht.2.2]
    abel
  · rw [(H1 R _ i j k hij hjk hk).2 ht]

/-- **C14.** `delta2 (delta1 c) = 0` in every row, for every edge cochain `c`. -/
theorem C14_delta2_delta1 (n N D : ℕ) (hn : n ≤ N) (hD : 3 ≤ D) (hsz : n ≤ 2345) (dist : ℕ → ℕ → K) (t : K)
    (hsz' : ∀ l : List (ℕ × ℕ × ℕ × ℕ), l.Nodup → (∀ x ∈ l, RipsTetra n dist t x.1 x.2.1 x.2.2.1 x.2.2.2) →
      l.length ≤ 2 ^ 31)
    (M1 M2 : SparseMat) (h1 : makeDelta1 n dist t (cnsTable N D) = .ok M1)
    (h2 : makeDelta2Compact n dist t (cnsTable N D) = .ok M2) (R : Type) [Ring R] (c : ℕ → R) (r : ℕ)
    (hr : r < M2.nRows) : M2.mulVec (M1.mulVec c) r = 0 := by
  obtain ⟨M1', h1', _, _, H1⟩ := C12_delta1 n N D hn (by omega) hsz dist t
  obtain ⟨M2', h2', _, tets, _, hmem, hrows, H2⟩ := C13_delta2_compact n N D hn hD hsz dist t hsz'
  rw [h1] at h1'; rw [h2] at h2'
  injection h1' with h1'; injection h2' with h2'
  subst h1'; subst h2'
  rw [hrows] at hr
  rcases hx : tets[r] with ⟨i, j, k, l⟩
  have ht := (hmem i j k l).1 (hx ▸ List.getElem_mem hr)
  rw [H2 R _ r i j k l (by rw [List.getElem?_eq_getElem hr, hx])]
  obtain ⟨⟨e1, e2, e3⟩, e4, e5, e6⟩ := ht
  rw [(H1 R c i j k e1.1 e2.1 e2.2.1).1 ⟨e1, e2, e3⟩, (H1 R c i j l e1.1 e5.1 e5.2.1).1 ⟨e1, e5, e4⟩,
    (H1 R c i k l e3.1 e6.1 e6.2.1).1 ⟨e3, e6, e4⟩, (H1 R c j k l e2.1 e6.1 e6.2.1).1 ⟨e2, e6, e5⟩]
  abel

/-- Non-vacuity: four points, the threshold cuts off one edge. -/
example : RipsTriangle 4 (fun i j => if i = 0 ∧ j = 3 then 5 else (1 : ℕ)) 2 0 1 2 ∧
    ¬ RipsTriangle 4 (fun i j => if i = 0 ∧ j = 3 then 5 else (1 : ℕ)) 2 0 1 3 ∧
    (makeDelta1 4 (fun i j => if i = 0 ∧ j = 3 then 5 else (1 : ℕ)) 2 (cnsTable 4 2)).isOk = true := by
  refine ⟨⟨⟨by decide, by decide, by decide⟩, ⟨by decide, by decide, by decide⟩, ⟨by decide, by decide, by decide⟩⟩,
    fun h => absurd h.2.2.2.2 (by decide), ?_⟩
  obtain ⟨M, hM, _⟩ := C12_delta1 4 4 2 (by omega) (by omega) (by omega)
    (fun i j => if i = 0 ∧ j = 3 then 5 else (1 : ℕ)) 2
  rw [hM]; rfl

/-- `es` are the entries the loop means to store: the loop finishes without a store beyond the buffers, the buffers
hold exactly `es` (each index stored as a 32-bit integer), and all indices of `es` are inside the matrix shape. -/
def StoresInBounds (result : Except PyErr (List Entry)) (nRows nCols : ℕ) : Prop :=
  ∃ es : List (ℕ × ℕ × ℤ), result = .ok (es.map fun e => ⟨store32 e.1, store32 e.2.1, e.2.2⟩) ∧
    ∀ e ∈ es, e.1 < nRows ∧ e.2.1 < nCols

/-- **C15.** No builder writes outside its buffers, whatever the distances, the threshold and the (unbounded) number
of landmarks, and all row and column indices are inside the declared shape. -/
theorem C15_writes_in_bounds (n N D : ℕ) (hn : n ≤ N) (hD : 3 ≤ D) (dist : ℕ → ℕ → K) (t : K) :
    let T := cnsTable N D
    StoresInBounds (delta0Loop dist t T n (2 * ((n * (n - 1)) / 2))) ((n * (n - 1)) / 2) n ∧
    StoresInBounds (delta1Loop dist t T n (3 * numberOfSimplices 2 n T)) (numberOfSimplices 2 n T)
      ((n * (n - 1)) / 2) ∧
    (∃ buf m, delta1CompactLoop dist t T n (3 * numberOfSimplices 2 n T) = .ok (buf, m) ∧
      StoresInBounds (.ok buf) m ((n * (n - 1)) / 2)) ∧
    (∃ buf m, delta2CompactLoop dist t T n (4 * numberOfSimplices 3 n T) = .ok (buf, m) ∧
      StoresInBounds (.ok buf) m (numberOfSimplices 2 n T)) := by
  intro T
  have e2 : numberOfSimplices 2 n T = Nat.choose n 3 := table_read hn (by omega)
  have e3 : numberOfSimplices 3 n T = Nat.choose n 4 := table_read hn (by omega)
  rw [e2, e3, nEdges_eq]
  refine ⟨⟨_, delta0Loop_ok T, chunk0_inBounds hn (by omega)⟩, ⟨_, delta1Loop_ok T, chunk1_inBounds hn (by omega)⟩,
    ⟨_, _, delta1CompactLoop_ok T, _, rfl, chunk1c_inBounds hn (by omega)⟩,
    ⟨_, _, delta2CompactLoop_ok T, _, rfl, chunk2c_inBounds hn (by omega)⟩⟩

/-- **C15.** In particular no builder ends in an out-of-bounds write. -/
theorem C15_no_out_of_bounds (n N D : ℕ) (hn : n ≤ N) (hD : 3 ≤ D) (dist : ℕ → ℕ → K) (t : K) :
    makeDelta0 n dist t (cnsTable N D) ≠ .error .outOfBoundsWrite ∧
    makeDelta1 n dist t (cnsTable N D) ≠ .error .outOfBoundsWrite ∧
    makeDelta1Compact n dist t (cnsTable N D) ≠ .error .outOfBoundsWrite ∧
    makeDelta2Compact n dist t (cnsTable N D) ≠ .error .outOfBoundsWrite := by
  obtain ⟨⟨_, h0, _⟩, ⟨_, h1, _⟩, ⟨_, _, h2, _⟩, ⟨_, _, h3, _⟩⟩ := C15_writes_in_bounds n N D hn hD dist t
  have hcsr : ∀ a b es, csrArray a b es ≠ .error .outOfBoundsWrite := by
    intro a b es; unfold csrArray; split <;> simp
  refine ⟨?_, ?_, ?_, ?_⟩
  · simp only [makeDelta0, h0, bind, Except.bind]; exact hcsr _ _ _
  · simp only [makeDelta1, h1, bind, Except.bind]; exact hcsr _ _ _
  · simp only [makeDelta1Compact, h2, bind, Except.bind]; exact hcsr _ _ _
  · simp only [makeDelta2Compact, h3, bind, Except.bind]; exact hcsr _ _ _

/-- **C16 (partial).** Full claim: stored 32-bit indices equal the intended ones for every number of landmarks.
Proved: they do for all edge indices up to 65536 landmarks and all triangle indices up to 2345 landmarks.
Missing: it is false beyond (see the two theorems below). -/
theorem C16_int32_exact_partial (n : ℕ) :
    (n ≤ 65536 → ∀ i j, i < j → j < n → store32 (edgeIdx i j) = edgeIdx i j) ∧
    (n ≤ 2345 → ∀ i j k, i < j → j < k → k < n → store32 (triIdx i j k) = triIdx i j k) :=
  ⟨fun h i j h1 h2 => store32_eq ((edgeIdx_lt h1 h2).trans_le (choose2_le h)),
    fun h i j k h1 h2 h3 => store32_eq ((triIdx_lt h1 h2 h3).trans_le (choose3_le h))⟩

/-- **C16 (negation).** For every number of landmarks above the bound, there is a simplex whose index wraps; if the
complex is complete the builders raise `ValueError` (negative index) instead of returning the matrix. -/
theorem C16_wraps_beyond (n N D : ℕ) (hn : n ≤ N) (hD : 3 ≤ D) (dist : ℕ → ℕ → K) (t : K)
    (hfull : ∀ i j, i < j → j < n → dist i j < t) :
    (65537 ≤ n → makeDelta0 n dist t (cnsTable N D) = .error .valueError) ∧
    (2346 ≤ n → makeDelta1 n dist t (cnsTable N D) = .error .valueError) := by
  have hcsr : ∀ (a b : ℕ) (es : List Entry) (e : Entry), e ∈ es → e.row < 0 →
      csrArray a b es = .error .valueError := by
    intro a b es e he hneg
    unfold csrArray
    rw [if_neg]
    rw [List.all_eq_true]
    intro h
    have := of_decide_eq_true (h e he)
    omega
  obtain ⟨m, hm⟩ : ∃ m : ℕ, m = 2 ^ 31 := ⟨_, rfl⟩
  have hs : store32 m < 0 := by rw [hm]; unfold store32; decide
  constructor
  · intro h
    have hc : m < Nat.choose n 2 := lt_of_lt_of_le (by rw [hm]; rw [Nat.choose_two_right]; norm_num)
      (Nat.choose_le_choose 2 h)
    obtain ⟨i, j, hij, hj, hidx⟩ := exists_edge_of_lt hc
    unfold makeDelta0
    simp only [nEdges_eq, delta0Loop_ok, bind, Except.bind]
    refine hcsr _ _ _ (toEntry (m, i, 1)) ?_ (by rw [toEntry_row]; exact hs)
    apply List.mem_map_of_mem
    rw [List.mem_flatMap]
    refine ⟨(i, j), mem_ripsEdges.2 ⟨hij, hj, hfull i j hij hj⟩, ?_⟩
    simp only [chunk0]
    rw [cnsD1_edgeIdx (by omega) (by omega) (by omega), hidx]
    simp
  · intro h
    have hc : m < Nat.choose n 3 := lt_of_lt_of_le
      (by rw [hm]; rw [Nat.choose_eq_descFactorial_div_factorial]; norm_num [Nat.descFactorial, Nat.factorial])
      (Nat.choose_le_choose 3 h)
    obtain ⟨i, j, k, hij, hjk, hk, hidx⟩ := exists_tri_of_lt hc
    unfold makeDelta1
    simp only [nEdges_eq, show numberOfSimplices 2 n (cnsTable N D) = Nat.choose n 3 from table_read hn (by omega),
      delta1Loop_ok, bind, Except.bind]
    refine hcsr _ _ _ (toEntry (m, edgeIdx i j, 1)) ?_ (by rw [toEntry_row]; exact hs)
    apply List.mem_map_of_mem
    rw [List.mem_flatMap]
    refine ⟨(i, j, k), mem_ripsTris.2 ⟨⟨hij, by omega, hfull i j hij (by omega)⟩, ⟨hjk, hk, hfull j k hjk hk⟩,
      ⟨by omega, hk, hfull i k (by omega) hk⟩⟩, ?_⟩
    simp only [chunk1, chunk1row]
    rw [cnsD2_triIdx (by omega) (by omega) (by omega) (by omega), cnsD1_edgeIdx (by omega) (by omega) (by omega), hidx]
    simp

/-- **C16 (negation, silent corruption).** For every number of landmarks `n ≥ 92683` there are distances for which
`make_delta0` returns, without any error, a matrix with a non-zero row at the slot of the edge `{0,1}`, although
`{0,1}` is not an edge of the complex. -/
theorem C16_silent_corruption (n N D : ℕ) (hn : n ≤ N) (hD : 1 ≤ D) (h : 92683 ≤ n) (hlt : n < 2 ^ 31) :
    ∃ (dist : ℕ → ℕ → ℕ) (t : ℕ) (M : SparseMat), makeDelta0 n dist t (cnsTable N D) = .ok M ∧
      ¬ RipsEdge n dist t 0 1 ∧ ∃ f : ℕ → ℤ, M.mulVec f (edgeIdx 0 1) ≠ 0 := by
  have hc : 2 ^ 32 < Nat.choose n 2 := lt_of_lt_of_le (by rw [Nat.choose_two_right]; norm_num)
      (Nat.choose_le_choose 2 h)
  obtain ⟨i, j, hij, hj, hidx⟩ := exists_edge_of_lt hc
  let dist : ℕ → ℕ → ℕ := fun a b => if a = i ∧ b = j then 0 else 1
  have hedge : ∀ a b, RipsEdge n dist 1 a b ↔ a = i ∧ b = j := by
    intro a b
    simp only [RipsEdge, dist]
    constructor
    · rintro ⟨_, _, h⟩
      by_contra h'
      rw [if_neg h'] at h; omega
    · rintro ⟨rfl, rfl⟩; exact ⟨hij, hj, by simp⟩
  have hlist : ripsEdges n dist 1 = [(i, j)] := by
    have hnd := nodup_ripsEdges n dist 1
    have hmem : ∀ e, e ∈ ripsEdges n dist 1 ↔ e = (i, j) := by
      rintro ⟨a, b⟩; rw [mem_ripsEdges, hedge]; simp
    exact List.perm_singleton.1 ((List.perm_ext_iff_of_nodup hnd (by simp)).2 (by intro a; rw [hmem]; simp))
  have h01 : ¬ (0 = i ∧ 1 = j) := by
    rintro ⟨rfl, rfl⟩
    have : edgeIdx 0 1 = 0 := by decide
    omega
  have hi31 : store32 i = i := store32_eq (by omega)
  have hj31 : store32 j = j := store32_eq (by omega)
  have h0 : store32 (2 ^ 32) = 0 := by unfold store32; decide
  refine ⟨dist, 1, ⟨Nat.choose n 2, n, [(0, i, 1), (0, j, -1)]⟩, ?_, ?_, fun x => if x = i then 1 else 0, ?_⟩
  · unfold makeDelta0
    simp only [nEdges_eq, delta0Loop_ok, bind, Except.bind, hlist, List.flatMap_cons, List.flatMap_nil, chunk0,
      cnsD1_edgeIdx (show i ≤ N by omega) (show j ≤ N by omega) hD, hidx, List.append_nil, List.map_cons, List.map_nil,
      toEntry, h0, hi31, hj31]
    unfold csrArray
    rw [if_pos]
    · simp
    · simp only [List.all_cons, List.all_nil, Bool.and_true, Bool.and_eq_true, decide_eq_true_eq]
      omega
  · rw [hedge]; exact h01
  · have e01 : edgeIdx 0 1 = 0 := by decide
    simp only [SparseMat.mulVec, e01, List.map_cons, List.map_nil, if_true, List.sum_cons, List.sum_nil]
    rw [if_neg (show ¬ j = i by omega)]
    simp

end Dreimac
