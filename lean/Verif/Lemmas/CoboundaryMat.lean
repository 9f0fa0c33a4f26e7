import Verif.Lemmas.Coboundary

/-! # What the coboundary matrices are -/

namespace Dreimac

theorem nEdges_eq (n : ℕ) : (n * (n - 1)) / 2 = Nat.choose n 2 := (Nat.choose_two_right n).symm

theorem cnsD1_edgeIdx {N D i j : ℕ} (hi : i ≤ N) (hj : j ≤ N) (hD : 1 ≤ D) :
    cnsD1 i j (cnsTable N D) = edgeIdx i j := cnsD1_eq hi hj hD

theorem cnsD2_triIdx {N D i j k : ℕ} (hi : i ≤ N) (hj : j ≤ N) (hk : k ≤ N) (hD : 2 ≤ D) :
    cnsD2 i j k (cnsTable N D) = triIdx i j k := cnsD2_eq hi hj hk hD

section
variable {K : Type} [LT K] [DecidableLT K] {dist : ℕ → ℕ → K} {t : K} {n N D : ℕ}

theorem flatMap_map_toEntry {α : Type} (l : List α) (g : α → List (ℕ × ℕ × ℤ)) :
    (l.flatMap fun a => (g a).map toEntry) = (l.flatMap g).map toEntry := by
  induction l with
  | nil => rfl
  | cons a l ih => simp [ih]

theorem delta0Loop_ok (T : Table) :
    delta0Loop dist t T n (2 * Nat.choose n 2) = .ok (((ripsEdges n dist t).flatMap (chunk0 T)).map toEntry) := by
  rw [delta0Loop_eq, pushChunks_ok _ 2 (fun e => (chunk0 T e).map toEntry)]
  · rw [List.nil_append, flatMap_map_toEntry]
  · intro a _; simp [chunk0]
  · have := length_ripsEdges_le n dist t
    simp only [List.length_nil]; omega

theorem delta1Loop_ok (T : Table) :
    delta1Loop dist t T n (3 * Nat.choose n 3) = .ok (((ripsTris n dist t).flatMap (chunk1 T)).map toEntry) := by
  rw [delta1Loop_eq, pushChunks_ok _ 3 (fun e => (chunk1 T e).map toEntry)]
  · rw [List.nil_append, flatMap_map_toEntry]
  · intro a _; simp [chunk1, chunk1row]
  · have := length_ripsTris_le n dist t
    simp only [List.length_nil]; omega

theorem delta1CompactLoop_ok (T : Table) :
    delta1CompactLoop dist t T n (3 * Nat.choose n 3) =
      .ok ((((ripsTris n dist t).zipIdx).flatMap (fun x => chunk1row T x.2 x.1)).map toEntry,
        (ripsTris n dist t).length) := by
  rw [delta1CompactLoop_eq, pushChunksCounted_ok _ 3 (fun i e => (chunk1row T i e).map toEntry)]
  · rw [List.nil_append, flatMap_map_toEntry, Nat.zero_add]
  · intro i a; simp [chunk1row]
  · have := length_ripsTris_le n dist t
    simp only [List.length_nil]; omega

theorem delta2CompactLoop_ok (T : Table) :
    delta2CompactLoop dist t T n (4 * Nat.choose n 4) =
      .ok ((((ripsTets n dist t).zipIdx).flatMap (fun x => chunk2row T x.2 x.1)).map toEntry,
        (ripsTets n dist t).length) := by
  rw [delta2CompactLoop_eq, pushChunksCounted_ok _ 4 (fun i e => (chunk2row T i e).map toEntry)]
  · rw [List.nil_append, flatMap_map_toEntry, Nat.zero_add]
  · intro i a; simp [chunk2row]
  · have := length_ripsTets_le n dist t
    simp only [List.length_nil]; omega

/-! ### entries are inside the shape -/

theorem chunk0_inBounds (hn : n ≤ N) (hD : 1 ≤ D) :
    ∀ e ∈ (ripsEdges n dist t).flatMap (chunk0 (cnsTable N D)), e.1 < Nat.choose n 2 ∧ e.2.1 < n := by
  intro e he
  rw [List.mem_flatMap] at he
  obtain ⟨⟨i, j⟩, hij, he⟩ := he
  rw [mem_ripsEdges] at hij
  obtain ⟨h1, h2, _⟩ := hij
  have hidx := cnsD1_edgeIdx (N := N) (D := D) (i := i) (j := j) (by omega) (by omega) hD
  have hlt := edgeIdx_lt h1 h2
  simp only [chunk0, List.mem_cons, List.not_mem_nil, or_false] at he
  rcases he with rfl | rfl <;> simp only [hidx] <;> exact ⟨hlt, by omega⟩

omit [DecidableLT K] in
theorem chunk1row_cols (hn : n ≤ N) (hD : 1 ≤ D) {i j k : ℕ} (h : RipsTriangle n dist t i j k) (r : ℕ) :
    ∀ e ∈ chunk1row (cnsTable N D) r (i, j, k), e.1 = r ∧ e.2.1 < Nat.choose n 2 := by
  intro e he
  obtain ⟨⟨h1, h2, _⟩, ⟨h3, h4, _⟩, ⟨h5, h6, _⟩⟩ := h
  simp only [chunk1row, List.mem_cons, List.not_mem_nil, or_false] at he
  rcases he with rfl | rfl | rfl
  · exact ⟨rfl, by simp only; rw [cnsD1_edgeIdx (by omega) (by omega) hD]; exact edgeIdx_lt h1 h2⟩
  · exact ⟨rfl, by simp only; rw [cnsD1_edgeIdx (by omega) (by omega) hD]; exact edgeIdx_lt h3 h4⟩
  · exact ⟨rfl, by simp only; rw [cnsD1_edgeIdx (by omega) (by omega) hD]; exact edgeIdx_lt h5 h6⟩

omit [DecidableLT K] in
theorem chunk2row_cols (hn : n ≤ N) (hD : 2 ≤ D) {i j k l : ℕ} (h : RipsTetra n dist t i j k l) (r : ℕ) :
    ∀ e ∈ chunk2row (cnsTable N D) r (i, j, k, l), e.1 = r ∧ e.2.1 < Nat.choose n 3 := by
  intro e he
  obtain ⟨⟨⟨h1, h2, _⟩, ⟨h3, h4, _⟩, ⟨h5, h6, _⟩⟩, _, _, ⟨h7, h8, _⟩⟩ := h
  simp only [chunk2row, List.mem_cons, List.not_mem_nil, or_false] at he
  rcases he with rfl | rfl | rfl | rfl
  all_goals
    refine ⟨rfl, ?_⟩
    simp only
    rw [cnsD2_triIdx (by omega) (by omega) (by omega) hD]
    exact triIdx_lt (by omega) (by omega) (by omega)

theorem chunk1_inBounds (hn : n ≤ N) (hD : 2 ≤ D) :
    ∀ e ∈ (ripsTris n dist t).flatMap (chunk1 (cnsTable N D)),
      e.1 < Nat.choose n 3 ∧ e.2.1 < Nat.choose n 2 := by
  intro e he
  rw [List.mem_flatMap] at he
  obtain ⟨⟨i, j, k⟩, hijk, he⟩ := he
  rw [mem_ripsTris] at hijk
  obtain ⟨h1, h2⟩ := chunk1row_cols hn (by omega) hijk _ e he
  refine ⟨?_, h2⟩
  obtain ⟨⟨g1, g2, _⟩, ⟨g3, g4, _⟩, _⟩ := hijk
  rw [h1]; simp only
  rw [cnsD2_triIdx (by omega) (by omega) (by omega) hD]
  exact triIdx_lt g1 g3 g4

theorem chunk1c_inBounds (hn : n ≤ N) (hD : 1 ≤ D) :
    ∀ e ∈ ((ripsTris n dist t).zipIdx).flatMap (fun x => chunk1row (cnsTable N D) x.2 x.1),
      e.1 < (ripsTris n dist t).length ∧ e.2.1 < Nat.choose n 2 := by
  intro e he
  rw [List.mem_flatMap] at he
  obtain ⟨⟨⟨i, j, k⟩, r⟩, hx, he⟩ := he
  have hr := List.snd_lt_of_mem_zipIdx hx
  have hm := List.fst_mem_of_mem_zipIdx hx
  rw [mem_ripsTris] at hm
  obtain ⟨h1, h2⟩ := chunk1row_cols hn hD hm _ e he
  exact ⟨by rw [h1]; simpa using hr, h2⟩

theorem chunk2c_inBounds (hn : n ≤ N) (hD : 2 ≤ D) :
    ∀ e ∈ ((ripsTets n dist t).zipIdx).flatMap (fun x => chunk2row (cnsTable N D) x.2 x.1),
      e.1 < (ripsTets n dist t).length ∧ e.2.1 < Nat.choose n 3 := by
  intro e he
  rw [List.mem_flatMap] at he
  obtain ⟨⟨⟨i, j, k, l⟩, r⟩, hx, he⟩ := he
  have hr := List.snd_lt_of_mem_zipIdx hx
  have hm := List.fst_mem_of_mem_zipIdx hx
  rw [mem_ripsTets] at hm
  obtain ⟨h1, h2⟩ := chunk2row_cols hn hD hm _ e he
  exact ⟨by rw [h1]; simpa using hr, h2⟩

/-! ### the matrices -/

theorem makeDelta0_ok (hn : n ≤ N) (hD : 1 ≤ D) (hsz : n ≤ 65536) :
    makeDelta0 n dist t (cnsTable N D) =
      .ok ⟨Nat.choose n 2, n, (ripsEdges n dist t).flatMap (chunk0 (cnsTable N D))⟩ := by
  unfold makeDelta0
  simp only [nEdges_eq, delta0Loop_ok, bind, Except.bind]
  exact csrArray_ok (choose2_le hsz) (by omega) (chunk0_inBounds hn hD)

theorem makeDelta1_ok (hn : n ≤ N) (hD : 2 ≤ D) (hsz : n ≤ 2345) :
    makeDelta1 n dist t (cnsTable N D) =
      .ok ⟨Nat.choose n 3, Nat.choose n 2, (ripsTris n dist t).flatMap (chunk1 (cnsTable N D))⟩ := by
  unfold makeDelta1
  simp only [nEdges_eq, show numberOfSimplices 2 n (cnsTable N D) = Nat.choose n 3 from table_read hn (by omega), delta1Loop_ok, bind,
    Except.bind]
  exact csrArray_ok (choose3_le hsz) (choose2_le (by omega)) (chunk1_inBounds hn hD)

theorem makeDelta1Compact_ok (hn : n ≤ N) (hD : 2 ≤ D) (hsz : n ≤ 65536)
    (hsz' : (ripsTris n dist t).length ≤ 2 ^ 31) :
    makeDelta1Compact n dist t (cnsTable N D) =
      .ok ⟨(ripsTris n dist t).length, Nat.choose n 2,
        ((ripsTris n dist t).zipIdx).flatMap (fun x => chunk1row (cnsTable N D) x.2 x.1)⟩ := by
  unfold makeDelta1Compact
  simp only [nEdges_eq, show numberOfSimplices 2 n (cnsTable N D) = Nat.choose n 3 from table_read hn (by omega), delta1CompactLoop_ok, bind,
    Except.bind]
  exact csrArray_ok hsz' (choose2_le hsz) (chunk1c_inBounds hn (by omega))

theorem makeDelta2Compact_ok (hn : n ≤ N) (hD : 3 ≤ D) (hsz : n ≤ 2345)
    (hsz' : (ripsTets n dist t).length ≤ 2 ^ 31) :
    makeDelta2Compact n dist t (cnsTable N D) =
      .ok ⟨(ripsTets n dist t).length, Nat.choose n 3,
        ((ripsTets n dist t).zipIdx).flatMap (fun x => chunk2row (cnsTable N D) x.2 x.1)⟩ := by
  unfold makeDelta2Compact
  simp only [show numberOfSimplices 2 n (cnsTable N D) = Nat.choose n 3 from table_read hn (by omega),
    show numberOfSimplices 3 n (cnsTable N D) = Nat.choose n 4 from table_read hn (by omega), delta2CompactLoop_ok, bind, Except.bind]
  exact csrArray_ok hsz' (choose3_le hsz) (chunk2c_inBounds hn (by omega))

/-! ### matrix-vector products -/

variable {R : Type} [Ring R]

theorem mulVec_flatMap {α : Type} (nr nc : ℕ) (l : List α) (g : α → List (ℕ × ℕ × ℤ)) (x : ℕ → R) (r : ℕ) :
    SparseMat.mulVec ⟨nr, nc, l.flatMap g⟩ x r =
      (l.map fun a => ((g a).map fun e => if e.1 = r then (e.2.2 : R) * x e.2.1 else 0).sum).sum :=
  sum_map_flatMap _ _ _

/-- The value of one chunk of rows `r0`. -/
theorem chunk_sum {g : List (ℕ × ℕ × ℤ)} {r0 r : ℕ} (hg : ∀ e ∈ g, e.1 = r0) (x : ℕ → R) :
    (g.map fun e => if e.1 = r then (e.2.2 : R) * x e.2.1 else 0).sum =
      if r0 = r then (g.map fun e => (e.2.2 : R) * x e.2.1).sum else 0 := by
  split
  · next h =>
    congr 1
    apply List.map_congr_left
    intro e he
    rw [if_pos (by rw [hg e he, h])]
  · next h =>
    apply sum_map_zero
    intro e he
    rw [if_neg (by rw [hg e he]; exact h)]

theorem delta0_mulVec (hn : n ≤ N) (hD : 1 ≤ D) (nr nc : ℕ) (f : ℕ → R) {i j : ℕ} (hij : i < j) (hj : j < n) :
    SparseMat.mulVec ⟨nr, nc, (ripsEdges n dist t).flatMap (chunk0 (cnsTable N D))⟩ f (edgeIdx i j) =
      if dist i j < t then f i - f j else 0 := by
  rw [mulVec_flatMap]
  have hval : ∀ e ∈ ripsEdges n dist t,
      ((chunk0 (cnsTable N D) e).map fun e => if e.1 = edgeIdx i j then (e.2.2 : R) * f e.2.1 else 0).sum =
      if edgeIdx e.1 e.2 = edgeIdx i j then f e.1 - f e.2 else 0 := by
    rintro ⟨a, b⟩ hab
    rw [mem_ripsEdges] at hab
    obtain ⟨h1, h2, _⟩ := hab
    have hidx := cnsD1_edgeIdx (N := N) (D := D) (i := a) (j := b) (by omega) (by omega) hD
    rw [chunk_sum (r0 := edgeIdx a b)]
    · simp only [chunk0, List.map_cons, List.map_nil, List.sum_cons, List.sum_nil]
      simp [sub_eq_add_neg]
    · intro e he
      simp only [chunk0, List.mem_cons, List.not_mem_nil, or_false] at he
      rcases he with rfl | rfl <;> exact hidx
  rw [List.map_congr_left hval]
  split
  · next hd =>
    rw [sum_map_single _ _ (i, j) (mem_ripsEdges.2 ⟨hij, hj, hd⟩) (nodup_ripsEdges n dist t)]
    · simp
    · rintro ⟨a, b⟩ hab hne
      rw [mem_ripsEdges] at hab
      rw [if_neg]
      intro h
      obtain ⟨h1, h2⟩ := edgeIdx_inj hab.1 hij h
      exact hne (by rw [h1, h2])
  · next hd =>
    apply sum_map_zero
    rintro ⟨a, b⟩ hab
    rw [mem_ripsEdges] at hab
    rw [if_neg]
    intro h
    obtain ⟨h1, h2⟩ := edgeIdx_inj hab.1 hij h
    exact hd (by rw [← h1, ← h2]; exact hab.2.2)

omit [DecidableLT K] in
theorem chunk1row_sum (hn : n ≤ N) (hD : 1 ≤ D) {i j k : ℕ} (h : RipsTriangle n dist t i j k) (r0 r : ℕ)
    (c : ℕ → R) :
    ((chunk1row (cnsTable N D) r0 (i, j, k)).map fun e => if e.1 = r then (e.2.2 : R) * c e.2.1 else 0).sum =
      if r0 = r then c (edgeIdx i j) + c (edgeIdx j k) - c (edgeIdx i k) else 0 := by
  rw [chunk_sum (r0 := r0) (fun e he => (chunk1row_cols hn hD h r0 e he).1)]
  obtain ⟨⟨h1, h2, _⟩, ⟨h3, h4, _⟩, ⟨h5, h6, _⟩⟩ := h
  congr 1
  simp only [chunk1row, List.map_cons, List.map_nil, List.sum_cons, List.sum_nil]
  rw [cnsD1_edgeIdx (by omega) (by omega) hD, cnsD1_edgeIdx (by omega) (by omega) hD,
    cnsD1_edgeIdx (by omega) (by omega) hD]
  simp [sub_eq_add_neg, add_assoc]

omit [DecidableLT K] in
theorem chunk2row_sum (hn : n ≤ N) (hD : 2 ≤ D) {i j k l : ℕ} (h : RipsTetra n dist t i j k l) (r0 r : ℕ)
    (c : ℕ → R) :
    ((chunk2row (cnsTable N D) r0 (i, j, k, l)).map fun e => if e.1 = r then (e.2.2 : R) * c e.2.1 else 0).sum =
      if r0 = r then c (triIdx i j k) - c (triIdx i j l) + c (triIdx i k l) - c (triIdx j k l) else 0 := by
  rw [chunk_sum (r0 := r0) (fun e he => (chunk2row_cols hn hD h r0 e he).1)]
  obtain ⟨⟨⟨h1, h2, _⟩, ⟨h3, h4, _⟩, ⟨h5, h6, _⟩⟩, _, _, ⟨h7, h8, _⟩⟩ := h
  congr 1
  simp only [chunk2row, List.map_cons, List.map_nil, List.sum_cons, List.sum_nil]
  rw [cnsD2_triIdx (by omega) (by omega) (by omega) hD, cnsD2_triIdx (by omega) (by omega) (by omega) hD,
    cnsD2_triIdx (by omega) (by omega) (by omega) hD, cnsD2_triIdx (by omega) (by omega) (by omega) hD]
  simp [sub_eq_add_neg, add_assoc]

theorem delta1_mulVec (hn : n ≤ N) (hD : 2 ≤ D) (nr nc : ℕ) (c : ℕ → R) {i j k : ℕ} (hij : i < j) (hjk : j < k) :
    (RipsTriangle n dist t i j k →
      SparseMat.mulVec ⟨nr, nc, (ripsTris n dist t).flatMap (chunk1 (cnsTable N D))⟩ c (triIdx i j k) =
        c (edgeIdx i j) + c (edgeIdx j k) - c (edgeIdx i k)) ∧
    (¬ RipsTriangle n dist t i j k →
      SparseMat.mulVec ⟨nr, nc, (ripsTris n dist t).flatMap (chunk1 (cnsTable N D))⟩ c (triIdx i j k) = 0) := by
  rw [mulVec_flatMap]
  have hval : ∀ e ∈ ripsTris n dist t,
      ((chunk1 (cnsTable N D) e).map fun e => if e.1 = triIdx i j k then (e.2.2 : R) * c e.2.1 else 0).sum =
      if triIdx e.1 e.2.1 e.2.2 = triIdx i j k then
        c (edgeIdx e.1 e.2.1) + c (edgeIdx e.2.1 e.2.2) - c (edgeIdx e.1 e.2.2) else 0 := by
    rintro ⟨a, b, d⟩ h
    rw [mem_ripsTris] at h
    unfold chunk1
    rw [chunk1row_sum hn (by omega) h]
    obtain ⟨⟨h1, h2, _⟩, ⟨h3, h4, _⟩, _⟩ := h
    simp only
    rw [cnsD2_triIdx (by omega) (by omega) (by omega) hD]
  rw [List.map_congr_left hval]
  constructor
  · intro ht
    rw [sum_map_single _ _ (i, j, k) (mem_ripsTris.2 ht) (nodup_ripsTris n dist t)]
    · simp
    · rintro ⟨a, b, d⟩ h hne
      rw [mem_ripsTris] at h
      rw [if_neg]
      intro h'
      obtain ⟨h1, h2, h3⟩ := triIdx_inj h.1.1 h.2.1.1 hij hjk h'
      exact hne (by rw [h1, h2, h3])
  · intro ht
    apply sum_map_zero
    rintro ⟨a, b, d⟩ h
    rw [mem_ripsTris] at h
    rw [if_neg]
    intro h'
    obtain ⟨h1, h2, h3⟩ := triIdx_inj h.1.1 h.2.1.1 hij hjk h'
    exact ht (by rw [← h1, ← h2, ← h3]; exact h)

/-- Row `r` of a matrix whose `r`-th chunk is numbered `r`. -/
theorem zipIdx_sum {α : Type} (l : List α) (k : ℕ) (val : α → R) (r : ℕ) (hr : r < l.length) :
    ((l.zipIdx k).map fun x => if x.2 = k + r then val x.1 else 0).sum = val l[r] := by
  induction l generalizing k r with
  | nil => simp at hr
  | cons a l ih =>
    rw [List.zipIdx_cons, List.map_cons, List.sum_cons]
    cases r with
    | zero =>
      simp only [Nat.add_zero, if_true, List.getElem_cons_zero]
      rw [sum_map_zero, add_zero]
      intro x hx
      have := List.le_snd_of_mem_zipIdx hx
      rw [if_neg (by omega)]
    | succ r =>
      rw [if_neg (by omega), zero_add, List.getElem_cons_succ, ← ih (k + 1) r (by simpa using hr)]
      simp only [Nat.add_assoc, Nat.add_comm 1 r]

theorem delta1c_mulVec (hn : n ≤ N) (hD : 1 ≤ D) (nr nc : ℕ) (c : ℕ → R) (r : ℕ)
    (hr : r < (ripsTris n dist t).length) :
    SparseMat.mulVec ⟨nr, nc, ((ripsTris n dist t).zipIdx).flatMap
        (fun x => chunk1row (cnsTable N D) x.2 x.1)⟩ c r =
      c (edgeIdx (ripsTris n dist t)[r].1 (ripsTris n dist t)[r].2.1) +
      c (edgeIdx (ripsTris n dist t)[r].2.1 (ripsTris n dist t)[r].2.2) -
      c (edgeIdx (ripsTris n dist t)[r].1 (ripsTris n dist t)[r].2.2) := by
  rw [mulVec_flatMap]
  have hval : ∀ x ∈ (ripsTris n dist t).zipIdx,
      ((chunk1row (cnsTable N D) x.2 x.1).map fun e => if e.1 = r then (e.2.2 : R) * c e.2.1 else 0).sum =
      if x.2 = 0 + r then c (edgeIdx x.1.1 x.1.2.1) + c (edgeIdx x.1.2.1 x.1.2.2) - c (edgeIdx x.1.1 x.1.2.2)
        else 0 := by
    rintro ⟨⟨a, b, d⟩, m⟩ h
    have hm := List.fst_mem_of_mem_zipIdx h
    rw [mem_ripsTris] at hm
    rw [chunk1row_sum hn hD hm, Nat.zero_add]
  rw [List.map_congr_left hval]
  exact zipIdx_sum (ripsTris n dist t) 0
    (fun e => c (edgeIdx e.1 e.2.1) + c (edgeIdx e.2.1 e.2.2) - c (edgeIdx e.1 e.2.2)) r hr

theorem delta2c_mulVec (hn : n ≤ N) (hD : 2 ≤ D) (nr nc : ℕ) (c : ℕ → R) (r : ℕ)
    (hr : r < (ripsTets n dist t).length) {i j k l : ℕ} (hijkl : (ripsTets n dist t)[r] = (i, j, k, l)) :
    SparseMat.mulVec ⟨nr, nc, ((ripsTets n dist t).zipIdx).flatMap
        (fun x => chunk2row (cnsTable N D) x.2 x.1)⟩ c r =
      c (triIdx i j k) - c (triIdx i j l) + c (triIdx i k l) - c (triIdx j k l) := by
  rw [mulVec_flatMap]
  have hval : ∀ x ∈ (ripsTets n dist t).zipIdx,
      ((chunk2row (cnsTable N D) x.2 x.1).map fun e => if e.1 = r then (e.2.2 : R) * c e.2.1 else 0).sum =
      if x.2 = 0 + r then c (triIdx x.1.1 x.1.2.1 x.1.2.2.1) - c (triIdx x.1.1 x.1.2.1 x.1.2.2.2) +
        c (triIdx x.1.1 x.1.2.2.1 x.1.2.2.2) - c (triIdx x.1.2.1 x.1.2.2.1 x.1.2.2.2) else 0 := by
    rintro ⟨⟨a, b, d, e⟩, m⟩ h
    have hm := List.fst_mem_of_mem_zipIdx h
    rw [mem_ripsTets] at hm
    rw [chunk2row_sum hn hD hm, Nat.zero_add]
  rw [List.map_congr_left hval]
  rw [zipIdx_sum (ripsTets n dist t) 0
    (fun e => c (triIdx e.1 e.2.1 e.2.2.1) - c (triIdx e.1 e.2.1 e.2.2.2) +
        c (triIdx e.1 e.2.2.1 e.2.2.2) - c (triIdx e.2.1 e.2.2.1 e.2.2.2)) r hr, hijkl]

end

end Dreimac
