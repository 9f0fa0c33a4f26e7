import Verif.Props.CircularExamples

/-!
# Concrete inputs for C17–C23: repairs that succeed, that crash, and a class without an integral lift

The class without an integral lift lives on a triangulation of the projective plane with 11 vertices that has no empty
triangles (so it is the Rips complex of the metric with distances 1 along edges and 2 otherwise); a circle with four more
vertices next to it carries another class.
-/

namespace Dreimac

/-! ### dense vectors of sorted edge lists -/

theorem storeRow_edge {N n : ℕ} (hn : n ≤ N) (a b : ℕ) (hab : a < b) (hb : b < n) (v : ℤ) (vec : List ℤ)
    (hvec : vec.length = Nat.choose n 2) :
    storeRow (cnsTable N 2) vec ⟨[a, b], v⟩ = .ok (vec.set (cnsForward [a, b] (cnsTable N 2)) v) := by
  have hm : StrictMono ![a, b] := by
    intro i j hij
    fin_cases i <;> fin_cases j <;> first | exact hab | (exfalso; revert hij; decide)
  have := storeRow_ofFn (n := n) (d := 1) (N := N) (D := 2) (r := ⟨[a, b], v⟩) (f := ![a, b]) (τ := 1) hn
    (by norm_num) (by simp [List.ofFn_succ]) hm.injective (by intro i; fin_cases i <;> simp <;> omega) (by simpa using hm)
    vec hvec
  simpa [List.ofFn_succ] using this

theorem fold_edges {N n : ℕ} (hn : n ≤ N) (l : List ((ℕ × ℕ) × ℤ)) (h : ∀ e ∈ l, e.1.1 < e.1.2 ∧ e.1.2 < n)
    (vec : List ℤ) (hvec : vec.length = Nat.choose n 2) :
    (l.map fun e => (⟨[e.1.1, e.1.2], e.2⟩ : Row)).foldlM (storeRow (cnsTable N 2)) vec =
      .ok (l.foldl (fun vec e => vec.set (cnsForward [e.1.1, e.1.2] (cnsTable N 2)) e.2) vec) := by
  induction l generalizing vec with
  | nil => rfl
  | cons e l ih =>
    obtain ⟨h1, h2⟩ := h e (by simp)
    simp only [List.map_cons, List.foldlM_cons, storeRow_edge hn _ _ h1 h2 _ _ hvec, bind, Except.bind, List.foldl_cons]
    exact ih (fun e he => h e (by simp [he])) _ (by simp [hvec])

/-- The dense vector of a list of sorted edges. -/
theorem dense_edges {N n : ℕ} (hn : n ≤ N) (l : List ((ℕ × ℕ) × ℤ)) (h : ∀ e ∈ l, e.1.1 < e.1.2 ∧ e.1.2 < n) :
    sparseCocycleToVector 1 (l.map fun e => (⟨[e.1.1, e.1.2], e.2⟩ : Row)) (cnsTable N 2) n =
      .ok (l.foldl (fun vec e => vec.set (cnsForward [e.1.1, e.1.2] (cnsTable N 2)) e.2)
        (List.replicate (Nat.choose n 2) 0)) := by
  unfold sparseCocycleToVector
  rw [show numberOfSimplices 1 n (cnsTable N 2) = Nat.choose n 2 from table_read hn (by norm_num)]
  exact fold_edges hn l h _ (by simp)

/-! ### the projective plane and a circle -/

/-- The edges: 30 of the projective plane on `0, …, 10`, and the 4-cycle `11 12 13 14`. -/
def rpEdges : List (ℕ × ℕ) :=
  [(0, 4), (0, 5), (0, 6), (0, 8), (0, 9), (0, 10), (1, 3), (1, 4), (1, 5), (1, 7), (1, 9), (1, 10), (2, 3), (2, 4),
    (2, 6), (2, 7), (2, 8), (3, 5), (3, 6), (3, 8), (3, 9), (4, 7), (4, 8), (4, 9), (5, 8), (5, 10), (6, 7), (6, 9),
    (6, 10), (7, 10), (11, 12), (12, 13), (13, 14), (11, 14)]

/-- The 20 triangles. -/
def rpTris : List (ℕ × ℕ × ℕ) :=
  [(0, 4, 8), (0, 4, 9), (0, 5, 8), (0, 5, 10), (0, 6, 9), (0, 6, 10), (1, 3, 5), (1, 3, 9), (1, 4, 7), (1, 4, 9),
    (1, 5, 10), (1, 7, 10), (2, 3, 6), (2, 3, 8), (2, 4, 7), (2, 4, 8), (2, 6, 7), (3, 5, 8), (3, 6, 9), (6, 7, 10)]

/-- Distance 1 along edges, 2 otherwise. -/
def rpDist (l i : ℕ) : ℕ := if l = i then 0 else if (l, i) ∈ rpEdges ∨ (i, l) ∈ rpEdges then 1 else 2

/-- The class of the projective plane modulo 2. -/
def rpRows : List ((ℕ × ℕ) × ℤ) :=
  [((1, 4), 1), ((1, 9), 1), ((2, 6), 1), ((2, 7), 1), ((3, 6), 1), ((3, 9), 1), ((4, 7), 1)]

/-- Its dense vector. -/
def rpVec : List ℤ := rpRows.foldl (fun vec e => vec.set (edgeIdx e.1.1 e.1.2) e.2) (List.replicate 105 0)

/-- Two classes, both alive on `[1, 2)`: class 0 is the circle, class 1 the projective plane. -/
noncomputable def rpObj : ToroObj :=
  ⟨2, [[], [(.fin 1, .fin 2), (.fin 1, .fin 2)]],
    [[], [[⟨[11, 12], 1⟩], rpRows.map fun e => ⟨[e.1.1, e.1.2], e.2⟩]],
    15, 15, fun l i => rpDist l i, .float, fun m => m, cnsTable 15 2, none, none⟩

theorem rpObj_wf : WellFormed rpObj :=
  ⟨rfl, ⟨15, 2, by decide, by decide, rfl⟩, by decide, by decide, fun _ _ => Nat.cast_nonneg _⟩

theorem rpObj_fieldValued : FieldValued rpObj.prime rpObj.cocycles := by
  have : ∀ ck ∈ ([[], [[⟨[11, 12], 1⟩], rpRows.map fun e => ⟨[e.1.1, e.1.2], e.2⟩]] : List (List SparseCochain)),
      ∀ c ∈ ck, ∀ r ∈ c, 0 ≤ r.val ∧ r.val < 2 := by decide
  exact this

theorem rpObj_class1 : ValidClass rpObj (.int 1) 1 2 (rpRows.map fun e => ⟨[e.1.1, e.1.2], e.2⟩) where
  stored := rfl
  edges := by
    have : ∀ r ∈ (rpRows.map fun e => (⟨[e.1.1, e.1.2], e.2⟩ : Row)),
        r.verts.length = 2 ∧ r.verts.Nodup ∧ ∀ v ∈ r.verts, v < 15 := by decide
    exact fun r hr => valid_iff (this r hr).1 (this r hr).2.1 (this r hr).2.2
  distinct := by decide
  alive := by norm_num

theorem rp_dense : sparseCocycleToVector 1 (rpRows.map fun e => ⟨[e.1.1, e.1.2], e.2⟩) (cnsTable 15 2) 15 = .ok rpVec := by
  rw [dense_edges (le_refl _) rpRows (by decide)]
  have : ∀ a b : List ℤ, a = b → (Except.ok a : Except PyErr (List ℤ)) = .ok b := fun a b h => by rw [h]
  apply this
  decide +kernel

theorem rp_edge (l m : ℕ) : RipsEdge rpObj.nLand rpObj.distLandLand (2 * (3 / 4 : ℝ)) l m ↔ (l, m) ∈ rpEdges := by
  have h1 : RipsEdge rpObj.nLand rpObj.distLandLand (2 * (3 / 4 : ℝ)) l m ↔ l < m ∧ m < 15 ∧ rpDist l m < 2 := by
    constructor
    · rintro ⟨h1, h2, h3⟩
      refine ⟨h1, h2, ?_⟩
      have h4 : ((rpDist l m : ℕ) : ℝ) < 2 * (3 / 4) := h3
      have h5 : ((rpDist l m : ℕ) : ℝ) < (2 : ℕ) := by push_cast; linarith
      exact_mod_cast h5
    · rintro ⟨h1, h2, h3⟩
      refine ⟨h1, h2, ?_⟩
      show ((rpDist l m : ℕ) : ℝ) < 2 * (3 / 4)
      have h4 : ((rpDist l m : ℕ) : ℝ) ≤ (1 : ℕ) := by exact_mod_cast Nat.lt_succ_iff.1 h3
      push_cast at h4; linarith
  have h2 : ∀ e ∈ rpEdges, e.1 < e.2 ∧ e.2 < 15 := by decide
  rw [h1]
  unfold rpDist
  constructor
  · rintro ⟨h3, h4, h5⟩
    rw [if_neg h3.ne] at h5
    split at h5
    · next h =>
      rcases h with h | h
      · exact h
      · exact absurd (h2 _ h).1 (by simp only; omega)
    · omega
  · intro h
    have := h2 _ h
    refine ⟨this.1, this.2, ?_⟩
    rw [if_neg this.1.ne, if_pos (Or.inl h)]
    norm_num

/-- The Rips triangles are the triangles of the projective plane. -/
theorem rp_triangle (i j k : ℕ) :
    RipsTriangle rpObj.nLand rpObj.distLandLand (2 * (3 / 4 : ℝ)) i j k ↔ (i, j, k) ∈ rpTris := by
  unfold RipsTriangle
  rw [rp_edge, rp_edge, rp_edge]
  constructor
  · rintro ⟨h1, h2, h3⟩
    have key : ∀ e ∈ rpEdges, ∀ f ∈ rpEdges, e.2 = f.1 → (e.1, f.2) ∈ rpEdges → (e.1, e.2, f.2) ∈ rpTris := by
      decide +kernel
    exact key _ h1 _ h2 rfl h3
  · intro h
    have key : ∀ t ∈ rpTris, (t.1, t.2.1) ∈ rpEdges ∧ (t.2.1, t.2.2) ∈ rpEdges ∧ (t.1, t.2.2) ∈ rpEdges := by
      decide +kernel
    exact key _ h

theorem rp_cocycle : IsCocycle1Mod rpObj.prime rpObj.nLand rpObj.distLandLand (2 * (3 / 4 : ℝ)) (fun e => rpVec.getD e 0) := by
  intro i j k h
  rw [rp_triangle] at h
  have key : ∀ t ∈ rpTris, (2 : ℤ) ∣ rpVec.getD (edgeIdx t.1 t.2.1) 0 + rpVec.getD (edgeIdx t.2.1 t.2.2) 0 -
      rpVec.getD (edgeIdx t.1 t.2.2) 0 := by decide +kernel
  exact key _ h

/-- The class of the projective plane has no integral lift. -/
theorem rp_no_lift : ¬ ∃ c, IntegralLift1 rpObj.prime rpObj.nLand rpObj.distLandLand (2 * (3 / 4 : ℝ))
    (fun e => rpVec.getD e 0) c := by
  rintro ⟨c, hc, hcong⟩
  have eq : ∀ t ∈ rpTris, c (edgeIdx t.1 t.2.1) + c (edgeIdx t.2.1 t.2.2) - c (edgeIdx t.1 t.2.2) = 0 :=
    fun t ht => hc _ _ _ ((rp_triangle _ _ _).2 ht)
  have par : ∀ e, ∃ k, c e = rpVec.getD e 0 + 2 * k := fun e => by
    obtain ⟨k, hk⟩ := hcong e
    exact ⟨k, by have : rpObj.prime = 2 := rfl; rw [this] at hk; linarith⟩
  simp only [rpTris, List.forall_mem_cons, List.not_mem_nil, IsEmpty.forall_iff, implies_true, and_true] at eq
  obtain ⟨t1, t2, t3, t4, t5, t6, t7, t8, t9, t10, t11, t12, t13, t14, t15, t16, t17, t18, t19, t20⟩ := eq
  -- the signed sum of the 20 triangle equations is twice the value of the loop `1 3 6 7 10`
  have loop : 2 * (c (edgeIdx 1 3) + c (edgeIdx 3 6) + c (edgeIdx 6 7) + c (edgeIdx 7 10) - c (edgeIdx 1 10)) = 0 := by
    linear_combination - t1 + t2 + t3 - t4 - t5 + t6 + t7 + t8 + t9 - t10 + t11 + t12 + t13 - t14 - t15 + t16 + t17 - t18
      + t19 + t20
  obtain ⟨k1, h1⟩ := par (edgeIdx 1 3)
  obtain ⟨k2, h2⟩ := par (edgeIdx 3 6)
  obtain ⟨k3, h3⟩ := par (edgeIdx 6 7)
  obtain ⟨k4, h4⟩ := par (edgeIdx 7 10)
  obtain ⟨k5, h5⟩ := par (edgeIdx 1 10)
  have v1 : rpVec.getD (edgeIdx 1 3) 0 = 0 := by decide +kernel
  have v2 : rpVec.getD (edgeIdx 3 6) 0 = 1 := by decide +kernel
  have v3 : rpVec.getD (edgeIdx 6 7) 0 = 0 := by decide +kernel
  have v4 : rpVec.getD (edgeIdx 7 10) 0 = 0 := by decide +kernel
  have v5 : rpVec.getD (edgeIdx 1 10) 0 = 0 := by decide +kernel
  omega

/-! ### C20, C23, C83: the class without an integral lift -/

theorem rpObj_checked : CheckedCall idealEnv rpObj ⟨.fin (1 / 2), [.int 1], bumpLinear, false, true⟩ :=
  ⟨rfl, by decide, by decide, 1 / 10, 1 / 10, by norm_num, by norm_num, idealMilp_sound⟩

/-- C20: the repair step raises the error for this class. -/
example : ∃ i, checkAndRepair (idealMilp : Milp ℝ) 15 rpObj.distLandLand (2 * (3 / 4 : ℝ)) (cnsTable 15 2) 2 true
    [fun e => rpVec.getD e 0] = .error (.noIntegralLift i) :=
  (C20_error_iff_no_lift 15 15 2 (by norm_num) (by norm_num) (by norm_num) rpObj.distLandLand _ idealMilp (1 / 10) (1 / 10)
    (by norm_num) (by norm_num) idealMilp_sound idealMilp_complete 2 (by norm_num) _ rp_cocycle).2 rp_no_lift

/-- C20: the integer program is infeasible. -/
example (M : SparseMat) (hM : makeDelta1Compact 15 rpObj.distLandLand (2 * (3 / 4 : ℝ)) (cnsTable 15 2) = .ok M) :
    ¬ ∃ z : ℕ → ℤ, ∀ r < M.nRows, M.mulVec z r = M.mulVec (fun e => rpVec.getD e 0) r / 2 :=
  fun h => rp_no_lift ((C20_feasible_iff_lift 15 15 2 (by norm_num) (by norm_num) (by norm_num) rpObj.distLandLand _ M hM 2
    (by norm_num) _ rp_cocycle).1 h)

/-- C23: the user asks for class 1 and is told that class 0 has no integral lift. -/
example (fuel : ℕ) : ∃ i, (getCoordinates idealEnv fuel rpObj ⟨.fin (1 / 2), [.int 1], bumpLinear, false, true⟩).2 =
    .error (.noIntegralLift i) ∧ i ≠ 1 :=
  C23_wrong_index_call idealEnv fuel rpObj rpObj_wf rpObj_fieldValued 1 (by norm_num) 1 2 _ rpObj_class1 (1 / 2) false
    (by norm_num) bumpLinear positiveBump_linear rpObj_checked idealMilp_complete (3 / 4) (by norm_num) rpVec rp_dense
    rp_cocycle rp_no_lift

/-- C83: with the check off the same call returns. -/
example (fuel : ℕ) : ∃ θ, (getCoordinates idealEnv fuel rpObj ⟨.fin (1 / 2), [.int 1], bumpLinear, false, false⟩).2 =
    .ok [θ] := by
  obtain ⟨r, -, ⟨θ, h, -⟩, -⟩ := C83_one_class idealEnv fuel rpObj rpObj_wf rpObj_fieldValued (.int 1) 1 2 _ rpObj_class1
    (1 / 2) false (by norm_num) bumpLinear positiveBump_linear
  exact ⟨θ, h⟩

/-! ### C17, C19, C21: a triangle modulo 3 -/

theorem tri3 (i j k : ℕ) : RipsTriangle 3 (fun _ _ => (1 : ℕ)) 2 i j k ↔ i = 0 ∧ j = 1 ∧ k = 2 := by
  constructor
  · rintro ⟨⟨h1, _, _⟩, ⟨h2, h3, _⟩, _⟩; omega
  · rintro ⟨rfl, rfl, rfl⟩
    exact ⟨⟨by decide, by decide, by decide⟩, ⟨by decide, by decide, by decide⟩, ⟨by decide, by decide, by decide⟩⟩

theorem exampleCochain_mod : IsCocycle1Mod 3 3 (fun _ _ => (1 : ℕ)) 2 exampleCochain := by
  intro i j k h
  obtain ⟨rfl, rfl, rfl⟩ := (tri3 i j k).1 h
  decide

theorem exampleCochain_not : ¬ IsCocycle1 3 (fun _ _ => (1 : ℕ)) 2 exampleCochain := by
  intro h
  have := h 0 1 2 ((tri3 _ _ _).2 ⟨rfl, rfl, rfl⟩)
  revert this; decide

theorem exampleCochain_lift : ∃ c', IntegralLift1 3 3 (fun _ _ => (1 : ℕ)) 2 exampleCochain c' := by
  refine ⟨fun e => if e = 1 then 2 else exampleCochain e, ?_, ?_⟩
  · intro i j k h
    obtain ⟨rfl, rfl, rfl⟩ := (tri3 i j k).1 h
    decide
  · intro e
    by_cases h : e = 1
    · subst h; decide
    · simp [h]

/-- C17: the check rejects the cochain and reports the length of the sides. -/
example : (isOneCocycle exampleCochain 3 (fun _ _ => (1 : ℕ)) 2 (cnsTable 3 2)).1 = false ∧
    (isOneCocycle exampleCochain 3 (fun _ _ => (1 : ℕ)) 2 (cnsTable 3 2)).2 = ((1 : ℕ) : WithTop ℕ) := by
  constructor
  · rw [Bool.eq_false_iff]
    exact fun h => exampleCochain_not
      ((C17_one_cocycle_check 3 3 2 (by norm_num) (by norm_num) (fun _ _ => (1 : ℕ)) 2 exampleCochain).1 h)
  · obtain ⟨m, hm, ⟨i, j, k, -, -, h⟩, -⟩ := (C17_first_failure 3 3 2 (by norm_num) (by norm_num) (fun _ _ => (1 : ℕ)) 2
      exampleCochain).2 exampleCochain_not
    rw [hm]
    rcases h with rfl | rfl | rfl <;> rfl

/-- C19, C21: one such class is repaired, between two classes that need no repair. -/
example : ∃ c', IntegralLift1 3 3 (fun _ _ => (1 : ℕ)) 2 exampleCochain c' ∧
    checkAndRepair (idealMilp : Milp ℚ) 3 (fun _ _ => (1 : ℕ)) 2 (cnsTable 3 2) 3 true
      ([fun _ => 0] ++ exampleCochain :: [fun _ => 0]) = .ok ([fun _ => 0] ++ c' :: [fun _ => 0]) :=
  (C21_repairs_one_class_partial 3 3 2 (by norm_num) (by norm_num) (by norm_num) (fun _ _ => (1 : ℕ)) 2 idealMilp (1 / 10)
    (1 / 10) (by norm_num) (by norm_num) idealMilp_sound idealMilp_complete 3 (by norm_num) [fun _ => 0] [fun _ => 0]
    exampleCochain (by intro x hx; simp only [List.mem_singleton] at hx; subst hx; intro i j k _; rfl)
    (by intro x hx; simp only [List.mem_singleton] at hx; subst hx; intro i j k _; rfl) exampleCochain_mod).1
    exampleCochain_lift

/-- C21: two such classes crash the call. -/
example : checkAndRepair (idealMilp : Milp ℚ) 3 (fun _ _ => (1 : ℕ)) 2 (cnsTable 3 2) 3 true
    [exampleCochain, exampleCochain] = .error .valueError :=
  C21_second_repair_crashes 3 3 2 (by norm_num) (by norm_num) (by norm_num) (fun _ _ => (1 : ℕ)) 2 idealMilp
    idealMilp_complete 3 (by norm_num) [] [] [] exampleCochain exampleCochain (by simp) (by simp) exampleCochain_mod
    exampleCochain_lift exampleCochain_not exampleCochain_not

/-! ### C18, C22: a tetrahedron modulo 3 -/

theorem tet4 (i j k l : ℕ) : RipsTetra 4 (fun _ _ => (1 : ℕ)) 2 i j k l ↔ i = 0 ∧ j = 1 ∧ k = 2 ∧ l = 3 := by
  constructor
  · rintro ⟨⟨⟨h1, _, _⟩, ⟨h2, h3, _⟩, _⟩, _, _, h4, h5, _⟩; omega
  · rintro ⟨rfl, rfl, rfl, rfl⟩
    refine ⟨⟨?_, ?_, ?_⟩, ?_, ?_, ?_⟩ <;> exact ⟨by decide, by decide, by decide⟩

theorem tet4_count (l : List (ℕ × ℕ × ℕ × ℕ)) (hl : l.Nodup)
    (h : ∀ x ∈ l, RipsTetra 4 (fun _ _ => (1 : ℕ)) 2 x.1 x.2.1 x.2.2.1 x.2.2.2) : l.length ≤ 2 ^ 31 := by
  have : l ⊆ [(0, 1, 2, 3)] := by
    rintro ⟨i, j, k, q⟩ hx
    obtain ⟨h1, h2, h3, h4⟩ := (tet4 _ _ _ _).1 (h _ hx)
    simp only at h1 h2 h3 h4
    simp [h1, h2, h3, h4]
  have := (List.subperm_of_subset hl this).length_le
  simp only [List.length_singleton] at this
  exact this.trans (by norm_num)

/-- A 2-cochain on a tetrahedron with coboundary `3`. -/
def exampleCochain2 : ℕ → ℤ := fun e => if e = 0 then 1 else if e = 1 then -1 else if e = 2 then 1 else 0

theorem exampleCochain2_mod : IsCocycle2Mod 3 4 (fun _ _ => (1 : ℕ)) 2 exampleCochain2 := by
  intro i j k l h
  obtain ⟨rfl, rfl, rfl, rfl⟩ := (tet4 i j k l).1 h
  decide

theorem exampleCochain2_not : ¬ IsCocycle2 4 (fun _ _ => (1 : ℕ)) 2 exampleCochain2 := by
  intro h
  have := h 0 1 2 3 ((tet4 _ _ _ _).2 ⟨rfl, rfl, rfl, rfl⟩)
  revert this; decide

theorem exampleCochain2_lift : ∃ c', IntegralLift2 3 4 (fun _ _ => (1 : ℕ)) 2 exampleCochain2 c' := by
  refine ⟨fun e => if e = 0 then -2 else exampleCochain2 e, ?_, ?_⟩
  · intro i j k l h
    obtain ⟨rfl, rfl, rfl, rfl⟩ := (tet4 i j k l).1 h
    decide
  · intro e
    by_cases h : e = 0
    · subst h; decide
    · simp [h]

/-- C18, C22: the cochain has an integral lift, the shipped code raises `NameError`. -/
example : (∃ c', IntegralLift2 3 4 (fun _ _ => (1 : ℕ)) 2 exampleCochain2 c') ∧
    isTwoCocycle exampleCochain2 4 (fun _ _ => (1 : ℕ)) 2 (cnsTable 4 3) = false ∧
    checkAndRepair2AsIs (idealMilp : Milp ℚ) 4 (fun _ _ => (1 : ℕ)) 2 (cnsTable 4 3) 3 0 true exampleCochain2 =
      .error .nameError := by
  refine ⟨exampleCochain2_lift, ?_, ?_⟩
  · rw [Bool.eq_false_iff]
    exact fun h => exampleCochain2_not
      ((C18_two_cocycle_check 4 4 3 (by norm_num) (by norm_num) (fun _ _ => (1 : ℕ)) 2 exampleCochain2).1 h)
  · exact C22_repair_raises_name_error 4 4 3 (by norm_num) (by norm_num) (by norm_num) (fun _ _ => (1 : ℕ)) 2 tet4_count
      idealMilp 3 0 exampleCochain2 exampleCochain2_not

/-- C19, C22: if `scipy` were imported, the call would return an integral lift. -/
example : ∃ c', IntegralLift2 3 4 (fun _ _ => (1 : ℕ)) 2 exampleCochain2 c' ∧
    checkAndRepair2 true (idealMilp : Milp ℚ) 4 (fun _ _ => (1 : ℕ)) 2 (cnsTable 4 3) 3 0 true exampleCochain2 = .ok c' :=
  (C22_repair_if_imported_partial 4 4 3 (by norm_num) (by norm_num) (by norm_num) (fun _ _ => (1 : ℕ)) 2
    tet4_count (idealMilp : Milp ℚ) (1 / 10) (1 / 10) (by norm_num) (by norm_num) idealMilp_sound idealMilp_complete 3 0
    (by norm_num) exampleCochain2 exampleCochain2_mod).2.1 exampleCochain2_lift

/-! ### whole calls -/

theorem rpObj_class0 : ValidClass rpObj (.int 0) 1 2 [⟨[11, 12], 1⟩] where
  stored := rfl
  edges := by
    intro r hr
    rw [List.mem_singleton] at hr
    subst hr
    exact valid_iff (n := 15) rfl (by decide) (by decide)
  distinct := by simp
  alive := by norm_num

/-- The circle and the projective plane, selected in the order `[1, 0]`. -/
def rpSelected : List Selected := [⟨.int 1, 1, 2, rpRows.map fun e => ⟨[e.1.1, e.1.2], e.2⟩⟩, ⟨.int 0, 1, 2, [⟨[11, 12], 1⟩]⟩]

theorem rp_selected : SelectedClasses rpObj rpSelected (1 / 2) false 1 2 (3 / 4) where
  valid := by
    intro x hx
    simp only [rpSelected, List.mem_cons, List.not_mem_nil, or_false] at hx
    rcases hx with rfl | rfl
    · exact rpObj_class1
    · exact rpObj_class0
  latest := by
    refine ⟨⟨_, List.mem_cons_self .., rfl⟩, ?_⟩
    rintro b ⟨x, hx, rfl⟩
    simp only [rpSelected, List.mem_cons, List.not_mem_nil, or_false] at hx
    rcases hx with rfl | rfl <;> exact le_refl _
  earliest := by
    refine ⟨⟨_, List.mem_cons_self .., rfl⟩, ?_⟩
    rintro b ⟨x, hx, rfl⟩
    simp only [rpSelected, List.mem_cons, List.not_mem_nil, or_false] at hx
    rcases hx with rfl | rfl <;> exact le_refl _
  overlap := by norm_num
  long := by norm_num
  radius := by norm_num

theorem rp_circle_lift : LiftIsCocycle rpObj (2 * (3 / 4 : ℝ)) [⟨[11, 12], 1⟩] := by
  intro v hv i j k h
  rw [rp_triangle] at h
  have e : v = (List.replicate 105 0).set (edgeIdx 11 12) (-1) := by
    have h1 : liftToIntegerCocycle [⟨[11, 12], 1⟩] 2 = ([((11, 12), -1)] : List ((ℕ × ℕ) × ℤ)).map
        fun e => (⟨[e.1.1, e.1.2], e.2⟩ : Row) := by decide
    have h2 := dense_edges (le_refl 15) [((11, 12), (-1 : ℤ))] (by decide)
    rw [← h1] at h2
    have h3 : sparseCocycleToVector 1 (liftToIntegerCocycle [⟨[11, 12], 1⟩] 2) (cnsTable 15 2) 15 = .ok v := hv
    rw [h2] at h3
    injection h3 with h3
    rw [← h3]
    decide +kernel
  subst e
  have key : ∀ t ∈ rpTris, ((List.replicate 105 (0 : ℤ)).set (edgeIdx 11 12) (-1)).getD (edgeIdx t.1 t.2.1) 0 +
      ((List.replicate 105 0).set (edgeIdx 11 12) (-1)).getD (edgeIdx t.2.1 t.2.2) 0 -
      ((List.replicate 105 0).set (edgeIdx 11 12) (-1)).getD (edgeIdx t.1 t.2.2) 0 = 0 := by decide +kernel
  exact key _ h

theorem rp_storedMod : StoredIsCocycleMod rpObj (2 * (3 / 4 : ℝ)) (rpRows.map fun e => ⟨[e.1.1, e.1.2], e.2⟩) := by
  intro u hu
  have h : sparseCocycleToVector 1 (rpRows.map fun e => ⟨[e.1.1, e.1.2], e.2⟩) (cnsTable 15 2) 15 = .ok u := hu
  rw [rp_dense] at h
  injection h with h
  subst h
  exact rp_cocycle

theorem rp_noLift : ¬ HasIntegralLift rpObj (2 * (3 / 4 : ℝ)) (rpRows.map fun e => ⟨[e.1.1, e.1.2], e.2⟩) := by
  rintro ⟨u, c, hu, hc⟩
  have h : sparseCocycleToVector 1 (rpRows.map fun e => ⟨[e.1.1, e.1.2], e.2⟩) (cnsTable 15 2) 15 = .ok u := hu
  rw [rp_dense] at h
  injection h with h
  subst h
  exact rp_no_lift ⟨c, hc⟩

/-- C23: with the selection `[1, 0]` the class without a lift, class 1, is reported as class 0. -/
example (fuel : ℕ) : (getCoordinates idealEnv fuel rpObj ⟨.fin (1 / 2), [.int 1, .int 0], bumpLinear, false, true⟩).2 =
    .error (.noIntegralLift 0) :=
  C23_error_position_call_partial idealEnv fuel rpObj rpObj_wf rpObj_fieldValued [] [_] _ (1 / 2) false 1 2 (3 / 4)
    rp_selected bumpLinear positiveBump_linear
    ⟨rfl, by decide, by decide, 1 / 10, 1 / 10, by norm_num, by norm_num, idealMilp_sound⟩ idealMilp_complete (by simp)
    (by intro y hy; rw [List.mem_singleton] at hy; subst hy; exact rp_circle_lift) rp_storedMod rp_noLift

/-- C20 for the whole call. -/
example (fuel : ℕ) : ∃ i, (getCoordinates idealEnv fuel rpObj ⟨.fin (1 / 2), [.int 1], bumpLinear, false, true⟩).2 =
    .error (.noIntegralLift i) :=
  ((C20_error_iff_no_lift_call idealEnv fuel rpObj rpObj_wf rpObj_fieldValued (.int 1) 1 2 _ rpObj_class1 (1 / 2) false
    (by norm_num) bumpLinear positiveBump_linear rpObj_checked idealMilp_complete (3 / 4) (by norm_num) rp_storedMod).1).2
    rp_noLift

/-- A filled triangle with two classes (modulo 3) whose lifts are not cocycles. -/
noncomputable def triObj : ToroObj :=
  ⟨3, [[], [(.fin 1, .fin 2), (.fin 1, .fin 2)]],
    [[], [[⟨[0, 1], 1⟩, ⟨[0, 2], 2⟩, ⟨[1, 2], 1⟩], [⟨[0, 1], 1⟩, ⟨[0, 2], 2⟩, ⟨[1, 2], 1⟩]]],
    3, 3, fun l i => if l = i then 0 else 1, .float, fun m => m, cnsTable 3 2, none, none⟩

/-- The array of both classes. -/
def triArray : SparseCochain := [⟨[0, 1], 1⟩, ⟨[0, 2], 2⟩, ⟨[1, 2], 1⟩]

theorem triObj_class (i : ℕ) (hi : i < 2) : ValidClass triObj (.int i) 1 2 triArray where
  stored := by interval_cases i <;> rfl
  edges := by
    intro r hr
    simp only [triArray, List.mem_cons, List.not_mem_nil, or_false] at hr
    rcases hr with rfl | rfl | rfl <;> exact valid_iff (n := 3) rfl (by decide) (by decide)
  distinct := by
    simp only [triArray, List.pairwise_cons, List.mem_cons, List.not_mem_nil, or_false, IsEmpty.forall_iff, implies_true,
      List.Pairwise.nil, and_true, forall_eq_or_imp, forall_eq]
    decide
  alive := by norm_num

theorem triObj_dense : sparseCocycleToVector 1 triArray triObj.table triObj.nLand = .ok [1, 2, 1] := by
  have h := dense_edges (le_refl 3) [((0, 1), (1 : ℤ)), ((0, 2), 2), ((1, 2), 1)] (by decide)
  exact h

theorem triObj_dense_lift :
    sparseCocycleToVector 1 (liftToIntegerCocycle triArray triObj.prime) triObj.table triObj.nLand = .ok [1, -1, 1] := by
  have h := dense_edges (le_refl 3) [((0, 1), (1 : ℤ)), ((0, 2), -1), ((1, 2), 1)] (by decide)
  exact h

theorem triObj_tri : RipsTriangle triObj.nLand triObj.distLandLand (2 * (3 / 4 : ℝ)) 0 1 2 := by
  have e : ∀ l m : ℕ, l < m → m < 3 → RipsEdge triObj.nLand triObj.distLandLand (2 * (3 / 4 : ℝ)) l m := by
    intro l m h1 h2
    refine ⟨h1, h2, ?_⟩
    have : triObj.distLandLand l m = 1 := by
      show (if l = m then (0 : ℝ) else 1) = 1
      rw [if_neg (by omega)]
    rw [this]; norm_num
  exact ⟨e _ _ (by norm_num) (by norm_num), e _ _ (by norm_num) (by norm_num), e _ _ (by norm_num) (by norm_num)⟩

theorem triObj_not : ¬ LiftIsCocycle triObj (2 * (3 / 4 : ℝ)) triArray := by
  intro h
  have := h _ triObj_dense_lift 0 1 2 triObj_tri
  revert this; decide

theorem triObj_cocycle : IsCocycle1 triObj.nLand triObj.distLandLand (2 * (3 / 4 : ℝ)) (fun e => ([1, 2, 1] : List ℤ).getD e 0) := by
  rintro i j k ⟨⟨h1, -, -⟩, ⟨h2, h3, -⟩, -⟩
  have h3' : k < 3 := h3
  obtain ⟨rfl, rfl, rfl⟩ : i = 0 ∧ j = 1 ∧ k = 2 := by omega
  decide

/-- C21: the call for both classes crashes although both stored arrays are integer cocycles as they are. -/
example (fuel : ℕ) : (getCoordinates idealEnv fuel triObj ⟨.fin (1 / 2), [.int 0, .int 1], bumpLinear, false, true⟩).2 =
    .error .valueError := by
  have hval : ∀ x ∈ [(⟨.int 0, 1, 2, triArray⟩ : Selected), ⟨.int 1, 1, 2, triArray⟩],
      ValidClass triObj x.arg x.birth x.death x.array ∧ x.birth = 1 ∧ x.death = 2 := by
    intro x hx
    simp only [List.mem_cons, List.not_mem_nil, or_false] at hx
    rcases hx with rfl | rfl
    · exact ⟨triObj_class 0 (by norm_num), rfl, rfl⟩
    · exact ⟨triObj_class 1 (by norm_num), rfl, rfl⟩
  have hsel : SelectedClasses triObj ([] ++ ⟨.int 0, 1, 2, triArray⟩ :: ([] ++ ⟨.int 1, 1, 2, triArray⟩ :: [])) (1 / 2) false
      1 2 (3 / 4) := by
    refine ⟨fun x hx => (hval x hx).1, ⟨⟨_, List.mem_cons_self .., rfl⟩, ?_⟩, ⟨⟨_, List.mem_cons_self .., rfl⟩, ?_⟩,
      by norm_num, by norm_num, by norm_num⟩
    · rintro b ⟨x, hx, rfl⟩
      exact (hval x hx).2.1.le
    · rintro b ⟨x, hx, rfl⟩
      exact (hval x hx).2.2.ge
  refine C21_second_repair_crashes_call idealEnv fuel triObj
    ⟨rfl, ⟨3, 2, by decide, by decide, rfl⟩, by decide, by decide, fun l i => by
      show (0 : ℝ) ≤ if l = i then 0 else 1
      split <;> norm_num⟩ (by decide) (by decide) ?_ [] [] [] _ _ (1 / 2) false 1 2 (3 / 4) hsel bumpLinear
    positiveBump_linear idealMilp_complete (by simp) (by simp) triObj_not triObj_not ?_ ?_
  · have : ∀ ck ∈ ([[], [[⟨[0, 1], 1⟩, ⟨[0, 2], 2⟩, ⟨[1, 2], 1⟩], [⟨[0, 1], 1⟩, ⟨[0, 2], 2⟩, ⟨[1, 2], 1⟩]]] :
        List (List SparseCochain)), ∀ c ∈ ck, ∀ r ∈ c, 0 ≤ r.val ∧ r.val < 3 := by decide
    exact this
  · intro u hu i j k h
    rw [triObj_dense] at hu
    injection hu with hu
    subst hu
    rw [triObj_cocycle i j k h]
    exact dvd_zero _
  · exact ⟨_, _, triObj_dense, triObj_cocycle, fun e => by simp⟩

end Dreimac
