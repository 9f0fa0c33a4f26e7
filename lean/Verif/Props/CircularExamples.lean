import Mathlib.Analysis.InnerProductSpace.PiL2
import Mathlib.Analysis.InnerProductSpace.Projection.Minimal
import Verif.Props.CircularCall

/-!
# Concrete objects and calls that satisfy the hypotheses of C08, C27, C29, C33–C39, C41, C45, C46, C83
-/

namespace Dreimac

open Real Matrix

/-! ### ideal solvers exist -/

/-- `A` as a linear map. -/
noncomputable def SparseMat.toLin (A : SparseMat) : (ℕ → ℝ) →ₗ[ℝ] EuclideanSpace ℝ (Fin A.nRows) where
  toFun x := WithLp.toLp 2 fun e => A.mulVec x e
  map_add' x y := by
    ext e
    show A.mulVec (x + y) e = A.mulVec x e + A.mulVec y e
    unfold SparseMat.mulVec
    rw [← List.sum_map_add]
    congr 1
    apply List.map_congr_left; intro f _
    split <;> simp [mul_add]
  map_smul' c x := by
    ext e
    show A.mulVec (c • x) e = c * A.mulVec x e
    unfold SparseMat.mulVec
    rw [← List.sum_map_mul_left]
    congr 1
    apply List.map_congr_left; intro f _
    split <;> simp; ring

theorem exists_lsq (A : SparseMat) (b : ℕ → ℝ) : ∃ y : ℕ → ℝ, ∀ x : ℕ → ℝ,
    ∑ e ∈ Finset.range A.nRows, (A.mulVec y e - b e) ^ 2 ≤ ∑ e ∈ Finset.range A.nRows, (A.mulVec x e - b e) ^ 2 := by
  let u : EuclideanSpace ℝ (Fin A.nRows) := WithLp.toLp 2 fun e => b e
  obtain ⟨v, ⟨y, rfl⟩, hv⟩ := (LinearMap.range A.toLin).exists_norm_eq_iInf_of_complete_subspace
    (Submodule.complete_of_finiteDimensional _) u
  have hsq : ∀ x, ‖u - A.toLin x‖ ^ 2 = ∑ e ∈ Finset.range A.nRows, (A.mulVec x e - b e) ^ 2 := by
    intro x
    rw [EuclideanSpace.norm_sq_eq, Finset.sum_range]
    apply Finset.sum_congr rfl; intro e _
    show ‖b e - A.mulVec x e‖ ^ 2 = _
    rw [Real.norm_eq_abs, sq_abs]; ring
  refine ⟨y, fun x => ?_⟩
  rw [← hsq, ← hsq, hv]
  have : (⨅ w : (LinearMap.range A.toLin : Submodule ℝ _), ‖u - w‖) ≤ ‖u - A.toLin x‖ :=
    ciInf_le ⟨0, by rintro _ ⟨w, rfl⟩; exact norm_nonneg _⟩ (⟨A.toLin x, x, rfl⟩ : LinearMap.range A.toLin)
  have h0 : 0 ≤ ⨅ w : (LinearMap.range A.toLin : Submodule ℝ _), ‖u - w‖ := Real.iInf_nonneg fun _ => norm_nonneg _
  gcongr
  exact this

/-- An exact least squares solver. -/
noncomputable def idealLsqr : Lsqr := fun A b => (exists_lsq A b).choose

theorem idealLsqr_exact : ExactLsq idealLsqr := fun A b x => (exists_lsq A b).choose_spec x

open Classical in
/-- A Cholesky factorisation. -/
noncomputable def idealCholesky : Cholesky := fun n G =>
  if h : ∃ L : Matrix (Fin n) (Fin n) ℝ, L * Lᵀ = G ∧ (∀ i j, i < j → L i j = 0) ∧ ∀ i, 0 < L i i then some h.choose
  else none

theorem idealCholesky_spec : CholeskySpec idealCholesky := by
  intro n G
  unfold idealCholesky
  constructor
  · intro L hL
    split at hL
    · next h => injection hL with hL; subst hL; exact h.choose_spec
    · cases hL
  · intro hN
    split at hN
    · cases hN
    · assumption

/-- Ideal external routines. -/
noncomputable def idealEnv : Oracles := ⟨idealLsqr, idealMilp, idealCholesky⟩

/-! ### the octagon: eight data points on a circle, four landmarks, one class -/

/-- The distance along the cycle of length 8 from landmark `l` (data point `2l`) to data point `i`. -/
def octDist (l i : ℕ) : ℕ := min ((2 * l + 7 * i) % 8) ((i + 14 * l) % 8)

/-- One class, born at 2 and dying at 4, represented by the edge between landmarks 3 and 0. -/
noncomputable def octObj : ToroObj :=
  ⟨3, [[], [(.fin 2, .fin 4)]], [[], [[⟨[3, 0], 2⟩]]], 4, 8, fun l i => octDist l i, .float, fun m => 2 * m,
    cnsTable 8 2, none, none⟩

theorem octObj_wf : WellFormed octObj :=
  ⟨rfl, ⟨8, 2, by decide, by decide, rfl⟩, by decide, by decide, fun _ _ => Nat.cast_nonneg _⟩

theorem octObj_fieldValued : FieldValued octObj.prime octObj.cocycles := by
  intro ck hck c hc r hr
  simp only [octObj, List.mem_cons, List.not_mem_nil, or_false] at hck
  rcases hck with rfl | rfl
  · cases hc
  · simp only [List.mem_cons, List.not_mem_nil, or_false] at hc
    subst hc
    simp only [List.mem_cons, List.not_mem_nil, or_false] at hr
    subst hr
    decide

theorem octObj_class : ValidClass octObj (.int 0) 2 4 [⟨[3, 0], 2⟩] where
  stored := rfl
  edges := by
    intro r hr
    simp only [List.mem_cons, List.not_mem_nil, or_false] at hr
    subst hr
    refine ⟨rfl, by decide, by intro v hv; simp only [List.mem_cons, List.not_mem_nil, or_false] at hv; rcases hv with rfl | rfl <;> decide⟩
  distinct := by simp
  alive := by norm_num

theorem octObj_triangle : LandmarkTriangle octObj.nLand octObj.dist octObj.distLandLand := by
  intro l m i hl hm
  show ((octDist l (2 * m) : ℕ) : ℝ) ≤ (octDist l i : ℕ) + (octDist m i : ℕ)
  have : octDist l (2 * m) ≤ octDist l i + octDist m i := by
    have hl' : l < 4 := hl
    have hm' : m < 4 := hm
    have hi : ∀ k, octDist k i = octDist k (i % 8) := fun k => by
      unfold octDist
      have e1 : (2 * k + 7 * i) % 8 = (2 * k + 7 * (i % 8)) % 8 := by omega
      have e2 : (i + 14 * k) % 8 = (i % 8 + 14 * k) % 8 := by omega
      rw [e1, e2]
    have key : ∀ l < 4, ∀ m < 4, ∀ j < 8, octDist l (2 * m) ≤ octDist l j + octDist m j := by decide +kernel
    rw [hi l, hi m]
    exact key l hl' m hm' _ (Nat.mod_lt _ (by norm_num))
  exact_mod_cast this

theorem octObj_no_triangle (i j k : ℕ) : ¬ RipsTriangle octObj.nLand octObj.distLandLand (2 * (3 / 2 : ℝ)) i j k := by
  intro h
  have e : ∀ l m : ℕ, RipsEdge octObj.nLand octObj.distLandLand (2 * (3 / 2 : ℝ)) l m → l < m ∧ m < 4 ∧ octDist l (2 * m) < 3 := by
    rintro l m ⟨h1, h2, h3⟩
    refine ⟨h1, h2, ?_⟩
    have h4 : ((octDist l (2 * m) : ℕ) : ℝ) < 2 * (3 / 2) := h3
    have h5 : ((octDist l (2 * m) : ℕ) : ℝ) < (3 : ℕ) := by push_cast; linarith
    exact_mod_cast h5
  obtain ⟨h1, h2, h3⟩ := h
  have h1 := e _ _ h1
  have h2 := e _ _ h2
  have h3 := e _ _ h3
  have key : ∀ i < 4, ∀ j < 4, ∀ k < 4,
      ¬ (i < j ∧ j < k ∧ octDist i (2 * j) < 3 ∧ octDist i (2 * k) < 3 ∧ octDist j (2 * k) < 3) := by decide +kernel
  exact key i (by omega) j (by omega) k (by omega) ⟨by omega, by omega, by omega, by omega, by omega⟩

/-- The call made in the examples: `perc = 1/2`, `standard_range = False`, linear partition of unity, check on. -/
noncomputable def octArgs : Args := ⟨.fin (1 / 2), [.int 0], bumpLinear, false, true⟩

theorem octObj_checked : CheckedCall idealEnv octObj octArgs :=
  ⟨rfl, by decide, by decide, 1 / 10, 1 / 10, by norm_num, by norm_num, idealMilp_sound⟩

theorem octObj_stored : StoredCocycles octObj octArgs (3 / 2) := by
  intro x hx b d s hs
  simp only [octArgs, List.mem_cons, List.not_mem_nil, or_false] at hx
  subst hx
  rw [octObj_class.stored] at hs
  simp only [Except.ok.injEq, Prod.mk.injEq] at hs
  obtain ⟨-, -, rfl⟩ := hs
  obtain ⟨u, v, hu, -⟩ := octObj_class.dense octObj_wf
  exact ⟨u, hu, fun i j k h => absurd h (octObj_no_triangle i j k)⟩

/-- The call returns one coordinate; all hypotheses of C29, C33–C37, C39, C46 hold for it. -/
theorem octObj_call (fuel : ℕ) : ∃ θ, (getCoordinates idealEnv fuel octObj octArgs).2 = .ok [θ] ∧
    (getCoordinates idealEnv fuel octObj octArgs).1.radius = some (.fin (3 / 2), .fin 3) := by
  obtain ⟨r, hr, -, h⟩ := C83_one_class idealEnv fuel octObj octObj_wf octObj_fieldValued (.int 0) 2 4 _ octObj_class (1 / 2)
    false (by norm_num) bumpLinear positiveBump_linear
  obtain rfl : r = 3 / 2 := by simp only [Bool.false_eq_true, if_false] at hr; linarith
  obtain ⟨u, v, hu, -⟩ := octObj_class.dense octObj_wf
  have := (h octObj_checked idealMilp_complete u hu (fun i j k h => absurd h (octObj_no_triangle i j k))).1
    ⟨_, fun i j k h => absurd h (octObj_no_triangle i j k), fun e => by rw [sub_self]; exact dvd_zero _⟩
  rw [show 2 * (3 / 2 : ℝ) = 3 by norm_num] at this
  exact this

/-- Covered points exist: data point 1 lies in the balls of landmarks 0 and 1. -/
example : InBall octObj.nLand octObj.dist (3 / 2) 0 1 ∧ InBall octObj.nLand octObj.dist (3 / 2) 1 1 := by
  refine ⟨⟨by decide, ?_⟩, ⟨by decide, ?_⟩⟩ <;>
  · show ((octDist _ _ : ℕ) : ℝ) < _
    norm_num [octDist]

/-- The theorems apply to this call. -/
example (fuel : ℕ) : ∃ θ, (getCoordinates idealEnv fuel octObj octArgs).2 = .ok [θ] ∧
    (∀ i, (∃ l < octObj.nLand, octObj.dist l i < 3 / 2) → ∃ y : ℝ, θ i = .fin y ∧ 0 ≤ y ∧ y < 2 * π) := by
  obtain ⟨θ, h1, h2⟩ := octObj_call fuel
  exact ⟨θ, h1, fun i hi => C33_angles octObj_wf octObj_fieldValued positiveBump_linear h1 h2 θ (by simp) i hi⟩

/-! ### two classes: the complete bipartite graph on 3 + 3 points -/

/-- Points on different sides have distance 1, on the same side 2. -/
def bipDist (l i : ℕ) : ℕ := if l = i then 0 else if (l < 3 ↔ i < 3) then 2 else 1

/-- Two classes, born at 1 and dying at 2, given by the 4-cycles `0 3 1 4` and `0 3 2 5`, which share the edge `0 3`. -/
noncomputable def bipObj : ToroObj :=
  ⟨3, [[], [(.fin 1, .fin 2), (.fin 1, .fin 2)]],
    [[], [[⟨[0, 3], 1⟩, ⟨[1, 3], 2⟩, ⟨[1, 4], 1⟩, ⟨[0, 4], 2⟩], [⟨[0, 3], 1⟩, ⟨[2, 3], 2⟩, ⟨[2, 5], 1⟩, ⟨[0, 5], 2⟩]]],
    6, 6, fun l i => bipDist l i, .float, fun m => m, cnsTable 6 2, none, none⟩

theorem bipObj_wf : WellFormed bipObj :=
  ⟨rfl, ⟨6, 2, by decide, by decide, rfl⟩, by decide, by decide, fun _ _ => Nat.cast_nonneg _⟩

theorem bipObj_fieldValued : FieldValued bipObj.prime bipObj.cocycles := by
  have : ∀ ck ∈ ([[], [[⟨[0, 3], 1⟩, ⟨[1, 3], 2⟩, ⟨[1, 4], 1⟩, ⟨[0, 4], 2⟩],
      [⟨[0, 3], 1⟩, ⟨[2, 3], 2⟩, ⟨[2, 5], 1⟩, ⟨[0, 5], 2⟩]]] : List (List SparseCochain)), ∀ c ∈ ck, ∀ r ∈ c,
      0 ≤ r.val ∧ r.val < 3 := by decide
  exact this

theorem valid_iff {n d : ℕ} {r : Row} (h1 : r.verts.length = d + 1) (h2 : r.verts.Nodup) (h3 : ∀ v ∈ r.verts, v < n) :
    r.Valid n d := ⟨h1, h2, h3⟩

theorem bipObj_class0 : ValidClass bipObj (.int 0) 1 2 [⟨[0, 3], 1⟩, ⟨[1, 3], 2⟩, ⟨[1, 4], 1⟩, ⟨[0, 4], 2⟩] where
  stored := rfl
  edges := by
    have : ∀ r ∈ ([⟨[0, 3], 1⟩, ⟨[1, 3], 2⟩, ⟨[1, 4], 1⟩, ⟨[0, 4], 2⟩] : SparseCochain),
        r.verts.length = 2 ∧ r.verts.Nodup ∧ ∀ v ∈ r.verts, v < 6 := by decide
    exact fun r hr => valid_iff (this r hr).1 (this r hr).2.1 (this r hr).2.2
  distinct := by decide
  alive := by norm_num

theorem bipObj_class1 : ValidClass bipObj (.int 1) 1 2 [⟨[0, 3], 1⟩, ⟨[2, 3], 2⟩, ⟨[2, 5], 1⟩, ⟨[0, 5], 2⟩] where
  stored := rfl
  edges := by
    have : ∀ r ∈ ([⟨[0, 3], 1⟩, ⟨[2, 3], 2⟩, ⟨[2, 5], 1⟩, ⟨[0, 5], 2⟩] : SparseCochain),
        r.verts.length = 2 ∧ r.verts.Nodup ∧ ∀ v ∈ r.verts, v < 6 := by decide
    exact fun r hr => valid_iff (this r hr).1 (this r hr).2.1 (this r hr).2.2
  distinct := by decide
  alive := by norm_num

/-- The distances between the landmarks are those of the bipartite graph. -/
def BipDistances (dll : ℕ → ℕ → ℝ) : Prop := ∀ l m, l < 6 → m < 6 → dll l m = (bipDist l m : ℕ)

theorem bipObj_distances : BipDistances bipObj.distLandLand := fun _ _ _ _ => rfl

theorem bip_edge {dll : ℕ → ℕ → ℝ} (hd : BipDistances dll) (l m : ℕ) : RipsEdge 6 dll (2 * (3 / 4 : ℝ)) l m ↔ l < 3 ∧ 3 ≤ m ∧ m < 6 := by
  have : RipsEdge 6 dll (2 * (3 / 4 : ℝ)) l m ↔ l < m ∧ m < 6 ∧ bipDist l m < 2 := by
    constructor
    · rintro ⟨h1, h2, h3⟩
      refine ⟨h1, h2, ?_⟩
      have h4 : ((bipDist l m : ℕ) : ℝ) < 2 * (3 / 4) := by rw [← hd l m (by omega) h2]; exact h3
      have h5 : ((bipDist l m : ℕ) : ℝ) < (2 : ℕ) := by push_cast; linarith
      exact_mod_cast h5
    · rintro ⟨h1, h2, h3⟩
      refine ⟨h1, h2, ?_⟩
      rw [hd l m (by omega) h2]
      have h4 : ((bipDist l m : ℕ) : ℝ) ≤ (1 : ℕ) := by exact_mod_cast Nat.lt_succ_iff.1 h3
      push_cast at h4; linarith
  rw [this]
  unfold bipDist
  constructor
  · rintro ⟨h1, h2, h3⟩
    rw [if_neg h1.ne] at h3
    split at h3 <;> omega
  · rintro ⟨h1, h2, h3⟩
    refine ⟨by omega, h3, ?_⟩
    rw [if_neg (by omega), if_neg (by omega)]; norm_num

theorem bip_no_triangle {dll : ℕ → ℕ → ℝ} (hd : BipDistances dll) (i j k : ℕ) : ¬ RipsTriangle 6 dll (2 * (3 / 4 : ℝ)) i j k := by
  rintro ⟨h1, h2, h3⟩
  rw [bip_edge hd] at h1 h2 h3
  omega

/-- The lifted classes as vectors. -/
def bipVec : Fin 2 → List ℤ
  | 0 => [0, 0, 0, 1, -1, 0, -1, 1, 0, 0, 0, 0, 0, 0, 0]
  | 1 => [0, 0, 0, 1, 0, -1, 0, 0, 0, 0, -1, 0, 1, 0, 0]

theorem storeRow_sorted (a b : ℕ) (hab : a < b) (hb : b < 6) (v : ℤ) (vec : List ℤ) (hvec : vec.length = 15) :
    storeRow (cnsTable 6 2) vec ⟨[a, b], v⟩ = .ok (vec.set (cnsForward [a, b] (cnsTable 6 2)) v) := by
  have hm : StrictMono ![a, b] := by
    intro i j hij
    fin_cases i <;> fin_cases j <;> first | exact hab | (exfalso; revert hij; decide)
  have := storeRow_ofFn (n := 6) (d := 1) (N := 6) (D := 2) (r := ⟨[a, b], v⟩) (f := ![a, b]) (τ := 1) (by norm_num)
    (by norm_num) (by simp [List.ofFn_succ]) hm.injective (by intro i; fin_cases i <;> simp <;> omega) (by simpa using hm)
    vec hvec
  simpa [List.ofFn_succ] using this

theorem dense_sorted (l : List ((ℕ × ℕ) × ℤ)) (h : ∀ e ∈ l, e.1.1 < e.1.2 ∧ e.1.2 < 6) (vec : List ℤ)
    (hvec : vec.length = 15) :
    (l.map fun e => (⟨[e.1.1, e.1.2], e.2⟩ : Row)).foldlM (storeRow (cnsTable 6 2)) vec =
      .ok (l.foldl (fun vec e => vec.set (cnsForward [e.1.1, e.1.2] (cnsTable 6 2)) e.2) vec) := by
  induction l generalizing vec with
  | nil => rfl
  | cons e l ih =>
    obtain ⟨h1, h2⟩ := h e (by simp)
    simp only [List.map_cons, List.foldlM_cons, storeRow_sorted _ _ h1 h2 _ _ hvec, bind, Except.bind, List.foldl_cons]
    exact ih (fun e he => h e (by simp [he])) _ (by simp [hvec])

theorem bip_dense0 : sparseCocycleToVector 1 (liftToIntegerCocycle [⟨[0, 3], 1⟩, ⟨[1, 3], 2⟩, ⟨[1, 4], 1⟩, ⟨[0, 4], 2⟩] 3)
    (cnsTable 6 2) 6 = .ok (bipVec 0) := by
  have h := dense_sorted [((0, 3), 1), ((1, 3), -1), ((1, 4), 1), ((0, 4), -1)] (by decide) (List.replicate 15 0) (by simp)
  have hl : liftToIntegerCocycle [⟨[0, 3], 1⟩, ⟨[1, 3], 2⟩, ⟨[1, 4], 1⟩, ⟨[0, 4], 2⟩] 3 =
      ([((0, 3), 1), ((1, 3), -1), ((1, 4), 1), ((0, 4), -1)] : List ((ℕ × ℕ) × ℤ)).map fun e => (⟨[e.1.1, e.1.2], e.2⟩ : Row) := by decide +kernel
  have hn : numberOfSimplices 1 6 (cnsTable 6 2) = 15 := by decide +kernel
  unfold sparseCocycleToVector
  rw [hl, hn, h]
  have : ∀ a b : List ℤ, a = b → (Except.ok a : Except PyErr (List ℤ)) = .ok b := fun a b h => by rw [h]
  apply this
  decide +kernel

theorem bip_dense1 : sparseCocycleToVector 1 (liftToIntegerCocycle [⟨[0, 3], 1⟩, ⟨[2, 3], 2⟩, ⟨[2, 5], 1⟩, ⟨[0, 5], 2⟩] 3)
    (cnsTable 6 2) 6 = .ok (bipVec 1) := by
  have h := dense_sorted [((0, 3), 1), ((2, 3), -1), ((2, 5), 1), ((0, 5), -1)] (by decide) (List.replicate 15 0) (by simp)
  have hl : liftToIntegerCocycle [⟨[0, 3], 1⟩, ⟨[2, 3], 2⟩, ⟨[2, 5], 1⟩, ⟨[0, 5], 2⟩] 3 =
      ([((0, 3), 1), ((2, 3), -1), ((2, 5), 1), ((0, 5), -1)] : List ((ℕ × ℕ) × ℤ)).map fun e => (⟨[e.1.1, e.1.2], e.2⟩ : Row) := by decide +kernel
  have hn : numberOfSimplices 1 6 (cnsTable 6 2) = 15 := by decide +kernel
  unfold sparseCocycleToVector
  rw [hl, hn, h]
  have : ∀ a b : List ℤ, a = b → (Except.ok a : Except PyErr (List ℤ)) = .ok b := fun a b h => by rw [h]
  apply this
  decide +kernel

open Classical in
theorem bip_sum {dll : ℕ → ℕ → ℝ} (hd : BipDistances dll) (F : ℕ → ℕ → ℝ) : (∑ l ∈ Finset.range 6, ∑ m ∈ Finset.range 6,
    if RipsEdge 6 dll (2 * (3 / 4 : ℝ)) l m then F l m else 0) =
    F 0 3 + F 0 4 + F 0 5 + (F 1 3 + F 1 4 + F 1 5) + (F 2 3 + F 2 4 + F 2 5) := by
  simp only [bip_edge hd]
  simp only [Finset.sum_range_succ, Finset.sum_range_zero]
  norm_num

/-- The two cycles are harmonic: a minimiser is constant along edges. -/
theorem bip_harmonic {dll : ℕ → ℕ → ℝ} (hd : BipDistances dll) (i : Fin 2) (f : ℕ → ℝ)
    (hf : ∀ g, formEnergy 6 dll (3 / 4) (fun e => ((bipVec i).getD e 0 : ℤ)) f ≤
      formEnergy 6 dll (3 / 4) (fun e => ((bipVec i).getD e 0 : ℤ)) g)
    {l m : ℕ} (he : RipsEdge 6 dll (2 * (3 / 4 : ℝ)) l m) : f l - f m = 0 := by
  have h := hf (fun _ => 0)
  have h0 := formEnergy_zero_iff (L := 6) (dll := dll) (r := 3 / 4) f (by
    unfold formEnergy at h ⊢
    rw [bip_sum hd] at h ⊢
    rw [bip_sum hd] at h
    fin_cases i <;> · simp [bipVec, edgeIdx, Nat.choose] at h; nlinarith) he
  linarith

theorem bip_gram {dll : ℕ → ℕ → ℝ} (hd : BipDistances dll) (f : Fin 2 → ℕ → ℝ)
    (hf : ∀ i g, formEnergy 6 dll (3 / 4) (fun e => ((bipVec i).getD e 0 : ℤ)) (f i) ≤
      formEnergy 6 dll (3 / 4) (fun e => ((bipVec i).getD e 0 : ℤ)) g) :
    returnedGram 6 dll (3 / 4) 1 (fun i e => (bipVec i).getD e 0) f = !![4, 1; 1, 4] := by
  classical
  have h0 : ∀ i l m, RipsEdge 6 dll (2 * (3 / 4 : ℝ)) l m → f i l - f i m = 0 :=
    fun i l m he => bip_harmonic hd i (f i) (hf i) he
  have : returnedGram 6 dll (3 / 4) 1 (fun i e => (bipVec i).getD e 0) f =
      returnedGram 6 dll (3 / 4) 1 (fun i e => (bipVec i).getD e 0) (fun _ _ => 0) := by
    ext i j
    unfold returnedGram
    apply Finset.sum_congr rfl; intro l _
    apply Finset.sum_congr rfl; intro m _
    by_cases he : RipsEdge 6 dll (2 * (3 / 4 : ℝ)) l m
    · rw [if_pos he, if_pos he]; simp only [h0 _ l m he]; simp
    · rw [if_neg he, if_neg he]
  rw [this]
  ext i j
  unfold returnedGram
  rw [bip_sum hd]
  fin_cases i <;> fin_cases j <;> · simp [bipVec, edgeIdx, Nat.choose, Matrix.one_apply]; try norm_num

/-- A matrix that is already reduced is returned unchanged. -/
theorem lll_of_reduced (B : Matrix (Fin 2) (Fin 2) ℝ) (hd : B.det ≠ 0) (h1 : 2 * |gram2 B 1 0| ≤ gram2 B 0 0)
    (h2 : 3 / 4 * gram2 B 0 0 < gram2 B 1 1) (fuel : ℕ) : lll (fuel + 1) B = some (B, 1) := by
  have hp := gram2_pos B hd
  have hmu : |lllMu B 1 0| ≤ 1 / 2 := by
    rw [mu2, abs_div, abs_of_pos hp, div_le_iff₀ hp]; linarith
  have hred : lengthReduce 1 (B, (1 : Matrix (Fin 2) (Fin 2) ℝ)) 0 = (B, 1) := by
    unfold lengthReduce
    rw [if_neg (not_lt.2 hmu)]
  have hlov : (3 / 4 - lllMu B 1 0 ^ 2) * ((gramSchmidt B).col 0 ⬝ᵥ (gramSchmidt B).col 0) <
      (gramSchmidt B).col 1 ⬝ᵥ (gramSchmidt B).col 1 := by
    rw [gs2_norm B hp.ne', gs2_zero, mu2]
    change (3 / 4 - (gram2 B 1 0 / gram2 B 0 0) ^ 2) * gram2 B 0 0 < _
    have : (gram2 B 1 0 / gram2 B 0 0) ^ 2 * gram2 B 0 0 = gram2 B 1 0 ^ 2 / gram2 B 0 0 := by field_simp
    rw [sub_mul, this]
    linarith
  have hstep : lllStep (3 / 4) (lllInit B) = ⟨B, 1, 2⟩ := by
    have hk : (⟨1, by omega⟩ : Fin 2) = 1 := rfl
    have hk1 : (⟨1 - 1, by omega⟩ : Fin 2) = 0 := rfl
    have hb : (below (1 : Fin 2)).reverse = [0] := by rw [below_one]; rfl
    unfold lllStep lllInit
    simp only [Nat.one_lt_ofNat, dite_true, hk, hk1, hb, List.foldl_cons, List.foldl_nil, hred]
    rw [if_pos hlov]
  have : lllRun (3 / 4) (fuel + 1) (lllInit B) = ⟨B, 1, 2⟩ := by
    rw [lllRun_succ, hstep, lllRun_done _ _ (le_refl _)]
  exact lll_of_run this (le_refl _)

/-- The call made in the example. -/
noncomputable def bipArgs : Args := ⟨.fin (1 / 2), [.int 0, .int 1], bumpLinear, false, true⟩

theorem bip_cholesky :
    ∃ L : Matrix (Fin 2) (Fin 2) ℝ, L * Lᵀ = !![4, 1; 1, 4] ∧ (∀ i j, i < j → L i j = 0) ∧ ∀ i, 0 < L i i := by
  have hs : Real.sqrt 15 * Real.sqrt 15 = 15 := Real.mul_self_sqrt (by norm_num)
  refine ⟨!![2, 0; 1 / 2, Real.sqrt 15 / 2], ?_, ?_, ?_⟩
  · ext i j
    fin_cases i <;> fin_cases j <;> · simp [Matrix.mul_apply, Fin.sum_univ_two]; try nlinarith
  · intro i j hij
    fin_cases i <;> fin_cases j <;> first | rfl | (exfalso; revert hij; decide)
  · intro i
    fin_cases i
    · norm_num
    · simp

/-- A call for the two classes on any object with this data returns. -/
theorem bip_returns (o : ToroObj) (wf : WellFormed o) (hv : FieldValued o.prime o.cocycles) (hp : o.prime = 3) (hL : o.nLand = 6)
    (hT : o.table = cnsTable 6 2) (hd : BipDistances o.distLandLand) (z₁ z₂ : ClassArg)
    (h₁ : ValidClass o z₁ 1 2 [⟨[0, 3], 1⟩, ⟨[1, 3], 2⟩, ⟨[1, 4], 1⟩, ⟨[0, 4], 2⟩])
    (h₂ : ValidClass o z₂ 1 2 [⟨[0, 3], 1⟩, ⟨[2, 3], 2⟩, ⟨[2, 5], 1⟩, ⟨[0, 5], 2⟩]) :
    ∃ fuel θ₁ θ₂, (getCoordinates idealEnv fuel o ⟨.fin (1 / 2), [z₁, z₂], bumpLinear, false, true⟩).2 = .ok [θ₁, θ₂] ∧
      (getCoordinates idealEnv fuel o ⟨.fin (1 / 2), [z₁, z₂], bumpLinear, false, true⟩).1.radius =
        some (.fin (3 / 4), .fin (2 * (3 / 4))) := by
  rcases C83_two_classes idealEnv idealCholesky_spec o wf hv z₁ z₂ 1 2 1 2 _ _
    h₁ h₂ (by norm_num) (1 / 2) false true (by norm_num) bumpLinear positiveBump_linear (3 / 4)
    (by norm_num) (fun _ s _ v _ i j k h => absurd (hL ▸ h) (bip_no_triangle hd i j k)) with ⟨-, v, f, hv, hmin, hno⟩ | ⟨fuel, θ₁, θ₂, h⟩
  · exfalso
    rw [hp, hT, hL] at hv
    have hv' : v = bipVec := by
      funext i
      have h0 := (hv 0).symm.trans bip_dense0
      have h1 := (hv 1).symm.trans bip_dense1
      fin_cases i
      · injection h0
      · injection h1
    subst hv'
    rw [hL] at hno hmin
    rw [bip_gram hd f (hmin idealLsqr_exact)] at hno
    exact hno bip_cholesky
  · exact ⟨fuel, θ₁, θ₂, h fuel (le_refl _)⟩

/-- The call returns two coordinates, leaves the basis unchanged and stores the Gram matrix of the two cycles as the
original Gram matrix: all hypotheses of C41, C45_spectrum_partial and C45_wrong_matrix hold for it. -/
theorem bipObj_call : ∃ fuel θ₁ θ₂ G', (getCoordinates idealEnv fuel bipObj bipArgs).2 = .ok [θ₁, θ₂] ∧
    (getCoordinates idealEnv fuel bipObj bipArgs).1.radius = some (.fin (3 / 4), .fin (2 * (3 / 4))) ∧
    (getCoordinates idealEnv fuel bipObj bipArgs).1.gramInfo = some ⟨2, !![4, 1; 1, 4], G', 1⟩ := by
  obtain ⟨fuel, θ₁, θ₂, hok, hrad⟩ := bip_returns bipObj bipObj_wf bipObj_fieldValued rfl rfl rfl bipObj_distances (.int 0) (.int 1)
    bipObj_class0 bipObj_class1
  refine ⟨fuel, θ₁, θ₂, ?_⟩
  change (getCoordinates idealEnv fuel bipObj bipArgs).2 = _ at hok
  change (getCoordinates idealEnv fuel bipObj bipArgs).1.radius = _ at hrad
  obtain ⟨-, ⟨W⟩⟩ := callWitness bipObj_wf bipObj_fieldValued positiveBump_linear hok hrad
  obtain ⟨m, w, c, f, base, U, out, len, out_eq, part, weights, base_coord, det, single, out_coord, classes, minimal,
    gram, gram_single⟩ := W
  have hm : m = 2 := len.symm
  subst hm
  obtain ⟨G, B, hB, hG, hinfo, fuel', D, hlll⟩ := gram (by norm_num)
  have hc : ∀ i, c i = fun e => (bipVec i).getD e 0 := by
    intro i
    fin_cases i
    · obtain ⟨v, hv, hrep⟩ := classes 0 (.int 0) _ _ _ rfl bipObj_class0.stored
      have := hv.symm.trans bip_dense0
      injection this with this
      subst this
      exact hrep.cocycle fun i j k h => absurd h (bip_no_triangle bipObj_distances i j k)
    · obtain ⟨v, hv, hrep⟩ := classes 1 (.int 1) _ _ _ rfl bipObj_class1.stored
      have := hv.symm.trans bip_dense1
      injection this with this
      subst this
      exact hrep.cocycle fun i j k h => absurd h (bip_no_triangle bipObj_distances i j k)
  have hGv : G = !![4, 1; 1, 4] := by
    rw [← bip_gram bipObj_distances f (fun i g => by have := minimal idealLsqr_exact i g; rwa [hc i] at this)]
    ext i j
    rw [hG]
    have e6 : bipObj.nLand = 6 := rfl
    unfold returnedGram
    simp only [e6, hc, Matrix.one_apply, Int.cast_ite, Int.cast_one, Int.cast_zero, ite_mul, one_mul, zero_mul,
      Finset.sum_ite_eq, Finset.mem_univ, if_true]
    rfl
  subst hGv
  obtain ⟨hBB, htri, hpos⟩ := (idealCholesky_spec 2 _).1 _ hB
  rw [Matrix.transpose_transpose] at hBB
  have hdet : B.det ≠ 0 := by
    have := idealCholesky_spec.det hB
    rwa [Matrix.det_transpose] at this
  have hg : ∀ i j, gram2 B i j = (Bᵀ * B) i j := fun i j => rfl
  have h1 : lll (fuel' + 1) B = some (B, 1) := lll_of_reduced B hdet (by rw [hg, hg, hBB]; norm_num [abs_of_pos])
    (by rw [hg, hg, hBB]; norm_num) fuel'
  have hU : U.map (fun z => (z : ℝ)) = 1 := by
    rcases fuel' with _ | k
    · exfalso
      unfold lll lllRun lllInit at hlll
      simp at hlll
    · have h2 := lll_of_reduced B hdet (by rw [hg, hg, hBB]; norm_num [abs_of_pos]) (by rw [hg, hg, hBB]; norm_num) k
      rw [h2] at hlll
      simp only [Option.some.injEq, Prod.mk.injEq] at hlll
      have := hlll.2
      rw [← Matrix.transpose_transpose (U.map _), ← this, Matrix.transpose_one]
  rw [hU] at hinfo
  exact ⟨_, hok, hrad, hinfo⟩

/-- The final Gram matrix stored by this call is wrong. -/
example : ∃ fuel G', (getCoordinates idealEnv fuel bipObj bipArgs).1.gramInfo = some ⟨2, !![4, 1; 1, 4], G', 1⟩ ∧
    G' ≠ !![4, 1; 1, 4] := by
  obtain ⟨fuel, θ₁, θ₂, G', h1, h2, h3⟩ := bipObj_call
  exact ⟨fuel, G', h3, C45_wrong_matrix bipObj_wf bipObj_fieldValued positiveBump_linear h1 h2 idealCholesky_spec.correct _ _
    h3 rfl (by norm_num)⟩

/-! ### the other theorems applied to these calls -/

/-- C34–C37, C39, C41 apply to the call on the octagon: the class is the edge between landmarks 3 and 0 with value `-1`. -/
theorem octObj_data (fuel : ℕ) : ∃ θ, (getCoordinates idealEnv fuel octObj octArgs).2 = .ok [θ] ∧
    (getCoordinates idealEnv fuel octObj octArgs).1.radius = some (.fin (3 / 2), .fin 3) ∧
    LandmarkTriangle octObj.nLand octObj.dist octObj.distLandLand ∧ CheckedCall idealEnv octObj octArgs ∧
    StoredCocycles octObj octArgs (3 / 2) ∧ ExactLsq idealEnv.lsqr := by
  obtain ⟨θ, h1, h2⟩ := octObj_call fuel
  exact ⟨θ, h1, h2, octObj_triangle, octObj_checked, octObj_stored, idealLsqr_exact⟩

example (fuel : ℕ) : ∃ (m : ℕ) (w : ℕ → ℕ → ℝ) (c : Fin m → ℕ → ℤ) (f : Fin m → ℕ → ℝ) (U : Matrix (Fin m) (Fin m) ℤ)
    (out : Fin m → ℕ → Fl ℝ), CoordinateData idealEnv octObj octArgs (3 / 2) m w c f U out ∧
    ∀ k i l, InBall octObj.nLand octObj.dist (3 / 2) l i → IsAngle (out k i) (coordFormula octObj.nLand
      octObj.distLandLand (3 / 2) w (fun e => ∑ j, U k j * c j e) (fun l => ∑ j, U k j * f j l) l i) := by
  obtain ⟨θ, h1, h2, h3, h4, h5, -⟩ := octObj_data fuel
  obtain ⟨m, w, c, f, U, out, hd, -, h⟩ := C34_any_ball octObj_wf octObj_fieldValued positiveBump_linear h1 h2 h5 h4 h3
  exact ⟨m, w, c, f, U, out, hd, h⟩

/-- C35 (one class): the lifts over the balls of landmarks 0 and 1 differ, at data point 1, by the value on that edge. -/
example (fuel : ℕ) : ∃ θ, (circularGetCoordinates idealEnv fuel octObj (.fin (1 / 2)) (.int 0) bumpLinear false true).2 =
    .ok θ ∧ ∃ (u : List ℤ) (w : ℕ → ℕ → ℝ) (c : ℕ → ℤ) (f : ℕ → ℝ),
      IntegralLift1 3 octObj.nLand octObj.distLandLand (2 * (3 / 2)) (fun e => u.getD e 0) c ∧
      (∑ q ∈ Finset.range octObj.nLand, (f q + edgeVal c 0 q) * w q 1) -
        (∑ q ∈ Finset.range octObj.nLand, (f q + edgeVal c 1 q) * w q 1) = (edgeVal c 0 1 : ℤ) := by
  obtain ⟨θ, h1, h2, h3, h4, h5, -⟩ := octObj_data fuel
  have hT := C46_single_class idealEnv fuel octObj (.fin (1 / 2)) (.int 0) bumpLinear false true
  simp only at hT
  have hok := (hT.2.2.2.1 θ).2 h1
  have hrad : (circularGetCoordinates idealEnv fuel octObj (.fin (1 / 2)) (.int 0) bumpLinear false true).1.radius =
      some (.fin (3 / 2), .fin 3) := by rw [hT.1]; exact h2
  obtain ⟨b, d, s, u, w, c, f, -, -, hl, -, -, h⟩ := C35_represents_class octObj_wf octObj_fieldValued positiveBump_linear
    hok hrad h5 h4 h3
  refine ⟨θ, hok, u, w, c, f, hl, h 1 0 1 ⟨by decide, ?_⟩ ⟨by decide, ?_⟩⟩ <;>
  · show ((octDist _ _ : ℕ) : ℝ) < _
    norm_num [octDist]

/-- C36, C37, C39, C41 for the octagon. -/
example (fuel : ℕ) : ∃ θ, (getCoordinates idealEnv fuel octObj octArgs).2 = .ok [θ] ∧
    (∃ (m : ℕ) (w : ℕ → ℕ → ℝ) (c : Fin m → ℕ → ℤ) (f : Fin m → ℕ → ℝ) (U : Matrix (Fin m) (Fin m) ℤ)
      (out : Fin m → ℕ → Fl ℝ), CoordinateData idealEnv octObj octArgs (3 / 2) m w c f U out ∧ [θ] = List.ofFn out ∧
      ∀ (j : Fin m) (η g : ℕ → ℝ), CohomologousVia octObj.nLand octObj.distLandLand (2 * (3 / 2))
        (fun e => (c j e : ℝ)) η g → formEnergy octObj.nLand octObj.distLandLand (3 / 2) (fun e => (c j e : ℝ)) (f j) ≤
          ripsEnergy octObj.nLand octObj.distLandLand (2 * (3 / 2)) η) := by
  obtain ⟨θ, h1, h2, h3, h4, h5, h6⟩ := octObj_data fuel
  have := C36_full_edge_function octObj_wf octObj_fieldValued positiveBump_linear h1 h2
  have := C37_continuity octObj_wf octObj_fieldValued positiveBump_linear h1 h2 h5 h4 h3
  have := C41_recover octObj_wf octObj_fieldValued positiveBump_linear h1 h2
  exact ⟨θ, h1, C39_least_energy octObj_wf octObj_fieldValued positiveBump_linear h1 h2 h6⟩

/-- C29: a data point that is in no ball gets NaN (radius `1/2` on the octagon leaves every odd data point uncovered). -/
example : ¬ ∃ l < octObj.nLand, octObj.dist l 1 < 1 / 2 := by
  rintro ⟨l, hl, h⟩
  have hl' : l < 4 := hl
  have key : ∀ l < 4, 1 ≤ octDist l 1 := by decide
  have h' : ((octDist l 1 : ℕ) : ℝ) < 1 / 2 := h
  have := key l hl'
  have : ((1 : ℕ) : ℝ) ≤ (octDist l 1 : ℕ) := by exact_mod_cast this
  push_cast at this
  linarith

/-- C35, C41, C45 for two classes. -/
example : ∃ fuel coords, (getCoordinates idealEnv fuel bipObj bipArgs).2 = .ok coords ∧
    ∃ (m : ℕ) (w : ℕ → ℕ → ℝ) (c : Fin m → ℕ → ℤ) (f : Fin m → ℕ → ℝ) (base out : Fin m → ℕ → Fl ℝ)
      (U V : Matrix (Fin m) (Fin m) ℤ), CoordinateData idealEnv bipObj bipArgs (3 / 4) m w c f U out ∧ V * U = 1 ∧
      (∀ j, IsCircleCoordinate bipObj.nLand bipObj.dist bipObj.distLandLand (3 / 4) w (c j) (f j) (base j)) := by
  obtain ⟨fuel, θ₁, θ₂, G', h1, h2, h3⟩ := bipObj_call
  obtain ⟨m, w, c, f, base, out, U, V, g, hd, -, hb, hVU, -⟩ := C41_recover bipObj_wf bipObj_fieldValued positiveBump_linear
    h1 h2
  have := C45_spectrum_partial bipObj_wf bipObj_fieldValued positiveBump_linear h1 h2 idealCholesky_spec.correct
    (by norm_num [bipArgs])
  exact ⟨fuel, _, h1, m, w, c, f, base, out, U, V, hd, hVU, hb⟩

/-- C08: a history of two calls, one of which selects the class and so changes the stored array. -/
example (fuel : ℕ) : ∃ θ, (getCoordinates idealEnv fuel
    (afterCalls idealEnv octObj [(0, octArgs), (7, { octArgs with check := false })]) octArgs).2 = .ok [θ] := by
  obtain ⟨θ, h1, -⟩ := octObj_call fuel
  refine ⟨θ, ?_⟩
  rw [(C08_repeatable idealEnv octObj octObj_fieldValued _ fuel octArgs).1]
  exact h1

/-- C09: after the call the stored array holds a negative value. -/
example (fuel : ℕ) : ∃ c', repr1 (getCoordinates idealEnv fuel octObj octArgs).1 (.int 0) = .ok (.fin 2, .fin 4, c') ∧
    ∃ r ∈ c', r.val < 0 := by
  have hsel : octArgs.cocycleIdxs.mapM (repr1 octObj) = .ok [(.fin 2, .fin 4, [⟨[3, 0], 2⟩])] := by
    simp only [octArgs, List.mapM_cons, List.mapM_nil, octObj_class.stored, bind, Except.bind, pure, Except.pure]
  refine C09_negative_after_call idealEnv fuel octObj octObj_fieldValued octArgs _ hsel ?_ ?_ (.int 0) (by simp [octArgs])
    _ _ _ octObj_class.stored ⟨_, List.mem_singleton.2 rfl, by decide⟩
  · intro s hs
    rw [List.mem_singleton.1 hs]
    simp
  · intro s hs t ht
    rw [List.mem_singleton.1 hs, List.mem_singleton.1 ht]
    simp [Fl.lt_fin]; norm_num

/-- C27: the threshold of the call with two classes lies in both lifetimes. -/
example : ∃ fuel, ∃ r thr : ℝ, (getCoordinates idealEnv fuel bipObj bipArgs).1.radius = some (.fin r, .fin thr) ∧
    2 * r = thr ∧ 1 ≤ thr ∧ thr ≤ 2 := by
  obtain ⟨fuel, θ₁, θ₂, G', h1, h2, h3⟩ := bipObj_call
  have hsel : bipArgs.cocycleIdxs.mapM (repr1 bipObj) = .ok [(.fin 1, .fin 2, _), (.fin 1, .fin 2, _)] := rfl
  obtain ⟨r, thr, hr, h2r, h⟩ := C27_threshold_in_all_supports idealEnv fuel bipObj bipArgs _ h1 (1 / 2) rfl (by norm_num)
    (by norm_num) _ hsel (by
      intro s hs
      simp only [List.mem_cons, List.not_mem_nil, or_false] at hs
      rcases hs with rfl | rfl <;> exact ⟨1, 2, by norm_num, rfl, rfl⟩)
  exact ⟨fuel, r, thr, hr, h2r, h _ (List.mem_cons_self ..) 1 2 rfl rfl⟩

/-- Two classes with disjoint lifetimes. -/
noncomputable def disjointObj : ToroObj :=
  { bipObj with dgms := [[], [(.fin 1, .fin 2), (.fin 2, .fin 3)]] }

/-- C27: selecting them raises the error about disjoint supports. -/
example (fuel : ℕ) : (getCoordinates idealEnv fuel disjointObj bipArgs).2 = .error .supportsDisjoint := by
  have hsel : bipArgs.cocycleIdxs.mapM (repr1 disjointObj) = .ok [(.fin 1, .fin 2, _), (.fin 2, .fin 3, _)] := rfl
  refine (C27_disjoint_supports idealEnv fuel disjointObj bipArgs _ hsel ?_).2
    ⟨_, List.mem_cons_of_mem _ (List.mem_cons_self ..), _, List.mem_cons_self .., by simp [Fl.lt_fin]⟩
  intro s hs
  simp only [List.mem_cons, List.not_mem_nil, or_false] at hs
  rcases hs with rfl | rfl <;> simp

end Dreimac
