import Verif.Props.Repeated

/-!
# C102: a call on a data set with repeated points

The four corners of a square (the positions 0, 2, 4, 6 of a cycle of length 8), with two further copies of the first corner; five
landmarks.
-/

namespace Dreimac

open Real

/-! ### a call for one class, stage by stage -/

/-- A call for one class for which the check and repair of the lifted class return the cochain `c`. -/
theorem one_class_call {env : Oracles} {o : ToroObj} (wf : WellFormed o) (hv : FieldValued o.prime o.cocycles) {z : ClassArg}
    {b d : ℝ} {s : SparseCochain} (hs : repr1 o z = .ok (.fin b, .fin d, s)) (hbd : b < d) {perc r : ℝ} {std : Bool}
    (hrad : getCoverRadius (.fin perc) (.fin b) (.fin d) std = .ok (.fin r, .fin (2 * r)))
    {bump : Fl ℝ → Fl ℝ → Fl ℝ} (hb : PositiveBump bump) {v : List ℤ}
    (hvd : sparseCocycleToVector 1 (liftToIntegerCocycle s o.prime) o.table o.nLand = .ok v) {check : Bool} {c : ℕ → ℤ}
    (hc : checkAndRepair env.milp o.nLand (fun l m => (o.distLandLand l m : EReal)) ((2 * r : ℝ) : EReal) o.table o.prime check
      [fun e => v.getD e 0] = .ok [c]) (fuel : ℕ) :
    ∃ θ w f, (circularGetCoordinates env fuel o (.fin perc) z bump std check).2 = .ok θ ∧
      (∃ cov, getCoveringPartition .float o.nLand o.nData (fun l i => Fl.fin (o.dist l i)) (.fin r) bump = .ok cov ∧
        ∀ i, (∃ m, InBall o.nLand o.dist r m i) → ∀ l, cov.varphi l i = .fin (w l i)) ∧
      IsPartitionOfUnity o.nLand o.dist r w ∧ IsCircleCoordinate o.nLand o.dist o.distLandLand r w c f θ ∧
      (ExactLsq env.lsqr → ∀ g, formEnergy o.nLand o.distLandLand r (fun e => (c e : ℝ)) f ≤
        formEnergy o.nLand o.distLandLand r (fun e => (c e : ℝ)) g) := by
  have hsel : (selectClasses o (Args.mk (.fin perc) [z] bump std check).cocycleIdxs >>= commonSupport) =
      .ok (.fin b, .fin d) := by
    have h1 : getRepresentativeCocycle o.dgms o.cocycles z 1 = .ok (.fin b, .fin d, s) := hs
    have h2 : Fl.ge (Fl.fin b) (Fl.fin d) = false := by
      simp [Fl.ge, Fl.isNan, Fl.lt_fin, hbd]
    simp only [selectClasses, List.mapM_cons, List.mapM_nil, h1, bind, Except.bind, pure, Except.pure, commonSupport,
      pyMax, pyMin, List.map_nil, List.foldl_nil, h2, Bool.false_eq_true, if_false]
  have hcs := lifted_of_repr hv (idxs := [z]) (x := z) (by simp) hs
  have hint : integerCocycles env o ((2 * r : ℝ) : EReal) check [liftToIntegerCocycle s o.prime] = .ok [c] := by
    simp only [integerCocycles, List.mapM_cons, List.mapM_nil, hvd, bind, Except.bind, pure, Except.pure, List.map_cons,
      List.map_nil]
    exact hc
  obtain ⟨cov, d0, inn, hcd⟩ := coordData_of_cocycles (env := env) (a := ⟨.fin perc, [z], bump, std, check⟩) wf hb r (2 * r)
    [liftToIntegerCocycle s o.prime]
  rw [hint] at hcd
  have hcd' : coordData env o ⟨.fin perc, [z], bump, std, check⟩ (.fin r, .fin (2 * r)) [liftToIntegerCocycle s o.prime] =
      .ok ⟨cov, ((2 * r : ℝ) : EReal), d0, inn, [c]⟩ := hcd
  have hcall := call_of_stages (fuel := fuel) (coords := [circularCoordinate env o ⟨cov, ((2 * r : ℝ) : EReal), d0, inn, [c]⟩ c])
    (info := o.gramInfo) hsel hrad (by simp only [List.map_cons, List.map_nil, hcs]) hcd' (by unfold finishCoords; rfl)
  obtain ⟨h1, -, h3, -, h5⟩ := coordData_stages hcd'
  obtain ⟨w, hw, hw1, hw2, hw3⟩ := cov_spec wf hb h1
  refine ⟨_, w, _, ?_, ⟨cov, by rw [← wf.dtype]; exact h1, hw1⟩, hw,
    circularCoordinate_spec wf (d := ⟨cov, ((2 * r : ℝ) : EReal), d0, inn, [c]⟩) rfl h3 h5 hw hw1 hw2 hw3 c,
    fun hex g => integral_minimises hex wf h3 h5 c g⟩
  unfold circularGetCoordinates
  simp only [hcall.1, bind, Except.bind]
  rfl

/-- A solver that answers the system with right-hand side zero by the zero solution. -/
def ZeroForZero (milp : Milp ℝ) : Prop :=
  ∀ (A : SparseMat) (y : ℕ → ℤ), (∀ r < A.nRows, y r = 0) → ∃ z, milp A y = some z ∧ ∀ e, rint (z e) = 0

/-- If the coboundary of the cochain has values in `0, …, p - 1` on all triangles, the repair step changes nothing: the right-hand
side of the integer program is the coboundary divided by `p`, rounded down. -/
theorem repair_small {milp : Milp ℝ} (hz : ZeroForZero milp) {n N D : ℕ} (hn : n ≤ N) (hD : 2 ≤ D) (hsz : n ≤ 2345)
    (dist : ℕ → ℕ → ℝ) (t : ℝ) (p : ℤ) (check : Bool) (c : ℕ → ℤ)
    (hc : ∀ i j k, RipsTriangle n dist t i j k →
      0 ≤ c (edgeIdx i j) + c (edgeIdx j k) - c (edgeIdx i k) ∧ c (edgeIdx i j) + c (edgeIdx j k) - c (edgeIdx i k) < p) :
    checkAndRepair milp n (fun l m => (dist l m : EReal)) (t : EReal) (cnsTable N D) p check [c] = .ok [c] := by
  unfold checkAndRepair
  cases check with
  | false => rfl
  | true =>
    obtain ⟨M, hM, -, tris, -, hmem, hrows, hval⟩ := C13_delta1_compact n N D hn hD hsz (fun l m => (dist l m : EReal)) (t : EReal)
    obtain ⟨z, hz1, hz2⟩ := hz M (fun r => M.mulVec c r / p) (by
      intro r hr
      rw [hrows] at hr
      obtain ⟨⟨i, j, k⟩, he⟩ : ∃ e, tris[r]? = some e := ⟨_, List.getElem?_eq_getElem hr⟩
      have ht := (hmem i j k).1 (List.mem_of_getElem? he)
      have h := hc i j k (by unfold RipsTriangle at ht ⊢; simpa only [ripsEdge_coe] using ht)
      rw [hval ℤ c r i j k he]
      exact Int.ediv_eq_zero_of_lt h.1 h.2)
    have hr : repairWith milp M p c = some c := by
      unfold repairWith
      simp only [hz1, hz2, mul_zero, sub_zero]
    simp only [if_true, repairLoop, deltaOr, hM, bind, Except.bind, pure, Except.pure, hr]
    split <;> rfl

/-! ### the data -/

/-- The position on the cycle of the data points: two further copies of data point 0. -/
def dupPos (i : ℕ) : ℕ := if i < 4 then 2 * i else 0

/-- The distances between the data points. -/
noncomputable def dupδ (u v : ℕ) : ℝ := cyc8 (dupPos u) (dupPos v)

/-- The distance matrix of the six data points. -/
noncomputable def dupInput : DataInput := ⟨6, 6, dupδ, .float, true⟩

/-- The greedy permutation with five landmarks: the fifth is a copy of the first. -/
def dupPerm : List ℕ := [0, 2, 1, 3, 0]

/-- The cocycle on positions: 1 on the edges from position 3 to the two copies. -/
def dupRaw : List ZRow := [⟨[3, 0], 1⟩, ⟨[3, 4], 1⟩]

/-- What ripser returns: one class, born at 2 and dying at 4. -/
noncomputable def dupRipser : RipserResult ℝ :=
  ⟨[[], [(.fin 2, .fin 4)]], dupPerm, [[], [dupRaw.map (toDataIndices dupPerm)]], fun l i => .fin (dupδ (dupPerm.getD l 0) i)⟩

/-- The cochain listed by `dupRaw`. -/
def dupξ (u v : ℕ) : ℤ :=
  if u = 3 ∧ (v = 0 ∨ v = 4) then 1 else if v = 3 ∧ (u = 0 ∨ u = 4) then -1 else 0

/-- The distances between positions. -/
def dupδn (u v : ℕ) : ℕ := cyc8 (dupPos (dupPerm.getD u 0)) (dupPos (dupPerm.getD v 0))

/-- The cocycle on positions is what ripser promises: an integer cocycle on the Rips complex of the positions below the death. -/
theorem dupRaw_promise : ListsCochain dupRaw dupξ ∧
    ∀ t : ℝ, t ≤ 4 → ∀ u < 5, ∀ v < 5, ∀ w < 5, dupδ (dupPerm.getD u 0) (dupPerm.getD v 0) < t →
      dupδ (dupPerm.getD v 0) (dupPerm.getD w 0) < t → dupδ (dupPerm.getD u 0) (dupPerm.getD w 0) < t →
      dupξ u v + dupξ v w = dupξ u w := by
  refine ⟨⟨?_, ?_, ?_⟩, ?_⟩
  · intro u v
    unfold dupξ
    split_ifs <;> first | rfl | omega
  · intro r hr
    simp only [dupRaw, List.mem_cons, List.not_mem_nil, or_false] at hr
    rcases hr with rfl | rfl
    · exact ⟨3, 0, rfl, rfl⟩
    · exact ⟨3, 4, rfl, rfl⟩
  · intro u v h
    have h1 := h ⟨[3, 0], 1⟩ (by simp [dupRaw])
    have h2 := h ⟨[3, 4], 1⟩ (by simp [dupRaw])
    simp only [ne_eq, List.cons.injEq, and_true] at h1 h2
    unfold dupξ
    rw [if_neg, if_neg]
    · rintro ⟨rfl, rfl | rfl⟩
      · exact h1.2 ⟨rfl, rfl⟩
      · exact h2.2 ⟨rfl, rfl⟩
    · rintro ⟨rfl, rfl | rfl⟩
      · exact h1.1 ⟨rfl, rfl⟩
      · exact h2.1 ⟨rfl, rfl⟩
  · intro t ht u hu v hv w hw h1 h2 h3
    have key : ∀ u < 5, ∀ v < 5, ∀ w < 5, dupδn u v < 4 ∧ dupδn v w < 4 ∧ dupδn u w < 4 → dupξ u v + dupξ v w = dupξ u w := by
      decide +kernel
    have cast : ∀ a b : ℕ, dupδ a b < t → cyc8 (dupPos a) (dupPos b) < 4 := by
      intro a b h
      have := h.trans_le ht
      unfold dupδ at this
      exact_mod_cast this
    exact key u hu v hv w hw ⟨cast _ _ h1, cast _ _ h2, cast _ _ h3⟩

/-- The landmarks are copies: `C102_copies_lost` applies with `a = 0` and `b = 4`, and the first edge of the class is lost. -/
theorem dup_reindex : reindexCocycles [[], [dupRaw.map (toDataIndices dupPerm)]] dupPerm 6 =
    .ok [[], [[⟨[3, 4], 1⟩, ⟨[3, 4], 1⟩]]] := by decide +kernel

/-- The object built by the constructor. -/
noncomputable def dupObj : ToroObj :=
  ⟨41, [[], [(.fin 2, .fin 4)]], [[], [[⟨[3, 4], 1⟩, ⟨[3, 4], 1⟩]]], 5, 6,
    clampArr 5 6 fun l i => dupδ (dupPerm.getD l 0) i, .float, fun m => dupPerm.getD m 0, cnsTable 5 2, none, none⟩

theorem dupObj_init (argsort : List (Fl ℝ) → List ℕ) (h : ArgsortSpec argsort) :
    toroInit argsort dupRipser dupInput 5 41 1 = .ok dupObj := by
  have ha : ∀ k : Fl ℝ, argsort [k] = [0] := fun k => List.perm_singleton.1 (h [k]).1
  have hs : sortLoop argsort 1 dupRipser.dgms dupRipser.cocycles = .ok (dupRipser.dgms, dupRipser.cocycles) := by
    unfold sortLoop sortDim
    simp [dupRipser, pyRange, pyGet, ha, bind, Except.bind, pure, Except.pure]
  unfold toroInit emInit
  rw [if_neg (by norm_num)]
  simp only [hs, bind, Except.bind]
  have hr : reindexCocycles dupRipser.cocycles dupRipser.idxPerm dupInput.rows =
      .ok [[], [[⟨[3, 4], 1⟩, ⟨[3, 4], 1⟩]]] := dup_reindex
  rw [hr]
  simp only [pure, Except.pure, Except.ok.injEq]
  unfold dupObj
  congr

theorem dupObj_wf : WellFormed dupObj :=
  ⟨rfl, ⟨5, 2, by decide, by decide, rfl⟩, by decide, by decide, fun _ _ => Nat.cast_nonneg _⟩

theorem dupObj_fieldValued : FieldValued dupObj.prime dupObj.cocycles := by
  have : ∀ ck ∈ ([[], [[⟨[3, 4], 1⟩, ⟨[3, 4], 1⟩]]] : List (List SparseCochain)), ∀ c ∈ ck, ∀ r ∈ c,
      0 ≤ r.val ∧ r.val < 41 := by decide
  exact this

/-- The stored class as a dense vector: 1 on the edge between the landmarks 3 and 4, 0 elsewhere. -/
def dupVec : List ℤ := [0, 0, 0, 0, 0, 0, 0, 0, 0, 1]

theorem dup_dense : sparseCocycleToVector 1 (liftToIntegerCocycle [⟨[3, 4], 1⟩, ⟨[3, 4], 1⟩] 41) (cnsTable 5 2) 5 =
    .ok dupVec := by
  have h := dense_edges (N := 5) (n := 5) le_rfl [((3, 4), 1), ((3, 4), 1)] (by decide)
  have hl : liftToIntegerCocycle [⟨[3, 4], 1⟩, ⟨[3, 4], 1⟩] 41 =
      ([((3, 4), 1), ((3, 4), 1)] : List ((ℕ × ℕ) × ℤ)).map fun e => (⟨[e.1.1, e.1.2], e.2⟩ : Row) := by decide +kernel
  rw [hl, h]
  have : ∀ a b : List ℤ, a = b → (Except.ok a : Except PyErr (List ℤ)) = .ok b := fun a b h => by rw [h]
  apply this
  decide +kernel

/-- The distances between landmarks and data points, and between landmarks, as natural numbers. -/
def dupDist (l i : ℕ) : ℕ := cyc8 (dupPos (dupPerm.getD (min l 4) 0)) (dupPos (min i 5))

theorem dupObj_dist (l i : ℕ) : dupObj.dist l i = (dupDist l i : ℕ) := rfl

theorem dupObj_land (l m : ℕ) : dupObj.distLandLand l m = (dupDist l (dupPerm.getD m 0) : ℕ) := rfl

theorem dup_edge (l m : ℕ) : RipsEdge 5 dupObj.distLandLand (2 * (3 / 2 : ℝ)) l m ↔
    (l, m) ∈ [(0, 2), (0, 3), (0, 4), (1, 2), (1, 3), (2, 4), (3, 4)] := by
  have h1 : RipsEdge 5 dupObj.distLandLand (2 * (3 / 2 : ℝ)) l m ↔ l < m ∧ m < 5 ∧ dupDist l (dupPerm.getD m 0) < 3 := by
    unfold RipsEdge
    rw [dupObj_land, show (2 * (3 / 2) : ℝ) = ((3 : ℕ) : ℝ) by norm_num, Nat.cast_lt]
  rw [h1]
  have key : ∀ l < 5, ∀ m < 5, (l < m ∧ m < 5 ∧ dupDist l (dupPerm.getD m 0) < 3) ↔
    (l, m) ∈ [(0, 2), (0, 3), (0, 4), (1, 2), (1, 3), (2, 4), (3, 4)] := by decide +kernel
  by_cases hlm : l < 5 ∧ m < 5
  · exact key l hlm.1 m hlm.2
  · constructor
    · rintro ⟨h1, h2, -⟩; omega
    · intro h
      exfalso
      simp only [List.mem_cons, Prod.mk.injEq, List.not_mem_nil, or_false] at h
      omega

theorem dup_triangles (i j k : ℕ) (h : RipsTriangle 5 dupObj.distLandLand (2 * (3 / 2 : ℝ)) i j k) :
    (i = 0 ∧ j = 2 ∧ k = 4) ∨ (i = 0 ∧ j = 3 ∧ k = 4) := by
  obtain ⟨h1, h2, h3⟩ := h
  rw [dup_edge] at h1 h2 h3
  simp only [List.mem_cons, Prod.mk.injEq, List.not_mem_nil, or_false] at h1 h2 h3
  omega

/-- The stored class is not a cocycle modulo 41, although the class computed by ripser is. -/
theorem dup_not_cocycle : ¬ IsCocycle1Mod 41 5 dupObj.distLandLand (2 * (3 / 2 : ℝ)) fun e => dupVec.getD e 0 := by
  intro h
  have := h 0 3 4 ⟨(dup_edge 0 3).2 (by decide), (dup_edge 3 4).2 (by decide), (dup_edge 0 4).2 (by decide)⟩
  revert this
  decide +kernel

theorem dup_repair {milp : Milp ℝ} (hz : ZeroForZero milp) (check : Bool) :
    checkAndRepair milp 5 (fun l m => (dupObj.distLandLand l m : EReal)) ((2 * (3 / 2) : ℝ) : EReal) (cnsTable 5 2) 41 check
      [fun e => dupVec.getD e 0] = .ok [fun e => dupVec.getD e 0] := by
  refine repair_small hz le_rfl le_rfl (by norm_num) _ _ 41 check _ ?_
  intro i j k h
  rcases dup_triangles i j k h with ⟨rfl, rfl, rfl⟩ | ⟨rfl, rfl, rfl⟩ <;> decide +kernel

/-- The energy of `c - δf` for the stored class. -/
theorem dup_energy (f : ℕ → ℝ) : formEnergy 5 dupObj.distLandLand (3 / 2) (fun e => ((dupVec.getD e 0 : ℤ) : ℝ)) f =
    (f 0 - f 2) ^ 2 + (f 0 - f 3) ^ 2 + (f 0 - f 4) ^ 2 + (f 1 - f 2) ^ 2 + (f 1 - f 3) ^ 2 + (f 2 - f 4) ^ 2 +
      (1 - (f 3 - f 4)) ^ 2 := by
  unfold formEnergy
  simp only [dup_edge, Finset.sum_range_succ, Finset.sum_range_zero, List.mem_cons, Prod.mk.injEq, List.not_mem_nil, or_false]
  norm_num [edgeIdx, dupVec, Nat.choose]
  ring

/-- The minimiser is unique up to a constant. -/
theorem dup_minimiser (f : ℕ → ℝ) (h : ∀ g, formEnergy 5 dupObj.distLandLand (3 / 2) (fun e => ((dupVec.getD e 0 : ℤ) : ℝ)) f ≤
    formEnergy 5 dupObj.distLandLand (3 / 2) (fun e => ((dupVec.getD e 0 : ℤ) : ℝ)) g) :
    f 0 = f 3 - 7 / 24 ∧ f 1 = f 3 - 1 / 6 ∧ f 2 = f 3 - 1 / 3 ∧ f 4 = f 3 - 13 / 24 := by
  have h1 := h (fun l => if l = 0 then -7 / 24 else if l = 1 then -1 / 6 else if l = 2 then -1 / 3 else if l = 3 then 0 else -13 / 24)
  rw [dup_energy, dup_energy] at h1
  norm_num at h1
  have key : (f 0 - f 2 - 1 / 24) ^ 2 + (f 0 - f 3 + 7 / 24) ^ 2 + (f 0 - f 4 - 1 / 4) ^ 2 + (f 1 - f 2 - 1 / 6) ^ 2 +
      (f 1 - f 3 + 1 / 6) ^ 2 + (f 2 - f 4 - 5 / 24) ^ 2 + (f 3 - f 4 - 13 / 24) ^ 2 ≤ 0 := by nlinarith [h1]
  have e : ∀ A B C D E F G : ℝ, A ^ 2 + B ^ 2 + C ^ 2 + D ^ 2 + E ^ 2 + F ^ 2 + G ^ 2 ≤ 0 → A = 0 ∧ B = 0 ∧ E = 0 ∧ G = 0 := by
    intro A B C D E F G h
    have hA := sq_nonneg A
    have hB := sq_nonneg B
    have hC := sq_nonneg C
    have hD := sq_nonneg D
    have hE := sq_nonneg E
    have hF := sq_nonneg F
    have hG := sq_nonneg G
    exact ⟨pow_eq_zero_iff two_ne_zero |>.1 (by linarith), pow_eq_zero_iff two_ne_zero |>.1 (by linarith),
      pow_eq_zero_iff two_ne_zero |>.1 (by linarith), pow_eq_zero_iff two_ne_zero |>.1 (by linarith)⟩
  obtain ⟨e1, e2, e3, e4⟩ := e _ _ _ _ _ _ _ key
  exact ⟨by linarith, by linarith, by linarith, by linarith⟩

theorem dup_firstBall (i b : ℕ) (h : (i, b) ∈ [(0, 0), (1, 2), (2, 1), (3, 3)]) : FirstBall 5 dupObj.dist (3 / 2) i b := by
  have key : ∀ l i : ℕ, dupObj.dist l i < 3 / 2 ↔ dupDist l i < 2 := by
    intro l i
    rw [dupObj_dist]
    constructor
    · intro h
      have : ((dupDist l i : ℕ) : ℝ) < (2 : ℕ) := h.trans (by norm_num)
      exact_mod_cast this
    · intro h
      have : ((dupDist l i : ℕ) : ℝ) ≤ (1 : ℕ) := by exact_mod_cast Nat.lt_succ_iff.1 h
      push_cast at this; linarith
  have fin : ∀ e ∈ [(0, 0), (1, 2), (2, 1), (3, 3)], (e.2 < 5 ∧ dupDist e.2 e.1 < 2) ∧ ∀ l < e.2, ¬ dupDist l e.1 < 2 := by
    decide +kernel
  obtain ⟨⟨h1, h2⟩, h3⟩ := fin _ h
  exact ⟨⟨h1, (key _ _).2 h2⟩, fun l hl h' => h3 l hl ((key _ _).1 h'.2)⟩

theorem cov_copy {dt : DType} {L N : ℕ} {dist : ℕ → ℕ → Fl ℝ} {r : Fl ℝ} {bump : Fl ℝ → Fl ℝ → Fl ℝ} {cov : Covering ℝ}
    (h : getCoveringPartition dt L N dist r bump = .ok cov) {a b i : ℕ} (hd : dist a i = dist b i) :
    cov.varphi a i = cov.varphi b i := by
  unfold getCoveringPartition at h
  simp only at h
  split at h
  · cases h
  · split at h
    · cases h
    · injection h with h
      subst h
      simp only [hd]

theorem dup_ripsForm_self (c : ℕ → ℤ) (f : ℕ → ℝ) (l : ℕ) : ripsForm 5 dupObj.distLandLand (3 / 2) c f l l = 0 := by
  unfold ripsForm
  rw [if_pos (show RipsRel 5 dupObj.distLandLand (2 * (3 / 2 : ℝ)) l l from Or.inl rfl), edgeVal_self]; simp

/-- **C102 fails with repeated landmarks: a call.** The data set consists of the four corners 0, 1, 2, 3 of a square, in this order
around the square, and two further copies of the corner 0; five landmarks are requested, and ripser returns a cocycle that is what it
promises (`dupRaw_promise`).  Whether or not the cocycle condition is checked, the call returns coordinates, and they do not go around
the circle: the corners get angles of `y - 5/12`, `y - 4/12`, `y - 2/12` and `y` turns, all on an arc of less than half a turn, with the
corners 3 and 0, which are neighbours, at its two ends. -/
theorem C102_wrong_coordinates (env : Oracles) (hex : ExactLsq env.lsqr) (hz : ZeroForZero env.milp)
    (argsort : List (Fl ℝ) → List ℕ) (hargsort : ArgsortSpec argsort) (fuel : ℕ) (check : Bool) :
    ∃ o θ y, toroInit argsort dupRipser dupInput 5 41 1 = .ok o ∧
      (circularGetCoordinates env fuel o (.fin (1 / 2)) (.int 0) bumpLinear false check).2 = .ok θ ∧
      IsAngle (θ 0) (y - 5 / 12) ∧ IsAngle (θ 1) (y - 4 / 12) ∧ IsAngle (θ 2) (y - 2 / 12) ∧ IsAngle (θ 3) y := by
  obtain ⟨r, thr, hrad, h1, h2, -⟩ := (C24_cover_radius (2 : ℝ) 4 (1 / 2) false).2 (by norm_num)
  obtain rfl : r = 3 / 2 := by simp only [Bool.false_eq_true, if_false] at h1; linarith
  obtain rfl : thr = 2 * (3 / 2) := h2.symm
  obtain ⟨θ, w, f, hθ, ⟨cov, hcov, hw⟩, hpart, hcoord, hmin⟩ := one_class_call (env := env) dupObj_wf dupObj_fieldValued (z := .int 0) (b := 2)
    (d := 4) (s := [⟨[3, 4], 1⟩, ⟨[3, 4], 1⟩]) rfl (by norm_num) hrad positiveBump_linear dup_dense (dup_repair hz check) fuel
  obtain ⟨f0, f1, f2, f4⟩ := dup_minimiser f (hmin hex)
  have hball : ∀ i b, (i, b) ∈ [(0, 0), (1, 2), (2, 1), (3, 3)] → ∃ m, InBall dupObj.nLand dupObj.dist (3 / 2) m i :=
    fun i b h => ⟨b, (dup_firstBall i b h).1⟩
  have hout : ∀ i b, (i, b) ∈ [(0, 0), (1, 2), (2, 1), (3, 3)] → ∀ l, 2 ≤ dupDist l i → w l i = 0 := by
    intro i b h l hl
    refine le_antisymm (not_lt.1 fun hpos => ?_) (hpart.nonneg l i (hball i b h))
    have := (hpart.support l i (hball i b h)).1 hpos
    rw [dupObj_dist] at this
    have h2 : ((2 : ℕ) : ℝ) ≤ (dupDist l i : ℕ) := by exact_mod_cast hl
    push_cast at h2
    linarith
  have hsum : ∀ i b, (i, b) ∈ [(0, 0), (1, 2), (2, 1), (3, 3)] → w 0 i + w 1 i + w 2 i + w 3 i + w 4 i = 1 := by
    intro i b h
    have := hpart.sum_one i (hball i b h)
    rwa [show dupObj.nLand = 5 from rfl, Finset.sum_range_succ, Finset.sum_range_succ, Finset.sum_range_succ, Finset.sum_range_succ,
      Finset.sum_range_succ, Finset.sum_range_zero, zero_add] at this
  have hform : ∀ i b, coordFormula 5 dupObj.distLandLand (3 / 2) w (fun e => dupVec.getD e 0) f b i =
      f b + (ripsForm 5 dupObj.distLandLand (3 / 2) (fun e => dupVec.getD e 0) f b 0 * w 0 i +
        ripsForm 5 dupObj.distLandLand (3 / 2) (fun e => dupVec.getD e 0) f b 1 * w 1 i +
        ripsForm 5 dupObj.distLandLand (3 / 2) (fun e => dupVec.getD e 0) f b 2 * w 2 i +
        ripsForm 5 dupObj.distLandLand (3 / 2) (fun e => dupVec.getD e 0) f b 3 * w 3 i +
        ripsForm 5 dupObj.distLandLand (3 / 2) (fun e => dupVec.getD e 0) f b 4 * w 4 i) := by
    intro i b
    unfold coordFormula
    rw [Finset.sum_range_succ, Finset.sum_range_succ, Finset.sum_range_succ, Finset.sum_range_succ,
      Finset.sum_range_succ, Finset.sum_range_zero, zero_add]
  refine ⟨dupObj, θ, f 3, dupObj_init argsort hargsort, hθ, ?_, ?_, ?_, ?_⟩
  · have h := hcoord.covered 0 0 (dup_firstBall 0 0 (by simp))
    have e0 := hout 0 0 (by simp)
    have hs := hsum 0 0 (by simp)
    rw [e0 1 (by decide), e0 2 (by decide), e0 3 (by decide)] at hs
    have hc : w 0 0 = w 4 0 := by
      have := cov_copy hcov (a := 0) (b := 4) (i := 0) (by rw [dupObj_dist, dupObj_dist]; rfl)
      rw [hw 0 (hball 0 0 (by simp)), hw 0 (hball 0 0 (by simp))] at this
      injection this
    have e : coordFormula dupObj.nLand dupObj.distLandLand (3 / 2) w (fun e => dupVec.getD e 0) f 0 0 = f 3 - 5 / 12 := by
      rw [show dupObj.nLand = 5 from rfl, hform, dup_ripsForm_self, e0 1 (by decide), e0 2 (by decide), e0 3 (by decide)]
      have h4 : ripsForm 5 dupObj.distLandLand (3 / 2) (fun e => dupVec.getD e 0) f 0 4 = f 4 - f 0 := by
        unfold ripsForm
        rw [if_pos (show RipsRel 5 dupObj.distLandLand (2 * (3 / 2 : ℝ)) 0 4 from Or.inr (Or.inl ((dup_edge 0 4).2 (by decide))))]
        norm_num [edgeVal, edgeIdx, dupVec, Nat.choose]
      rw [h4]
      have : w 4 0 = 1 / 2 := by linarith
      rw [this]
      linarith
    rw [e] at h
    exact h
  · have h := hcoord.covered 1 2 (dup_firstBall 1 2 (by simp))
    have e0 := hout 1 2 (by simp)
    have e : coordFormula dupObj.nLand dupObj.distLandLand (3 / 2) w (fun e => dupVec.getD e 0) f 2 1 = f 3 - 4 / 12 := by
      rw [show dupObj.nLand = 5 from rfl, hform, dup_ripsForm_self, e0 0 (by decide), e0 1 (by decide), e0 3 (by decide),
        e0 4 (by decide)]
      linarith
    rw [e] at h
    exact h
  · have h := hcoord.covered 2 1 (dup_firstBall 2 1 (by simp))
    have e0 := hout 2 1 (by simp)
    have e : coordFormula dupObj.nLand dupObj.distLandLand (3 / 2) w (fun e => dupVec.getD e 0) f 1 2 = f 3 - 2 / 12 := by
      rw [show dupObj.nLand = 5 from rfl, hform, dup_ripsForm_self, e0 0 (by decide), e0 2 (by decide), e0 3 (by decide),
        e0 4 (by decide)]
      linarith
    rw [e] at h
    exact h
  · have h := hcoord.covered 3 3 (dup_firstBall 3 3 (by simp))
    have e0 := hout 3 3 (by simp)
    have e : coordFormula dupObj.nLand dupObj.distLandLand (3 / 2) w (fun e => dupVec.getD e 0) f 3 3 = f 3 := by
      rw [show dupObj.nLand = 5 from rfl, hform, dup_ripsForm_self, e0 0 (by decide), e0 1 (by decide), e0 2 (by decide),
        e0 4 (by decide)]
      linarith
    rw [e] at h
    exact h

/-! ### the hypotheses can be met -/

open Classical in
/-- A correct solver that prefers the zero solution. -/
noncomputable def zeroFirstMilp : Milp ℝ := fun A y => if ∀ r < A.nRows, y r = 0 then some (fun _ => 0) else idealMilp A y

theorem zeroFirstMilp_zero : ZeroForZero zeroFirstMilp := by
  intro A y h
  refine ⟨fun _ => 0, by unfold zeroFirstMilp; rw [if_pos h], fun e => ?_⟩
  simp [rint]

theorem zeroFirstMilp_sound : SolverSound zeroFirstMilp (1 / 10) (1 / 10) := by
  intro A y x h
  unfold zeroFirstMilp at h
  split at h
  · next h0 =>
    injection h with h
    subst h
    refine ⟨⟨fun _ => 0, fun e _ => by norm_num⟩, fun r hr => ?_⟩
    have : A.mulVec (fun _ => (0 : ℝ)) r = 0 := by simp [SparseMat.mulVec]
    rw [this, h0 r hr]; norm_num
  · exact idealMilp_sound A y x h

/-- Ideal external routines. -/
noncomputable def dupEnv : Oracles := ⟨idealLsqr, zeroFirstMilp, idealCholesky⟩

/-- The call with ideal external routines, in particular a correct solver of integer programs. -/
example (fuel : ℕ) (check : Bool) : ∃ o θ y, toroInit idealArgsort dupRipser dupInput 5 41 1 = .ok o ∧
    (circularGetCoordinates dupEnv fuel o (.fin (1 / 2)) (.int 0) bumpLinear false check).2 = .ok θ ∧
    IsAngle (θ 0) (y - 5 / 12) ∧ IsAngle (θ 1) (y - 4 / 12) ∧ IsAngle (θ 2) (y - 2 / 12) ∧ IsAngle (θ 3) y :=
  C102_wrong_coordinates dupEnv idealLsqr_exact zeroFirstMilp_zero idealArgsort idealArgsort_spec fuel check

/-- `C102_copies_lost` for this data set. -/
example : ∀ ck ∈ ([[], [[⟨[3, 4], 1⟩, ⟨[3, 4], 1⟩]]] : List (List (List ZRow))), ∀ c ∈ ck, ∀ r ∈ c, ((0 : ℕ) : ℤ) ∉ r.verts :=
  C102_copies_lost dupPerm 6 0 4 (by decide) (by decide) rfl _ _ dup_reindex

/-- `C102_distinct_landmarks_partial` with the four different landmarks. -/
example : reindexCocycles ([[], [[⟨[3, 0], 1⟩]]].map fun ck => ck.map fun c => c.map (toDataIndices [0, 2, 1, 3])) [0, 2, 1, 3] 6 =
    .ok [[], [[⟨[3, 0], 1⟩]]] :=
  C102_distinct_landmarks_partial [0, 2, 1, 3] 6 (by decide) (by decide) _ (by
    intro ck hck c hc r hr
    simp only [List.mem_cons, List.not_mem_nil, or_false] at hck
    rcases hck with rfl | rfl
    · cases hc
    · simp only [List.mem_cons, List.not_mem_nil, or_false] at hc
      subst hc
      simp only [List.mem_cons, List.not_mem_nil, or_false] at hr
      subst hr
      intro v hv
      simp only [List.mem_cons, List.not_mem_nil, or_false] at hv
      rcases hv with rfl | rfl
      · exact ⟨3, by decide, rfl⟩
      · exact ⟨0, by decide, rfl⟩)

/-- `C102_class_lost` for this data set and the class supported on the edge between the landmarks 1 and 2. -/
example (v : List ℤ) (h : sparseCocycleToVector 1 [⟨[1, 2], 1⟩] (cnsTable 5 2) 5 = .ok v) (hv : v = [0, 0, 1, 0, 0, 0, 0, 0, 0, 0]) :
    ∀ m < 5, m ≠ 4 → dupObj.distLandLand 4 m < 2 * (3 / 2) → (41 : ℤ) ∣ edgeVal (fun e => v.getD e 0) 4 m := by
  subst hv
  refine (C102_class_lost 41 5 5 2 0 4 le_rfl le_rfl (by decide) (by decide) dupObj.distLandLand (2 * (3 / 2)) ?_ ?_ ?_
    [⟨[1, 2], 1⟩] ?_ ?_ _ h ?_).2
  · intro l hl m hm
    have : ∀ l < 5, ∀ m < 5, dupDist l (dupPerm.getD m 0) = dupDist m (dupPerm.getD l 0) := by decide +kernel
    rw [dupObj_land, dupObj_land, this l hl m hm]
  · exact ((dup_edge 0 4).2 (by decide)).2.2
  · intro m hm
    have : ∀ m < 5, dupDist 0 (dupPerm.getD m 0) = dupDist 4 (dupPerm.getD m 0) := by decide +kernel
    rw [dupObj_land, dupObj_land, this m hm]
  · intro r hr
    simp only [List.mem_cons, List.not_mem_nil, or_false] at hr
    subst hr
    exact valid_iff rfl (by decide) (by decide)
  · intro r hr
    simp only [List.mem_cons, List.not_mem_nil, or_false] at hr
    subst hr
    decide
  · intro i j k h
    rcases dup_triangles i j k h with ⟨rfl, rfl, rfl⟩ | ⟨rfl, rfl, rfl⟩ <;> decide +kernel

end Dreimac
