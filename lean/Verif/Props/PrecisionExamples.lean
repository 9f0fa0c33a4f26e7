import Verif.Props.Precision
import Verif.Props.RepeatedExample

/-!
# C119 at `perc = 1`: a call that goes wrong because ripser rounds the distances

The four corners of a square; the distance of opposite corners is the double `4 - 2 ^ -24`, which single precision rounds to 4.
-/

namespace Dreimac

open Real

theorem single_four : single (4 - 2 ^ (-24 : ℤ)) = 4 := by
  unfold single roundUnbounded spacing
  have hl : Int.log 2 |(4 - 2 ^ (-24 : ℤ) : ℝ)| = 1 := by
    rw [abs_of_pos (by norm_num)]
    apply le_antisymm
    · rw [← Int.lt_add_one_iff, ← Int.lt_zpow_iff_log_lt (by norm_num) (by norm_num)]
      norm_num
    · rw [← Int.zpow_le_iff_le_log (by norm_num) (by norm_num)]
      norm_num
  rw [hl]
  have h2 : (2 : ℝ) ^ (max (-126 : ℤ) 1 - (24 : ℕ) + 1) = 2 ^ (-22 : ℤ) := by norm_num
  rw [h2]
  have h3 : (4 - 2 ^ (-24 : ℤ) : ℝ) / 2 ^ (-22 : ℤ) = 16777215 + 3 / 4 := by norm_num
  rw [h3]
  have hf : ⌊(16777215 + 3 / 4 : ℝ)⌋ = 16777215 := by
    rw [Int.floor_eq_iff]; norm_num
  have hn : nearestEven (16777215 + 3 / 4 : ℝ) = 16777216 := by
    unfold nearestEven
    rw [Int.fract, hf]
    norm_num
  rw [hn]
  norm_num

/-- The distances between the four corners. -/
noncomputable def sqδ (u v : ℕ) : ℝ := if u = v then 0 else if (u + v) % 2 = 1 then 2 else 4 - 2 ^ (-24 : ℤ)

/-- The distance matrix. -/
noncomputable def sqInput : DataInput := ⟨4, 4, sqδ, .float, true⟩

/-- What ripser returns for the prime 41: one class, born at 2 and dying at the rounded distance 4, represented by the edge
between the corners 3 and 0. -/
noncomputable def sqRipser : RipserResult ℝ :=
  ⟨[[(.fin 0, .fin 2), (.fin 0, .fin 2), (.fin 0, .fin 2), (.fin 0, .pinf)], [(.fin 2, .fin 4)]], [0, 2, 1, 3],
    [[], [[⟨[3, 0], 1⟩]]], fun l i => .fin (sqδ ([0, 2, 1, 3].getD l 0) i)⟩

theorem sqδ_cases (u v : ℕ) : (u = v ∧ sqδ u v = 0) ∨ (u ≠ v ∧ (u + v) % 2 = 1 ∧ sqδ u v = 2) ∨
    (u ≠ v ∧ (u + v) % 2 = 0 ∧ sqδ u v = 4 - 2 ^ (-24 : ℤ)) := by
  unfold sqδ
  by_cases h : u = v
  · exact Or.inl ⟨h, if_pos h⟩
  · by_cases h2 : (u + v) % 2 = 1
    · exact Or.inr (Or.inl ⟨h, h2, by rw [if_neg h, if_pos h2]⟩)
    · exact Or.inr (Or.inr ⟨h, by omega, by rw [if_neg h, if_neg h2]⟩)

theorem sq_eps : (0 : ℝ) < 2 ^ (-24 : ℤ) ∧ (2 : ℝ) ^ (-24 : ℤ) < 1 := by norm_num

theorem sqInput_describes : DescribesData sqInput sqδ where
  rows := le_refl _
  metric := by
    have he := sq_eps
    generalize hε : (2 : ℝ) ^ (-24 : ℤ) = ε at he
    obtain ⟨e0, e1⟩ := he
    refine ⟨fun u _ i _ => ?_, fun u _ v _ => ?_, fun u _ v _ i _ => ?_⟩
    · rcases sqδ_cases u i with ⟨-, h⟩ | ⟨-, -, h⟩ | ⟨-, -, h⟩ <;> rw [h] <;> linarith
    · unfold sqδ; simp only [eq_comm, add_comm]
    · rcases sqδ_cases u v with ⟨a, h⟩ | ⟨a, b, h⟩ | ⟨a, b, h⟩ <;> rcases sqδ_cases u i with ⟨a', h'⟩ | ⟨a', b', h'⟩ | ⟨a', b', h'⟩ <;>
        rcases sqδ_cases v i with ⟨a'', h''⟩ | ⟨a'', b'', h''⟩ | ⟨a'', b'', h''⟩ <;> rw [h, h', h''] <;>
        first | linarith | (exfalso; omega)
  entries := fun _ _ _ _ _ => rfl

/-- The cochain listed by the array. -/
def sqξ (u v : ℕ) : ℤ := if u = 3 ∧ v = 0 then 1 else if u = 0 ∧ v = 3 then -1 else 0

theorem sqξ_lists : ListsCochain [⟨[3, 0], 1⟩] sqξ where
  antisymm := by
    intro u v
    unfold sqξ
    split_ifs <;> first | rfl | omega
  rows := by
    intro r hr
    simp only [List.mem_singleton] at hr
    subst hr
    exact ⟨3, 0, rfl, by simp [sqξ]⟩
  unlisted := by
    intro u v h
    obtain ⟨h1, h2⟩ := h _ (List.mem_singleton.2 rfl)
    unfold sqξ
    rw [if_neg, if_neg]
    · rintro ⟨rfl, rfl⟩; exact h2 rfl
    · rintro ⟨rfl, rfl⟩; exact h1 rfl

/-- ripser keeps its promise, in single precision. -/
theorem sqRipser_spec : RipserSpec single 4 4 sqδ 41 1 sqRipser where
  count := rfl
  nodup := (by decide : [0, 2, 1, 3].Nodup)
  range := (by decide : ∀ v ∈ [0, 2, 1, 3], v < 4)
  dists := by
    intro l h i _
    show Fl.fin (sqδ (sqRipser.idxPerm.getD l 0) i) = _
    rw [getD_of_lt h]
  dims := ⟨rfl, rfl⟩
  classes := by
    intro q dgm coc hq h1 h2
    have : q < 2 := (List.getElem?_eq_some_iff.1 h1).1
    obtain rfl : q = 1 := by omega
    simp only [sqRipser] at h1 h2
    simp at h1 h2
    subst h1 h2
    rfl
  intervals := by
    intro q dgm hq h1 pt hpt
    have : q < 2 := (List.getElem?_eq_some_iff.1 h1).1
    obtain rfl : q = 1 := by omega
    simp only [sqRipser] at h1
    simp at h1
    subst h1
    simp only [List.mem_singleton] at hpt
    subst hpt
    exact ⟨2, rfl, Or.inl ⟨4, rfl, by norm_num⟩⟩
  simplices := by
    intro q coc h1 c hc
    have : q < 2 := (List.getElem?_eq_some_iff.1 h1).1
    have hq : q = 0 ∨ q = 1 := by omega
    rcases hq with rfl | rfl
    · simp only [sqRipser] at h1
      simp at h1
      subst h1
      simp at hc
    · simp only [sqRipser] at h1
      simp at h1
      subst h1
      simp only [List.mem_singleton] at hc
      subst hc
      refine ⟨?_, by simp⟩
      intro r hr
      simp only [List.mem_singleton] at hr
      subst hr
      refine ⟨rfl, by simp, ?_, by norm_num, by norm_num⟩
      intro v hv
      simp only [List.mem_cons, List.not_mem_nil, or_false] at hv
      rcases hv with rfl | rfl
      · exact ⟨3, (by decide : 3 ∈ [0, 2, 1, 3]), rfl⟩
      · exact ⟨0, (by decide : 0 ∈ [0, 2, 1, 3]), rfl⟩
  cocycles := by
    intro dgm coc h1 h2 j pt c h3 h4
    simp only [sqRipser] at h1 h2
    simp at h1 h2
    subst h1 h2
    have : j < 1 := (List.getElem?_eq_some_iff.1 h3).1
    obtain rfl : j = 0 := by omega
    simp at h3 h4
    subst h3 h4
    refine ⟨sqξ, sqξ_lists, ?_⟩
    intro t ht u hu v hv w hw e1 e2 e3
    have ht' : t ≤ 4 - 2 ^ (-24 : ℤ) := by
      rcases ht with ⟨d, hd, hd'⟩ | hd
      · simp only [Fl.fin.injEq] at hd
        subst hd
        by_contra hlt
        have := hd' _ (not_le.1 hlt)
        rw [single_four] at this
        exact lt_irrefl _ this
      · simp at hd
    have hnear : ∀ a b, sqδ a b < t → a = b ∨ (a + b) % 2 = 1 := by
      intro a b h
      rcases sqδ_cases a b with ⟨h1, -⟩ | ⟨-, h1, -⟩ | ⟨-, -, h1⟩
      · exact Or.inl h1
      · exact Or.inr h1
      · rw [h1] at h; exact absurd (h.trans_le ht') (lt_irrefl _)
    have key : ∀ u ∈ [0, 2, 1, 3], ∀ v ∈ [0, 2, 1, 3], ∀ w ∈ [0, 2, 1, 3],
        ((u = v ∨ (u + v) % 2 = 1) ∧ (v = w ∨ (v + w) % 2 = 1) ∧ (u = w ∨ (u + w) % 2 = 1)) →
        sqξ u v + sqξ v w = sqξ u w := by decide +kernel
    rw [key u hu v hv w hw ⟨hnear _ _ e1, hnear _ _ e2, hnear _ _ e3⟩, sub_self]
    exact dvd_zero _

/-! ### the call -/

/-- The object built by the constructor. -/
noncomputable def sqObj : ToroObj :=
  ⟨41, [[(.fin 0, .fin 2), (.fin 0, .fin 2), (.fin 0, .fin 2), (.fin 0, .pinf)], [(.fin 2, .fin 4)]], [[], [[⟨[3, 0], 1⟩]]], 4, 4,
    clampArr 4 4 fun l i => sqδ ([0, 2, 1, 3].getD l 0) i, .float, fun m => [0, 2, 1, 3].getD m 0, cnsTable 4 2, none, none⟩

theorem sqObj_init (argsort : List (Fl ℝ) → List ℕ) (h : ArgsortSpec argsort) :
    toroInit argsort sqRipser sqInput 4 41 1 = .ok sqObj := by
  have ha : ∀ k : Fl ℝ, argsort [k] = [0] := fun k => List.perm_singleton.1 (h [k]).1
  have hs : sortLoop argsort 1 sqRipser.dgms sqRipser.cocycles = .ok (sqRipser.dgms, sqRipser.cocycles) := by
    unfold sortLoop sortDim
    simp [sqRipser, pyRange, pyGet, ha, bind, Except.bind, pure, Except.pure]
  unfold toroInit emInit
  rw [if_neg (by norm_num)]
  simp only [hs, bind, Except.bind]
  have hr : reindexCocycles sqRipser.cocycles sqRipser.idxPerm sqInput.rows = .ok [[], [[⟨[3, 0], 1⟩]]] := by
    show reindexCocycles [[], [[⟨[3, 0], 1⟩]]] [0, 2, 1, 3] 4 = _
    decide +kernel
  rw [hr]
  simp only [pure, Except.pure, Except.ok.injEq]
  unfold sqObj
  congr

theorem sqδ_nonneg (u v : ℕ) : 0 ≤ sqδ u v := by
  have he := sq_eps
  rcases sqδ_cases u v with ⟨-, h⟩ | ⟨-, -, h⟩ | ⟨-, -, h⟩ <;> rw [h] <;> linarith

theorem sqObj_wf : WellFormed sqObj :=
  ⟨rfl, ⟨4, 2, by decide, by decide, rfl⟩, by decide, by decide, fun _ _ => sqδ_nonneg _ _⟩

theorem sqObj_fieldValued : FieldValued sqObj.prime sqObj.cocycles := by
  have : ∀ ck ∈ ([[], [[⟨[3, 0], 1⟩]]] : List (List SparseCochain)), ∀ c ∈ ck, ∀ r ∈ c, 0 ≤ r.val ∧ r.val < 41 := by decide
  exact this

/-- The stored class as a dense vector. -/
def sqVec : List ℤ := [0, 0, 0, -1, 0, 0]

theorem sq_dense : sparseCocycleToVector 1 (liftToIntegerCocycle [⟨[3, 0], 1⟩] 41) (cnsTable 4 2) 4 = .ok sqVec := by
  have h := storeRow_ofFn (n := 4) (d := 1) (N := 4) (D := 2) (r := ⟨[3, 0], 1⟩) (f := ![3, 0]) (τ := Equiv.swap 0 1)
    (by norm_num) (by norm_num) (by simp [List.ofFn_succ])
    (by intro i j; fin_cases i <;> fin_cases j <;> simp) (by intro i; fin_cases i <;> simp)
    (by intro i j hij; fin_cases i <;> fin_cases j <;> simp at hij ⊢) [0, 0, 0, 0, 0, 0] (by decide)
  have hl : liftToIntegerCocycle [⟨[3, 0], 1⟩] 41 = [⟨[3, 0], 1⟩] := by decide +kernel
  have hn : numberOfSimplices 1 4 (cnsTable 4 2) = 6 := by decide +kernel
  have hf : cnsForward [0, 3] (cnsTable 4 2) = 3 := by decide +kernel
  unfold sparseCocycleToVector
  rw [hl, hn]
  simp only [List.foldlM_cons, List.foldlM_nil, List.replicate_succ, List.replicate_zero, h, bind, Except.bind, pure, Except.pure]
  have e : (List.ofFn (![3, 0] ∘ (Equiv.swap (0 : Fin 2) 1))) = [0, 3] := by simp [List.ofFn_succ]
  rw [e, hf]
  simp [sqVec]

/-- The data point of landmark `l`, and the nearest column. -/
def sqLand (l : ℕ) : ℕ := [0, 2, 1, 3].getD (min l 3) 0

theorem sqObj_dist (l i : ℕ) : sqObj.dist l i = sqδ (sqLand l) (min i 3) := rfl

theorem sqObj_land (l m : ℕ) : sqObj.distLandLand l m = sqδ (sqLand l) (min ([0, 2, 1, 3].getD m 0) 3) := rfl

/-- At the threshold 4 all edges are present. -/
theorem sq_edge (l m : ℕ) : RipsEdge 4 sqObj.distLandLand (2 * 2 : ℝ) l m ↔ l < m ∧ m < 4 := by
  unfold RipsEdge
  refine ⟨fun h => ⟨h.1, h.2.1⟩, fun h => ⟨h.1, h.2, ?_⟩⟩
  rw [sqObj_land]
  have he := sq_eps
  rcases sqδ_cases (sqLand l) (min ([0, 2, 1, 3].getD m 0) 3) with ⟨-, h⟩ | ⟨-, -, h⟩ | ⟨-, -, h⟩ <;> rw [h] <;> linarith

theorem sq_repair {milp : Milp ℝ} (hz : ZeroForZero milp) (check : Bool) :
    checkAndRepair milp 4 (fun l m => (sqObj.distLandLand l m : EReal)) ((2 * 2 : ℝ) : EReal) (cnsTable 4 2) 41 check
      [fun e => sqVec.getD e 0] = .ok [fun e => sqVec.getD e 0] := by
  refine repair_small hz le_rfl le_rfl (by norm_num) _ _ 41 check _ ?_
  intro i j k ⟨h1, h2, h3⟩
  rw [sq_edge] at h1 h2 h3
  have key : ∀ k < 4, ∀ j < k, ∀ i < j, 0 ≤ sqVec.getD (edgeIdx i j) 0 + sqVec.getD (edgeIdx j k) 0 - sqVec.getD (edgeIdx i k) 0 ∧
      sqVec.getD (edgeIdx i j) 0 + sqVec.getD (edgeIdx j k) 0 - sqVec.getD (edgeIdx i k) 0 < 41 := by decide +kernel
  exact key k h2.2 j h2.1 i h1.1

theorem sq_energy (f : ℕ → ℝ) : formEnergy 4 sqObj.distLandLand 2 (fun e => ((sqVec.getD e 0 : ℤ) : ℝ)) f =
    (f 0 - f 1) ^ 2 + (f 0 - f 2) ^ 2 + (1 + (f 0 - f 3)) ^ 2 + (f 1 - f 2) ^ 2 + (f 1 - f 3) ^ 2 + (f 2 - f 3) ^ 2 := by
  unfold formEnergy
  simp only [sq_edge, Finset.sum_range_succ, Finset.sum_range_zero]
  norm_num [edgeIdx, sqVec, Nat.choose]
  ring

/-- The minimiser is unique up to a constant. -/
theorem sq_minimiser (f : ℕ → ℝ) (h : ∀ g, formEnergy 4 sqObj.distLandLand 2 (fun e => ((sqVec.getD e 0 : ℤ) : ℝ)) f ≤
    formEnergy 4 sqObj.distLandLand 2 (fun e => ((sqVec.getD e 0 : ℤ) : ℝ)) g) :
    f 1 = f 0 + 1 / 4 ∧ f 2 = f 0 + 1 / 4 ∧ f 3 = f 0 + 1 / 2 := by
  have h1 := h (fun l => if l = 0 then 0 else if l = 1 then 1 / 4 else if l = 2 then 1 / 4 else 1 / 2)
  rw [sq_energy, sq_energy] at h1
  norm_num at h1
  have key : (f 0 - f 1 + 1 / 4) ^ 2 + (f 0 - f 2 + 1 / 4) ^ 2 + (f 0 - f 3 + 1 / 2) ^ 2 + (f 1 - f 2) ^ 2 +
      (f 1 - f 3 + 1 / 4) ^ 2 + (f 2 - f 3 + 1 / 4) ^ 2 ≤ 0 := by nlinarith [h1]
  have a1 := sq_nonneg (f 0 - f 1 + 1 / 4)
  have a2 := sq_nonneg (f 0 - f 2 + 1 / 4)
  have a3 := sq_nonneg (f 0 - f 3 + 1 / 2)
  have a4 := sq_nonneg (f 1 - f 2)
  have a5 := sq_nonneg (f 1 - f 3 + 1 / 4)
  have a6 := sq_nonneg (f 2 - f 3 + 1 / 4)
  have e1 : f 0 - f 1 + 1 / 4 = 0 := pow_eq_zero_iff two_ne_zero |>.1 (by linarith)
  have e2 : f 0 - f 2 + 1 / 4 = 0 := pow_eq_zero_iff two_ne_zero |>.1 (by linarith)
  have e3 : f 0 - f 3 + 1 / 2 = 0 := pow_eq_zero_iff two_ne_zero |>.1 (by linarith)
  exact ⟨by linarith, by linarith, by linarith⟩

/-- Every corner lies in the ball of its own landmark only. -/
theorem sq_ball (l i : ℕ) (hl : l < 4) (hi : i < 4) : sqObj.dist l i < 2 ↔ sqLand l = i := by
  rw [sqObj_dist, show min i 3 = i by omega]
  have he := sq_eps
  rcases sqδ_cases (sqLand l) i with ⟨a, h⟩ | ⟨a, -, h⟩ | ⟨a, -, h⟩ <;> rw [h]
  · exact iff_of_true (by norm_num) a
  · exact iff_of_false (by norm_num) a
  · exact iff_of_false (by linarith) a

/-- **C119 fails at `perc = 1`.** The four corners 0, 1, 2, 3 of a square, in this order around the square, with four landmarks; the
double `4 - 2 ^ -24` is the distance of opposite corners, and ripser, working in single precision, keeps its promise
(`sqRipser_spec`).  The call with `perc = 1` uses the threshold 4, at which the class has no integer lift, in fact it is not a cocycle
modulo 41; but the call reports nothing.  It returns the angles `y`, `y + 1/4`, `y + 1/4`, `y + 1/2` (in turns): two neighbouring
corners get the same angle and the corners 3 and 0, which are neighbours, are half a turn apart.  Checking the cocycle condition
makes no difference. -/
theorem C119_wrong_coordinates (env : Oracles) (hex : ExactLsq env.lsqr) (hz : ZeroForZero env.milp)
    (argsort : List (Fl ℝ) → List ℕ) (hargsort : ArgsortSpec argsort) (fuel : ℕ) (check : Bool) :
    RipserSpec single 4 4 sqδ 41 1 sqRipser ∧ DescribesData sqInput sqδ ∧
    (¬ ∃ c, IsIntegerLift 41 sqRipser.idxPerm.toFinset sqδ 4 sqξ c) ∧
    ∃ o θ y, toroInit argsort sqRipser sqInput 4 41 1 = .ok o ∧
      (circularGetCoordinates env fuel o (.fin 1) (.int 0) bumpLinear false check).2 = .ok θ ∧
      IsAngle (θ 0) y ∧ IsAngle (θ 1) (y + 1 / 4) ∧ IsAngle (θ 2) (y + 1 / 4) ∧ IsAngle (θ 3) (y + 1 / 2) := by
  refine ⟨sqRipser_spec, sqInput_describes, ?_, ?_⟩
  · rintro ⟨c, hc⟩
    have hS : ∀ v ∈ [0, 2, 1, 3], v ∈ sqRipser.idxPerm.toFinset := fun v hv => List.mem_toFinset.2 hv
    have h4 : ∀ u v, sqδ u v < 4 := by
      intro u v
      have he := sq_eps
      rcases sqδ_cases u v with ⟨-, h⟩ | ⟨-, -, h⟩ | ⟨-, -, h⟩ <;> rw [h] <;> linarith
    have e := hc.cocycle 0 (hS 0 (by decide)) 1 (hS 1 (by decide)) 3 (hS 3 (by decide)) (h4 _ _) (h4 _ _) (h4 _ _)
    have d1 := hc.congr 0 (hS 0 (by decide)) 1 (hS 1 (by decide))
    have d2 := hc.congr 1 (hS 1 (by decide)) 3 (hS 3 (by decide))
    have d3 := hc.congr 0 (hS 0 (by decide)) 3 (hS 3 (by decide))
    norm_num [sqξ] at d1 d2 d3
    omega
  obtain ⟨r, thr, hrad, h1, h2, -⟩ := (C24_cover_radius (2 : ℝ) 4 1 false).2 (by norm_num)
  obtain rfl : r = 2 := by simp only [Bool.false_eq_true, if_false] at h1; linarith
  obtain rfl : thr = 2 * 2 := h2.symm
  obtain ⟨θ, w, f, hθ, -, hpart, hcoord, hmin⟩ := one_class_call (env := env) sqObj_wf sqObj_fieldValued (z := .int 0) (b := 2)
    (d := 4) (s := [⟨[3, 0], 1⟩]) rfl (by norm_num) hrad positiveBump_linear sq_dense (sq_repair hz check) fuel
  obtain ⟨f1, f2, f3⟩ := sq_minimiser f (hmin hex)
  have hval : ∀ l < 4, IsAngle (θ (sqLand l)) (f l) := by
    intro l hl
    have hi : sqLand l < 4 := by
      have : ∀ l < 4, sqLand l < 4 := by decide
      exact this l hl
    have inj : ∀ l < 4, ∀ m < 4, sqLand m = sqLand l → m = l := by decide
    have hb : InBall sqObj.nLand sqObj.dist 2 l (sqLand l) := ⟨hl, (sq_ball l _ hl hi).2 rfl⟩
    have hfirst : FirstBall sqObj.nLand sqObj.dist 2 (sqLand l) l :=
      ⟨hb, fun m hm hmb => by have := inj l hl m (by omega) ((sq_ball m _ (by omega) hi).1 hmb.2); omega⟩
    have h := hcoord.covered (sqLand l) l hfirst
    have hout : ∀ m < 4, m ≠ l → w m (sqLand l) = 0 := by
      intro m hm hne
      refine le_antisymm (not_lt.1 fun hpos => ?_) (hpart.nonneg m _ ⟨l, hb⟩)
      exact hne (inj l hl m hm ((sq_ball m _ hm hi).1 ((hpart.support m _ ⟨l, hb⟩).1 hpos)))
    have e : coordFormula sqObj.nLand sqObj.distLandLand 2 w (fun e => sqVec.getD e 0) f l (sqLand l) = f l := by
      unfold coordFormula
      rw [Finset.sum_eq_zero, add_zero]
      intro m hm
      have hm : m < 4 := Finset.mem_range.1 hm
      by_cases hne : m = l
      · subst hne
        have : ripsForm sqObj.nLand sqObj.distLandLand 2 (fun e => sqVec.getD e 0) f m m = 0 := by
          unfold ripsForm
          rw [if_pos (show RipsRel sqObj.nLand sqObj.distLandLand (2 * 2 : ℝ) m m from Or.inl rfl), edgeVal_self]; simp
        rw [this, zero_mul]
      · rw [hout m hm hne, mul_zero]
    rw [e] at h
    exact h
  refine ⟨sqObj, θ, f 0, sqObj_init argsort hargsort, hθ, hval 0 (by norm_num), ?_, ?_, ?_⟩
  · rw [← f2]; exact hval 2 (by norm_num)
  · rw [← f1]; exact hval 1 (by norm_num)
  · rw [← f3]; exact hval 3 (by norm_num)

/-- With the default `perc = 1 / 2` the same object returns the coordinates of the integer cocycle `sqξ`
(`C119_circular_coordinates_partial`). -/
example (fuel : ℕ) (history : List (ℕ × Args)) : ∃ o θ w c f, toroInit idealArgsort sqRipser sqInput 4 41 1 = .ok o ∧
    (circularGetCoordinates idealEnv fuel (afterCalls idealEnv o history) (.fin (1 / 2)) (.int 0) bumpLinear false true).2 =
      .ok θ ∧ IsIntegerLift 41 sqRipser.idxPerm.toFinset sqδ (3) sqξ c ∧
      IsDataCoordinate sqRipser.idxPerm.toFinset 4 sqδ (3 / 2) w c f θ := by
  obtain ⟨o, dgm, coc, σ, h1, h5, h6, h7, h8⟩ := C119_circular_coordinates_partial sqInput sqInput_describes sqRipser_spec
    idealArgsort idealArgsort_spec le_rfl (by norm_num) (by norm_num) (fun _ => rfl) (by norm_num)
  simp only [sqRipser] at h5 h6
  simp at h5 h6
  subst h5 h6
  have hσ : σ = [0] := List.perm_singleton.1 h7.1
  subst hσ
  obtain ⟨ξ, hξ, h9⟩ := h8 0 0 2 4 _ rfl rfl rfl
  obtain hξe := hξ.unique sqξ_lists
  subst hξe
  obtain ⟨h10, -⟩ := h9 idealEnv (1 / 10) (1 / 10) (by norm_num) (by norm_num) idealMilp_sound idealMilp_complete fuel history
    (1 / 2) false bumpLinear (by norm_num) (by norm_num) (by norm_num) (by norm_num)
    (C119_default_percentages (Or.inl rfl) (by norm_num) (by norm_num)) positiveBump_linear (3 / 2) (by norm_num)
  rw [show (2 : ℝ) * (3 / 2) = 3 by norm_num] at h10
  have hlift : IsIntegerLift 41 sqRipser.idxPerm.toFinset sqδ (3) sqξ sqξ := by
    refine ⟨fun u _ v _ => by simp, fun u _ v _ => sqξ_lists.antisymm u v, ?_⟩
    intro u hu v hv w hw e1 e2 e3
    have hnear : ∀ a b, sqδ a b < 3 → a = b ∨ (a + b) % 2 = 1 := by
      intro a b h
      rcases sqδ_cases a b with ⟨h1, -⟩ | ⟨-, h1, -⟩ | ⟨-, -, h1⟩
      · exact Or.inl h1
      · exact Or.inr h1
      · rw [h1] at h; norm_num at h
    have key : ∀ u ∈ [0, 2, 1, 3], ∀ v ∈ [0, 2, 1, 3], ∀ w ∈ [0, 2, 1, 3],
        ((u = v ∨ (u + v) % 2 = 1) ∧ (v = w ∨ (v + w) % 2 = 1) ∧ (u = w ∨ (u + w) % 2 = 1)) →
        sqξ u v + sqξ v w = sqξ u w := by decide +kernel
    exact key u (List.mem_toFinset.1 hu) v (List.mem_toFinset.1 hv) w (List.mem_toFinset.1 hw)
      ⟨hnear _ _ e1, hnear _ _ e2, hnear _ _ e3⟩
  obtain ⟨θ, w, c, f, e1, e2, -, -, -, e3⟩ := h10 ⟨_, hlift⟩
  exact ⟨o, θ, w, c, f, h1, e1, e2, e3⟩

/-- The hypotheses can be met. -/
example (fuel : ℕ) (check : Bool) := C119_wrong_coordinates dupEnv idealLsqr_exact zeroFirstMilp_zero idealArgsort idealArgsort_spec fuel
  check

end Dreimac
