import Mathlib.LinearAlgebra.Matrix.Charpoly.Basic
import Mathlib.LinearAlgebra.Matrix.Charpoly.Coeff
import Mathlib.LinearAlgebra.Matrix.NonsingularInverse
import Verif.Lemmas.Circular

/-!
# C29 (coordinates), C33–C39, C41, C45, C83: the coordinates returned by `CircularCoords` and `ToroidalCoords`

`o` is the object, `a` the arguments, `coords` the returned list, `(r, t)` the stored radius and Rips threshold.
-/

namespace Dreimac

open Real Matrix

/-- The selected classes, converted to dense vectors, are cocycles modulo the prime on the Rips complex at threshold
`2 * r` (what ripser guarantees below the death of the class). -/
def StoredCocycles (o : ToroObj) (a : Args) (r : ℝ) : Prop :=
  ∀ x ∈ a.cocycleIdxs, ∀ b d s, repr1 o x = .ok (b, d, s) →
    ∃ u, sparseCocycleToVector 1 s o.table o.nLand = .ok u ∧
      IsCocycle1Mod o.prime o.nLand o.distLandLand (2 * r) (fun e => u.getD e 0)

/-- The cocycle condition is checked and the solver used to repair classes is correct up to small tolerances. -/
structure CheckedCall (env : Oracles) (o : ToroObj) (a : Args) : Prop where
  check : a.check = true
  prime : 0 < o.prime
  size : o.nLand ≤ 2345
  solver : ∃ ε τ : ℝ, 0 ≤ τ ∧ 3 * ε + τ < 1 ∧ SolverSound env.milp ε τ

section
variable {env : Oracles} {fuel : ℕ} {o : ToroObj} {a : Args} {coords : List (ℕ → Fl ℝ)} {r t : ℝ}

theorem repr1_of_mem {x : ClassArg} (hok : (getCoordinates env fuel o a).2 = .ok coords) (hx : x ∈ a.cocycleIdxs) :
    ∃ b d s, repr1 o x = .ok (b, d, s) := by
  obtain ⟨sel, b, d, radius, hsel, -⟩ := getCoordinates_radius hok
  rw [selectClasses_iff] at hsel
  have h := forall₂_mapM hsel
  obtain ⟨k, hk⟩ := List.mem_iff_getElem?.1 hx
  rcases forall₂_get h k with ⟨e, _⟩ | ⟨y, s, e1, _, e3⟩
  · rw [hk] at e; cases e
  · rw [hk] at e1; injection e1 with e1; subst e1
    exact ⟨s.1, s.2.1, s.2.2, e3⟩

/-- The integer cochains used by a checked call are integer cocycles congruent to the stored classes. -/
theorem witness_lift (hok : (getCoordinates env fuel o a).2 = .ok coords) {o' : ToroObj}
    (W : CallWitness env o o' a r coords) (hst : StoredCocycles o a r) (hch : CheckedCall env o a) (j : Fin W.m) :
    ∃ x b d s u, a.cocycleIdxs[(j : ℕ)]? = some x ∧ repr1 o x = .ok (b, d, s) ∧
      sparseCocycleToVector 1 s o.table o.nLand = .ok u ∧
      IntegralLift1 o.prime o.nLand o.distLandLand (2 * r) (fun e => u.getD e 0) (W.c j) := by
  have hj : (j : ℕ) < a.cocycleIdxs.length := by rw [W.len]; exact j.2
  have hx : a.cocycleIdxs[(j : ℕ)]? = some a.cocycleIdxs[(j : ℕ)] := List.getElem?_eq_getElem hj
  have hmem := List.mem_of_getElem? hx
  obtain ⟨b, d, s, hs⟩ := repr1_of_mem hok hmem
  obtain ⟨u, hu, hmod⟩ := hst _ hmem b d s hs
  obtain ⟨v, hv, hrep⟩ := W.classes j _ b d s hx hs
  obtain ⟨v', hv', hcong⟩ := dense_lift (p := o.prime) hu
  rw [hv] at hv'
  injection hv' with hv'
  subst hv'
  obtain ⟨ε, τ, h1, h2, h3⟩ := hch.solver
  have hl := hrep.lift hch.check ε τ h1 h2 h3 hch.prime hch.size (isCocycle1Mod_congr hcong hmod)
  refine ⟨_, b, d, s, u, hx, hs, hu, hl.1, fun e => ?_⟩
  have := dvd_add (hl.2 e) (hcong e)
  simpa using this

theorem isCocycle1_sum {K : Type} [LT K] {n : ℕ} {dist : ℕ → ℕ → K} {s : K} {m : ℕ} (u : Fin m → ℤ) (c : Fin m → ℕ → ℤ)
    (h : ∀ j, IsCocycle1 n dist s (c j)) : IsCocycle1 n dist s (fun e => ∑ j, u j * c j e) := by
  intro i j k hijk
  rw [← Finset.sum_add_distrib, ← Finset.sum_sub_distrib]
  apply Finset.sum_eq_zero
  intro q _
  have := h q i j k hijk
  linear_combination (u q) * this

theorem witness_out_cocycle (hok : (getCoordinates env fuel o a).2 = .ok coords) {o' : ToroObj}
    (W : CallWitness env o o' a r coords) (hst : StoredCocycles o a r) (hch : CheckedCall env o a) (i : Fin W.m) :
    IsCocycle1 o.nLand o.distLandLand (2 * r) (fun e => ∑ j, W.U i j * W.c j e) :=
  isCocycle1_sum _ _ fun j => by
    obtain ⟨_, _, _, _, _, _, _, _, h⟩ := witness_lift hok W hst hch j
    exact h.1

theorem mem_coords {o' : ToroObj} (W : CallWitness env o o' a r coords) {θ : ℕ → Fl ℝ} (h : θ ∈ coords) :
    ∃ i, θ = W.out i := by
  rw [W.out_eq, List.mem_ofFn] at h
  obtain ⟨i, hi⟩ := h
  exact ⟨i, hi.symm⟩

/-- The ingredients of the coordinates `out` returned by a call with `m` selected classes: weights `w`, for each class an
integer cochain `c j` and a potential `f j`, and an integer change of basis `U`. -/
structure CoordinateData (env : Oracles) (o : ToroObj) (a : Args) (r : ℝ) (m : ℕ) (w : ℕ → ℕ → ℝ) (c : Fin m → ℕ → ℤ)
    (f : Fin m → ℕ → ℝ) (U : Matrix (Fin m) (Fin m) ℤ) (out : Fin m → ℕ → Fl ℝ) : Prop where
  /-- one coordinate per selected class -/
  len : a.cocycleIdxs.length = m
  /-- the weights are what `get_covering_partition` returns, at the points covered by balls of radius `r` -/
  weights : ∃ cov, getCoveringPartition .float o.nLand o.nData (fun l i => Fl.fin (o.dist l i)) (.fin r) a.bump = .ok cov ∧
    ∀ i, (∃ m, InBall o.nLand o.dist r m i) → ∀ l, cov.varphi l i = .fin (w l i)
  /-- they are a partition of unity -/
  part : IsPartitionOfUnity o.nLand o.dist r w
  /-- `c j` is congruent modulo the prime to the `j`-th selected class, lifted to integers and made dense, and equal to it
  if that already is a cocycle or if the check is off -/
  classes : ∀ j : Fin m, ∃ x b d s v, a.cocycleIdxs[(j : ℕ)]? = some x ∧ repr1 o x = .ok (b, d, s) ∧
    sparseCocycleToVector 1 (liftToIntegerCocycle s o.prime) o.table o.nLand = .ok v ∧
    (∀ e, o.prime ∣ c j e - v.getD e 0) ∧
    (a.check = false ∨ IsCocycle1 o.nLand o.distLandLand (2 * r) (fun e => v.getD e 0) → c j = fun e => v.getD e 0)
  /-- with an exact least squares solver the potentials minimise the energy -/
  minimal : ExactLsq env.lsqr → ∀ j g, formEnergy o.nLand o.distLandLand r (fun e => (c j e : ℝ)) (f j) ≤
    formEnergy o.nLand o.distLandLand r (fun e => (c j e : ℝ)) g
  unimodular : U.det = 1 ∨ U.det = -1
  single : m = 1 → U = 1
  /-- the coordinates are given by the coordinate formula of the combined cochains and potentials -/
  coord : ∀ k, IsCircleCoordinate o.nLand o.dist o.distLandLand r w (fun e => ∑ j, U k j * c j e)
    (fun l => ∑ j, U k j * f j l) (out k)

theorem witness_data (hok : (getCoordinates env fuel o a).2 = .ok coords) {o' : ToroObj}
    (W : CallWitness env o o' a r coords) : CoordinateData env o a r W.m W.w W.c W.f W.U W.out := by
  refine ⟨W.len, W.weights, W.part, fun j => ?_, W.minimal, W.det, fun h => (W.single h).1, W.out_coord⟩
  have hj : (j : ℕ) < a.cocycleIdxs.length := by rw [W.len]; exact j.2
  have hx : a.cocycleIdxs[(j : ℕ)]? = some a.cocycleIdxs[(j : ℕ)] := List.getElem?_eq_getElem hj
  obtain ⟨b, d, s, hs⟩ := repr1_of_mem hok (List.mem_of_getElem? hx)
  obtain ⟨v, hv, hrep⟩ := W.classes j _ b d s hx hs
  refine ⟨_, b, d, s, v, hx, hs, hv, hrep.congr, ?_⟩
  rintro (h | h)
  · exact hrep.unchecked h
  · exact hrep.cocycle h

/-! ### C29 and C33 -/

/-- **C29 (coordinates).** A returned coordinate is NaN at a data point exactly if no landmark is within the cover radius
of that point. -/
theorem C29_coordinates (wf : WellFormed o) (hv : FieldValued o.prime o.cocycles) (hb : PositiveBump a.bump)
    (hok : (getCoordinates env fuel o a).2 = .ok coords)
    (hr : (getCoordinates env fuel o a).1.radius = some (.fin r, .fin t)) (θ : ℕ → Fl ℝ) (hθ : θ ∈ coords) (i : ℕ) :
    θ i = .nan ↔ ¬ ∃ l < o.nLand, o.dist l i < r := by
  obtain ⟨-, ⟨W⟩⟩ := callWitness wf hv hb hok hr
  obtain ⟨k, rfl⟩ := mem_coords W hθ
  refine ⟨fun h hi => ?_, fun h => (W.out_coord k).uncovered i h⟩
  obtain ⟨b, hbl⟩ := exists_firstBall (L := o.nLand) (dist := o.dist) (r := r) hi
  obtain ⟨y, hy, -⟩ := (W.out_coord k).covered i b hbl
  rw [hy] at h; cases h

/-- **C33.** Every returned coordinate of a covered point is a finite number in `[0, 2π)`, whatever the solvers return. -/
theorem C33_angles (wf : WellFormed o) (hv : FieldValued o.prime o.cocycles) (hb : PositiveBump a.bump)
    (hok : (getCoordinates env fuel o a).2 = .ok coords)
    (hr : (getCoordinates env fuel o a).1.radius = some (.fin r, .fin t)) (θ : ℕ → Fl ℝ) (hθ : θ ∈ coords) (i : ℕ)
    (hi : ∃ l < o.nLand, o.dist l i < r) : ∃ y : ℝ, θ i = .fin y ∧ 0 ≤ y ∧ y < 2 * π := by
  obtain ⟨-, ⟨W⟩⟩ := callWitness wf hv hb hok hr
  obtain ⟨k, rfl⟩ := mem_coords W hθ
  obtain ⟨b, hbl⟩ := exists_firstBall (L := o.nLand) (dist := o.dist) (r := r) hi
  obtain ⟨y, hy, h0, h1, -⟩ := (W.out_coord k).covered i b hbl
  exact ⟨y, hy, h0, h1⟩

/-! ### C34 – C37 -/

/-- **C34.** For a checked call and landmark distances satisfying the triangle inequality, evaluating the coordinate
formula with *any* ball containing the point gives the returned angle; the least squares solver is arbitrary. -/
theorem C34_any_ball (wf : WellFormed o) (hv : FieldValued o.prime o.cocycles) (hb : PositiveBump a.bump)
    (hok : (getCoordinates env fuel o a).2 = .ok coords)
    (hr : (getCoordinates env fuel o a).1.radius = some (.fin r, .fin t)) (hst : StoredCocycles o a r)
    (hch : CheckedCall env o a) (htri : LandmarkTriangle o.nLand o.dist o.distLandLand) :
    ∃ (m : ℕ) (w : ℕ → ℕ → ℝ) (c : Fin m → ℕ → ℤ) (f : Fin m → ℕ → ℝ) (U : Matrix (Fin m) (Fin m) ℤ)
      (out : Fin m → ℕ → Fl ℝ), CoordinateData env o a r m w c f U out ∧ coords = List.ofFn out ∧
      ∀ k i l, InBall o.nLand o.dist r l i → IsAngle (out k i)
        (coordFormula o.nLand o.distLandLand r w (fun e => ∑ j, U k j * c j e) (fun l => ∑ j, U k j * f j l) l i) := by
  obtain ⟨-, ⟨W⟩⟩ := callWitness wf hv hb hok hr
  refine ⟨W.m, W.w, W.c, W.f, W.U, W.out, witness_data hok W, W.out_eq, fun k i l hl => ?_⟩
  rw [coordFormula_eq_gluedLift htri W.part hl]
  exact (W.out_coord k).every_ball htri W.part (witness_out_cocycle hok W hst hch k) hl

/-- **C35 (several classes).** The coordinates returned by a checked call represent a basis of the lattice spanned by the
selected classes: there are integer cocycles `c j`, congruent modulo the prime to the `j`-th selected class on every edge,
and a unimodular integer matrix `U` such that the `k`-th coordinate has, on the ball of each landmark `l`, a real-valued
lift `F k l`, built from the weights of the partition of unity, with `F k l - F k m` equal to the value of
`∑ j, U k j * c j` on the edge `l m` wherever the two balls meet. -/
theorem C35_represents_classes (wf : WellFormed o) (hv : FieldValued o.prime o.cocycles) (hb : PositiveBump a.bump)
    (hok : (getCoordinates env fuel o a).2 = .ok coords)
    (hr : (getCoordinates env fuel o a).1.radius = some (.fin r, .fin t)) (hst : StoredCocycles o a r)
    (hch : CheckedCall env o a) (htri : LandmarkTriangle o.nLand o.dist o.distLandLand) :
    ∃ (m : ℕ) (w : ℕ → ℕ → ℝ) (c : Fin m → ℕ → ℤ) (U : Matrix (Fin m) (Fin m) ℤ) (f : Fin m → ℕ → ℝ)
      (θ : Fin m → ℕ → Fl ℝ),
      CoordinateData env o a r m w c f U θ ∧ coords = List.ofFn θ ∧
      (∀ j : Fin m, ∃ x b d s u, a.cocycleIdxs[(j : ℕ)]? = some x ∧ repr1 o x = .ok (b, d, s) ∧
        sparseCocycleToVector 1 s o.table o.nLand = .ok u ∧
        IntegralLift1 o.prime o.nLand o.distLandLand (2 * r) (fun e => u.getD e 0) (c j)) ∧
      ∀ k : Fin m,
        (∀ i l, InBall o.nLand o.dist r l i →
          IsAngle (θ k i)
            (gluedLift o.nLand w (fun e => ∑ j, U k j * c j e) (fun l => ∑ j, U k j * f j l) l i)) ∧
        ∀ i l l', InBall o.nLand o.dist r l i → InBall o.nLand o.dist r l' i →
          gluedLift o.nLand w (fun e => ∑ j, U k j * c j e) (fun l => ∑ j, U k j * f j l) l i -
            gluedLift o.nLand w (fun e => ∑ j, U k j * c j e) (fun l => ∑ j, U k j * f j l) l' i =
          ((∑ j, U k j * edgeVal (c j) l l' : ℤ) : ℝ) := by
  obtain ⟨-, ⟨W⟩⟩ := callWitness wf hv hb hok hr
  refine ⟨W.m, W.w, W.c, W.U, W.f, W.out, witness_data hok W, W.out_eq, witness_lift hok W hst hch, fun k => ⟨fun i l hl => ?_, fun i l l' hl hl' => ?_⟩⟩
  · exact (W.out_coord k).every_ball htri W.part (witness_out_cocycle hok W hst hch k) hl
  · rw [gluedLift_sub htri W.part (witness_out_cocycle hok W hst hch k) hl hl', edgeVal_sum]

/-- **C35 (one class).** `CircularCoords.get_coordinates`: an integer cocycle `c` congruent to the selected class, and
real lifts of the coordinate over the balls whose differences on overlaps are exactly the values of `c`. -/
theorem C35_represents_class {perc : Fl ℝ} {z : ClassArg} {bump : Fl ℝ → Fl ℝ → Fl ℝ} {std check : Bool} {θ : ℕ → Fl ℝ}
    (wf : WellFormed o) (hv : FieldValued o.prime o.cocycles) (hb : PositiveBump bump)
    (hok : (circularGetCoordinates env fuel o perc z bump std check).2 = .ok θ)
    (hr : (circularGetCoordinates env fuel o perc z bump std check).1.radius = some (.fin r, .fin t))
    (hst : StoredCocycles o ⟨perc, [z], bump, std, check⟩ r) (hch : CheckedCall env o ⟨perc, [z], bump, std, check⟩)
    (htri : LandmarkTriangle o.nLand o.dist o.distLandLand) :
    ∃ (b d : Fl ℝ) (s : SparseCochain) (u : List ℤ) (w : ℕ → ℕ → ℝ) (c : ℕ → ℤ) (f : ℕ → ℝ),
      repr1 o z = .ok (b, d, s) ∧ sparseCocycleToVector 1 s o.table o.nLand = .ok u ∧
      IntegralLift1 o.prime o.nLand o.distLandLand (2 * r) (fun e => u.getD e 0) c ∧
      (∃ cov, getCoveringPartition .float o.nLand o.nData (fun l i => Fl.fin (o.dist l i)) (.fin r) bump = .ok cov ∧
        ∀ i, (∃ m, InBall o.nLand o.dist r m i) → ∀ l, cov.varphi l i = .fin (w l i)) ∧
      (∀ i l, InBall o.nLand o.dist r l i →
        IsAngle (θ i) (∑ m ∈ Finset.range o.nLand, (f m + edgeVal c l m) * w m i)) ∧
      ∀ i l m, InBall o.nLand o.dist r l i → InBall o.nLand o.dist r m i →
        (∑ q ∈ Finset.range o.nLand, (f q + edgeVal c l q) * w q i) -
          (∑ q ∈ Finset.range o.nLand, (f q + edgeVal c m q) * w q i) = (edgeVal c l m : ℤ) := by
  have hT := C46_single_class env fuel o perc z bump std check
  simp only at hT
  have hok' := (hT.2.2.2.1 θ).1 hok
  rw [hT.1] at hr
  obtain ⟨m, w, c, U, f, θ', hdata, hco, hcl, hk⟩ := C35_represents_classes wf hv hb hok' hr hst hch htri
  have hm1 : m = 1 := by simpa using hdata.len.symm
  subst hm1
  have hU := hdata.single
  obtain ⟨x, b, d, s, u, hx, hs, hu, hl⟩ := hcl 0
  have hx' : x = z := by simpa using hx.symm
  subst hx'
  have hθ : θ = θ' 0 := by simpa using hco
  have hc : (fun e => ∑ j, U 0 j * c j e) = c 0 := by rw [hU rfl]; funext e; simp
  have hk0 := hk 0
  have hf : (fun l => ∑ j, (U 0 j : ℝ) * f j l) = f 0 := by rw [hU rfl]; funext e; simp
  rw [hc, hf] at hk0
  refine ⟨b, d, s, u, w, c 0, f 0, hs, hu, hl, hdata.weights, fun i l h => ?_, fun i l m h h' => ?_⟩
  · rw [hθ]; exact hk0.1 i l h
  · have := hk0.2 i l m h h'
    unfold gluedLift at this
    rw [this, hU rfl]; simp

/-- **C36.** Each returned coordinate is the one computed, at the first ball containing the point, with the full
antisymmetric edge function `c - δf` restricted to the Rips complex, without any assumption on the distances, the
cochain or the solvers. -/
theorem C36_full_edge_function (wf : WellFormed o) (hv : FieldValued o.prime o.cocycles) (hb : PositiveBump a.bump)
    (hok : (getCoordinates env fuel o a).2 = .ok coords)
    (hr : (getCoordinates env fuel o a).1.radius = some (.fin r, .fin t)) :
    ∃ (m : ℕ) (w : ℕ → ℕ → ℝ) (c : Fin m → ℕ → ℤ) (f : Fin m → ℕ → ℝ) (U : Matrix (Fin m) (Fin m) ℤ)
      (out : Fin m → ℕ → Fl ℝ), CoordinateData env o a r m w c f U out ∧ coords = List.ofFn out ∧
      ∀ k i b, FirstBall o.nLand o.dist r i b →
        IsAngle (out k i) ((∑ j, U k j * f j b) + ∑ s ∈ Finset.range o.nLand, ripsForm o.nLand o.distLandLand r
          (fun e => ∑ j, U k j * c j e) (fun l => ∑ j, U k j * f j l) b s * w s i) := by
  obtain ⟨-, ⟨W⟩⟩ := callWitness wf hv hb hok hr
  exact ⟨W.m, W.w, W.c, W.f, W.U, W.out, witness_data hok W, W.out_eq, fun k => (W.out_coord k).covered⟩

theorem C36_antisymmetric (L : ℕ) (dll : ℕ → ℕ → ℝ) (c : ℕ → ℤ) (f : ℕ → ℝ) (l m : ℕ) :
    ripsForm L dll r c f m l = - ripsForm L dll r c f l m := by
  unfold ripsForm
  by_cases h : RipsRel L dll (2 * r) l m
  · rw [if_pos h, if_pos h.symm, edgeVal_antisymm]; push_cast; ring
  · rw [if_neg h, if_neg (fun h' => h h'.symm), neg_zero]

/-- **C37.** Two data points in a common ball `l` have angles that differ, up to a multiple of `2π`, by at most
`2π M ∑_m |w_m(i) - w_m(i')|`, where `M` bounds the values of the harmonic representative on Rips edges. -/
theorem C37_continuity (wf : WellFormed o) (hv : FieldValued o.prime o.cocycles) (hb : PositiveBump a.bump)
    (hok : (getCoordinates env fuel o a).2 = .ok coords)
    (hr : (getCoordinates env fuel o a).1.radius = some (.fin r, .fin t)) (hst : StoredCocycles o a r)
    (hch : CheckedCall env o a) (htri : LandmarkTriangle o.nLand o.dist o.distLandLand) :
    ∃ (m : ℕ) (w : ℕ → ℕ → ℝ) (c : Fin m → ℕ → ℤ) (f : Fin m → ℕ → ℝ) (U : Matrix (Fin m) (Fin m) ℤ)
      (out : Fin m → ℕ → Fl ℝ), CoordinateData env o a r m w c f U out ∧ coords = List.ofFn out ∧
      ∀ (n : Fin m) (M : ℝ), (∀ l s, |ripsForm o.nLand o.distLandLand r (fun e => ∑ j, U n j * c j e)
        (fun l => ∑ j, U n j * f j l) l s| ≤ M) →
      ∀ l i i', InBall o.nLand o.dist r l i → InBall o.nLand o.dist r l i' →
        ∃ (y y' : ℝ) (k : ℤ), out n i = .fin y ∧ out n i' = .fin y' ∧
          |y - y' - k * (2 * π)| ≤ 2 * π * M * ∑ s ∈ Finset.range o.nLand, |w s i - w s i'| := by
  obtain ⟨m, w, C, F, U, out, hdata, hout, hball⟩ := C34_any_ball wf hv hb hok hr hst hch htri
  refine ⟨m, w, C, F, U, out, hdata, hout, fun n M hM l i i' hl hl' => ?_⟩
  obtain ⟨y, hy, -, -, k, hk⟩ := hball n i l hl
  obtain ⟨y', hy', -, -, k', hk'⟩ := hball n i' l hl'
  set c : ℕ → ℤ := fun e => ∑ j, U n j * C j e
  set f : ℕ → ℝ := fun l => ∑ j, U n j * F j l
  refine ⟨y, y', k - k', hy, hy', ?_⟩
  have e : y - y' - ((k - k' : ℤ) : ℝ) * (2 * π) = 2 * π * ∑ m ∈ Finset.range o.nLand,
      ripsForm o.nLand o.distLandLand r c f l m * (w m i - w m i') := by
    have : ∑ m ∈ Finset.range o.nLand, ripsForm o.nLand o.distLandLand r c f l m * (w m i - w m i') =
        coordFormula o.nLand o.distLandLand r w c f l i - coordFormula o.nLand o.distLandLand r w c f l i' := by
      unfold coordFormula
      simp only [mul_sub, Finset.sum_sub_distrib]; ring
    rw [this]; push_cast
    linear_combination hk - hk'
  rw [e, abs_mul, abs_of_pos two_pi_pos', mul_assoc (2 * π) M]
  apply mul_le_mul_of_nonneg_left _ two_pi_pos'.le
  rw [Finset.mul_sum]
  refine (Finset.abs_sum_le_sum_abs _ _).trans (Finset.sum_le_sum fun m _ => ?_)
  rw [abs_mul]
  exact mul_le_mul_of_nonneg_right (hM l m) (abs_nonneg _)

/-! ### C38, C39: harmonic representatives -/

/-- **C39.** With an exact least squares solver, for each selected class the harmonic representative `c j - δ(f j)` used
by the call has the least energy among all real cochains cohomologous to the integer cocycle `c j`. -/
theorem C39_least_energy (wf : WellFormed o) (hv : FieldValued o.prime o.cocycles) (hb : PositiveBump a.bump)
    (hok : (getCoordinates env fuel o a).2 = .ok coords)
    (hr : (getCoordinates env fuel o a).1.radius = some (.fin r, .fin t)) (hex : ExactLsq env.lsqr) :
    ∃ (m : ℕ) (w : ℕ → ℕ → ℝ) (c : Fin m → ℕ → ℤ) (f : Fin m → ℕ → ℝ) (U : Matrix (Fin m) (Fin m) ℤ)
      (out : Fin m → ℕ → Fl ℝ), CoordinateData env o a r m w c f U out ∧ coords = List.ofFn out ∧
      ∀ (j : Fin m) (η g : ℕ → ℝ), CohomologousVia o.nLand o.distLandLand (2 * r) (fun e => (c j e : ℝ)) η g →
        formEnergy o.nLand o.distLandLand r (fun e => (c j e : ℝ)) (f j) ≤
          ripsEnergy o.nLand o.distLandLand (2 * r) η := by
  obtain ⟨-, ⟨W⟩⟩ := callWitness wf hv hb hok hr
  refine ⟨W.m, W.w, W.c, W.f, W.U, W.out, witness_data hok W, W.out_eq, ?_⟩
  intro j η g h
  have e : ripsEnergy o.nLand o.distLandLand (2 * r) η =
      formEnergy o.nLand o.distLandLand r (fun e => (W.c j e : ℝ)) g := by
    unfold ripsEnergy formEnergy
    apply Finset.sum_congr rfl; intro l _
    apply Finset.sum_congr rfl; intro m _
    split
    · next he => rw [h l m he]
    · rfl
  rw [e]
  exact W.minimal hex j g

/-- **C38.** Two objects that differ only in the stored cocycles, and a class `z` whose lifted cochains `v` and `v'` are
integer cocycles on the Rips complex that differ by the coboundary of an integer function `g`: with an exact least squares
solver the harmonic representatives agree on every Rips edge, and the two coordinates differ by a rotation whose angle
`2π k l` is constant along Rips edges (hence on each connected component). -/
theorem C38_representative {perc : Fl ℝ} {z : ClassArg} {bump : Fl ℝ → Fl ℝ → Fl ℝ} {std check : Bool}
    {θ θ' : ℕ → Fl ℝ} {cocycles' : List (List SparseCochain)}
    (wf : WellFormed o) (hv : FieldValued o.prime o.cocycles) (hv' : FieldValued o.prime cocycles')
    (hb : PositiveBump bump)
    (hok : (getCoordinates env fuel o ⟨perc, [z], bump, std, check⟩).2 = .ok [θ])
    (hok' : (getCoordinates env fuel { o with cocycles := cocycles' } ⟨perc, [z], bump, std, check⟩).2 = .ok [θ'])
    (hr : (getCoordinates env fuel o ⟨perc, [z], bump, std, check⟩).1.radius = some (.fin r, .fin t))
    (hr' : (getCoordinates env fuel { o with cocycles := cocycles' } ⟨perc, [z], bump, std, check⟩).1.radius =
      some (.fin r, .fin t))
    (htri : LandmarkTriangle o.nLand o.dist o.distLandLand) (hex : ExactLsq env.lsqr)
    {b d b' d' : Fl ℝ} {s s' : SparseCochain} {v v' : List ℤ} (hs : repr1 o z = .ok (b, d, s))
    (hs' : repr1 { o with cocycles := cocycles' } z = .ok (b', d', s'))
    (hd : sparseCocycleToVector 1 (liftToIntegerCocycle s o.prime) o.table o.nLand = .ok v)
    (hd' : sparseCocycleToVector 1 (liftToIntegerCocycle s' o.prime) o.table o.nLand = .ok v')
    (hc : IsCocycle1 o.nLand o.distLandLand (2 * r) (fun e => v.getD e 0))
    (hc' : IsCocycle1 o.nLand o.distLandLand (2 * r) (fun e => v'.getD e 0))
    (g : ℕ → ℤ) (hg : ∀ l m, RipsEdge o.nLand o.distLandLand (2 * r) l m →
      v'.getD (edgeIdx l m) 0 = v.getD (edgeIdx l m) 0 + (g l - g m)) :
    ∃ (w : ℕ → ℕ → ℝ) (f f' k : ℕ → ℝ),
      IsCircleCoordinate o.nLand o.dist o.distLandLand r w (fun e => v.getD e 0) f θ ∧
      IsCircleCoordinate o.nLand o.dist o.distLandLand r w (fun e => v'.getD e 0) f' θ' ∧
      (∀ l m, ripsForm o.nLand o.distLandLand r (fun e => v'.getD e 0) f' l m =
        ripsForm o.nLand o.distLandLand r (fun e => v.getD e 0) f l m) ∧
      (∀ l m, RipsEdge o.nLand o.distLandLand (2 * r) l m → k l = k m) ∧
      ∀ i l, InBall o.nLand o.dist r l i →
        ∃ y y' : ℝ, θ i = .fin y ∧ θ' i = .fin y' ∧ SameAngle y' (y + 2 * π * k l) := by
  classical
  obtain ⟨-, ⟨W⟩⟩ := callWitness wf hv hb hok hr
  have wf' : WellFormed { o with cocycles := cocycles' } := ⟨wf.dtype, wf.table, wf.pos, wf.size, wf.nonneg⟩
  obtain ⟨-, ⟨W'⟩⟩ := callWitness wf' hv' hb hok' hr'
  have hm : W.m = 1 := W.len.symm
  have hm' : W'.m = 1 := W'.len.symm
  -- a single class: the cochain used is the lifted one
  have key : ∀ (o₁ o₂ : ToroObj) (φ : ℕ → Fl ℝ) (s : SparseCochain) (v : List ℤ) (b d : Fl ℝ)
      (V : CallWitness env o₁ o₂ ⟨perc, [z], bump, std, check⟩ r [φ]), V.m = 1 → repr1 o₁ z = .ok (b, d, s) →
      sparseCocycleToVector 1 (liftToIntegerCocycle s o₁.prime) o₁.table o₁.nLand = .ok v →
      IsCocycle1 o₁.nLand o₁.distLandLand (2 * r) (fun e => v.getD e 0) →
      ∃ f, IsCircleCoordinate o₁.nLand o₁.dist o₁.distLandLand r V.w (fun e => v.getD e 0) f φ ∧
        ∀ x, formEnergy o₁.nLand o₁.distLandLand r (fun e => ((v.getD e 0 : ℤ) : ℝ)) f ≤
          formEnergy o₁.nLand o₁.distLandLand r (fun e => ((v.getD e 0 : ℤ) : ℝ)) x := by
    intro o₁ o₂ φ s v b d V h1 hs hd hc
    obtain ⟨v0, hv0, hrep⟩ := V.classes ⟨0, by omega⟩ z b d s (by simp) hs
    rw [hd] at hv0; injection hv0 with hv0; subst hv0
    have hcv := hrep.cocycle hc
    have hbc := V.base_coord ⟨0, by omega⟩
    have hmn := V.minimal hex ⟨0, by omega⟩
    rw [hcv] at hbc hmn
    have hφ : φ = V.base ⟨0, by omega⟩ := by
      have := V.out_eq
      rw [(V.single h1).2] at this
      have h2 := congrArg (fun l => l[0]?) this
      have h3 : φ = V.base (Fin.cast h1.symm 0) := by simpa [h1] using h2
      exact h3
    rw [← hφ] at hbc
    exact ⟨_, hbc, hmn⟩
  obtain ⟨f, hf, hmin⟩ := key _ _ _ _ _ _ _ W hm hs hd hc
  obtain ⟨f', hf', hmin'⟩ := key _ _ _ _ _ _ _ W' hm' hs' hd' hc'
  -- the two calls use the same weights at covered points
  have hweq : ∀ i, (∃ m, InBall o.nLand o.dist r m i) → ∀ l, W'.w l i = W.w l i := by
    intro i hi l
    obtain ⟨cov, h1, h2⟩ := W.weights
    obtain ⟨cov', h1', h2'⟩ := W'.weights
    have hcov : cov = cov' := by
      have h3 : (Except.ok cov : Except PyErr _) = .ok cov' := h1.symm.trans h1'
      injection h3
    subst hcov
    have h3 := (h2' i hi l).symm.trans (h2 i hi l)
    injection h3
  have hf'' : IsCircleCoordinate o.nLand o.dist o.distLandLand r W.w (fun e => v'.getD e 0) f' θ' := by
    refine ⟨hf'.uncovered, fun i b hb => ?_⟩
    have := hf'.covered i b hb
    have e : coordFormula o.nLand o.distLandLand r W.w (fun e => v'.getD e 0) f' b i =
        coordFormula o.nLand o.distLandLand r W'.w (fun e => v'.getD e 0) f' b i := by
      unfold coordFormula
      congr 1
      apply Finset.sum_congr rfl; intro m _
      rw [hweq i ⟨b, hb.1⟩ m]
    rw [e]; exact this
  have hgr : ∀ l m, RipsEdge o.nLand o.distLandLand (2 * r) l m →
      ((v'.getD (edgeIdx l m) 0 : ℤ) : ℝ) = ((v.getD (edgeIdx l m) 0 : ℤ) : ℝ) + ((g l : ℝ) - (g m : ℝ)) := by
    intro l m h
    have := hg l m h
    exact_mod_cast this
  have hconst : ∀ l m, RipsEdge o.nLand o.distLandLand (2 * r) l m →
      f' l - g l - f l = f' m - g m - f m := fun l m he =>
    minimisers (L := o.nLand) (dll := o.distLandLand) (r := r) (fun e => ((v.getD e 0 : ℤ) : ℝ))
      (fun e => ((v'.getD e 0 : ℤ) : ℝ)) f f' (fun l => (g l : ℝ)) hgr hmin hmin' he
  have hconst' : ∀ l m, RipsRel o.nLand o.distLandLand (2 * r) l m → f' l - g l - f l = f' m - g m - f m := by
    rintro l m (rfl | h | h)
    · rfl
    · exact hconst l m h
    · exact (hconst m l h).symm
  have hval : ∀ l m, RipsRel o.nLand o.distLandLand (2 * r) l m →
      edgeVal (fun e => v'.getD e 0) l m = edgeVal (fun e => v.getD e 0) l m + (g l - g m) := by
    rintro l m (rfl | h | h)
    · rw [edgeVal_self, edgeVal_self]; ring
    · simp only [edgeVal, h.1, if_true]; exact hg l m h
    · simp only [edgeVal, h.1, if_true, not_lt_of_gt h.1, if_false]
      have := hg m l h
      omega
  refine ⟨W.w, f, f', fun l => f' l - g l - f l, hf, hf'', ?_, hconst, ?_⟩
  · intro l m
    unfold ripsForm
    split
    · next h =>
      rw [hval l m h]; push_cast
      have := hconst' l m h
      linarith
    · rfl
  · intro i l hl
    obtain ⟨y, hy, -, -, hya⟩ := hf.every_ball htri W.part hc hl
    obtain ⟨y', hy', -, -, hya'⟩ := hf''.every_ball htri W.part hc' hl
    refine ⟨y, y', hy, hy', ?_⟩
    have hi : ∃ m, InBall o.nLand o.dist r m i := ⟨l, hl⟩
    have e : gluedLift o.nLand W.w (fun e => v'.getD e 0) f' l i =
        gluedLift o.nLand W.w (fun e => v.getD e 0) f l i + (f' l - g l - f l) + g l := by
      unfold gluedLift
      have : ∀ m ∈ Finset.range o.nLand,
          (f' m + ((edgeVal (fun e => v'.getD e 0) l m : ℤ) : ℝ)) * W.w m i =
          (f m + ((edgeVal (fun e => v.getD e 0) l m : ℤ) : ℝ)) * W.w m i + (f' l - f l) * W.w m i := by
        intro m hm
        by_cases hd : o.dist m i < r
        · have hrel := ripsRel_of_balls htri hl ⟨Finset.mem_range.1 hm, hd⟩
          rw [hval l m hrel]; push_cast
          have := hconst' l m hrel
          linear_combination (-W.w m i) * this
        · rw [W.part.zero hi hd]; ring
      rw [Finset.sum_congr rfl this, Finset.sum_add_distrib, ← Finset.mul_sum, W.part.sum_one i hi]
      ring
    rw [e] at hya'
    have h1 : SameAngle (2 * π * (gluedLift o.nLand W.w (fun e => v.getD e 0) f l i + (f' l - g l - f l) + g l))
        (2 * π * gluedLift o.nLand W.w (fun e => v.getD e 0) f l i + 2 * π * (f' l - g l - f l)) :=
      ⟨g l, by ring⟩
    exact (hya'.trans h1).trans (hya.symm.add (SameAngle.refl _))

/-! ### C41, C45: lattice reduction -/

/-- **C41.** The coordinates returned for several classes are integer combinations, by a unimodular matrix `U` (which is
the stored change of basis if there are at least two classes), of the individual circular coordinates of the selected
classes; applying `linear_combination` with the inverse matrix `V` to what was returned gives back the individual
coordinates exactly, at every covered data point. -/
theorem C41_recover (wf : WellFormed o) (hv : FieldValued o.prime o.cocycles) (hb : PositiveBump a.bump)
    (hok : (getCoordinates env fuel o a).2 = .ok coords)
    (hr : (getCoordinates env fuel o a).1.radius = some (.fin r, .fin t)) :
    ∃ (m : ℕ) (w : ℕ → ℕ → ℝ) (c : Fin m → ℕ → ℤ) (f : Fin m → ℕ → ℝ) (base out : Fin m → ℕ → Fl ℝ)
      (U V : Matrix (Fin m) (Fin m) ℤ) (g : ℕ → ℕ → Fl ℝ),
      CoordinateData env o a r m w c f U out ∧ coords = List.ofFn out ∧
      (∀ j, IsCircleCoordinate o.nLand o.dist o.distLandLand r w (c j) (f j) (base j)) ∧
      V * U = 1 ∧ U * V = 1 ∧
      (1 < m → ∃ G G', (getCoordinates env fuel o a).1.gramInfo = some ⟨m, G, G', U.map (fun z => (z : ℝ))⟩) ∧
      (∀ p, (∃ l < o.nLand, o.dist l p < r) → ∀ i, ∃ (x : ℝ) (y : Fin m → ℝ), out i p = .fin x ∧
        (∀ j, base j p = .fin (y j)) ∧ SameAngle x (∑ j, U i j * y j)) ∧
      linearCombination (.d2 m o.nData (stackMaps out)) (.d2 m m (matArr (V.map (fun z => (z : ℝ))))) =
        .ok (.d2 m o.nData g) ∧
      ∀ p, (∃ l < o.nLand, o.dist l p < r) → ∀ j : Fin m, g j p = base j p := by
  obtain ⟨-, ⟨W⟩⟩ := callWitness wf hv hb hok hr
  have hunit : IsUnit W.U.det := by
    rcases W.det with h | h <;> rw [h]
    · exact isUnit_one
    · exact isUnit_one.neg
  have hVU : W.U⁻¹ * W.U = 1 := Matrix.nonsing_inv_mul _ hunit
  have hUV : W.U * W.U⁻¹ = 1 := Matrix.mul_nonsing_inv _ hunit
  have hvals : ∀ p, (∃ l < o.nLand, o.dist l p < r) → ∃ (x y F : Fin W.m → ℝ), (∀ i, W.out i p = .fin (x i)) ∧
      (∀ j, W.base j p = .fin (y j) ∧ 0 ≤ y j ∧ y j < 2 * π ∧ SameAngle (y j) (2 * π * F j)) ∧
      (∀ i, SameAngle (x i) (∑ j, W.U i j * (2 * π * F j))) := by
    intro p hp
    obtain ⟨b, hbl⟩ := exists_firstBall (L := o.nLand) (dist := o.dist) (r := r) hp
    choose y hy using fun j => (W.base_coord j).covered p b hbl
    choose x hx using fun i => (W.out_coord i).covered p b hbl
    refine ⟨x, y, fun j => coordFormula o.nLand o.distLandLand r W.w (W.c j) (W.f j) b p, fun i => (hx i).1,
      fun j => hy j, fun i => ?_⟩
    have := (hx i).2.2.2
    rw [coordFormula_sum, Finset.mul_sum] at this
    refine this.trans ?_
    have e : ∀ j, 2 * π * ((W.U i j : ℝ) * coordFormula o.nLand o.distLandLand r W.w (W.c j) (W.f j) b p) =
        (W.U i j : ℝ) * (2 * π * coordFormula o.nLand o.distLandLand r W.w (W.c j) (W.f j) b p) := fun j => by ring
    rw [Finset.sum_congr rfl fun j _ => e j]
    exact SameAngle.refl _
  refine ⟨W.m, W.w, W.c, W.f, W.base, W.out, W.U, W.U⁻¹,
    combineAt W.m (matArr (W.U⁻¹.map (fun z => (z : ℝ)))) (stackMaps W.out), witness_data hok W, W.out_eq, W.base_coord, hVU, hUV,
    ?_, ?_, ?_, ?_⟩
  · intro h
    obtain ⟨G, B, -, -, hG, -⟩ := W.gram h
    exact ⟨_, _, hG⟩
  · intro p hp i
    obtain ⟨x, y, F, hx, hy, hxa⟩ := hvals p hp
    refine ⟨x i, y, hx i, fun j => (hy j).1, (hxa i).trans ?_⟩
    exact SameAngle.sum _ fun j _ => ((hy j).2.2.2.symm).int_mul _
  · simp [linearCombination]
  · intro p hp j
    obtain ⟨x, y, F, hx, hy, hxa⟩ := hvals p hp
    have e : (List.range W.m).map (fun i => Fl.fin (matArr (W.U⁻¹.map (fun z => (z : ℝ))) j i) * stackMaps W.out i p) =
        (List.range W.m).map (fun i => Fl.fin (if hi : i < W.m then ((W.U⁻¹ j ⟨i, hi⟩ : ℤ) : ℝ) * x ⟨i, hi⟩ else 0)) := by
      apply List.map_congr_left
      intro i hi
      have hi' := List.mem_range.1 hi
      simp only [matArr, stackMaps, j.2, hi', and_self, dif_pos, hx, Fl.fin_mul, Matrix.map_apply]
    unfold combineAt
    rw [e, flSum_fin, (hy j).1]
    show Fl.fin (fmod _ _) = _
    congr 1
    have hmodself : fmod (y j) (2 * π) = y j := by
      unfold fmod
      have : ⌊y j / (2 * π)⌋ = 0 := by
        rw [Int.floor_eq_zero_iff]
        exact ⟨div_nonneg (hy j).2.1 two_pi_pos'.le, (div_lt_one two_pi_pos').2 (hy j).2.2.1⟩
      rw [this]; simp
    rw [← hmodself, fmod_eq_iff_sameAngle, Finset.sum_range]
    have h1 : SameAngle (∑ i : Fin W.m, ((W.U⁻¹ j i : ℤ) : ℝ) * x i)
        (∑ i : Fin W.m, ((W.U⁻¹ j i : ℤ) : ℝ) * ∑ k, W.U i k * (2 * π * F k)) :=
      SameAngle.sum _ fun i _ => (hxa i).int_mul _
    have h2 : (∑ i : Fin W.m, ((W.U⁻¹ j i : ℤ) : ℝ) * ∑ k, (W.U i k : ℝ) * (2 * π * F k)) = 2 * π * F j := by
      simp only [Finset.mul_sum]
      rw [Finset.sum_comm]
      have h3 : ∀ k : Fin W.m, ∑ i, ((W.U⁻¹ j i : ℤ) : ℝ) * ((W.U i k : ℝ) * (2 * π * F k)) =
          (((W.U⁻¹ * W.U) j k : ℤ) : ℝ) * (2 * π * F k) := by
        intro k
        rw [Matrix.mul_apply]; push_cast
        rw [Finset.sum_mul]
        apply Finset.sum_congr rfl; intro i _; ring
      rw [Finset.sum_congr rfl fun k _ => h3 k, hVU]
      simp [Matrix.one_apply]
    rw [h2] at h1
    have h4 := h1.trans (hy j).2.2.2.symm
    simpa using h4

/-- The Gram matrix of the harmonic representatives of the *returned* coordinates: `∑_{Rips edges} η_i η_j` with
`η_i = ∑_k U i k (c k - δ(f k))`. -/
noncomputable def returnedGram (L : ℕ) (dll : ℕ → ℕ → ℝ) (r : ℝ) {m : ℕ} (U : Matrix (Fin m) (Fin m) ℤ)
    (c : Fin m → ℕ → ℤ) (f : Fin m → ℕ → ℝ) : Matrix (Fin m) (Fin m) ℝ := fun i j =>
  ∑ l ∈ Finset.range L, ∑ s ∈ Finset.range L,
    open Classical in if RipsEdge L dll (2 * r) l s then
      (∑ k, (U i k : ℝ) * (c k (edgeIdx l s) - (f k l - f k s))) *
        (∑ k, (U j k : ℝ) * (c k (edgeIdx l s) - (f k l - f k s))) else 0

/-- A Cholesky routine that returns a lower triangular factor. -/
def CholeskyCorrect (chol : Cholesky) : Prop :=
  ∀ n (G L : Matrix (Fin n) (Fin n) ℝ), chol n G = some L → L * Lᵀ = G ∧ ∀ i j, i < j → L i j = 0

theorem returnedGram_eq {o' : ToroObj} (W : CallWitness env o o' a r coords) (G : Matrix (Fin W.m) (Fin W.m) ℝ)
    (hG : ∀ i j, G i j = ∑ l ∈ Finset.range o.nLand, ∑ s ∈ Finset.range o.nLand,
      open Classical in if RipsEdge o.nLand o.distLandLand (2 * r) l s then
        (W.c i (edgeIdx l s) - (W.f i l - W.f i s)) * (W.c j (edgeIdx l s) - (W.f j l - W.f j s)) else 0) :
    returnedGram o.nLand o.distLandLand r W.U W.c W.f =
      (W.U.map (fun z => (z : ℝ))) * G * (W.U.map (fun z => (z : ℝ)))ᵀ := by
  classical
  ext i j
  rw [Matrix.mul_apply]
  simp only [Matrix.mul_apply, Matrix.map_apply, Matrix.transpose_apply, hG, returnedGram, Finset.sum_mul, Finset.mul_sum]
  rw [Finset.sum_comm]
  conv_rhs =>
    rw [Finset.sum_comm]
    enter [2, x]
    rw [Finset.sum_comm]
  conv_rhs => rw [Finset.sum_comm]
  rw [Finset.sum_comm]
  apply Finset.sum_congr rfl; intro l _
  conv_rhs =>
    enter [2, x]
    rw [Finset.sum_comm]
  conv_rhs => rw [Finset.sum_comm]
  apply Finset.sum_congr rfl; intro s _
  by_cases he : RipsEdge o.nLand o.distLandLand (2 * r) l s
  · simp only [if_pos he]
    rw [Finset.sum_comm]
    apply Finset.sum_congr rfl; intro k _
    apply Finset.sum_congr rfl; intro k' _
    ring
  · simp [if_neg he]

/-- **C45 (partial).** Full claim: the stored Gram matrix is the Gram matrix of the harmonic representatives of the
returned coordinates.  Proved: the stored *original* Gram matrix is that of the individual harmonic representatives; the
stored final Gram matrix is `D Dᵀ` for a matrix `D` with `Dᵀ D` equal to the true one, so it has the same trace, the same
determinant and the same characteristic polynomial.  Missing: it is not the same matrix, see `C45_wrong_matrix`. -/
theorem C45_spectrum_partial (wf : WellFormed o) (hv : FieldValued o.prime o.cocycles) (hb : PositiveBump a.bump)
    (hok : (getCoordinates env fuel o a).2 = .ok coords)
    (hr : (getCoordinates env fuel o a).1.radius = some (.fin r, .fin t)) (hch : CholeskyCorrect env.cholesky)
    (h2 : 1 < a.cocycleIdxs.length) :
    ∃ (m : ℕ) (w : ℕ → ℕ → ℝ) (c : Fin m → ℕ → ℤ) (f : Fin m → ℕ → ℝ) (U : Matrix (Fin m) (Fin m) ℤ)
      (out : Fin m → ℕ → Fl ℝ) (D : Matrix (Fin m) (Fin m) ℝ),
      CoordinateData env o a r m w c f U out ∧ coords = List.ofFn out ∧
      (getCoordinates env fuel o a).1.gramInfo = some ⟨m, returnedGram o.nLand o.distLandLand r 1 c f, D * Dᵀ,
        U.map (fun z => (z : ℝ))⟩ ∧
      returnedGram o.nLand o.distLandLand r U c f = Dᵀ * D ∧
      (D * Dᵀ).trace = (returnedGram o.nLand o.distLandLand r U c f).trace ∧
      (D * Dᵀ).det = (returnedGram o.nLand o.distLandLand r U c f).det ∧
      (D * Dᵀ).charpoly = (returnedGram o.nLand o.distLandLand r U c f).charpoly := by
  classical
  obtain ⟨-, ⟨W⟩⟩ := callWitness wf hv hb hok hr
  obtain ⟨G, B, hB, hG, hinfo, -⟩ := W.gram (by rw [← W.len]; exact h2)
  obtain ⟨hchol, -⟩ := hch _ _ _ hB
  rw [Matrix.transpose_transpose] at hchol
  have hgram := returnedGram_eq W G hG
  have hone : returnedGram o.nLand o.distLandLand r 1 W.c W.f = G := by
    ext i j
    rw [hG]
    unfold returnedGram
    simp [Matrix.one_apply]
  have htrue : returnedGram o.nLand o.distLandLand r W.U W.c W.f =
      (B * (W.U.map (fun z => (z : ℝ)))ᵀ)ᵀ * (B * (W.U.map (fun z => (z : ℝ)))ᵀ) := by
    rw [hgram, ← hchol, Matrix.transpose_mul, Matrix.transpose_transpose]
    simp only [Matrix.mul_assoc]
  refine ⟨W.m, W.w, W.c, W.f, W.U, W.out, B * (W.U.map (fun z => (z : ℝ)))ᵀ, witness_data hok W, W.out_eq, ?_, htrue, ?_, ?_, ?_⟩
  · rw [hinfo, hone]
  · rw [htrue, Matrix.trace_mul_comm]
  · rw [htrue, Matrix.det_mul_comm]
  · rw [htrue, Matrix.charpoly_mul_comm]

/-- **C45 is false.** For two classes: whenever the reduction leaves the basis unchanged and the two harmonic
representatives are not orthogonal, the stored final Gram matrix differs from the Gram matrix of the returned
coordinates (which is then the stored original one). -/
theorem C45_wrong_matrix (wf : WellFormed o) (hv : FieldValued o.prime o.cocycles) (hb : PositiveBump a.bump)
    (hok : (getCoordinates env fuel o a).2 = .ok coords)
    (hr : (getCoordinates env fuel o a).1.radius = some (.fin r, .fin t)) (hch : CholeskyCorrect env.cholesky)
    (G G' : Matrix (Fin 2) (Fin 2) ℝ)
    (hinfo : (getCoordinates env fuel o a).1.gramInfo = some ⟨2, G, G', 1⟩) (h2 : a.cocycleIdxs.length = 2)
    (hG : G 0 1 ≠ 0) : G' ≠ G := by
  obtain ⟨-, ⟨W⟩⟩ := callWitness wf hv hb hok hr
  obtain ⟨m, w, c, f, base, U, out, len, out_eq, part, weights, base_coord, det, single, out_coord, classes, minimal,
    gram, gram_single⟩ := W
  have hm : m = 2 := by rw [← len, h2]
  subst hm
  obtain ⟨G0, B, hB, hG0, hi, -⟩ := gram (by norm_num)
  rw [hinfo] at hi
  simp only [Option.some.injEq, GramInfo.mk.injEq, heq_eq_eq, true_and] at hi
  obtain ⟨rfl, hG', hU⟩ := hi
  rw [← hU] at hG'
  simp only [Matrix.transpose_one, Matrix.mul_one] at hG'
  obtain ⟨h1, htri⟩ := hch _ _ _ hB
  rw [Matrix.transpose_transpose] at h1
  have hB10 : B 1 0 = 0 := by
    have := htri 0 1 (by decide)
    simpa using this
  intro heq
  rw [hG', ← h1] at heq
  have e00 := congrFun (congrFun heq 0) 0
  have e01 : G 0 1 = B 0 0 * B 0 1 := by
    rw [← h1]
    simp [Matrix.mul_apply, Fin.sum_univ_two, hB10]
  simp only [Matrix.mul_apply, Fin.sum_univ_two, Matrix.transpose_apply, hB10] at e00
  have : B 0 1 = 0 := by
    have : B 0 1 * B 0 1 = 0 := by linarith
    simpa using this
  rw [this, mul_zero] at e01
  exact hG e01

end

end Dreimac
