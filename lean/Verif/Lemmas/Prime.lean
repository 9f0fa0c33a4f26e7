import Verif.Props.CheckFlag
import Verif.Props.EndToEnd2

/-!
# Objects that differ in the prime and the stored classes only (for C127)
-/

namespace Dreimac

noncomputable section

theorem mapM_of_forall₂ {α β : Type} {f : α → Except PyErr β} {l : List α} {m : List β}
    (h : List.Forall₂ (fun a b => f a = .ok b) l m) : l.mapM f = .ok m := by
  induction h with
  | nil => rfl
  | cons h1 _ ih => simp only [List.mapM_cons, h1, ih, bind, Except.bind, pure, Except.pure]

/-- Two objects for the same landmarks. -/
structure SameButClasses (o o' : ToroObj) : Prop where
  nLand : o'.nLand = o.nLand
  nData : o'.nData = o.nData
  dist : o'.dist = o.dist
  dtype : o'.dtype = o.dtype
  idxLand : o'.idxLand = o.idxLand
  table : o'.table = o.table

theorem SameButClasses.finish {o o' : ToroObj} (h : SameButClasses o o') (env : Oracles) (fuel : ℕ) (d : CoordData) :
    (finishCoords env fuel o' d).map Prod.fst = (finishCoords env fuel o d).map Prod.fst := by
  have e : d.coords env o' = d.coords env o := by
    unfold CoordData.coords circularCoordinate ToroObj.distLandLand
    rw [h.nLand, h.dist, h.idxLand, h.table]
  unfold finishCoords
  rw [e, h.nData]
  split
  · rfl
  · rfl

/-- The result of a call depends on the prime and the stored classes only through the lifetimes and the integer cocycles. -/
theorem call_eq_of_cocycles {env : Oracles} {fuel : ℕ} {o o' : ToroObj} {a : Args} {idxs' : List ClassArg}
    (hsame : SameButClasses o o') {death birth : Fl ℝ} {radius : Fl ℝ × Fl ℝ}
    (hs : (selectClasses o a.cocycleIdxs >>= commonSupport) = .ok (death, birth))
    (hs' : (selectClasses o' idxs' >>= commonSupport) = .ok (death, birth))
    (hr : getCoverRadius a.perc death birth a.standardRange = .ok radius) {cs cs' : List SparseCochain}
    (hcs : (a.cocycleIdxs.map fun x =>
        ((o.cocycles.modify 1 (liftSelected o.prime a.cocycleIdxs)).getD 1 []).getD
        (x.pos ((o.cocycles.modify 1 (liftSelected o.prime a.cocycleIdxs)).getD 1 []).length) []) = cs)
    (hcs' : (idxs'.map fun x =>
        ((o'.cocycles.modify 1 (liftSelected o'.prime idxs')).getD 1 []).getD
        (x.pos ((o'.cocycles.modify 1 (liftSelected o'.prime idxs')).getD 1 []).length) []) = cs')
    (h : integerCocycles env o (ripsThr radius.2) a.check cs = integerCocycles env o' (ripsThr radius.2) a.check cs') :
    (getCoordinates env fuel o a).2 = (getCoordinates env fuel o' { a with cocycleIdxs := idxs' }).2 := by
  rw [getCoordinates_eq, getCoordinates_eq, hs]
  simp only [hs', hr, hcs, hcs']
  set o1 : ToroObj := { o with cocycles := o.cocycles.modify 1 (liftSelected o.prime a.cocycleIdxs), radius := some radius } with ho1
  set o2 : ToroObj := { o' with cocycles := o'.cocycles.modify 1 (liftSelected o'.prime idxs'), radius := some radius } with ho2
  have hsame' : SameButClasses o1 o2 := ⟨hsame.nLand, hsame.nData, hsame.dist, hsame.dtype, hsame.idxLand, hsame.table⟩
  have e : coordData env o2 { a with cocycleIdxs := idxs' } radius cs' = coordData env o1 a radius cs := by
    have h1 : integerCocycles env o1 (ripsThr radius.2) a.check cs = integerCocycles env o2 (ripsThr radius.2) a.check cs' := h
    unfold coordData
    simp only [← h1]
    unfold ToroObj.distLandLand
    rw [hsame'.nLand, hsame'.nData, hsame'.dist, hsame'.dtype, hsame'.idxLand, hsame'.table]
  rw [e]
  rcases coordData env o1 a radius cs with err | d
  · rfl
  simp only
  have hf := hsame'.finish env fuel d
  rcases hA : finishCoords env fuel o1 d with e1 | ⟨x1, i1⟩ <;> rcases hB : finishCoords env fuel o2 d with e2 | ⟨x2, i2⟩ <;>
    rw [hA, hB] at hf <;> simp only [Except.map, Except.ok.injEq, Except.error.injEq, reduceCtorEq] at hf
  · simp only [hf]
  · simp only [hf]

/-- Two dense 1-cochains with the same small values modulo two primes are the same. -/
theorem dense_unique {idx : List ℕ} {k N D : ℕ} (hlen : idx.length = k) (hN : k ≤ N) (hD : 1 ≤ D) {p : ℤ} (hp : 0 < p) {s : SparseCochain}
    (hs : ValidArray p k 1 s) {ξ c : ℕ → ℕ → ℤ} (hx : RepresentsPairs s (pullCochain idx ξ))
    (hc : ∀ u ∈ idx, ∀ v ∈ idx, p ∣ c u v - ξ u v ∧ |2 * c u v| < p) :
    ∃ v, sparseCocycleToVector 1 (liftToIntegerCocycle s p) (cnsTable N D) k = .ok v ∧ v.length = Nat.choose k 2 ∧
      ∀ l m, l < m → m < k → v.getD (edgeIdx l m) 0 = c (idx.getD l 0) (idx.getD m 0) := by
  obtain ⟨u, hu1, -, hu2⟩ := dense_eq hN hD (fun r hr => (hs.1 r hr).1) hs.2 hx
  obtain ⟨v, hv1, hv2⟩ := dense_lift (p := p) hu1
  have hb := lifted_bound (fun r hr => (hs.1 r hr).2) hp hv1
  have hl := valid_lift (p := p) (fun r hr => (hs.1 r hr).1) hs.2
  obtain ⟨v', g1, g2, -⟩ := C06_sparse_to_dense k 1 N D hN hD (liftToIntegerCocycle s p) hl.1 hl.2
  rw [hv1] at g1
  injection g1 with g1
  subst g1
  refine ⟨v, hv1, g2, ?_⟩
  intro l m hlm hm
  have hmem : ∀ l, l < k → idx.getD l 0 ∈ idx := by
    intro l hl'; rw [getD_of_lt (by omega)]; exact List.getElem_mem _
  obtain ⟨c1, c2⟩ := hc _ (hmem l (by omega)) _ (hmem m hm)
  have h1 := hv2 (edgeIdx l m)
  rw [hu2 l m hlm hm] at h1
  unfold pullCochain at h1
  rw [if_pos ⟨by omega, by omega⟩] at h1
  have h3 := dvd_sub h1 c1
  rw [sub_sub_sub_cancel_right] at h3
  have h4 := abs_le.1 (hb (edgeIdx l m))
  have h5 := abs_lt.1 c2
  have h6 : v.getD (edgeIdx l m) 0 - c (idx.getD l 0) (idx.getD m 0) = 0 :=
    Int.eq_zero_of_abs_lt_dvd h3 (by rw [abs_lt]; constructor <;> linarith)
  linarith

theorem dense_ext {k : ℕ} {v v' : List ℤ} (h : v.length = Nat.choose k 2) (h' : v'.length = Nat.choose k 2)
    (he : ∀ l m, l < m → m < k → v.getD (edgeIdx l m) 0 = v'.getD (edgeIdx l m) 0) : v = v' := by
  refine List.ext_getElem (h.trans h'.symm) fun e h1 h2 => ?_
  obtain ⟨l, m, q1, q2, q3⟩ := exists_edge_of_lt (n := k) (m := e) (by omega)
  have := he l m q1 q2
  rw [q3] at this
  simpa [List.getD_eq_getElem?_getD, List.getElem?_eq_getElem h1, List.getElem?_eq_getElem h2] using this

/-- What the constructor stores besides the classes. -/
theorem toroInit_landmarks {argsort : List (Fl ℝ) → List ℕ} {res : RipserResult ℝ} {x : DataInput} {k : ℕ} {p : ℤ} {maxdim : ℕ} {o : ToroObj}
    (h : toroInit argsort res x k p maxdim = .ok o) : o.nLand = res.idxPerm.length ∧ o.nData = x.nData ∧ o.dtype = x.distDType ∧
      o.idxLand = (fun m => res.idxPerm.getD m 0) ∧ o.table = cnsTable k 2 ∧
      ∀ l i, o.dist l i = o.dist (min l (res.idxPerm.length - 1)) (min i (x.nData - 1)) := by
  unfold toroInit emInit at h
  split at h
  · exact absurd h (by simp [bind, Except.bind])
  simp only [bind, Except.bind, pure, Except.pure] at h
  rcases h1 : sortLoop argsort maxdim res.dgms res.cocycles with e | ⟨d, c⟩
  · simp [h1] at h
  simp only [h1] at h
  rcases h2 : reindexCocycles c res.idxPerm x.rows with e | c'
  · simp [h2] at h
  simp only [h2, Except.ok.injEq] at h
  subst h
  refine ⟨rfl, rfl, rfl, rfl, rfl, fun l i => ?_⟩
  simp only [EMObject.realDist, clampArr]
  rw [min_eq_left (min_le_right _ _), min_eq_left (min_le_right _ _)]

/-! ### 2-cochains -/

/-- The lift of an array of triangles is unique. -/
theorem ListsLift2.unique {p : ℤ} {S : Finset ℕ} {c₀ : List ZRow} {c c' : ℕ → ℕ → ℕ → ℤ} (h : ListsLift2 p S c₀ c)
    (h' : ListsLift2 p S c₀ c') : ∀ u ∈ S, ∀ v ∈ S, ∀ w ∈ S, c u v w = c' u v w := by
  intro u hu v hv w hw
  by_cases hex : ∃ r ∈ c₀, r.verts.Perm [(u : ℤ), (v : ℤ), (w : ℤ)]
  · obtain ⟨r, hr, hperm⟩ := hex
    obtain ⟨a, b, d, e1, ma, mb, md, e2, e3, e4⟩ := h.rows r hr
    obtain ⟨a', b', d', e1', -, -, -, e2', e3', e4'⟩ := h'.rows r hr
    rw [e1] at e1' hperm
    simp only [List.cons.injEq, Nat.cast_inj, and_true] at e1'
    obtain ⟨rfl, rfl, rfl⟩ := e1'
    have hval : c a b d = c' a b d := by
      have h3 := dvd_sub e2 e2'
      rw [sub_sub_sub_cancel_right] at h3
      have h6 : c a b d - c' a b d = 0 := Int.eq_zero_of_abs_lt_dvd h3 (by rw [abs_lt]; constructor <;> linarith)
      linarith
    have hperm' : [a, b, d].Perm [u, v, w] := by
      have := hperm.map Int.toNat
      simpa using this
    have s12 := h.swap12
    have s23 := h.swap23
    have s12' := h'.swap12
    have s23' := h'.swap23
    have k1 := s12 a ma b mb d md
    have k1' := s12' a ma b mb d md
    have k2 := s23 a ma b mb d md
    have k2' := s23' a ma b mb d md
    have k3 := s23 b mb a ma d md
    have k3' := s23' b mb a ma d md
    have k4 := s12 a ma d md b mb
    have k4' := s12' a ma d md b mb
    have k5 := s12 b mb d md a ma
    have k5' := s12' b mb d md a ma
    have hm : [u, v, w] ∈ [a, b, d].permutations := List.mem_permutations.2 hperm'.symm
    simp [List.permutations, List.permutationsAux, List.permutationsAux.rec, List.permutationsAux2] at hm
    rcases hm with ⟨rfl, rfl, rfl⟩ | ⟨rfl, rfl, rfl⟩ | ⟨rfl, rfl, rfl⟩ | ⟨rfl, rfl, rfl⟩ | ⟨rfl, rfl, rfl⟩ | ⟨rfl, rfl, rfl⟩ <;> omega
  · push Not at hex
    rw [h.unlisted u hu v hv w hw hex, h'.unlisted u hu v hv w hw hex]

theorem dense_ext2 {k : ℕ} {v v' : List ℤ} (h : v.length = Nat.choose k 3) (h' : v'.length = Nat.choose k 3)
    (he : ∀ i j l, i < j → j < l → l < k → v.getD (triIdx i j l) 0 = v'.getD (triIdx i j l) 0) : v = v' := by
  refine List.ext_getElem (h.trans h'.symm) fun e h1 h2 => ?_
  obtain ⟨i, j, l, q1, q2, q3, q4⟩ := exists_tri_of_lt (n := k) (m := e) (by omega)
  have := he i j l q1 q2 q3
  rw [q4] at this
  simpa [List.getD_eq_getElem?_getD, List.getElem?_eq_getElem h1, List.getElem?_eq_getElem h2] using this

/-- The dense form of a lifted array with given values. -/
theorem dense_unique2 {idx : List ℕ} (hnd : idx.Nodup) {k N D : ℕ} (hlen : idx.length = k) (hN : k ≤ N) (hD : 2 ≤ D) {p : ℤ} (hp : 2 ≤ p)
    {c₀ : List ZRow} {s : SparseCochain} (hren : List.Forall₂ (Renamed idx) c₀ s) (hs : ValidArray p k 2 s) {c : ℕ → ℕ → ℕ → ℤ}
    (hc : ListsLift2 p idx.toFinset c₀ c) :
    ∃ v, sparseCocycleToVector 2 (liftToIntegerCocycle s p) (cnsTable N D) k = .ok v ∧ v.length = Nat.choose k 3 ∧
      ∀ u ∈ idx.toFinset, ∀ u' ∈ idx.toFinset, ∀ u'' ∈ idx.toFinset,
        pushCochain2 idx (fun e => v.getD e 0) u u' u'' = c u u' u'' := by
  have hl := valid_lift (p := p) (fun r hr => (hs.1 r hr).1) hs.2
  obtain ⟨v, g1, g2, -⟩ := C06_sparse_to_dense k 2 N D hN hD (liftToIntegerCocycle s p) hl.1 hl.2
  subst hlen
  exact ⟨v, g1, g2, (listsLift2_of_dense hnd hp hren hs hN hD g1).unique hc⟩

theorem projInitWith_landmarks {table : Table} {argsort : List (Fl ℝ) → List ℕ} {res : RipserResult ℝ} {x : DataInput} {p : ℤ}
    {maxdim : ℕ} {o : ProjObj} (h : projInitWith table argsort res x p maxdim = .ok o) : o.nData = x.nData ∧ o.dtype = x.distDType ∧
      o.idxLand = (fun m => res.idxPerm.getD m 0) ∧
      ∀ l i, o.dist l i = o.dist (min l (res.idxPerm.length - 1)) (min i (x.nData - 1)) := by
  unfold projInitWith emInit at h
  split at h
  · exact absurd h (by simp [bind, Except.bind])
  simp only [bind, Except.bind, pure, Except.pure] at h
  rcases h1 : sortLoop argsort maxdim res.dgms res.cocycles with e | ⟨d, c⟩
  · simp [h1] at h
  simp only [h1] at h
  rcases h2 : reindexCocycles c res.idxPerm x.rows with e | c'
  · simp [h2] at h
  simp only [h2, Except.ok.injEq] at h
  subst h
  refine ⟨rfl, rfl, rfl, fun l i => ?_⟩
  simp only [EMObject.realDist, clampArr]
  rw [min_eq_left (min_le_right _ _), min_eq_left (min_le_right _ _)]

end

end Dreimac
