import Verif.Lemmas.Invariance

/-! # The toroidal coordinates depend only on the landmarks and on one column of distances -/

namespace Dreimac

variable {c : ℝ} {o o' : ToroObj}

theorem pyGet_map {α β : Type} (f : α → β) (l : List α) (i : ℤ) : pyGet (l.map f) i = (pyGet l i).map f := by
  unfold pyGet
  simp only [List.length_map, List.getElem?_map]
  generalize (if i < 0 then i + (l.length : ℤ) else i) = j
  split
  · rcases l[j.toNat]? with _ | a <;> rfl
  · rfl

theorem getRep_scale {R : Type} (c : ℝ) (dgms : List (List (Fl ℝ × Fl ℝ))) (cocycles : List (List (List R)))
    (x : ClassArg) (dim : ℤ) :
    getRepresentativeCocycle (scaleDgms c dgms) cocycles x dim =
      (getRepresentativeCocycle dgms cocycles x dim).map fun s => (s.1.scale c, s.2.1.scale c, s.2.2) := by
  unfold getRepresentativeCocycle scaleDgms
  cases x with
  | nonInt => rfl
  | int z =>
    simp only [bind, Except.bind, pyGet_map]
    rcases pyGet dgms dim with e | dgm
    · rfl
    · rcases pyGet cocycles dim with e | ck
      · rfl
      · simp only [Except.map, pyGet_map]
        rcases pyGet dgm z with e | q
        · rfl
        · rcases pyGet ck z with e | s
          · rfl
          · rfl

theorem mapM_map_except {α β γ : Type} (f : α → Except PyErr β) (g : β → γ) (l : List α) :
    (l.mapM fun a => (f a).map g) = (l.mapM f).map (List.map g) := by
  induction l with
  | nil => rfl
  | cons a l ih =>
    rw [List.mapM_cons, List.mapM_cons, ih]
    simp only [bind, Except.bind, pure, Except.pure]
    rcases f a with e | b
    · rfl
    · rcases l.mapM f with e | bs
      · rfl
      · rfl

theorem support_scale (hc : 0 < c) (h : SameLandmarks c o o') (idxs : List ClassArg) :
    (selectClasses o' idxs >>= commonSupport) =
      (selectClasses o idxs >>= commonSupport).map fun q => (q.1.scale c, q.2.scale c) := by
  unfold selectClasses
  have e : (fun a => getRepresentativeCocycle o'.dgms o'.cocycles a 1) =
      fun a => (getRepresentativeCocycle o.dgms o.cocycles a 1).map fun s => (s.1.scale c, s.2.1.scale c, s.2.2) := by
    funext a
    rw [h.dgms, h.cocycles, getRep_scale]
  simp only [e, mapM_map_except, bind, Except.bind]
  rcases (idxs.mapM fun a => getRepresentativeCocycle o.dgms o.cocycles a 1) with e | sel
  · rfl
  · rcases sel with _ | ⟨x, xs⟩
    · rfl
    · simp only [Except.map, List.map_cons, pure, Except.pure, commonSupport, List.map_map, Function.comp_def]
      have e1 : (xs.map fun s => s.1.scale c) = (xs.map fun s => s.1).map (Fl.scale c) := by simp
      have e2 : (xs.map fun s => s.2.1.scale c) = (xs.map fun s => s.2.1).map (Fl.scale c) := by simp
      rw [e1, e2, pyMax_scale hc, pyMin_scale hc, Fl.ge_scale hc]
      split <;> rfl

theorem sameEdges (hc : 0 < c) (h : SameLandmarks c o o') (t : Fl ℝ) :
    SameEdges o.nLand (fun l m => (o.distLandLand l m : EReal)) (ripsThr t)
      (fun l m => (o'.distLandLand l m : EReal)) (ripsThr (t.scale c)) := by
  intro i j hij hj
  simp only
  rw [h.landmarks i (by omega) j hj, ripsThr_scale hc]

/-- The data computed by two calls. -/
structure DataRel (c : ℝ) (o o' : ToroObj) (d d' : CoordData) : Prop where
  delta0 : d'.delta0 = d.delta0
  inner : d'.inner = d.inner
  cocycles : d'.cocycles = d.cocycles
  edges : SameEdges o.nLand (fun l m => (o.distLandLand l m : EReal)) d.thr
      (fun l m => (o'.distLandLand l m : EReal)) d'.thr
  cov : ∀ p p', SamePoint c o o' p p' → SameCover d.cov d'.cov o.nLand p p'

theorem coordData_scale (hc : 0 < c) (h : SameLandmarks c o o') (env : Oracles) (a : Args) (hb : UnitFree c a.bump)
    (radius : Fl ℝ × Fl ℝ) (cs : List SparseCochain) :
    (∃ e, coordData env o a radius cs = .error e ∧
      coordData env o' a (radius.1.scale c, radius.2.scale c) cs = .error e) ∨
    ∃ d d', coordData env o a radius cs = .ok d ∧
      coordData env o' a (radius.1.scale c, radius.2.scale c) cs = .ok d' ∧ DataRel c o o' d d' := by
  have hE := sameEdges hc h radius.2
  unfold coordData integerCocycles
  rw [h.nLand, h.table, h.prime, h.float.1, h.float.2]
  simp only [bind, Except.bind, makeDelta0_congr hE, makeInnerProduct_congr hE, checkAndRepair_congr hE]
  rcases getCoveringPartition_scale hc hb o.nLand o.nData o'.nData o.dist o'.dist radius.1 with ⟨e1, e2⟩ | ⟨cov, cov', e1, e2, hcov⟩
  · rw [e1, e2]; exact Or.inl ⟨_, rfl, rfl⟩
  · rw [e1, e2]
    simp only
    rcases makeDelta0 o.nLand (fun l m => (o.distLandLand l m : EReal)) (ripsThr radius.2) o.table with e | d0
    · exact Or.inl ⟨_, rfl, rfl⟩
    · simp only
      rcases (cs.mapM fun c => sparseCocycleToVector 1 c o.table o.nLand) with e | dense
      · exact Or.inl ⟨_, rfl, rfl⟩
      · simp only
        generalize checkAndRepair (K := EReal) (F := ℝ) _ _ _ _ _ _ _ _ = r
        rcases r with e | xs
        · exact Or.inl ⟨_, rfl, rfl⟩
        · simp only
          rcases makeInnerProduct o.nLand (fun l m => (o.distLandLand l m : EReal)) (ripsThr radius.2) o.table with e | w
          · exact Or.inl ⟨_, rfl, rfl⟩
          · exact Or.inr ⟨_, _, rfl, rfl, rfl, rfl, rfl, hE, hcov⟩

theorem circularCoordinate_scale (h : SameLandmarks c o o') (env : Oracles) {d d' : CoordData} (hd : DataRel c o o' d d')
    (x : ℕ → ℤ) (p p' : ℕ) (hp : SamePoint c o o' p p') :
    circularCoordinate env o' d' x p' = circularCoordinate env o d x p := by
  unfold circularCoordinate sparseIntegrate
  rw [hd.delta0, hd.inner, h.nLand, h.table]
  simp only [thetaMatrix_congr hd.edges, (hd.cov p p' hp).1]
  congr 3
  congr 1
  apply List.map_congr_left
  intro t ht
  rw [(hd.cov p p' hp).2 t (List.mem_range.1 ht)]

theorem reduceCoordinates_scale (chol : Cholesky) (fuel N N' : ℕ) {m : ℕ} (coords coords' : Fin m → ℕ → Fl ℝ)
    (gram : Matrix (Fin m) (Fin m) ℝ) (P : ℕ → ℕ → Prop) (hP : ∀ j p p', P p p' → coords' j p' = coords j p) :
    (∃ e, reduceCoordinates chol fuel N coords gram = .error e ∧ reduceCoordinates chol fuel N' coords' gram = .error e) ∨
    ∃ g g' info, reduceCoordinates chol fuel N coords gram = .ok (g, info) ∧
      reduceCoordinates chol fuel N' coords' gram = .ok (g', info) ∧ ∀ j p p', P p p' → g' j p' = g j p := by
  unfold reduceCoordinates
  rcases chol m gram with _ | Lm
  · exact Or.inl ⟨_, rfl, rfl⟩
  · simp only
    rcases lll fuel Lm.transpose with _ | ⟨D, change⟩
    · exact Or.inl ⟨_, rfl, rfl⟩
    · simp only [linearCombination, if_true]
      refine Or.inr ⟨_, _, _, rfl, rfl, fun j p p' hp => ?_⟩
      unfold combineAt
      congr 2
      apply List.map_congr_left
      intro k _
      congr 1
      unfold stackMaps
      split
      · exact hP _ p p' hp
      · rfl

theorem finishCoords_scale (h : SameLandmarks c o o') (env : Oracles) (fuel : ℕ) {d d' : CoordData}
    (hd : DataRel c o o' d d') :
    (∃ e, finishCoords env fuel o d = .error e ∧ finishCoords env fuel o' d' = .error e) ∨
    ∃ l l' info info', finishCoords env fuel o d = .ok (l, info) ∧ finishCoords env fuel o' d' = .ok (l', info') ∧
      (o'.gramInfo = o.gramInfo → info' = info) ∧ l'.length = l.length ∧ ∀ k p p', SamePoint c o o' p p' → (l'.getD k fun _ => 0) p' = (l.getD k fun _ => 0) p := by
  have key : ∀ (j : ℕ) (hj : j < d.cocycles.length) (hj' : j < d'.cocycles.length) (p p' : ℕ), SamePoint c o o' p p' →
      d'.coords env o' ⟨j, hj'⟩ p' = d.coords env o ⟨j, hj⟩ p := by
    intro j hj hj' p p' hp
    unfold CoordData.coords
    simp only [Fin.getElem_fin]
    rw [circularCoordinate_scale h env hd _ p p' hp]
    congr 1
    simp only [hd.cocycles]
  obtain ⟨cov, thr, delta0, inner, cocycles⟩ := d
  obtain ⟨cov', thr', delta0', inner', cocycles'⟩ := d'
  obtain ⟨h1, h2, h3, h4, h5⟩ := hd
  simp only at h1 h2 h3
  subst h1 h2 h3
  have hgram : CoordData.gram env ⟨cov', thr', delta0', inner', cocycles'⟩ =
      CoordData.gram env ⟨cov, thr, delta0', inner', cocycles'⟩ := rfl
  unfold finishCoords
  simp only [hgram]
  split
  · rcases reduceCoordinates_scale env.cholesky fuel o.nData o'.nData
      (CoordData.coords env o ⟨cov, thr, delta0', inner', cocycles'⟩)
      (CoordData.coords env o' ⟨cov', thr', delta0', inner', cocycles'⟩)
      (CoordData.gram env ⟨cov, thr, delta0', inner', cocycles'⟩) (SamePoint c o o')
      (fun j p p' hp => key j.1 j.2 j.2 p p' hp) with ⟨e, e1, e2⟩ | ⟨g, g', info, e1, e2, hgg⟩
    · left
      refine ⟨e, ?_, ?_⟩
      · rw [e1]; rfl
      · rw [e2]; rfl
    · right
      refine ⟨List.ofFn g, List.ofFn g', some info, some info, ?_, ?_, fun _ => rfl, by simp, ?_⟩
      · rw [e1]; rfl
      · rw [e2]; rfl
      · intro k p p' hp
        by_cases hk : k < cocycles'.length
        · simp only [List.getD_eq_getElem?_getD, List.getElem?_ofFn, hk, dif_pos, Option.getD_some]
          exact hgg _ p p' hp
        · simp [List.getD_eq_getElem?_getD, List.getElem?_ofFn, hk]
  · right
    refine ⟨_, _, _, _, rfl, rfl, fun h => h, by simp, ?_⟩
    intro k p p' hp
    by_cases hk : k < cocycles'.length
    · simp only [List.getD_eq_getElem?_getD, List.getElem?_ofFn, hk, dif_pos, Option.getD_some]
      exact key k hk hk p p' hp
    · simp [List.getD_eq_getElem?_getD, List.getElem?_ofFn, hk]

/-- The call on an object with the same landmarks. -/
theorem getCoordinates_scale (hc : 0 < c) (h : SameLandmarks c o o') (env : Oracles)
    (fuel : ℕ) (a : Args) (hb : UnitFree c a.bump) :
    (∃ e, (getCoordinates env fuel o a).2 = .error e ∧ (getCoordinates env fuel o' a).2 = .error e) ∨
    ∃ l l', (getCoordinates env fuel o a).2 = .ok l ∧ (getCoordinates env fuel o' a).2 = .ok l' ∧
      (o'.gramInfo = o.gramInfo →
        (getCoordinates env fuel o' a).1.gramInfo = (getCoordinates env fuel o a).1.gramInfo) ∧
      (∃ q, (getCoordinates env fuel o a).1.radius = some q ∧
        (getCoordinates env fuel o' a).1.radius = some (q.1.scale c, q.2.scale c)) ∧
      l'.length = l.length ∧
      ∀ k p p', SamePoint c o o' p p' → (l'.getD k fun _ => 0) p' = (l.getD k fun _ => 0) p := by
  rw [getCoordinates_eq, getCoordinates_eq, support_scale hc h]
  rcases selectClasses o a.cocycleIdxs >>= commonSupport with e | ⟨death, birth⟩
  · exact Or.inl ⟨_, rfl, rfl⟩
  · simp only [Except.map, getCoverRadius_scale hc]
    rcases getCoverRadius a.perc death birth a.standardRange with e | radius
    · exact Or.inl ⟨_, rfl, rfl⟩
    · simp only [h.prime, h.cocycles]
      generalize hcs : (a.cocycleIdxs.map fun x =>
        ((o.cocycles.modify 1 (liftSelected o.prime a.cocycleIdxs)).getD 1 []).getD
          (x.pos ((o.cocycles.modify 1 (liftSelected o.prime a.cocycleIdxs)).getD 1 []).length) []) = cs
      generalize ho2 : ({ o with cocycles := o.cocycles.modify 1 (liftSelected o.prime a.cocycleIdxs), radius := some radius } : ToroObj) = o2
      generalize ho2' : ({ o' with prime := o.prime, cocycles := o.cocycles.modify 1 (liftSelected o.prime a.cocycleIdxs), radius := some (radius.1.scale c, radius.2.scale c) } : ToroObj) = o2'
      have hrel : SameLandmarks c o2 o2' := by
        subst ho2 ho2'
        exact ⟨rfl, rfl, h.nLand, h.table, h.float, h.dgms, h.landmarks⟩
      have hg2 : o'.gramInfo = o.gramInfo → o2'.gramInfo = o2.gramInfo := by subst ho2 ho2'; exact fun h => h
      have hpt : ∀ p p', SamePoint c o o' p p' → SamePoint c o2 o2' p p' := by
        subst ho2 ho2'; exact fun _ _ h => h
      rcases coordData_scale hc hrel env a hb radius cs with ⟨e, e1, e2⟩ | ⟨d, d', e1, e2, hd⟩
      · simp only [e1, e2]; exact Or.inl ⟨_, rfl, rfl⟩
      · simp only [e1, e2]
        rcases finishCoords_scale hrel env fuel hd with ⟨e, e1, e2⟩ | ⟨l, l', info, info', e1, e2, hinfo, hlen, hpts⟩
        · simp only [e1, e2]; exact Or.inl ⟨_, rfl, rfl⟩
        · simp only [e1, e2]
          exact Or.inr ⟨l, l', rfl, rfl, fun h => hinfo (hg2 h), ⟨radius, rfl, rfl⟩, hlen, fun k p p' hp => hpts k p p' (hpt p p' hp)⟩

end Dreimac
