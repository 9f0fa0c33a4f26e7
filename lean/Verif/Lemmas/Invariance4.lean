import Verif.Lemmas.Invariance3

/-! # The constructors in other units -/

namespace Dreimac

variable {c : ℝ} {argsort : List (Fl ℝ) → List ℕ}

/-- A diagram in other units. -/
noncomputable def scaleDgm (c : ℝ) (d : List (Fl ℝ × Fl ℝ)) : List (Fl ℝ × Fl ℝ) :=
  d.map fun q => (q.1.scale c, q.2.scale c)

theorem scaleDgms_eq (c : ℝ) (dgms : List (List (Fl ℝ × Fl ℝ))) : scaleDgms c dgms = dgms.map (scaleDgm c) := rfl

theorem sortDim_scale (hc : 0 < c) (hA : UnitFreeSort c argsort) (dgm : List (Fl ℝ × Fl ℝ)) (coc : List (List ZRow)) :
    sortDim argsort (scaleDgm c dgm) coc = (sortDim argsort dgm coc).map fun q => (scaleDgm c q.1, q.2) := by
  unfold sortDim
  have hk : ((scaleDgm c dgm).map fun p => p.1 - p.2) = (dgm.map fun p => p.1 - p.2).map (Fl.scale c) := by
    unfold scaleDgm
    rw [List.map_map, List.map_map]
    exact List.map_congr_left fun q _ => Fl.sub_scale hc _ _
  rw [hk, hA]
  have e : (fun (i : ℕ) => pyGet (scaleDgm c dgm) (i : ℤ)) =
      fun (i : ℕ) => (pyGet dgm (i : ℤ)).map fun q => (q.1.scale c, q.2.scale c) := by
    funext i; exact pyGet_map _ _ _
  simp only [e, mapM_map_except, bind, Except.bind]
  generalize argsort (dgm.map fun p => p.1 - p.2) = idxs
  generalize idxs.mapM (fun (i : ℕ) => pyGet dgm (i : ℤ)) = r
  generalize idxs.mapM (fun (i : ℕ) => pyGet coc (i : ℤ)) = r'
  rcases r with e | d
  · rfl
  · simp only [Except.map]
    rcases r' with e | x
    · rfl
    · rfl

theorem map_set' {α β : Type} (f : α → β) (l : List α) (i : ℕ) (a : α) : (l.set i a).map f = (l.map f).set i (f a) :=
  List.map_set

theorem sortLoop_scale (hc : 0 < c) (hA : UnitFreeSort c argsort) (maxdim : ℕ) (dgms : List (List (Fl ℝ × Fl ℝ)))
    (coc : List (List (List ZRow))) :
    sortLoop argsort maxdim (scaleDgms c dgms) coc =
      (sortLoop argsort maxdim dgms coc).map fun q => (scaleDgms c q.1, q.2) := by
  unfold sortLoop
  generalize pyRange 1 (maxdim + 1) = l
  induction l generalizing dgms coc with
  | nil => rfl
  | cons i l ih =>
    rw [List.foldlM_cons, List.foldlM_cons]
    simp only [bind, Except.bind, scaleDgms_eq, pyGet_map] at ih ⊢
    rcases pyGet dgms (i : ℤ) with e | d
    · rfl
    · simp only [Except.map]
      rcases pyGet coc (i : ℤ) with e | x
      · rfl
      · simp only [sortDim_scale hc hA]
        rcases sortDim argsort d x with e | ⟨d', x'⟩
        · rfl
        · simp only [Except.map, pure, Except.pure, ← map_set'] at ih ⊢
          exact ih _ _

/-- The constructor of `EMCoords`. -/
theorem emInit_scale (hc : 0 < c) (hA : UnitFreeSort c argsort) (res : RipserResult ℝ) (useDperm : Bool)
    (X : ℕ → ℕ → ℝ) (nX : ℕ) (prime : ℤ) (maxdim : ℕ) :
    emInit argsort (res.scale c) useDperm (fun u i => Fl.fin (c * X u i)) nX prime maxdim =
      (emInit argsort res useDperm (fun u i => Fl.fin (X u i)) nX prime maxdim).map fun obj =>
        { obj with dgms := scaleDgms c obj.dgms, distLandData := fun l i => (obj.distLandData l i).scale c } := by
  unfold emInit
  by_cases hm : maxdim < 1
  · rw [if_pos hm, if_pos hm]; rfl
  · rw [if_neg hm, if_neg hm]
    simp only [RipserResult.scale, bind, Except.bind, sortLoop_scale hc hA]
    rcases sortLoop argsort maxdim res.dgms res.cocycles with e | ⟨d, x⟩
    · rfl
    · simp only [Except.map]
      rcases reindexCocycles x res.idxPerm nX with e | y
      · rfl
      · simp only [pure, Except.pure]
        cases useDperm <;> rfl

theorem toReal_scale (v : Fl ℝ) : (v.scale c).toReal = c * v.toReal := by
  cases v <;> simp [Fl.toReal]

theorem toroInit_scale (hc : 0 < c) (hA : UnitFreeSort c argsort) (res : RipserResult ℝ) (x : DataInput)
    (nLandmarks : ℕ) (prime : ℤ) (maxdim : ℕ) :
    toroInit argsort (res.scale c) (x.scale c) nLandmarks prime maxdim =
      (toroInit argsort res x nLandmarks prime maxdim).map fun o =>
        { o with dgms := scaleDgms c o.dgms, dist := fun l i => c * o.dist l i } := by
  unfold toroInit
  have e : (x.scale c).useDperm = x.useDperm := rfl
  simp only [bind, Except.bind]
  rw [e]
  simp only [DataInput.scale, emInit_scale hc hA]
  rcases emInit argsort res x.useDperm (fun u i => Fl.fin (x.entries u i)) x.rows prime maxdim with e | obj
  · rfl
  · simp only [Except.map, pure, Except.pure, Except.ok.injEq]
    congr 1
    funext l i
    simp only [EMObject.realDist, clampArr]
    exact toReal_scale _

theorem projInitWith_scale (hc : 0 < c) (hA : UnitFreeSort c argsort) (T : Table) (res : RipserResult ℝ) (x : DataInput)
    (prime : ℤ) (maxdim : ℕ) :
    projInitWith T argsort (res.scale c) (x.scale c) prime maxdim =
      (projInitWith T argsort res x prime maxdim).map fun o =>
        { o with dgms := scaleDgms c o.dgms, dist := fun l i => c * o.dist l i } := by
  unfold projInitWith
  have e : (x.scale c).useDperm = x.useDperm := rfl
  simp only [bind, Except.bind]
  rw [e]
  simp only [DataInput.scale, emInit_scale hc hA]
  rcases emInit argsort res x.useDperm (fun u i => Fl.fin (x.entries u i)) x.rows prime maxdim with e | obj
  · rfl
  · simp only [Except.map, pure, Except.pure, Except.ok.injEq]
    congr 1
    funext l i
    simp only [EMObject.realDist, clampArr]
    exact toReal_scale _

end Dreimac
