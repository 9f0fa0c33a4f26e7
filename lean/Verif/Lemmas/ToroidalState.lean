import Mathlib.Data.List.Forall2
import Verif.Model.Toroidal

/-! # The stored cocycles through a history of calls -/

namespace Dreimac

/-- A stored array is the original one or its lift. -/
def LiftRel (p : ℤ) (c0 c : SparseCochain) : Prop :=
  (∀ r ∈ c0, 0 ≤ r.val ∧ r.val < p) ∧ (c = c0 ∨ c = liftToIntegerCocycle c0 p)

theorem liftVal_idem {p v : ℤ} (h1 : v < p) : liftVal p (liftVal p v) = liftVal p v := by
  unfold liftVal
  split_ifs <;> omega

theorem lift_idem {p : ℤ} {c : SparseCochain} (h : ∀ r ∈ c, 0 ≤ r.val ∧ r.val < p) :
    liftToIntegerCocycle (liftToIntegerCocycle c p) p = liftToIntegerCocycle c p := by
  unfold liftToIntegerCocycle
  rw [List.map_map]
  apply List.map_congr_left
  intro r hr
  simp only [Function.comp]
  rw [liftVal_idem (h r hr).2]

theorem LiftRel.lift {p : ℤ} {c0 c : SparseCochain} (h : LiftRel p c0 c) :
    liftToIntegerCocycle c p = liftToIntegerCocycle c0 p := by
  rcases h with ⟨h0, rfl | rfl⟩
  · rfl
  · exact lift_idem h0

theorem length_liftSelected (p : ℤ) (idxs : List ClassArg) (cs : List SparseCochain) :
    (liftSelected p idxs cs).length = cs.length := by
  unfold liftSelected
  induction idxs generalizing cs with
  | nil => rfl
  | cons a l ih => rw [List.foldl_cons, ih, List.length_modify]

theorem liftSelected_cons (p : ℤ) (a : ClassArg) (l : List ClassArg) (cs : List SparseCochain) :
    liftSelected p (a :: l) cs =
      liftSelected p l (cs.modify (a.pos cs.length) fun c => liftToIntegerCocycle c p) := rfl

theorem liftRel_modify {p : ℤ} {base cs : List SparseCochain} (h : List.Forall₂ (LiftRel p) base cs) (k : ℕ) :
    List.Forall₂ (LiftRel p) base (cs.modify k fun c => liftToIntegerCocycle c p) := by
  induction h generalizing k with
  | nil => cases k <;> exact .nil
  | cons hab _ ih =>
    cases k with
    | zero =>
      rw [List.modify_zero_cons]
      exact .cons ⟨hab.1, Or.inr hab.lift⟩ ‹_›
    | succ k => rw [List.modify_succ_cons]; exact .cons hab (ih k)

theorem liftRel_liftSelected {p : ℤ} (idxs : List ClassArg) {base cs : List SparseCochain}
    (h : List.Forall₂ (LiftRel p) base cs) : List.Forall₂ (LiftRel p) base (liftSelected p idxs cs) := by
  induction idxs generalizing cs with
  | nil => exact h
  | cons a l ih => rw [liftSelected_cons]; exact ih (liftRel_modify h _)

theorem forall₂_get {α β : Type} {R : α → β → Prop} {l : List α} {l' : List β} (h : List.Forall₂ R l l') (k : ℕ) :
    (l[k]? = none ∧ l'[k]? = none) ∨ ∃ a b, l[k]? = some a ∧ l'[k]? = some b ∧ R a b := by
  induction h generalizing k with
  | nil => left; simp
  | cons hab _ ih =>
    cases k with
    | zero => right; exact ⟨_, _, rfl, rfl, hab⟩
    | succ k => simpa using ih k

/-- The array at a selected position is the lift of the original one. -/
theorem liftSelected_get {p : ℤ} (idxs : List ClassArg) {base cs : List SparseCochain}
    (h : List.Forall₂ (LiftRel p) base cs) (x : ClassArg) (hx : x ∈ idxs) :
    (liftSelected p idxs cs)[x.pos cs.length]? = (base[x.pos cs.length]?).map (liftToIntegerCocycle · p) := by
  -- once lifted, an array stays lifted
  have stay : ∀ (l : List ClassArg) (cs : List SparseCochain) (k : ℕ), List.Forall₂ (LiftRel p) base cs →
      cs[k]? = (base[k]?).map (liftToIntegerCocycle · p) →
      (liftSelected p l cs)[k]? = (base[k]?).map (liftToIntegerCocycle · p) := by
    intro l
    induction l with
    | nil => intro cs k _ h2; exact h2
    | cons a l ih =>
      intro cs k h1 h2
      rw [liftSelected_cons]
      refine ih _ k (liftRel_modify h1 _) ?_
      rw [List.getElem?_modify]
      split
      · rw [h2, Option.map_eq_map, Option.map_map]
        rcases forall₂_get h1 k with ⟨e, _⟩ | ⟨c0, c, e, _, hr⟩
        · rw [e]; rfl
        · rw [e]; simp only [Option.map_some, Function.comp]; rw [lift_idem hr.1]
      · rw [h2, Option.map_eq_map, Option.map_id']
  induction idxs generalizing cs with
  | nil => simp at hx
  | cons a l ih =>
    rw [liftSelected_cons]
    rcases List.mem_cons.1 hx with rfl | hx
    · refine stay l _ _ (liftRel_modify h _) ?_
      rw [List.getElem?_modify]
      simp only [if_true]
      rcases forall₂_get h (x.pos cs.length) with ⟨e1, e2⟩ | ⟨c0, c, e1, e2, hr⟩
      · rw [e1, e2]; rfl
      · rw [e1, e2]; simp only [Option.map_eq_map, Option.map_some]; rw [hr.lift]
    · have := ih (liftRel_modify h (a.pos cs.length)) hx
      rwa [List.length_modify] at this

/-! ### objects related by a history -/

/-- `o'` is `o` after some calls: only the stored arrays (lifted or not) and the reported attributes differ. -/
structure ObjRel (o o' : ToroObj) : Prop where
  prime : o'.prime = o.prime
  dgms : o'.dgms = o.dgms
  nLand : o'.nLand = o.nLand
  nData : o'.nData = o.nData
  dist : o'.dist = o.dist
  dtype : o'.dtype = o.dtype
  idxLand : o'.idxLand = o.idxLand
  table : o'.table = o.table
  cocycles : List.Forall₂ (List.Forall₂ (LiftRel o.prime)) o.cocycles o'.cocycles

theorem pyGet_forall₂ {α β : Type} {R : α → β → Prop} {l : List α} {l' : List β} (h : List.Forall₂ R l l') (i : ℤ) :
    (∃ e, pyGet l i = .error e ∧ pyGet l' i = .error e) ∨
      ∃ a b, pyGet l i = .ok a ∧ pyGet l' i = .ok b ∧ R a b := by
  unfold pyGet
  rw [h.length_eq]
  simp only
  generalize (if i < 0 then i + (l'.length : ℤ) else i) = j
  split
  · rcases forall₂_get h j.toNat with ⟨e1, e2⟩ | ⟨a, b, e1, e2, hr⟩
    · rw [e1, e2]; exact Or.inl ⟨_, rfl, rfl⟩
    · rw [e1, e2]; exact Or.inr ⟨a, b, rfl, rfl, hr⟩
  · exact Or.inl ⟨_, rfl, rfl⟩

theorem getRep_rel {o o' : ToroObj} (h : ObjRel o o') (x : ClassArg) :
    (getRepresentativeCocycle o'.dgms o'.cocycles x 1).map (fun s => (s.1, s.2.1)) =
      (getRepresentativeCocycle o.dgms o.cocycles x 1).map (fun s => (s.1, s.2.1)) := by
  unfold getRepresentativeCocycle
  cases x with
  | nonInt => rfl
  | int z =>
    rw [h.dgms]
    simp only
    rcases pyGet o.dgms 1 with e | dgm
    · rfl
    · simp only [bind, Except.bind]
      rcases pyGet_forall₂ h.cocycles 1 with ⟨e, e1, e2⟩ | ⟨ck, ck', e1, e2, hr⟩
      · rw [e1, e2]
      · rw [e1, e2]
        simp only
        rcases pyGet dgm z with e | pt
        · rfl
        · simp only
          rcases pyGet_forall₂ hr z with ⟨e, e1, e2⟩ | ⟨c, c', e1, e2, _⟩
          · rw [e1, e2]
          · rw [e1, e2]; rfl

/-- The selected births and deaths. -/
def spans (sel : List (Fl ℝ × Fl ℝ × SparseCochain)) : List (Fl ℝ × Fl ℝ) := sel.map fun s => (s.1, s.2.1)

theorem mapM_rel {o o' : ToroObj} (h : ObjRel o o') (idxs : List ClassArg) :
    (idxs.mapM fun a => getRepresentativeCocycle o'.dgms o'.cocycles a 1).map spans =
      (idxs.mapM fun a => getRepresentativeCocycle o.dgms o.cocycles a 1).map spans := by
  induction idxs with
  | nil => rfl
  | cons a l ih =>
    rw [List.mapM_cons, List.mapM_cons]
    have ha := getRep_rel h a
    simp only [bind, Except.bind]
    generalize getRepresentativeCocycle o'.dgms o'.cocycles a 1 = x at ha ⊢
    generalize getRepresentativeCocycle o.dgms o.cocycles a 1 = y at ha ⊢
    rcases x with e | s
    · rcases y with e' | s'
      · simpa [Except.map] using ha
      · simp [Except.map] at ha
    · rcases y with e' | s'
      · simp [Except.map] at ha
      · simp only [Except.map, Except.ok.injEq] at ha
        simp only
        rcases h1 : (l.mapM fun a => getRepresentativeCocycle o'.dgms o'.cocycles a 1) with e | t
        · rw [h1] at ih
          rcases h2 : (l.mapM fun a => getRepresentativeCocycle o.dgms o.cocycles a 1) with e' | t'
          · rw [h2] at ih; simpa [Except.map] using ih
          · rw [h2] at ih; simp [Except.map] at ih
        · rw [h1] at ih
          rcases h2 : (l.mapM fun a => getRepresentativeCocycle o.dgms o.cocycles a 1) with e' | t'
          · rw [h2] at ih; simp [Except.map] at ih
          · rw [h2] at ih
            simp only [Except.map, Except.ok.injEq, pure, Except.pure, spans, List.map_cons] at ih ⊢
            rw [ih, ha]

/-- The spans of a selection (non-empty). -/
def selSpans (sel : (Fl ℝ × Fl ℝ × SparseCochain) × List (Fl ℝ × Fl ℝ × SparseCochain)) :
    (Fl ℝ × Fl ℝ) × List (Fl ℝ × Fl ℝ) := ((sel.1.1, sel.1.2.1), spans sel.2)

theorem selectClasses_rel {o o' : ToroObj} (h : ObjRel o o') (idxs : List ClassArg) :
    (selectClasses o' idxs).map selSpans = (selectClasses o idxs).map selSpans := by
  have := mapM_rel h idxs
  unfold selectClasses
  simp only [bind, Except.bind]
  generalize (idxs.mapM fun a => getRepresentativeCocycle o'.dgms o'.cocycles a 1) = x at this ⊢
  generalize (idxs.mapM fun a => getRepresentativeCocycle o.dgms o.cocycles a 1) = y at this ⊢
  rcases x with e | s
  · rcases y with e' | s'
    · simpa [Except.map] using this
    · simp [Except.map] at this
  · rcases y with e' | s'
    · simp [Except.map] at this
    · simp only [Except.map, Except.ok.injEq] at this
      rcases s with _ | ⟨x, xs⟩ <;> rcases s' with _ | ⟨x', xs'⟩
      · rfl
      · simp [spans] at this
      · simp [spans] at this
      · simp only [spans, List.map_cons, List.cons.injEq] at this
        simp only [Except.map, pure, Except.pure, selSpans, spans, this.2, this.1]

theorem commonSupport_spans (sel sel' : (Fl ℝ × Fl ℝ × SparseCochain) × List (Fl ℝ × Fl ℝ × SparseCochain))
    (h : selSpans sel = selSpans sel') : commonSupport sel = commonSupport sel' := by
  unfold commonSupport
  simp only [selSpans, Prod.mk.injEq, spans] at h
  obtain ⟨⟨h1, h2⟩, h3⟩ := h
  have e1 : sel.2.map (fun s => s.1) = sel'.2.map (fun s => s.1) := by
    have := congrArg (List.map Prod.fst) h3
    simpa only [List.map_map, Function.comp_def] using this
  have e2 : sel.2.map (fun s => s.2.1) = sel'.2.map (fun s => s.2.1) := by
    have := congrArg (List.map Prod.snd) h3
    simpa only [List.map_map, Function.comp_def] using this
  rw [h1, h2, e1, e2]

/-- The common support of the selected classes, from the stored diagrams. -/
theorem support_rel {o o' : ToroObj} (h : ObjRel o o') (idxs : List ClassArg) :
    (selectClasses o' idxs >>= commonSupport) = (selectClasses o idxs >>= commonSupport) := by
  have := selectClasses_rel h idxs
  generalize selectClasses o' idxs = x at this ⊢
  generalize selectClasses o idxs = y at this ⊢
  rcases x with e | s
  · rcases y with e' | s'
    · simp only [Except.map, Except.error.injEq] at this; rw [this]
    · simp [Except.map] at this
  · rcases y with e' | s'
    · simp [Except.map] at this
    · simp only [Except.map, Except.ok.injEq] at this
      exact commonSupport_spans _ _ this

/-- The call, with the two first steps merged. -/
theorem getCoordinates_eq (env : Oracles) (fuel : ℕ) (o : ToroObj) (a : Args) :
    getCoordinates env fuel o a =
      match selectClasses o a.cocycleIdxs >>= commonSupport with
      | .error e => (o, .error e)
      | .ok (death, birth) =>
        let o1 : ToroObj := { o with cocycles := o.cocycles.modify 1 (liftSelected o.prime a.cocycleIdxs) }
        match getCoverRadius a.perc death birth a.standardRange with
        | .error e => (o1, .error e)
        | .ok radius =>
          let o2 : ToroObj := { o1 with radius := some radius }
          let stored := o2.cocycles.getD 1 []
          let cs := a.cocycleIdxs.map fun x => stored.getD (x.pos stored.length) []
          match coordData env o2 a radius cs with
          | .error e => (o2, .error e)
          | .ok d =>
            match finishCoords env fuel o2 d with
            | .error e => (o2, .error e)
            | .ok (coords, info) => ({ o2 with gramInfo := info }, .ok coords) := by
  unfold getCoordinates
  rcases selectClasses o a.cocycleIdxs with e | s
  · rfl
  · rfl

theorem forall₂_modify_one {p : ℤ} {base cs : List (List SparseCochain)}
    (h : List.Forall₂ (List.Forall₂ (LiftRel p)) base cs) (idxs : List ClassArg) :
    List.Forall₂ (List.Forall₂ (LiftRel p)) base (cs.modify 1 (liftSelected p idxs)) := by
  rcases h with _ | ⟨h0, h1⟩
  · exact .nil
  · rcases h1 with _ | ⟨h1, h2⟩
    · exact .cons h0 .nil
    · exact .cons h0 (.cons (liftRel_liftSelected idxs h1) h2)

theorem objRel_state {o o' : ToroObj} (h : ObjRel o o') (env : Oracles) (fuel : ℕ) (a : Args) :
    ObjRel o (getCoordinates env fuel o' a).1 := by
  have hm := forall₂_modify_one h.cocycles a.cocycleIdxs
  rw [← h.prime] at hm
  have hmod : ∀ (rad : Option (Fl ℝ × Fl ℝ)) (g : Option GramInfo), ObjRel o
      { o' with cocycles := o'.cocycles.modify 1 (liftSelected o'.prime a.cocycleIdxs), radius := rad, gramInfo := g } :=
    fun rad g => ⟨h.prime, h.dgms, h.nLand, h.nData, h.dist, h.dtype, h.idxLand, h.table,
      by rw [← h.prime]; exact hm⟩
  rw [getCoordinates_eq]
  rcases selectClasses o' a.cocycleIdxs >>= commonSupport with e | ⟨x, y⟩
  · exact h
  · simp only
    rcases getCoverRadius a.perc x y a.standardRange with e | radius
    · exact hmod _ _
    · simp only
      split
      · exact hmod _ _
      · split
        · exact hmod _ _
        · exact hmod _ _

/-- `coordData` reads only the fields that calls do not change. -/
theorem coordData_rel {o o' : ToroObj} (h : ObjRel o o') (env : Oracles) (a : Args) (radius : Fl ℝ × Fl ℝ)
    (cs : List SparseCochain) : coordData env o' a radius cs = coordData env o a radius cs := by
  unfold coordData integerCocycles ToroObj.distLandLand
  rw [h.prime, h.nLand, h.nData, h.dist, h.dtype, h.idxLand, h.table]

theorem finishCoords_rel {o o' : ToroObj} (h : ObjRel o o') (env : Oracles) (fuel : ℕ) (d : CoordData) :
    (finishCoords env fuel o' d).map Prod.fst = (finishCoords env fuel o d).map Prod.fst := by
  have e : d.coords env o' = d.coords env o := by
    unfold CoordData.coords circularCoordinate ToroObj.distLandLand
    rw [h.nLand, h.dist, h.idxLand, h.table]
  unfold finishCoords
  rw [e, h.nData]
  split
  · rfl
  · rfl

/-- The array read by a call after lifting is the lift of the original one. -/
theorem lifted_array {o o'' : ToroObj} {idxs : List ClassArg} (hp : o''.prime = o.prime)
    (hr : List.Forall₂ (List.Forall₂ (LiftRel o.prime)) o.cocycles o''.cocycles) (x : ClassArg) (hx : x ∈ idxs) :
    ((o''.cocycles.modify 1 (liftSelected o''.prime idxs)).getD 1 []).getD
      (x.pos ((o''.cocycles.modify 1 (liftSelected o''.prime idxs)).getD 1 []).length) [] =
    (((o.cocycles.getD 1 [])[x.pos (o.cocycles.getD 1 []).length]?).map
      (liftToIntegerCocycle · o.prime)).getD [] := by
  rw [hp]
  rcases forall₂_get hr 1 with ⟨e1, e2⟩ | ⟨ck, ck', e1, e2, hck⟩
  · simp only [List.getD_eq_getElem?_getD, List.getElem?_modify, e1, e2]
    rfl
  · have hg := liftSelected_get idxs hck x hx
    simp only [List.getD_eq_getElem?_getD, List.getElem?_modify, e1, e2, if_true, Option.map_eq_map, Option.map_some,
      Option.getD_some, length_liftSelected]
    rw [hg, hck.length_eq]

/-- The stored arrays read by a call after lifting. -/
theorem lifted_rel {o o' : ToroObj} (h : ObjRel o o') (idxs : List ClassArg)
    (hv : List.Forall₂ (List.Forall₂ (LiftRel o.prime)) o.cocycles o.cocycles) :
    (idxs.map fun x => ((o'.cocycles.modify 1 (liftSelected o'.prime idxs)).getD 1 []).getD
        (x.pos ((o'.cocycles.modify 1 (liftSelected o'.prime idxs)).getD 1 []).length) []) =
      idxs.map fun x => ((o.cocycles.modify 1 (liftSelected o.prime idxs)).getD 1 []).getD
        (x.pos ((o.cocycles.modify 1 (liftSelected o.prime idxs)).getD 1 []).length) [] := by
  apply List.map_congr_left
  intro x hx
  rw [lifted_array h.prime h.cocycles x hx, lifted_array rfl hv x hx]

end Dreimac
