import Mathlib.Tactic.Linarith
import Mathlib.Tactic.NormNum
import Verif.Lemmas.ToroidalState
import Verif.Lemmas.Errors
import Verif.Props.EMCoords

/-!
# C08, C09, C27, C46, C59: the object through calls, selection of classes
-/

namespace Dreimac

/-! ### C08: repeatability -/

/-- The values of all stored cocycles lie in the finite field `0, …, p-1` (what ripser returns). -/
def FieldValued (p : ℤ) (cocycles : List (List SparseCochain)) : Prop :=
  ∀ ck ∈ cocycles, ∀ c ∈ ck, ∀ r ∈ c, 0 ≤ r.val ∧ r.val < p

/-- Two arrays have the same simplices, in the same order, with values congruent modulo `p`. -/
def CongruentArrays (p : ℤ) (c c' : SparseCochain) : Prop :=
  List.Forall₂ (fun r r' => r'.verts = r.verts ∧ p ∣ r'.val - r.val) c c'

/-- The object after a history of calls (each with its own arguments). -/
noncomputable def afterCalls (env : Oracles) (o : ToroObj) (history : List (ℕ × Args)) : ToroObj :=
  history.foldl (fun o call => (getCoordinates env call.1 o call.2).1) o

theorem fieldValued_refl {o : ToroObj} (h : FieldValued o.prime o.cocycles) :
    List.Forall₂ (List.Forall₂ (LiftRel o.prime)) o.cocycles o.cocycles := by
  rw [List.forall₂_same]
  intro ck hck
  rw [List.forall₂_same]
  intro c hc
  exact ⟨h ck hck c hc, Or.inl rfl⟩

theorem objRel_refl {o : ToroObj} (h : FieldValued o.prime o.cocycles) : ObjRel o o :=
  ⟨rfl, rfl, rfl, rfl, rfl, rfl, rfl, rfl, fieldValued_refl h⟩

theorem objRel_afterCalls {o : ToroObj} (h : FieldValued o.prime o.cocycles) (env : Oracles)
    (history : List (ℕ × Args)) : ObjRel o (afterCalls env o history) := by
  have : ∀ (l : List (ℕ × Args)) (o' : ToroObj), ObjRel o o' →
      ObjRel o (l.foldl (fun o call => (getCoordinates env call.1 o call.2).1) o') := by
    intro l
    induction l with
    | nil => intro o' h; exact h
    | cons a l ih => intro o' h; exact ih _ (objRel_state h env a.1 a.2)
  exact this history o (objRel_refl h)

theorem result_rel {o o' : ToroObj} (h : ObjRel o o') (hv : FieldValued o.prime o.cocycles) (env : Oracles) (fuel : ℕ)
    (a : Args) : (getCoordinates env fuel o' a).2 = (getCoordinates env fuel o a).2 := by
  rw [getCoordinates_eq, getCoordinates_eq, support_rel h]
  rcases selectClasses o a.cocycleIdxs >>= commonSupport with e | ⟨x, y⟩
  · rfl
  · simp only
    rcases getCoverRadius a.perc x y a.standardRange with e | radius
    · rfl
    · simp only
      rw [lifted_rel h a.cocycleIdxs (fieldValued_refl hv)]
      have h2 : ObjRel
          { o with cocycles := o.cocycles, radius := some radius }
          { o' with cocycles := o'.cocycles.modify 1 (liftSelected o'.prime a.cocycleIdxs), radius := some radius } :=
        ⟨h.prime, h.dgms, h.nLand, h.nData, h.dist, h.dtype, h.idxLand, h.table, by
          rw [h.prime]; exact forall₂_modify_one h.cocycles a.cocycleIdxs⟩
      have h3 : ObjRel
          { o with cocycles := o.cocycles, radius := some radius }
          { o with cocycles := o.cocycles.modify 1 (liftSelected o.prime a.cocycleIdxs), radius := some radius } :=
        ⟨rfl, rfl, rfl, rfl, rfl, rfl, rfl, rfl, forall₂_modify_one (fieldValued_refl hv) a.cocycleIdxs⟩
      rw [coordData_rel h2, coordData_rel h3]
      generalize coordData env _ a radius _ = cd
      rcases cd with e | d
      · rfl
      · simp only
        have e2 := finishCoords_rel h2 env fuel d
        have e3 := finishCoords_rel h3 env fuel d
        rw [← e3] at e2
        generalize finishCoords env fuel _ d = x at e2 ⊢
        generalize finishCoords env fuel _ d = y at e2 ⊢
        rcases x with e | ⟨c, i⟩ <;> rcases y with e' | ⟨c', i'⟩
        · simp only [Except.map, Except.error.injEq] at e2; rw [e2]
        · simp [Except.map] at e2
        · simp [Except.map] at e2
        · simp only [Except.map, Except.ok.injEq] at e2; rw [e2]

/-- **C08.** After any history of calls, with any arguments, successful or not, a further call returns exactly what it
would have returned as the first call, and every stored cocycle is, up to multiples of the prime, the one the
constructor stored. -/
theorem C08_repeatable (env : Oracles) (o : ToroObj) (hv : FieldValued o.prime o.cocycles)
    (history : List (ℕ × Args)) (fuel : ℕ) (a : Args) :
    (getCoordinates env fuel (afterCalls env o history) a).2 = (getCoordinates env fuel o a).2 ∧
    List.Forall₂ (List.Forall₂ (CongruentArrays o.prime)) o.cocycles (afterCalls env o history).cocycles := by
  have h := objRel_afterCalls hv env history
  refine ⟨result_rel h hv env fuel a, ?_⟩
  refine h.cocycles.imp fun ck ck' hck => hck.imp fun c c' hc => ?_
  rcases hc with ⟨h0, rfl | rfl⟩
  · exact List.forall₂_same.2 fun r _ => ⟨rfl, by simp⟩
  · unfold CongruentArrays liftToIntegerCocycle
    rw [List.forall₂_map_right_iff, List.forall₂_same]
    intro r _
    refine ⟨rfl, ?_⟩
    unfold liftVal
    split
    · exact ⟨-1, by simp⟩
    · simp

/-! ### C09: values in the finite field -/

/-- What `get_representative_cocycle` returns for dimension-1 class `z`. -/
def repr1 (o : ToroObj) (z : ClassArg) : Except PyErr (Fl ℝ × Fl ℝ × SparseCochain) :=
  getRepresentativeCocycle o.dgms o.cocycles z 1

theorem pyGet_getElem? {α : Type} {l : List α} {i : ℤ} {a : α} (h : pyGet l i = .ok a) :
    l[pyPos l.length i]? = some a := by
  unfold pyGet at h
  unfold pyPos
  simp only at h ⊢
  generalize (if i < 0 then i + (l.length : ℤ) else i) = j at h ⊢
  split at h
  · split at h
    · injection h with h; subst h; assumption
    · cases h
  · cases h

theorem pyGet_of_getElem? {α : Type} {l l' : List α} {i : ℤ} {a a' : α} (h : pyGet l i = .ok a)
    (hlen : l'.length = l.length) (h' : l'[pyPos l.length i]? = some a') : pyGet l' i = .ok a' := by
  unfold pyGet at h ⊢
  unfold pyPos at h'
  rw [hlen]
  simp only at h h' ⊢
  generalize (if i < 0 then i + (l.length : ℤ) else i) = j at h h' ⊢
  split
  · rw [h']
  · next hn => rw [if_neg hn] at h; cases h

/-- Whenever a call gets past the selection of its classes, a selected class with a value above `(prime-1)/2` is
afterwards reported with a negative value. -/
theorem negative_after_call (env : Oracles) (fuel : ℕ) (o : ToroObj) (hv : FieldValued o.prime o.cocycles)
    (a : Args) (spans : Fl ℝ × Fl ℝ) (hsel : (selectClasses o a.cocycleIdxs >>= commonSupport) = .ok spans)
    (z : ClassArg) (hz : z ∈ a.cocycleIdxs) (b d : Fl ℝ) (c : SparseCochain) (hc : repr1 o z = .ok (b, d, c))
    (hbig : ∃ r ∈ c, 2 * r.val > o.prime - 1) :
    ∃ c', repr1 (getCoordinates env fuel o a).1 z = .ok (b, d, c') ∧ ∃ r ∈ c', r.val < 0 := by
  have hstate : ∃ rad g, (getCoordinates env fuel o a).1 =
      { o with cocycles := o.cocycles.modify 1 (liftSelected o.prime a.cocycleIdxs), radius := rad, gramInfo := g } := by
    rw [getCoordinates_eq, hsel]
    simp only
    split
    · exact ⟨_, _, rfl⟩
    · split
      · exact ⟨_, _, rfl⟩
      · split <;> exact ⟨_, _, rfl⟩
  obtain ⟨rad, g, hst⟩ := hstate
  rw [hst]
  unfold repr1 getRepresentativeCocycle at hc ⊢
  cases z with
  | nonInt => cases hc
  | int z =>
    simp only [bind, Except.bind] at hc ⊢
    rcases hd : pyGet o.dgms 1 with e | dgm
    · rw [hd] at hc; cases hc
    · rw [hd] at hc
      simp only at hc ⊢
      rcases hk : pyGet o.cocycles 1 with e | ck
      · rw [hk] at hc; cases hc
      · rw [hk] at hc
        simp only at hc
        rcases hp : pyGet dgm z with e | pt
        · rw [hp] at hc; cases hc
        · rw [hp] at hc
          simp only at hc
          rcases hcc : pyGet ck z with e | c0
          · rw [hcc] at hc; cases hc
          · rw [hcc] at hc
            simp only [pure, Except.pure, Except.ok.injEq, Prod.mk.injEq] at hc
            obtain ⟨rfl, rfl, rfl⟩ := hc
            have hk1 : o.cocycles[1]? = some ck := by simpa [pyPos] using pyGet_getElem? hk
            have hck : List.Forall₂ (LiftRel o.prime) ck ck := by
              rw [List.forall₂_same]
              intro x hx
              exact ⟨hv ck (List.mem_of_getElem? hk1) x hx, Or.inl rfl⟩
            have hget := liftSelected_get a.cocycleIdxs hck (.int z) hz
            have hc0 := pyGet_getElem? hcc
            simp only [ClassArg.pos, hc0, Option.map_some] at hget
            have e1 : pyGet (o.cocycles.modify 1 (liftSelected o.prime a.cocycleIdxs)) 1 =
                .ok (liftSelected o.prime a.cocycleIdxs ck) := by
              apply pyGet_of_getElem? hk (List.length_modify _ _ _)
              have : pyPos o.cocycles.length 1 = 1 := by simp [pyPos]
              rw [this, List.getElem?_modify]
              simp [hk1]
            rw [e1]
            simp only
            rw [pyGet_of_getElem? hcc (length_liftSelected _ _ _) hget]
            refine ⟨_, rfl, ?_⟩
            obtain ⟨r, hr, hrb⟩ := hbig
            refine ⟨{ r with val := liftVal o.prime r.val }, List.mem_map.2 ⟨r, hr, rfl⟩, ?_⟩
            have := (hv ck (List.mem_of_getElem? hk1) c0 (List.mem_of_getElem? hc0) r hr).2
            simp only [liftVal, if_pos hrb]; omega

/-- **C09, what holds:** after any history every stored value lies strictly between `-prime` and `prime`, and is
congruent modulo the prime to the value in the finite field (C08).
Missing: non-negativity, which is false by the theorem above. -/
theorem C09_values_bounded_partial (env : Oracles) (o : ToroObj) (hv : FieldValued o.prime o.cocycles)
    (history : List (ℕ × Args)) :
    ∀ ck ∈ (afterCalls env o history).cocycles, ∀ c ∈ ck, ∀ r ∈ c,
      - o.prime < 2 * r.val + 1 ∧ r.val < o.prime := by
  have h := (objRel_afterCalls hv env history).cocycles
  intro ck hck c hc r hr
  obtain ⟨k, hk⟩ := List.mem_iff_getElem?.1 hck
  rcases forall₂_get h k with ⟨_, e2⟩ | ⟨ck0, ck', e1, e2, hrel⟩
  · rw [e2] at hk; cases hk
  · rw [e2] at hk; injection hk with hk; subst hk
    obtain ⟨j, hj⟩ := List.mem_iff_getElem?.1 hc
    rcases forall₂_get hrel j with ⟨_, e3⟩ | ⟨c0, c', e3, e4, hl⟩
    · rw [e3] at hj; cases hj
    · rw [e4] at hj; injection hj with hj; subst hj
      rcases hl with ⟨h0, rfl | rfl⟩
      · have := h0 r hr
        exact ⟨by omega, this.2⟩
      · obtain ⟨r0, hr0, rfl⟩ := List.mem_map.1 hr
        have := h0 r0 hr0
        simp only [liftVal]
        split <;> omega

/-! ### C27: common support -/

/-- No birth or death of the selection is `nan`. -/
def NoNan (sel : List (Fl ℝ × Fl ℝ × SparseCochain)) : Prop := ∀ s ∈ sel, s.1 ≠ .nan ∧ s.2.1 ≠ .nan

theorem fl_lt_iff {a b : Fl ℝ} (ha : a ≠ .nan) (hb : b ≠ .nan) : Fl.lt a b = true ↔ ripsThr a < ripsThr b := by
  cases a <;> cases b <;>
    simp_all [Fl.lt, ripsThr, EReal.coe_lt_coe_iff, EReal.bot_lt_coe, EReal.coe_lt_top, bot_lt_top]

theorem fl_ge_iff {a b : Fl ℝ} (ha : a ≠ .nan) (hb : b ≠ .nan) : Fl.ge a b = true ↔ ripsThr b ≤ ripsThr a := by
  have h : Fl.ge a b = !(Fl.lt a b) := by
    unfold Fl.ge
    cases a <;> cases b <;> simp_all [Fl.isNan]
  rw [h, ← not_lt, ← fl_lt_iff ha hb]
  simp

theorem pyMax_spec (x : Fl ℝ) (xs : List (Fl ℝ)) (h : ∀ y ∈ x :: xs, y ≠ Fl.nan) :
    pyMax x xs ∈ x :: xs ∧ ∀ y ∈ x :: xs, ripsThr y ≤ ripsThr (pyMax x xs) := by
  unfold pyMax
  induction xs generalizing x with
  | nil => simp
  | cons y ys ih =>
    rw [List.foldl_cons]
    have hx := h x (by simp)
    have hy := h y (by simp)
    by_cases hlt : Fl.lt x y = true
    · simp only [hlt, if_true]
      obtain ⟨h1, h2⟩ := ih y (fun z hz => h z (by simp at hz ⊢; tauto))
      refine ⟨by simp at h1 ⊢; tauto, ?_⟩
      intro z hz
      rcases List.mem_cons.1 hz with rfl | hz
      · exact ((fl_lt_iff hx hy).1 hlt).le.trans (h2 y (by simp))
      · exact h2 z hz
    · simp only [hlt, if_false]
      obtain ⟨h1, h2⟩ := ih x (fun z hz => h z (by simp at hz ⊢; tauto))
      refine ⟨by simp at h1 ⊢; tauto, ?_⟩
      intro z hz
      simp only [List.mem_cons] at hz
      rcases hz with rfl | rfl | hz
      · exact h2 _ (by simp)
      · refine le_trans ?_ (h2 x (by simp))
        rw [fl_lt_iff hx hy] at hlt
        exact not_lt.1 hlt
      · exact h2 z (by simp [hz])

theorem pyMin_spec (x : Fl ℝ) (xs : List (Fl ℝ)) (h : ∀ y ∈ x :: xs, y ≠ Fl.nan) :
    pyMin x xs ∈ x :: xs ∧ ∀ y ∈ x :: xs, ripsThr (pyMin x xs) ≤ ripsThr y := by
  unfold pyMin
  induction xs generalizing x with
  | nil => simp
  | cons y ys ih =>
    rw [List.foldl_cons]
    have hx := h x (by simp)
    have hy := h y (by simp)
    by_cases hlt : Fl.lt y x = true
    · simp only [hlt, if_true]
      obtain ⟨h1, h2⟩ := ih y (fun z hz => h z (by simp at hz ⊢; tauto))
      refine ⟨by simp at h1 ⊢; tauto, ?_⟩
      intro z hz
      rcases List.mem_cons.1 hz with rfl | hz
      · exact (h2 y (by simp)).trans ((fl_lt_iff hy hx).1 hlt).le
      · exact h2 z hz
    · simp only [hlt, if_false]
      obtain ⟨h1, h2⟩ := ih x (fun z hz => h z (by simp at hz ⊢; tauto))
      refine ⟨by simp at h1 ⊢; tauto, ?_⟩
      intro z hz
      simp only [List.mem_cons] at hz
      rcases hz with rfl | rfl | hz
      · exact h2 _ (by simp)
      · refine le_trans (h2 x (by simp)) ?_
        rw [fl_lt_iff hy hx] at hlt
        exact not_lt.1 hlt
      · exact h2 z (by simp [hz])

theorem commonSupport_spec (sel : (Fl ℝ × Fl ℝ × SparseCochain) × List (Fl ℝ × Fl ℝ × SparseCochain))
    (hn : NoNan (sel.1 :: sel.2)) :
    (commonSupport sel = .error .supportsDisjoint ∧
      ∃ s ∈ sel.1 :: sel.2, ∃ t ∈ sel.1 :: sel.2, ripsThr t.2.1 ≤ ripsThr s.1) ∨
    (∃ b d, commonSupport sel = .ok (b, d) ∧
      (∃ s ∈ sel.1 :: sel.2, s.1 = b) ∧ (∃ s ∈ sel.1 :: sel.2, s.2.1 = d) ∧
      (∀ s ∈ sel.1 :: sel.2, ripsThr s.1 ≤ ripsThr b) ∧ (∀ s ∈ sel.1 :: sel.2, ripsThr d ≤ ripsThr s.2.1) ∧
      ripsThr b < ripsThr d) := by
  have hb : ∀ y ∈ sel.1.1 :: sel.2.map (fun s => s.1), y ≠ Fl.nan := by
    intro y hy
    rw [← List.map_cons (f := fun s : Fl ℝ × Fl ℝ × SparseCochain => s.1)] at hy
    obtain ⟨s, hs, rfl⟩ := List.mem_map.1 hy
    exact (hn s hs).1
  have hd : ∀ y ∈ sel.1.2.1 :: sel.2.map (fun s => s.2.1), y ≠ Fl.nan := by
    intro y hy
    rw [← List.map_cons (f := fun s : Fl ℝ × Fl ℝ × SparseCochain => s.2.1)] at hy
    obtain ⟨s, hs, rfl⟩ := List.mem_map.1 hy
    exact (hn s hs).2
  obtain ⟨m1, m2⟩ := pyMax_spec _ _ hb
  obtain ⟨n1, n2⟩ := pyMin_spec _ _ hd
  have m3 := hb _ m1
  have n3 := hd _ n1
  rw [← List.map_cons (f := fun s : Fl ℝ × Fl ℝ × SparseCochain => s.1)] at m1 m2
  rw [← List.map_cons (f := fun s : Fl ℝ × Fl ℝ × SparseCochain => s.2.1)] at n1 n2
  obtain ⟨s, hs, hse⟩ := List.mem_map.1 m1
  obtain ⟨t, ht, hte⟩ := List.mem_map.1 n1
  unfold commonSupport
  simp only
  by_cases hge : Fl.ge (pyMax sel.1.1 (sel.2.map fun s => s.1)) (pyMin sel.1.2.1 (sel.2.map fun s => s.2.1)) = true
  · left
    rw [if_pos hge]
    rw [fl_ge_iff m3 n3] at hge
    exact ⟨rfl, s, hs, t, ht, by rw [hse, hte]; exact hge⟩
  · right
    rw [if_neg hge]
    rw [fl_ge_iff m3 n3, not_le] at hge
    exact ⟨_, _, rfl, ⟨s, hs, hse⟩, ⟨t, ht, hte⟩, fun u hu => m2 _ (List.mem_map.2 ⟨u, hu, rfl⟩),
      fun u hu => n2 _ (List.mem_map.2 ⟨u, hu, rfl⟩), hge⟩

theorem selectClasses_iff {o : ToroObj} {idxs : List ClassArg}
    {sel : (Fl ℝ × Fl ℝ × SparseCochain) × List (Fl ℝ × Fl ℝ × SparseCochain)} :
    selectClasses o idxs = .ok sel ↔ idxs.mapM (repr1 o) = .ok (sel.1 :: sel.2) := by
  unfold selectClasses repr1
  simp only [bind, Except.bind]
  rcases (idxs.mapM fun a => getRepresentativeCocycle o.dgms o.cocycles a 1) with e | _ | ⟨x, xs⟩
  · simp
  · simp
  · simp only [pure, Except.pure, Except.ok.injEq, List.cons.injEq]
    exact ⟨fun h => by rw [← h]; exact ⟨rfl, rfl⟩, fun h => by rw [h.1, h.2]⟩

theorem disjoint_supports (env : Oracles) (fuel : ℕ) (o : ToroObj) (a : Args)
    (sel : (Fl ℝ × Fl ℝ × SparseCochain) × List (Fl ℝ × Fl ℝ × SparseCochain))
    (hsel : selectClasses o a.cocycleIdxs = .ok sel) (hn : NoNan (sel.1 :: sel.2)) :
    (getCoordinates env fuel o a).2 = .error .supportsDisjoint ↔
      ∃ s ∈ sel.1 :: sel.2, ∃ t ∈ sel.1 :: sel.2, ripsThr t.2.1 ≤ ripsThr s.1 := by
  rw [getCoordinates_disjoint env fuel o a sel hsel]
  rcases commonSupport_spec sel hn with ⟨he, hx⟩ | ⟨b, d, hok, -, -, hb, hd, hlt⟩
  · exact ⟨fun _ => hx, fun _ => he⟩
  · rw [hok]
    refine Iff.intro (fun h => by simp at h) ?_
    rintro ⟨s, hs, t, ht, hle⟩
    exact absurd (hlt.trans_le ((hd t ht).trans (hle.trans (hb s hs)))) (lt_irrefl _)

/-- **C27.** If the selection is valid, the call reports disjoint supports exactly if some selected class is born no
earlier than some selected class dies. -/
theorem C27_disjoint_supports (env : Oracles) (fuel : ℕ) (o : ToroObj) (a : Args)
    (sel : List (Fl ℝ × Fl ℝ × SparseCochain)) (hsel : a.cocycleIdxs.mapM (repr1 o) = .ok sel) (hn : NoNan sel) :
    (getCoordinates env fuel o a).2 = .error .supportsDisjoint ↔
      ∃ s ∈ sel, ∃ t ∈ sel, ¬ Fl.lt s.1 t.2.1 = true := by
  cases sel with
  | nil =>
    have h : selectClasses o a.cocycleIdxs = .error .valueError := by
      unfold selectClasses
      have h' : (a.cocycleIdxs.mapM fun x => getRepresentativeCocycle o.dgms o.cocycles x 1) = .ok [] := hsel
      rw [h']; rfl
    unfold getCoordinates
    rw [h]
    simp
  | cons x xs =>
    have hs : selectClasses o a.cocycleIdxs = .ok (x, xs) := selectClasses_iff.2 hsel
    rw [disjoint_supports env fuel o a (x, xs) hs hn]
    constructor
    · rintro ⟨s, hs, t, ht, h⟩
      exact ⟨s, hs, t, ht, by rw [fl_lt_iff (hn s hs).1 (hn t ht).2, not_lt]; exact h⟩
    · rintro ⟨s, hs, t, ht, h⟩
      rw [fl_lt_iff (hn s hs).1 (hn t ht).2, not_lt] at h
      exact ⟨s, hs, t, ht, h⟩

/-- **C09 is false.** Whenever the selected classes are valid and their supports intersect, a selected class with a value
above `(prime-1)/2` is reported with a negative value after the call, whether or not the call succeeds. -/
theorem C09_negative_after_call (env : Oracles) (fuel : ℕ) (o : ToroObj) (hv : FieldValued o.prime o.cocycles)
    (a : Args) (sel : List (Fl ℝ × Fl ℝ × SparseCochain)) (hsel : a.cocycleIdxs.mapM (repr1 o) = .ok sel)
    (hn : NoNan sel) (hover : ∀ s ∈ sel, ∀ t ∈ sel, Fl.lt s.1 t.2.1 = true)
    (z : ClassArg) (hz : z ∈ a.cocycleIdxs) (b d : Fl ℝ) (c : SparseCochain) (hc : repr1 o z = .ok (b, d, c))
    (hbig : ∃ r ∈ c, 2 * r.val > o.prime - 1) :
    ∃ c', repr1 (getCoordinates env fuel o a).1 z = .ok (b, d, c') ∧ ∃ r ∈ c', r.val < 0 := by
  cases sel with
  | nil =>
    cases hi : a.cocycleIdxs with
    | nil => rw [hi] at hz; simp at hz
    | cons y ys =>
      rw [hi] at hsel
      simp only [List.mapM_cons, bind, Except.bind, pure, Except.pure] at hsel
      split at hsel
      · cases hsel
      · split at hsel <;> cases hsel
  | cons x xs =>
    have hs : selectClasses o a.cocycleIdxs = .ok (x, xs) := selectClasses_iff.2 hsel
    rcases commonSupport_spec (x, xs) hn with ⟨-, s, hs', t, ht, hle⟩ | ⟨b', d', hok, -⟩
    · have := (fl_lt_iff (hn s hs').1 (hn t ht).2).1 (hover s hs' t ht)
      exact absurd this (not_lt.2 hle)
    · exact negative_after_call env fuel o hv a (b', d') (by rw [hs]; exact hok) z hz b d c hc hbig

theorem mapM_length {α β : Type} {f : α → Except PyErr β} {l : List α} {l' : List β} (h : l.mapM f = .ok l') :
    l'.length = l.length := by
  induction l generalizing l' with
  | nil => simp only [List.mapM_nil, pure, Except.pure, Except.ok.injEq] at h; subst h; rfl
  | cons a l ih =>
    rw [List.mapM_cons] at h
    simp only [bind, Except.bind] at h
    rcases hfa : f a with e | b
    · rw [hfa] at h; cases h
    · rw [hfa] at h
      simp only at h
      rcases hl : l.mapM f with e | bs
      · rw [hl] at h; cases h
      · rw [hl] at h
        simp only [pure, Except.pure, Except.ok.injEq] at h
        subst h
        simp [ih hl]

theorem repairLoop_length {K : Type} [LinearOrder K] {milp : Milp ℝ} {n : ℕ} {dist : ℕ → ℕ → K} {t : K} {T : Table}
    {p : ℤ} {cs cs' : List (ℕ → ℤ)} {i : ℕ} {d : Option SparseMat}
    (h : repairLoop milp n dist t T p i d cs = .ok cs') : cs'.length = cs.length := by
  induction cs generalizing i d cs' with
  | nil => unfold repairLoop at h; injection h with h; subst h; rfl
  | cons c cs ih =>
    unfold repairLoop at h
    split at h
    · simp only [bind, Except.bind] at h
      split at h
      · cases h
      · next v hv =>
        simp only [pure, Except.pure, Except.ok.injEq] at h
        subst h
        simp [ih hv]
    · simp only [bind, Except.bind] at h
      split at h
      · cases h
      · split at h
        · cases h
        · split at h
          · cases h
          · next v hv =>
            simp only [pure, Except.pure, Except.ok.injEq] at h
            subst h
            simp [ih hv]

theorem coordData_length {env : Oracles} {o : ToroObj} {a : Args} {radius : Fl ℝ × Fl ℝ} {cs : List SparseCochain}
    {d : CoordData} (h : coordData env o a radius cs = .ok d) : d.cocycles.length = cs.length := by
  unfold coordData integerCocycles checkAndRepair at h
  simp only [bind, Except.bind] at h
  split at h
  · cases h
  · split at h
    · cases h
    · split at h
      · cases h
      · next v hv =>
        split at h
        · cases h
        · simp only [pure, Except.pure, Except.ok.injEq] at h
          subst h
          simp only
          split at hv
          · cases hv
          · next dense hd =>
            have := mapM_length hd
            split at hv
            · rw [repairLoop_length hv, List.length_map, this]
            · injection hv with hv; rw [← hv, List.length_map, this]

/-- The call got past the computation of the radius. -/
theorem getCoordinates_radius {env : Oracles} {fuel : ℕ} {o : ToroObj} {a : Args} {coords : List (ℕ → Fl ℝ)}
    (h : (getCoordinates env fuel o a).2 = .ok coords) :
    ∃ sel b d radius, selectClasses o a.cocycleIdxs = .ok sel ∧ commonSupport sel = .ok (b, d) ∧
      getCoverRadius a.perc b d a.standardRange = .ok radius ∧
      (getCoordinates env fuel o a).1.radius = some radius := by
  unfold getCoordinates at h ⊢
  rcases hs : selectClasses o a.cocycleIdxs with e | sel
  · rw [hs] at h; cases h
  · rw [hs] at h
    simp only at h ⊢
    rcases hc : commonSupport sel with e | ⟨b, d⟩
    · rw [hc] at h; cases h
    · rw [hc] at h
      simp only at h ⊢
      rcases hr : getCoverRadius a.perc b d a.standardRange with e | radius
      · rw [hr] at h; cases h
      · rw [hr] at h
        simp only at h ⊢
        refine ⟨sel, b, d, radius, rfl, hc, hr, ?_⟩
        split
        · rfl
        · split <;> rfl

/-- **C27.** If the call succeeds, with finite non-negative births, finite deaths and `0 ≤ perc ≤ 1`, the Rips
threshold it used (and stored) is at least every selected birth and at most every selected death. -/
theorem C27_threshold_in_all_supports (env : Oracles) (fuel : ℕ) (o : ToroObj) (a : Args) (coords : List (ℕ → Fl ℝ))
    (h : (getCoordinates env fuel o a).2 = .ok coords) (perc : ℝ) (hperc : a.perc = .fin perc) (h0 : 0 ≤ perc)
    (h1 : perc ≤ 1) (sel : List (Fl ℝ × Fl ℝ × SparseCochain)) (hsel : a.cocycleIdxs.mapM (repr1 o) = .ok sel)
    (hfin : ∀ s ∈ sel, ∃ b d : ℝ, 0 ≤ b ∧ s.1 = .fin b ∧ s.2.1 = .fin d) :
    ∃ r thr : ℝ, (getCoordinates env fuel o a).1.radius = some (.fin r, .fin thr) ∧ 2 * r = thr ∧
      ∀ s ∈ sel, ∀ b d : ℝ, s.1 = .fin b → s.2.1 = .fin d → b ≤ thr ∧ thr ≤ d := by
  obtain ⟨sel', b, d, radius, hs, hc, hr, hrad⟩ := getCoordinates_radius h
  rw [selectClasses_iff, hsel] at hs
  injection hs with hs
  subst hs
  have hn : NoNan (sel'.1 :: sel'.2) := by
    intro s hs
    obtain ⟨b, d, -, e1, e2⟩ := hfin s hs
    rw [e1, e2]; simp
  rcases commonSupport_spec sel' hn with ⟨he, -⟩ | ⟨b', d', hok, ⟨s1, hs1, e1⟩, ⟨s2, hs2, e2⟩, hb, hd, hlt⟩
  · rw [hc] at he; cases he
  · rw [hc] at hok
    simp only [Except.ok.injEq, Prod.mk.injEq] at hok
    obtain ⟨rfl, rfl⟩ := hok
    obtain ⟨β, _, hβ0, f1, -⟩ := hfin s1 hs1
    obtain ⟨_, δ, -, -, f2⟩ := hfin s2 hs2
    rw [f1] at e1; rw [f2] at e2
    subst e1; subst e2
    rw [hperc] at hr
    have hC := C24_cover_radius β δ perc a.standardRange
    simp only at hC
    rcases lt_or_ge δ (if a.standardRange = true then 2 * β else β) with hlt' | hge
    · rw [hC.1 hlt'] at hr; cases hr
    · obtain ⟨r, thr, e, -, h2r, hin⟩ := hC.2 hge
      rw [e] at hr
      injection hr with hr
      rw [← hr] at hrad
      obtain ⟨i1, i2⟩ := hin h0 h1
      refine ⟨r, thr, hrad, h2r, ?_⟩
      intro s hs x y hx hy
      have hbs := hb s hs
      have hds := hd s hs
      rw [hx] at hbs; rw [hy] at hds
      simp only [ripsThr, EReal.coe_le_coe_iff] at hbs hds
      refine ⟨?_, i2.trans hds⟩
      refine hbs.trans (le_trans ?_ i1)
      split <;> linarith

/-! ### C46: single classes -/

/-- **C46.** `CircularCoords.get_coordinates` with class `z` behaves exactly like `ToroidalCoords.get_coordinates` with
the list `[z]`: same state afterwards, same error if there is one, and otherwise the only entry of the list; no lattice
reduction takes place (the stored Gram and change-of-basis matrices are left as they were). -/
theorem C46_single_class (env : Oracles) (fuel : ℕ) (o : ToroObj) (perc : Fl ℝ) (z : ClassArg)
    (bump : Fl ℝ → Fl ℝ → Fl ℝ) (std check : Bool) :
    let t := getCoordinates env fuel o ⟨perc, [z], bump, std, check⟩
    let c := circularGetCoordinates env fuel o perc z bump std check
    c.1 = t.1 ∧ t.1.gramInfo = o.gramInfo ∧
    (∀ e, t.2 = .error e ↔ c.2 = .error e) ∧ (∀ θ, c.2 = .ok θ ↔ t.2 = .ok [θ]) ∧
    ∀ fuel', t = getCoordinates env fuel' o ⟨perc, [z], bump, std, check⟩ := by
  intro t c
  have key : ∃ r : Except PyErr (ℕ → Fl ℝ), t.1.gramInfo = o.gramInfo ∧ t.2 = r.map (fun θ => [θ]) ∧
      ∀ fuel', t = getCoordinates env fuel' o ⟨perc, [z], bump, std, check⟩ := by
    show ∃ r : Except PyErr (ℕ → Fl ℝ), (getCoordinates env fuel o ⟨perc, [z], bump, std, check⟩).1.gramInfo = _ ∧
      (getCoordinates env fuel o ⟨perc, [z], bump, std, check⟩).2 = _ ∧
      ∀ fuel', getCoordinates env fuel o ⟨perc, [z], bump, std, check⟩ =
        getCoordinates env fuel' o ⟨perc, [z], bump, std, check⟩
    unfold getCoordinates
    split
    · next e _ => exact ⟨.error e, rfl, rfl, fun _ => rfl⟩
    · split
      · next e _ => exact ⟨.error e, rfl, rfl, fun _ => rfl⟩
      · simp only
        split
        · next e _ => exact ⟨.error e, rfl, rfl, fun _ => rfl⟩
        · next radius _ =>
          split
          · next e _ => exact ⟨.error e, rfl, rfl, fun _ => rfl⟩
          · next d hd =>
            have hlen : d.cocycles.length = 1 := by rw [coordData_length hd]; rfl
            simp only [finishCoords, hlen, lt_irrefl, if_false, pure, Except.pure]
            refine ⟨.ok (d.coords env
              { o with cocycles := o.cocycles.modify 1 (liftSelected o.prime [z]), radius := some radius } ⟨0, by omega⟩), trivial, ?_, fun _ => trivial⟩
            simp only [Except.map, Except.ok.injEq]
            apply List.ext_getElem
            · simp [hlen]
            · intro n h1 h2
              have : n = 0 := by simpa using h2
              subst this
              simp only [List.getElem_ofFn, List.getElem_cons_zero]
              rfl
  obtain ⟨r, h1, h2, h3⟩ := key
  have hc1 : c.1 = t.1 := rfl
  have hc2 : c.2 = r := by
    show (t.2 >>= fun l => pyGet l 0) = r
    rw [h2]
    cases r with
    | error e => rfl
    | ok θ => rfl
  refine ⟨hc1, h1, ?_, ?_, h3⟩
  · intro e
    rw [hc2, h2]
    cases r <;> simp [Except.map]
  · intro θ
    rw [hc2, h2]
    cases r <;> simp [Except.map]

end Dreimac
