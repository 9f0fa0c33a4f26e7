import Verif.Model.Toroidal

/-! # Which stages can report disjoint supports -/

namespace Dreimac

/-- The computation does not end with the error "supports do not intersect". -/
def NotDisj {α : Type} (x : Except PyErr α) : Prop := x ≠ .error .supportsDisjoint

theorem NotDisj.ok {α : Type} (a : α) : NotDisj (.ok a : Except PyErr α) := by simp [NotDisj]

theorem NotDisj.pure {α : Type} (a : α) : NotDisj (pure a : Except PyErr α) := NotDisj.ok a

theorem NotDisj.bind {α β : Type} {x : Except PyErr α} {f : α → Except PyErr β} (h : NotDisj x)
    (hf : ∀ a, NotDisj (f a)) : NotDisj (x >>= f) := by
  cases x with
  | error e => intro he; exact h (by simpa [Bind.bind, Except.bind] using he)
  | ok a => exact hf a

theorem NotDisj.foldlM {α β : Type} {f : β → α → Except PyErr β} (h : ∀ b a, NotDisj (f b a)) (l : List α) (b : β) :
    NotDisj (l.foldlM f b) := by
  induction l generalizing b with
  | nil => exact NotDisj.pure b
  | cons a l ih => rw [List.foldlM_cons]; exact (h b a).bind fun b' => ih b'

theorem NotDisj.mapM {α β : Type} {f : α → Except PyErr β} (h : ∀ a, NotDisj (f a)) (l : List α) :
    NotDisj (l.mapM f) := by
  induction l with
  | nil => exact NotDisj.pure []
  | cons a l ih => rw [List.mapM_cons]; exact (h a).bind fun b => ih.bind fun bs => NotDisj.pure _

theorem notDisj_push (cap : ℕ) (buf : List Entry) (e : Entry) : NotDisj (push cap buf e) := by
  unfold push NotDisj; split <;> simp

theorem notDisj_csr (a b : ℕ) (es : List Entry) : NotDisj (csrArray a b es) := by
  unfold csrArray NotDisj; split <;> simp

theorem notDisj_parityWalk (perm : List ℕ) (seen : List Bool) (cur : ℕ) : NotDisj (parityWalk perm seen cur) := by
  induction seen, cur using parityWalk.induct perm with
  | case1 _ _ h => rw [parityWalk]; split <;> simp_all [NotDisj]
  | case2 _ _ h => rw [parityWalk]; split <;> simp_all [NotDisj]
  | case3 _ _ h h2 => rw [parityWalk]; split <;> simp_all [NotDisj]
  | case4 _ _ h n h2 ih => rw [parityWalk]; split <;> simp_all [NotDisj]

theorem notDisj_parityLoop (perm : List ℕ) (l : List ℕ) (seen : List Bool) (c : ℕ) :
    NotDisj (parityLoop perm l seen c) := by
  induction l generalizing seen c with
  | nil => exact NotDisj.ok c
  | cons i l ih =>
    unfold parityLoop
    split
    · simp [NotDisj]
    · exact ih _ _
    · exact (notDisj_parityWalk _ _ _).bind fun s => ih _ _

theorem notDisj_sparseToVector (d : ℕ) (c : SparseCochain) (T : Table) (n : ℕ) :
    NotDisj (sparseCocycleToVector d c T n) := by
  unfold sparseCocycleToVector
  apply NotDisj.foldlM
  intro vec r
  unfold storeRow orderSimplex parity
  refine NotDisj.bind (NotDisj.bind (NotDisj.bind (notDisj_parityLoop _ _ _ _) fun _ => NotDisj.pure _) fun _ =>
    NotDisj.pure _) fun x => ?_
  simp only
  split <;> simp [NotDisj]

section
variable {K : Type} [LinearOrder K]

theorem notDisj_delta0 (n : ℕ) (dist : ℕ → ℕ → K) (t : K) (T : Table) : NotDisj (makeDelta0 n dist t T) := by
  unfold makeDelta0 delta0Loop
  refine NotDisj.bind (NotDisj.foldlM (fun b i => NotDisj.foldlM (fun b j => ?_) _ _) _ _) fun _ => notDisj_csr _ _ _
  split
  · exact (notDisj_push _ _ _).bind fun _ => notDisj_push _ _ _
  · exact NotDisj.pure _

theorem notDisj_inner (n : ℕ) (dist : ℕ → ℕ → K) (t : K) (T : Table) : NotDisj (makeInnerProduct n dist t T) := by
  unfold makeInnerProduct innerProductLoop
  refine NotDisj.bind (NotDisj.foldlM (fun b i => NotDisj.foldlM (fun b j => ?_) _ _) _ _) fun _ => notDisj_csr _ _ _
  split
  · exact notDisj_push _ _ _
  · exact NotDisj.pure _

theorem notDisj_delta1Compact (n : ℕ) (dist : ℕ → ℕ → K) (t : K) (T : Table) :
    NotDisj (makeDelta1Compact n dist t T) := by
  unfold makeDelta1Compact delta1CompactLoop
  refine NotDisj.bind (NotDisj.foldlM (fun b i => NotDisj.foldlM (fun b j => ?_) _ _) _ _) fun _ => notDisj_csr _ _ _
  split
  · refine NotDisj.foldlM (fun b k => ?_) _ _
    split
    · exact (notDisj_push _ _ _).bind fun _ => (notDisj_push _ _ _).bind fun _ => (notDisj_push _ _ _).bind fun _ =>
        NotDisj.pure _
    · exact NotDisj.pure _
  · exact NotDisj.pure _

theorem notDisj_repairLoop (milp : Milp ℝ) (n : ℕ) (dist : ℕ → ℕ → K) (t : K) (T : Table) (p : ℤ)
    (cs : List (ℕ → ℤ)) (i : ℕ) (d : Option SparseMat) : NotDisj (repairLoop milp n dist t T p i d cs) := by
  induction cs generalizing i d with
  | nil => exact NotDisj.ok _
  | cons c cs ih =>
    unfold repairLoop
    split
    · exact (ih _ _).bind fun _ => NotDisj.pure _
    · refine NotDisj.bind ?_ fun D => ?_
      · unfold deltaOr
        split
        · exact notDisj_delta1Compact _ _ _ _
        · refine NotDisj.bind ?_ fun b => ?_
          · unfold sparseTruth NotDisj; split <;> simp
          · split
            · exact NotDisj.pure _
            · exact notDisj_delta1Compact _ _ _ _
      · split
        · simp [NotDisj]
        · exact (ih _ _).bind fun _ => NotDisj.pure _

end

theorem notDisj_coordData (env : Oracles) (o : ToroObj) (a : Args) (r : Fl ℝ × Fl ℝ) (cs : List SparseCochain) :
    NotDisj (coordData env o a r cs) := by
  unfold coordData integerCocycles checkAndRepair
  refine NotDisj.bind ?_ fun _ => NotDisj.bind (notDisj_delta0 _ _ _ _) fun _ => NotDisj.bind (NotDisj.bind
    (NotDisj.mapM (fun c => notDisj_sparseToVector _ _ _ _) _) fun _ => ?_) fun _ => NotDisj.bind
    (notDisj_inner _ _ _ _) fun _ => NotDisj.pure _
  · unfold getCoveringPartition NotDisj
    simp only
    split
    · simp
    · split <;> simp
  · split
    · exact notDisj_repairLoop _ _ _ _ _ _ _ _ _
    · exact NotDisj.ok _

theorem notDisj_finish (env : Oracles) (fuel : ℕ) (o : ToroObj) (d : CoordData) :
    NotDisj (finishCoords env fuel o d) := by
  unfold finishCoords
  split
  · refine NotDisj.bind ?_ fun _ => NotDisj.pure _
    unfold reduceCoordinates
    split
    · simp [NotDisj]
    · split
      · simp [NotDisj]
      · split
        · next h =>
          simp only [linearCombination, if_true] at h
          cases h
        · exact NotDisj.ok _
        · simp [NotDisj]
  · exact NotDisj.pure _

/-- Only the comparison of births and deaths reports disjoint supports. -/
theorem getCoordinates_disjoint (env : Oracles) (fuel : ℕ) (o : ToroObj) (a : Args) (sel)
    (hsel : selectClasses o a.cocycleIdxs = .ok sel) :
    (getCoordinates env fuel o a).2 = .error .supportsDisjoint ↔ commonSupport sel = .error .supportsDisjoint := by
  unfold getCoordinates
  rw [hsel]
  simp only
  rcases hcs : commonSupport sel with e | ⟨x, y⟩
  · simp
  · simp only [reduceCtorEq, iff_false]
    have h1 : NotDisj (getCoverRadius a.perc x y a.standardRange) := by
      unfold getCoverRadius NotDisj; simp only
      generalize (if a.standardRange = true then Fl.fin 2 * x else x) = st
      split <;> simp
    split
    · next e he => rw [he] at h1; simpa [NotDisj] using h1
    · split
      · next e he =>
        have h := fun o r cs => notDisj_coordData env o a r cs
        intro h'
        simp only [Except.error.injEq] at h'
        exact h _ _ _ (by rw [he, h'])
      · split
        · next e he =>
          have h := fun o d => notDisj_finish env fuel o d
          intro h'
          simp only [Except.error.injEq] at h'
          exact h _ _ (by rw [he, h'])
        · simp

end Dreimac
