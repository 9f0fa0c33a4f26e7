import Mathlib.Data.Fintype.EquivFin
import Mathlib.Data.List.Forall2
import Mathlib.Data.List.Perm.Basic
import Verif.Lemmas.Circular

/-!
# Lemmas for C117: calls with the classes in another order
-/

namespace Dreimac

/-- Two families with the same members differ by a permutation of the indices. -/
theorem exists_perm_of_ofFn_perm {α : Type} {n : ℕ} {f g : Fin n → α} (h : (List.ofFn f).Perm (List.ofFn g)) :
    ∃ σ : Equiv.Perm (Fin n), ∀ i, f i = g (σ i) := by
  classical
  have hcard : ∀ c : α, Fintype.card {i // f i = c} = Fintype.card {i // g i = c} := by
    intro c
    have h1 := Multiset.coe_eq_coe.2 h
    rw [← Fin.univ_val_map, ← Fin.univ_val_map] at h1
    have h2 := congrArg (Multiset.count c) h1
    rw [Multiset.count_map, Multiset.count_map] at h2
    rw [Fintype.card_subtype, Fintype.card_subtype]
    simp only [Finset.card_def, Finset.filter_val]
    simpa [eq_comm] using h2
  refine ⟨Equiv.ofFiberEquiv fun c => Fintype.equivOfCardEq (hcard c), fun i => ?_⟩
  exact (Equiv.ofFiberEquiv_map _ i).symm

/-- A relation with at most one image transports permutations. -/
theorem perm_of_forall₂ {α β : Type} {R : α → β → Prop} (hR : ∀ a b b', R a b → R a b' → b = b') {l l' : List α} {m m' : List β}
    (h : List.Forall₂ R l m) (h' : List.Forall₂ R l' m') (hp : l'.Perm l) : m'.Perm m := by
  obtain ⟨w, hw, hwm⟩ := List.perm_comp_forall₂ hp h
  have : w = m' := List.right_unique_forall₂' (fun a b c => hR a b c) hw h'
  exact this ▸ hwm

theorem mapM_perm {α β : Type} {f : α → Except PyErr β} {l l' : List α} {m m' : List β} (h : l.mapM f = .ok m)
    (h' : l'.mapM f = .ok m') (hp : l'.Perm l) : m'.Perm m :=
  perm_of_forall₂ (fun a b b' e e' => by rw [e] at e'; injection e') (forall₂_mapM h) (forall₂_mapM h') hp

section
variable {K : Type} [LinearOrder K]

/-- What the repair loop does to one class, as a function of the class. -/
def RepairOf (milp : Milp ℝ) (p : ℤ) (n : ℕ) (dist : ℕ → ℕ → K) (t : K) (T : Table) (c c' : ℕ → ℤ) : Prop :=
  if (isOneCocycle c n dist t T).1 then c' = c
  else ∃ A, makeDelta1Compact n dist t T = .ok A ∧ repairWith milp A p c = some c'

theorem repairOf_unique {milp : Milp ℝ} {p : ℤ} {n : ℕ} {dist : ℕ → ℕ → K} {t : K} {T : Table} (c c' c'' : ℕ → ℤ)
    (h : RepairOf milp p n dist t T c c') (h' : RepairOf milp p n dist t T c c'') : c' = c'' := by
  unfold RepairOf at h h'
  split at h
  · next hc => rw [if_pos hc] at h'; rw [h, h']
  · next hc =>
    rw [if_neg hc] at h'
    obtain ⟨A, hA, hc'⟩ := h
    obtain ⟨B, hB, hc''⟩ := h'
    rw [hA] at hB; injection hB with hB; subst hB
    rw [hc'] at hc''; injection hc''

theorem repairLoop_repairOf (milp : Milp ℝ) (n : ℕ) (dist : ℕ → ℕ → K) (t : K) (T : Table) (p : ℤ)
    (idx : ℕ) (d : Option SparseMat) (hd : ∀ A, d = some A → makeDelta1Compact n dist t T = .ok A)
    (cs cs' : List (ℕ → ℤ)) (h : repairLoop milp n dist t T p idx d cs = .ok cs') :
    List.Forall₂ (RepairOf milp p n dist t T) cs cs' := by
  induction cs generalizing idx d cs' with
  | nil => unfold repairLoop at h; injection h with h; subst h; exact .nil
  | cons c cs ih =>
    unfold repairLoop at h
    split at h
    · next hc =>
      simp only [bind, Except.bind] at h
      split at h
      · cases h
      · next rest hrest =>
        simp only [pure, Except.pure, Except.ok.injEq] at h
        subst h
        exact .cons (by unfold RepairOf; rw [if_pos hc]) (ih _ _ hd _ hrest)
    · next hc =>
      simp only [bind, Except.bind] at h
      split at h
      · cases h
      · next A hA =>
        have hA' : makeDelta1Compact n dist t T = .ok A := by
          unfold deltaOr at hA
          cases d with
          | none => exact hA
          | some A0 =>
            simp only [bind, Except.bind] at hA
            split at hA
            · cases hA
            · split at hA
              · simp only [pure, Except.pure, Except.ok.injEq] at hA
                subst hA; exact hd _ rfl
              · exact hA
        split at h
        · cases h
        · next c' hc' =>
          split at h
          · cases h
          · next rest hrest =>
            simp only [pure, Except.pure, Except.ok.injEq] at h
            subst h
            exact .cons (by unfold RepairOf; rw [if_neg hc]; exact ⟨A, hA', hc'⟩) (ih _ _ (by rintro _ ⟨⟩; exact hA') _ hrest)

theorem checkAndRepair_perm (milp : Milp ℝ) (n : ℕ) (dist : ℕ → ℕ → K) (t : K) (T : Table) (p : ℤ) (check : Bool)
    {cs cs' ds ds' : List (ℕ → ℤ)} (hp : cs'.Perm cs) (h : checkAndRepair milp n dist t T p check cs = .ok ds)
    (h' : checkAndRepair milp n dist t T p check cs' = .ok ds') : ds'.Perm ds := by
  unfold checkAndRepair at h h'
  cases check with
  | true =>
    rw [if_pos rfl] at h h'
    exact perm_of_forall₂ repairOf_unique (repairLoop_repairOf milp n dist t T p 0 none (by simp) _ _ h)
      (repairLoop_repairOf milp n dist t T p 0 none (by simp) _ _ h') hp
  | false =>
    simp only [Bool.false_eq_true, if_false, Except.ok.injEq] at h h'
    subst h; subst h'; exact hp

end

theorem integerCocycles_perm (env : Oracles) (o : ToroObj) (thr : EReal) (check : Bool) {cs cs' : List SparseCochain}
    {ds ds' : List (ℕ → ℤ)} (hp : cs'.Perm cs) (h : integerCocycles env o thr check cs = .ok ds)
    (h' : integerCocycles env o thr check cs' = .ok ds') : ds'.Perm ds := by
  unfold integerCocycles at h h'
  simp only [bind, Except.bind] at h h'
  split at h
  · cases h
  · next v hv =>
    split at h'
    · cases h'
    · next v' hv' => exact checkAndRepair_perm _ _ _ _ _ _ _ ((mapM_perm hv hv' hp).map _) h h'

theorem ripsThr_inj {a b : Fl ℝ} (ha : a ≠ .nan) (hb : b ≠ .nan) (h : ripsThr a = ripsThr b) : a = b := by
  cases a <;> cases b <;> simp_all [ripsThr]

/-- The common support does not depend on the order of the classes. -/
theorem commonSupport_perm {o : ToroObj} {idxs idxs' : List ClassArg} (hp : idxs'.Perm idxs)
    (hn : ∀ sel, idxs.mapM (repr1 o) = .ok sel → NoNan sel) {x x' : Fl ℝ × Fl ℝ}
    (h : (selectClasses o idxs >>= commonSupport) = .ok x) (h' : (selectClasses o idxs' >>= commonSupport) = .ok x') :
    x' = x := by
  simp only [bind, Except.bind] at h h'
  split at h
  · cases h
  · next sel hsel =>
    split at h'
    · cases h'
    · next sel' hsel' =>
      rw [selectClasses_iff] at hsel hsel'
      have hperm := mapM_perm hsel hsel' hp
      have hN := hn _ hsel
      have hN' : NoNan (sel'.1 :: sel'.2) := fun s hs => hN s (hperm.mem_iff.1 hs)
      rcases commonSupport_spec sel hN with ⟨he, -⟩ | ⟨b, d, hok, ⟨s1, hs1, e1⟩, ⟨s2, hs2, e2⟩, hb, hd, -⟩
      · rw [h] at he; cases he
      rcases commonSupport_spec sel' hN' with ⟨he, -⟩ | ⟨b', d', hok', ⟨s1', hs1', e1'⟩, ⟨s2', hs2', e2'⟩, hb', hd', -⟩
      · rw [h'] at he; cases he
      rw [h] at hok; injection hok with hok; subst hok
      rw [h'] at hok'; injection hok' with hok'; subst hok'
      congr 1
      · refine ripsThr_inj (e1' ▸ (hN' s1' hs1').1) (e1 ▸ (hN s1 hs1).1) (le_antisymm ?_ ?_)
        · rw [← e1']; exact hb s1' (hperm.mem_iff.1 hs1')
        · rw [← e1]; exact hb' s1 (hperm.mem_iff.2 hs1)
      · refine ripsThr_inj (e2' ▸ (hN' s2' hs2').2) (e2 ▸ (hN s2 hs2).2) (le_antisymm ?_ ?_)
        · rw [← e2]; exact hd' s2 (hperm.mem_iff.2 hs2)
        · rw [← e2']; exact hd s2' (hperm.mem_iff.1 hs2')

/-- The lifted arrays of the selected classes do not depend on the rest of the selection. -/
theorem lifted_perm {o : ToroObj} (hv : FieldValued o.prime o.cocycles) {idxs idxs' : List ClassArg} (hp : idxs'.Perm idxs)
    {sel : List (Fl ℝ × Fl ℝ × SparseCochain)} (hsel : idxs.mapM (repr1 o) = .ok sel) :
    (idxs'.map fun x => ((o.cocycles.modify 1 (liftSelected o.prime idxs')).getD 1 []).getD
        (x.pos ((o.cocycles.modify 1 (liftSelected o.prime idxs')).getD 1 []).length) []).Perm
      (idxs.map fun x => ((o.cocycles.modify 1 (liftSelected o.prime idxs)).getD 1 []).getD
        (x.pos ((o.cocycles.modify 1 (liftSelected o.prime idxs)).getD 1 []).length) []) := by
  have key : ∀ x ∈ idxs, ((o.cocycles.modify 1 (liftSelected o.prime idxs')).getD 1 []).getD
        (x.pos ((o.cocycles.modify 1 (liftSelected o.prime idxs')).getD 1 []).length) [] =
      ((o.cocycles.modify 1 (liftSelected o.prime idxs)).getD 1 []).getD
        (x.pos ((o.cocycles.modify 1 (liftSelected o.prime idxs)).getD 1 []).length) [] := by
    intro x hx
    have hex : ∃ s, repr1 o x = .ok s := by
      have h := List.forall₂_iff_get.1 (forall₂_mapM hsel)
      obtain ⟨i, hi, rfl⟩ := List.mem_iff_getElem.1 hx
      exact ⟨_, h.2 i hi (h.1 ▸ hi)⟩
    obtain ⟨s, hs⟩ := hex
    obtain ⟨b, d, s⟩ := s
    rw [lifted_of_repr hv hx hs, lifted_of_repr hv (hp.mem_iff.2 hx) hs]
  rw [← List.map_congr_left key]
  exact hp.map _

end Dreimac
