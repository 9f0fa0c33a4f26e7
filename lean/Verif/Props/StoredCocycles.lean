import Verif.Spec.StoredCocycles
import Verif.Props.StoredToro

/-!
# C137: which stored cocycles a sequence of calls rewrites
-/

namespace Dreimac

theorem liftSelected_keep {p : ℤ} : ∀ (idxs : List ClassArg) (cs : List SparseCochain) (j : ℕ),
    (∀ x ∈ idxs, x.pos cs.length ≠ j) → (liftSelected p idxs cs)[j]? = cs[j]?
  | [], _, _, _ => rfl
  | a :: l, cs, j, h => by
    rw [liftSelected_cons, liftSelected_keep l _ j (by
      intro x hx
      rw [List.length_modify]
      exact h x (List.mem_cons_of_mem _ hx)), List.getElem?_modify]
    simp [h a (by simp)]

theorem symmetric_lift {p : ℤ} {c : SparseCochain} (h : ∀ r ∈ c, 0 ≤ r.val ∧ r.val < p) :
    SymmetricValues p c (liftToIntegerCocycle c p) := by
  unfold SymmetricValues liftToIntegerCocycle
  rw [List.forall₂_map_right_iff]
  apply List.forall₂_same.2
  intro r hr
  obtain ⟨h0, h1⟩ := h r hr
  refine ⟨rfl, ?_, ?_, ?_⟩
  · show p ∣ liftVal p r.val - r.val
    unfold liftVal; split_ifs
    · exact ⟨-1, by ring⟩
    · simp
  · show -p ≤ 2 * liftVal p r.val
    unfold liftVal; split_ifs <;> omega
  · show 2 * liftVal p r.val < p
    unfold liftVal; split_ifs <;> omega

/-- The bookkeeping: when the calls of a sequence rewrite the arrays they name or leave all of them. -/
theorem rewrites_of {S A : Type} {p : ℤ} {q : ℕ} (cocycles : S → List (List SparseCochain)) (step : S → A → S)
    (idxs : A → List ClassArg) (passes : A → Prop) (o : S) (n : ℕ) (hn : ∀ coc, (cocycles o)[q]? = some coc → coc.length = n)
    (hfv : ∀ ck ∈ cocycles o, ∀ c ∈ ck, ∀ r ∈ c, 0 ≤ r.val ∧ r.val < p)
    (hex : ∀ a, passes a → ∀ x ∈ idxs a, ∃ j < n, NamesClass n x j)
    (hstep : ∀ (calls : List A) (a : A), (passes a → cocycles (step (calls.foldl step o) a) =
        (cocycles (calls.foldl step o)).modify q (liftSelected p (idxs a))) ∧
      (¬ passes a → cocycles (step (calls.foldl step o) a) = cocycles (calls.foldl step o))) (calls : List A) :
    Rewrites p q (cocycles o) (cocycles (calls.foldl step o)) (fun j => ∃ a ∈ calls, passes a ∧ ∃ x ∈ idxs a, NamesClass n x j) := by
  have key : (cocycles (calls.foldl step o)).length = (cocycles o).length ∧
      (∀ k, k ≠ q → (cocycles (calls.foldl step o))[k]? = (cocycles o)[k]?) ∧
      ∀ coc, (cocycles o)[q]? = some coc → ∃ coc', (cocycles (calls.foldl step o))[q]? = some coc' ∧ coc'.length = coc.length ∧
        List.Forall₂ (LiftRel p) coc coc' ∧ ∀ j,
        ((∃ a ∈ calls, passes a ∧ ∃ x ∈ idxs a, NamesClass n x j) → coc'[j]? = coc[j]?.map (liftToIntegerCocycle · p)) ∧
        (¬ (∃ a ∈ calls, passes a ∧ ∃ x ∈ idxs a, NamesClass n x j) → coc'[j]? = coc[j]?) := by
    induction calls using List.reverseRecOn with
    | nil =>
      refine ⟨rfl, fun _ _ => rfl, fun coc h => ⟨coc, h, rfl, ?_, fun j => ⟨by simp, fun _ => rfl⟩⟩⟩
      exact List.forall₂_same.2 fun c hc => ⟨hfv coc (List.mem_of_getElem? h) c hc, Or.inl rfl⟩
    | append_singleton l a ih =>
      obtain ⟨i1, i2, i3⟩ := ih
      rw [List.foldl_append, List.foldl_cons, List.foldl_nil]
      by_cases hp : passes a
      · rw [(hstep l a).1 hp]
        refine ⟨by rw [List.length_modify, i1], fun k hk => ?_, fun coc h => ?_⟩
        · rw [List.getElem?_modify, ← i2 k hk]; simp [Ne.symm hk]
        · obtain ⟨coc', e1, e2, e3, e4⟩ := i3 coc h
          refine ⟨liftSelected p (idxs a) coc', ?_, ?_, liftRel_liftSelected _ e3, fun j => ?_⟩
          · rw [List.getElem?_modify, e1]; simp
          · rw [length_liftSelected, e2]
          have hlen : coc'.length = n := by rw [e2, hn coc h]
          have hpos : ∀ (x : ClassArg) (j : ℕ), j < n → NamesClass n x j → x.pos coc'.length = j := by
            intro x j hj hx
            rw [hlen]
            rcases hx with rfl | rfl <;> simp only [ClassArg.pos, pyPos] <;> split <;> omega
          constructor
          · rintro ⟨a', ha', hp', x, hx, hnm⟩
            by_cases hjn : j < n
            swap
            · rw [List.getElem?_eq_none (by rw [length_liftSelected]; omega),
                List.getElem?_eq_none (by rw [hn coc h]; omega)]; rfl
            by_cases hj : ∃ x ∈ idxs a, NamesClass n x j
            · obtain ⟨x, hx, hnm⟩ := hj
              have := liftSelected_get (idxs a) e3 x hx
              rw [hpos x j hjn hnm] at this
              exact this
            · have hne : ∀ x ∈ idxs a, x.pos coc'.length ≠ j := by
                intro x hx he
                obtain ⟨j', hj', hx'⟩ := hex a hp x hx
                rw [hpos x j' hj' hx'] at he
                exact hj ⟨x, hx, he ▸ hx'⟩
              rw [liftSelected_keep _ _ _ hne]
              refine (e4 j).1 ⟨a', ?_, hp', x, hx, hnm⟩
              rcases List.mem_append.1 ha' with h' | h'
              · exact h'
              · rw [List.mem_singleton] at h'
                subst h'
                exact absurd ⟨x, hx, hnm⟩ hj
          · intro hno
            have hne : ∀ x ∈ idxs a, x.pos coc'.length ≠ j := by
              intro x hx he
              obtain ⟨j', hj', hx'⟩ := hex a hp x hx
              rw [hpos x j' hj' hx'] at he
              exact hno ⟨a, by simp, hp, x, hx, he ▸ hx'⟩
            rw [liftSelected_keep _ _ _ hne]
            exact (e4 j).2 fun ⟨a', ha', h'⟩ => hno ⟨a', List.mem_append_left _ ha', h'⟩
      · rw [(hstep l a).2 hp]
        refine ⟨i1, i2, fun coc h => ?_⟩
        obtain ⟨coc', e1, e2, e3, e4⟩ := i3 coc h
        refine ⟨coc', e1, e2, e3, fun j => ⟨?_, ?_⟩⟩
        · rintro ⟨a', ha', hp', h'⟩
          refine (e4 j).1 ⟨a', ?_, hp', h'⟩
          rcases List.mem_append.1 ha' with h'' | h''
          · exact h''
          · rw [List.mem_singleton] at h''
            exact absurd (h'' ▸ hp') hp
        · intro hno
          exact (e4 j).2 fun ⟨a', ha', h'⟩ => hno ⟨a', List.mem_append_left _ ha', h'⟩
  obtain ⟨k1, k2, k3⟩ := key
  refine ⟨k1, k2, fun coc coc' h h' => ?_⟩
  obtain ⟨coc'', e1, e2, -, e4⟩ := k3 coc h
  rw [h'] at e1
  injection e1 with e1
  subst e1
  refine ⟨e2, fun j c hc => ⟨fun ht => ?_, fun ht => ?_⟩⟩
  · rw [(e4 j).1 ht, hc]
    exact ⟨_, rfl, symmetric_lift fun r hr => hfv coc (List.mem_of_getElem? h) c (List.mem_of_getElem? hc) r hr⟩
  · rw [(e4 j).2 ht, hc]

/-- The selection of the classes succeeds if and only if they exist and overlap. -/
theorem overlapping_iff {o : ToroObj} {dgm : List (Fl ℝ × Fl ℝ)} {σ : List ℕ} (htab : ∀ idx, SelectionTable o dgm σ idx)
    (idxs : List ClassArg) : (∃ sp, (selectClasses o idxs >>= commonSupport) = .ok sp) ↔ Overlapping dgm σ idxs := by
  constructor
  · rintro ⟨sp, h⟩
    rcases hsel : selectClasses o idxs with e | sel
    · rw [hsel] at h; cases h
    · rw [hsel] at h
      change commonSupport sel = _ at h
      obtain ⟨hall, ⟨hcs, -⟩ | ⟨b', D, hcs, hov, -⟩⟩ := select_common htab hsel
      · rw [hcs] at h; cases h
      · exact ⟨hall, hov⟩
  · intro h
    have hok : ∀ idx ∈ idxs, ∃ y, repr1 o idx = .ok y := by
      intro idx hidx
      obtain ⟨pt, hpt⟩ := h.exist idx hidx
      rcases htab idx with ⟨rfl, -⟩ | ⟨z, rfl, hz, -⟩ | ⟨pt, s, -, -, -, h4⟩
      · obtain ⟨r, j, -, h2, -⟩ := hpt
        simp at h2
      · obtain ⟨r, j, h1, h2, -⟩ := hpt
        simp only [ClassArg.int.injEq] at h2
        omega
      · exact ⟨_, h4⟩
    obtain ⟨ys, hys, hlen⟩ := mapM_ok_of hok
    cases ys with
    | nil => exact absurd (List.length_eq_zero_iff.1 hlen.symm) h.nonempty
    | cons y ys =>
      have hsel : selectClasses o idxs = .ok (y, ys) := selectClasses_iff.2 hys
      rw [hsel]
      obtain ⟨-, ⟨-, b, d, hbd, hle⟩ | ⟨b, D', hcs, -⟩⟩ := select_common htab hsel
      · exact absurd (h.overlap _ _ hbd) (not_lt.2 hle)
      · exact ⟨_, hcs⟩

/-- The stored cocycles after one call. -/
theorem toroCocycles_step (env : Oracles) (fuel : ℕ) (o : ToroObj) (a : Args) :
    (∀ sp, (selectClasses o a.cocycleIdxs >>= commonSupport) = .ok sp → (getCoordinates env fuel o a).1.cocycles =
      o.cocycles.modify 1 (liftSelected o.prime a.cocycleIdxs)) ∧
    (∀ e, (selectClasses o a.cocycleIdxs >>= commonSupport) = .error e → (getCoordinates env fuel o a).1.cocycles = o.cocycles) := by
  constructor
  · intro sp h
    rw [getCoordinates_eq, h]
    simp only
    split
    · rfl
    · split
      · rfl
      · split <;> rfl
  · intro e h
    rw [getCoordinates_eq, h]

section
variable {ρ : ℝ → ℝ} {k maxdim : ℕ} {p : ℤ} {δ : ℕ → ℕ → ℝ} {res : RipserResult ℝ}

theorem storesClasses_length {dgms : List (List (Fl ℝ × Fl ℝ))} {cocycles : List (List SparseCochain)}
    (hs : StoresClasses res maxdim dgms cocycles) {q : ℕ} (hq : 1 ≤ q) (hm : q ≤ maxdim) {dgm : List (Fl ℝ × Fl ℝ)}
    (hd : res.dgms[q]? = some dgm) {coc : List SparseCochain} (hc : cocycles[q]? = some coc) : coc.length = dgm.length := by
  obtain ⟨dgm', coc', dgm'', coc'', σ, h1, h2, h3, h4, h5, h6, h7⟩ := hs q hq hm
  rw [h1] at hd; injection hd with hd
  rw [h4] at hc; injection hc with hc
  subst hd hc
  rw [← h7.length_eq, h5.1.length_eq, List.length_range]

/-- **C137, circular and toroidal coordinates.** After any sequence of calls the stored arrays of the classes that were named by a
call whose classes exist and overlap have the values between `-p/2` and `p/2`, whether or not these calls failed later on; all other
arrays, and all arrays of other dimensions, are unchanged. -/
theorem C137_toroidal_cocycles (x : DataInput) (hx : DescribesData x δ) (hr : RipserSpec ρ x.rows k δ p maxdim res)
    (argsort : List (Fl ℝ) → List ℕ) (ha : ArgsortSpec argsort) (hm : 1 ≤ maxdim) (hk : 0 < k) (hk' : k ≤ 65536)
    (hf : x.distanceMatrix = true → x.dtype = .float) :
    ∃ o dgm σ, toroInit argsort res x k p maxdim = .ok o ∧ res.dgms[1]? = some dgm ∧ PersistenceRanking dgm σ ∧
      StoresClasses res maxdim o.dgms o.cocycles ∧ ∀ (env : Oracles) (calls : List (ℕ × Args)),
        Rewrites p 1 o.cocycles (calls.foldl (fun o (a : ℕ × Args) => (getCoordinates env a.1 o a.2).1) o).cocycles fun j =>
          ∃ a ∈ calls, Overlapping dgm σ a.2.cocycleIdxs ∧ ∃ idx ∈ a.2.cocycleIdxs, NamesClass dgm.length idx j := by
  obtain ⟨o, h1, h2, h3, -, -, hs, hva, wf, hv, -⟩ := C88_toroidal_constructor x hx hr argsort ha hm hk hk' hf
  obtain ⟨dgm, σ, g1, g5, htab⟩ := select_outcome 1 x hr hs le_rfl hm hva
  have htab : ∀ idx, SelectionTable o dgm σ idx := fun idx => by
    have := htab idx
    rw [← h2, ← h3] at this
    exact this
  refine ⟨o, dgm, σ, h1, g1, g5, hs, fun env calls => ?_⟩
  refine rewrites_of (S := ToroObj) (A := ℕ × Args) (fun o => o.cocycles) (fun o a => (getCoordinates env a.1 o a.2).1)
    (fun a => a.2.cocycleIdxs) (fun a => Overlapping dgm σ a.2.cocycleIdxs) o dgm.length
    (fun coc hc => storesClasses_length hs le_rfl hm g1 hc) (by rw [← h2]; exact hv) ?_ ?_ calls
  · intro a hp idx hidx
    obtain ⟨pt, r, j, k1, k2, -⟩ := hp.exist idx hidx
    exact ⟨r, k1, k2⟩
  · intro l a
    have hrel : ObjRel o (l.foldl (fun o (a : ℕ × Args) => (getCoordinates env a.1 o a.2).1) o) := objRel_afterCalls hv env l
    have hst := toroCocycles_step env a.1 (l.foldl (fun o (a : ℕ × Args) => (getCoordinates env a.1 o a.2).1) o) a.2
    rw [support_rel hrel, hrel.prime, h2] at hst
    refine ⟨fun hp => ?_, fun hp => ?_⟩
    · obtain ⟨sp, hsp⟩ := (overlapping_iff htab a.2.cocycleIdxs).2 hp
      exact hst.1 sp hsp
    · rcases hsp : selectClasses o a.2.cocycleIdxs >>= commonSupport with e | sp
      · exact hst.2 e hsp
      · exact absurd ((overlapping_iff htab _).1 ⟨sp, hsp⟩) hp

/-- The stored cocycles after one call of `ComplexProjectiveCoords`, when the class is found. -/
theorem cpCocycles_step (env : CPOracles) (fuel : ℕ) (o : ProjObj) (wf : ProjWellFormed o) {N : ℕ} (hN : o.nLand ≤ N)
    (hsz : o.nLand ≤ 2345) (hT : o.table = cnsTable N 3) (a : ProjArgs) :
    (∀ e, getRepresentativeCocycle o.dgms o.cocycles a.cocycleIdx 2 = .error e →
      (cpGetCoordinates env fuel o a).1.cocycles = o.cocycles) ∧
    (∀ b d s e, getRepresentativeCocycle o.dgms o.cocycles a.cocycleIdx 2 = .ok (b, d, s) →
      getCoverRadius a.perc b d a.standardRange = .error e → (cpGetCoordinates env fuel o a).1.cocycles = o.cocycles) ∧
    (∀ b d s radius, getRepresentativeCocycle o.dgms o.cocycles a.cocycleIdx 2 = .ok (b, d, s) →
      getCoverRadius a.perc b d a.standardRange = .ok radius → (cpGetCoordinates env fuel o a).1.cocycles =
        o.cocycles.modify 2 (liftSelected o.prime [a.cocycleIdx])) := by
  refine ⟨fun e h => ?_, fun b d s e h h' => ?_, fun b d s radius h h' => ?_⟩
  · unfold cpGetCoordinates; rw [h]
  · unfold cpGetCoordinates; rw [h]; simp only; rw [h']
  · unfold cpGetCoordinates; rw [h]; simp only; rw [h']
    obtain ⟨cov, hcov⟩ := covering_ok wf radius.1 a.bump
    obtain ⟨M, hM, -⟩ := C12_delta1 o.nLand N 3 hN (by norm_num) hsz (fun l m => (o.distLandLand l m : EReal)) (ripsThr radius.2)
    simp only [hcov, hT, hM]
    generalize sparseCocycleToVector 2 (liftToIntegerCocycle s o.prime) (cnsTable N 3) o.nLand = e5
    rcases e5 with e | v
    · rfl
    simp only
    generalize checkAndRepair2AsIs env.milp o.nLand (fun l m => (o.distLandLand l m : EReal)) (ripsThr radius.2) (cnsTable N 3) o.prime
        a.cocycleIdx.toInt a.check (fun e => v.getD e 0) = e6
    rcases e6 with e | c
    · rfl
    simp only
    generalize ppca env.eigh fuel _ a.dim a.mode = e7
    rcases e7 with e | R <;> rfl

/-- **C137, `ComplexProjectiveCoords`.** After any sequence of calls the stored arrays of the classes of dimension 2 that were asked for
by a call and are not too short have the values between `-p/2` and `p/2`, whether or not these calls failed later on; all other arrays
are unchanged. -/
theorem C137_complex_projective_cocycles (x : DataInput) (hx : DescribesData x δ) (hr : RipserSpec ρ x.rows k δ p maxdim res)
    (argsort : List (Fl ℝ) → List ℕ) (ha : ArgsortSpec argsort) (hm : 2 ≤ maxdim) (hk : 0 < k) (hk' : k ≤ 2345)
    (hf : x.distanceMatrix = true → x.dtype = .float) :
    ∃ o dgm σ, cpInit argsort res x k p maxdim = .ok o ∧ res.dgms[2]? = some dgm ∧ PersistenceRanking dgm σ ∧
      StoresClasses res maxdim o.dgms o.cocycles ∧ ∀ (env : CPOracles) (fuel : ℕ) (calls : List ProjArgs),
        Rewrites p 2 o.cocycles (calls.foldl (fun o a => (cpGetCoordinates env fuel o a).1) o).cocycles fun j =>
          ∃ a ∈ calls, (∃ pt, SelectsInterval dgm σ a.cocycleIdx pt ∧ ¬ TooShort a.standardRange pt) ∧
            ∃ idx ∈ [a.cocycleIdx], NamesClass dgm.length idx j := by
  obtain ⟨o, h1, h2, h3, h4, h5, h6, h7, wf, hfv, hT⟩ :=
    C88_complex_projective_constructor x hx hr argsort ha (by omega) hk hk' hf
  obtain ⟨dgm, σ, g1, g2, g3⟩ := select_outcome 2 x hr h6 (by omega) hm h7
  refine ⟨o, dgm, σ, h1, g1, g2, h6, fun env fuel calls => ?_⟩
  have h : ∀ calls : List ProjArgs, CPRel o (calls.foldl (fun o a => (cpGetCoordinates env fuel o a).1) o) := by
    intro calls
    induction calls using List.reverseRecOn with
    | nil =>
      refine ⟨rfl, ?_⟩
      rw [List.foldl_nil, List.forall₂_same]
      intro ck hck
      rw [List.forall₂_same]
      exact fun c hc => ⟨fun r hr => hfv ck hck c hc r hr, Or.inl rfl⟩
    | append_singleton l c ih =>
      rw [List.foldl_append]
      exact cpRel_state ih env fuel c
  refine rewrites_of (S := ProjObj) (A := ProjArgs) (fun o => o.cocycles) (fun o a => (cpGetCoordinates env fuel o a).1)
    (fun a => [a.cocycleIdx]) (fun a => ∃ pt, SelectsInterval dgm σ a.cocycleIdx pt ∧ ¬ TooShort a.standardRange pt) o dgm.length
    (fun coc hc => storesClasses_length h6 (by omega) hm g1 hc) (by rw [← h2]; exact hfv) ?_ ?_ calls
  · rintro a ⟨pt, ⟨r, j, k1, k2, -⟩, -⟩ idx hidx
    rw [List.mem_singleton] at hidx
    subst hidx
    exact ⟨r, k1, k2⟩
  · intro l a
    have hrel := h l
    generalize l.foldl (fun o a => (cpGetCoordinates env fuel o a).1) o = o' at hrel ⊢
    have hcs := hrel.cocycles
    have hrest := hrel.rest
    have wf' : ProjWellFormed o' := by
      rw [hrest]; exact ⟨wf.dtype, wf.pos, wf.nonneg⟩
    have hst := cpCocycles_step env fuel o' wf' (N := k) (by rw [hrest]; exact h3.le) (by rw [hrest]; exact h3.le.trans hk')
      (by rw [hrest]; exact hT) a
    rw [show o'.dgms = o.dgms by rw [hrest], show o'.prime = p by rw [hrest]; exact h2] at hst
    rcases getRep_lift (dgms := o.dgms) hcs a.cocycleIdx 2 with ⟨e, e3, e4⟩ | ⟨b, d, s, s', e3, e4, -⟩
    · refine ⟨fun ⟨pt, hp, _⟩ => ?_, fun _ => hst.1 e e4⟩
      exfalso
      rcases g3 a.cocycleIdx with ⟨e1, e2⟩ | ⟨z, e1, e1', e2⟩ | ⟨pt, s, e1, hI, -, e2⟩
      · obtain ⟨r, j, -, k2, -⟩ := hp
        rw [e1] at k2; simp at k2
      · obtain ⟨r, j, k1, k2, -⟩ := hp
        rw [e1] at k2
        simp only [ClassArg.int.injEq] at k2
        omega
      · simp only [Nat.cast_ofNat] at e2; rw [e3] at e2; cases e2
    · rcases g3 a.cocycleIdx with ⟨e1, e2⟩ | ⟨z, e1, e1', e2⟩ | ⟨pt, s, e1, hI, -, e2⟩ <;> simp only [Nat.cast_ofNat] at e2 <;> rw [e3] at e2
      · cases e2
      · cases e2
      · simp only [Except.ok.injEq, Prod.mk.injEq] at e2
        obtain ⟨rfl, rfl, rfl⟩ := e2
        rcases radius_outcome hI a.perc a.standardRange with ⟨f1, f2⟩ | ⟨f1, radius, f2⟩
        · refine ⟨fun ⟨pt', hp, hns⟩ => ?_, fun _ => hst.2.1 _ _ _ _ e4 f2⟩
          rw [hp.unique e1] at hns
          exact absurd f1 hns
        · exact ⟨fun _ => hst.2.2 _ _ _ _ e4 f2, fun hn => absurd ⟨pt, e1, f1⟩ hn⟩

end

/-- **C137, `LensCoords` and `ProjectiveCoords`.** No sequence of calls changes any stored cocycle (nor the intervals). -/
theorem C137_lens_projective_cocycles (o : ProjObj) :
    (∀ (eigh : Eigh ℂ) (fuel : ℕ) (calls : List ProjArgs), (lensHistory eigh fuel o calls).cocycles = o.cocycles ∧
      (lensHistory eigh fuel o calls).dgms = o.dgms) ∧
    (∀ (eigh : Eigh ℝ) (fuel : ℕ) (calls : List ProjArgs), (projHistory eigh fuel o calls).cocycles = o.cocycles ∧
      (projHistory eigh fuel o calls).dgms = o.dgms) := by
  constructor
  · intro eigh fuel calls
    have h : SameData o (lensHistory eigh fuel o calls) := by
      unfold lensHistory
      induction calls using List.reverseRecOn with
      | nil => rfl
      | append_singleton l c ih => rw [List.foldl_append]; exact ih.trans (sameData_call _ _ _ _ _ _)
    rw [h]
    exact ⟨rfl, rfl⟩
  · intro eigh fuel calls
    have h : SameData o (projHistory eigh fuel o calls) := by
      unfold projHistory
      induction calls using List.reverseRecOn with
      | nil => rfl
      | append_singleton l c ih => rw [List.foldl_append]; exact ih.trans (sameData_call _ _ _ _ _ _)
    rw [h]
    exact ⟨rfl, rfl⟩

end Dreimac
