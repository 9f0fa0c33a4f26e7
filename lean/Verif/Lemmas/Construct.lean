import Verif.Spec.Ripser
import Verif.Model.Construct
import Verif.Props.EMInit
import Verif.Props.ClassMap2
import Verif.Props.CircularCall

/-!
# Lemmas about the constructors
-/

namespace Dreimac

theorem forall₂_mem_right {α β : Type} {R : α → β → Prop} {l : List α} {m : List β} (h : List.Forall₂ R l m) {b : β}
    (hb : b ∈ m) : ∃ a ∈ l, R a b := by
  obtain ⟨i, hi, rfl⟩ := List.mem_iff_getElem.1 hb
  rw [List.forall₂_iff_get] at h
  exact ⟨l[i]'(h.1 ▸ hi), List.getElem_mem _, h.2 i (h.1 ▸ hi) hi⟩

section sorting
variable {K : Type} [Field K] [LinearOrder K]

theorem mapM_pyGet_ok {α : Type} (l : List α) (idxs : List ℕ) (h : ∀ i ∈ idxs, i < l.length) :
    ∃ out, idxs.mapM (fun (i : ℕ) => pyGet l (i : ℤ)) = .ok out := by
  obtain ⟨out, h1, -⟩ := mapM_forall₂ (R := fun (i : ℕ) (a : α) => l[i]? = some a)
    (f := fun (i : ℕ) => pyGet l (i : ℤ)) (l := idxs) (by
      intro i hi
      exact ⟨l[i]'(h i hi), (pyGet_nat l i _).2 (List.getElem?_eq_getElem _), List.getElem?_eq_getElem _⟩)
  exact ⟨out, h1⟩

theorem sortDim_ok (argsort : List (Fl K) → List ℕ) (ha : ArgsortSpec argsort) (dgm : List (Fl K × Fl K))
    (coc : List (List ZRow)) (hlen : coc.length = dgm.length) :
    ∃ out, sortDim argsort dgm coc = .ok out := by
  unfold sortDim
  set keys := dgm.map fun p => p.1 - p.2 with hkeys
  have hmem : ∀ i ∈ argsort keys, i < dgm.length := by
    intro i hi
    have := (ha keys).1.mem_iff.1 hi
    simpa [hkeys] using this
  obtain ⟨d', hd'⟩ := mapM_pyGet_ok dgm _ hmem
  obtain ⟨c', hc'⟩ := mapM_pyGet_ok coc _ (fun i hi => hlen ▸ hmem i hi)
  exact ⟨(d', c'), by simp only [bind, Except.bind, hd', hc', pure, Except.pure]⟩

theorem sortLoop_ok (argsort : List (Fl K) → List ℕ) (ha : ArgsortSpec argsort) (l : List ℕ) (hnd : l.Nodup)
    (dgms : List (List (Fl K × Fl K))) (coc : List (List (List ZRow)))
    (h : ∀ i ∈ l, ∃ d c, dgms[i]? = some d ∧ coc[i]? = some c ∧ c.length = d.length) :
    ∃ out, l.foldlM (init := (dgms, coc)) (fun st (i : ℕ) => do
      let dgm ← pyGet st.1 (i : ℤ)
      let c ← pyGet st.2 (i : ℤ)
      let (dgm', c') ← sortDim argsort dgm c
      (pure (st.1.set i dgm', st.2.set i c') : Except PyErr _)) = .ok out := by
  induction l generalizing dgms coc with
  | nil => exact ⟨_, rfl⟩
  | cons a l ih =>
    rw [List.nodup_cons] at hnd
    obtain ⟨d, c, h1, h2, h3⟩ := h a (by simp)
    obtain ⟨⟨d', c'⟩, h4⟩ := sortDim_ok argsort ha d c h3
    rw [List.foldlM_cons]
    simp only [bind, Except.bind, (pyGet_nat dgms a d).2 h1, (pyGet_nat coc a c).2 h2, h4, pure, Except.pure]
    apply ih hnd.2
    intro i hi
    have hne : a ≠ i := fun h => hnd.1 (h ▸ hi)
    rw [List.getElem?_set_ne hne, List.getElem?_set_ne hne]
    exact h i (by simp [hi])

/-- Sorting one dimension only permutes its cocycles. -/
theorem sortDim_mem (argsort : List (Fl K) → List ℕ) (dgm dgm' : List (Fl K × Fl K)) (coc coc' : List (List ZRow))
    (h : sortDim argsort dgm coc = .ok (dgm', coc')) : ∀ c ∈ coc', c ∈ coc := by
  unfold sortDim at h
  simp only [bind, Except.bind, pure, Except.pure] at h
  split at h
  · exact absurd h (by simp)
  split at h
  · exact absurd h (by simp)
  rename_i c1 h2
  simp only [Except.ok.injEq, Prod.mk.injEq] at h
  obtain ⟨-, rfl⟩ := h
  have f := mapM_ok h2
  intro c hc
  rw [List.forall₂_iff_get] at f
  obtain ⟨n, hn, rfl⟩ := List.mem_iff_getElem.1 hc
  have := f.2 n (f.1 ▸ hn) hn
  rw [pyGet_nat] at this
  exact List.mem_of_getElem? this

end sorting

section
variable {n k : ℕ} {δ : ℕ → ℕ → ℝ} {p : ℤ} {maxdim : ℕ} {res : RipserResult ℝ} {ρ : ℝ → ℝ}

theorem RipserSpec.isDiagramPoint (hr : RipserSpec ρ n k δ p maxdim res) : ∀ (q : ℕ) dgm, 1 ≤ q → res.dgms[q]? = some dgm →
    ∀ p ∈ dgm, IsDiagramPoint p := by
  intro q dgm hq h pt hpt
  obtain ⟨b, h1, h2⟩ := hr.intervals q dgm hq h pt hpt
  exact ⟨⟨b, h1⟩, h2.imp (fun ⟨d, h, _⟩ => ⟨d, h⟩) id⟩

theorem RipserSpec.vertsInRange (hr : RipserSpec ρ n k δ p maxdim res) :
    ∀ ck ∈ res.cocycles, ∀ c ∈ ck, ∀ r ∈ c, ∀ v ∈ r.verts, 0 ≤ v ∧ v < n := by
  intro ck hck c hc r hrc v hv
  obtain ⟨q, hq⟩ := List.mem_iff_getElem?.1 hck
  obtain ⟨u, hu, rfl⟩ := (((hr.simplices q ck hq c hc).1 r hrc).2.2.1) v hv
  have := hr.range u hu
  omega

/-- The constructor of the superclass succeeds. -/
theorem emInit_ok (hr : RipserSpec ρ n k δ p maxdim res) (argsort : List (Fl ℝ) → List ℕ) (ha : ArgsortSpec argsort)
    (hm : 1 ≤ maxdim) (useDperm : Bool) (X : ℕ → ℕ → Fl ℝ) :
    ∃ obj, emInit argsort res useDperm X n p maxdim = .ok obj ∧ obj.prime = p ∧ obj.idxLand = res.idxPerm ∧
      obj.dgms.length = maxdim + 1 ∧ obj.cocycles.length = maxdim + 1 ∧
      obj.distLandData = (if useDperm then res.dperm2all else fun l i => X (res.idxPerm.getD l 0) i) ∧
      ∀ ck ∈ obj.cocycles, ∀ c ∈ ck, ∀ r ∈ c, ∃ ck₀ ∈ res.cocycles, ∃ c₀ ∈ ck₀, ∃ r₀ ∈ c₀, r.val = r₀.val := by
  obtain ⟨⟨dgms, cocs⟩, h1⟩ := sortLoop_ok argsort ha (pyRange 1 (maxdim + 1)) (List.nodup_range' ..) res.dgms res.cocycles (by
    intro i hi
    have hi' : 1 ≤ i ∧ i < maxdim + 1 := by
      unfold pyRange at hi
      rw [List.mem_range'_1] at hi; omega
    obtain ⟨d, hd⟩ : ∃ d, res.dgms[i]? = some d := ⟨_, List.getElem?_eq_getElem (by rw [hr.dims.1]; omega)⟩
    obtain ⟨c, hc⟩ : ∃ c, res.cocycles[i]? = some c := ⟨_, List.getElem?_eq_getElem (by rw [hr.dims.2]; omega)⟩
    exact ⟨d, c, hd, hc, hr.classes i d c hi'.1 hd hc⟩)
  obtain ⟨e1, e2, e3, e4⟩ := sortLoop_spec argsort _ (List.nodup_range' ..) _ _ _ _ h1
  have hsub : ∀ ck ∈ cocs, ∀ c ∈ ck, ∃ ck₀ ∈ res.cocycles, c ∈ ck₀ := by
    intro ck hck c hc
    obtain ⟨q, hq⟩ := List.mem_iff_getElem?.1 hck
    by_cases hmem : q ∈ pyRange 1 (maxdim + 1)
    · obtain ⟨d, c0, d', c', -, f2, -, f4, f5⟩ := e4 q hmem
      rw [hq] at f4
      injection f4 with f4
      subst f4
      exact ⟨c0, List.mem_of_getElem? f2, sortDim_mem argsort _ _ _ _ f5 c hc⟩
    · rw [(e3 q hmem).2] at hq
      exact ⟨ck, List.mem_of_getElem? hq, hc⟩
  obtain ⟨out, h2, h3⟩ := C10_reindex res.idxPerm n hr.nodup hr.range cocs (by
    intro ck hck c hc
    obtain ⟨ck₀, h4, h5⟩ := hsub ck hck c hc
    exact hr.vertsInRange ck₀ h4 c h5)
  unfold emInit
  rw [if_neg (by omega)]
  simp only [bind, Except.bind, pure, Except.pure]
  have h1' : sortLoop argsort maxdim res.dgms res.cocycles = .ok (dgms, cocs) := h1
  simp only [h1', h2]
  refine ⟨_, rfl, rfl, rfl, by simpa [hr.dims.1] using e1, ?_, rfl, ?_⟩
  · have := h3.length_eq
    simp only
    rw [← this, e2, hr.dims.2]
  · intro ck hck c hc r hrc
    obtain ⟨ck', h4, h5⟩ := forall₂_mem_right h3 hck
    obtain ⟨c', h6, h7⟩ := forall₂_mem_right h5 hc
    obtain ⟨r', h8, h9⟩ := forall₂_mem_right h7 hrc
    obtain ⟨ck₀, g1, g2⟩ := hsub ck' h4 c' h6
    exact ⟨ck₀, g1, c', g2, r', h8, h9.1⟩

end

/-! ### rows renamed by landmark numbers -/

/-- The row `s` (of landmark numbers) is the row `r` (of data points): the same value, and the `m`-th landmark in place of
`m`. -/
structure Renamed (idx : List ℕ) (r : ZRow) (s : Row) : Prop where
  val : s.val = r.val
  bound : ∀ m ∈ s.verts, m < idx.length
  verts : r.verts = s.verts.map fun m => ((idx.getD m 0 : ℕ) : ℤ)

theorem renamed_of_relabelled {idx : List ℕ} {r r' : ZRow} (h : RelabelledRow idx r r')
    (hv : ∀ v ∈ r.verts, ∃ u ∈ idx, v = (u : ℤ)) : Renamed idx r r'.toRow := by
  obtain ⟨h1, h2⟩ := h
  refine ⟨h1, ?_, ?_⟩
  all_goals
    unfold ZRow.toRow
    simp only
    generalize r.verts = l at *
    generalize r'.verts = l' at *
    clear h1
  · induction h2 with
    | nil => simp
    | @cons a b l l' hab _ ih =>
      obtain ⟨u, hu, rfl⟩ := hv a (by simp)
      obtain ⟨i, hi, rfl⟩ := List.mem_iff_getElem.1 hu
      have := hab.1 i hi rfl
      subst this
      intro m hm
      rw [List.map_cons, List.mem_cons] at hm
      rcases hm with rfl | hm
      · simpa using hi
      · exact ih (fun v hv' => hv v (by simp [hv'])) m hm
  · induction h2 with
    | nil => simp
    | @cons a b l l' hab _ ih =>
      obtain ⟨u, hu, rfl⟩ := hv a (by simp)
      obtain ⟨i, hi, rfl⟩ := List.mem_iff_getElem.1 hu
      have := hab.1 i hi rfl
      subst this
      rw [List.map_cons, List.map_cons, ← ih (fun v hv' => hv v (by simp [hv']))]
      simp [List.getElem?_eq_getElem hi]

theorem getD_injective {idx : List ℕ} (hnd : idx.Nodup) {a b : ℕ} (ha : a < idx.length) (hb : b < idx.length)
    (h : idx.getD a 0 = idx.getD b 0) : a = b := by
  simp only [List.getD_eq_getElem?_getD, List.getElem?_eq_getElem ha, List.getElem?_eq_getElem hb, Option.getD_some] at h
  exact (hnd.getElem_inj_iff).1 h

theorem renamed_valid {idx : List ℕ} {q : ℕ} {r : ZRow} {s : Row} (h : Renamed idx r s) (hl : r.verts.length = q + 1)
    (hnd : r.verts.Nodup) : s.Valid idx.length q := by
  refine ⟨?_, ?_, h.bound⟩
  · rw [h.verts, List.length_map] at hl; exact hl
  · rw [h.verts] at hnd; exact List.Nodup.of_map _ hnd

theorem renamed_distinct {idx : List ℕ} {c : List ZRow} {s : List Row} (h : List.Forall₂ (Renamed idx) c s)
    (hd : c.Pairwise fun r r' => ¬ r.verts.Perm r'.verts) : s.Pairwise fun r r' => ¬ r.verts.Perm r'.verts := by
  induction h with
  | nil => exact .nil
  | @cons a b l l' hab hF ih =>
    rw [List.pairwise_cons] at hd ⊢
    refine ⟨?_, ih hd.2⟩
    intro b' hb' hperm
    obtain ⟨m, hm, rfl⟩ := List.mem_iff_getElem.1 hb'
    rw [List.forall₂_iff_get] at hF
    have hm' : m < l.length := hF.1 ▸ hm
    have h2 := hF.2 m hm' hm
    apply hd.1 l[m] (List.getElem_mem _)
    rw [hab.verts, show l[m].verts = _ from h2.verts]
    exact hperm.map _

open Classical in
/-- The cochain of landmark numbers that corresponds to a cochain of data points. -/
noncomputable def pullCochain (idx : List ℕ) (x : ℕ → ℕ → ℤ) (l m : ℕ) : ℤ :=
  if l < idx.length ∧ m < idx.length then x (idx.getD l 0) (idx.getD m 0) else 0

/-- An array lists one cochain only. -/
theorem ListsCochain.unique {c : List ZRow} {x y : ℕ → ℕ → ℤ} (hx : ListsCochain c x) (hy : ListsCochain c y) : x = y := by
  funext u v
  by_cases h : ∀ r ∈ c, r.verts ≠ [(u : ℤ), (v : ℤ)] ∧ r.verts ≠ [(v : ℤ), (u : ℤ)]
  · rw [hx.unlisted u v h, hy.unlisted u v h]
  · push Not at h
    obtain ⟨r, hr, hr'⟩ := h
    obtain ⟨a, b, e1, e2⟩ := hx.rows r hr
    obtain ⟨a', b', e1', e2'⟩ := hy.rows r hr
    have e : a' = a ∧ b' = b := by
      rw [e1] at e1'
      simp only [List.cons.injEq, and_true] at e1'
      omega
    obtain ⟨rfl, rfl⟩ := e
    by_cases h1 : r.verts = [(u : ℤ), (v : ℤ)]
    · rw [e1] at h1
      simp only [List.cons.injEq, and_true] at h1
      obtain ⟨rfl, rfl⟩ : a' = u ∧ b' = v := by omega
      rw [e2, e2']
    · have h2 := hr' h1
      rw [e1] at h2
      simp only [List.cons.injEq, and_true] at h2
      obtain ⟨rfl, rfl⟩ : a' = v ∧ b' = u := by omega
      rw [hx.antisymm a' b', hy.antisymm a' b', e2, e2']


theorem represents_of_lists {idx : List ℕ} (hnd : idx.Nodup) {c : List ZRow} {s : List Row}
    (h : List.Forall₂ (Renamed idx) c s) {x : ℕ → ℕ → ℤ} (hx : ListsCochain c x) :
    RepresentsPairs s (pullCochain idx x) := by
  refine ⟨?_, ?_, ?_⟩
  · intro l m
    unfold pullCochain
    by_cases h1 : l < idx.length ∧ m < idx.length
    · rw [if_pos h1, if_pos h1.symm, hx.antisymm]
    · rw [if_neg h1, if_neg (fun h => h1 h.symm), neg_zero]
  · intro r hr
    obtain ⟨j, hj, rfl⟩ := List.mem_iff_getElem.1 hr
    rw [List.forall₂_iff_get] at h
    have hj' : j < c.length := h.1 ▸ hj
    have h2 : Renamed idx c[j] s[j] := h.2 j hj' hj
    obtain ⟨u, v, e1, e2⟩ := hx.rows c[j] (List.getElem_mem _)
    have e3 := h2.verts
    rw [e1] at e3
    rcases hs : s[j].verts with _ | ⟨a, _ | ⟨b, _ | ⟨d, l⟩⟩⟩
    · rw [hs] at e3; simp at e3
    · rw [hs] at e3; simp at e3
    · rw [hs] at e3
      simp only [List.map_cons, List.map_nil, List.cons.injEq, Nat.cast_inj, and_true] at e3
      have ha := h2.bound a (by simp [hs])
      have hb := h2.bound b (by simp [hs])
      refine ⟨a, b, rfl, ?_⟩
      unfold pullCochain
      rw [if_pos ⟨ha, hb⟩, ← e3.1, ← e3.2, e2, h2.val]
    · rw [hs] at e3; simp at e3
  · intro a b hab
    unfold pullCochain
    split
    · rename_i hlt
      apply hx.unlisted
      intro r hr
      obtain ⟨j, hj, rfl⟩ := List.mem_iff_getElem.1 hr
      rw [List.forall₂_iff_get] at h
      have hj' : j < s.length := h.1 ▸ hj
      have h2 : Renamed idx c[j] s[j] := h.2 j hj hj'
      have key : ∀ a b, a < idx.length → b < idx.length →
          c[j].verts = [((idx.getD a 0 : ℕ) : ℤ), ((idx.getD b 0 : ℕ) : ℤ)] → s[j].verts = [a, b] := by
        intro a b ha hb e
        have e3 := h2.verts
        rw [e] at e3
        rcases hs : s[j].verts with _ | ⟨a', _ | ⟨b', _ | ⟨d, l⟩⟩⟩
        · rw [hs] at e3; simp at e3
        · rw [hs] at e3; simp at e3
        · rw [hs] at e3
          simp only [List.map_cons, List.map_nil, List.cons.injEq, Nat.cast_inj, and_true] at e3
          rw [getD_injective hnd ha (h2.bound a' (by simp [hs])) e3.1,
            getD_injective hnd hb (h2.bound b' (by simp [hs])) e3.2]
        · rw [hs] at e3; simp at e3
      have h3 := hab s[j] (List.getElem_mem _)
      exact ⟨fun e => h3.1 (key a b hlt.1 hlt.2 e), fun e => h3.2 (key b a hlt.2 hlt.1 e)⟩
    · rfl

/-! ### dense vectors -/

theorem dense_eq {k N D : ℕ} (hk : k ≤ N) (hD : 1 ≤ D) {s : SparseCochain} (hv : ∀ r ∈ s, r.Valid k 1)
    (hd : s.Pairwise fun r r' => ¬ r.verts.Perm r'.verts) {x : ℕ → ℕ → ℤ} (hx : RepresentsPairs s x) :
    ∃ u, sparseCocycleToVector 1 s (cnsTable N D) k = .ok u ∧ u.length = Nat.choose k 2 ∧
      ∀ l m, l < m → m < k → u.getD (edgeIdx l m) 0 = x l m := by
  obtain ⟨u, h1, h2, h3, h4⟩ := C06_sparse_to_dense k 1 N D hk hD s hv hd
  refine ⟨u, h1, h2, ?_⟩
  intro l m hlm hmk
  have hidx : ∀ a b : ℕ, a ≤ N → b ≤ N → slot N D [a, b] = edgeIdx a b := fun a b ha hb => by
    unfold slot; rw [← cnsD1_eq_forward, cnsD1_edgeIdx ha hb hD]
  by_cases hex : ∃ r ∈ s, r.verts = [l, m] ∨ r.verts = [m, l]
  · obtain ⟨r, hr, h5⟩ := hex
    obtain ⟨a, b, e1, e2⟩ := hx.rows r hr
    rcases h5 with h5 | h5
    · rw [h5] at e1
      simp only [List.cons.injEq, and_true] at e1
      have := h3 r hr ![l, m] 1 (by rw [h5]; simp [List.ofFn_succ]) (by
        intro i j hij; fin_cases i <;> fin_cases j <;> simp_all)
      have e : List.ofFn (![l, m] ∘ ⇑(1 : Equiv.Perm (Fin 2))) = [l, m] := by simp [List.ofFn_succ]
      rw [e, hidx l m (by omega) (by omega)] at this
      rw [List.getD_eq_getElem?_getD, this, e1.1, e1.2, e2]
      simp
    · rw [h5] at e1
      simp only [List.cons.injEq, and_true] at e1
      have := h3 r hr ![m, l] (Equiv.swap 0 1) (by rw [h5]; simp [List.ofFn_succ]) (by
        intro i j hij; fin_cases i <;> fin_cases j <;> simp_all)
      have e : List.ofFn (![m, l] ∘ ⇑(Equiv.swap 0 1 : Equiv.Perm (Fin 2))) = [l, m] := by simp [List.ofFn_succ]
      rw [e, hidx l m (by omega) (by omega)] at this
      rw [List.getD_eq_getElem?_getD, this, hx.antisymm m l, e1.1, e1.2, e2]
      simp
  · push Not at hex
    have := h4 [l, m] ⟨rfl, by simpa using hlm, by intro v hv; simp at hv; omega⟩ (by
      intro r hr hp
      rcases hw : r.verts with _ | ⟨a, _ | ⟨b, _ | ⟨d, t⟩⟩⟩
      · rw [hw] at hp; simpa using hp.length_eq
      · rw [hw] at hp; simpa using hp.length_eq
      · rw [hw] at hp
        have hm1 := hp.mem_iff (a := a)
        have hm2 := hp.mem_iff (a := l)
        have hm3 := hp.mem_iff (a := m)
        simp at hm1 hm2 hm3
        have := hex r hr
        rw [hw] at this
        simp at this
        omega
      · rw [hw] at hp; simpa using hp.length_eq)
    rw [hidx l m (by omega) (by omega)] at this
    rw [List.getD_eq_getElem?_getD, this, hx.unlisted l m hex]
    rfl

end Dreimac
