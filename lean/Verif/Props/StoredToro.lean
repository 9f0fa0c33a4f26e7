import Verif.Props.StoredState

/-!
# C136: what a call of `CircularCoords` or `ToroidalCoords` leaves on the object
-/

namespace Dreimac

/-- One call, on any object: what the statements of the code store. -/
structure ToroStoresAs (o : ToroObj) (a : Args) (res : ToroObj × Except PyErr (List (ℕ → Fl ℝ))) : Prop where
  select : ∀ e, (selectClasses o a.cocycleIdxs >>= commonSupport) = .error e → res = (o, .error e)
  short : ∀ b d e, (selectClasses o a.cocycleIdxs >>= commonSupport) = .ok (b, d) →
    getCoverRadius a.perc b d a.standardRange = .error e → res.2 = .error e ∧ res.1.radius = o.radius
  radius : ∀ b d rr, (selectClasses o a.cocycleIdxs >>= commonSupport) = .ok (b, d) →
    getCoverRadius a.perc b d a.standardRange = .ok rr → res.1.radius = some rr
  gram_error : ∀ e, res.2 = .error e → res.1.gramInfo = o.gramInfo
  gram_one : ∀ coords, res.2 = .ok coords → coords.length ≤ 1 → res.1.gramInfo = o.gramInfo
  gram_more : ∀ coords, res.2 = .ok coords → 2 ≤ coords.length → res.1.gramInfo.isSome

/-- **C136.** `ToroidalCoords` and `CircularCoords`, one call on any object whatever. -/
theorem C136_toroidal_call (env : Oracles) (fuel : ℕ) (o : ToroObj) (a : Args) :
    ToroStoresAs o a (getCoordinates env fuel o a) := by
  rw [getCoordinates_eq]
  rcases h1 : selectClasses o a.cocycleIdxs >>= commonSupport with e | ⟨b, d⟩
  · refine ⟨?_, ?_, ?_, fun _ _ => rfl, fun _ _ _ => rfl, by simp⟩
    · intro e' h; rw [h1] at h; injection h with h; rw [h]
    · intro b d e' h; rw [h1] at h; cases h
    · intro b d e' h; rw [h1] at h; cases h
  simp only
  rcases h2 : getCoverRadius a.perc b d a.standardRange with e | radius
  · refine ⟨?_, ?_, ?_, fun _ _ => rfl, fun _ _ _ => rfl, by simp⟩
    · intro e' h; rw [h1] at h; cases h
    · intro b' d' e' h h'
      rw [h1] at h
      simp only [Except.ok.injEq, Prod.mk.injEq] at h
      obtain ⟨rfl, rfl⟩ := h
      rw [h2] at h'
      injection h' with h'
      rw [h']
      exact ⟨rfl, rfl⟩
    · intro b' d' e' h h'
      rw [h1] at h
      simp only [Except.ok.injEq, Prod.mk.injEq] at h
      obtain ⟨rfl, rfl⟩ := h
      rw [h2] at h'
      cases h'
  simp only
  have key : ∀ res : ToroObj × Except PyErr (List (ℕ → Fl ℝ)), res.1.radius = some radius →
      (∀ e, res.2 = .error e → res.1.gramInfo = o.gramInfo) →
      (∀ coords, res.2 = .ok coords → coords.length ≤ 1 → res.1.gramInfo = o.gramInfo) →
      (∀ coords, res.2 = .ok coords → 2 ≤ coords.length → res.1.gramInfo.isSome) → ToroStoresAs o a res := by
    intro res g1 g2 g3 g4
    refine ⟨?_, ?_, ?_, g2, g3, g4⟩
    · intro e h; rw [h1] at h; cases h
    · intro b' d' e h h'
      rw [h1] at h
      simp only [Except.ok.injEq, Prod.mk.injEq] at h
      obtain ⟨rfl, rfl⟩ := h
      rw [h2] at h'; cases h'
    · intro b' d' rr h h'
      rw [h1] at h
      simp only [Except.ok.injEq, Prod.mk.injEq] at h
      obtain ⟨rfl, rfl⟩ := h
      rw [h2] at h'
      injection h' with h'
      rw [g1, h']
  split
  · exact key _ rfl (fun _ _ => rfl) (by simp) (by simp)
  · rename_i cd _
    rcases h3 : finishCoords env fuel _ cd with e | ⟨coords, info⟩
    · exact key _ rfl (fun _ _ => rfl) (by simp) (by simp)
    · unfold finishCoords at h3
      split at h3
      · rename_i hlt
        simp only [bind, Except.bind, pure, Except.pure] at h3
        split at h3
        · cases h3
        · simp only [Except.ok.injEq, Prod.mk.injEq] at h3
          obtain ⟨h3, rfl⟩ := h3
          refine key _ rfl (by simp) ?_ (by simp)
          intro coords' hc hl
          injection hc with hc
          rw [← hc, ← h3] at hl
          simp at hl
          omega
      · rename_i hlt
        simp only [pure, Except.pure, Except.ok.injEq, Prod.mk.injEq] at h3
        obtain ⟨h3, rfl⟩ := h3
        refine key _ rfl (by simp) (fun _ _ _ => rfl) ?_
        intro coords' hc hl
        injection hc with hc
        rw [← hc, ← h3] at hl
        simp at hl
        omega

/-- If a call computes a cover radius, the classes exist, are alive together and long enough. -/
theorem alive_of_radius {o : ToroObj} {dgm : List (Fl ℝ × Fl ℝ)} {σ : List ℕ} (htab : ∀ idx, SelectionTable o dgm σ idx) {a : Args}
    {b d : Fl ℝ} {rr : Fl ℝ × Fl ℝ} (h1 : (selectClasses o a.cocycleIdxs >>= commonSupport) = .ok (b, d))
    (h2 : getCoverRadius a.perc b d a.standardRange = .ok rr) : JointlyAlive dgm σ a.cocycleIdxs a.standardRange := by
  rcases hsel : selectClasses o a.cocycleIdxs with e | sel
  · rw [hsel] at h1; cases h1
  · rw [hsel] at h1
    change commonSupport sel = _ at h1
    obtain ⟨hall, ⟨hcs, -⟩ | ⟨b', D, hcs, hov, hends⟩⟩ := select_common htab hsel
    · rw [hcs] at h1; cases h1
    · rw [hcs] at h1
      simp only [Except.ok.injEq, Prod.mk.injEq] at h1
      obtain ⟨rfl, rfl⟩ := h1
      refine ⟨hall, hov, ?_⟩
      intro b'' d'' he
      rcases hends with ⟨-, hno⟩ | ⟨d, rfl, -, hext⟩
      · exact absurd he (hno _ _)
      · have hst : (if a.standardRange = true then Fl.fin 2 * Fl.fin b' else Fl.fin b') =
          Fl.fin (if a.standardRange = true then 2 * b' else b') := by split <;> rfl
        unfold getCoverRadius at h2
        simp only [hst] at h2
        generalize hstart : (if a.standardRange = true then 2 * b' else b') = st at h2
        split at h2
        · cases h2
        · rename_i hlt
          have hle : (if a.standardRange = true then 2 * b' else b') ≤ d := by
            rw [hstart]
            simpa [Fl.lt] using hlt
          obtain ⟨k1, k2⟩ := hext _ _ he
          refine le_trans ?_ (hle.trans k2)
          split <;> linarith

/-- The common support of classes that exist and overlap. -/
theorem support_of_alive {o : ToroObj} {dgm : List (Fl ℝ × Fl ℝ)} {σ : List ℕ} (htab : ∀ idx, SelectionTable o dgm σ idx)
    {idxs : List ClassArg} {std : Bool} (h : JointlyAlive dgm σ idxs std) {B D : ℝ} (he : SelectedEnds dgm σ idxs B D)
    (hext : ∀ b d, SelectedEnds dgm σ idxs b d → b ≤ B ∧ D ≤ d) :
    (selectClasses o idxs >>= commonSupport) = .ok (.fin B, .fin D) := by
  have hok : ∀ idx ∈ idxs, ∃ y, repr1 o idx = .ok y := by
    intro idx hidx
    obtain ⟨pt, hpt⟩ := h.exist idx hidx
    rcases htab idx with ⟨rfl, -⟩ | ⟨z, rfl, hz, -⟩ | ⟨pt, s, -, -, -, h4⟩
    · obtain ⟨r, j, -, h2, -⟩ := hpt
      simp at h2
    · obtain ⟨r, j, h1, h2, -⟩ := hpt
      simp only [ClassArg.int.injEq] at h2
      omega
    · exact ⟨_, h4⟩
  obtain ⟨ys, hys, hlen⟩ := mapM_ok_of hok
  cases ys with
  | nil => exact absurd (List.length_eq_zero_iff.1 hlen.symm) h.nonempty
  | cons y ys =>
    have hsel : selectClasses o idxs = .ok (y, ys) := selectClasses_iff.2 hys
    rw [hsel]
    show commonSupport (y, ys) = _
    obtain ⟨-, ⟨-, b, d, hbd, hle⟩ | ⟨b, D', hcs, -, ⟨-, hno⟩ | ⟨d, rfl, hbd, hext'⟩⟩⟩ := select_common htab hsel
    · exact absurd (h.overlap _ _ hbd) (not_lt.2 hle)
    · exact absurd he (hno _ _)
    · rw [hcs]
      have h1 := hext' _ _ he
      have h2 := hext _ _ hbd
      rw [le_antisymm h2.1 h1.1, le_antisymm h1.2 h2.2]

section
variable {ρ : ℝ → ℝ} {k maxdim : ℕ} {p : ℤ} {δ : ℕ → ℕ → ℝ} {res : RipserResult ℝ}

/-- **C136, `ToroidalCoords`.** For every data set: what all sequences of calls leave on the object. -/
theorem C136_toroidal_state (x : DataInput) (hx : DescribesData x δ) (hr : RipserSpec ρ x.rows k δ p maxdim res)
    (argsort : List (Fl ℝ) → List ℕ) (ha : ArgsortSpec argsort) (hm : 1 ≤ maxdim) (hk : 0 < k) (hk' : k ≤ 65536)
    (hf : x.distanceMatrix = true → x.dtype = .float) :
    ∃ o dgm σ, toroInit argsort res x k p maxdim = .ok o ∧ res.dgms[1]? = some dgm ∧ PersistenceRanking dgm σ ∧
      ∀ env : Oracles, KeepsToroState dgm σ (fun o a => getCoordinates env a.1 o a.2) o := by
  obtain ⟨o, h1, h2, h3, -, -, hs, hva, wf, hv, -⟩ := C88_toroidal_constructor x hx hr argsort ha hm hk hk' hf
  obtain ⟨dgm, σ, g1, g5, htab⟩ := select_outcome 1 x hr hs le_rfl hm hva
  have htab : ∀ idx, SelectionTable o dgm σ idx := fun idx => by
    have := htab idx
    rw [← h2, ← h3] at this
    exact this
  refine ⟨o, dgm, σ, h1, g1, g5, fun env => ?_⟩
  have hstart : o.radius = none ∧ o.gramInfo = none := by
    unfold toroInit at h1
    simp only [bind, Except.bind, pure, Except.pure] at h1
    split at h1
    · cases h1
    · injection h1 with h1
      subst h1
      exact ⟨rfl, rfl⟩
  have hsup : ∀ (calls : List (ℕ × Args)) (idxs : List ClassArg),
      (selectClasses (calls.foldl (fun o (a : ℕ × Args) => (getCoordinates env a.1 o a.2).1) o) idxs >>= commonSupport) =
        (selectClasses o idxs >>= commonSupport) := fun calls idxs => support_rel (objRel_afterCalls hv env calls) idxs
  have early : ∀ (before : List (ℕ × Args)) (a : ℕ × Args), ¬ JointlyAlive dgm σ a.2.cocycleIdxs a.2.standardRange →
      (∃ e, (getCoordinates env a.1 (before.foldl (fun o (a : ℕ × Args) => (getCoordinates env a.1 o a.2).1) o) a.2).2 = .error e) ∧
      (getCoordinates env a.1 (before.foldl (fun o (a : ℕ × Args) => (getCoordinates env a.1 o a.2).1) o) a.2).1.radius =
        (before.foldl (fun o (a : ℕ × Args) => (getCoordinates env a.1 o a.2).1) o).radius := by
    intro before a hna
    have hc := C136_toroidal_call env a.1 (before.foldl (fun o (a : ℕ × Args) => (getCoordinates env a.1 o a.2).1) o) a.2
    rcases hs1 : (selectClasses o a.2.cocycleIdxs >>= commonSupport) with e | ⟨b, d⟩
    · rw [hc.select e (by rw [hsup]; exact hs1)]
      exact ⟨⟨e, rfl⟩, rfl⟩
    · rcases hs2 : getCoverRadius a.2.perc b d a.2.standardRange with e | rr
      · obtain ⟨k1, k2⟩ := hc.short b d e (by rw [hsup]; exact hs1) hs2
        exact ⟨⟨e, k1⟩, k2⟩
      · exact absurd (alive_of_radius htab hs1 hs2) hna
  refine ⟨hstart, ?_, early, fun before a => (C136_toroidal_call env a.1 _ a.2).gram_error,
    fun before a => (C136_toroidal_call env a.1 _ a.2).gram_one, fun before a => (C136_toroidal_call env a.1 _ a.2).gram_more⟩
  intro before after fuel a B D c r hal he hext hperc hr2 hafter
  induction after using List.reverseRecOn with
  | nil =>
    rw [List.foldl_append]
    show (getCoordinates env fuel (before.foldl (fun o (a : ℕ × Args) => (getCoordinates env a.1 o a.2).1) o) a).1.radius = _
    have hc := C136_toroidal_call env fuel (before.foldl (fun o (a : ℕ × Args) => (getCoordinates env a.1 o a.2).1) o) a
    refine hc.radius (.fin B) (.fin D) _ (by rw [hsup]; exact support_of_alive htab hal he hext) ?_
    obtain ⟨r', thr, k1, k2, k3, -⟩ := (C24_cover_radius B D c a.standardRange).2 (hal.long _ _ he)
    rw [hperc, k1]
    have e1 : thr = 2 * r := by rw [hr2]; linarith
    have e2 : r' = r := by linarith
    rw [e1, e2]
  | append_singleton l a' ih =>
    have ih := ih fun a'' h => hafter a'' (List.mem_append_left _ h)
    rw [show before ++ (fuel, a) :: (l ++ [a']) = (before ++ (fuel, a) :: l) ++ [a'] by simp, List.foldl_append]
    show (getCoordinates env a'.1 _ a'.2).1.radius = _
    rw [(early (before ++ (fuel, a) :: l) a' (hafter a' (by simp))).2]
    exact ih

end

end Dreimac
