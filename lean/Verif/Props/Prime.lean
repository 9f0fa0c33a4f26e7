import Verif.Spec.Prime
import Verif.Lemmas.Prime

/-!
# C127: the prime does not matter
-/

namespace Dreimac

noncomputable section
variable {k : ℕ} {δ : ℕ → ℕ → ℝ} {p p' : ℤ} {maxdim maxdim' : ℕ} {res res' : RipserResult ℝ} {ρ ρ' : ℝ → ℝ}

/-- Equal landmarks give equal distances. -/
theorem dist_eq_of_data {idx : List ℕ} {N : ℕ} (h0 : 0 < idx.length) (hN : 0 < N) {d d' : ℕ → ℕ → ℝ}
    (h : ∀ l (hl : l < idx.length), ∀ i < N, d l i = δ idx[l] i) (h' : ∀ l (hl : l < idx.length), ∀ i < N, d' l i = δ idx[l] i)
    (hc : ∀ l i, d l i = d (min l (idx.length - 1)) (min i (N - 1))) (hc' : ∀ l i, d' l i = d' (min l (idx.length - 1)) (min i (N - 1))) :
    d' = d := by
  funext l i
  have h1 : min l (idx.length - 1) < idx.length := by omega
  have h2 : min i (N - 1) < N := by omega
  rw [hc', hc, h _ h1 _ h2, h' _ h1 _ h2]

/-- **C127 (circular and toroidal coordinates).** Two objects for the same data and the same landmarks, with primes `p` and `p'`: if the
selected classes have the same lifetimes and are reductions of the same integer cochains `c a`, with values smaller in absolute value
than half of each prime, then after any histories of calls (different for the two objects) the calls return the same
coordinates, or raise the same exception, provided that the check is off or the `c a` are integer cocycles at the threshold of the
call; whatever the solvers are. -/
theorem C127_toroidal_prime (x : DataInput) (hx : DescribesData x δ) (hr : RipserSpec ρ x.rows k δ p maxdim res)
    (hr' : RipserSpec ρ' x.rows k δ p' maxdim' res') (hland : res'.idxPerm = res.idxPerm)
    (argsort argsort' : List (Fl ℝ) → List ℕ) (ha : ArgsortSpec argsort) (ha' : ArgsortSpec argsort') (hm : 1 ≤ maxdim)
    (hm' : 1 ≤ maxdim') (hk : 0 < k) (hk' : k ≤ 2345) (hf : x.distanceMatrix = true → x.dtype = .float) (hp : 0 < p) (hp' : 0 < p') :
    ∃ o o' dgm coc σ dgm' coc' σ', toroInit argsort res x k p maxdim = .ok o ∧ toroInit argsort' res' x k p' maxdim' = .ok o' ∧
      res.dgms[1]? = some dgm ∧ res.cocycles[1]? = some coc ∧ PersistenceRanking dgm σ ∧
      res'.dgms[1]? = some dgm' ∧ res'.cocycles[1]? = some coc' ∧ PersistenceRanking dgm' σ' ∧
      ∀ (m : ℕ) (z z' : Fin m → ℕ) (b d : Fin m → ℝ) (ξ ξ' c : Fin m → ℕ → ℕ → ℤ),
      SelectsClasses dgm coc σ z b d ξ → SelectsClasses dgm' coc' σ' z' b d ξ' →
      (∀ a, SmallReduction p res.idxPerm.toFinset (ξ a) (c a) ∧ SmallReduction p' res.idxPerm.toFinset (ξ' a) (c a)) →
      ∀ (env : Oracles) (fuel : ℕ) (history history' : List (ℕ × Args)) (perc : ℝ) (std check : Bool) (bump : Fl ℝ → Fl ℝ → Fl ℝ)
        (B D r : ℝ), IsGreatest (Set.range b) B → IsLeast (Set.range d) D → B < D → (if std then 2 * B else B) ≤ D →
      2 * r = (1 - perc) * (if std then 2 * B else B) + perc * D →
      (check = true → ∀ a, IsDataCocycle res.idxPerm.toFinset δ (2 * r) (c a)) →
        (getCoordinates env fuel (afterCalls env o history) ⟨.fin perc, List.ofFn fun a => .int (z a), bump, std, check⟩).2 =
        (getCoordinates env fuel (afterCalls env o' history') ⟨.fin perc, List.ofFn fun a => .int (z' a), bump, std, check⟩).2 := by
  obtain ⟨o, h1, h2, h3, h4, h5, h6, h7, wf, hv, hT⟩ := C88_toroidal_constructor x hx hr argsort ha hm hk (by omega) hf
  obtain ⟨dgm, coc, σ, g1, g2, g3, g4⟩ := stored_class x hr h6 hm h7
  obtain ⟨o', h1', h2', h3', h4', h5', h6', h7', wf', hv', hT'⟩ := C88_toroidal_constructor x hx hr' argsort' ha' hm' hk (by omega) hf
  obtain ⟨dgm', coc', σ', g1', g2', g3', g4'⟩ := stored_class x hr' h6' hm' h7'
  refine ⟨o, o', dgm, coc, σ, dgm', coc', σ', h1, h1', g1, g2, g3, g1', g2', g3', ?_⟩
  intro m z z' b d ξ ξ' c hsel hsel' hc env fuel history history' perc std check bump B D r hB hD hBD hlong hr2 hcheck
  rw [(C08_repeatable env o hv history fuel _).1, (C08_repeatable env o' hv' history' fuel _).1]
  have hlen : res.idxPerm.length = k := hr.count
  -- the stored arrays
  have key : ∀ {p : ℤ} {res : RipserResult ℝ} {ρ : ℝ → ℝ} {o : ToroObj} {dgm : List (Fl ℝ × Fl ℝ)} {coc : List (List ZRow)} {σ : List ℕ}
      {z : Fin m → ℕ} {ξ : Fin m → ℕ → ℕ → ℤ} {maxdim : ℕ}, o.nLand = k →
      (∀ (z j : ℕ), σ[z]? = some j → ∃ pt c s ξ, dgm[j]? = some pt ∧ coc[j]? = some c ∧
        getRepresentativeCocycle o.dgms o.cocycles (.int z) 1 = .ok (pt.1, pt.2, s) ∧ ValidArray p k 1 s ∧ IsInterval pt ∧
        ListsCochain c ξ ∧ RepresentsPairs s (pullCochain res.idxPerm ξ) ∧
        ∀ t, BeforeDeath ρ pt t → CocycleModOn p res.idxPerm δ t ξ) → SelectsClasses dgm coc σ z b d ξ →
      ∀ a, ∃ s, ValidClass o (.int (z a)) (b a) (d a) s ∧ ValidArray p k 1 s ∧ RepresentsPairs s (pullCochain res.idxPerm (ξ a)) := by
    intro p res ρ o dgm coc σ z ξ maxdim h3 g4 hsel a
    obtain ⟨j, c₀, e1, e2, e3, e4⟩ := hsel.select a
    obtain ⟨pt, c₁, s, ξ', f1, f2, f3, f4, f5, f6, f7, f8⟩ := g4 (z a) j e1
    rw [e2] at f1
    injection f1 with f1
    subst f1
    rw [e3] at f2
    injection f2 with f2
    subst f2
    obtain rfl := f6.unique e4
    refine ⟨s, ⟨f3, fun r hr' => h3 ▸ (f4.1 r hr').1, f4.2, ?_⟩, f4, f7⟩
    obtain ⟨b', q1, q2⟩ := f5
    simp only [Fl.fin.injEq] at q1
    rcases q2 with ⟨d', q3, q4⟩ | q3
    · simp only [Fl.fin.injEq] at q3; rw [q1, q3]; exact q4
    · simp at q3
  choose s s1 s2 s3 using key (maxdim := maxdim) h3 g4 hsel
  choose s' s1' s2' s3' using key (maxdim := maxdim') h3' g4' hsel'
  rw [hland] at s3'
  have hS : ∀ {o : ToroObj} {z : Fin m → ℕ} {s : Fin m → SparseCochain}, (∀ a, ValidClass o (.int (z a)) (b a) (d a) (s a)) →
      SelectedClasses o (List.ofFn fun a => ⟨.int (z a), b a, d a, s a⟩) perc std B D r := by
    intro o z s hval
    refine ⟨?_, ?_, ?_, hBD, hlong, hr2⟩
    · intro y hy
      rw [List.mem_ofFn] at hy
      obtain ⟨a, rfl⟩ := hy
      exact hval a
    · convert hB using 1
      ext y
      simp only [List.mem_ofFn, Set.mem_range]
      constructor
      · rintro ⟨_, ⟨a, rfl⟩, rfl⟩; exact ⟨a, rfl⟩
      · rintro ⟨a, rfl⟩; exact ⟨_, ⟨a, rfl⟩, rfl⟩
    · convert hD using 1
      ext y
      simp only [List.mem_ofFn, Set.mem_range]
      constructor
      · rintro ⟨_, ⟨a, rfl⟩, rfl⟩; exact ⟨a, rfl⟩
      · rintro ⟨a, rfl⟩; exact ⟨_, ⟨a, rfl⟩, rfl⟩
  have hargs : ∀ {z : Fin m → ℕ} {s : Fin m → SparseCochain}, (List.ofFn fun a => (⟨.int (z a), b a, d a, s a⟩ : Selected)).map
      Selected.arg = List.ofFn fun a => ClassArg.int (z a) := by
    intro z s
    rw [List.map_ofFn]; rfl
  have hsup := (hS s1).support
  have hsup' := (hS s1').support
  rw [hargs] at hsup hsup'
  obtain ⟨r', thr, hrad, hthr, hr3, -⟩ := (C24_cover_radius B D perc std).2 hlong
  obtain rfl : r' = r := by linarith
  subst hr3
  -- the dense cocycles
  have hdense : ∀ a, ∃ v, sparseCocycleToVector 1 (liftToIntegerCocycle (s a) o.prime) o.table o.nLand = .ok v ∧
      sparseCocycleToVector 1 (liftToIntegerCocycle (s' a) o'.prime) o.table o.nLand = .ok v ∧
      ∀ l m, l < m → m < k → v.getD (edgeIdx l m) 0 = c a (res.idxPerm.getD l 0) (res.idxPerm.getD m 0) := by
    intro a
    obtain ⟨v, v1, v2, v3⟩ := dense_unique (N := k) (D := 2) hlen le_rfl (by norm_num) hp (s2 a) (s3 a)
      (fun u hu w hw => (hc a).1 u (List.mem_toFinset.2 hu) w (List.mem_toFinset.2 hw))
    obtain ⟨v', v1', v2', v3'⟩ := dense_unique (N := k) (D := 2) hlen le_rfl (by norm_num) hp' (s2' a) (s3' a)
      (fun u hu w hw => (hc a).2 u (List.mem_toFinset.2 hu) w (List.mem_toFinset.2 hw))
    obtain rfl : v = v' := dense_ext v2 v2' fun l m q1 q2 => by rw [v3 l m q1 q2, v3' l m q1 q2]
    exact ⟨v, by rw [h2, hT, h3]; exact v1, by rw [h2', hT, h3]; exact v1', v3⟩
  choose v w1 w2 w3 using hdense
  -- the two objects
  have hN : 0 < x.nPoints := by
    have h0 : 0 < res.idxPerm.length := by omega
    exact lt_of_lt_of_le (lt_of_le_of_lt (Nat.zero_le _) (hr.range _ (List.getElem_mem h0))) hx.rows
  obtain ⟨i1, i2, i3, i4, i5, i6⟩ := toroInit_landmarks h1
  obtain ⟨i1', i2', i3', i4', i5', i6'⟩ := toroInit_landmarks h1'
  rw [nData_eq] at i6 i6'
  have hdata' := h5'.data
  rw [hland] at i4' i6'
  simp only [hland] at hdata'
  have hsame : SameButClasses o o' := ⟨by rw [h3, h3'], by rw [i2, i2'], dist_eq_of_data (by omega) hN h5.data hdata' i6 i6',
    by rw [i3, i3'], by rw [i4, i4'], by rw [i5, i5']⟩
  refine call_eq_of_cocycles (idxs' := List.ofFn fun a => .int (z' a)) hsame hsup hsup' hrad
    (cs := List.ofFn fun a => liftToIntegerCocycle (s a) o.prime) (cs' := List.ofFn fun a => liftToIntegerCocycle (s' a) o'.prime) ?_ ?_ ?_
  · rw [List.map_ofFn]
    exact congrArg List.ofFn (funext fun a => lifted_of_repr hv (x := .int (z a)) (List.mem_ofFn.2 ⟨a, rfl⟩) (s1 a).stored)
  · rw [List.map_ofFn]
    exact congrArg List.ofFn (funext fun a => lifted_of_repr hv' (x := .int (z' a)) (List.mem_ofFn.2 ⟨a, rfl⟩) (s1' a).stored)
  · have hmap : ∀ {f : Fin m → SparseCochain} {T : Table} {n : ℕ}, (∀ a, sparseCocycleToVector 1 (f a) T n = .ok (v a)) →
        (List.ofFn f).mapM (fun c => sparseCocycleToVector 1 c T n) = .ok (List.ofFn v) := by
      intro f T n hfv
      refine mapM_of_forall₂ ?_
      rw [List.forall₂_iff_get]
      refine ⟨by simp, fun i q1 q2 => ?_⟩
      simp only [List.get_eq_getElem, List.getElem_ofFn]
      exact hfv _
    unfold integerCocycles
    rw [hsame.table, hsame.nLand, hmap w1, hmap w2]
    simp only [bind, Except.bind]
    rcases check with _ | _
    · simp only [checkAndRepair, Bool.false_eq_true, if_false]
    · have hco : ∀ c' ∈ (List.ofFn v).map (fun v => fun e => v.getD e 0),
          IsCocycle1 o.nLand (fun l m => (o.distLandLand l m : EReal)) ((2 * r' : ℝ) : EReal) c' := by
        intro c' hc'
        obtain ⟨v₀, hv₀, rfl⟩ := List.mem_map.1 hc'
        obtain ⟨a, rfl⟩ := List.mem_ofFn.1 hv₀
        rintro i j q ⟨⟨e1, e2, e3⟩, ⟨e4, e5, e6⟩, ⟨e7, e8, e9⟩⟩
        rw [h3] at e2 e5 e8
        have hmem : ∀ l, l < k → res.idxPerm.getD l 0 ∈ res.idxPerm.toFinset := by
          intro l hl; rw [getD_of_lt (by omega), List.mem_toFinset]; exact List.getElem_mem _
        have hd : ∀ l m, l < k → m < k → o.distLandLand l m = δ (res.idxPerm.getD l 0) (res.idxPerm.getD m 0) := by
          intro l m q1 q2
          rw [h5.land l (by omega) m (by omega), getD_of_lt (by omega), getD_of_lt (by omega)]
        rw [EReal.coe_lt_coe_iff] at e3 e6 e9
        beta_reduce
        rw [w3 a i j e1 e2, w3 a j q e4 e5, w3 a i q e7 e8]
        rw [hd _ _ (by omega) (by omega)] at e3 e6 e9
        have := hcheck rfl a _ (hmem i (by omega)) _ (hmem j (by omega)) _ (hmem q (by omega)) e3 e6 e9
        omega
      have hco' : ∀ c' ∈ (List.ofFn v).map (fun v => fun e => v.getD e 0),
          IsCocycle1 o.nLand (fun l m => (o'.distLandLand l m : EReal)) ((2 * r' : ℝ) : EReal) c' := by
        have : o'.distLandLand = o.distLandLand := by
          unfold ToroObj.distLandLand
          rw [hsame.dist, hsame.idxLand]
        rw [this]
        exact hco
      simp only [checkAndRepair, if_true, ripsThr]
      rw [hT, repairLoop_cocycles env.milp h3.le (by omega) _ _ _ _ _ _ hco, repairLoop_cocycles env.milp h3.le (by omega) _ _ _ _ _ _ hco']

/-- **C127 (complex projective coordinates).** The same for a class of dimension 2 and `ComplexProjectiveCoords`, where `c` is the integer
2-cochain that the arrays of the two classes list modulo `p` and `p'`. -/
theorem C127_complex_projective_prime (x : DataInput) (hx : DescribesData x δ) (hr : RipserSpec ρ x.rows k δ p maxdim res)
    (hr' : RipserSpec ρ' x.rows k δ p' maxdim' res') (hland : res'.idxPerm = res.idxPerm)
    (argsort argsort' : List (Fl ℝ) → List ℕ) (ha : ArgsortSpec argsort) (ha' : ArgsortSpec argsort') (hm : 2 ≤ maxdim)
    (hm' : 2 ≤ maxdim') (hk : 0 < k) (hk' : k ≤ 2345) (hf : x.distanceMatrix = true → x.dtype = .float) (hp : 2 ≤ p) (hp' : 2 ≤ p') :
    ∃ o o' dgm coc σ dgm' coc' σ', cpInit argsort res x k p maxdim = .ok o ∧ cpInit argsort' res' x k p' maxdim' = .ok o' ∧
      res.dgms[2]? = some dgm ∧ res.cocycles[2]? = some coc ∧ PersistenceRanking dgm σ ∧
      res'.dgms[2]? = some dgm' ∧ res'.cocycles[2]? = some coc' ∧ PersistenceRanking dgm' σ' ∧
      ∀ (z z' j j' : ℕ) (b d : ℝ) (c₀ c₀' : List ZRow) (c : ℕ → ℕ → ℕ → ℤ),
      σ[z]? = some j → dgm[j]? = some (.fin b, .fin d) → coc[j]? = some c₀ →
      σ'[z']? = some j' → dgm'[j']? = some (.fin b, .fin d) → coc'[j']? = some c₀' →
      ListsLift2 p res.idxPerm.toFinset c₀ c → ListsLift2 p' res.idxPerm.toFinset c₀' c →
      ∀ (env : CPOracles) (fuel : ℕ) (history history' : List ProjArgs) (perc : ℝ) (q : ℤ) (std check : Bool) (bump : Fl ℝ → Fl ℝ → Fl ℝ)
        (mode : RedMode) (r : ℝ), 2 * r = (1 - perc) * (if std then 2 * b else b) + perc * d →
      (check = true → IsDataCocycle2 res.idxPerm.toFinset δ (2 * r) c) →
        (cpGetCoordinates env fuel (cpHistory env fuel o history) ⟨.fin perc, .int z, q, bump, std, check, mode⟩).2 =
        (cpGetCoordinates env fuel (cpHistory env fuel o' history') ⟨.fin perc, .int z', q, bump, std, check, mode⟩).2 := by
  obtain ⟨o, h1, h2, h3, h4, h5, h6, h7, wf, hfv, hT⟩ :=
    C88_complex_projective_constructor x hx hr argsort ha (by omega) hk hk' hf
  obtain ⟨dgm, coc, σ, g1, g2, g3, g4⟩ := stored_class_dim 2 x hr h6 (by omega) hm h7
  obtain ⟨o', h1', h2', h3', h4', h5', h6', h7', wf', hfv', hT'⟩ :=
    C88_complex_projective_constructor x hx hr' argsort' ha' (by omega) hk hk' hf
  obtain ⟨dgm', coc', σ', g1', g2', g3', g4'⟩ := stored_class_dim 2 x hr' h6' (by omega) hm' h7'
  refine ⟨o, o', dgm, coc, σ, dgm', coc', σ', h1, h1', g1, g2, g3, g1', g2', g3', ?_⟩
  intro z z' j j' b d c₀ c₀' c a1 a2 a3 a1' a2' a3' hl hl' env fuel history history' perc q std check bump mode r hr2 hcheck
  rw [C85_complex_projective_history env fuel o hfv, C85_complex_projective_history env fuel o' hfv']
  obtain ⟨pt, c₁, s, e1, e2, e3, e4, -, e6⟩ := g4 z j a1
  rw [a2] at e1
  injection e1 with e1
  subst e1
  rw [a3] at e2
  injection e2 with e2
  subst e2
  obtain ⟨pt', c₁', s', e1', e2', e3', e4', -, e6'⟩ := g4' z' j' a1'
  rw [a2'] at e1'
  injection e1' with e1'
  subst e1'
  rw [a3'] at e2'
  injection e2' with e2'
  subst e2'
  rw [hland] at e6'
  have hlen : res.idxPerm.length = k := hr.count
  obtain ⟨v, v1, v2, v3⟩ := dense_unique2 hr.nodup (N := k) (D := 3) hlen le_rfl (by norm_num) hp e6 e4 hl
  obtain ⟨v', v1', v2', v3'⟩ := dense_unique2 hr.nodup (N := k) (D := 3) hlen le_rfl (by norm_num) hp' e6' e4' hl'
  obtain rfl : v = v' := by
    refine dense_ext2 v2 v2' fun i j l q1 q2 q3 => ?_
    have hmem : ∀ l, l < k → res.idxPerm.getD l 0 ∈ res.idxPerm.toFinset := by
      intro l hl; rw [getD_of_lt (by omega), List.mem_toFinset]; exact List.getElem_mem _
    have h1 := v3 _ (hmem i (by omega)) _ (hmem j (by omega)) _ (hmem l q3)
    have h2 := v3' _ (hmem i (by omega)) _ (hmem j (by omega)) _ (hmem l q3)
    unfold pushCochain2 triVal at h1 h2
    rw [idxOf_getD hr.nodup (by omega), idxOf_getD hr.nodup (by omega), idxOf_getD hr.nodup (by omega), if_pos ⟨q1, q2⟩] at h1 h2
    exact h1.trans h2.symm
  -- the two objects
  have hN : 0 < x.nPoints := by
    have h0 : 0 < res.idxPerm.length := by omega
    exact lt_of_lt_of_le (lt_of_le_of_lt (Nat.zero_le _) (hr.range _ (List.getElem_mem h0))) hx.rows
  obtain ⟨i2, i3, i4, i6⟩ := projInitWith_landmarks h1
  obtain ⟨i2', i3', i4', i6'⟩ := projInitWith_landmarks h1'
  rw [nData_eq] at i6 i6'
  have hdata' := h5'.data
  rw [hland] at i4' i6'
  simp only [hland] at hdata'
  have hdist : o'.dist = o.dist := dist_eq_of_data (by omega) hN h5.data hdata' i6 i6'
  have hdll : o'.distLandLand = o.distLandLand := by
    unfold ProjObj.distLandLand
    rw [hdist, i4, i4']
  have hunchecked : (cpGetCoordinates env fuel o ⟨.fin perc, .int z, q, bump, std, false, mode⟩).2 =
      (cpGetCoordinates env fuel o' ⟨.fin perc, .int z', q, bump, std, false, mode⟩).2 := by
    unfold cpGetCoordinates
    simp only [Nat.cast_ofNat] at e3 e3'
    simp only [e3, e3']
    rcases getCoverRadius (.fin perc) (.fin b) (.fin d) std with e | radius
    · rfl
    simp only
    rw [hdist, hdll, h3, h3', h4, h4', i3, i3', hT, hT', h2, h2', v1, v1']
    simp only [checkAndRepair2AsIs, checkAndRepair2, Bool.false_eq_true, false_and, if_false]
    rcases getCoveringPartition x.distDType k x.nPoints (fun l i => Fl.fin (o.dist l i)) radius.1 bump with e | cov
    · rfl
    simp only
    rcases makeDelta1 k (fun l m => (o.distLandLand l m : EReal)) (ripsThr radius.2) (cnsTable k 3) with e | delta1
    · rfl
    simp only
    rcases ppca env.eigh fuel (sparseIntegrate2 (harmonic2 env.lsqr (fun e => v.getD e 0) delta1).1
      (harmonic2 env.lsqr (fun e => v.getD e 0) delta1).2 cov k x.nPoints (fun l m => (o.distLandLand l m : EReal)) (ripsThr radius.2)
      (cnsTable k 3)) q mode with e | R
    · rfl
    rfl
  rcases check with _ | _
  · exact hunchecked
  · have hc := hcheck rfl
    have hsym : ∀ u ∈ res.idxPerm, ∀ v ∈ res.idxPerm, δ u v = δ v u := fun u hu v hv' =>
      hx.metric.symm u (hr.range u hu) v (hr.range v hv')
    have hco : IsCocycle2 res.idxPerm.length o.distLandLand (2 * r) fun e => v.getD e 0 := by
      rw [← isDataCocycle2_iff hr.nodup hsym h5.land]
      intro u hu w hw y hy t ht q1 q2 q3 q4 q5 q6
      rw [v3 _ hw _ hy _ ht, v3 _ hu _ hy _ ht, v3 _ hu _ hw _ ht, v3 _ hu _ hw _ hy]
      exact hc u hu w hw y hy t ht q1 q2 q3 q4 q5 q6
    have n1 := C108_cp_check_neutral env fuel o wf ⟨.fin perc, .int z, q, bump, std, true, mode⟩ b d perc rfl s (by simpa using e3) (by
      intro u hu
      rw [hT, h2, h3, v1] at hu
      injection hu with hu
      subst hu
      rw [h3, ← hlen, ← hr2]
      exact hco)
    have n2 := C108_cp_check_neutral env fuel o' wf' ⟨.fin perc, .int z', q, bump, std, true, mode⟩ b d perc rfl s' (by simpa using e3') (by
      intro u hu
      rw [hT', h2', h3', v1'] at hu
      injection hu with hu
      subst hu
      rw [h3', ← hlen, ← hr2, hdll]
      exact hco)
    simp only at n1 n2
    rw [n1, n2]
    exact hunchecked

end

end Dreimac
