import Verif.Spec.Dataset
import Verif.Lemmas.Dataset

/-!
# C88–: the constructors, and the whole program from the data set to the coordinates
-/

namespace Dreimac

/-! ### C88: the constructors -/

/-- The number of data points: the columns of a distance matrix, the rows of a point cloud. -/
def DataInput.nPoints (x : DataInput) : ℕ := if x.distanceMatrix then x.cols else x.rows

theorem nData_eq (x : DataInput) : x.nData = x.nPoints := by
  unfold DataInput.nData DataInput.useDperm DataInput.nPoints
  by_cases h : x.rows = x.cols <;> cases hd : x.distanceMatrix <;> simp [h]

theorem distDType_float {x : DataInput} (hf : x.distanceMatrix = true → x.dtype = .float) : x.distDType = .float := by
  unfold DataInput.distDType
  split_ifs with h
  · exact hf h
  · rfl

/-- The array passed by the user describes the data set with distances `δ`: a point cloud with these distances, a square
distance matrix, or a rectangular one whose first columns are the rows. -/
structure DescribesData (x : DataInput) (δ : ℕ → ℕ → ℝ) : Prop where
  rows : x.rows ≤ x.nPoints
  metric : IsDistanceTable x.rows x.nPoints δ
  entries : x.distanceMatrix = true → ∀ u < x.rows, ∀ i < x.cols, x.entries u i = δ u i

/-- The stored distance arrays are the distances from the landmarks `idx` to the data points and to the landmarks. -/
structure StoresDistances (idx : List ℕ) (N : ℕ) (δ dist dll : ℕ → ℕ → ℝ) : Prop where
  data : ∀ l (h : l < idx.length), ∀ i < N, dist l i = δ idx[l] i
  land : ∀ l (h : l < idx.length), ∀ m (h' : m < idx.length), dll l m = δ idx[l] idx[m]
  nonneg : ∀ l i, 0 ≤ dist l i
  triangle : LandmarkTriangle idx.length dist dll

/-- The positions `σ` list the points of a diagram by decreasing persistence. -/
def PersistenceRanking (dgm : List (Fl ℝ × Fl ℝ)) (σ : List ℕ) : Prop :=
  σ.Perm (List.range dgm.length) ∧
    σ.Pairwise fun i j => ∀ p q, dgm[i]? = some p → dgm[j]? = some q → ¬ LongerLived q p

/-- In every dimension from 1 to `maxdim` the stored diagrams and cocycles are ripser's, by decreasing persistence, with
landmark numbers as vertices. -/
def StoresClasses (res : RipserResult ℝ) (maxdim : ℕ) (dgms : List (List (Fl ℝ × Fl ℝ)))
    (cocycles : List (List SparseCochain)) : Prop :=
  ∀ q, 1 ≤ q → q ≤ maxdim → ∃ dgm coc dgm' coc' σ, res.dgms[q]? = some dgm ∧ res.cocycles[q]? = some coc ∧
    dgms[q]? = some dgm' ∧ cocycles[q]? = some coc' ∧ PersistenceRanking dgm σ ∧
    List.Forall₂ (fun j pt => dgm[j]? = some pt) σ dgm' ∧
    List.Forall₂ (fun j s => ∃ c, coc[j]? = some c ∧ List.Forall₂ (Renamed res.idxPerm) c s) σ coc'

/-- A stored cocycle array of dimension `q` on `k` landmarks: different `q`-simplices with values in the field. -/
def ValidArray (p : ℤ) (k q : ℕ) (s : SparseCochain) : Prop :=
  (∀ r ∈ s, r.Valid k q ∧ 0 ≤ r.val ∧ r.val < p) ∧ s.Pairwise fun r r' => ¬ r.verts.Perm r'.verts

section
variable {n k : ℕ} {δ : ℕ → ℕ → ℝ} {p : ℤ} {maxdim : ℕ} {res : RipserResult ℝ} {ρ : ℝ → ℝ}

theorem ranking_of {dgm dgm' : List (Fl ℝ × Fl ℝ)} {σ : List ℕ} (h1 : σ.Perm (List.range dgm.length))
    (h2 : List.Forall₂ (fun j pt => dgm[j]? = some pt) σ dgm') (h3 : dgm'.Pairwise fun p q => ¬ LongerLived q p) :
    PersistenceRanking dgm σ := by
  refine ⟨h1, ?_⟩
  clear h1
  induction h2 with
  | nil => exact .nil
  | @cons i pt l l' hi hF ih =>
    rw [List.pairwise_cons] at h3 ⊢
    refine ⟨?_, ih h3.2⟩
    intro j hj p' q' hp hq
    obtain ⟨m, hm, rfl⟩ := List.mem_iff_getElem.1 hj
    rw [List.forall₂_iff_get] at hF
    have hm' : m < l'.length := hF.1 ▸ hm
    have e := hF.2 m hm hm'
    simp only [List.get_eq_getElem] at e
    rw [hq] at e
    rw [hp] at hi
    injection e with e
    injection hi with hi
    subst hi
    rw [e]
    exact h3.1 _ (List.getElem_mem _)

/-- What the constructor of the superclass leaves behind. -/
theorem emInit_data (hr : RipserSpec ρ n k δ p maxdim res) (argsort : List (Fl ℝ) → List ℕ) (ha : ArgsortSpec argsort)
    (hm : 1 ≤ maxdim) (x : DataInput) (hn : x.rows = n) (hx : DescribesData x δ) (hk : 0 < k) :
    ∃ obj, emInit argsort res x.useDperm (fun u i => .fin (x.entries u i)) x.rows p maxdim = .ok obj ∧ obj.prime = p ∧
      obj.idxLand = res.idxPerm ∧
      StoresDistances res.idxPerm x.nPoints δ (obj.realDist x.nPoints)
        (fun l m => obj.realDist x.nPoints l (obj.idxLand.getD m 0)) ∧
      StoresClasses res maxdim obj.dgms obj.natCocycles ∧
      (∀ q coc, obj.natCocycles[q]? = some coc → 1 ≤ q → ∀ s ∈ coc, ValidArray p k q s) ∧
      FieldValued p obj.natCocycles := by
  subst hn
  obtain ⟨obj, h1, h2, h3, h4, h5, h6, h7⟩ := emInit_ok hr argsort ha hm x.useDperm (fun u i => .fin (x.entries u i))
  have hlen : 0 < res.idxPerm.length := by rw [hr.count]; exact hk
  have hI : ∀ m, res.idxPerm.getD m 0 < x.rows := by
    intro m
    rw [List.getD_eq_getElem?_getD]
    rcases hg : res.idxPerm[m]? with _ | v
    · have := hr.range res.idxPerm[0] (List.getElem_mem _)
      simp only [Option.getD_none]; omega
    · exact hr.range v (List.mem_of_getElem? hg)
  have hN : 0 < x.nPoints := lt_of_lt_of_le (lt_of_le_of_lt (Nat.zero_le _) (hI 0)) hx.rows
  have hd : ∀ l (h : l < res.idxPerm.length), ∀ i < x.nPoints, (obj.distLandData l i).toReal = δ res.idxPerm[l] i := by
    intro l h i hi
    rw [h6]
    by_cases hu : x.useDperm = true
    · rw [if_pos hu]
      rw [hr.dists l h i (by simpa [← nData_eq, DataInput.nData, hu] using hi)]
      rfl
    · rw [if_neg hu]
      have hc : i < x.cols := by simpa [← nData_eq, DataInput.nData, hu] using hi
      have hdm : x.distanceMatrix = true := by
        unfold DataInput.useDperm at hu
        cases hb : x.distanceMatrix
        · simp [hb] at hu
        · rfl
      simp only [Fl.toReal, List.getD_eq_getElem?_getD, List.getElem?_eq_getElem h, Option.getD_some]
      exact hx.entries hdm _ (hr.range _ (List.getElem_mem _)) i hc
  have hreal : ∀ l i, obj.realDist x.nPoints l i =
      δ (res.idxPerm[min l (res.idxPerm.length - 1)]'(by omega)) (min i (x.nPoints - 1)) := by
    intro l i
    unfold EMObject.realDist clampArr
    rw [h3]
    exact hd _ (by omega) _ (by omega)
  have hS : StoresDistances res.idxPerm x.nPoints δ (obj.realDist x.nPoints)
      (fun l m => obj.realDist x.nPoints l (obj.idxLand.getD m 0)) := by
    refine ⟨?_, ?_, ?_, ?_⟩
    · intro l h i hi
      rw [hreal]
      simp only [show min l (res.idxPerm.length - 1) = l by omega, show min i (x.nPoints - 1) = i by omega]
    · intro l h m h'
      have := hI m
      have := hx.rows
      simp only [hreal, h3, show min l (res.idxPerm.length - 1) = l by omega,
        show min (res.idxPerm.getD m 0) (x.nPoints - 1) = res.idxPerm.getD m 0 by omega]
      simp [List.getElem?_eq_getElem h']
    · intro l i
      rw [hreal]
      exact hx.metric.nonneg _ (hr.range _ (List.getElem_mem _)) _ (by omega)
    · intro l m i hl hm
      have := hI m
      have := hx.rows
      simp only [hreal, h3, show min l (res.idxPerm.length - 1) = l by omega,
        show min m (res.idxPerm.length - 1) = m by omega,
        show min (res.idxPerm.getD m 0) (x.nPoints - 1) = res.idxPerm.getD m 0 by omega]
      have e : res.idxPerm.getD m 0 = res.idxPerm[m] := by simp [List.getElem?_eq_getElem hm]
      rw [e]
      exact hx.metric.triangle _ (hr.range _ (List.getElem_mem _)) _ (hr.range _ (List.getElem_mem _)) _ (by omega)
  have hC : StoresClasses res maxdim obj.dgms obj.natCocycles := by
    intro q hq hq'
    obtain ⟨dgm, coc, dgm', coc', f1, f2, f3, f4, σ, f5, f6, f7, f8⟩ := C26_persistence_order argsort ha res x.useDperm
      (fun u i => .fin (x.entries u i)) x.rows p maxdim hr.isDiagramPoint hr.nodup hr.range hr.vertsInRange obj h1 q hq hq'
    refine ⟨dgm, coc, dgm', coc'.map fun c => c.map ZRow.toRow, σ, f1, f2, f3, ?_, ranking_of f5 f6 f8, f6, ?_⟩
    · unfold EMObject.natCocycles
      rw [List.getElem?_map, f4]; rfl
    · rw [List.forall₂_map_right_iff]
      refine f7.imp ?_
      rintro j c ⟨c₀, g1, g2⟩
      refine ⟨c₀, g1, ?_⟩
      rw [List.forall₂_map_right_iff]
      have hv : ∀ r ∈ c₀, ∀ v ∈ r.verts, ∃ u ∈ res.idxPerm, v = (u : ℤ) := fun r hr' =>
        ((hr.simplices q coc f2 c₀ (List.mem_of_getElem? g1)).1 r hr').2.2.1
      clear g1
      induction g2 with
      | nil => exact .nil
      | @cons a b l l' hab _ ih =>
        exact .cons (renamed_of_relabelled hab (hv a (by simp))) (ih fun r hr' => hv r (by simp [hr']))
  refine ⟨obj, h1, h2, h3, hS, hC, ?_, ?_⟩
  · intro q coc hq hq1 s hs
    have hqm : q ≤ maxdim := by
      have := (List.getElem?_eq_some_iff.1 hq).1
      unfold EMObject.natCocycles at this
      rw [List.length_map, h5] at this
      omega
    obtain ⟨dgm, coc₀, dgm', coc', σ, f1, f2, f3, f4, f5, f6, f7⟩ := hC q hq1 hqm
    rw [hq] at f4
    injection f4 with f4
    subst f4
    obtain ⟨j, -, c, g1, g2⟩ := forall₂_mem_right f7 hs
    obtain ⟨g3, g4⟩ := hr.simplices q coc₀ f2 c (List.mem_of_getElem? g1)
    refine ⟨?_, renamed_distinct g2 g4⟩
    intro r hrs
    obtain ⟨r₀, g5, g6⟩ := forall₂_mem_right g2 hrs
    obtain ⟨g7, g8, -, g9, g10⟩ := g3 r₀ g5
    refine ⟨hr.count ▸ renamed_valid g6 g7 g8, ?_, ?_⟩
    · rw [g6.val]; exact g9
    · rw [g6.val]; exact g10
  · intro ck hck c hc r hrc
    unfold EMObject.natCocycles at hck
    obtain ⟨ck', g1, rfl⟩ := List.mem_map.1 hck
    obtain ⟨c', g2, rfl⟩ := List.mem_map.1 hc
    obtain ⟨r', g3, rfl⟩ := List.mem_map.1 hrc
    obtain ⟨ck₀, g4, c₀, g5, r₀, g6, g7⟩ := h7 ck' g1 c' g2 r' g3
    obtain ⟨q, hq⟩ := List.mem_iff_getElem?.1 g4
    have := ((hr.simplices q ck₀ hq c₀ g5).1 r₀ g6).2.2.2
    simp only [ZRow.toRow, g7]
    exact this

/-- **C88 (circular and toroidal).** For a data set with at least one and at most 65536 landmarks, described by an array of
floats, with ripser behaving as promised: the constructor of `ToroidalCoords` (and of `CircularCoords`) succeeds; the object
stores the distances from the landmarks to the data points, and ripser's classes by decreasing persistence, with landmark
numbers as vertices; every stored array of dimension `q` lists different `q`-simplices with values in `0, …, p - 1`; and the
object has all properties that the theorems about `get_coordinates` assume. -/
theorem C88_toroidal_constructor (x : DataInput) (hx : DescribesData x δ) (hr : RipserSpec ρ x.rows k δ p maxdim res)
    (argsort : List (Fl ℝ) → List ℕ) (ha : ArgsortSpec argsort) (hm : 1 ≤ maxdim) (hk : 0 < k) (hk' : k ≤ 65536)
    (hf : x.distanceMatrix = true → x.dtype = .float) :
    ∃ o, toroInit argsort res x k p maxdim = .ok o ∧ o.prime = p ∧ o.nLand = k ∧ o.nData = x.nPoints ∧
      StoresDistances res.idxPerm x.nPoints δ o.dist o.distLandLand ∧ StoresClasses res maxdim o.dgms o.cocycles ∧
      (∀ q coc, o.cocycles[q]? = some coc → 1 ≤ q → ∀ s ∈ coc, ValidArray p k q s) ∧
      WellFormed o ∧ FieldValued o.prime o.cocycles ∧ o.table = cnsTable k 2 := by
  obtain ⟨obj, h1, h2, h3, h4, h5, h6, h7⟩ := emInit_data hr argsort ha hm x rfl hx hk
  unfold toroInit
  simp only [bind, Except.bind, h1, pure, Except.pure, nData_eq]
  have hkl : obj.idxLand.length = k := by rw [h3, hr.count]
  exact ⟨_, rfl, h2, hkl, rfl, h4, h5, h6,
    ⟨distDType_float hf, ⟨k, 2, hkl.le, le_refl _, rfl⟩, by simpa [hkl] using hk, by simpa [hkl] using hk', h4.nonneg⟩,
    by simpa only [h2] using h7, rfl⟩

theorem projInitWith_spec (table : Table) (x : DataInput) (hx : DescribesData x δ) (hr : RipserSpec ρ x.rows k δ p maxdim res)
    (argsort : List (Fl ℝ) → List ℕ) (ha : ArgsortSpec argsort) (hm : 1 ≤ maxdim) (hk : 0 < k)
    (hf : x.distanceMatrix = true → x.dtype = .float) :
    ∃ o, projInitWith table argsort res x p maxdim = .ok o ∧ o.prime = p ∧ o.nLand = k ∧ o.nData = x.nPoints ∧
      StoresDistances res.idxPerm x.nPoints δ o.dist o.distLandLand ∧ StoresClasses res maxdim o.dgms o.cocycles ∧
      (∀ q coc, o.cocycles[q]? = some coc → 1 ≤ q → ∀ s ∈ coc, ValidArray p k q s) ∧
      ProjWellFormed o ∧ o.table = table ∧ FieldValued o.prime o.cocycles := by
  obtain ⟨obj, h1, h2, h3, h4, h5, h6, h7⟩ := emInit_data hr argsort ha hm x rfl hx hk
  unfold projInitWith
  simp only [bind, Except.bind, h1, pure, Except.pure, nData_eq]
  have hkl : obj.idxLand.length = k := by rw [h3, hr.count]
  exact ⟨_, rfl, h2, hkl, rfl, h4, h5, h6, ⟨distDType_float hf, by simpa [hkl] using hk, h4.nonneg⟩, rfl,
    by simpa only [h2] using h7⟩

/-- **C88 (lens).** The same for the constructor of `LensCoords`. -/
theorem C88_lens_constructor (x : DataInput) (hx : DescribesData x δ) (hr : RipserSpec ρ x.rows k δ p maxdim res)
    (argsort : List (Fl ℝ) → List ℕ) (ha : ArgsortSpec argsort) (hm : 1 ≤ maxdim) (hk : 0 < k)
    (hf : x.distanceMatrix = true → x.dtype = .float) :
    ∃ o, lensInit argsort res x p maxdim = .ok o ∧ o.prime = p ∧ o.nLand = k ∧ o.nData = x.nPoints ∧
      StoresDistances res.idxPerm x.nPoints δ o.dist o.distLandLand ∧ StoresClasses res maxdim o.dgms o.cocycles ∧
      (∀ q coc, o.cocycles[q]? = some coc → 1 ≤ q → ∀ s ∈ coc, ValidArray p k q s) ∧ ProjWellFormed o := by
  obtain ⟨o, h⟩ := projInitWith_spec [] x hx hr argsort ha hm hk hf
  exact ⟨o, h.1, h.2.1, h.2.2.1, h.2.2.2.1, h.2.2.2.2.1, h.2.2.2.2.2.1, h.2.2.2.2.2.2.1, h.2.2.2.2.2.2.2.1⟩

/-- **C88 (projective).** The same for the constructor of `ProjectiveCoords`; the classes are computed modulo 2. -/
theorem C88_projective_constructor (x : DataInput) (hx : DescribesData x δ) (hr : RipserSpec ρ x.rows k δ 2 maxdim res)
    (argsort : List (Fl ℝ) → List ℕ) (ha : ArgsortSpec argsort) (hm : 1 ≤ maxdim) (hk : 0 < k)
    (hf : x.distanceMatrix = true → x.dtype = .float) :
    ∃ o, projInit argsort res x maxdim = .ok o ∧ o.prime = 2 ∧ o.nLand = k ∧ o.nData = x.nPoints ∧
      StoresDistances res.idxPerm x.nPoints δ o.dist o.distLandLand ∧ StoresClasses res maxdim o.dgms o.cocycles ∧
      (∀ q coc, o.cocycles[q]? = some coc → 1 ≤ q → ∀ s ∈ coc, ValidArray 2 k q s) ∧ ProjWellFormed o := by
  obtain ⟨o, h⟩ := projInitWith_spec [] x hx hr argsort ha hm hk hf
  exact ⟨o, h.1, h.2.1, h.2.2.1, h.2.2.2.1, h.2.2.2.2.1, h.2.2.2.2.2.1, h.2.2.2.2.2.2.1, h.2.2.2.2.2.2.2.1⟩

/-- **C88 (complex projective).** The same for the constructor of `ComplexProjectiveCoords`, with at most 2345 landmarks. -/
theorem C88_complex_projective_constructor (x : DataInput) (hx : DescribesData x δ)
    (hr : RipserSpec ρ x.rows k δ p maxdim res) (argsort : List (Fl ℝ) → List ℕ) (ha : ArgsortSpec argsort) (hm : 1 ≤ maxdim)
    (hk : 0 < k) (hk' : k ≤ 2345) (hf : x.distanceMatrix = true → x.dtype = .float) :
    ∃ o, cpInit argsort res x k p maxdim = .ok o ∧ o.prime = p ∧ o.nLand = k ∧ o.nData = x.nPoints ∧
      StoresDistances res.idxPerm x.nPoints δ o.dist o.distLandLand ∧ StoresClasses res maxdim o.dgms o.cocycles ∧
      (∀ q coc, o.cocycles[q]? = some coc → 1 ≤ q → ∀ s ∈ coc, ValidArray p k q s) ∧ CPWellFormed o ∧
      FieldValued o.prime o.cocycles ∧ o.table = cnsTable k 3 := by
  obtain ⟨o, h⟩ := projInitWith_spec (cnsTable k 3) x hx hr argsort ha hm hk hf
  obtain ⟨h1, h2, h3, h4, h5, h6, h7, h8, h9, h10⟩ := h
  exact ⟨o, h1, h2, h3, h4, h5, h6, h7, ⟨h8, ⟨k, 3, h3.le, le_refl _, h9⟩, h3 ▸ hk'⟩, h10, h9⟩

/-- A constructor call with `maxdim = 0` is rejected by an assertion, whatever ripser returns. -/
theorem C88_maxdim_assertion (res : RipserResult ℝ) (x : DataInput) (argsort : List (Fl ℝ) → List ℕ) (k : ℕ) (p : ℤ) :
    toroInit argsort res x k p 0 = .error .assertionError ∧ lensInit argsort res x p 0 = .error .assertionError ∧
    projInit argsort res x 0 = .error .assertionError ∧ cpInit argsort res x k p 0 = .error .assertionError :=
  ⟨rfl, rfl, rfl, rfl⟩

/-! ### C89: one circular coordinate, from the data set to the angles -/

/-- A class of any dimension in terms of the object. -/
theorem stored_class_dim (q : ℕ) (x : DataInput) (hr : RipserSpec ρ x.rows k δ p maxdim res) {dgms : List (List (Fl ℝ × Fl ℝ))}
    {cocycles : List (List SparseCochain)} (hs : StoresClasses res maxdim dgms cocycles) (hq : 1 ≤ q) (hm : q ≤ maxdim)
    (hva : ∀ q coc, cocycles[q]? = some coc → 1 ≤ q → ∀ s ∈ coc, ValidArray p k q s) :
    ∃ dgm coc σ, res.dgms[q]? = some dgm ∧ res.cocycles[q]? = some coc ∧ PersistenceRanking dgm σ ∧
      ∀ (z j : ℕ), σ[z]? = some j → ∃ pt c s, dgm[j]? = some pt ∧ coc[j]? = some c ∧
        getRepresentativeCocycle dgms cocycles (.int z) q = .ok (pt.1, pt.2, s) ∧ ValidArray p k q s ∧ IsInterval pt ∧
        List.Forall₂ (Renamed res.idxPerm) c s := by
  obtain ⟨dgm, coc, dgm', coc', σ, h1, h2, h3, h4, h5, h6, h7⟩ := hs q hq hm
  refine ⟨dgm, coc, σ, h1, h2, h5, ?_⟩
  intro z j hz
  obtain ⟨pt, g1, g2⟩ := forall₂_getElem? h6 hz
  obtain ⟨s, g3, c, g4, g5⟩ := forall₂_getElem? h7 hz
  refine ⟨pt, c, s, g2, g4, ?_, hva q coc' h4 hq s (List.mem_of_getElem? g3),
    hr.intervals q dgm hq h1 pt (List.mem_of_getElem? g2), g5⟩
  have e1 := (pyGet_nat dgms q dgm').2 h3
  have e2 := (pyGet_nat cocycles q coc').2 h4
  have e3 := (pyGet_nat dgm' z pt).2 g1
  have e4 := (pyGet_nat coc' z s).2 g3
  simp only [getRepresentativeCocycle, e1, e2, e3, e4, bind, Except.bind, pure, Except.pure]

/-- A class in terms of the object: the stored array and its dense form. -/
theorem stored_class (x : DataInput) (hr : RipserSpec ρ x.rows k δ p maxdim res) {dgms : List (List (Fl ℝ × Fl ℝ))}
    {cocycles : List (List SparseCochain)} (hs : StoresClasses res maxdim dgms cocycles) (hm : 1 ≤ maxdim)
    (hva : ∀ q coc, cocycles[q]? = some coc → 1 ≤ q → ∀ s ∈ coc, ValidArray p k q s) :
    ∃ dgm coc σ, res.dgms[1]? = some dgm ∧ res.cocycles[1]? = some coc ∧ PersistenceRanking dgm σ ∧
      ∀ (z j : ℕ), σ[z]? = some j → ∃ pt c s ξ, dgm[j]? = some pt ∧ coc[j]? = some c ∧
        getRepresentativeCocycle dgms cocycles (.int z) 1 = .ok (pt.1, pt.2, s) ∧ ValidArray p k 1 s ∧ IsInterval pt ∧
        ListsCochain c ξ ∧ RepresentsPairs s (pullCochain res.idxPerm ξ) ∧
        ∀ t, BeforeDeath ρ pt t → CocycleModOn p res.idxPerm δ t ξ := by
  obtain ⟨dgm, coc, dgm', coc', σ, h1, h2, h3, h4, h5, h6, h7⟩ := hs 1 (le_refl _) hm
  refine ⟨dgm, coc, σ, h1, h2, h5, ?_⟩
  intro z j hz
  obtain ⟨pt, g1, g2⟩ := forall₂_getElem? h6 hz
  obtain ⟨s, g3, c, g4, g5⟩ := forall₂_getElem? h7 hz
  obtain ⟨ξ, g6, g7⟩ := hr.cocycles dgm coc h1 h2 j pt c g2 g4
  refine ⟨pt, c, s, ξ, g2, g4, ?_, hva 1 coc' h4 (le_refl _) s (List.mem_of_getElem? g3),
    hr.intervals 1 dgm (le_refl _) h1 pt (List.mem_of_getElem? g2), g6, represents_of_lists hr.nodup g5 g6, g7⟩
  have e1 := (pyGet_nat dgms 1 dgm').2 h3
  have e2 := (pyGet_nat cocycles 1 coc').2 h4
  have e3 := (pyGet_nat dgm' z pt).2 g1
  have e4 := (pyGet_nat coc' z s).2 g3
  simp only [Nat.cast_one] at e1 e2
  simp only [getRepresentativeCocycle, e1, e2, e3, e4, bind, Except.bind, pure, Except.pure]

theorem threshold_le {d perc start : ℝ} (h0 : 0 ≤ perc) (h1 : perc ≤ 1) (hs : start ≤ d) :
    (1 - perc) * start + perc * d ≤ d := by nlinarith

/-- For an exact ripser, `BelowDeath` compares the threshold with the death. -/
theorem belowDeath_id {t d : ℝ} : BelowDeath id t d ↔ t ≤ d :=
  ⟨fun h => le_of_forall_lt h, fun h _ hx => lt_of_lt_of_le hx h⟩

/-- With an exact ripser, the threshold given by a percentage between 0 and 1 comes before the death. -/
theorem belowDeath_exact {d perc start t : ℝ} (h0 : 0 ≤ perc) (h1 : perc ≤ 1) (hs : start ≤ d)
    (ht : t = (1 - perc) * start + perc * d) : BelowDeath id t d :=
  fun _ hx => hx.trans_le (ht ▸ threshold_le h0 h1 hs)

/-- **C89.** The whole of `CircularCoords(X, n_landmarks, prime = p).get_coordinates(perc, cocycle_idx = z, …)` for a data set
with distances `δ`: the constructor succeeds; if ripser's class number `j` is the `z`-th most persistent one, is alive on
`[b, d)` and its cocycle lists the values `ξ`, and its lifetime is long enough, then, after any history of calls, for the radius
`r` prescribed by `perc`, if the threshold `2 * r` comes before the death in ripser's precision (always for `perc` between 0 and 1 and
an exact ripser, `belowDeath_exact`; for single precision see C119):
* if some integer cocycle on the landmarks (at threshold `2 * r`) is congruent to `ξ` modulo `p`, the call returns the circular
  coordinate of such a cocycle `c` (the one with values between `-p / 2` and `p / 2`, if there is one), for the normalised bump weights and a potential that minimises the energy (with an exact
  least squares solver);
* otherwise it fails with the error that reports the missing lift. -/
theorem C89_circular_coordinates (x : DataInput) (hx : DescribesData x δ) (hr : RipserSpec ρ x.rows k δ p maxdim res)
    (argsort : List (Fl ℝ) → List ℕ) (ha : ArgsortSpec argsort) (hm : 1 ≤ maxdim) (hk : 0 < k) (hk' : k ≤ 2345)
    (hf : x.distanceMatrix = true → x.dtype = .float) (hp : 0 < p) :
    ∃ o dgm coc σ, toroInit argsort res x k p maxdim = .ok o ∧ res.dgms[1]? = some dgm ∧ res.cocycles[1]? = some coc ∧
      PersistenceRanking dgm σ ∧
      ∀ (z j : ℕ) (b d : ℝ) (c₀ : List ZRow), σ[z]? = some j → dgm[j]? = some (.fin b, .fin d) → coc[j]? = some c₀ →
      ∃ ξ, ListsCochain c₀ ξ ∧
      ∀ (env : Oracles) (ε τ : ℝ), 0 ≤ τ → 3 * ε + τ < 1 → SolverSound env.milp ε τ → SolverComplete env.milp →
      ∀ (fuel : ℕ) (history : List (ℕ × Args)) (perc : ℝ) (std : Bool) (bump : Fl ℝ → Fl ℝ → Fl ℝ),
      (if std then 2 * b else b) ≤ d → PositiveBump bump →
      ∀ r : ℝ, 2 * r = (1 - perc) * (if std then 2 * b else b) + perc * d → BelowDeath ρ (2 * r) d →
      ((∃ c, IsIntegerLift p res.idxPerm.toFinset δ (2 * r) ξ c) →
        ∃ θ w c f, (circularGetCoordinates env fuel (afterCalls env o history) (.fin perc) (.int z) bump std true).2 = .ok θ ∧
          IsIntegerLift p res.idxPerm.toFinset δ (2 * r) ξ c ∧ IsSmallestLift p res.idxPerm.toFinset δ (2 * r) ξ c ∧
          IsBumpWeights res.idxPerm.toFinset x.nPoints δ r bump w ∧
          (ExactLsq env.lsqr → ∀ g, dataEnergy res.idxPerm.toFinset δ (2 * r) c f ≤
            dataEnergy res.idxPerm.toFinset δ (2 * r) c g) ∧
          IsDataCoordinate res.idxPerm.toFinset x.nPoints δ r w c f θ) ∧
      ((¬ ∃ c, IsIntegerLift p res.idxPerm.toFinset δ (2 * r) ξ c) →
        (circularGetCoordinates env fuel (afterCalls env o history) (.fin perc) (.int z) bump std true).2 =
          .error (.noIntegralLift 0)) := by
  obtain ⟨o, h1, h2, h3, h4, h5, h6, h7, wf, hv, hT⟩ := C88_toroidal_constructor x hx hr argsort ha hm hk (by omega) hf
  obtain ⟨dgm, coc, σ, g1, g2, g3, g4⟩ := stored_class x hr h6 hm h7
  refine ⟨o, dgm, coc, σ, h1, g1, g2, g3, ?_⟩
  intro z j b d c₀ hz hpt hc₀
  obtain ⟨pt, c₁, s, ξ, e1, e2, e3, e4, e5, e6, e7, e8⟩ := g4 z j hz
  rw [hpt] at e1
  injection e1 with e1
  subst e1
  rw [hc₀] at e2
  injection e2 with e2
  subst e2
  refine ⟨ξ, e6, ?_⟩
  intro env ε τ hτ hετ hsound hcpl fuel history perc std bump hstart hb r hr2 hbel
  -- the history does not matter
  have hhist : (circularGetCoordinates env fuel (afterCalls env o history) (.fin perc) (.int z) bump std true).2 =
      (circularGetCoordinates env fuel o (.fin perc) (.int z) bump std true).2 := by
    unfold circularGetCoordinates
    simp only
    rw [(C08_repeatable env o hv history fuel _).1]
  rw [hhist]
  have hlen : res.idxPerm.length = o.nLand := by rw [hr.count, h3]
  have hbd : b < d := by
    obtain ⟨b', q1, q2⟩ := e5
    simp only [Fl.fin.injEq] at q1
    subst q1
    rcases q2 with ⟨d', q3, q4⟩ | q3
    · simp only [Fl.fin.injEq] at q3; subst q3; exact q4
    · simp at q3
  have hvc : ValidClass o (.int z) b d s :=
    ⟨e3, fun r hr' => h3 ▸ (e4.1 r hr').1, e4.2, hbd⟩
  have hsym : ∀ u ∈ res.idxPerm, ∀ v ∈ res.idxPerm, δ u v = δ v u := fun u hu v hv' =>
    hx.metric.symm u (hr.range u hu) v (hr.range v hv')
  have hland : ∀ l (h : l < res.idxPerm.length), ∀ m (h' : m < res.idxPerm.length),
      o.distLandLand l m = δ res.idxPerm[l] res.idxPerm[m] := h5.land
  obtain ⟨u, hu1, -, hu2⟩ := dense_eq (k := o.nLand) (N := k) (D := 2) h3.le (by omega) hvc.edges hvc.distinct e7
  rw [← hT] at hu1
  have hu2' : ∀ l m, l < m → m < res.idxPerm.length → u.getD (edgeIdx l m) 0 = pullCochain res.idxPerm ξ l m :=
    fun l m h h' => hu2 l m h (hlen ▸ h')
  have hbefore : BeforeDeath ρ (.fin b, .fin d) (2 * r) :=
    Or.inl ⟨d, rfl, hbel⟩
  have hmod : IsCocycle1Mod o.prime o.nLand o.distLandLand (2 * r) (fun e => u.getD e 0) := by
    rw [h2, ← hlen]
    exact isCocycle1Mod_of_data (u := fun e => u.getD e 0) hland hu2' (e8 _ hbefore)
  have hch : CheckedCall env o ⟨.fin perc, [.int z], bump, std, true⟩ :=
    ⟨rfl, h2 ▸ hp, h3 ▸ hk', ε, τ, hτ, hετ, hsound⟩
  obtain ⟨r', hr', -, hcall⟩ := C83_one_class env fuel o wf hv (.int z) b d s hvc perc std hstart bump hb
  obtain rfl : r' = r := by linarith
  obtain ⟨hyes, hno⟩ := hcall hch hcpl u hu1 hmod
  have hT46 := C46_single_class env fuel o (.fin perc) (.int z) bump std true
  simp only at hT46
  have hiff : (∃ c, IsIntegerLift p res.idxPerm.toFinset δ (2 * r') ξ c) ↔
      ∃ c, IntegralLift1 o.prime o.nLand o.distLandLand (2 * r') (fun e => u.getD e 0) c := by
    rw [h2, ← hlen]
    constructor
    · rintro ⟨c, hc⟩
      exact dense_of_isIntegerLift hr.nodup hland hu2' hc
    · rintro ⟨c, hc⟩
      exact ⟨_, isIntegerLift_of_dense hr.nodup hsym hland e6.antisymm hu2' hc⟩
  constructor
  · intro hex
    obtain ⟨θ, hok, hrad⟩ := hyes (hiff.1 hex)
    have hst : StoredCocycles o ⟨.fin perc, [.int z], bump, std, true⟩ r' := by
      intro y hy b' d' s' hs'
      simp only [List.mem_singleton] at hy
      subst hy
      have := hvc.stored
      rw [hs'] at this
      simp only [Except.ok.injEq, Prod.mk.injEq] at this
      obtain ⟨-, -, rfl⟩ := this
      exact ⟨u, hu1, hmod⟩
    have htri : LandmarkTriangle o.nLand o.dist o.distLandLand := hlen ▸ h5.triangle
    obtain ⟨m, w, c, U, f, θ', hdata, hco, hcl, hkk⟩ := C35_represents_classes wf hv hb hok hrad hst hch htri
    have hm1 : m = 1 := by simpa using hdata.len.symm
    subst hm1
    have hU := hdata.single rfl
    have hθ : θ = θ' 0 := by simpa using hco
    have hc : (fun e => ∑ j, U 0 j * c j e) = c 0 := by rw [hU]; funext e; simp
    have hff : (fun l => ∑ j, (U 0 j : ℝ) * f j l) = f 0 := by rw [hU]; funext e; simp
    have hk0 := hkk 0
    rw [hc, hff] at hk0
    obtain ⟨y, b', d', s', u', q1, q2, q3, q4⟩ := hcl 0
    have hy : y = .int z := by simpa using q1.symm
    subst hy
    have := hvc.stored
    rw [q2] at this
    simp only [Except.ok.injEq, Prod.mk.injEq] at this
    obtain ⟨-, -, rfl⟩ := this
    rw [hu1] at q3
    injection q3 with q3
    subst q3
    obtain ⟨cov, hcov, hw⟩ := hdata.weights
    have hdat : ∀ l (h : l < res.idxPerm.length), ∀ i < x.nPoints, o.dist l i = δ res.idxPerm[l] i := h5.data
    rw [h4] at hcov
    rw [← hlen] at hcov hw
    refine ⟨θ, fun u i => w (res.idxPerm.idxOf u) i, pushCochain res.idxPerm (c 0), fun u => f 0 (res.idxPerm.idxOf u),
      (hT46.2.2.2.1 θ).2 hok, ?_, ?_, ?_, ?_, ?_⟩
    · rw [h2, ← hlen] at q4
      exact isIntegerLift_of_dense hr.nodup hsym hland e6.antisymm hu2' q4
    · obtain ⟨y, b'', d'', s'', vv, t1, t2, t3, t4, t5⟩ := hdata.classes 0
      have hy : y = .int z := by simpa using t1.symm
      subst hy
      rw [q2] at t2
      simp only [Except.ok.injEq, Prod.mk.injEq] at t2
      obtain ⟨-, -, rfl⟩ := t2
      obtain ⟨vv', t6, t7⟩ := dense_lift (p := o.prime) hu1
      rw [t6] at t3
      injection t3 with t3
      subst t3
      rw [h2] at t6 t7
      rw [← hlen] at t5
      exact isSmallestLift_of_dense hr.nodup hland hu2' t7 (lifted_bound (fun r hr' => (e4.1 r hr').2) hp t6)
        (fun h => t5 (Or.inr h))
    · exact isBumpWeights_of_cov hr.nodup (by rw [hlen]; exact wf.pos) wf.nonneg hdat hb hcov hw
    · intro hexact g
      have hmin := hdata.minimal hexact 0 (fun l => g (res.idxPerm.getD l 0))
      rw [← hlen] at hmin
      rw [dataEnergy_eq hr.nodup hsym hland]
      have hg : dataEnergy res.idxPerm.toFinset δ (2 * r') (pushCochain res.idxPerm (c 0)) g =
          dataEnergy res.idxPerm.toFinset δ (2 * r') (pushCochain res.idxPerm (c 0))
            (fun u => (fun l => g (res.idxPerm.getD l 0)) (res.idxPerm.idxOf u)) := by
        unfold dataEnergy
        refine Finset.sum_congr rfl fun a ha => Finset.sum_congr rfl fun b' hb' => ?_
        have ha := List.mem_toFinset.1 ha
        have hb' := List.mem_toFinset.1 hb'
        simp only
        rw [getD_of_lt (idxOf_lt ha), getD_of_lt (idxOf_lt hb'), getElem_idxOf' ha, getElem_idxOf' hb']
      have hg' := dataEnergy_eq hr.nodup hsym hland (r := r') (c := c 0) (f := fun l => g (res.idxPerm.getD l 0))
      rw [hg, hg']
      linarith
    · refine isDataCoordinate_of_glued hr.nodup hdat ?_ ?_ ?_
      · intro i
        rw [hlen]
        exact C29_coordinates wf hv hb hok hrad θ (by simp) i
      · intro i l hl
        rw [hlen] at hl ⊢
        rw [hθ]; exact hk0.1 i l hl
      · intro i l m hl hm'
        rw [hlen] at hl hm' ⊢
        have := hk0.2 i l m hl hm'
        rw [this, hU]; simp
  · intro hex
    have := hno (fun h => hex (hiff.2 h))
    exact (hT46.2.2.1 _).1 this

/-! ### C31 for a whole call -/

/-- **C31 is false (a whole call).** For a distance matrix of integer dtype: the constructor succeeds, but with the default
(linear) bump function every call for a class with finite lifetime fails with `ValueError` if some data point is at depth less
than one in every ball of the cover — in particular if it is at distance exactly `r - 1/2` from the nearest landmark, well
inside its ball. -/
theorem C31_integer_matrix_call (x : DataInput) (hx : DescribesData x δ) (hr : RipserSpec ρ x.rows k δ p maxdim res)
    (argsort : List (Fl ℝ) → List ℕ) (ha : ArgsortSpec argsort) (hm : 1 ≤ maxdim) (hk : 0 < k)
    (hd : x.distanceMatrix = true) (hi : x.dtype = .int) :
    ∃ o dgm σ, toroInit argsort res x k p maxdim = .ok o ∧ res.dgms[1]? = some dgm ∧ PersistenceRanking dgm σ ∧
      ∀ (z j : ℕ) (b d : ℝ), σ[z]? = some j → dgm[j]? = some (.fin b, .fin d) →
      ∀ (env : Oracles) (fuel : ℕ) (history : List (ℕ × Args)) (perc : ℝ) (std check : Bool),
      (if std then 2 * b else b) ≤ d → ∀ r : ℝ, 2 * r = (1 - perc) * (if std then 2 * b else b) + perc * d →
      (∃ i < x.nPoints, ∀ v ∈ res.idxPerm, r - 1 < δ v i) →
        (circularGetCoordinates env fuel (afterCalls env o history) (.fin perc) (.int z) bumpLinear std check).2 =
          .error .valueError := by
  obtain ⟨obj, h1, h2, h3, h4, h5, h6, h7⟩ := emInit_data hr argsort ha hm x rfl hx hk
  obtain ⟨dgm, coc, σ, g1, g2, g3, g4⟩ := stored_class x hr h5 hm h6
  have hdt : x.distDType = .int := by unfold DataInput.distDType; rw [if_pos hd, hi]
  have hinit : toroInit argsort res x k p maxdim = .ok
      { prime := obj.prime, dgms := obj.dgms, cocycles := obj.natCocycles, nLand := obj.idxLand.length,
        nData := x.nPoints, dist := obj.realDist x.nPoints, dtype := .int,
        idxLand := fun m => obj.idxLand.getD m 0, table := cnsTable k 2, radius := none, gramInfo := none } := by
    unfold toroInit
    simp only [bind, Except.bind, h1, pure, Except.pure, nData_eq, hdt]
  refine ⟨_, dgm, σ, hinit, g1, g3, ?_⟩
  intro z j b d hz hpt env fuel history perc std check hstart r hr2 hsh
  obtain ⟨pt, c₁, s, ξ, e1, -, e3, -, e5, -, -, -⟩ := g4 z j hz
  rw [hpt] at e1
  injection e1 with e1
  subst e1
  have hbd : b < d := by
    obtain ⟨b', q1, q2⟩ := e5
    simp only [Fl.fin.injEq] at q1
    subst q1
    rcases q2 with ⟨d', q3, q4⟩ | q3
    · simp only [Fl.fin.injEq] at q3; subst q3; exact q4
    · simp at q3
  obtain ⟨r', thr, hrad, hthr, hr2', -⟩ := (C24_cover_radius b d perc std).2 hstart
  obtain rfl : r' = r := by
    have : thr = (1 - perc) * (if std then 2 * b else b) + perc * d := by linear_combination hthr
    linarith
  unfold circularGetCoordinates
  simp only
  rw [(C08_repeatable env _ (by simpa only [h2] using h7) history fuel _).1]
  have hcov : getCoveringPartition .int obj.idxLand.length x.nPoints (fun l i => Fl.fin (obj.realDist x.nPoints l i)) (.fin r')
      bumpLinear = .error .valueError := by
    obtain ⟨i, hi1, hi2⟩ := hsh
    refine covering_int_fails _ _ _ r' i hi1 fun l hl => ?_
    rw [h3] at hl
    rw [h4.data l hl i hi1]
    have := hi2 _ (List.getElem_mem hl)
    linarith
  unfold getCoordinates selectClasses
  simp only [List.mapM_cons, List.mapM_nil, e3, bind, Except.bind, pure, Except.pure, commonSupport, pyMax, pyMin, List.map_nil,
    List.foldl_nil]
  have hge : Fl.ge (.fin b) (.fin d) = false := by
    unfold Fl.ge
    simp [Fl.isNan, Fl.lt, hbd]
  simp only [hge, Bool.false_eq_true, if_false, hrad, coordData, bind, Except.bind, hcov]

end

end Dreimac
