import Verif.Lemmas.Invariance4
import Verif.Props.ConstructExamples

/-!
# C94: locality and order of the data; C95: independence of the unit of length
-/

namespace Dreimac

/-- **C94.** The circular and toroidal coordinates of a data point depend only on the landmarks and on its own distances
to them.  Take two objects with the same landmarks (the same diagrams, cocycles and distances between landmarks) and
otherwise arbitrary data sets: a call raises the same exception on both, or it returns the same number of coordinates,
and any data points `p`, `p'` of the two that are at the same distances from the landmarks have the same coordinates.
In particular adding, removing, repeating or reordering data points that are not landmarks changes no coordinate of
the others. -/
theorem C94_coordinates_local (o o' : ToroObj) (h : SameLandmarks 1 o o') (env : Oracles) (fuel : ℕ) (a : Args) :
    (∀ e, (getCoordinates env fuel o a).2 = .error e ↔ (getCoordinates env fuel o' a).2 = .error e) ∧
    ∀ θ, (getCoordinates env fuel o a).2 = .ok θ → ∃ θ', (getCoordinates env fuel o' a).2 = .ok θ' ∧
      (getCoordinates env fuel o' a).1.radius = (getCoordinates env fuel o a).1.radius ∧ θ'.length = θ.length ∧
      ∀ k p p', (∀ l < o.nLand, o'.dist l p' = o.dist l p) → (θ'.getD k fun _ => 0) p' = (θ.getD k fun _ => 0) p := by
  rcases getCoordinates_scale one_pos h env fuel a (unitFree_one _) with
    ⟨e, e1, e2⟩ | ⟨θ, θ', e1, e2, -, ⟨q, hq, hq'⟩, hlen, hpts⟩
  · rw [e1, e2]
    exact ⟨fun _ => Iff.rfl, fun θ hθ => by simp at hθ⟩
  · rw [e1, e2]
    refine ⟨fun e => by simp, fun θ₁ hθ => ?_⟩
    injection hθ with hθ
    subst hθ
    refine ⟨θ', rfl, ?_, hlen, fun k p p' hp => hpts k p p' fun l hl => by rw [hp l hl, one_mul]⟩
    rw [hq, hq', Fl.scale_one, Fl.scale_one]

/-- **C94.** Data points at the same distances from the landmarks have the same coordinates. -/
theorem C94_equal_points (o : ToroObj) (hf : o.dtype = .float) (env : Oracles) (fuel : ℕ) (a : Args)
    (θ : List (ℕ → Fl ℝ)) (hθ : (getCoordinates env fuel o a).2 = .ok θ) (p p' : ℕ)
    (hp : ∀ l < o.nLand, o.dist l p' = o.dist l p) (f : ℕ → Fl ℝ) (hf : f ∈ θ) : f p' = f p := by
  have h : SameLandmarks 1 o o :=
    ⟨rfl, rfl, rfl, rfl, ⟨by assumption, by assumption⟩, (scaleDgms_one _).symm, fun _ _ _ _ => (one_mul _).symm⟩
  obtain ⟨θ', h1, -, -, h2⟩ := (C94_coordinates_local o o h env fuel a).2 θ hθ
  rw [hθ] at h1
  injection h1 with h1
  subst h1
  obtain ⟨k, hk, rfl⟩ := List.mem_iff_getElem.1 hf
  have := h2 k p p' hp
  simpa [List.getD_eq_getElem?_getD, hk] using this

/-- **C94.** `LensCoords`: if the data points are reordered, so are the coordinates (with the same variance, radii and
exceptions). -/
theorem C94_lens_reordering (σ : ℕ → ℕ) (o o' : ProjObj) (h : ReorderedData 1 σ o o') (eigh : Eigh ℂ) (fuel : ℕ) (a : ProjArgs) :
    SameOutcome 1 σ o.nData (lensGetCoordinates eigh fuel o a) (lensGetCoordinates eigh fuel o' a) := by
  unfold lensGetCoordinates
  rw [h.prime, h.nLand]
  exact flatGetCoordinates_reorder one_pos h eigh fuel _ _ a (unitFree_one _)

/-- **C94.** `ProjectiveCoords`: if the data points are reordered, so are the coordinates. -/
theorem C94_projective_reordering (σ : ℕ → ℕ) (o o' : ProjObj) (h : ReorderedData 1 σ o o') (eigh : Eigh ℝ) (fuel : ℕ)
    (a : ProjArgs) :
    SameOutcome 1 σ o.nData (projGetCoordinates eigh fuel o a) (projGetCoordinates eigh fuel o' a) := by
  unfold projGetCoordinates
  rw [h.nLand]
  exact flatGetCoordinates_reorder one_pos h eigh fuel _ _ a (unitFree_one _)

/-- **C94.** `ComplexProjectiveCoords`: if the data points are reordered, so are the coordinates. -/
theorem C94_complex_projective_reordering (σ : ℕ → ℕ) (o o' : ProjObj) (h : ReorderedData 1 σ o o') (env : CPOracles)
    (fuel : ℕ) (a : ProjArgs) :
    SameOutcome 1 σ o.nData (cpGetCoordinates env fuel o a) (cpGetCoordinates env fuel o' a) :=
  cpGetCoordinates_reorder one_pos h env fuel a (unitFree_one _)

/-- **C94.** The dimension reduction `ppca` commutes with a reordering of the rows of its argument (the data points). -/
theorem C94_ppca_reordering {𝕜 : Type} [RCLike 𝕜] (eigh : Eigh 𝕜) (fuel : ℕ) (A A' : Arr 𝕜) (σ : ℕ → ℕ)
    (hσ : Set.BijOn σ (Set.Iio A.rows) (Set.Iio A.rows)) (hr : A'.rows = A.rows) (hc : A'.cols = A.cols)
    (hA : ∀ n < A.rows, ∀ i, A'.at' n i = A.at' (σ n) i) (projDim : ℤ) (mode : RedMode) :
    (∀ e, ppca eigh fuel A projDim mode = .error e ↔ ppca eigh fuel A' projDim mode = .error e) ∧
    ∀ R, ppca eigh fuel A projDim mode = .ok R → ∃ R', ppca eigh fuel A' projDim mode = .ok R' ∧
      R'.variance = R.variance ∧ R'.X.cols = R.X.cols ∧ R'.X.rows = R.X.rows ∧
      ∀ n < A.rows, ∀ i, R'.X.at' n i = R.X.at' (σ n) i := by
  rcases ppca_reorder_core hσ eigh fuel A A' hc ⟨rfl, hr⟩ hA projDim mode with
    ⟨e, e1, e2⟩ | ⟨R, R', e1, e2, hv, hcols, hr, hr', hent⟩
  · rw [e1, e2]
    exact ⟨fun _ => Iff.rfl, fun R hR => by simp at hR⟩
  · rw [e1, e2]
    refine ⟨fun e => by simp, fun R₁ hR => ?_⟩
    injection hR with hR
    subst hR
    exact ⟨R', rfl, hv, hcols, hr'.trans hr.symm, hent⟩

/-- **C95.** The bump functions of the package are unit free. -/
theorem C95_bumps_unit_free (c : ℝ) (hc : 0 < c) :
    UnitFree c bumpLinear ∧ UnitFree c bumpQuadratic ∧ UnitFree c bumpExp :=
  ⟨unitFree_linear hc, unitFree_quadratic hc, unitFree_exp hc⟩

/-- **C95.** Circular and toroidal coordinates do not depend on the unit of length.  Multiply the data by `c > 0` (so that
ripser's diagrams and distances are multiplied by `c`): the constructor succeeds on both or fails on both with the same
exception, every call of `get_coordinates` raises the same exception on both objects or returns the same coordinates for every
data point, and the reported radii are multiplied by `c`. -/
theorem C95_toroidal_units (c : ℝ) (hc : 0 < c) (argsort : List (Fl ℝ) → List ℕ) (hA : UnitFreeSort c argsort)
    (res : RipserResult ℝ) (x : DataInput) (hx : x.distDType = .float) (nLandmarks : ℕ) (prime : ℤ) (maxdim : ℕ)
    (env : Oracles) (fuel : ℕ) (a : Args) (hb : UnitFree c a.bump) :
    (∀ e, toroInit argsort res x nLandmarks prime maxdim = .error e ↔
      toroInit argsort (res.scale c) (x.scale c) nLandmarks prime maxdim = .error e) ∧
    ∀ o, toroInit argsort res x nLandmarks prime maxdim = .ok o →
      ∃ o', toroInit argsort (res.scale c) (x.scale c) nLandmarks prime maxdim = .ok o' ∧
      (∀ e, (getCoordinates env fuel o a).2 = .error e ↔ (getCoordinates env fuel o' a).2 = .error e) ∧
      ∀ θ, (getCoordinates env fuel o a).2 = .ok θ → (getCoordinates env fuel o' a).2 = .ok θ ∧
        (getCoordinates env fuel o' a).1.gramInfo = (getCoordinates env fuel o a).1.gramInfo ∧
        ∃ q, (getCoordinates env fuel o a).1.radius = some q ∧
          (getCoordinates env fuel o' a).1.radius = some (q.1.scale c, q.2.scale c) := by
  rw [toroInit_scale hc hA]
  constructor
  · intro e
    rcases toroInit argsort res x nLandmarks prime maxdim with e' | o <;> simp [Except.map]
  · intro o ho
    rw [ho]
    have hdt : o.dtype = .float := by
      unfold toroInit at ho
      simp only [bind, Except.bind] at ho
      split at ho
      · simp at ho
      · injection ho with ho
        rw [← ho]
        exact hx
    generalize ho' : ({ o with dgms := scaleDgms c o.dgms, dist := fun l i => c * o.dist l i } : ToroObj) = o'
    have hrel : SameLandmarks c o o' := by
      subst ho'
      exact ⟨rfl, rfl, rfl, rfl, ⟨hdt, hdt⟩, rfl, fun _ _ _ _ => rfl⟩
    refine ⟨o', congrArg _ ho', ?_⟩
    rcases getCoordinates_scale hc hrel env fuel a hb with
      ⟨e, e1, e2⟩ | ⟨θ, θ', e1, e2, hg, hq, hlen, hpts⟩
    · rw [e1, e2]
      exact ⟨fun _ => Iff.rfl, fun θ hθ => by simp at hθ⟩
    · rw [e1, e2]
      refine ⟨fun e => by simp, fun θ₁ hθ => ?_⟩
      injection hθ with hθ
      subst hθ
      refine ⟨?_, hg (by subst ho'; rfl), hq⟩
      congr 1
      refine List.ext_getElem hlen fun k h1 h2 => ?_
      funext p
      have := hpts k p p (by subst ho'; exact fun _ _ => rfl)
      simpa [List.getD_eq_getElem?_getD, h1, h2] using this

/-- **C95.** The coordinates of `LensCoords`, `ProjectiveCoords` and `ComplexProjectiveCoords` do not depend on the unit of
length either: for objects whose diagrams and distances differ by the factor `c`, with otherwise equal fields, every
call has the same outcome and reports radii multiplied by `c`. -/
theorem C95_projective_units (c : ℝ) (hc : 0 < c) (o : ProjObj) (hf : o.dtype = .float) (a : ProjArgs)
    (hb : UnitFree c a.bump) (eigh : Eigh ℂ) (eighR : Eigh ℝ) (env : CPOracles) (fuel : ℕ) :
    let o' : ProjObj := { o with dgms := scaleDgms c o.dgms, dist := fun l i => c * o.dist l i }
    SameOutcome c id o.nData (lensGetCoordinates eigh fuel o a) (lensGetCoordinates eigh fuel o' a) ∧
    SameOutcome c id o.nData (projGetCoordinates eighR fuel o a) (projGetCoordinates eighR fuel o' a) ∧
    SameOutcome c id o.nData (cpGetCoordinates env fuel o a) (cpGetCoordinates env fuel o' a) := by
  intro o'
  have h : ReorderedData c id o o' :=
    ⟨rfl, rfl, rfl, rfl, rfl, ⟨hf, hf⟩, rfl, fun _ _ _ _ => rfl, Set.bijOn_id _, fun _ _ _ _ => rfl⟩
  exact ⟨flatGetCoordinates_reorder hc h eigh fuel _ _ a hb, flatGetCoordinates_reorder hc h eighR fuel _ _ a hb,
    cpGetCoordinates_reorder hc h env fuel a hb⟩

/-- **C95.** The constructors of these classes: with scaled data and ripser results they produce these scaled objects, or
the same exception. -/
theorem C95_projective_constructors (c : ℝ) (hc : 0 < c) (argsort : List (Fl ℝ) → List ℕ) (hA : UnitFreeSort c argsort)
    (res : RipserResult ℝ) (x : DataInput) (nLandmarks : ℕ) (prime : ℤ) (maxdim : ℕ) :
    let s : ProjObj → ProjObj := fun o => { o with dgms := scaleDgms c o.dgms, dist := fun l i => c * o.dist l i }
    lensInit argsort (res.scale c) (x.scale c) prime maxdim = (lensInit argsort res x prime maxdim).map s ∧
    projInit argsort (res.scale c) (x.scale c) maxdim = (projInit argsort res x maxdim).map s ∧
    cpInit argsort (res.scale c) (x.scale c) nLandmarks prime maxdim =
      (cpInit argsort res x nLandmarks prime maxdim).map s :=
  ⟨projInitWith_scale hc hA _ _ _ _ _, projInitWith_scale hc hA _ _ _ _ _, projInitWith_scale hc hA _ _ _ _ _⟩

/-! ### instances -/

/-- The octagon with its data points in reverse order. -/
noncomputable def octObjRev : ToroObj :=
  { octObj with dist := fun l i => octDist l (7 - i), idxLand := fun m => 7 - 2 * m }

theorem octObjRev_same : SameLandmarks 1 octObj octObjRev where
  prime := rfl
  cocycles := rfl
  nLand := rfl
  table := rfl
  float := ⟨rfl, rfl⟩
  dgms := (scaleDgms_one _).symm
  landmarks := by
    intro l _ m hm
    have hm : m < 4 := hm
    show ((octDist l (7 - (7 - 2 * m)) : ℕ) : ℝ) = 1 * ((octDist l (2 * m) : ℕ) : ℝ)
    rw [one_mul, show 7 - (7 - 2 * m) = 2 * m by omega]

example (fuel : ℕ) : ∃ θ θ', (getCoordinates idealEnv fuel octObj octArgs).2 = .ok [θ] ∧
    (getCoordinates idealEnv fuel octObjRev octArgs).2 = .ok [θ'] ∧ ∀ i < 8, θ' i = θ (7 - i) := by
  obtain ⟨θ, h1, -⟩ := octObj_call fuel
  obtain ⟨l, h2, -, h3, h4⟩ := (C94_coordinates_local _ _ octObjRev_same idealEnv fuel octArgs).2 _ h1
  obtain ⟨θ', rfl⟩ := List.length_eq_one_iff.1 h3
  exact ⟨θ, θ', h1, h2, fun i _ => h4 0 (7 - i) i fun l _ => rfl⟩

example (fuel : ℕ) : ∃ θ, (getCoordinates idealEnv fuel octObj octArgs).2 = .ok [θ] ∧ θ 11 = θ 3 := by
  obtain ⟨θ, h1, -⟩ := octObj_call fuel
  refine ⟨θ, h1, C94_equal_points octObj rfl idealEnv fuel octArgs _ h1 3 11 (fun l hl => ?_) θ (by simp)⟩
  have : ∀ l < 4, octDist l 11 = octDist l 3 := by decide
  show ((octDist l 11 : ℕ) : ℝ) = (octDist l 3 : ℕ)
  rw [this l hl]

theorem reverse_bijOn : Set.BijOn (fun i => 7 - i) (Set.Iio 8) (Set.Iio 8) := by
  refine ⟨fun i hi => ?_, fun i hi j hj h => ?_, fun i hi => ⟨7 - i, ?_, ?_⟩⟩
  all_goals simp only [Set.mem_Iio] at *
  all_goals omega

/-- The octagon of the lens and projective coordinates in reverse order. -/
noncomputable def octProjRev (p v : ℤ) : ProjObj :=
  { octProj p v with dist := fun l i => octDist l (7 - i), idxLand := fun m => 7 - 2 * m }

theorem octProjRev_same (p v : ℤ) : ReorderedData 1 (fun i => 7 - i) (octProj p v) (octProjRev p v) where
  prime := rfl
  cocycles := rfl
  nLand := rfl
  nData := rfl
  table := rfl
  float := ⟨rfl, rfl⟩
  dgms := (scaleDgms_one _).symm
  landmarks := by
    intro l _ m hm
    have hm : m < 4 := hm
    show ((octDist l (7 - (7 - 2 * m)) : ℕ) : ℝ) = 1 * ((octDist l (2 * m) : ℕ) : ℝ)
    rw [one_mul, show 7 - (7 - 2 * m) = 2 * m by omega]
  bijective := reverse_bijOn
  points := fun _ _ _ _ => (one_mul _).symm

example (eigh : Eigh ℂ) : ∃ X X' : Arr ℂ,
    (lensGetCoordinates eigh 4 (octProj 3 2) (octProjArgs .exponential 2)).2 = .ok X ∧
    (lensGetCoordinates eigh 4 (octProjRev 3 2) (octProjArgs .exponential 2)).2 = .ok X' ∧
    ∀ n < 8, ∀ k, X'.at' n k = X.at' (7 - n) k := by
  obtain ⟨X, r, h1, -⟩ := C84_lens_returns eigh 4 (octProj 3 2) (octProjArgs .exponential 2) (octProj_wf 3 2)
    2 4 (1 / 2) _ (octProj_class 3 2) rfl (by norm_num [octProjArgs]) positiveBump_linear (by simp [octProjArgs]) 2 rfl
    (by norm_num) (by decide) (by decide)
  rcases C94_lens_reordering _ _ _ (octProjRev_same 3 2) eigh 4 (octProjArgs .exponential 2) with
    ⟨e, h2, -⟩ | ⟨Y, Y', h2, h3, -, -, -, -, -, h4⟩
  · rw [h1] at h2; simp at h2
  · rw [h1] at h2; injection h2 with h2; subst h2
    exact ⟨X, Y', h1, h3, h4⟩

example (eigh : Eigh ℝ) (fuel : ℕ) (mode : RedMode) (dim : ℤ) : SameOutcome 1 (fun i => 7 - i) 8
    (projGetCoordinates eigh fuel (octProj 2 1) (octProjArgs mode dim))
    (projGetCoordinates eigh fuel (octProjRev 2 1) (octProjArgs mode dim)) :=
  C94_projective_reordering _ _ _ (octProjRev_same 2 1) eigh fuel _

/-- The octahedron with eight data points in reverse order. -/
noncomputable def octaRev (z : ℤ) : ProjObj :=
  { octa 8 z with dist := fun l i => (octaDist l (7 - i) : ℝ) / 10, idxLand := fun m => 7 - m }

theorem octaRev_same (z : ℤ) : ReorderedData 1 (fun i => 7 - i) (octa 8 z) (octaRev z) where
  prime := rfl
  cocycles := rfl
  nLand := rfl
  nData := rfl
  table := rfl
  float := ⟨rfl, rfl⟩
  dgms := (scaleDgms_one _).symm
  landmarks := by
    intro l _ m hm
    have hm : m < 6 := hm
    show ((octaDist l (7 - (7 - m)) : ℕ) : ℝ) / 10 = 1 * (((octaDist l m : ℕ) : ℝ) / 10)
    rw [one_mul, show 7 - (7 - m) = m by omega]
  bijective := reverse_bijOn
  points := fun _ _ _ _ => (one_mul _).symm

example (env : CPOracles) (fuel : ℕ) (a : ProjArgs) : SameOutcome 1 (fun i => 7 - i) 8
    (cpGetCoordinates env fuel (octa 8 1) a) (cpGetCoordinates env fuel (octaRev 1) a) :=
  C94_complex_projective_reordering _ _ _ (octaRev_same 1) env fuel a

example (eigh : Eigh ℂ) (eighR : Eigh ℝ) (env : CPOracles) :
    SameOutcome 1000 id 8 (lensGetCoordinates eigh 4 (octProj 3 2) (octProjArgs .exponential 2))
      (lensGetCoordinates eigh 4 { octProj 3 2 with dgms := scaleDgms 1000 (octProj 3 2).dgms, dist := fun l i => 1000 * (octProj 3 2).dist l i }
        (octProjArgs .exponential 2)) :=
  (C95_projective_units 1000 (by norm_num) (octProj 3 2) rfl _ (C95_bumps_unit_free _ (by norm_num)).1 eigh eighR env 4).1

theorem Fl.sortLe_scale {c : ℝ} (hc : 0 < c) (a b : Fl ℝ) : Fl.sortLe (a.scale c) (b.scale c) = Fl.sortLe a b := by
  cases a <;> cases b <;> simp [Fl.sortLe, Fl.lt, hc]

theorem idealArgsort_unitFree (c : ℝ) (hc : 0 < c) : UnitFreeSort c idealArgsort := by
  intro keys
  unfold idealArgsort
  rw [List.length_map]
  congr 1
  funext i j
  have e : ∀ i, (keys.map (Fl.scale c)).getD i .nan = (keys.getD i .nan).scale c := by
    intro i
    rw [List.getD_eq_getElem?_getD, List.getD_eq_getElem?_getD, List.getElem?_map]
    cases keys[i]? <;> rfl
  rw [e, e, Fl.sortLe_scale hc]

/-- The octagon measured in other units. -/
example (fuel : ℕ) (env : Oracles) (o : ToroObj) (ho : toroInit idealArgsort (octRipser 1) octInput 4 3 1 = .ok o)
    (θ : List (ℕ → Fl ℝ)) (hθ : (getCoordinates env fuel o octArgs).2 = .ok θ) :
    ∃ o', toroInit idealArgsort ((octRipser 1).scale 1000) (octInput.scale 1000) 4 3 1 = .ok o' ∧
      (getCoordinates env fuel o' octArgs).2 = .ok θ := by
  have h := C95_toroidal_units 1000 (by norm_num) idealArgsort (idealArgsort_unitFree _ (by norm_num)) (octRipser 1)
    octInput rfl 4 3 1 env fuel octArgs (C95_bumps_unit_free _ (by norm_num)).1
  obtain ⟨o', h1, -, h2⟩ := h.2 o ho
  exact ⟨o', h1, (h2 θ hθ).1⟩

end Dreimac
