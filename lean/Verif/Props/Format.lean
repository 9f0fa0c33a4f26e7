import Verif.Spec.Format
import Verif.Props.Prime
import Verif.Props.Invariance

/-!
# C128: how the data are passed does not matter
-/

namespace Dreimac

noncomputable section
variable {k : ℕ} {δ : ℕ → ℕ → ℝ} {p : ℤ} {maxdim : ℕ} {res res' : RipserResult ℝ} {ρ ρ' : ℝ → ℝ}

/-- The constructor of `EMCoords` uses only the landmarks, the diagrams and the cocycles, apart from the distances. -/
theorem emInit_format (argsort : List (Fl ℝ) → List ℕ) (h : SameRipser res res') (u u' : Bool) (X X' : ℕ → ℕ → Fl ℝ) (nX : ℕ) (p : ℤ)
    (maxdim : ℕ) :
    (∃ e, emInit argsort res u X nX p maxdim = .error e ∧ emInit argsort res' u' X' nX p maxdim = .error e) ∨
    ∃ o o', emInit argsort res u X nX p maxdim = .ok o ∧ emInit argsort res' u' X' nX p maxdim = .ok o' ∧
      o' = { o with distLandData := o'.distLandData } := by
  unfold emInit
  rw [h.1, h.2, h.3]
  by_cases hm : maxdim < 1
  · exact Or.inl ⟨_, by rw [if_pos hm], by rw [if_pos hm]⟩
  rw [if_neg hm, if_neg hm]
  simp only [bind, Except.bind, pure, Except.pure]
  rcases sortLoop argsort maxdim res.dgms res.cocycles with e | ⟨d, c⟩
  · exact Or.inl ⟨_, rfl, rfl⟩
  simp only
  rcases reindexCocycles c res.idxPerm nX with e | c'
  · exact Or.inl ⟨_, rfl, rfl⟩
  · exact Or.inr ⟨_, _, rfl, rfl, rfl⟩

/-- The stored distances depend only on the distances of the data set. -/
theorem realDist_format {n : ℕ} {argsort : List (Fl ℝ) → List ℕ} (ha : ArgsortSpec argsort) (hm : 1 ≤ maxdim) (hk : 0 < k)
    (hr : RipserSpec ρ n k δ p maxdim res) (x : DataInput) (hn : x.rows = n) (hx : DescribesData x δ) {o : EMObject ℝ}
    (ho : emInit argsort res x.useDperm (fun u i => .fin (x.entries u i)) x.rows p maxdim = .ok o) :
    o.realDist x.nPoints = clampArr k x.nPoints fun l i => δ (res.idxPerm.getD l 0) i := by
  obtain ⟨obj, h1, h2, h3, h4, h5, h6, h7⟩ := emInit_data hr argsort ha hm x hn hx hk
  rw [ho] at h1
  injection h1 with h1
  subst h1
  have hlen : res.idxPerm.length = k := hr.count
  have hrow : 0 < x.nPoints := by
    have h0 : 0 < res.idxPerm.length := by omega
    have := hr.range _ (List.getElem_mem h0)
    have := hx.rows
    omega
  funext l i
  have e1 : o.realDist x.nPoints l i = o.realDist x.nPoints (min l (k - 1)) (min i (x.nPoints - 1)) := by
    unfold EMObject.realDist clampArr
    rw [h3, hlen, min_eq_left (min_le_right l (k - 1)), min_eq_left (min_le_right i _)]
  have hl : min l (k - 1) < res.idxPerm.length := by omega
  rw [e1, h4.data _ hl _ (by omega)]
  simp only [clampArr, List.getD_eq_getElem?_getD, List.getElem?_eq_getElem hl, Option.getD_some]

/-- **C128 (same data points).** A data set can be passed as a point cloud, as a square distance matrix or (with more data points
than rows) as a rectangular one. If two arrays describe the same distances, and ripser finds the same classes for both,
then each of the constructors returns the same object for both; so all later calls have the same results. -/
theorem C128_same_object (x x' : DataInput) (hx : DescribesData x δ) (hx' : DescribesData x' δ) (hrows : x'.rows = x.rows)
    (hN : x'.nPoints = x.nPoints) (hr : RipserSpec ρ x.rows k δ p maxdim res) (hr' : RipserSpec ρ' x.rows k δ p maxdim res')
    (hs : SameRipser res res') (argsort : List (Fl ℝ) → List ℕ) (ha : ArgsortSpec argsort) (hm : 1 ≤ maxdim) (hk : 0 < k)
    (hf : x.distanceMatrix = true → x.dtype = .float) (hf' : x'.distanceMatrix = true → x'.dtype = .float) (nLandmarks : ℕ) :
    (∃ o, toroInit argsort res x nLandmarks p maxdim = .ok o ∧ toroInit argsort res' x' nLandmarks p maxdim = .ok o) ∧
    (∃ o, lensInit argsort res x p maxdim = .ok o ∧ lensInit argsort res' x' p maxdim = .ok o) ∧
    (p = 2 → ∃ o, projInit argsort res x maxdim = .ok o ∧ projInit argsort res' x' maxdim = .ok o) ∧
    ∃ o, cpInit argsort res x nLandmarks p maxdim = .ok o ∧ cpInit argsort res' x' nLandmarks p maxdim = .ok o := by
  obtain ⟨obj, h1, -⟩ := emInit_data hr argsort ha hm x rfl hx hk
  obtain ⟨obj', h1', -⟩ := emInit_data hr' argsort ha hm x' hrows hx' hk
  have hd := realDist_format ha hm hk hr x rfl hx h1
  have hd' := realDist_format ha hm hk hr' x' hrows hx' h1'
  rw [hN, hs.1, ← hd] at hd'
  have hsame : obj' = { obj with distLandData := obj'.distLandData } := by
    have := emInit_format argsort hs x.useDperm x'.useDperm (fun u i => .fin (x.entries u i)) (fun u i => .fin (x'.entries u i)) x.rows p
      maxdim
    rw [h1] at this
    rw [← hrows, h1'] at this
    rcases this with ⟨e, he, -⟩ | ⟨o, o', e1, e2, e3⟩
    · simp at he
    · injection e1 with e1; injection e2 with e2
      subst e1; subst e2; exact e3
  have hproj : ∀ table, ∃ o, projInitWith table argsort res x p maxdim = .ok o ∧ projInitWith table argsort res' x' p maxdim = .ok o := by
    intro table
    have e : projInitWith table argsort res' x' p maxdim = projInitWith table argsort res x p maxdim := by
      simp only [projInitWith, bind, Except.bind, h1, h1', pure, Except.pure, nData_eq, hN, hd', distDType_float hf, distDType_float hf']
      rw [hsame]
      rfl
    rw [e]
    simp only [projInitWith, bind, Except.bind, h1, pure, Except.pure]
    exact ⟨_, rfl, rfl⟩
  refine ⟨?_, hproj [], ?_, hproj _⟩
  · have e : toroInit argsort res' x' nLandmarks p maxdim = toroInit argsort res x nLandmarks p maxdim := by
      simp only [toroInit, bind, Except.bind, h1, h1', pure, Except.pure, nData_eq, hN, hd', distDType_float hf, distDType_float hf']
      rw [hsame]
      rfl
    rw [e]
    simp only [toroInit, bind, Except.bind, h1, pure, Except.pure]
    exact ⟨_, rfl, rfl⟩
  · rintro rfl
    exact hproj []

/-- **C128 (more data points).** If the second array describes more data points (rows of a rectangular distance matrix are longer),
the circular and toroidal coordinates of the data points of the first array are the same, after any histories of calls, and the
calls raise the same exceptions. -/
theorem C128_more_points (x x' : DataInput) (hx : DescribesData x δ) (hx' : DescribesData x' δ) (hrows : x'.rows = x.rows)
    (hN : x.nPoints ≤ x'.nPoints) (hr : RipserSpec ρ x.rows k δ p maxdim res) (hr' : RipserSpec ρ' x.rows k δ p maxdim res')
    (hs : SameRipser res res') (argsort : List (Fl ℝ) → List ℕ) (ha : ArgsortSpec argsort) (hm : 1 ≤ maxdim) (hk : 0 < k)
    (hk' : k ≤ 2345)
    (hf : x.distanceMatrix = true → x.dtype = .float) (hf' : x'.distanceMatrix = true → x'.dtype = .float) :
    ∃ o o', toroInit argsort res x k p maxdim = .ok o ∧ toroInit argsort res' x' k p maxdim = .ok o' ∧
      ∀ (env : Oracles) (fuel : ℕ) (history history' : List (ℕ × Args)) (a : Args),
        (∀ e, (getCoordinates env fuel (afterCalls env o history) a).2 = .error e ↔
          (getCoordinates env fuel (afterCalls env o' history') a).2 = .error e) ∧
        ∀ θ, (getCoordinates env fuel (afterCalls env o history) a).2 = .ok θ →
          ∃ θ', (getCoordinates env fuel (afterCalls env o' history') a).2 = .ok θ' ∧ θ'.length = θ.length ∧
            ∀ j, ∀ i < x.nPoints, (θ'.getD j fun _ => 0) i = (θ.getD j fun _ => 0) i := by
  obtain ⟨o, h1, h2, h3, h4, h5, h6, h7, wf, hv, hT⟩ := C88_toroidal_constructor x hx hr argsort ha hm hk (by omega) hf
  rw [← hrows] at hr'
  obtain ⟨o', h1', h2', h3', h4', h5', h6', h7', wf', hv', hT'⟩ := C88_toroidal_constructor x' hx' hr' argsort ha hm hk (by omega) hf'
  refine ⟨o, o', h1, h1', ?_⟩
  intro env fuel history history' a
  rw [(C08_repeatable env o hv history fuel _).1, (C08_repeatable env o' hv' history' fuel _).1]
  have hlen : res.idxPerm.length = k := hr.count
  have hfields : o'.dgms = o.dgms ∧ o'.cocycles = o.cocycles := by
    have := emInit_format argsort hs x.useDperm x'.useDperm (fun u i => .fin (x.entries u i)) (fun u i => .fin (x'.entries u i)) x.rows p
      maxdim
    rcases this with ⟨e, he, -⟩ | ⟨d, d', e1, e2, e3⟩
    · unfold toroInit at h1
      rw [he] at h1
      simp [bind, Except.bind] at h1
    · unfold toroInit at h1 h1'
      rw [e1] at h1
      rw [hrows, e2] at h1'
      simp only [bind, Except.bind, pure, Except.pure, Except.ok.injEq] at h1 h1'
      subst h1 h1'
      rw [e3]
      exact ⟨rfl, rfl⟩
  have hsame : SameLandmarks 1 o o' := by
    refine ⟨by rw [h2', h2], hfields.2, by rw [h3', h3], by rw [hT, hT'], ⟨wf.1, wf'.1⟩, by rw [hfields.1, scaleDgms_one], ?_⟩
    intro l hl m hm
    rw [h3] at hl hm
    rw [one_mul, h5'.land l (by rw [hs.1]; omega) m (by rw [hs.1]; omega), h5.land l (by omega) m (by omega)]
    simp only [hs.1]
  obtain ⟨g1, g2⟩ := C94_coordinates_local o o' hsame env fuel a
  refine ⟨g1, fun θ hθ => ?_⟩
  obtain ⟨θ', e1, -, e2, e3⟩ := g2 θ hθ
  refine ⟨θ', e1, e2, fun j i hi => e3 j i i fun l hl => ?_⟩
  rw [h3] at hl
  rw [h5'.data l (by rw [hs.1]; omega) i (by omega), h5.data l (by omega) i hi]
  simp only [hs.1]

end

end Dreimac
