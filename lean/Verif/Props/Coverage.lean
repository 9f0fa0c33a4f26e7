import Mathlib.Data.Fintype.Card
import Verif.Spec.Landmarks
import Verif.Props.Construct

/-!
# C118: which data points get coordinates
-/

namespace Dreimac

section
variable {k : ℕ} {δ : ℕ → ℕ → ℝ} {p : ℤ} {maxdim : ℕ} {res : RipserResult ℝ} {ρ : ℝ → ℝ}

/-- Farthest point sampling: if the rows split into as many groups of diameter less than `r` as there are landmarks, then every
row is closer than `r` to a landmark. -/
theorem farthest_covers {n : ℕ} {S : List ℕ} {r : ℝ} (hS : 0 < S.length) (hrange : ∀ u ∈ S, u < n)
    (hsymm : ∀ u < n, ∀ v < n, δ u v = δ v u) (hfar : FarthestLandmarks n δ S) (hg : SplitsIntoGroups n S.length δ r)
    (x : ℕ) (hx : x < n) : ∃ u ∈ S, δ u x < r := by
  by_contra hcon
  push Not at hcon
  obtain ⟨g, hg1, hg2⟩ := hg
  have hsep : ∀ j l (hj : j < l) (hl : l < S.length), r ≤ δ S[j] S[l] := by
    intro j l hj hl
    obtain ⟨m, hm, h⟩ := hfar l (by omega) hl x hx j hj
    exact (hcon _ (List.getElem_mem _)).trans h
  -- the landmarks and `x` are `S.length + 1` points in `S.length` groups
  let pt : Fin (S.length + 1) → ℕ := fun i => if h : (i : ℕ) < S.length then S[(i : ℕ)] else x
  have hpt : ∀ i, pt i < n := by
    intro i
    simp only [pt]
    split_ifs with h
    · exact hrange _ (List.getElem_mem _)
    · exact hx
  have hsep' : ∀ i j : Fin (S.length + 1), i < j → r ≤ δ (pt i) (pt j) := by
    intro i j hij
    have hi : (i : ℕ) < S.length := by have := j.isLt; have : (i : ℕ) < j := hij; omega
    simp only [pt, dif_pos hi]
    split_ifs with h
    · exact hsep i j hij h
    · exact hcon _ (List.getElem_mem _)
  let G : Fin (S.length + 1) → Fin S.length := fun i => ⟨g (pt i), hg1 _ (hpt i)⟩
  obtain ⟨i, j, hij, hG⟩ := Fintype.exists_ne_map_eq_of_card_lt G (by simp)
  have hG' : g (pt i) = g (pt j) := congrArg Fin.val hG
  have hlt := hg2 _ (hpt i) _ (hpt j) hG'
  rcases lt_or_gt_of_ne hij with h | h
  · exact absurd (hsep' i j h) (not_le.2 hlt)
  · rw [hsymm _ (hpt i) _ (hpt j)] at hlt
    exact absurd (hsep' j i h) (not_le.2 hlt)

/-- The rows covered by the balls, in terms of the landmarks: all rows if every row is a landmark, and all rows if the landmarks
are chosen by farthest point sampling and the rows split into `k` groups of diameter less than `r`. -/
theorem rows_covered (x : DataInput) (hx : DescribesData x δ) (hr : RipserSpec ρ x.rows k δ p maxdim res) (hk : 0 < k) {r : ℝ}
    (h : ((∀ u < x.rows, δ u u = 0) ∧ 0 < r ∧ k = x.rows) ∨
      (FarthestLandmarks x.rows δ res.idxPerm ∧ SplitsIntoGroups x.rows k δ r)) (i : ℕ) (hi : i < x.rows) :
    ∃ u ∈ res.idxPerm, δ u i < r := by
  rcases h with ⟨hd, hr0, hkn⟩ | ⟨hfar, hg⟩
  · refine ⟨i, ?_, by rw [hd i hi]; exact hr0⟩
    have hsub : res.idxPerm.toFinset ⊆ Finset.range x.rows := fun v hv => by
      simpa using hr.range v (by simpa using hv)
    have hcard : res.idxPerm.toFinset.card = x.rows := by rw [List.toFinset_card_of_nodup hr.nodup, hr.count, hkn]
    have := Finset.eq_of_subset_of_card_le hsub (by rw [hcard, Finset.card_range])
    have hmem : i ∈ res.idxPerm.toFinset := by rw [this]; simpa using hi
    simpa using hmem
  · exact farthest_covers (by rw [hr.count]; exact hk) hr.range hx.metric.symm hfar (by rw [hr.count]; exact hg) i hi

/-- The radius of a successful call does not depend on the history. -/
theorem radius_afterCalls {env : Oracles} {fuel : ℕ} {o : ToroObj} {a : Args} {coords : List (ℕ → Fl ℝ)}
    {history : List (ℕ × Args)} (hv : FieldValued o.prime o.cocycles)
    (hok : (getCoordinates env fuel (afterCalls env o history) a).2 = .ok coords) :
    (getCoordinates env fuel (afterCalls env o history) a).1.radius = (getCoordinates env fuel o a).1.radius := by
  have hrel := objRel_afterCalls hv env history
  have hok0 := hok
  rw [result_rel hrel hv] at hok0
  obtain ⟨b, dth, rad, -, -, hsel, hrad, -, -, hr1, -⟩ := success_data hok
  obtain ⟨b', dth', rad', -, -, hsel', hrad', -, -, hr1', -⟩ := success_data hok0
  rw [support_rel hrel, hsel'] at hsel
  injection hsel with e
  injection e with e1 e2
  subst e1; subst e2
  rw [hrad'] at hrad
  injection hrad with hrad
  rw [hr1, hr1', hrad]

/-- A finite radius comes from a finite birth and a finite death. -/
theorem coverRadius_finite {perc r t : ℝ} {b d : Fl ℝ} {std : Bool}
    (h : getCoverRadius (.fin perc) b d std = .ok (.fin r, .fin t)) : ∃ b' d' : ℝ, b = .fin b' ∧ d = .fin d' := by
  have hadd : ∀ (u v : Fl ℝ) (w : ℝ), u + v = .fin w → (∃ u', u = .fin u') ∧ ∃ v', v = .fin v' := by
    intro u v w h
    cases u <;> cases v <;> first | exact ⟨⟨_, rfl⟩, ⟨_, rfl⟩⟩ | (exfalso; revert h; simp [HAdd.hAdd, Add.add, Fl.add])
  have hmul : ∀ (u : ℝ) (v : Fl ℝ) (w : ℝ), Fl.fin u * v = .fin w → ∃ v', v = .fin v' := by
    intro u v w h
    cases v <;> first | exact ⟨_, rfl⟩ | skip
    · cases h
    · exfalso; revert h
      change Fl.neg (Fl.infSign u) = _ → _
      unfold Fl.infSign Fl.neg; split_ifs <;> simp
    · exfalso; revert h
      change Fl.infSign u = _ → _
      unfold Fl.infSign; split_ifs <;> simp
  unfold getCoverRadius at h
  simp only at h
  generalize hstart : (if std = true then Fl.fin 2 * b else b) = start at h
  split at h
  · cases h
  · simp only [Except.ok.injEq, Prod.mk.injEq] at h
    obtain ⟨⟨u, hu⟩, ⟨v, hv⟩⟩ := hadd _ _ _ h.2
    rw [Fl.fin_sub] at hu
    obtain ⟨s, rfl⟩ := hmul _ _ _ hu
    obtain ⟨d', rfl⟩ := hmul _ _ _ hv
    cases std
    · exact ⟨s, d', by simpa using hstart, rfl⟩
    · obtain ⟨b', rfl⟩ := hmul _ _ _ (by simpa using hstart)
      exact ⟨b', d', rfl, rfl⟩

/-- **C118.** `ToroidalCoords(X, n_landmarks).get_coordinates(…)` (and `CircularCoords`) after any history, if it returns with a
radius `r`: the data points without a coordinate (NaN) are exactly those at distance at least `r` from all landmarks, for every
coordinate; no row has NaN if every row is a landmark (and `r > 0`), or if ripser's landmarks are a farthest point sample and the
rows can be split into `n_landmarks` groups of diameter less than `r`. -/
theorem C118_coverage (x : DataInput) (hx : DescribesData x δ) (hr : RipserSpec ρ x.rows k δ p maxdim res)
    (argsort : List (Fl ℝ) → List ℕ) (ha : ArgsortSpec argsort) (hm : 1 ≤ maxdim) (hk : 0 < k) (hk' : k ≤ 65536)
    (hf : x.distanceMatrix = true → x.dtype = .float) :
    ∃ o, toroInit argsort res x k p maxdim = .ok o ∧
      ∀ (env : Oracles) (fuel : ℕ) (history : List (ℕ × Args)) (a : Args) (coords : List (ℕ → Fl ℝ)) (r t : ℝ),
        PositiveBump a.bump → (getCoordinates env fuel (afterCalls env o history) a).2 = .ok coords →
        (getCoordinates env fuel (afterCalls env o history) a).1.radius = some (.fin r, .fin t) →
        (∀ θ ∈ coords, ∀ i < x.nPoints, (θ i = .nan ↔ ∀ u ∈ res.idxPerm, r ≤ δ u i)) ∧
        (((∀ u < x.rows, δ u u = 0) ∧ 0 < r ∧ k = x.rows) ∨
          (FarthestLandmarks x.rows δ res.idxPerm ∧ SplitsIntoGroups x.rows k δ r) →
          ∀ θ ∈ coords, ∀ i < x.rows, ∃ y : ℝ, θ i = .fin y ∧ 0 ≤ y ∧ y < 2 * Real.pi) := by
  obtain ⟨o, h1, -, h3, -, h5, -, -, wf, hv, -⟩ := C88_toroidal_constructor x hx hr argsort ha hm hk hk' hf
  refine ⟨o, h1, fun env fuel history a coords r t hb hok hrad => ?_⟩
  have hrad' := radius_afterCalls hv hok
  rw [hrad'] at hrad
  rw [(C08_repeatable env o hv history fuel a).1] at hok
  have hlen : res.idxPerm.length = o.nLand := by rw [hr.count, h3]
  have hiff : ∀ i < x.nPoints, (∃ l < o.nLand, o.dist l i < r) ↔ ∃ u ∈ res.idxPerm, δ u i < r := by
    intro i hi
    constructor
    · rintro ⟨l, hl, h⟩
      rw [h5.data l (hlen ▸ hl) i hi] at h
      exact ⟨_, List.getElem_mem _, h⟩
    · rintro ⟨u, hu, h⟩
      obtain ⟨l, hl, rfl⟩ := List.mem_iff_getElem.1 hu
      exact ⟨l, hlen ▸ hl, by rw [h5.data l hl i hi]; exact h⟩
  have hnan : ∀ θ ∈ coords, ∀ i < x.nPoints, (θ i = .nan ↔ ∀ u ∈ res.idxPerm, r ≤ δ u i) := by
    intro θ hθ i hi
    rw [C29_coordinates wf hv hb hok hrad θ hθ i, hiff i hi]
    push Not
    rfl
  refine ⟨hnan, fun hcov θ hθ i hi => ?_⟩
  exact C33_angles wf hv hb hok hrad θ hθ i ((hiff i (lt_of_lt_of_le hi hx.rows)).2 (rows_covered x hx hr hk hcov i hi))

/-- **C118.** `CircularCoords(X, n_landmarks).get_coordinates(perc, cocycle_idx = z, check_cocycle_condition = False, …)` after any
history: it returns for every class that lives long enough, and NaN appears exactly at the data points at distance at least `r`
from all landmarks, where `2 * r` is the threshold given by `perc`; so at no row under the conditions of `C118_coverage`. -/
theorem C118_circular (x : DataInput) (hx : DescribesData x δ) (hr : RipserSpec ρ x.rows k δ p maxdim res)
    (argsort : List (Fl ℝ) → List ℕ) (ha : ArgsortSpec argsort) (hm : 1 ≤ maxdim) (hk : 0 < k) (hk' : k ≤ 65536)
    (hf : x.distanceMatrix = true → x.dtype = .float) :
    ∃ o dgm σ, toroInit argsort res x k p maxdim = .ok o ∧ res.dgms[1]? = some dgm ∧ PersistenceRanking dgm σ ∧
      ∀ (z j : ℕ) (b d : ℝ), σ[z]? = some j → dgm[j]? = some (.fin b, .fin d) →
      ∀ (env : Oracles) (fuel : ℕ) (history : List (ℕ × Args)) (perc : ℝ) (std : Bool) (bump : Fl ℝ → Fl ℝ → Fl ℝ),
        PositiveBump bump → (if std then 2 * b else b) ≤ d →
        ∀ r : ℝ, 2 * r = (1 - perc) * (if std then 2 * b else b) + perc * d →
        ∃ θ, (circularGetCoordinates env fuel (afterCalls env o history) (.fin perc) (.int z) bump std false).2 = .ok θ ∧
          (∀ i < x.nPoints, (θ i = .nan ↔ ∀ u ∈ res.idxPerm, r ≤ δ u i)) ∧
          (((∀ u < x.rows, δ u u = 0) ∧ 0 < r ∧ k = x.rows) ∨
            (FarthestLandmarks x.rows δ res.idxPerm ∧ SplitsIntoGroups x.rows k δ r) →
            ∀ i < x.rows, ∃ y : ℝ, θ i = .fin y ∧ 0 ≤ y ∧ y < 2 * Real.pi) := by
  obtain ⟨o, h1, -, h3, -, -, h6, h7, wf, hv, -⟩ := C88_toroidal_constructor x hx hr argsort ha hm hk hk' hf
  obtain ⟨o', h1', hcov⟩ := C118_coverage x hx hr argsort ha hm hk hk' hf
  rw [h1] at h1'
  injection h1' with h1'
  subst h1'
  obtain ⟨dgm, coc, σ, g1, -, g3, g4⟩ := stored_class x hr h6 hm h7
  refine ⟨o, dgm, σ, h1, g1, g3, fun z j b d hz hpt env fuel history perc std bump hb hstart r hr2 => ?_⟩
  obtain ⟨pt, c₁, s, -, e1, -, e3, e4, e5, -⟩ := g4 z j hz
  rw [hpt] at e1
  injection e1 with e1
  subst e1
  have hbd : b < d := by
    obtain ⟨b', q1, q2⟩ := e5
    simp only [Fl.fin.injEq] at q1
    subst q1
    rcases q2 with ⟨d', q3, q4⟩ | q3
    · simp only [Fl.fin.injEq] at q3; subst q3; exact q4
    · simp at q3
  have hvc : ValidClass o (.int z) b d s := ⟨e3, fun r hr' => h3 ▸ (e4.1 r hr').1, e4.2, hbd⟩
  obtain ⟨r', hr', ⟨θ, hok, hrad⟩, -⟩ := C83_one_class env fuel o wf hv (.int z) b d s hvc perc std hstart bump hb
  obtain rfl : r' = r := by linarith
  have hok' := hok
  rw [← (C08_repeatable env o hv history fuel _).1] at hok'
  rw [← radius_afterCalls hv hok'] at hrad
  obtain ⟨q1, q2⟩ := hcov env fuel history ⟨.fin perc, [.int z], bump, std, false⟩ [θ] r' (2 * r') hb hok' hrad
  refine ⟨θ, ?_, q1 θ (by simp), fun h => q2 h θ (by simp)⟩
  unfold circularGetCoordinates
  simp only [hok', bind, Except.bind]
  exact (pyGet_nat [θ] 0 θ).2 rfl

/-- **C118.** A larger `perc` covers at least as many points: if two calls with the same arguments except `perc ≤ perc'` (the
second one after any history) return with finite radii, a data point without a coordinate in the second has none in the first. -/
theorem C118_larger_perc {env : Oracles} {fuel fuel' : ℕ} {o : ToroObj} {a : Args} {coords coords' : List (ℕ → Fl ℝ)}
    {r t r' t' perc perc' : ℝ} (wf : WellFormed o) (hv : FieldValued o.prime o.cocycles) (hb : PositiveBump a.bump)
    (history : List (ℕ × Args)) (ha : a.perc = .fin perc) (hle : perc ≤ perc')
    (hok : (getCoordinates env fuel o a).2 = .ok coords)
    (hr : (getCoordinates env fuel o a).1.radius = some (.fin r, .fin t))
    (hok' : (getCoordinates env fuel' (afterCalls env o history) { a with perc := .fin perc' }).2 = .ok coords')
    (hr' : (getCoordinates env fuel' (afterCalls env o history) { a with perc := .fin perc' }).1.radius = some (.fin r', .fin t')) :
    r ≤ r' ∧ ∀ θ ∈ coords, ∀ θ' ∈ coords', ∀ i, θ' i = .nan → θ i = .nan := by
  rw [radius_afterCalls hv hok'] at hr'
  rw [(C08_repeatable env o hv history fuel' _).1] at hok'
  have hrr : r ≤ r' := by
    obtain ⟨b, dth, rad, -, -, hsel, hrad, -, -, hr1, -⟩ := success_data hok
    obtain ⟨b', dth', rad', -, -, hsel', hrad', -, -, hr1', -⟩ := success_data hok'
    simp only at hsel' hrad'
    rw [hsel] at hsel'
    injection hsel' with e
    injection e with e1 e2
    subst e1; subst e2
    rw [hr] at hr1; rw [hr'] at hr1'
    injection hr1 with e1; injection hr1' with e2
    subst e1; subst e2
    rw [ha] at hrad
    obtain ⟨b0, d0, rfl, rfl⟩ := coverRadius_finite hrad
    have h1 := (C24_monotone _ _ _ _ _ _ _ _ _ hrad hrad' hle).1
    have h2 := coverRadius_half hrad
    have h3 := coverRadius_half hrad'
    linarith
  refine ⟨hrr, fun θ hθ θ' hθ' i hi => ?_⟩
  rw [C29_coordinates (a := { a with perc := .fin perc' }) wf hv hb hok' hr' θ' hθ' i] at hi
  rw [C29_coordinates wf hv hb hok hr θ hθ i]
  rintro ⟨l, hl, h⟩
  exact hi ⟨l, hl, h.trans_le hrr⟩
end

end Dreimac
