import Verif.Props.EndToEnd2
import Verif.Props.ConstructExamples

/-!
# C92 for an octahedron with 30000 data points
-/

namespace Dreimac

noncomputable def ochδ (u i : ℕ) : ℝ := (octaDist u i : ℝ) / 10

/-- A rectangular distance matrix: the six vertices of the octahedron against 30000 data points. -/
noncomputable def ochInput : DataInput := ⟨6, 30000, ochδ, .float, true⟩

/-- What ripser returns: all vertices as landmarks, one class of dimension 2, with value `a` on one triangle. -/
noncomputable def ochRipser (a : ℤ) : RipserResult ℝ :=
  ⟨[[(.fin 0, .pinf)], [], [(.fin 1, .fin 2)]], [3, 0, 2, 4, 1, 5], [[], [], [[⟨[4, 0, 2], a⟩]]],
    fun l i => .fin (ochδ ([3, 0, 2, 4, 1, 5].getD l 0) i)⟩

theorem ochInput_describes : DescribesData ochInput ochδ where
  rows := by show 6 ≤ 30000; norm_num
  metric := by
    refine ⟨fun u _ i _ => by unfold ochδ; positivity, ?_, fun u hu v hv i _ => octa_triangle 30000 1 u v i hu hv⟩
    intro u hu v hv
    have : ∀ u < 6, ∀ v < 6, octaDist u v = octaDist v u := by decide
    unfold ochδ
    rw [this u hu v hv]
  entries := fun _ _ _ _ _ => rfl

theorem ochRipser_spec (p a : ℤ) (h0 : 0 ≤ a) (hp : a < p) : RipserSpec id 6 6 ochδ p 2 (ochRipser a) where
  count := rfl
  nodup := (by decide : [3, 0, 2, 4, 1, 5].Nodup)
  range := (by decide : ∀ v ∈ [3, 0, 2, 4, 1, 5], v < 6)
  dists := by
    intro l h i _
    show Fl.fin (ochδ ((ochRipser a).idxPerm.getD l 0) i) = _
    rw [getD_of_lt h]
  dims := ⟨rfl, rfl⟩
  classes := by
    intro q dgm coc hq h1 h2
    have : q < 3 := (List.getElem?_eq_some_iff.1 h1).1
    obtain rfl | rfl : q = 1 ∨ q = 2 := by omega
    all_goals
      simp [ochRipser] at h1 h2
      subst h1 h2
      rfl
  intervals := by
    intro q dgm hq h1 pt hpt
    have : q < 3 := (List.getElem?_eq_some_iff.1 h1).1
    obtain rfl | rfl : q = 1 ∨ q = 2 := by omega
    all_goals
      simp [ochRipser] at h1
      subst h1
      simp at hpt
    subst hpt
    exact ⟨1, rfl, Or.inl ⟨2, rfl, by norm_num⟩⟩
  simplices := by
    intro q coc h1 c hc
    have : q < 3 := (List.getElem?_eq_some_iff.1 h1).1
    obtain rfl | rfl | rfl : q = 0 ∨ q = 1 ∨ q = 2 := by omega
    all_goals
      simp [ochRipser] at h1
      subst h1
      simp at hc
    subst hc
    refine ⟨?_, List.pairwise_singleton _ _⟩
    intro r hr
    simp only [List.mem_singleton] at hr
    subst hr
    refine ⟨rfl, (by decide : ([4, 0, 2] : List ℤ).Nodup), ?_, h0, hp⟩
    intro v hv
    simp only [List.mem_cons, List.not_mem_nil, or_false] at hv
    rcases hv with rfl | rfl | rfl
    · exact ⟨4, (by decide : 4 ∈ [3, 0, 2, 4, 1, 5]), rfl⟩
    · exact ⟨0, (by decide : 0 ∈ [3, 0, 2, 4, 1, 5]), rfl⟩
    · exact ⟨2, (by decide : 2 ∈ [3, 0, 2, 4, 1, 5]), rfl⟩
  cocycles := by
    intro dgm coc h1 h2 j pt c h3 h4
    simp [ochRipser] at h1
    subst h1
    simp at h3

/-- Below the threshold `3 / 2` every 2-cochain on the octahedron that vanishes on degenerate triples is a cocycle. -/
theorem och_cocycle {c₀ : List ZRow} {c : ℕ → ℕ → ℕ → ℤ} {p : ℤ} (hc : ListsLift2 p [3, 0, 2, 4, 1, 5].toFinset c₀ c) :
    IsDataCocycle2 [3, 0, 2, 4, 1, 5].toFinset ochδ (2 * (3 / 4)) c := by
  intro u hu v hv w hw z hz h1 h2 h3 h4 h5 h6
  have lt : ∀ {a b : ℕ}, ochδ a b < 2 * (3 / 4) → octaDist a b < 15 := by
    intro a b h
    unfold ochδ at h
    have : (octaDist a b : ℝ) < 15 := by linarith
    exact_mod_cast this
  have key : ∀ u ∈ [3, 0, 2, 4, 1, 5].toFinset, ∀ v ∈ [3, 0, 2, 4, 1, 5].toFinset, ∀ w ∈ [3, 0, 2, 4, 1, 5].toFinset,
      ∀ z ∈ [3, 0, 2, 4, 1, 5].toFinset, octaDist u v < 15 → octaDist u w < 15 → octaDist u z < 15 → octaDist v w < 15 →
      octaDist v z < 15 → octaDist w z < 15 → u = v ∨ u = w ∨ u = z ∨ v = w ∨ v = z ∨ w = z := by decide +kernel
  have s12 := hc.swap12
  have s23 := hc.swap23
  rcases key u hu v hv w hw z hz (lt h1) (lt h2) (lt h3) (lt h4) (lt h5) (lt h6) with rfl | rfl | rfl | rfl | rfl | rfl
  · have e1 := s12 u hu u hu z hz
    have e2 := s12 u hu u hu w hw
    omega
  · have e1 := s12 u hu v hv z hz
    have e2 := s12 u hu u hu z hz
    have e3 := s23 u hu u hu v hv
    have e4 := s12 u hu u hu v hv
    omega
  · have e1 := s12 v hv w hw u hu
    have e2 := s23 w hw v hv u hu
    have e3 := s12 w hw u hu v hv
    have e4 := s23 u hu v hv u hu
    have e5 := s12 u hu u hu v hv
    have e6 := s23 u hu w hw u hu
    have e7 := s12 u hu u hu w hw
    have e8 := s23 w hw u hu v hv
    have e9 := s12 v hv u hu w hw
    have e10 := s23 u hu v hv w hw
    have e11 := s23 v hv w hw u hu
    omega
  · have e1 := s23 u hu v hv v hv
    have e2 := s12 v hv v hv z hz
    omega
  · have e1 := s23 u hu v hv w hw
    have e2 := s23 v hv w hw v hv
    have e3 := s12 v hv v hv w hw
    have e4 := s23 u hu v hv v hv
    omega
  · have e1 := s23 v hv w hw w hw
    have e2 := s23 u hu w hw w hw
    omega

/-- C92 on the octahedron, modulo 41, with the value 40 on the triangle `(4, 0, 2)`, whose lift is `-1`: the data point 6, which is
in the balls of the landmarks 0, 2 and 4, gets a row of norm 1 that depends on the ball only up to a phase. -/
example (env : CPOracles) : ∃ o X w V β ν c, cpInit idealArgsort (ochRipser 40) ochInput 6 41 2 = .ok o ∧
    ListsLift2 41 [3, 0, 2, 4, 1, 5].toFinset [⟨[4, 0, 2], 40⟩] c ∧ c 4 0 2 = -1 ∧ c 0 4 2 = 1 ∧ c 1 3 5 = 0 ∧
    (cpGetCoordinates env 6 o ⟨.fin (1 / 2), .int 0, 1, bumpLinear, false, true, .exponential⟩).2 = .ok X ∧
    X.rows = 30000 ∧ X.cols = 2 ∧
    ppca env.eigh 6 (dataClassMap [3, 0, 2, 4, 1, 5] 30000 ochδ (3 / 4)
      (cpDataVector [3, 0, 2, 4, 1, 5].toFinset c ν w) β) 1 .exponential = .ok ⟨V, X⟩ ∧
    ∑ v ∈ [3, 0, 2, 4, 1, 5].toFinset, ‖cpDataVector [3, 0, 2, 4, 1, 5].toFinset c ν w 2 6 v‖ ^ 2 = 1 ∧
    ∃ ζ : ℂ, ‖ζ‖ = 1 ∧ ∀ v ∈ [3, 0, 2, 4, 1, 5], cpDataVector [3, 0, 2, 4, 1, 5].toFinset c ν w 2 6 v =
      ζ * cpDataVector [3, 0, 2, 4, 1, 5].toFinset c ν w (β 6) 6 v := by
  obtain ⟨o, dgm, coc, σ, h1, h5, h6, h7, h8⟩ := C92_complex_projective_coordinates ochInput ochInput_describes
    (ochRipser_spec 41 40 (by norm_num) (by norm_num)) idealArgsort idealArgsort_spec le_rfl (by norm_num) (by norm_num)
    (fun _ => rfl) (by norm_num)
  simp only [ochRipser] at h5 h6
  simp at h5 h6
  subst h5 h6
  have hσ : σ = [0] := List.perm_singleton.1 h7.1
  subst hσ
  obtain ⟨c, hc, h9⟩ := h8 0 0 1 2 _ rfl rfl rfl
  have hc' : ListsLift2 41 [3, 0, 2, 4, 1, 5].toFinset [⟨[4, 0, 2], 40⟩] c := hc
  obtain ⟨X, w, V, β, ν, e1, e2, e3, -, -, -, e4, e5⟩ := (h9 env 6 [] (1 / 2) false true bumpLinear .exponential 1 le_rfl
    (by norm_num) positiveBump_linear (by simp) le_rfl (by norm_num) (3 / 4) (by norm_num)).1 fun _ => och_cocycle hc'
  have hvec : cpDataAssigned [3, 0, 2, 4, 1, 5].toFinset 30000 c ν w = cpDataVector [3, 0, 2, 4, 1, 5].toFinset c ν w := by
    funext u i v
    unfold cpDataAssigned
    rw [if_neg]
    have : ([3, 0, 2, 4, 1, 5] : List ℕ).toFinset.card = 6 := by decide
    rw [this]; norm_num
  have h26 : ochδ 2 6 < 3 / 4 := by norm_num [ochδ, octaDist]
  have e4' : ppca env.eigh 6 (dataClassMap [3, 0, 2, 4, 1, 5] 30000 ochδ (3 / 4)
    (cpDataAssigned [3, 0, 2, 4, 1, 5].toFinset 30000 c ν w) β) 1 .exponential = .ok ⟨V, X⟩ := e4
  have e6 := (e5 6 (by show 6 < 30000; norm_num) ⟨2, by show 2 ∈ [3, 0, 2, 4, 1, 5]; decide, h26⟩).2.2 (och_cocycle hc') 2
    (by show 2 ∈ [3, 0, 2, 4, 1, 5]; decide) h26
  have e7 : ∑ v ∈ [3, 0, 2, 4, 1, 5].toFinset, ‖cpDataAssigned [3, 0, 2, 4, 1, 5].toFinset 30000 c ν w 2 6 v‖ ^ 2 = 1 ∧
    ∃ ζ : ℂ, ‖ζ‖ = 1 ∧ ∀ v ∈ [3, 0, 2, 4, 1, 5], cpDataAssigned [3, 0, 2, 4, 1, 5].toFinset 30000 c ν w 2 6 v =
      ζ * cpDataAssigned [3, 0, 2, 4, 1, 5].toFinset 30000 c ν w (β 6) 6 v := e6
  rw [hvec] at e4' e7
  obtain ⟨u, v, w', q1, -, -, -, q2, q3, q4⟩ := hc'.rows _ (List.mem_singleton.2 rfl)
  simp only [List.cons.injEq, and_true] at q1
  obtain ⟨r1, r2, r3⟩ := q1
  obtain rfl : u = 4 := by omega
  obtain rfl : v = 0 := by omega
  obtain rfl : w' = 2 := by omega
  have hval : c 4 0 2 = -1 := by
    obtain ⟨y, hy⟩ := q2
    simp only at hy
    omega
  refine ⟨o, X, w, V, β, ν, c, h1, hc', hval, ?_, ?_, e1, e2, e3, e4', e7.1, e7.2⟩
  · rw [hc'.swap12 4 (by decide) 0 (by decide) 2 (by decide), hval]; rfl
  · refine hc'.unlisted 1 (by decide) 3 (by decide) 5 (by decide) ?_
    intro r hr
    simp only [List.mem_singleton] at hr
    subst hr
    decide

end Dreimac
