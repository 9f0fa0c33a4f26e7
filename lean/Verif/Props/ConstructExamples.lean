import Verif.Props.EndToEnd
import Verif.Props.CircularExamples

/-!
# Concrete data sets and ripser results that satisfy the hypotheses of C88–C91
-/

namespace Dreimac

open Fl

/-! ### an `argsort` exists -/

section argsort
variable {K : Type} [Field K] [LinearOrder K]

/-- Not greater, with `nan` after everything (the order of `np.argsort`). -/
def Fl.sortLe : Fl K → Fl K → Bool
  | _, nan => true
  | nan, _ => false
  | a, b => ! Fl.lt b a

/-- A stable `np.argsort`. -/
def idealArgsort (keys : List (Fl K)) : List ℕ :=
  (List.range keys.length).mergeSort fun i j => Fl.sortLe (keys.getD i nan) (keys.getD j nan)

theorem Fl.sortLe_trans (a b c : Fl K) (h1 : Fl.sortLe a b = true) (h2 : Fl.sortLe b c = true) : Fl.sortLe a c = true := by
  cases a <;> cases b <;> cases c <;> simp_all [Fl.sortLe, Fl.lt]
  exact h1.trans h2

theorem Fl.sortLe_total (a b : Fl K) : (Fl.sortLe a b || Fl.sortLe b a) = true := by
  cases a <;> cases b <;> simp_all [Fl.sortLe, Fl.lt, le_total]

theorem Fl.not_lt_of_sortLe (a b : Fl K) (h : Fl.sortLe a b = true) : ¬ Fl.lt b a = true := by
  cases a <;> cases b <;> simp_all [Fl.sortLe, Fl.lt]

theorem idealArgsort_spec : ArgsortSpec (K := K) idealArgsort := by
  intro keys
  refine ⟨List.mergeSort_perm _ _, ?_⟩
  have h := List.pairwise_mergeSort (le := fun i j => Fl.sortLe (keys.getD i nan) (keys.getD j nan))
    (fun a b c => Fl.sortLe_trans _ _ _) (fun a b => Fl.sortLe_total _ _) (List.range keys.length)
  exact h.imp fun {i j} h => Fl.not_lt_of_sortLe _ _ h

end argsort

/-! ### the octagon: eight data points on a circle, four landmarks -/

/-- The distance along the cycle of length 8. -/
def cyc8 (u v : ℕ) : ℕ := min ((u + 7 * v) % 8) ((v + 7 * u) % 8)

noncomputable def octδ (u v : ℕ) : ℝ := cyc8 u v

/-- The distance matrix of the octagon. -/
noncomputable def octInput : DataInput := ⟨8, 8, octδ, .float, true⟩

/-- What ripser returns for four landmarks and coefficients in a field: one class in dimension 1, represented by the edge
between the data points 6 and 0 with the value `a`. -/
noncomputable def octRipser (a : ℤ) : RipserResult ℝ :=
  ⟨[[(.fin 0, .fin 2), (.fin 0, .fin 2), (.fin 0, .fin 2), (.fin 0, .pinf)], [(.fin 2, .fin 4)]], [0, 4, 2, 6],
    [[], [[⟨[6, 0], a⟩]]], fun l i => .fin (octδ ([0, 4, 2, 6].getD l 0) i)⟩

theorem octInput_describes : DescribesData octInput octδ where
  rows := le_refl _
  metric := by
    refine ⟨fun u _ i _ => Nat.cast_nonneg _, ?_, ?_⟩
    · intro u hu v hv
      have : ∀ u < 8, ∀ v < 8, cyc8 u v = cyc8 v u := by decide
      exact congrArg _ (this u hu v hv)
    · intro u hu v hv i hi
      have : ∀ u < 8, ∀ v < 8, ∀ i < 8, cyc8 u v ≤ cyc8 u i + cyc8 v i := by decide
      have := this u hu v hv i hi
      unfold octδ
      exact_mod_cast this
  entries := fun _ _ _ _ _ => rfl

/-- The cochain listed by the array. -/
def octξ (a : ℤ) (u v : ℕ) : ℤ := a * if u = 6 ∧ v = 0 then 1 else if u = 0 ∧ v = 6 then -1 else 0

theorem octξ_lists (a : ℤ) : ListsCochain [⟨[6, 0], a⟩] (octξ a) where
  antisymm := by
    intro u v
    unfold octξ
    by_cases h1 : u = 6 ∧ v = 0
    · obtain ⟨rfl, rfl⟩ := h1; simp
    · by_cases h2 : u = 0 ∧ v = 6
      · obtain ⟨rfl, rfl⟩ := h2; simp
      · have h3 : ¬ (v = 6 ∧ u = 0) := fun h => h2 ⟨h.2, h.1⟩
        have h4 : ¬ (v = 0 ∧ u = 6) := fun h => h1 ⟨h.2, h.1⟩
        simp [h1, h2, h3, h4]
  rows := by
    intro r hr
    simp only [List.mem_singleton] at hr
    subst hr
    exact ⟨6, 0, rfl, by simp [octξ]⟩
  unlisted := by
    intro u v h
    obtain ⟨h1, h2⟩ := h _ (List.mem_singleton.2 rfl)
    unfold octξ
    rw [if_neg, if_neg, mul_zero]
    · rintro ⟨rfl, rfl⟩; exact h2 rfl
    · rintro ⟨rfl, rfl⟩; exact h1 rfl

theorem octξ_cocycle (a : ℤ) (t : ℝ) (ht : t ≤ 4) : ∀ u ∈ [0, 4, 2, 6], ∀ v ∈ [0, 4, 2, 6], ∀ w ∈ [0, 4, 2, 6],
    octδ u v < t → octδ v w < t → octδ u w < t → octξ a u v + octξ a v w = octξ a u w := by
  intro u hu v hv w hw h1 h2 h3
  have : ∀ u ∈ [0, 4, 2, 6], ∀ v ∈ [0, 4, 2, 6], ∀ w ∈ [0, 4, 2, 6], cyc8 u v < 4 → cyc8 v w < 4 → cyc8 u w < 4 →
      octξ 1 u v + octξ 1 v w = octξ 1 u w := by decide
  have key : octξ 1 u v + octξ 1 v w = octξ 1 u w := by
    refine this u hu v hv w hw ?_ ?_ ?_
    · have := h1.trans_le ht; unfold octδ at this; exact_mod_cast this
    · have := h2.trans_le ht; unfold octδ at this; exact_mod_cast this
    · have := h3.trans_le ht; unfold octδ at this; exact_mod_cast this
  have e : ∀ u v, octξ a u v = a * octξ 1 u v := fun u v => by unfold octξ; rw [one_mul]
  rw [e, e, e, ← mul_add, key]

theorem octRipser_spec (p a : ℤ) (h0 : 0 ≤ a) (hp : a < p) : RipserSpec id 8 4 octδ p 1 (octRipser a) where
  count := rfl
  nodup := (by decide : [0, 4, 2, 6].Nodup)
  range := (by decide : ∀ v ∈ [0, 4, 2, 6], v < 8)
  dists := by
    intro l h i _
    show Fl.fin (octδ ((octRipser a).idxPerm.getD l 0) i) = _
    rw [getD_of_lt h]
  dims := ⟨rfl, rfl⟩
  classes := by
    intro q dgm coc hq h1 h2
    have : q < 2 := (List.getElem?_eq_some_iff.1 h1).1
    obtain rfl : q = 1 := by omega
    simp only [octRipser] at h1 h2
    simp at h1 h2
    subst h1 h2
    rfl
  intervals := by
    intro q dgm hq h1 pt hpt
    have : q < 2 := (List.getElem?_eq_some_iff.1 h1).1
    obtain rfl : q = 1 := by omega
    simp only [octRipser] at h1
    simp at h1
    subst h1
    simp only [List.mem_singleton] at hpt
    subst hpt
    exact ⟨2, rfl, Or.inl ⟨4, rfl, by norm_num⟩⟩
  simplices := by
    intro q coc h1 c hc
    have : q < 2 := (List.getElem?_eq_some_iff.1 h1).1
    have hq : q = 0 ∨ q = 1 := by omega
    rcases hq with rfl | rfl
    · simp only [octRipser] at h1
      simp at h1
      subst h1
      simp at hc
    · simp only [octRipser] at h1
      simp at h1
      subst h1
      simp only [List.mem_singleton] at hc
      subst hc
      refine ⟨?_, by simp⟩
      intro r hr
      simp only [List.mem_singleton] at hr
      subst hr
      refine ⟨rfl, by simp, ?_, h0, hp⟩
      intro v hv
      simp only [List.mem_cons, List.not_mem_nil, or_false] at hv
      rcases hv with rfl | rfl
      · exact ⟨6, (by decide : 6 ∈ [0, 4, 2, 6]), rfl⟩
      · exact ⟨0, (by decide : 0 ∈ [0, 4, 2, 6]), rfl⟩
  cocycles := by
    intro dgm coc h1 h2 j pt c h3 h4
    simp only [octRipser] at h1 h2
    simp at h1 h2
    subst h1 h2
    have : j < 1 := (List.getElem?_eq_some_iff.1 h3).1
    obtain rfl : j = 0 := by omega
    simp at h3 h4
    subst h3 h4
    refine ⟨octξ a, octξ_lists a, ?_⟩
    intro t ht u hu v hv w hw e1 e2 e3
    have ht' : t ≤ 4 := by
      rcases ht with ⟨d, hd, hd'⟩ | hd
      · simp only [Fl.fin.injEq] at hd; rw [hd]; exact belowDeath_id.1 hd'
      · simp at hd
    rw [octξ_cocycle a t ht' u hu v hv w hw e1 e2 e3, sub_self]
    exact dvd_zero _

/-- The integer cocycle congruent to `octξ 2`: `octξ 2` itself. -/
theorem octξ_lift : IsIntegerLift 3 (octRipser 2).idxPerm.toFinset octδ 3 (octξ 2) (octξ 2) where
  congr := fun u _ v _ => by simp
  antisymm := fun u _ v _ => (octξ_lists 2).antisymm u v
  cocycle := fun u hu v hv w hw => octξ_cocycle 2 3 (by norm_num) u (List.mem_toFinset.1 hu) v (List.mem_toFinset.1 hv) w
    (List.mem_toFinset.1 hw)

/-- C88 and C89 for the octagon: the constructor succeeds, and the call with `perc = 1 / 2` returns the circular coordinate of an
integer cocycle congruent to `octξ 2` modulo 3. -/
example (fuel : ℕ) (history : List (ℕ × Args)) : ∃ o, toroInit idealArgsort (octRipser 2) octInput 4 3 1 = .ok o ∧ WellFormed o ∧
    o.nLand = 4 ∧ ∃ θ w c f,
      (circularGetCoordinates idealEnv fuel (afterCalls idealEnv o history) (.fin (1 / 2)) (.int 0) bumpLinear false true).2 =
        .ok θ ∧ IsIntegerLift 3 (octRipser 2).idxPerm.toFinset octδ 3 (octξ 2) c ∧
      IsDataCoordinate (octRipser 2).idxPerm.toFinset 8 octδ (3 / 2) w c f θ := by
  obtain ⟨o, h1, -, h3, -, -, -, -, h4, -⟩ := C88_toroidal_constructor octInput octInput_describes (octRipser_spec 3 2 (by norm_num) (by norm_num)) idealArgsort
    idealArgsort_spec le_rfl (by norm_num) (by norm_num) (fun _ => rfl)
  obtain ⟨o', dgm, coc, σ, h1', h5, h6, h7, h8⟩ := C89_circular_coordinates octInput octInput_describes (octRipser_spec 3 2 (by norm_num) (by norm_num))
    idealArgsort idealArgsort_spec le_rfl (by norm_num) (by norm_num) (fun _ => rfl) (by norm_num)
  rw [h1] at h1'
  injection h1' with h1'
  subst h1'
  simp only [octRipser] at h5 h6
  simp at h5 h6
  subst h5 h6
  have hσ : σ = [0] := List.perm_singleton.1 h7.1
  subst hσ
  obtain ⟨ξ, hξ, h9⟩ := h8 0 0 2 4 _ rfl rfl rfl
  obtain rfl := hξ.unique (octξ_lists 2)
  obtain ⟨h10, -⟩ := h9 idealEnv (1 / 10) (1 / 10) (by norm_num) (by norm_num) idealMilp_sound idealMilp_complete fuel history
    (1 / 2) false bumpLinear (by norm_num) positiveBump_linear (3 / 2) (by norm_num) (belowDeath_id.2 (by norm_num))
  rw [show (2 : ℝ) * (3 / 2) = 3 by norm_num] at h10
  obtain ⟨θ, w, c, f, e1, e2, -, -, -, e3⟩ := h10 ⟨_, octξ_lift⟩
  exact ⟨o, h1, h4, h3, θ, w, c, f, e1, e2, e3⟩

/-- C91 for a lens coordinate modulo 3 on the octagon. -/
example (eigh : Eigh ℂ) : ∃ o X w V β, lensInit idealArgsort (octRipser 2) octInput 3 1 = .ok o ∧
    (lensGetCoordinates eigh 4 o ⟨.fin (1 / 2), .int 0, 2, bumpLinear, false, true, .exponential⟩).2 = .ok X ∧
    X.rows = 8 ∧ X.cols = 2 ∧
    ppca eigh 4 (dataClassMap [0, 4, 2, 6] 8 octδ (3 / 2) (lensVector 3 (octξ 2) w) β) 1 .exponential = .ok ⟨V, X⟩ ∧
    ∃ ζ : ℂ, ζ ^ (3 : ℤ) = 1 ∧ ∀ v ∈ [0, 4, 2, 6], lensVector 3 (octξ 2) w 0 7 v = ζ * lensVector 3 (octξ 2) w (β 7) 7 v := by
  obtain ⟨o, dgm, coc, σ, h1, h5, h6, h7, h8⟩ := C91_lens_coordinates octInput octInput_describes (octRipser_spec 3 2 (by norm_num) (by norm_num))
    idealArgsort idealArgsort_spec le_rfl (by norm_num) (fun _ => rfl) (by norm_num)
  simp only [octRipser] at h5 h6
  simp at h5 h6
  subst h5 h6
  have hσ : σ = [0] := List.perm_singleton.1 h7.1
  subst hσ
  obtain ⟨ξ, hξ, h9⟩ := h8 0 0 2 4 _ rfl rfl rfl
  obtain rfl := hξ.unique (octξ_lists 2)
  obtain ⟨X, w, V, β, e1, e2, e3, -, e4, e5⟩ := h9 eigh 4 [] (1 / 2) false true bumpLinear .exponential 2 le_rfl
    (by norm_num) positiveBump_linear (by simp) le_rfl (by norm_num) (3 / 2) (by norm_num) (belowDeath_id.2 (by norm_num))
  have h07 : octδ 0 7 < 3 / 2 := by norm_num [octδ, cyc8]
  exact ⟨o, X, w, V, β, h1, e1, e2, e3, e4, ((e5 7 (by decide) ⟨0, by decide, h07⟩).2.2 0 (by decide) h07).2⟩

/-- C91 for a projective coordinate on the octagon. -/
example (eigh : Eigh ℝ) : ∃ o X w V β, projInit idealArgsort (octRipser 1) octInput 1 = .ok o ∧
    (projGetCoordinates eigh 4 o ⟨.fin (1 / 2), .int 0, 1, bumpLinear, false, true, .direct⟩).2 = .ok X ∧
    X.rows = 8 ∧ X.cols = 2 ∧
    ppca eigh 4 (dataClassMap [0, 4, 2, 6] 8 octδ (3 / 2) (signVector (octξ 1) w) β) 1 .direct = .ok ⟨V, X⟩ ∧
    ∑ v ∈ {0, 4, 2, 6}, (signVector (octξ 1) w 0 7 v) ^ 2 = 1 := by
  obtain ⟨o, dgm, coc, σ, h1, h5, h6, h7, h8⟩ := C91_projective_coordinates octInput octInput_describes
    (octRipser_spec 2 1 (by norm_num) (by norm_num)) idealArgsort idealArgsort_spec le_rfl (by norm_num) (fun _ => rfl)
  simp only [octRipser] at h5 h6
  simp at h5 h6
  subst h5 h6
  have hσ : σ = [0] := List.perm_singleton.1 h7.1
  subst hσ
  obtain ⟨ξ, hξ, h9⟩ := h8 0 0 2 4 _ rfl rfl rfl
  obtain rfl := hξ.unique (octξ_lists 1)
  obtain ⟨X, w, V, β, e1, e2, e3, -, e4, e5⟩ := h9 eigh 4 [] (1 / 2) false true bumpLinear .direct 1 le_rfl
    (by norm_num) positiveBump_linear (by simp) le_rfl (by norm_num) (3 / 2) (by norm_num) (belowDeath_id.2 (by norm_num))
  have h07 : octδ 0 7 < 3 / 2 := by norm_num [octδ, cyc8]
  exact ⟨o, X, w, V, β, h1, e1, e2, e3, e4, ((e5 7 (by decide) ⟨0, by decide, h07⟩).2.2 0 (by decide) h07).1⟩

/-! ### two classes: the complete bipartite graph -/

/-- The distance matrix of the complete bipartite graph on `{0, 1, 2}` and `{3, 4, 5}`. -/
noncomputable def bipInput : DataInput := ⟨6, 6, fun u v => (bipDist u v : ℕ), .float, true⟩

/-- What ripser returns: two classes, given by 4-cycles that share an edge. -/
noncomputable def bipRipser : RipserResult ℝ :=
  ⟨[[], [(.fin 1, .fin 2), (.fin 1, .fin 2)]], [0, 1, 2, 3, 4, 5],
    [[], [[⟨[0, 3], 1⟩, ⟨[1, 3], 2⟩, ⟨[1, 4], 1⟩, ⟨[0, 4], 2⟩], [⟨[0, 3], 1⟩, ⟨[2, 3], 2⟩, ⟨[2, 5], 1⟩, ⟨[0, 5], 2⟩]]],
    fun l i => .fin (bipDist ([0, 1, 2, 3, 4, 5].getD l 0) i : ℕ)⟩

theorem bipInput_describes : DescribesData bipInput (fun u v => (bipDist u v : ℕ)) where
  rows := le_refl _
  metric := by
    refine ⟨fun u _ i _ => Nat.cast_nonneg _, ?_, ?_⟩
    · intro u hu v hv
      have : ∀ u < 6, ∀ v < 6, bipDist u v = bipDist v u := by decide
      exact congrArg _ (this u hu v hv)
    · intro u hu v hv i hi
      have : ∀ u < 6, ∀ v < 6, ∀ i < 6, bipDist u v ≤ bipDist u i + bipDist v i := by decide
      have := this u hu v hv i hi
      exact_mod_cast this
  entries := fun _ _ _ _ _ => rfl

/-- The two cochains. -/
def bipξ (a : Fin 2) (u v : ℕ) : ℤ :=
  if a = 0 then
    if (u, v) ∈ [(0, 3), (1, 4)] then 1 else if (u, v) ∈ [(3, 0), (4, 1)] then -1
    else if (u, v) ∈ [(1, 3), (0, 4)] then 2 else if (u, v) ∈ [(3, 1), (4, 0)] then -2 else 0
  else
    if (u, v) ∈ [(0, 3), (2, 5)] then 1 else if (u, v) ∈ [(3, 0), (5, 2)] then -1
    else if (u, v) ∈ [(2, 3), (0, 5)] then 2 else if (u, v) ∈ [(3, 2), (5, 0)] then -2 else 0

/-- The two arrays. -/
def bipArr (a : Fin 2) : List ZRow :=
  if a = 0 then [⟨[0, 3], 1⟩, ⟨[1, 3], 2⟩, ⟨[1, 4], 1⟩, ⟨[0, 4], 2⟩] else [⟨[0, 3], 1⟩, ⟨[2, 3], 2⟩, ⟨[2, 5], 1⟩, ⟨[0, 5], 2⟩]

theorem bipξ_out (a : Fin 2) (u v : ℕ) (h : ¬ (u < 6 ∧ v < 6)) : bipξ a u v = 0 := by
  simp only [bipξ, List.mem_cons, List.not_mem_nil, or_false, Prod.mk.injEq]
  split_ifs <;> first | rfl | (exfalso; omega)

theorem bipξ_lists (a : Fin 2) : ListsCochain (bipArr a) (bipξ a) where
  antisymm := by
    intro u v
    by_cases h : u < 6 ∧ v < 6
    · have : ∀ a : Fin 2, ∀ u < 6, ∀ v < 6, bipξ a v u = -bipξ a u v := by decide
      exact this a u h.1 v h.2
    · rw [bipξ_out a u v h, bipξ_out a v u (fun h' => h h'.symm), neg_zero]
  rows := by
    intro r hr
    fin_cases a
    · simp only [bipArr, Fin.zero_eta, if_true, List.mem_cons, List.not_mem_nil, or_false] at hr
      rcases hr with rfl | rfl | rfl | rfl
      · exact ⟨0, 3, rfl, rfl⟩
      · exact ⟨1, 3, rfl, rfl⟩
      · exact ⟨1, 4, rfl, rfl⟩
      · exact ⟨0, 4, rfl, rfl⟩
    · simp only [bipArr, Fin.mk_one, one_ne_zero, if_false, List.mem_cons, List.not_mem_nil, or_false] at hr
      rcases hr with rfl | rfl | rfl | rfl
      · exact ⟨0, 3, rfl, rfl⟩
      · exact ⟨2, 3, rfl, rfl⟩
      · exact ⟨2, 5, rfl, rfl⟩
      · exact ⟨0, 5, rfl, rfl⟩
  unlisted := by
    intro u v h
    by_cases hn : u < 6 ∧ v < 6
    · have : ∀ a : Fin 2, ∀ u : ℕ, u < 6 → ∀ v : ℕ, v < 6 →
          (∀ r ∈ bipArr a, r.verts ≠ [(u : ℤ), (v : ℤ)] ∧ r.verts ≠ [(v : ℤ), (u : ℤ)]) → bipξ a u v = 0 := by decide +kernel
      exact this a u hn.1 v hn.2 h
    · exact bipξ_out a u v hn

theorem bipξ_cocycle (a : Fin 2) (t : ℝ) (ht : t ≤ 2) : CocycleModOn 3 [0, 1, 2, 3, 4, 5] (fun u v => (bipDist u v : ℕ)) t (bipξ a) := by
  intro u hu v hv w hw h1 h2 h3
  have : ∀ a : Fin 2, ∀ u ∈ [0, 1, 2, 3, 4, 5], ∀ v ∈ [0, 1, 2, 3, 4, 5], ∀ w ∈ [0, 1, 2, 3, 4, 5], bipDist u v < 2 →
      bipDist v w < 2 → bipDist u w < 2 → bipξ a u v + bipξ a v w - bipξ a u w = 0 := by decide +kernel
  rw [this a u hu v hv w hw (by exact_mod_cast (show ((bipDist u v : ℕ) : ℝ) < 2 from h1.trans_le ht))
    (by exact_mod_cast (show ((bipDist v w : ℕ) : ℝ) < 2 from h2.trans_le ht))
    (by exact_mod_cast (show ((bipDist u w : ℕ) : ℝ) < 2 from h3.trans_le ht))]
  exact dvd_zero _

theorem bipRipser_spec : RipserSpec id 6 6 (fun u v => (bipDist u v : ℕ)) 3 1 bipRipser where
  count := rfl
  nodup := by decide
  range := by decide
  dists := by
    intro l h i _
    show Fl.fin ((bipDist (bipRipser.idxPerm.getD l 0) i : ℕ) : ℝ) = _
    rw [getD_of_lt h]
  dims := ⟨rfl, rfl⟩
  classes := by
    intro q dgm coc hq h1 h2
    have : q < 2 := (List.getElem?_eq_some_iff.1 h1).1
    obtain rfl : q = 1 := by omega
    simp only [bipRipser] at h1 h2
    simp at h1 h2
    subst h1 h2
    rfl
  intervals := by
    intro q dgm hq h1 pt hpt
    have : q < 2 := (List.getElem?_eq_some_iff.1 h1).1
    obtain rfl : q = 1 := by omega
    simp only [bipRipser] at h1
    simp at h1
    subst h1
    have hpt : pt = (.fin 1, .fin 2) := by simpa using hpt
    subst hpt
    exact ⟨1, rfl, Or.inl ⟨2, rfl, by norm_num⟩⟩
  simplices := by
    intro q coc h1 c hc
    have : q < 2 := (List.getElem?_eq_some_iff.1 h1).1
    have hq : q = 0 ∨ q = 1 := by omega
    rcases hq with rfl | rfl
    · simp only [bipRipser] at h1
      simp at h1
      subst h1
      simp at hc
    · simp only [bipRipser] at h1
      simp at h1
      subst h1
      have hrow : ∀ c ∈ [bipArr 0, bipArr 1], ∀ r ∈ c, r.verts.length = 2 ∧ r.verts.Nodup ∧
          (∀ v ∈ r.verts, 0 ≤ v ∧ v.toNat ∈ [0, 1, 2, 3, 4, 5]) ∧ 0 ≤ r.val ∧ r.val < 3 := by decide
      have hpw : ∀ c ∈ [bipArr 0, bipArr 1], c.Pairwise fun r r' => ¬ r.verts.Perm r'.verts := by decide
      refine ⟨fun r hr => ?_, hpw c hc⟩
      obtain ⟨r1, r2, r3, r4⟩ := hrow c hc r hr
      refine ⟨r1, r2, fun v hv => ?_, r4⟩
      obtain ⟨v1, v2⟩ := r3 v hv
      exact ⟨v.toNat, v2, by omega⟩
  cocycles := by
    intro dgm coc h1 h2 j pt c h3 h4
    have h1' : dgm = [(.fin 1, .fin 2), (.fin 1, .fin 2)] := by simpa [bipRipser] using h1.symm
    have h2' : coc = [bipArr 0, bipArr 1] := (Option.some.inj h2).symm
    subst h1' h2'
    have hj : j < 2 := (List.getElem?_eq_some_iff.1 h3).1
    have hpt : pt = (.fin 1, .fin 2) := by
      have hj' : j = 0 ∨ j = 1 := by omega
      rcases hj' with rfl | rfl <;> simpa using h3.symm
    have hc : c = bipArr ⟨j, hj⟩ := by
      have hj' : j = 0 ∨ j = 1 := by omega
      rcases hj' with rfl | rfl <;> exact (Option.some.inj h4).symm
    subst hpt hc
    refine ⟨_, bipξ_lists _, fun t ht => bipξ_cocycle _ t ?_⟩
    rcases ht with ⟨d, hd, hd'⟩ | hd
    · simp only [Fl.fin.injEq] at hd; rw [hd]; exact belowDeath_id.1 hd'
    · simp at hd

/-- The landmarks are the data points in their order, so that the stored arrays are those of ripser. -/
theorem bip_renamed {c : List ZRow} {s : SparseCochain} (h : List.Forall₂ (Renamed bipRipser.idxPerm) c s) :
    s = c.map ZRow.toRow := by
  induction h with
  | nil => rfl
  | @cons r t c s hrt _ ih =>
    obtain ⟨h1, h2, h3⟩ := hrt
    rw [List.map_cons, ← ih]
    congr 1
    have e : t.verts = r.verts.map Int.toNat := by
      rw [h3, List.map_map]
      symm
      have : ∀ m ∈ t.verts, (Int.toNat ∘ fun m => ((bipRipser.idxPerm.getD m 0 : ℕ) : ℤ)) m = m := by
        intro m hm
        have : m < 6 := h2 m hm
        have key : ∀ m < 6, [0, 1, 2, 3, 4, 5].getD m 0 = m := by decide
        exact (Int.toNat_natCast _).trans (key m this)
      rw [List.map_congr_left this, List.map_id']
    obtain ⟨tv, tval⟩ := t
    simp only at h1 e
    rw [ZRow.toRow, e, h1]

/-- C90 for two classes: the call returns two coordinates, those of a unimodular combination of two integer cocycles congruent
to the classes of ripser modulo 3. -/
example (history : List (ℕ × Args)) : ∃ o fuel θ₁ θ₂ w, ∃ U : Matrix (Fin 2) (Fin 2) ℤ, ∃ z : Fin 2 → ℕ, ∃ ρ : Fin 2 → Fin 2, ∃ c : Fin 2 → ℕ → ℕ → ℤ,
    ∃ f : Fin 2 → ℕ → ℝ, toroInit idealArgsort bipRipser bipInput 6 3 1 = .ok o ∧ ρ 0 ≠ ρ 1 ∧
      (getCoordinates idealEnv fuel (afterCalls idealEnv o history)
        ⟨.fin (1 / 2), [.int (z 0), .int (z 1)], bumpLinear, false, true⟩).2 = .ok [θ₁, θ₂] ∧
      (U.det = 1 ∨ U.det = -1) ∧
      (∀ a, IsIntegerLift 3 bipRipser.idxPerm.toFinset (fun u v => (bipDist u v : ℕ)) (2 * (3 / 4)) (bipξ (ρ a)) (c a)) ∧
      ∀ q, IsDataCoordinate bipRipser.idxPerm.toFinset 6 (fun u v => (bipDist u v : ℕ)) (3 / 4) w
        (fun u v => ∑ a, U q a * c a u v) (fun u => ∑ a, U q a * f a u) (![θ₁, θ₂] q) := by
  obtain ⟨o, h1, h2, h3, h4, h5, h6, h7, wf, hv, hT⟩ := C88_toroidal_constructor bipInput bipInput_describes bipRipser_spec idealArgsort
    idealArgsort_spec le_rfl (by norm_num) (by norm_num) (fun _ => rfl)
  obtain ⟨o', dgm, coc, σ, h1', e1, e2, hσ, h8⟩ := C90_toroidal_coordinates bipInput bipInput_describes bipRipser_spec
    idealArgsort idealArgsort_spec le_rfl (by norm_num) (by norm_num) (fun _ => rfl) (by norm_num)
  rw [h1] at h1'
  injection h1' with h1'
  subst h1'
  have hdgm : dgm = [(.fin 1, .fin 2), (.fin 1, .fin 2)] := (Option.some.inj e1).symm
  have hcoc : coc = [bipArr 0, bipArr 1] := (Option.some.inj e2).symm
  subst hdgm hcoc
  -- the stored classes
  obtain ⟨dgm, coc, dgm', coc', σ', f1, f2, f3, f4, f5, f6, f7⟩ := h6 1 le_rfl le_rfl
  have hdgm : dgm = [(.fin 1, .fin 2), (.fin 1, .fin 2)] := (Option.some.inj f1).symm
  have hcoc : coc = [bipArr 0, bipArr 1] := (Option.some.inj f2).symm
  subst hdgm hcoc
  have hval : ∀ (z j : ℕ) (hj : j < 2), σ'[z]? = some j → ValidClass o (.int z) 1 2 ((bipArr ⟨j, hj⟩).map ZRow.toRow) := by
    intro z j hj hz
    obtain ⟨pt, g1, g2⟩ := forall₂_getElem? f6 hz
    obtain ⟨s, g3, c, g4, g5⟩ := forall₂_getElem? f7 hz
    have hpt : pt = (.fin 1, .fin 2) := by
      have hj' : j = 0 ∨ j = 1 := by omega
      rcases hj' with rfl | rfl <;> exact (Option.some.inj g2).symm
    have hc : c = bipArr ⟨j, hj⟩ := by
      have hj' : j = 0 ∨ j = 1 := by omega
      rcases hj' with rfl | rfl <;> exact (Option.some.inj g4).symm
    subst hpt hc
    rw [← bip_renamed g5]
    have hs := h7 1 coc' f4 le_rfl s (List.mem_of_getElem? g3)
    refine ⟨?_, fun r hr => h3 ▸ (hs.1 r hr).1, hs.2, by norm_num⟩
    have q1 := (pyGet_nat o.dgms 1 dgm').2 f3
    have q2 := (pyGet_nat o.cocycles 1 coc').2 f4
    have q3 := (pyGet_nat dgm' z _).2 g1
    have q4 := (pyGet_nat coc' z s).2 g3
    simp only [Nat.cast_one] at q1 q2
    simp only [repr1, getRepresentativeCocycle, q1, q2, q3, q4, bind, Except.bind, pure, Except.pure]
  have hzs : ∃ z : Fin 2 → ℕ, z 0 < 2 ∧ z 1 < 2 ∧ z 0 ≠ z 1 ∧ σ'[z 0]? = some 0 ∧ σ'[z 1]? = some 1 := by
    rcases List.perm_pair.1 f5.1 with rfl | rfl
    · exact ⟨![0, 1], by decide, by decide, by decide, rfl, rfl⟩
    · exact ⟨![1, 0], by decide, by decide, by decide, rfl, rfl⟩
  obtain ⟨z, hz0, hz1, hz01, hzσ0, hzσ1⟩ := hzs
  have hd : BipDistances o.distLandLand := by
    intro l m hl hm
    rw [h5.land l hl m hm]
    have key : ∀ m (h : m < bipRipser.idxPerm.length), bipRipser.idxPerm[m] = m := by
      intro m h
      have h : m < 6 := h
      interval_cases m <;> rfl
    rw [key l hl, key m hm]
  obtain ⟨fuel, θ₁, θ₂, hok, -⟩ := bip_returns o wf hv h2 h3 hT hd (.int (z 0)) (.int (z 1)) (hval _ 0 (by norm_num) hzσ0)
    (hval _ 1 (by norm_num) hzσ1)
  have hρ : ∃ ρ : Fin 2 → Fin 2, ρ 0 ≠ ρ 1 ∧ ∀ a, σ[z a]? = some (ρ a).val := by
    have hz : (z 0 = 0 ∧ z 1 = 1) ∨ (z 0 = 1 ∧ z 1 = 0) := by omega
    rcases List.perm_pair.1 hσ.1 with rfl | rfl <;> rcases hz with ⟨q0, q1⟩ | ⟨q0, q1⟩
    · exact ⟨![0, 1], by decide, fun a => by fin_cases a <;> simp [q0, q1]⟩
    · exact ⟨![1, 0], by decide, fun a => by fin_cases a <;> simp [q0, q1]⟩
    · exact ⟨![1, 0], by decide, fun a => by fin_cases a <;> simp [q0, q1]⟩
    · exact ⟨![0, 1], by decide, fun a => by fin_cases a <;> simp [q0, q1]⟩
  obtain ⟨ρ, hρ1, hρ2⟩ := hρ
  have hsel : SelectsClasses [(Fl.fin 1, Fl.fin 2), (Fl.fin 1, Fl.fin 2)] [bipArr 0, bipArr 1] σ z (fun _ => 1) (fun _ => 2)
      (fun a => bipξ (ρ a)) := by
    refine ⟨fun a => ⟨_, bipArr (ρ a), hρ2 a, ?_, ?_, bipξ_lists _⟩⟩
    · generalize ρ a = t; fin_cases t <;> rfl
    · generalize ρ a = t; fin_cases t <;> rfl
  have hG : IsGreatest (Set.range fun _ : Fin 2 => (1 : ℝ)) 1 := ⟨⟨0, rfl⟩, by rintro _ ⟨_, rfl⟩; exact le_rfl⟩
  have hL : IsLeast (Set.range fun _ : Fin 2 => (2 : ℝ)) 2 := ⟨⟨0, rfl⟩, by rintro _ ⟨_, rfl⟩; exact le_rfl⟩
  have hok' : (getCoordinates idealEnv fuel (afterCalls idealEnv o history)
      ⟨.fin (1 / 2), List.ofFn fun a => .int (z a), bumpLinear, false, true⟩).2 = .ok [θ₁, θ₂] := by
    rw [(C08_repeatable idealEnv o hv history fuel _).1]
    exact hok
  obtain ⟨θ, w, c, f, U, q1, q2, q3, -, -, -, q4⟩ := h8 2 z _ _ _ hsel idealEnv (1 / 10) (1 / 10) (by norm_num) (by norm_num)
    idealMilp_sound fuel history (1 / 2) false bumpLinear positiveBump_linear 1 2 (3 / 4) hG hL
    (by norm_num) (by norm_num) (by norm_num) (belowDeath_id.2 (by norm_num)) _ hok'
  have hθ : θ = ![θ₁, θ₂] := by
    have : [θ₁, θ₂] = [θ 0, θ 1] := q1
    simp only [List.cons.injEq, and_true] at this
    funext a
    fin_cases a
    · exact this.1.symm
    · exact this.2.symm
  subst hθ
  exact ⟨o, fuel, θ₁, θ₂, w, U, z, ρ, c, f, h1, hρ1, hok', q2, fun a => (q3 a).1, q4⟩

end Dreimac
