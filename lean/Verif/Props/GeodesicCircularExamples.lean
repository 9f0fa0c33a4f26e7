import Mathlib.Tactic.IntervalCases
import Verif.Props.GeodesicCircular
import Verif.Props.GeodesicExamples
import Verif.Props.EndToEndWindingExamples

/-! # A concrete case of C133: eight points on the boundary of a square -/

namespace Dreimac

open Real

/-- Integer coordinates: the corners and midpoints of the sides of a square, in the order of the boundary. -/
def ringZ : ℕ → ℕ → ℤ
  | 0, 0 => 0 | 0, 1 => 0
  | 1, 0 => 1 | 1, 1 => 0
  | 2, 0 => 2 | 2, 1 => 0
  | 3, 0 => 2 | 3, 1 => 1
  | 4, 0 => 2 | 4, 1 => 2
  | 5, 0 => 1 | 5, 1 => 2
  | 6, 0 => 0 | 6, 1 => 2
  | 7, 0 => 0 | 7, 1 => 1
  | _, _ => 0

noncomputable def ringPts (u k : ℕ) : ℝ := ringZ u k

def ringSq (u v : ℕ) : ℤ := (ringZ u 0 - ringZ v 0) ^ 2 + (ringZ u 1 - ringZ v 1) ^ 2

theorem ring_dist (u v : ℕ) : rowDist 2 ringPts u v = √(ringSq u v : ℝ) := by
  unfold rowDist ringPts ringSq
  simp [Finset.sum_range_succ]

theorem ring_near {u v : ℕ} (hu : u < 8) (hv : v < 8) (h : cyc8 u v ≤ 1) : rowDist 2 ringPts u v = octδ u v := by
  have key : ∀ u < 8, ∀ v < 8, cyc8 u v ≤ 1 → ringSq u v = cyc8 u v := by decide
  have h01 : cyc8 u v = 0 ∨ cyc8 u v = 1 := by omega
  rw [ring_dist, key u hu v hv h]
  unfold octδ
  rcases h01 with h | h <;> rw [h] <;> simp

theorem ring_far {u v : ℕ} (hu : u < 8) (hv : v < 8) (h : ¬ cyc8 u v ≤ 1) : 1 < rowDist 2 ringPts u v := by
  have key : ∀ u < 8, ∀ v < 8, ¬ cyc8 u v ≤ 1 → 2 ≤ ringSq u v := by decide
  rw [ring_dist]
  have : (2 : ℝ) ≤ (ringSq u v : ℝ) := by exact_mod_cast key u hu v hv h
  rw [Real.lt_sqrt (by norm_num)]
  linarith

theorem ring_le_one {u v : ℕ} (hu : u < 8) (hv : v < 8) (h : cyc8 u v ≤ 1) : rowDist 2 ringPts u v ≤ 1 := by
  rw [ring_near hu hv h]
  unfold octδ
  exact_mod_cast h

/-- The neighbours of a point: the point itself, the one before it and the one after it. -/
theorem ring_nbr {nbr : ℕ → Finset ℕ} (h : IsNeighbourGraph 8 3 (rowDist 2 ringPts) nbr) {u v : ℕ} (hu : u < 8) (hv : v < 8) :
    v ∈ nbr u ↔ cyc8 u v ≤ 1 := by
  have hfwd : ∀ v ∈ nbr u, cyc8 u v ≤ 1 := by
    intro v hv
    have hv8 := (h.points u v hv).2
    by_contra hne
    have hgroup : ∀ x < 8, cyc8 u x ≤ 1 → x ∈ nbr u := by
      intro x hx hxu
      by_contra hxn
      have h1 := h.nearest u hu v hv x hx hxn
      have h2 := ring_le_one hu hx hxu
      have h3 := ring_far hu hv8 hne
      linarith
    have hsub : insert v ((Finset.range 8).filter fun x => cyc8 u x ≤ 1) ⊆ nbr u := by
      intro x hx
      rcases Finset.mem_insert.1 hx with rfl | hx
      · exact hv
      · exact hgroup x (Finset.mem_range.1 (Finset.mem_filter.1 hx).1) (Finset.mem_filter.1 hx).2
    have := Finset.card_le_card hsub
    rw [h.card u hu, Finset.card_insert_of_notMem (by simp; omega)] at this
    have h2 : ∀ u < 8, ((Finset.range 8).filter fun x => cyc8 u x ≤ 1).card = 3 := by decide
    have := h2 u hu
    omega
  refine ⟨hfwd v, fun hc => ?_⟩
  have hsub : nbr u ⊆ (Finset.range 8).filter fun x => cyc8 u x ≤ 1 := fun x hx =>
    Finset.mem_filter.2 ⟨Finset.mem_range.2 (h.points u x hx).2, hfwd x hx⟩
  have h2 : ∀ u < 8, ((Finset.range 8).filter fun x => cyc8 u x ≤ 1).card = 3 := by decide
  have := Finset.eq_of_subset_of_card_le hsub (by rw [h2 u hu, h.card u hu])
  rw [this]
  exact Finset.mem_filter.2 ⟨Finset.mem_range.2 hv, hc⟩

theorem ring_chain_le {nbr : ℕ → Finset ℕ} (h : IsNeighbourGraph 8 3 (rowDist 2 ringPts) nbr) {u v : ℕ} {s : ℝ}
    (hc : NeighbourChain nbr (rowDist 2 ringPts) u v s) (hu : u < 8) : octδ u v ≤ s ∧ v < 8 := by
  induction hc with
  | refl u =>
    have : ∀ u < 8, cyc8 u u = 0 := by decide
    refine ⟨?_, hu⟩
    unfold octδ
    rw [this u hu]
    simp
  | @step u x v t he _ ih =>
    have hx : x < 8 := by
      rcases he with he | he
      · exact (h.points _ _ he).2
      · exact (h.points _ _ he).1
    have hsym : ∀ u < 8, ∀ v < 8, cyc8 u v = cyc8 v u := by decide
    have hux : cyc8 u x ≤ 1 := by
      rcases he with he | he
      · exact (ring_nbr h hu hx).1 he
      · rw [hsym u hu x hx]; exact (ring_nbr h hx hu).1 he
    obtain ⟨h1, h2⟩ := ih hx
    refine ⟨?_, h2⟩
    rw [ring_near hu hx hux]
    have htri : ∀ u < 8, ∀ x < 8, ∀ v < 8, cyc8 u v ≤ cyc8 u x + cyc8 x v := by decide
    have : (cyc8 u v : ℝ) ≤ cyc8 u x + cyc8 x v := by exact_mod_cast htri u hu x hx v h2
    unfold octδ at *
    linarith

theorem ring_chain {nbr : ℕ → Finset ℕ} (h : IsNeighbourGraph 8 3 (rowDist 2 ringPts) nbr) : ∀ (m u v : ℕ), u < 8 → v < 8 →
    cyc8 u v = m → NeighbourChain nbr (rowDist 2 ringPts) u v (m : ℝ) := by
  intro m
  induction m with
  | zero =>
    intro u v hu hv hm
    have : ∀ u < 8, ∀ v < 8, cyc8 u v = 0 → u = v := by decide
    obtain rfl := this u hu v hv hm
    simpa using NeighbourChain.refl u
  | succ m ih =>
    intro u v hu hv hm
    have : ∀ u < 8, ∀ v < 8, 1 ≤ cyc8 u v → ∃ x < 8, cyc8 u x = 1 ∧ cyc8 x v + 1 = cyc8 u v := by decide +kernel
    obtain ⟨x, hx, h1, h2⟩ := this u hu v hv (by omega)
    have := NeighbourChain.step (nbr := nbr) (δ := rowDist 2 ringPts) (Or.inl ((ring_nbr h hu hx).2 h1.le)) (ih x v hx hv (by omega))
    rw [ring_near hu hx h1.le] at this
    unfold octδ at this
    rw [h1] at this
    push_cast at this ⊢
    rwa [add_comm]

/-- The distances in the neighbour graph are those along the boundary. -/
theorem ring_chainDistance {nbr : ℕ → Finset ℕ} (h : IsNeighbourGraph 8 3 (rowDist 2 ringPts) nbr) {u v : ℕ} (hu : u < 8)
    (hv : v < 8) {t : WithTop ℝ} (ht : IsChainDistance nbr (rowDist 2 ringPts) u v t) : t = (octδ u v : ℝ) := by
  have h1 := ht.le _ (ring_chain h _ u v hu hv rfl)
  obtain ⟨s, rfl⟩ := WithTop.ne_top_iff_exists.1 (ne_top_of_le_ne_top (WithTop.coe_ne_top) h1)
  have h2 := (ring_chain_le h (ht.attained s rfl) hu).1
  exact congrArg _ (le_antisymm (WithTop.coe_le_coe.1 h1) h2)

theorem ring_connected {nbr : ℕ → Finset ℕ} (h : IsNeighbourGraph 8 3 (rowDist 2 ringPts) nbr) :
    IsConnectedGraph 8 nbr (rowDist 2 ringPts) := fun u hu v hv => ⟨_, ring_chain h _ u v hu hv rfl⟩

/-- The farthest point sample of four points. -/
theorem ring_sample {D : ℕ → ℕ → WithTop ℝ} (hD : ∀ u < 8, ∀ v < 8, D u v = (octδ u v : ℝ)) {p : ℕ → ℕ} {lam : ℕ → WithTop ℝ}
    (h : FarthestPointSample D 8 4 p lam) : p 0 = 0 ∧ p 1 = 4 ∧ p 2 = 2 ∧ p 3 = 6 := by
  have h0 := (h.start (by norm_num)).1
  have hDn : ∀ u < 8, ∀ v < 8, D u v = ((cyc8 u v : ℕ) : WithTop ℝ) := fun u hu v hv => by rw [hD u hu v hv]; rfl
  have hlam : ∀ i, 1 ≤ i → i < 4 → ∀ j < i, lam i ≤ D (p j) (p i) := fun i h1 h2 j hj => (h.radius i h1 h2).2 ⟨j, hj, rfl⟩
  have hm1 := h.mem 1 (by norm_num)
  have hm2 := h.mem 2 (by norm_num)
  have hm3 := h.mem 3 (by norm_num)
  have cast2 : ∀ a b : ℕ, ((a : ℕ) : WithTop ℝ) ≤ ((b : ℕ) : WithTop ℝ) → a ≤ b := fun a b h => by exact_mod_cast h
  -- the second point
  have h1 : p 1 = 4 := by
    have f := h.far 1 le_rfl (by norm_num) 4 (by norm_num) ((4 : ℕ) : WithTop ℝ) ⟨⟨0, by norm_num, by rw [h0, hDn 0 (by norm_num) 4 (by norm_num)]; rfl⟩,
      by rintro x ⟨j, hj, rfl⟩; obtain rfl : j = 0 := by omega
         rw [h0, hDn 0 (by norm_num) 4 (by norm_num)]; exact le_of_eq rfl⟩
    have g := f.trans (hlam 1 le_rfl (by norm_num) 0 (by norm_num))
    rw [h0, hDn 0 (by norm_num) _ hm1] at g
    have g := cast2 _ _ g
    have key : ∀ x < 8, 4 ≤ cyc8 0 x → x = 4 := by decide
    exact key _ hm1 g
  have h2 : p 2 = 2 := by
    have hd : DistToFirst D p 2 2 ((2 : ℕ) : WithTop ℝ) := by
      refine ⟨⟨0, by norm_num, by rw [h0, hDn 0 (by norm_num) 2 (by norm_num)]; rfl⟩, ?_⟩
      rintro x ⟨j, hj, rfl⟩
      interval_cases j
      · rw [h0, hDn 0 (by norm_num) 2 (by norm_num)]; exact le_of_eq rfl
      · rw [h1, hDn 4 (by norm_num) 2 (by norm_num)]; exact le_of_eq rfl
    have f := h.far 2 (by norm_num) (by norm_num) 2 (by norm_num) _ hd
    have l0 := hlam 2 (by norm_num) (by norm_num) 0 (by norm_num)
    have g0 := f.trans l0
    have g1 := f.trans (hlam 2 (by norm_num) (by norm_num) 1 (by norm_num))
    rw [h0, hDn 0 (by norm_num) _ hm2] at g0 l0
    rw [h1, hDn 4 (by norm_num) _ hm2] at g1
    have g0 := cast2 _ _ g0
    have g1 := cast2 _ _ g1
    have key : ∀ x < 8, 2 ≤ cyc8 0 x → 2 ≤ cyc8 4 x → x = 2 ∨ x = 6 := by decide
    have hor := key _ hm2 g0 g1
    rcases hor with h | h6
    · exact h
    · have := h.first 2 (by norm_num) (by norm_num) 2 (by omega) _ hd
      rw [h6] at l0
      exact absurd (this.trans_le l0) (lt_irrefl _)
  have h3 : p 3 = 6 := by
    have hd : DistToFirst D p 3 6 ((2 : ℕ) : WithTop ℝ) := by
      refine ⟨⟨0, by norm_num, by rw [h0, hDn 0 (by norm_num) 6 (by norm_num)]; rfl⟩, ?_⟩
      rintro x ⟨j, hj, rfl⟩
      interval_cases j
      · rw [h0, hDn 0 (by norm_num) 6 (by norm_num)]; exact le_of_eq rfl
      · rw [h1, hDn 4 (by norm_num) 6 (by norm_num)]; exact le_of_eq rfl
      · rw [h2, hDn 2 (by norm_num) 6 (by norm_num)]
        have : 2 ≤ cyc8 2 6 := by decide
        exact_mod_cast this
    have f := h.far 3 (by norm_num) (by norm_num) 6 (by norm_num) _ hd
    have g0 := f.trans (hlam 3 (by norm_num) (by norm_num) 0 (by norm_num))
    have g1 := f.trans (hlam 3 (by norm_num) (by norm_num) 1 (by norm_num))
    have g2 := f.trans (hlam 3 (by norm_num) (by norm_num) 2 (by norm_num))
    rw [h0, hDn 0 (by norm_num) _ hm3] at g0
    rw [h1, hDn 4 (by norm_num) _ hm3] at g1
    rw [h2, hDn 2 (by norm_num) _ hm3] at g2
    have g0 := cast2 _ _ g0
    have g1 := cast2 _ _ g1
    have g2 := cast2 _ _ g2
    have key : ∀ x < 8, 2 ≤ cyc8 0 x → 2 ≤ cyc8 4 x → 2 ≤ cyc8 2 x → x = 6 := by decide
    exact key _ hm3 g0 g1 g2
  exact ⟨h0, h1, h2, h3⟩

/-! ### ripser and the call -/

/-- The distances of the four landmarks. -/
def ring4 (u v : ℕ) : ℕ := cyc8 ([0, 4, 2, 6].getD u 0) ([0, 4, 2, 6].getD v 0)

/-- What ripser returns for the four landmarks: one class in dimension 1, represented by the edge between the landmarks 3 and 0. -/
noncomputable def ringRipser (D : ℕ → ℕ → ℝ) (a : ℤ) : RipserResult ℝ :=
  ⟨[[(.fin 0, .fin 2), (.fin 0, .fin 2), (.fin 0, .fin 2), (.fin 0, .pinf)], [(.fin 2, .fin 4)]], [0, 1, 2, 3],
    [[], [[⟨[3, 0], a⟩]]], fun l i => .fin (D ([0, 1, 2, 3].getD l 0) i)⟩

def ringξ (a : ℤ) (u v : ℕ) : ℤ := a * if u = 3 ∧ v = 0 then 1 else if u = 0 ∧ v = 3 then -1 else 0

theorem ringξ_lists (a : ℤ) : ListsCochain [⟨[3, 0], a⟩] (ringξ a) where
  antisymm := by
    intro u v
    unfold ringξ
    by_cases h1 : u = 3 ∧ v = 0
    · obtain ⟨rfl, rfl⟩ := h1; simp
    · by_cases h2 : u = 0 ∧ v = 3
      · obtain ⟨rfl, rfl⟩ := h2; simp
      · have h3 : ¬ (v = 3 ∧ u = 0) := fun h => h2 ⟨h.2, h.1⟩
        have h4 : ¬ (v = 0 ∧ u = 3) := fun h => h1 ⟨h.2, h.1⟩
        simp [h1, h2, h3, h4]
  rows := by
    intro r hr
    simp only [List.mem_singleton] at hr
    subst hr
    exact ⟨3, 0, rfl, by simp [ringξ]⟩
  unlisted := by
    intro u v h
    obtain ⟨h1, h2⟩ := h _ (List.mem_singleton.2 rfl)
    unfold ringξ
    rw [if_neg, if_neg, mul_zero]
    · rintro ⟨rfl, rfl⟩; exact h2 rfl
    · rintro ⟨rfl, rfl⟩; exact h1 rfl

section
variable {D : ℕ → ℕ → ℝ} (hD : ∀ u < 4, ∀ v < 4, D u v = ring4 u v)
include hD

theorem ring_lt {u v m : ℕ} (hu : u < 4) (hv : v < 4) : D u v < (m : ℝ) ↔ ring4 u v < m := by
  rw [hD u hu v hv]
  exact Nat.cast_lt

theorem ringξ_cocycle (a : ℤ) (t : ℝ) (ht : t ≤ 4) : ∀ u < 4, ∀ v < 4, ∀ w < 4,
    D u v < t → D v w < t → D u w < t → ringξ a u v + ringξ a v w = ringξ a u w := by
  intro u hu v hv w hw h1 h2 h3
  have : ∀ u : Fin 4, ∀ v : Fin 4, ∀ w : Fin 4, ring4 u v < 4 → ring4 v w < 4 → ring4 u w < 4 →
      ringξ 1 u v + ringξ 1 v w = ringξ 1 u w := by decide +kernel
  have e4 : t ≤ ((4 : ℕ) : ℝ) := by simpa using ht
  have key := this ⟨u, hu⟩ ⟨v, hv⟩ ⟨w, hw⟩ ((ring_lt hD hu hv).1 (h1.trans_le e4)) ((ring_lt hD hv hw).1 (h2.trans_le e4))
    ((ring_lt hD hu hw).1 (h3.trans_le e4))
  have e : ∀ u v, ringξ a u v = a * ringξ 1 u v := fun u v => by unfold ringξ; rw [one_mul]
  rw [e, e, e, ← mul_add, key]

theorem ringRipser_spec (p a : ℤ) (h0 : 0 ≤ a) (hp : a < p) : RipserSpec id 4 4 D p 1 (ringRipser D a) where
  count := rfl
  nodup := (by decide : [0, 1, 2, 3].Nodup)
  range := (by decide : ∀ v ∈ [0, 1, 2, 3], v < 4)
  dists := by
    intro l h i _
    show Fl.fin (D ((ringRipser D a).idxPerm.getD l 0) i) = _
    rw [getD_of_lt h]
  dims := ⟨rfl, rfl⟩
  classes := by
    intro q dgm coc hq h1 h2
    have : q < 2 := (List.getElem?_eq_some_iff.1 h1).1
    obtain rfl : q = 1 := by omega
    simp only [ringRipser] at h1 h2
    simp at h1 h2
    subst h1 h2
    rfl
  intervals := by
    intro q dgm hq h1 pt hpt
    have : q < 2 := (List.getElem?_eq_some_iff.1 h1).1
    obtain rfl : q = 1 := by omega
    simp only [ringRipser] at h1
    simp at h1
    subst h1
    simp only [List.mem_singleton] at hpt
    subst hpt
    exact ⟨2, rfl, Or.inl ⟨4, rfl, by norm_num⟩⟩
  simplices := by
    intro q coc h1 c hc
    have : q < 2 := (List.getElem?_eq_some_iff.1 h1).1
    have hq : q = 0 ∨ q = 1 := by omega
    rcases hq with rfl | rfl
    · simp only [ringRipser] at h1
      simp at h1
      subst h1
      simp at hc
    · simp only [ringRipser] at h1
      simp at h1
      subst h1
      simp only [List.mem_singleton] at hc
      subst hc
      refine ⟨?_, by simp⟩
      intro r hr
      simp only [List.mem_singleton] at hr
      subst hr
      refine ⟨rfl, by simp, ?_, h0, hp⟩
      intro v hv
      simp only [List.mem_cons, List.not_mem_nil, or_false] at hv
      rcases hv with rfl | rfl
      · exact ⟨3, (by decide : 3 ∈ [0, 1, 2, 3]), rfl⟩
      · exact ⟨0, (by decide : 0 ∈ [0, 1, 2, 3]), rfl⟩
  cocycles := by
    intro dgm coc h1 h2 j pt c h3 h4
    simp only [ringRipser] at h1 h2
    simp at h1 h2
    subst h1 h2
    have : j < 1 := (List.getElem?_eq_some_iff.1 h3).1
    obtain rfl : j = 0 := by omega
    simp at h3 h4
    subst h3 h4
    refine ⟨ringξ a, ringξ_lists a, ?_⟩
    intro t ht u hu v hv w hw e1 e2 e3
    have ht' : t ≤ 4 := by
      rcases ht with ⟨d, hd, hd'⟩ | hd
      · simp only [Fl.fin.injEq] at hd; rw [hd]; exact belowDeath_id.1 hd'
      · simp at hd
    have key : ∀ v ∈ [0, 1, 2, 3], v < 4 := by decide
    rw [ringξ_cocycle hD a t ht' u (key u hu) v (key v hv) w (key w hw) e1 e2 e3, sub_self]
    exact dvd_zero _

theorem ringξ_small : IsIntegerLift 3 (Finset.range 4) D 3 (ringξ 2) (ringξ (-1)) where
  congr := by decide
  antisymm := fun u _ v _ => (ringξ_lists (-1)).antisymm u v
  cocycle := fun u hu v hv w hw => ringξ_cocycle hD (-1) 3 (by norm_num) u (Finset.mem_range.1 hu) v (Finset.mem_range.1 hv) w
    (Finset.mem_range.1 hw)

open Classical in
theorem ring_dataEnergy (c : ℕ → ℕ → ℤ) (hc : ∀ u ∈ Finset.range 4, ∀ v ∈ Finset.range 4, c u v = ringξ (-1) u v) (f : ℕ → ℝ) :
    dataEnergy (Finset.range 4) D 3 c f =
      2 * ((f 0 - f 2) ^ 2 + (f 2 - f 1) ^ 2 + (f 1 - f 3) ^ 2 + (1 + (f 3 - f 0)) ^ 2) := by
  have h : dataEnergy (Finset.range 4) D 3 c f = ∑ u ∈ Finset.range 4, ∑ v ∈ Finset.range 4,
      if ring4 u v < 3 then ((ringξ (-1) u v : ℝ) - (f u - f v)) ^ 2 else 0 := by
    unfold dataEnergy
    refine Finset.sum_congr rfl fun u hu => Finset.sum_congr rfl fun v hv => ?_
    rw [hc u hu v hv]
    have : (D u v < 3) ↔ ring4 u v < 3 := by
      have := ring_lt (m := 3) hD (Finset.mem_range.1 hu) (Finset.mem_range.1 hv)
      simpa using this
    simp only [this]
  rw [h]
  simp [Finset.sum_range_succ, ring4, cyc8, ringξ]
  ring

theorem ring_formBound {c : ℕ → ℕ → ℤ} (hc : ∀ u ∈ Finset.range 4, ∀ v ∈ Finset.range 4, c u v = ringξ (-1) u v) {f : ℕ → ℝ}
    (hf : ∀ g, dataEnergy (Finset.range 4) D 3 c f ≤ dataEnergy (Finset.range 4) D 3 c g) :
    FormBound (Finset.range 4) D 3 c f (1 / 4) := by
  have hmin := hf (fun (m : ℕ) => if m = 0 then 3 / 4 else if m = 2 then 1 / 2 else if m = 1 then 1 / 4 else 0)
  rw [ring_dataEnergy hD c hc, ring_dataEnergy hD c hc] at hmin
  norm_num at hmin
  have k1 : f 0 - f 2 = 1 / 4 := by
    nlinarith [sq_nonneg (f 0 - f 2 - 1 / 4), sq_nonneg (f 2 - f 1 - 1 / 4), sq_nonneg (f 1 - f 3 - 1 / 4), sq_nonneg (3 / 4 + (f 3 - f 0))]
  have k2 : f 2 - f 1 = 1 / 4 := by
    nlinarith [sq_nonneg (f 0 - f 2 - 1 / 4), sq_nonneg (f 2 - f 1 - 1 / 4), sq_nonneg (f 1 - f 3 - 1 / 4), sq_nonneg (3 / 4 + (f 3 - f 0))]
  have k3 : f 1 - f 3 = 1 / 4 := by
    nlinarith [sq_nonneg (f 0 - f 2 - 1 / 4), sq_nonneg (f 2 - f 1 - 1 / 4), sq_nonneg (f 1 - f 3 - 1 / 4), sq_nonneg (3 / 4 + (f 3 - f 0))]
  intro u hu v hv hd
  rw [hc u hu v hv]
  have hu := Finset.mem_range.1 hu
  have hv := Finset.mem_range.1 hv
  have hd' : ring4 u v < 3 := (ring_lt (m := 3) hD hu hv).1 (by simpa using hd)
  have k4 : f 0 = f 3 + 3 / 4 := by linarith
  have k5 : f 2 = f 3 + 1 / 2 := by linarith
  have k6 : f 1 = f 3 + 1 / 4 := by linarith
  interval_cases u <;> interval_cases v <;>
    first
      | (exfalso; revert hd'; decide)
      | (simp only [ringξ]; rw [abs_le]; constructor <;> norm_num [k4, k5, k6])

end

/-- The circuit: in step `q` the landmark nearest to the edge from `q` to `q + 1`. -/
def ringLand (q : ℕ) : ℕ := [0, 2, 2, 1, 1, 3, 3, 0, 0].getD q 0

/-- What `landmark_geodesic_distance` returns for the eight points. -/
theorem ring_setup {env : GeodesicEnv} (hq : QuerySpec env.query) (hsp : ShortestPathSpec env.shortestPath) {nbr : ℕ → Finset ℕ}
    {dist : ℕ → ℕ → WithTop ℝ} {permAll : List ℕ} {D : ℕ → ℕ → ℝ}
    (he : landmarkGeodesic env 8 2 ringPts 4 3 = .ok (dist, permAll)) (hG : IsNeighbourGraph 8 3 (rowDist 2 ringPts) nbr)
    (hDd : ∀ i < 4, ∀ j < permAll.length, dist i j = D i j) : permAll.Perm (List.range 8) ∧ permAll.length = 8 ∧
      (∀ u < 4, ∀ v < 4, D u v = ring4 u v) ∧ (∀ i < 4, ∀ j < 8, D i j = octδ ([0, 4, 2, 6].getD i 0) (permAll.getD j 0)) ∧
      (∀ j < 8, permAll.getD j 0 < 8) ∧
      NeighbourLoop nbr (rowDist 2 ringPts) (fun j => permAll.getD j 0) permAll.length 4 D (3 / 2) 8
        (fun (q : ℕ) => permAll.idxOf (q % 8)) ringLand := by
  obtain ⟨nbr', dist', permAll', lam, E, he', hG', hcd', hE, hfps, -, -⟩ :=
    C113_graph_distance hq hsp (X := ringPts) (d := 2) (n := 8) (nL := 4) (nN := 3) (by norm_num) (by norm_num) (by norm_num) (by norm_num)
  have e : (dist', permAll') = (dist, permAll) := by
    rw [he] at he'; injection he' with he'; exact he'.symm
  injection e with e1 e2
  subst e1 e2
  have hp := C113_permutation hq hsp (by norm_num) (by norm_num) (by norm_num) (by norm_num) he fun u hu v hv hne => by
    have key : ∀ u < 8, ∀ v < 8, u ≠ v → ∃ l < 2, ringZ u l ≠ ringZ v l := by decide
    obtain ⟨l, hl, h⟩ := key u hu v hv hne
    exact ⟨l, hl, fun h' => h (by unfold ringPts at h'; exact_mod_cast h')⟩
  obtain ⟨s0, s1, s2, s3⟩ := ring_sample (fun u hu v hv => ring_chainDistance hG' hu hv (hE u hu v hv)) hfps
  have hlen : permAll'.length = 8 := by rw [hp.length_eq, List.length_range]
  have hlt : ∀ j < 8, permAll'.getD j 0 < 8 := fun j hj => by
    have : permAll'.getD j 0 ∈ permAll' := by
      rw [getD_of_lt (by omega)]; exact List.getElem_mem _
    exact List.mem_range.1 (hp.mem_iff.1 this)
  have hidx : ∀ v < 8, permAll'.idxOf v < 8 ∧ permAll'.getD (permAll'.idxOf v) 0 = v := fun v hv => by
    have hm : v ∈ permAll' := hp.mem_iff.2 (List.mem_range.2 hv)
    have := List.idxOf_lt_length_iff.2 hm
    refine ⟨by omega, ?_⟩
    rw [getD_of_lt this]
    exact List.getElem_idxOf this
  have hpt : ∀ i < 4, permAll'.getD i 0 = [0, 4, 2, 6].getD i 0 := fun i hi => by
    interval_cases i
    · exact s0
    · exact s1
    · exact s2
    · exact s3
  have hDv : ∀ i < 4, ∀ j < 8, D i j = octδ ([0, 4, 2, 6].getD i 0) (permAll'.getD j 0) := fun i hi j hj => by
    have := ring_chainDistance hG' (hlt i (by omega)) (hlt j hj) (hcd' i hi j (by omega))
    rw [hDd i hi j (by omega), hpt i hi] at this
    exact WithTop.coe_injective this
  have hD4 : ∀ u < 4, ∀ v < 4, D u v = ring4 u v := fun u hu v hv => by
    rw [hDv u hu v (by omega), hpt v hv]; rfl
  refine ⟨hp, hlen, hD4, hDv, hlt, ?_⟩
  have hdec : ∀ q < 8, cyc8 (q % 8) ((q + 1) % 8) = 1 ∧ cyc8 ((q + 1) % 8) (q % 8) = 1 ∧ ringLand q < 4 ∧
      (cyc8 ([0, 4, 2, 6].getD (ringLand q) 0) (q % 8) = 0 ∨
      cyc8 ([0, 4, 2, 6].getD (ringLand q) 0) ((q + 1) % 8) = 0) := by decide
  have hm : ∀ q, q % 8 < 8 := fun q => Nat.mod_lt _ (by norm_num)
  refine ⟨by norm_num, rfl, rfl, fun q _ => by rw [hlen]; exact (hidx _ (hm q)).1, ?_, ?_, ?_⟩
  · have : ∀ q ≤ 8, ringLand q < 4 := by decide
    exact this
  · intro q hq'
    left
    simp only [(hidx _ (hm q)).2, (hidx _ (hm (q + 1))).2]
    exact (ring_nbr hG (hm q) (hm (q + 1))).2 (hdec q hq').1.le
  · intro q hq'
    obtain ⟨d1, -, d3, d4⟩ := hdec q hq'
    simp only [(hidx _ (hm q)).2, (hidx _ (hm (q + 1))).2]
    rw [ring_near (hm q) (hm (q + 1)) d1.le, hDv _ d3 _ (hidx _ (hm q)).1, hDv _ d3 _ (hidx _ (hm (q + 1))).1, (hidx _ (hm q)).2,
      (hidx _ (hm (q + 1))).2]
    unfold octδ
    rw [d1]
    rcases d4 with d4 | d4
    · left; rw [d4]; norm_num
    · right; rw [d4]; norm_num

/-- C133: the coordinates for the geodesic distances of the eight points (`n_landmarks = 4`, `n_neighbors = 3`) turn once around
the boundary. -/
example (env : GeodesicEnv) (hq : QuerySpec env.query) (hsp : ShortestPathSpec env.shortestPath) (fuel : ℕ) :
    ∃ dist permAll o θ, ∃ D : ℕ → ℕ → ℝ, landmarkGeodesic env 8 2 ringPts 4 3 = .ok (dist, permAll) ∧
      permAll.Perm (List.range 8) ∧ (∀ i < 4, ∀ j < permAll.length, dist i j = D i j) ∧
      toroInit idealArgsort (ringRipser D 2) ⟨4, permAll.length, D, .float, true⟩ 4 3 1 = .ok o ∧
      (circularGetCoordinates idealEnv fuel (afterCalls idealEnv o []) (.fin (1 / 2)) (.int 0) bumpLinear false true).2 = .ok θ ∧
      ∃ y : ℕ → ℝ, (∀ q ≤ 8, θ (permAll.idxOf (q % 8)) = .fin (y q)) ∧ turns 8 y = -1 := by
  obtain ⟨nbr, dist, permAll, he, hG, -, -, hcon⟩ :=
    C133_geodesic_circular hq hsp (n := 8) (d := 2) ringPts (nL := 4) (nN := 3) (by norm_num) (by norm_num) (by norm_num) (by norm_num) (by norm_num)
  obtain ⟨D, hDd, hrest⟩ := hcon (ring_connected hG)
  obtain ⟨hp, hlen, hD4, hDv, hlt, hloop⟩ := ring_setup hq hsp he hG hDd
  obtain ⟨o, dgm, coc, σ, h1, h5, h6, h7, h8⟩ := hrest 3 1 (ringRipser D 2) id idealArgsort (by norm_num) le_rfl idealArgsort_spec
    (ringRipser_spec hD4 3 2 (by norm_num) (by norm_num))
  simp only [ringRipser] at h5 h6
  simp at h5 h6
  subst h5 h6
  have hσ : σ = [0] := List.perm_singleton.1 h7.1
  subst hσ
  obtain ⟨ξ, hξ, h9⟩ := h8 0 0 2 4 _ rfl rfl rfl
  obtain rfl := hξ.unique (ringξ_lists 2)
  have h10 := h9 idealEnv (1 / 10) (1 / 10) (by norm_num) (by norm_num) idealMilp_sound idealMilp_complete fuel []
    (1 / 2) false bumpLinear (by norm_num) positiveBump_linear (3 / 2) (by norm_num) (belowDeath_id.2 (by norm_num))
  rw [show (2 : ℝ) * (3 / 2) = 3 by norm_num] at h10
  obtain ⟨θ, w, c, f, f1, -, f2, -, f3, f4⟩ := h10 ⟨_, ringξ_small hD4⟩
  have hc : ∀ u ∈ Finset.range 4, ∀ v ∈ Finset.range 4, c u v = ringξ (-1) u v := f2 _ (ringξ_small hD4) (by decide)
  obtain ⟨y, hy, ht, -⟩ := f4 (1 / 4) 8 _ _ (ring_formBound hD4 hc (f3 idealLsqr_exact)) hloop (Or.inl le_rfl)
  refine ⟨dist, permAll, o, θ, D, he, hp, hDd, h1, f1, y, hy, ?_⟩
  rw [ht]
  have hv : pathValue c 8 ringLand = pathValue (ringξ (-1)) 8 ringLand := by
    unfold pathValue
    refine Finset.sum_congr rfl fun q hq' => ?_
    have hq' := Finset.mem_range.1 hq'
    exact hc _ (Finset.mem_range.2 (hloop.land q hq'.le)) _ (Finset.mem_range.2 (hloop.land (q + 1) hq'))
  rw [hv, show pathValue (ringξ (-1)) 8 ringLand = -1 by decide +kernel]
  norm_num

/-- C133: the lines of `ProjectiveCoords` for the geodesic distances of the eight points turn around along the boundary. -/
example (env : GeodesicEnv) (hq : QuerySpec env.query) (hsp : ShortestPathSpec env.shortestPath) (eigh : Eigh ℝ) (he : EighSpec eigh) :
    ∃ dist permAll o Y, ∃ D y : ℕ → ℕ → ℝ, landmarkGeodesic env 8 2 ringPts 4 3 = .ok (dist, permAll) ∧
      permAll.Perm (List.range 8) ∧ (∀ i < 4, ∀ j < permAll.length, dist i j = D i j) ∧
      projInit idealArgsort (ringRipser D 1) ⟨4, permAll.length, D, .float, true⟩ 1 = .ok o ∧
      (projGetCoordinates eigh 4 o ⟨.fin (1 / 2), .int 0, 3, bumpLinear, false, true, .direct⟩).2 = .ok Y ∧
      (∀ i < permAll.length, ∀ m < 4, Y.at' i m = some (y i m)) ∧
      ∏ q ∈ Finset.range 8, ∑ m ∈ Finset.range 4, y (permAll.idxOf (q % 8)) m * y (permAll.idxOf ((q + 1) % 8)) m < 0 := by
  obtain ⟨nbr, dist, permAll, he', hG, hcon⟩ :=
    C133_geodesic_projective hq hsp (n := 8) (d := 2) ringPts (nL := 4) (nN := 3) (by norm_num) (by norm_num) (by norm_num) (by norm_num)
  obtain ⟨D, hDd, hrest⟩ := hcon (ring_connected hG)
  obtain ⟨hp, hlen, hD4, hDv, hlt, hloop⟩ := ring_setup hq hsp he' hG hDd
  obtain ⟨o, dgm, coc, σ, h1, h5, h6, h7, h8⟩ := hrest 1 (ringRipser D 1) id idealArgsort le_rfl idealArgsort_spec
    (ringRipser_spec hD4 2 1 (by norm_num) (by norm_num))
  simp only [ringRipser] at h5 h6
  simp at h5 h6
  subst h5 h6
  have hσ : σ = [0] := List.perm_singleton.1 h7.1
  subst hσ
  obtain ⟨ξ, hξ, h9⟩ := h8 0 0 2 4 _ rfl rfl rfl
  obtain rfl := hξ.unique (ringξ_lists 1)
  obtain ⟨Y, y, e1, -, -, e2, e3⟩ := h9 eigh 4 [] (1 / 2) false true bumpLinear .direct he le_rfl
    (by norm_num) positiveBump_linear (by simp) (3 / 2) (by norm_num) (belowDeath_id.2 (by norm_num)) fun i hi => by
      rw [hlen] at hi
      have key : ∀ v < 8, ∃ u < 4, cyc8 ([0, 4, 2, 6].getD u 0) v ≤ 1 := by decide
      obtain ⟨u, hu, h⟩ := key _ (hlt i hi)
      refine ⟨u, hu, ?_⟩
      rw [hDv u hu i hi]
      have : ((cyc8 ([0, 4, 2, 6].getD u 0) (permAll.getD i 0) : ℕ) : ℝ) ≤ (1 : ℕ) := by exact_mod_cast h
      unfold octδ; push_cast at this; linarith
  refine ⟨dist, permAll, o, Y, D, y, he', hp, hDd, h1, e1, e2, (e3 8 _ _ hloop).2 ?_⟩
  have : pathValue (ringξ 1) 8 ringLand = 1 := by decide +kernel
  rw [this]; decide

/-- C133 for `ToroidalCoords` with one selected class. -/
example (env : GeodesicEnv) (hq : QuerySpec env.query) (hsp : ShortestPathSpec env.shortestPath) (fuel : ℕ) :
    ∃ dist permAll o θ, ∃ D : ℕ → ℕ → ℝ, landmarkGeodesic env 8 2 ringPts 4 3 = .ok (dist, permAll) ∧
      permAll.Perm (List.range 8) ∧ (∀ i < 4, ∀ j < permAll.length, dist i j = D i j) ∧
      toroInit idealArgsort (ringRipser D 2) ⟨4, permAll.length, D, .float, true⟩ 4 3 1 = .ok o ∧
      (getCoordinates idealEnv fuel (afterCalls idealEnv o []) ⟨.fin (1 / 2), List.ofFn fun _ : Fin 1 => .int 0, bumpLinear, false, true⟩).2 =
        .ok (List.ofFn fun _ : Fin 1 => θ) ∧
      ∃ c, IsIntegerLift 3 (Finset.range 4) D 3 (ringξ 2) c := by
  obtain ⟨nbr, dist, permAll, he, hG, hcon⟩ :=
    C133_geodesic_toroidal hq hsp (n := 8) (d := 2) ringPts (nL := 4) (nN := 3) (by norm_num) (by norm_num) (by norm_num) (by norm_num) (by norm_num)
  obtain ⟨D, hDd, hrest⟩ := hcon (ring_connected hG)
  obtain ⟨hp, hlen, hD4, hDv, hlt, hloop⟩ := ring_setup hq hsp he hG hDd
  obtain ⟨o, dgm, coc, σ, h1, h5, h6, h7, h8⟩ := hrest 3 1 (ringRipser D 2) id idealArgsort (by norm_num) le_rfl idealArgsort_spec
    (ringRipser_spec hD4 3 2 (by norm_num) (by norm_num))
  have hx : DescribesData ⟨4, permAll.length, D, .float, true⟩ D := by
    refine ⟨by show 4 ≤ permAll.length; omega, ⟨fun u hu i hi => ?_, fun u hu v hv => ?_, fun u hu v hv i hi => ?_⟩, fun _ _ _ _ _ => rfl⟩
    · rw [hDv u hu i (hlen ▸ hi)]; exact Nat.cast_nonneg _
    · rw [hD4 u hu v hv, hD4 v hv u hu]
      have : ∀ u < 4, ∀ v < 4, ring4 u v = ring4 v u := by decide
      rw [this u hu v hv]
    · have hi : i < 8 := hlen ▸ hi
      rw [hD4 u hu v hv, hDv u hu i hi, hDv v hv i hi]
      have : ∀ u : Fin 4, ∀ v : Fin 4, ∀ x : Fin 8, ring4 u v ≤ cyc8 ([0, 4, 2, 6].getD u 0) x + cyc8 ([0, 4, 2, 6].getD v 0) x := by
        decide +kernel
      have := this ⟨u, hu⟩ ⟨v, hv⟩ ⟨_, hlt i hi⟩
      unfold octδ
      exact_mod_cast this
  obtain ⟨o', dgm', coc', σ', h1', h5', h6', h7', h8'⟩ := C111_circular_winding _ hx
    (ringRipser_spec hD4 3 2 (by norm_num) (by norm_num)) idealArgsort idealArgsort_spec le_rfl (by norm_num) (by norm_num) (fun _ => rfl)
    (by norm_num)
  rw [h1] at h1'
  injection h1' with h1'
  subst h1'
  simp only [ringRipser] at h5 h6 h5' h6'
  simp at h5 h6 h5' h6'
  subst h5 h6 h5' h6'
  have hσ : σ = [0] := List.perm_singleton.1 h7.1
  have hσ' : σ' = [0] := List.perm_singleton.1 h7'.1
  subst hσ hσ'
  obtain ⟨ξ, hξ, h9⟩ := h8' 0 0 2 4 _ rfl rfl rfl
  obtain rfl := hξ.unique (ringξ_lists 2)
  have h10 := h9 idealEnv (1 / 10) (1 / 10) (by norm_num) (by norm_num) idealMilp_sound idealMilp_complete fuel []
    (1 / 2) false bumpLinear (by norm_num) positiveBump_linear (3 / 2) (by norm_num) (belowDeath_id.2 (by norm_num))
  rw [show (2 : ℝ) * (3 / 2) = 3 by norm_num, idxPerm_range (ringRipser_spec hD4 3 2 (by norm_num) (by norm_num))] at h10
  obtain ⟨θ, w, c, f, f1, -⟩ := h10 ⟨_, ringξ_small hD4⟩
  have hT := C46_single_class idealEnv fuel (afterCalls idealEnv o []) (.fin (1 / 2)) (.int 0) bumpLinear false true
  simp only at hT
  have hok := (hT.2.2.2.1 θ).1 f1
  have hsel : SelectsClasses [(.fin 2, .fin 4)] [[⟨[3, 0], 2⟩]] [0] (fun _ : Fin 1 => 0) (fun _ => 2) (fun _ => 4) (fun _ => ringξ 2) :=
    ⟨fun a => ⟨0, _, rfl, rfl, rfl, ringξ_lists 2⟩⟩
  obtain ⟨θ', w', c', f', U, g0, g1, g2, -⟩ := h8 1 _ _ _ _ hsel idealEnv (1 / 10) (1 / 10) (by norm_num) (by norm_num)
    idealMilp_sound fuel [] (1 / 2) false bumpLinear positiveBump_linear 2 4 (3 / 2)
    (by simp [IsGreatest, mem_upperBounds]) (by simp [IsLeast, mem_lowerBounds]) (by norm_num) (by norm_num) (by norm_num)
    (belowDeath_id.2 (by norm_num)) [θ] (by simpa using hok)
  rw [show (2 : ℝ) * (3 / 2) = 3 by norm_num] at g2
  exact ⟨dist, permAll, o, θ, D, he, hp, hDd, h1, by simpa using hok, c' 0, g2 0⟩

end Dreimac
