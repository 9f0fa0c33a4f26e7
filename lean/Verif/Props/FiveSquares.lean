import Verif.Props.ManyClasses
import Verif.Props.ConstructExamples
import Verif.Props.RepairExamples

/-!
# C121 with five classes: a call that never ends

Five squares, far from each other.  Points `4 s, …, 4 s + 3` are the corners of square `s`, in cyclic order; neighbouring corners
are at distance 1 and all other points at distance 2.  So there are five classes, all with lifetime from 1 to 2.
-/

namespace Dreimac

open Matrix

/-- A cochain with given values on the listed edges. -/
def lookupCochain (c : List ZRow) (u v : ℕ) : ℤ :=
  (c.map fun r => if r.verts = [(u : ℤ), (v : ℤ)] then r.val else if r.verts = [(v : ℤ), (u : ℤ)] then -r.val else 0).sum

/-- Every array of different edges lists a cochain. -/
theorem lookup_lists {c : List ZRow} (he : ∀ r ∈ c, ∃ u v : ℕ, r.verts = [(u : ℤ), (v : ℤ)] ∧ u ≠ v)
    (hd : c.Pairwise fun r r' => ¬ r.verts.Perm r'.verts) : ListsCochain c (lookupCochain c) where
  antisymm := by
    intro u v
    unfold lookupCochain
    rw [← neg_one_mul, ← List.sum_map_mul_left]
    refine congrArg List.sum (List.map_congr_left fun r hr => ?_)
    obtain ⟨a, b, h, hab⟩ := he r hr
    rw [h]
    simp only [List.cons.injEq, Nat.cast_inj, and_true]
    split_ifs <;> first | omega | simp
  rows := by
    intro r hr
    obtain ⟨a, b, h, hab⟩ := he r hr
    refine ⟨a, b, h, ?_⟩
    unfold lookupCochain
    induction c with
    | nil => simp at hr
    | cons q c ih =>
      obtain ⟨h1, h2⟩ := List.pairwise_cons.1 hd
      simp only [List.map_cons, List.sum_cons]
      rcases List.mem_cons.1 hr with rfl | hr
      · rw [if_pos h]
        have : (c.map fun r => if r.verts = [(a : ℤ), (b : ℤ)] then r.val else if r.verts = [(b : ℤ), (a : ℤ)] then -r.val else 0) =
            c.map fun _ => 0 := by
          refine List.map_congr_left fun q hq => ?_
          have := h1 q hq
          rw [h] at this
          rw [if_neg fun e => this (by rw [e]), if_neg fun e => this (by rw [e]; exact List.Perm.swap _ _ _)]
        rw [this]; simp
      · have := h1 r hr
        rw [h] at this
        rw [if_neg fun e => this (by rw [e]), if_neg fun e => this (by rw [e]; exact List.Perm.swap _ _ _), zero_add]
        exact ih (fun r hr => he r (by simp [hr])) h2 hr
  unlisted := by
    intro u v h
    unfold lookupCochain
    have : (c.map fun r => if r.verts = [(u : ℤ), (v : ℤ)] then r.val else if r.verts = [(v : ℤ), (u : ℤ)] then -r.val else 0) =
        c.map fun _ => 0 := List.map_congr_left fun q hq => by rw [if_neg (h q hq).1, if_neg (h q hq).2]
    rw [this]; simp

/-- The distances. -/
noncomputable def fvδ (u v : ℕ) : ℝ := if u = v then 0 else if u / 4 = v / 4 ∧ (u + v) % 2 = 1 then 1 else 2

/-- The distance matrix of the 20 points. -/
noncomputable def fvInput : DataInput := ⟨20, 20, fvδ, .float, true⟩

/-- The five classes: class `j` goes `4 * fvCoeff s j` times around square `s`. -/
def fvCoeff : Matrix (Fin 5) (Fin 5) ℤ :=
  !![-2, 1, -1, 0, -1; 1, 2, -2, 2, 0; -2, 1, 1, 0, -1; 0, -1, -1, -1, 0; -2, 2, 2, -2, 2]

/-- The sides of the squares, with signs. -/
def fvSides : List ((Fin 5 × ℕ × ℕ) × ℤ) :=
  (List.finRange 5).flatMap fun s => [((s, 4 * s, 4 * s + 1), 1), ((s, 4 * s + 1, 4 * s + 2), 1), ((s, 4 * s + 2, 4 * s + 3), 1),
    ((s, 4 * s, 4 * s + 3), -1)]

/-- The array of class `j`: the sides with non-zero value, values modulo 41. -/
def fvArr (j : Fin 5) : List ZRow :=
  (fvSides.filter fun e => fvCoeff e.1.1 j ≠ 0).map fun e => ⟨[(e.1.2.1 : ℤ), (e.1.2.2 : ℤ)], (e.2 * fvCoeff e.1.1 j) % 41⟩

/-- What ripser returns for the prime 41, with all points as landmarks. -/
noncomputable def fvRipser : RipserResult ℝ :=
  ⟨[List.replicate 15 (.fin 0, .fin 1) ++ List.replicate 4 (.fin 0, .fin 2) ++ [(.fin 0, .pinf)], List.replicate 5 (.fin 1, .fin 2)],
    List.range 20, [[], List.ofFn fvArr], fun l i => .fin (fvδ ((List.range 20).getD l 0) i)⟩

theorem fvδ_cases (u v : ℕ) : (u = v ∧ fvδ u v = 0) ∨ (u ≠ v ∧ u / 4 = v / 4 ∧ (u + v) % 2 = 1 ∧ fvδ u v = 1) ∨
    (u ≠ v ∧ ¬ (u / 4 = v / 4 ∧ (u + v) % 2 = 1) ∧ fvδ u v = 2) := by
  unfold fvδ
  by_cases h : u = v
  · exact Or.inl ⟨h, if_pos h⟩
  · by_cases h2 : u / 4 = v / 4 ∧ (u + v) % 2 = 1
    · exact Or.inr (Or.inl ⟨h, h2.1, h2.2, by rw [if_neg h, if_pos h2]⟩)
    · exact Or.inr (Or.inr ⟨h, h2, by rw [if_neg h, if_neg h2]⟩)

theorem fvδ_symm (u v : ℕ) : fvδ u v = fvδ v u := by
  unfold fvδ; simp only [eq_comm, add_comm]

theorem fvInput_describes : DescribesData fvInput fvδ where
  rows := le_refl _
  metric := by
    refine ⟨fun u _ i _ => ?_, fun u _ v _ => fvδ_symm u v, fun u _ v _ i _ => ?_⟩
    · rcases fvδ_cases u i with ⟨-, h⟩ | ⟨-, -, -, h⟩ | ⟨-, -, h⟩ <;> rw [h] <;> norm_num
    · rcases fvδ_cases u i with ⟨rfl, h'⟩ | ⟨-, -, -, h'⟩ | ⟨-, -, h'⟩
      · rw [h', fvδ_symm u v]; simp
      · rcases fvδ_cases v i with ⟨rfl, h''⟩ | ⟨-, -, -, h''⟩ | ⟨-, -, h''⟩
        · rw [h'']; simp
        all_goals
          rw [h', h'']
          rcases fvδ_cases u v with ⟨-, h⟩ | ⟨-, -, -, h⟩ | ⟨-, -, h⟩ <;> rw [h] <;> norm_num
      · have h1 : fvδ u v ≤ 2 := by
          rcases fvδ_cases u v with ⟨-, h⟩ | ⟨-, -, -, h⟩ | ⟨-, -, h⟩ <;> rw [h] <;> norm_num
        have h2 : 0 ≤ fvδ v i := by
          rcases fvδ_cases v i with ⟨-, h⟩ | ⟨-, -, -, h⟩ | ⟨-, -, h⟩ <;> rw [h] <;> norm_num
        rw [h']; linarith
  entries := fun _ _ _ _ _ => rfl

theorem fv_near {t : ℝ} (ht : t ≤ 2) {a b : ℕ} (h : fvδ a b < t) : a = b ∨ (a + b) % 2 = 1 := by
  rcases fvδ_cases a b with ⟨h1, -⟩ | ⟨-, -, h1, -⟩ | ⟨-, -, h1⟩
  · exact Or.inl h1
  · exact Or.inr h1
  · rw [h1] at h; linarith

theorem fvArr_valid : ∀ j, (∀ r ∈ fvArr j, r.verts.length = 2 ∧ r.verts.Nodup ∧ (∀ v ∈ r.verts, 0 ≤ v ∧ v < 20) ∧ 0 ≤ r.val ∧ r.val < 41) ∧
    (fvArr j).Pairwise fun r r' => ¬ r.verts.Perm r'.verts := by decide +kernel

theorem fvArr_lists (j : Fin 5) : ListsCochain (fvArr j) (lookupCochain (fvArr j)) := by
  refine lookup_lists (fun r hr => ?_) (fvArr_valid j).2
  obtain ⟨h1, h2, h3, -⟩ := (fvArr_valid j).1 r hr
  obtain ⟨a, b, hab⟩ := List.length_eq_two.1 h1
  rw [hab] at h2 h3
  have ha := (h3 a (by simp)).1
  have hb := (h3 b (by simp)).1
  refine ⟨a.toNat, b.toNat, by rw [hab, Int.toNat_of_nonneg ha, Int.toNat_of_nonneg hb], ?_⟩
  simp at h2
  omega

/-- ripser keeps its promise. -/
theorem fvRipser_spec : RipserSpec id 20 20 fvδ 41 1 fvRipser where
  count := rfl
  nodup := List.nodup_range
  range := fun v hv => List.mem_range.1 hv
  dists := by
    intro l h i _
    show Fl.fin (fvδ (fvRipser.idxPerm.getD l 0) i) = _
    rw [getD_of_lt h]
  dims := ⟨rfl, rfl⟩
  classes := by
    intro q dgm coc hq h1 h2
    have : q < 2 := (List.getElem?_eq_some_iff.1 h1).1
    obtain rfl : q = 1 := by omega
    cases Option.some.inj h1
    cases Option.some.inj h2
    simp
  intervals := by
    intro q dgm hq h1 pt hpt
    have : q < 2 := (List.getElem?_eq_some_iff.1 h1).1
    obtain rfl : q = 1 := by omega
    cases Option.some.inj h1
    rw [List.eq_of_mem_replicate hpt]
    exact ⟨1, rfl, Or.inl ⟨2, rfl, by norm_num⟩⟩
  simplices := by
    intro q coc h1 c hc
    have : q < 2 := (List.getElem?_eq_some_iff.1 h1).1
    have hq : q = 0 ∨ q = 1 := by omega
    rcases hq with rfl | rfl
    · cases Option.some.inj h1
      simp at hc
    · cases Option.some.inj h1
      obtain ⟨j, rfl⟩ := List.mem_ofFn.1 hc
      refine ⟨fun r hr => ?_, (fvArr_valid j).2⟩
      obtain ⟨h1, h2, h3, h4, h5⟩ := (fvArr_valid j).1 r hr
      refine ⟨h1, h2, fun v hv => ⟨v.toNat, List.mem_range.2 ?_, ?_⟩, h4, h5⟩
      · have := h3 v hv; omega
      · have := h3 v hv; omega
  cocycles := by
    intro dgm coc h1 h2 j pt c h3 h4
    cases Option.some.inj h1
    cases Option.some.inj h2
    obtain ⟨j', rfl⟩ := List.mem_ofFn.1 (List.mem_of_getElem? h4)
    have hpt := List.eq_of_mem_replicate (List.mem_of_getElem? h3)
    subst hpt
    refine ⟨_, fvArr_lists j', ?_⟩
    intro t ht u hu v hv w hw e1 e2 e3
    have ht' : t ≤ 2 := by
      rcases ht with ⟨d, hd, hd'⟩ | hd
      · simp only [Fl.fin.injEq] at hd
        subst hd
        exact belowDeath_id.1 hd'
      · simp at hd
    have ha := (fvArr_lists j').antisymm
    have hz : ∀ u, lookupCochain (fvArr j') u u = 0 := fun u => by have := ha u u; omega
    have : lookupCochain (fvArr j') u v + lookupCochain (fvArr j') v w - lookupCochain (fvArr j') u w = 0 := by
      by_cases huv : u = v
      · subst huv; rw [hz]; ring
      by_cases hvw : v = w
      · subst hvw; rw [hz]; ring
      by_cases huw : u = w
      · subst huw; rw [hz, ha u v]; ring
      have := fv_near ht' e1
      have := fv_near ht' e2
      have := fv_near ht' e3
      omega
    rw [this]; exact dvd_zero _

/-- With all data points as landmarks the stored arrays are those of ripser. -/
theorem renamed_range {n : ℕ} {c : List ZRow} {s : SparseCochain} (h : List.Forall₂ (Renamed (List.range n)) c s) :
    s = c.map ZRow.toRow := by
  induction h with
  | nil => rfl
  | @cons r t c s hrt _ ih =>
    obtain ⟨h1, h2, h3⟩ := hrt
    rw [List.map_cons, ← ih]
    congr 1
    have e : t.verts = r.verts.map Int.toNat := by
      rw [h3, List.map_map]
      symm
      have : ∀ m ∈ t.verts, (Int.toNat ∘ fun m => (((List.range n).getD m 0 : ℕ) : ℤ)) m = m := by
        intro m hm
        have hm : m < n := by simpa using h2 m hm
        simp [List.getD_eq_getElem?_getD, List.getElem?_range hm]
      rw [List.map_congr_left this, List.map_id']
    obtain ⟨tv, tval⟩ := t
    simp only at h1 e
    rw [ZRow.toRow, e, h1]

/-- The dense vector of class `j`. -/
def fvVec (j : Fin 5) : List ℤ :=
  ((fvSides.filter fun e => fvCoeff e.1.1 j ≠ 0).map fun e => (e.1.2, liftVal 41 ((e.2 * fvCoeff e.1.1 j) % 41))).foldl
    (fun vec e => vec.set (cnsForward [e.1.1, e.1.2] (cnsTable 20 2)) e.2) (List.replicate (Nat.choose 20 2) 0)

theorem fv_dense (j : Fin 5) :
    sparseCocycleToVector 1 (liftToIntegerCocycle ((fvArr j).map ZRow.toRow) 41) (cnsTable 20 2) 20 = .ok (fvVec j) := by
  have h : ∀ j, liftToIntegerCocycle ((fvArr j).map ZRow.toRow) 41 =
      ((fvSides.filter fun e => fvCoeff e.1.1 j ≠ 0).map fun e => (e.1.2, liftVal 41 ((e.2 * fvCoeff e.1.1 j) % 41))).map
        fun e => (⟨[e.1.1, e.1.2], e.2⟩ : Row) := by decide +kernel
  rw [h]
  refine dense_edges le_rfl _ ?_
  revert j
  decide +kernel

theorem fvVec_sides : ∀ (j s : Fin 5), (fvVec j).getD (edgeIdx (4 * s) (4 * s + 1)) 0 = fvCoeff s j ∧
    (fvVec j).getD (edgeIdx (4 * s + 1) (4 * s + 2)) 0 = fvCoeff s j ∧ (fvVec j).getD (edgeIdx (4 * s + 2) (4 * s + 3)) 0 = fvCoeff s j ∧
    (fvVec j).getD (edgeIdx (4 * s) (4 * s + 3)) 0 = -fvCoeff s j := by decide +kernel

/-- The edges of the Rips complex are the sides of the squares. -/
theorem fv_edge {dll : ℕ → ℕ → ℝ} (hd : ∀ l < 20, ∀ m < 20, dll l m = fvδ l m) {t : ℝ} (h1 : 1 < t) (h2 : t ≤ 2) (l m : ℕ) :
    RipsEdge 20 dll t l m ↔ l < m ∧ m < 20 ∧ l / 4 = m / 4 ∧ (l + m) % 2 = 1 := by
  unfold RipsEdge
  constructor
  · rintro ⟨a, b, c⟩
    refine ⟨a, b, ?_⟩
    rw [hd l (by omega) m b] at c
    rcases fvδ_cases l m with ⟨e, h⟩ | ⟨-, e, e', h⟩ | ⟨-, -, h⟩
    · omega
    · exact ⟨e, e'⟩
    · rw [h] at c; linarith
  · rintro ⟨a, b, c, d⟩
    refine ⟨a, b, ?_⟩
    rw [hd l (by omega) m b]
    rcases fvδ_cases l m with ⟨e, h⟩ | ⟨-, e, e', h⟩ | ⟨-, e, h⟩
    · omega
    · rwa [h]
    · exact absurd ⟨c, d⟩ e

open Classical in
/-- Sums over the edges. -/
theorem fv_sum {dll : ℕ → ℕ → ℝ} (hd : ∀ l < 20, ∀ m < 20, dll l m = fvδ l m) {t : ℝ} (h1 : 1 < t) (h2 : t ≤ 2) (F : ℕ → ℕ → ℝ) :
    (∑ l ∈ Finset.range 20, ∑ m ∈ Finset.range 20, if RipsEdge 20 dll t l m then F l m else 0) =
      ∑ s : Fin 5, (F (4 * s) (4 * s + 1) + F (4 * s + 1) (4 * s + 2) + F (4 * s + 2) (4 * s + 3) + F (4 * s) (4 * s + 3)) := by
  simp only [fv_edge hd h1 h2]
  rw [← Finset.sum_product', ← Finset.sum_filter]
  have e : ((Finset.range 20 ×ˢ Finset.range 20).filter fun x : ℕ × ℕ => x.1 < x.2 ∧ x.2 < 20 ∧ x.1 / 4 = x.2 / 4 ∧ (x.1 + x.2) % 2 = 1) =
      (fvSides.map fun e => e.1.2).toFinset := by decide +kernel
  have hn : (fvSides.map fun e => e.1.2).Nodup := by decide +kernel
  rw [show (Finset.filter (fun x : ℕ × ℕ => x.1 < x.2 ∧ x.2 < 20 ∧ x.1 / 4 = x.2 / 4 ∧ (x.1 + x.2) % 2 = 1)
    (Finset.range 20 ×ˢ Finset.range 20)) = (fvSides.map fun e => e.1.2).toFinset by convert e, List.sum_toFinset _ hn]
  have hl : fvSides.map (fun e => e.1.2) = (List.finRange 5).flatMap fun s => [(4 * (s : ℕ), 4 * (s : ℕ) + 1),
    (4 * (s : ℕ) + 1, 4 * (s : ℕ) + 2), (4 * (s : ℕ) + 2, 4 * (s : ℕ) + 3), (4 * (s : ℕ), 4 * (s : ℕ) + 3)] := by decide +kernel
  rw [hl]
  simp only [Fin.sum_univ_five]
  simp [List.finRange_succ, List.flatMap_cons]
  ring

theorem fv_energy {dll : ℕ → ℕ → ℝ} (hd : ∀ l < 20, ∀ m < 20, dll l m = fvδ l m) {r : ℝ} (h1 : 1 < 2 * r) (h2 : 2 * r ≤ 2)
    (j : Fin 5) (f : ℕ → ℝ) : formEnergy 20 dll r (fun e => (((fvVec j).getD e 0 : ℤ) : ℝ)) f =
    ∑ s : Fin 5, (4 * (fvCoeff s j : ℝ) ^ 2 + ((f (4 * s) - f (4 * s + 1)) ^ 2 + (f (4 * s + 1) - f (4 * s + 2)) ^ 2 +
      (f (4 * s + 2) - f (4 * s + 3)) ^ 2 + (f (4 * s) - f (4 * s + 3)) ^ 2)) := by
  have := fv_sum hd h1 h2 fun l m => ((((fvVec j).getD (edgeIdx l m) 0 : ℤ) : ℝ) - (f l - f m)) ^ 2
  unfold formEnergy
  refine Eq.trans ?_ (this.trans ?_)
  · exact Finset.sum_congr rfl fun l _ => Finset.sum_congr rfl fun m _ => by congr
  · refine Finset.sum_congr rfl fun s _ => ?_
    obtain ⟨e1, e2, e3, e4⟩ := fvVec_sides j s
    rw [e1, e2, e3, e4]
    push_cast
    ring

/-- The classes are harmonic: the least squares solution is constant along the sides. -/
theorem fv_minimiser {dll : ℕ → ℕ → ℝ} (hd : ∀ l < 20, ∀ m < 20, dll l m = fvδ l m) {r : ℝ} (h1 : 1 < 2 * r) (h2 : 2 * r ≤ 2)
    (j : Fin 5) (f : ℕ → ℝ) (h : ∀ g, formEnergy 20 dll r (fun e => (((fvVec j).getD e 0 : ℤ) : ℝ)) f ≤
      formEnergy 20 dll r (fun e => (((fvVec j).getD e 0 : ℤ) : ℝ)) g) (s : Fin 5) :
    f (4 * s) - f (4 * s + 1) = 0 ∧ f (4 * s + 1) - f (4 * s + 2) = 0 ∧ f (4 * s + 2) - f (4 * s + 3) = 0 ∧
      f (4 * s) - f (4 * s + 3) = 0 := by
  have h0 := h fun _ => 0
  rw [fv_energy hd h1 h2, fv_energy hd h1 h2, Finset.sum_add_distrib, Finset.sum_add_distrib] at h0
  simp only [sub_self, ne_eq, OfNat.ofNat_ne_zero, not_false_eq_true, zero_pow, add_zero, Finset.sum_const_zero] at h0
  have hs : ∑ s : Fin 5, ((f (4 * s) - f (4 * s + 1)) ^ 2 + (f (4 * s + 1) - f (4 * s + 2)) ^ 2 +
      (f (4 * s + 2) - f (4 * s + 3)) ^ 2 + (f (4 * s) - f (4 * s + 3)) ^ 2) = 0 :=
    le_antisymm (by rw [Finset.sum_add_distrib]; linarith) (Finset.sum_nonneg fun s _ => by positivity)
  have := (Finset.sum_eq_zero_iff_of_nonneg fun s _ => by positivity).1 hs s (Finset.mem_univ s)
  have a1 := sq_nonneg (f (4 * s) - f (4 * s + 1))
  have a2 := sq_nonneg (f (4 * s + 1) - f (4 * s + 2))
  have a3 := sq_nonneg (f (4 * s + 2) - f (4 * s + 3))
  have a4 := sq_nonneg (f (4 * s) - f (4 * s + 3))
  exact ⟨pow_eq_zero_iff two_ne_zero |>.1 (by linarith), pow_eq_zero_iff two_ne_zero |>.1 (by linarith),
    pow_eq_zero_iff two_ne_zero |>.1 (by linarith), pow_eq_zero_iff two_ne_zero |>.1 (by linarith)⟩

/-- The Gram matrix of the harmonic representatives. -/
theorem fv_gram {dll : ℕ → ℕ → ℝ} (hd : ∀ l < 20, ∀ m < 20, dll l m = fvδ l m) {r : ℝ} (h1 : 1 < 2 * r) (h2 : 2 * r ≤ 2)
    {n : ℕ} (ι : Fin n → Fin 5) (v : Fin n → List ℤ) (hv : ∀ i, v i = fvVec (ι i)) (f : Fin n → ℕ → ℝ)
    (h : ∀ i g, formEnergy 20 dll r (fun e => (((v i).getD e 0 : ℤ) : ℝ)) (f i) ≤
      formEnergy 20 dll r (fun e => (((v i).getD e 0 : ℤ) : ℝ)) g) (i j : Fin n) :
    returnedGram 20 dll r 1 (fun i e => (v i).getD e 0) f i j = ((4 * ∑ s, fvCoeff s (ι i) * fvCoeff s (ι j) : ℤ) : ℝ) := by
  unfold returnedGram
  simp only [Matrix.one_apply, Int.cast_ite, Int.cast_one, Int.cast_zero, ite_mul, one_mul, zero_mul, Finset.sum_ite_eq,
    Finset.mem_univ, if_true]
  rw [fv_sum hd h1 h2 fun l s => ((((v i).getD (edgeIdx l s) 0 : ℤ) : ℝ) - (f i l - f i s)) *
    ((((v j).getD (edgeIdx l s) 0 : ℤ) : ℝ) - (f j l - f j s))]
  push_cast
  rw [Finset.mul_sum]
  refine Finset.sum_congr rfl fun s _ => ?_
  have hi := h i
  have hj := h j
  rw [hv] at hi hj ⊢
  rw [hv]
  obtain ⟨e1, e2, e3, e4⟩ := fvVec_sides (ι i) s
  obtain ⟨e1', e2', e3', e4'⟩ := fvVec_sides (ι j) s
  obtain ⟨d1, d2, d3, d4⟩ := fv_minimiser hd h1 h2 (ι i) (f i) hi s
  obtain ⟨d1', d2', d3', d4'⟩ := fv_minimiser hd h1 h2 (ι j) (f j) hj s
  rw [e1, e2, e3, e4, e1', e2', e3', e4', d1, d2, d3, d4, d1', d2', d3', d4']
  push_cast
  ring

/-! ### the reduction does not end -/

/-- The coefficients, doubled: the Gram matrix of its columns is that of the five classes. -/
def fvB : Matrix (Fin 5) (Fin 5) ℚ := fun s j => 2 * cyc0 s j

set_option maxRecDepth 100000 in
theorem fv_steps :
    lllStep (3 / 4) (⟨fvB, 1, 1⟩ : LLLState ℚ 5) = ⟨fvB, 1, 2⟩ ∧
    lllStep (3 / 4) (⟨fvB, 1, 2⟩ : LLLState ℚ 5) = ⟨fvB, 1, 3⟩ ∧
    lllStep (3 / 4) (⟨fvB, 1, 3⟩ : LLLState ℚ 5) = ⟨fun i j => 2 * cyc1 i j, chg1, 4⟩ ∧
    lllStep (3 / 4) (⟨fun i j => 2 * cyc1 i j, chg1, 4⟩ : LLLState ℚ 5) = ⟨fun i j => 2 * cyc2 i j, chg2, 3⟩ ∧
    lllStep (3 / 4) (⟨fun i j => 2 * cyc2 i j, chg2, 3⟩ : LLLState ℚ 5) = ⟨fun i j => 2 * cyc3 i j, chg3, 4⟩ ∧
    lllStep (3 / 4) (⟨fun i j => 2 * cyc3 i j, chg3, 4⟩ : LLLState ℚ 5) = ⟨fvB, 1, 3⟩ := by
  refine ⟨state_ext ?_, state_ext ?_, state_ext ?_, state_ext ?_, state_ext ?_, state_ext ?_⟩ <;> decide +kernel

theorem fv_run (m : ℕ) : (lllRun (3 / 4) m (lllInit fvB)).k < 5 := by
  obtain ⟨a0, a1, h0, h1, h2, h3⟩ := fv_steps
  have key : ∀ m, (lllRun (3 / 4) m (⟨fvB, 1, 3⟩ : LLLState ℚ 5)).k < 5 ∧
      (lllRun (3 / 4) m (⟨fun i j => 2 * cyc1 i j, chg1, 4⟩ : LLLState ℚ 5)).k < 5 ∧
      (lllRun (3 / 4) m (⟨fun i j => 2 * cyc2 i j, chg2, 3⟩ : LLLState ℚ 5)).k < 5 ∧
      (lllRun (3 / 4) m (⟨fun i j => 2 * cyc3 i j, chg3, 4⟩ : LLLState ℚ 5)).k < 5 := by
    intro m
    induction m with
    | zero => unfold lllRun; simp
    | succ m ih =>
      rw [lllRun_succ, lllRun_succ, lllRun_succ, lllRun_succ, h0, h1, h2, h3]
      exact ⟨ih.2.1, ih.2.2.1, ih.2.2.2, ih.1⟩
  rcases m with _ | _ | m
  · decide
  · rw [lllRun_succ, lllInit, a0]; decide
  · rw [lllRun_succ, lllRun_succ, lllInit, a0, a1]; exact (key m).1

theorem fv_diverges (B : Matrix (Fin 5) (Fin 5) ℝ) (h : ∀ i j, B.col i ⬝ᵥ B.col j = ((4 * ∑ s, fvCoeff s i * fvCoeff s j : ℤ) : ℝ))
    (fuel : ℕ) : lll fuel B = none := by
  have hg : SameGram le_rfl fvB B := by
    intro i j
    have e : ∀ i j, (fvB.col i ⬝ᵥ fvB.col j : ℚ) = ((4 * ∑ s, fvCoeff s i * fvCoeff s j : ℤ) : ℚ) := by decide +kernel
    rw [e]
    refine Eq.trans (h i j) ?_
    push_cast
    rfl
  have := sameGram_run fuel (lllInit fvB) (lllInit B) hg rfl (le_refl _) fun l _ => fv_run l
  unfold lll; simp only; rw [if_pos]
  rw [this]
  exact fv_run fuel

/-- The factorisation `L D Lᵀ` of the Gram matrix. -/
def fvL : Matrix (Fin 5) (Fin 5) ℚ :=
  !![1, 0, 0, 0, 0; -6/13, 1, 0, 0, 0; -6/13, -23/107, 1, 0, 0; 6/13, 49/107, -61/140, 1, 0; 0, 26/107, 79/140, -209/211, 1]

def fvD : Fin 5 → ℚ := ![52, 428/13, 3360/107, 422/35, 48/211]

/-- The Gram matrix of the first `n` classes has a Cholesky factor. -/
theorem fv_factor {n : ℕ} (hn : n ≤ 5) (G : Matrix (Fin n) (Fin n) ℝ)
    (hG : ∀ i j, G i j = ((4 * ∑ s, fvCoeff s (Fin.castLE hn i) * fvCoeff s (Fin.castLE hn j) : ℤ) : ℝ)) :
    ∃ L : Matrix (Fin n) (Fin n) ℝ, L * Lᵀ = G ∧ (∀ i j, i < j → L i j = 0) ∧ ∀ i, 0 < L i i := by
  have hD : ∀ i, (0 : ℝ) < fvD i := fun i => by
    have : ∀ i, 0 < fvD i := by decide +kernel
    exact_mod_cast this i
  have hup : ∀ i j : Fin 5, i < j → fvL i j = 0 := by
    intro i j h
    fin_cases i <;> fin_cases j <;> first | rfl | exact absurd h (by decide)
  refine ⟨Matrix.of fun i j => fvL (Fin.castLE hn i) (Fin.castLE hn j) * Real.sqrt (fvD (Fin.castLE hn j)), ?_, fun i j hij => ?_, fun i => ?_⟩
  · ext i j
    rw [hG]
    have key : ∀ i j : Fin 5, ((4 * ∑ s, fvCoeff s i * fvCoeff s j : ℤ) : ℚ) = ∑ k, fvL i k * fvL j k * fvD k := by decide +kernel
    have e := key (Fin.castLE hn i) (Fin.castLE hn j)
    have e2 : ∑ k, fvL (Fin.castLE hn i) k * fvL (Fin.castLE hn j) k * fvD k =
        ∑ k : Fin n, fvL (Fin.castLE hn i) (Fin.castLE hn k) * fvL (Fin.castLE hn j) (Fin.castLE hn k) * fvD (Fin.castLE hn k) := by
      symm
      refine Finset.sum_of_injOn (Fin.castLE hn) (fun a _ b _ h => Fin.castLE_injective hn h) (fun _ _ => Finset.mem_univ _) ?_ fun _ _ => rfl
      intro k _ hk
      rw [hup, zero_mul, zero_mul]
      rw [Fin.lt_def]
      by_contra hlt
      exact hk ⟨⟨k, by have := i.2; simp only [Fin.val_castLE] at hlt; omega⟩, by simp, by ext; simp⟩
    rw [e2] at e
    have e3 := congrArg (fun q : ℚ => (q : ℝ)) e
    simp only [Rat.cast_intCast] at e3
    rw [e3, Matrix.mul_apply]
    push_cast
    refine Finset.sum_congr rfl fun k _ => ?_
    rw [Matrix.transpose_apply, Matrix.of_apply, Matrix.of_apply]
    have := Real.mul_self_sqrt (hD (Fin.castLE hn k)).le
    linear_combination (fvL (Fin.castLE hn i) (Fin.castLE hn k) : ℝ) * fvL (Fin.castLE hn j) (Fin.castLE hn k) * this
  · rw [Matrix.of_apply, hup _ _ (by rw [Fin.lt_def] at hij ⊢; simpa using hij)]; simp
  · have : ∀ i, fvL i i = 1 := by decide +kernel
    rw [Matrix.of_apply, this]
    simpa using hD _

/-! ### the calls -/

section
variable (argsort : List (Fl ℝ) → List ℕ) (ha : ArgsortSpec argsort)

include ha in
/-- The object of the constructor; `z j` is the number of class `j` (the lifetimes are equal, so that their order is up to
`argsort`). -/
theorem fv_object : ∃ (o : ToroObj) (z : Fin 5 → ℕ), toroInit argsort fvRipser fvInput 20 41 1 = .ok o ∧ Function.Injective z ∧
    (∀ j, z j < 5) ∧ (∀ j, ValidClass o (.int (z j)) 1 2 ((fvArr j).map ZRow.toRow)) ∧ WellFormed o ∧
    FieldValued o.prime o.cocycles ∧ o.prime = 41 ∧ o.nLand = 20 ∧ o.table = cnsTable 20 2 ∧
    ∀ l < 20, ∀ m < 20, o.distLandLand l m = fvδ l m := by
  obtain ⟨o, h1, h2, h3, h4, h5, h6, h7, wf, hv, hT⟩ := C88_toroidal_constructor fvInput fvInput_describes fvRipser_spec argsort
    ha le_rfl (by norm_num) (by norm_num) (fun _ => rfl)
  obtain ⟨dgm, coc, σ, e1, e2, hσ, h8⟩ := stored_class_dim 1 fvInput fvRipser_spec h6 le_rfl le_rfl h7
  cases Option.some.inj e1
  cases Option.some.inj e2
  have hp : σ.Perm (List.range 5) := by simpa using hσ.1
  have hz : ∀ j : Fin 5, ∃ z, σ[z]? = some (j : ℕ) := fun j =>
    List.mem_iff_getElem?.1 (hp.mem_iff.2 (List.mem_range.2 j.2))
  choose z hz using hz
  refine ⟨o, z, h1, fun i j hij => ?_, fun j => ?_, fun j => ?_, wf, hv, h2, h3, hT, fun l hl m hm => ?_⟩
  · have := hz i
    rw [hij, hz j] at this
    exact Fin.ext (Option.some.inj this).symm
  · have := (List.getElem?_eq_some_iff.1 (hz j)).1
    rwa [hp.length_eq, List.length_range] at this
  · obtain ⟨pt, c, s, g1, g2, g3, g4, -, g6⟩ := h8 (z j) j (hz j)
    have hpt : pt = (.fin 1, .fin 2) := List.eq_of_mem_replicate (List.mem_of_getElem? g1)
    have hc : c = fvArr j := by
      rw [List.getElem?_ofFn] at g2
      simp only [j.2, dif_pos, Option.some.injEq] at g2
      exact g2.symm
    subst hpt hc
    rw [← renamed_range g6]
    exact ⟨g3, fun r hr => h3 ▸ (g4.1 r hr).1, g4.2, by norm_num⟩
  · have := h5.land l (by simpa [fvRipser] using hl) m (by simpa [fvRipser] using hm)
    rw [this]
    simp [fvRipser]

/-- The first `n` classes can be selected together. -/
theorem fv_selected {o : ToroObj} {z : Fin 5 → ℕ} (hval : ∀ j, ValidClass o (.int (z j)) 1 2 ((fvArr j).map ZRow.toRow))
    {perc : ℝ} {std : Bool} {r : ℝ} (hr : 2 * r = (1 - perc) * (if std then 2 * (1 : ℝ) else 1) + perc * 2)
    {n : ℕ} (h2 : 2 ≤ n) (hn : n ≤ 5) :
    SelectedClasses o (List.ofFn fun j : Fin n => (⟨.int (z (Fin.castLE hn j)), 1, 2, (fvArr (Fin.castLE hn j)).map ZRow.toRow⟩ : Selected))
      perc std 1 2 r := by
  have hmem : ∀ x ∈ (List.ofFn fun j : Fin n => (⟨.int (z (Fin.castLE hn j)), 1, 2, (fvArr (Fin.castLE hn j)).map ZRow.toRow⟩ : Selected)),
      ∃ j, x = (⟨.int (z j), 1, 2, (fvArr j).map ZRow.toRow⟩ : Selected) := by
    intro x hx
    obtain ⟨j, rfl⟩ := List.mem_ofFn.1 hx
    exact ⟨_, rfl⟩
  have hne : ∃ x, x ∈ (List.ofFn fun j : Fin n => (⟨.int (z (Fin.castLE hn j)), 1, 2, (fvArr (Fin.castLE hn j)).map ZRow.toRow⟩ : Selected)) :=
    ⟨_, List.mem_ofFn.2 ⟨⟨0, by omega⟩, rfl⟩⟩
  refine ⟨fun x hx => ?_, ⟨?_, ?_⟩, ⟨?_, ?_⟩, by norm_num, ?_, hr⟩
  · obtain ⟨j, rfl⟩ := hmem x hx; exact hval j
  · obtain ⟨x, hx⟩ := hne
    obtain ⟨j, hj⟩ := hmem x hx
    exact ⟨x, hx, by rw [hj]⟩
  · rintro _ ⟨x, hx, rfl⟩
    obtain ⟨j, rfl⟩ := hmem x hx
    exact le_rfl
  · obtain ⟨x, hx⟩ := hne
    obtain ⟨j, hj⟩ := hmem x hx
    exact ⟨x, hx, by rw [hj]⟩
  · rintro _ ⟨x, hx, rfl⟩
    obtain ⟨j, rfl⟩ := hmem x hx
    exact le_rfl
  · cases std <;> norm_num

/-- A call for the first `n` classes. -/
theorem fv_call {o : ToroObj} {z : Fin 5 → ℕ} (hval : ∀ j, ValidClass o (.int (z j)) 1 2 ((fvArr j).map ZRow.toRow))
    (wf : WellFormed o) (hv : FieldValued o.prime o.cocycles) (hp : o.prime = 41) (hL : o.nLand = 20) (hT : o.table = cnsTable 20 2)
    (hd : ∀ l < 20, ∀ m < 20, o.distLandLand l m = fvδ l m) (env : Oracles) (hch : CholeskySpec env.cholesky)
    (hex : ExactLsq env.lsqr) (perc : ℝ) (h0 : 0 < perc) (h1 : perc ≤ 1) (bump : Fl ℝ → Fl ℝ → Fl ℝ) (hb : PositiveBump bump)
    (std check : Bool) {n : ℕ} (h2 : 2 ≤ n) (hn : n ≤ 5) :
    ∃ L : Matrix (Fin n) (Fin n) ℝ,
      (∀ i j, (L * Lᵀ) i j = ((4 * ∑ s, fvCoeff s (Fin.castLE hn i) * fvCoeff s (Fin.castLE hn j) : ℤ) : ℝ)) ∧ L.det ≠ 0 ∧
      ∀ fuel, (lll fuel Lᵀ = none → (getCoordinates env fuel o
          ⟨.fin perc, (List.ofFn fun j : Fin n => ClassArg.int (z (Fin.castLE hn j))), bump, std, check⟩).2 = .error .outOfFuel) ∧
        (lll fuel Lᵀ ≠ none → ∃ coords, coords.length = n ∧ (getCoordinates env fuel o
          ⟨.fin perc, (List.ofFn fun j : Fin n => ClassArg.int (z (Fin.castLE hn j))), bump, std, check⟩).2 = .ok coords) := by
  have hr : ∃ r : ℝ, 2 * r = (1 - perc) * (if std then 2 * (1 : ℝ) else 1) + perc * 2 ∧ 1 < 2 * r ∧ 2 * r ≤ 2 := by
    refine ⟨((1 - perc) * (if std then 2 * (1 : ℝ) else 1) + perc * 2) / 2, by ring, ?_, ?_⟩ <;> cases std <;>
      simp <;> linarith
  obtain ⟨r, hr, hr1, hr2⟩ := hr
  have hsel := fv_selected hval hr h2 hn
  obtain ⟨v, f, base, g1, g2, g3⟩ := call_by_gram (check := check) env wf hv (List.length_ofFn) h2 hsel hb (by
    intro _ x _ w _ i j k ⟨t1, t2, t3⟩
    rw [hL, fv_edge hd hr1 hr2] at t1 t2 t3
    omega)
  have hvv : ∀ i, v i = fvVec (Fin.castLE hn i) := by
    intro i
    have := g1 i ⟨.int (z (Fin.castLE hn i)), 1, 2, (fvArr (Fin.castLE hn i)).map ZRow.toRow⟩ (by
      rw [List.getElem?_ofFn]; simp only [i.2, dif_pos, Fin.eta])
    simp only [hp, hT, hL, fv_dense] at this
    exact (Except.ok.inj this).symm
  have hG : ∀ i j, returnedGram o.nLand o.distLandLand r 1 (fun i e => (v i).getD e 0) f i j =
      ((4 * ∑ s, fvCoeff s (Fin.castLE hn i) * fvCoeff s (Fin.castLE hn j) : ℤ) : ℝ) := by
    have := g2 hex
    rw [hL] at this ⊢
    exact fv_gram hd hr1 hr2 (Fin.castLE hn) v hvv f this
  have harg : (List.ofFn fun j : Fin n => (⟨.int (z (Fin.castLE hn j)), 1, 2, (fvArr (Fin.castLE hn j)).map ZRow.toRow⟩ : Selected)).map Selected.arg =
      List.ofFn fun j : Fin n => ClassArg.int (z (Fin.castLE hn j)) := by rw [List.map_ofFn]; rfl
  rw [harg] at g3
  obtain ⟨c1, c2⟩ := hch n (returnedGram o.nLand o.distLandLand r 1 (fun i e => (v i).getD e 0) f)
  cases hc : env.cholesky n (returnedGram o.nLand o.distLandLand r 1 (fun i e => (v i).getD e 0) f) with
  | none => exact absurd (fv_factor hn _ hG) (c2 hc)
  | some L =>
    refine ⟨L, fun i j => by rw [(c1 L hc).1]; exact hG i j, hch.det hc, fun fuel => ⟨((g3 fuel).2 L hc).1, fun hl => ?_⟩⟩
    obtain ⟨⟨B', C⟩, hBC⟩ := Option.ne_none_iff_exists'.1 hl
    exact ⟨_, List.length_ofFn, (((g3 fuel).2 L hc).2 B' C hBC).1⟩

include ha in
/-- **C121 (five classes).** C121 does not extend to five classes.  For the five squares (`fvInput`) and what ripser returns
(`fvRipser`, which satisfies its specification) the call that asks for all five classes never ends: the basis reduction runs
forever (the model reports `outOfFuel` for every bound on the number of iterations).  So it is after every history, for every
`0 < perc ≤ 1`, both ranges, with and without the cocycle check, with an exact least squares solver and a correct Cholesky
factorisation.  The call that asks for four of these classes returns four coordinates. -/
theorem C121_five_classes_hang : ∃ (o : ToroObj) (z : Fin 5 → ℕ), toroInit argsort fvRipser fvInput 20 41 1 = .ok o ∧
    Function.Injective z ∧ (∀ j, z j < 5) ∧ ∀ (env : Oracles), CholeskySpec env.cholesky → ExactLsq env.lsqr →
      ∀ (history : List (ℕ × Args)) (perc : ℝ), 0 < perc → perc ≤ 1 → ∀ (bump : Fl ℝ → Fl ℝ → Fl ℝ), PositiveBump bump →
        ∀ std check : Bool,
          (∀ fuel, (getCoordinates env fuel (afterCalls env o history)
            ⟨.fin perc, [.int (z 0), .int (z 1), .int (z 2), .int (z 3), .int (z 4)], bump, std, check⟩).2 = .error .outOfFuel) ∧
          ∃ fuel₀, ∀ fuel ≥ fuel₀, ∃ coords, coords.length = 4 ∧ (getCoordinates env fuel (afterCalls env o history)
            ⟨.fin perc, [.int (z 0), .int (z 1), .int (z 2), .int (z 3)], bump, std, check⟩).2 = .ok coords := by
  obtain ⟨o, z, h1, h2, h3, hval, wf, hv, hp, hL, hT, hd⟩ := fv_object argsort ha
  refine ⟨o, z, h1, h2, h3, fun env hch hex history perc h0 h1 bump hb std check => ⟨fun fuel => ?_, ?_⟩⟩
  · obtain ⟨L, g1, -, g2⟩ := fv_call hval wf hv hp hL hT hd env hch hex perc h0 h1 bump hb std check (n := 5) (by norm_num) le_rfl
    rw [(C08_repeatable env o hv history fuel _).1]
    have := (g2 fuel).1 (fv_diverges Lᵀ (fun i j => by
      have := g1 i j
      rw [Matrix.mul_apply] at this
      exact this) fuel)
    simpa [List.ofFn_succ] using this
  · obtain ⟨L, g1, g3, g2⟩ := fv_call hval wf hv hp hL hT hd env hch hex perc h0 h1 bump hb std check (n := 4) (by norm_num) (by norm_num)
    obtain ⟨N, B', C, hN, -⟩ := C82_four_classes_partial Lᵀ (by rwa [Matrix.det_transpose])
    refine ⟨N, fun fuel hf => ?_⟩
    rw [(C08_repeatable env o hv history fuel _).1]
    have := (g2 fuel).2 (by rw [hN fuel hf]; simp)
    simpa [List.ofFn_succ] using this

end

/-- Non-vacuity of C83 for four classes: the first four classes, with the cocycle check. -/
example : ∃ (o : ToroObj) (cl : List Selected) (r : ℝ), toroInit idealArgsort fvRipser fvInput 20 41 1 = .ok o ∧ WellFormed o ∧
    FieldValued o.prime o.cocycles ∧ cl.length = 4 ∧ SelectedClasses o cl (1 / 2) true 1 2 r ∧
    ∀ x ∈ cl, LiftIsCocycle o (2 * r) x.array := by
  obtain ⟨o, z, h1, h2, h3, hval, wf, hv, hp, hL, hT, hd⟩ := fv_object idealArgsort idealArgsort_spec
  refine ⟨o, _, 1, h1, wf, hv, List.length_ofFn, fv_selected (n := 4) hval (by norm_num) (by norm_num) (by norm_num), ?_⟩
  intro x _ w _ i j k ⟨t1, t2, t3⟩
  rw [hL, fv_edge hd (by norm_num) (by norm_num)] at t1 t2 t3
  omega

/-- Non-vacuity of `C121_five_classes_hang`: with the ideal routines, and the default arguments. -/
example : ∃ (o : ToroObj) (z : Fin 5 → ℕ), toroInit idealArgsort fvRipser fvInput 20 41 1 = .ok o ∧
    ∀ fuel, (getCoordinates idealEnv fuel o
      ⟨.fin (1 / 2), [.int (z 0), .int (z 1), .int (z 2), .int (z 3), .int (z 4)], bumpLinear, true, true⟩).2 = .error .outOfFuel := by
  obtain ⟨o, z, h1, -, -, h2⟩ := C121_five_classes_hang idealArgsort idealArgsort_spec
  exact ⟨o, z, h1, fun fuel => (h2 idealEnv idealCholesky_spec idealLsqr_exact [] (1 / 2) (by norm_num) (by norm_num) bumpLinear
    positiveBump_linear true true).1 fuel⟩

end Dreimac
