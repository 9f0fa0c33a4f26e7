import Verif.Lemmas.Dataset
import Verif.Lemmas.ClassMap2
import Verif.Props.Combinatorial

/-!
# Classes of dimension 2, from landmark numbers to data points
-/

namespace Dreimac

variable {idx : List ℕ}

/-- The cochain of triples of data points that corresponds to a dense 2-cochain. -/
def pushCochain2 (idx : List ℕ) (c : ℕ → ℤ) (u v w : ℕ) : ℤ := triVal c (idx.idxOf u) (idx.idxOf v) (idx.idxOf w)

/-- The cochain of pairs of data points that corresponds to a real dense 1-cochain. -/
def pushForm (idx : List ℕ) (ν : ℕ → ℝ) (u v : ℕ) : ℝ := edgeVal ν (idx.idxOf u) (idx.idxOf v)

/-! ### the energy -/

section
variable {L : ℕ} {D : ℕ → ℕ → ℝ} {t : ℝ} {c : ℕ → ℤ} {ν : ℕ → ℝ}

open Classical in
/-- The summand of `formEnergy2`. -/
noncomputable def triTerm (L : ℕ) (D : ℕ → ℕ → ℝ) (t : ℝ) (c : ℕ → ℤ) (ν : ℕ → ℝ) (i j k : ℕ) : ℝ :=
  if RipsTriangle L D t i j k then
    ((c (triIdx i j k) : ℝ) - (ν (edgeIdx i j) + ν (edgeIdx j k) - ν (edgeIdx i k))) ^ 2
  else 0

open Classical in
/-- The summand of `dataEnergy2`, on landmark numbers. -/
noncomputable def allTerm (D : ℕ → ℕ → ℝ) (t : ℝ) (c : ℕ → ℤ) (ν : ℕ → ℝ) (a b d : ℕ) : ℝ :=
  if D a b < t ∧ D b d < t ∧ D a d < t then
    (((triVal c a b d : ℤ) : ℝ) - (edgeVal ν a b + edgeVal ν b d - edgeVal ν a d)) ^ 2 else 0

theorem triTerm_zero {a b d : ℕ} (h : ¬ (a < b ∧ b < d)) : triTerm L D t c ν a b d = 0 := by
  unfold triTerm
  rw [if_neg]
  rintro ⟨⟨h1, -⟩, ⟨h2, -⟩, -⟩
  exact h ⟨h1, h2⟩

theorem allTerm_sorted {a b d : ℕ} (h1 : a < b) (h2 : b < d) (hd : d < L) : allTerm D t c ν a b d = triTerm L D t c ν a b d := by
  unfold allTerm triTerm
  have : (D a b < t ∧ D b d < t ∧ D a d < t) ↔ RipsTriangle L D t a b d := by
    unfold RipsTriangle RipsEdge
    constructor
    · rintro ⟨e1, e2, e3⟩; exact ⟨⟨h1, by omega, e1⟩, ⟨h2, hd, e2⟩, ⟨by omega, hd, e3⟩⟩
    · rintro ⟨e1, e2, e3⟩; exact ⟨e1.2.2, e2.2.2, e3.2.2⟩
  simp only [triVal_sorted c h1 h2, edgeVal, h1, h2, h1.trans h2, if_true]
  by_cases hR : RipsTriangle L D t a b d
  · rw [if_pos hR, if_pos (this.2 hR)]
  · rw [if_neg hR, if_neg (fun h => hR (this.1 h))]

theorem allTerm_swap12 (hs : ∀ l < L, ∀ m < L, D l m = D m l) {a b d : ℕ} (ha : a < L) (hb : b < L) (hd : d < L) :
    allTerm D t c ν b a d = allTerm D t c ν a b d := by
  unfold allTerm
  rw [hs b hb a ha, triVal_swap12 c a b d, edgeVal_antisymm ν a b]
  have : (D a b < t ∧ D a d < t ∧ D b d < t) ↔ (D a b < t ∧ D b d < t ∧ D a d < t) := by tauto
  simp only [this]
  split_ifs
  · push_cast; ring
  · rfl

theorem allTerm_swap23 (hs : ∀ l < L, ∀ m < L, D l m = D m l) {a b d : ℕ} (ha : a < L) (hb : b < L) (hd : d < L) :
    allTerm D t c ν a d b = allTerm D t c ν a b d := by
  unfold allTerm
  rw [hs d hd b hb, triVal_swap23 c a b d, edgeVal_antisymm ν b d]
  have : (D a d < t ∧ D b d < t ∧ D a b < t) ↔ (D a b < t ∧ D b d < t ∧ D a d < t) := by tauto
  simp only [this]
  split_ifs
  · push_cast; ring
  · rfl

theorem allTerm_self12 (a d : ℕ) : allTerm D t c ν a a d = 0 := by
  unfold allTerm
  rw [triVal_self12, edgeVal_self]; simp

theorem allTerm_self23 (a d : ℕ) : allTerm D t c ν a d d = 0 := by
  unfold allTerm
  rw [triVal_self23, edgeVal_self]; simp

theorem allTerm_self13 (a d : ℕ) : allTerm D t c ν a d a = 0 := by
  unfold allTerm
  rw [triVal_self13, edgeVal_self, edgeVal_antisymm ν a d]; simp

theorem allTerm_eq (hs : ∀ l < L, ∀ m < L, D l m = D m l) {a b d : ℕ} (ha : a < L) (hb : b < L) (hd : d < L) :
    allTerm D t c ν a b d = triTerm L D t c ν a b d + triTerm L D t c ν b a d + triTerm L D t c ν a d b +
      triTerm L D t c ν b d a + triTerm L D t c ν d a b + triTerm L D t c ν d b a := by
  rcases lt_trichotomy a b with h1 | rfl | h1
  · rcases lt_trichotomy b d with h2 | rfl | h2
    · rw [allTerm_sorted h1 h2 hd, triTerm_zero (a := b) (b := a) (by omega), triTerm_zero (a := a) (b := d) (by omega),
        triTerm_zero (a := b) (b := d) (by omega), triTerm_zero (a := d) (b := a) (by omega),
        triTerm_zero (a := d) (b := b) (by omega)]
      ring
    · rw [allTerm_self23, triTerm_zero (a := a) (b := b) (by omega), triTerm_zero (a := b) (b := a) (by omega),
        triTerm_zero (a := b) (b := b) (by omega)]
      ring
    · rcases lt_trichotomy a d with h3 | rfl | h3
      · rw [← allTerm_swap23 hs ha hb hd, allTerm_sorted h3 h2 hb, triTerm_zero (a := a) (b := b) (by omega),
          triTerm_zero (a := b) (b := a) (by omega), triTerm_zero (a := b) (b := d) (by omega),
          triTerm_zero (a := d) (b := a) (by omega), triTerm_zero (a := d) (b := b) (by omega)]
        ring
      · rw [allTerm_self13, triTerm_zero (a := a) (b := b) (by omega), triTerm_zero (a := b) (b := a) (by omega),
          triTerm_zero (a := a) (b := a) (by omega)]
        ring
      · rw [← allTerm_swap23 hs ha hb hd, ← allTerm_swap12 hs ha hd hb, allTerm_sorted h3 h1 hb,
          triTerm_zero (a := a) (b := b) (by omega),
          triTerm_zero (a := b) (b := a) (by omega), triTerm_zero (a := b) (b := d) (by omega),
          triTerm_zero (a := a) (b := d) (by omega), triTerm_zero (a := d) (b := b) (by omega)]
        ring
  · rw [allTerm_self12, triTerm_zero (a := a) (b := a) (by omega), triTerm_zero (a := a) (b := d) (by omega),
      triTerm_zero (a := d) (b := a) (by omega)]
    ring
  · rcases lt_trichotomy a d with h2 | rfl | h2
    · rw [← allTerm_swap12 hs ha hb hd, allTerm_sorted h1 h2 hd, triTerm_zero (a := a) (b := b) (by omega),
        triTerm_zero (a := a) (b := d) (by omega), triTerm_zero (a := b) (b := d) (by omega),
        triTerm_zero (a := d) (b := a) (by omega), triTerm_zero (a := d) (b := b) (by omega)]
      ring
    · rw [allTerm_self13, triTerm_zero (a := a) (b := b) (by omega), triTerm_zero (a := b) (b := a) (by omega),
        triTerm_zero (a := a) (b := a) (by omega)]
      ring
    · rcases lt_trichotomy b d with h3 | rfl | h3
      · rw [← allTerm_swap12 hs ha hb hd, ← allTerm_swap23 hs hb ha hd, allTerm_sorted h3 h2 ha,
          triTerm_zero (a := a) (b := b) (by omega), triTerm_zero (a := b) (b := a) (by omega),
          triTerm_zero (a := a) (b := d) (by omega), triTerm_zero (a := d) (b := a) (by omega),
          triTerm_zero (a := d) (b := b) (by omega)]
        ring
      · rw [allTerm_self23, triTerm_zero (a := a) (b := b) (by omega), triTerm_zero (a := b) (b := a) (by omega),
          triTerm_zero (a := b) (b := b) (by omega)]
        ring
      · rw [← allTerm_swap23 hs ha hb hd, ← allTerm_swap12 hs ha hd hb, ← allTerm_swap23 hs hd ha hb,
          allTerm_sorted h3 h1 ha, triTerm_zero (a := a) (b := b) (by omega), triTerm_zero (a := b) (b := a) (by omega),
          triTerm_zero (a := a) (b := d) (by omega), triTerm_zero (a := d) (b := a) (by omega),
          triTerm_zero (a := b) (b := d) (by omega)]
        ring

theorem sum_allTerm (hs : ∀ l < L, ∀ m < L, D l m = D m l) :
    ∑ a ∈ Finset.range L, ∑ b ∈ Finset.range L, ∑ d ∈ Finset.range L, allTerm D t c ν a b d =
      6 * ∑ a ∈ Finset.range L, ∑ b ∈ Finset.range L, ∑ d ∈ Finset.range L, triTerm L D t c ν a b d := by
  have h : ∑ a ∈ Finset.range L, ∑ b ∈ Finset.range L, ∑ d ∈ Finset.range L, allTerm D t c ν a b d =
      ∑ a ∈ Finset.range L, ∑ b ∈ Finset.range L, ∑ d ∈ Finset.range L, (triTerm L D t c ν a b d +
        triTerm L D t c ν b a d + triTerm L D t c ν a d b + triTerm L D t c ν b d a + triTerm L D t c ν d a b +
        triTerm L D t c ν d b a) :=
    Finset.sum_congr rfl fun a ha => Finset.sum_congr rfl fun b hb => Finset.sum_congr rfl fun d hd =>
      allTerm_eq hs (Finset.mem_range.1 ha) (Finset.mem_range.1 hb) (Finset.mem_range.1 hd)
  rw [h]
  simp only [Finset.sum_add_distrib]
  set T := triTerm L D t c ν
  set S := Finset.range L
  have s12 : ∀ G : ℕ → ℕ → ℕ → ℝ, ∑ a ∈ S, ∑ b ∈ S, ∑ d ∈ S, G b a d = ∑ a ∈ S, ∑ b ∈ S, ∑ d ∈ S, G a b d :=
    fun G => Finset.sum_comm
  have s23 : ∀ G : ℕ → ℕ → ℕ → ℝ, ∑ a ∈ S, ∑ b ∈ S, ∑ d ∈ S, G a d b = ∑ a ∈ S, ∑ b ∈ S, ∑ d ∈ S, G a b d :=
    fun G => Finset.sum_congr rfl fun a _ => Finset.sum_comm
  have e1 := s12 T
  have e2 := s23 T
  have e3 : ∑ a ∈ S, ∑ b ∈ S, ∑ d ∈ S, T b d a = ∑ a ∈ S, ∑ b ∈ S, ∑ d ∈ S, T a b d := by
    rw [s12 fun a b d => T a d b, s23 T]
  have e4 : ∑ a ∈ S, ∑ b ∈ S, ∑ d ∈ S, T d a b = ∑ a ∈ S, ∑ b ∈ S, ∑ d ∈ S, T a b d := by
    rw [s23 fun a b d => T b a d, s12 T]
  have e5 : ∑ a ∈ S, ∑ b ∈ S, ∑ d ∈ S, T d b a = ∑ a ∈ S, ∑ b ∈ S, ∑ d ∈ S, T a b d := by
    rw [s12 fun a b d => T d a b, e4]
  rw [e1, e2, e3, e4, e5]
  ring

end

section
variable {N : ℕ} {δ dist dll : ℕ → ℕ → ℝ} {r t : ℝ}

theorem dll_symm (hsym : ∀ u ∈ idx, ∀ v ∈ idx, δ u v = δ v u)
    (hland : ∀ l (h : l < idx.length), ∀ m (h' : m < idx.length), dll l m = δ idx[l] idx[m]) :
    ∀ l < idx.length, ∀ m < idx.length, dll l m = dll m l := by
  intro l hl m hm
  rw [hland l hl m hm, hland m hm l hl, hsym _ (List.getElem_mem _) _ (List.getElem_mem _)]

theorem dll_idxOf (hland : ∀ l (h : l < idx.length), ∀ m (h' : m < idx.length), dll l m = δ idx[l] idx[m])
    {u v : ℕ} (hu : u ∈ idx) (hv : v ∈ idx) : dll (idx.idxOf u) (idx.idxOf v) = δ u v := by
  rw [hland _ (idxOf_lt hu) _ (idxOf_lt hv), getElem_idxOf' hu, getElem_idxOf' hv]

/-- The energy on data points counts every triangle six times. -/
theorem dataEnergy2_eq (hnd : idx.Nodup) (hsym : ∀ u ∈ idx, ∀ v ∈ idx, δ u v = δ v u)
    (hland : ∀ l (h : l < idx.length), ∀ m (h' : m < idx.length), dll l m = δ idx[l] idx[m]) (c : ℕ → ℤ) (ν : ℕ → ℝ) :
    dataEnergy2 idx.toFinset δ (2 * r) (pushCochain2 idx c) (pushForm idx ν) = 6 * formEnergy2 idx.length dll r c ν := by
  have h1 : dataEnergy2 idx.toFinset δ (2 * r) (pushCochain2 idx c) (pushForm idx ν) =
      ∑ u ∈ idx.toFinset, ∑ v ∈ idx.toFinset, ∑ w ∈ idx.toFinset,
        allTerm dll (2 * r) c ν (idx.idxOf u) (idx.idxOf v) (idx.idxOf w) := by
    unfold dataEnergy2
    refine Finset.sum_congr rfl fun u hu => Finset.sum_congr rfl fun v hv => Finset.sum_congr rfl fun w hw => ?_
    have hu := List.mem_toFinset.1 hu
    have hv := List.mem_toFinset.1 hv
    have hw := List.mem_toFinset.1 hw
    unfold allTerm
    rw [dll_idxOf hland hu hv, dll_idxOf hland hv hw, dll_idxOf hland hu hw]
    rfl
  rw [h1]
  have h2 : ∑ u ∈ idx.toFinset, ∑ v ∈ idx.toFinset, ∑ w ∈ idx.toFinset,
        allTerm dll (2 * r) c ν (idx.idxOf u) (idx.idxOf v) (idx.idxOf w) =
      ∑ a ∈ Finset.range idx.length, ∑ b ∈ Finset.range idx.length, ∑ d ∈ Finset.range idx.length,
        allTerm dll (2 * r) c ν a b d := by
    rw [← sum_landmarks hnd (fun a => ∑ b ∈ Finset.range idx.length, ∑ d ∈ Finset.range idx.length, allTerm dll (2 * r) c ν a b d)]
    refine Finset.sum_congr rfl fun u _ => ?_
    rw [← sum_landmarks hnd (fun b => ∑ d ∈ Finset.range idx.length, allTerm dll (2 * r) c ν (idx.idxOf u) b d)]
    refine Finset.sum_congr rfl fun v _ => ?_
    rw [← sum_landmarks hnd (fun d => allTerm dll (2 * r) c ν (idx.idxOf u) (idx.idxOf v) d)]
  rw [h2, sum_allTerm (dll_symm hsym hland)]
  rfl

/-- Every 1-cochain on the landmarks has a dense form with the same energy. -/
theorem dataEnergy2_dense (hnd : idx.Nodup) (c : ℕ → ℕ → ℕ → ℤ) (g : ℕ → ℕ → ℝ)
    (hg : ∀ u ∈ idx, ∀ v ∈ idx, g v u = -g u v) :
    ∃ ν, dataEnergy2 idx.toFinset δ t c g = dataEnergy2 idx.toFinset δ t c (pushForm idx ν) := by
  obtain ⟨ν, h1, -⟩ := exists_dense idx.length (fun l m => g (idx.getD l 0) (idx.getD m 0)) (fun _ => 0)
  have key : ∀ u ∈ idx, ∀ v ∈ idx, g u v = pushForm idx ν u v := by
    intro u hu v hv
    unfold pushForm edgeVal
    rcases lt_trichotomy (idx.idxOf u) (idx.idxOf v) with h | h | h
    · rw [if_pos h, h1 _ _ h (idxOf_lt hv), getD_of_lt (idxOf_lt hu), getD_of_lt (idxOf_lt hv), getElem_idxOf' hu,
        getElem_idxOf' hv]
    · have : u = v := by rw [← getElem_idxOf' hu, ← getElem_idxOf' hv]; simp only [h]
      subst this
      simp only [lt_irrefl, if_false]
      have := hg u hu u hu
      linarith
    · rw [if_neg (by omega), if_pos h, h1 _ _ h (idxOf_lt hu), getD_of_lt (idxOf_lt hu), getD_of_lt (idxOf_lt hv),
        getElem_idxOf' hu, getElem_idxOf' hv, hg v hv u hu]
  refine ⟨ν, ?_⟩
  unfold dataEnergy2
  refine Finset.sum_congr rfl fun u hu => Finset.sum_congr rfl fun v hv => Finset.sum_congr rfl fun w hw => ?_
  have hu := List.mem_toFinset.1 hu
  have hv := List.mem_toFinset.1 hv
  have hw := List.mem_toFinset.1 hw
  rw [key u hu v hv, key v hv w hw, key u hu w hw]

/-! ### the cocycle condition -/

theorem isDataCocycle2_iff (hnd : idx.Nodup) (hsym : ∀ u ∈ idx, ∀ v ∈ idx, δ u v = δ v u)
    (hland : ∀ l (h : l < idx.length), ∀ m (h' : m < idx.length), dll l m = δ idx[l] idx[m]) (c : ℕ → ℤ) :
    IsDataCocycle2 idx.toFinset δ t (pushCochain2 idx c) ↔ IsCocycle2 idx.length dll t c := by
  constructor
  · rintro h i j k l ⟨⟨⟨e1, e2, e3⟩, ⟨e4, e5, e6⟩, ⟨e7, e8, e9⟩⟩, ⟨f1, f2, f3⟩, ⟨f4, f5, f6⟩, ⟨f7, f8, f9⟩⟩
    have hi : i < idx.length := by omega
    rw [hland _ (by omega) _ (by omega)] at e3 e6 e9 f3 f6 f9
    have := h _ (List.mem_toFinset.2 (List.getElem_mem hi)) _ (List.mem_toFinset.2 (List.getElem_mem e2)) _
      (List.mem_toFinset.2 (List.getElem_mem e5)) _ (List.mem_toFinset.2 (List.getElem_mem f2)) e3 e9 f3 e6 f6 f9
    unfold pushCochain2 at this
    rw [idxOf_getElem' hnd hi, idxOf_getElem' hnd e2, idxOf_getElem' hnd e5, idxOf_getElem' hnd f2, triVal_sorted c e4 f7,
      triVal_sorted c e7 f7, triVal_sorted c e1 f4, triVal_sorted c e1 e4] at this
    linarith
  · intro h u hu v hv w hw z hz h1 h2 h3 h4 h5 h6
    have hu := List.mem_toFinset.1 hu
    have hv := List.mem_toFinset.1 hv
    have hw := List.mem_toFinset.1 hw
    have hz := List.mem_toFinset.1 hz
    have rel := fun {a b : ℕ} (ha : a ∈ idx) (hb : b ∈ idx) (hlt : δ a b < t) => ripsRel_of_close hnd hsym hland ha hb hlt
    have := cob2_eq_zero h (a := idx.idxOf u) (b := idx.idxOf v) (d := idx.idxOf w) (e := idx.idxOf z)
      ⟨⟨rel hu hv h1, rel hv hw h4, rel hu hw h2⟩, rel hu hz h3, rel hv hz h5, rel hw hz h6⟩
    unfold cob2 at this
    unfold pushCochain2
    linarith

/-! ### the vectors -/

/-- On the ball of a landmark the vector is given by the forms on all landmarks. -/
theorem cpVector_data (hnd : idx.Nodup) (ht : LandmarkTriangle idx.length dist dll) {w : ℕ → ℕ → ℝ}
    (hw : IsPartitionOfUnity idx.length dist r w) (c : ℕ → ℤ) (ν : ℕ → ℝ) {u v i : ℕ} (hu : u ∈ idx) (hv : v ∈ idx)
    (hl : InBall idx.length dist r (idx.idxOf u) i) :
    cpVector idx.length dll r w c ν (idx.idxOf u) i (idx.idxOf v) =
      cpDataVector idx.toFinset (pushCochain2 idx c) (pushForm idx ν) (fun u i => w (idx.idxOf u) i) u i v := by
  unfold cpVector cpDataVector
  by_cases hd : dist (idx.idxOf v) i < r
  · have hm : InBall idx.length dist r (idx.idxOf v) i := ⟨idxOf_lt hv, hd⟩
    congr 4
    unfold cpPhase
    rw [nuForm, if_pos (ripsRel_of_balls ht hm hl)]
    have e : ∑ s ∈ idx.toFinset, w (idx.idxOf s) i *
        ((pushCochain2 idx c v u s : ℝ) - (pushForm idx ν v u + pushForm idx ν u s - pushForm idx ν v s)) =
        ∑ s ∈ Finset.range idx.length, w s i * (((triVal c (idx.idxOf v) (idx.idxOf u) s : ℤ) : ℝ) -
          (edgeVal ν (idx.idxOf v) (idx.idxOf u) + edgeVal ν (idx.idxOf u) s - edgeVal ν (idx.idxOf v) s)) :=
      sum_landmarks hnd fun s => w s i * (((triVal c (idx.idxOf v) (idx.idxOf u) s : ℤ) : ℝ) -
          (edgeVal ν (idx.idxOf v) (idx.idxOf u) + edgeVal ν (idx.idxOf u) s - edgeVal ν (idx.idxOf v) s))
    rw [e]
    unfold pushForm
    congr 1
    refine Finset.sum_congr rfl fun s hs => ?_
    by_cases hd' : dist s i < r
    · rw [etaForm, if_pos (ripsRel3_of_balls ht hm hl ⟨Finset.mem_range.1 hs, hd'⟩)]
    · rw [hw.zero ⟨_, hl⟩ hd']; ring
  · have hz : w (idx.idxOf v) i = 0 := hw.zero ⟨_, hl⟩ hd
    simp [hz]

end

/-! ### the dense form of a lifted array -/

/-- The dense form of an array of triangles, on triples in any order. -/
theorem dense_tri {k N D : ℕ} (hk : k ≤ N) (hD : 2 ≤ D) {s : SparseCochain} (hv : ∀ r ∈ s, r.Valid k 2)
    (hd : s.Pairwise fun r r' => ¬ r.verts.Perm r'.verts) {v : List ℤ}
    (h : sparseCocycleToVector 2 s (cnsTable N D) k = .ok v) :
    (∀ r ∈ s, ∀ a b d, r.verts = [a, b, d] → triVal (fun e => v.getD e 0) a b d = r.val) ∧
    ∀ a b d, a < k → b < k → d < k → (∀ r ∈ s, ¬ r.verts.Perm [a, b, d]) → triVal (fun e => v.getD e 0) a b d = 0 := by
  obtain ⟨v', h1, h2, h3, h4⟩ := C06_sparse_to_dense k 2 N D hk hD s hv hd
  rw [h] at h1
  injection h1 with h1
  subst h1
  have hidx : ∀ a b d : ℕ, a ≤ N → b ≤ N → d ≤ N → slot N D [a, b, d] = triIdx a b d := fun a b d ha hb hd' => by
    unfold slot; rw [← cnsD2_eq_forward, cnsD2_triIdx ha hb hd' hD]
  constructor
  · intro r hr a b d hr'
    obtain ⟨-, q2, q3⟩ := hv r hr
    rw [hr'] at q2 q3
    have ha := q3 a (by simp)
    have hb := q3 b (by simp)
    have hd' := q3 d (by simp)
    simp only [List.nodup_cons, List.mem_cons, List.not_mem_nil, or_false, not_or] at q2
    have key : ∀ τ : Equiv.Perm (Fin 3), StrictMono (![a, b, d] ∘ τ) → ∀ x y z, List.ofFn (![a, b, d] ∘ τ) = [x, y, z] →
        x < k → y < k → z < k → v.getD (triIdx x y z) 0 = r.val * (Equiv.Perm.sign τ : ℤ) := by
      intro τ hτ x y z e hx hy hz
      have := h3 r hr ![a, b, d] τ (by rw [hr']; simp [List.ofFn_succ]) hτ
      rw [e, hidx x y z (by omega) (by omega) (by omega)] at this
      rw [List.getD_eq_getElem?_getD, this, Option.getD_some]
    have mono : ∀ τ : Equiv.Perm (Fin 3), ∀ x y z, List.ofFn (![a, b, d] ∘ τ) = [x, y, z] → x < y → y < z →
        StrictMono (![a, b, d] ∘ τ) := by
      intro τ x y z e h1 h2
      simp only [List.ofFn_succ, List.ofFn_zero, List.cons.injEq, and_true] at e
      obtain ⟨e1, e2, e3⟩ := e
      have e2' : (![a, b, d] ∘ τ) 1 = y := e2
      have e3' : (![a, b, d] ∘ τ) 2 = z := e3
      rw [Fin.strictMono_iff_lt_succ]
      intro i
      fin_cases i
      · show (![a, b, d] ∘ τ) 0 < (![a, b, d] ∘ τ) 1
        rw [e1, e2']; exact h1
      · show (![a, b, d] ∘ τ) 1 < (![a, b, d] ∘ τ) 2
        rw [e2', e3']; exact h2
    rcases lt_or_gt_of_ne q2.1.1 with l1 | l1
    · rcases lt_or_gt_of_ne q2.2.1 with l2 | l2
      · have e : List.ofFn (![a, b, d] ∘ ⇑(1 : Equiv.Perm (Fin 3))) = [a, b, d] := by simp [List.ofFn_succ]
        rw [triVal_sorted _ l1 l2, key 1 (mono 1 _ _ _ e l1 l2) _ _ _ e ha hb hd']
        simp
      · rcases lt_or_gt_of_ne q2.1.2 with l3 | l3
        · have e : List.ofFn (![a, b, d] ∘ ⇑(Equiv.swap 1 2 : Equiv.Perm (Fin 3))) = [a, d, b] := by
            simp only [List.ofFn_succ, List.ofFn_zero]; rfl
          rw [triVal_swap23 _ a d b, triVal_sorted _ l3 l2, key _ (mono _ _ _ _ e l3 l2) _ _ _ e ha hd' hb]
          rw [Equiv.Perm.sign_swap (by decide)]; simp
        · have e : List.ofFn (![a, b, d] ∘ ⇑((finRotate 3)⁻¹ : Equiv.Perm (Fin 3))) = [d, a, b] := by
            simp only [List.ofFn_succ, List.ofFn_zero]; rfl
          rw [triVal_rot _ d a b, triVal_sorted _ l3 l1, key _ (mono _ _ _ _ e l3 l1) _ _ _ e hd' ha hb]
          rw [Equiv.Perm.sign_inv, sign_finRotate]; norm_num
    · rcases lt_or_gt_of_ne q2.1.2 with l2 | l2
      · have e : List.ofFn (![a, b, d] ∘ ⇑(Equiv.swap 0 1 : Equiv.Perm (Fin 3))) = [b, a, d] := by
          simp only [List.ofFn_succ, List.ofFn_zero]; rfl
        rw [triVal_swap12 _ b a d, triVal_sorted _ l1 l2, key _ (mono _ _ _ _ e l1 l2) _ _ _ e hb ha hd']
        rw [Equiv.Perm.sign_swap (by decide)]; simp
      · rcases lt_or_gt_of_ne q2.2.1 with l3 | l3
        · have e : List.ofFn (![a, b, d] ∘ ⇑(finRotate 3 : Equiv.Perm (Fin 3))) = [b, d, a] := by
            simp only [List.ofFn_succ, List.ofFn_zero]; rfl
          rw [← triVal_rot _ a b d, triVal_sorted _ l3 l2, key _ (mono _ _ _ _ e l3 l2) _ _ _ e hb hd' ha]
          rw [sign_finRotate]; norm_num
        · have e : List.ofFn (![a, b, d] ∘ ⇑(Equiv.swap 0 2 : Equiv.Perm (Fin 3))) = [d, b, a] := by
            simp only [List.ofFn_succ, List.ofFn_zero]; rfl
          rw [triVal_swap13 _ d b a, triVal_sorted _ l3 l1, key _ (mono _ _ _ _ e l3 l1) _ _ _ e hd' hb ha]
          rw [Equiv.Perm.sign_swap (by decide)]; simp
  · intro a b d ha hb hd' hno
    have key : ∀ x y z, x < k → y < k → z < k → x < y → y < z → [x, y, z].Perm [a, b, d] → v.getD (triIdx x y z) 0 = 0 := by
      intro x y z hx hy hz l1 l2 hp
      have := h4 [x, y, z] ⟨rfl, by simp; omega, by intro q hq; simp at hq; omega⟩ (fun r hr hrp => hno r hr (hrp.trans hp))
      rw [hidx x y z (by omega) (by omega) (by omega)] at this
      rw [List.getD_eq_getElem?_getD, this, Option.getD_some]
    unfold triVal
    split_ifs with c1 c2 c3 c4 c5 c6
    · exact key _ _ _ ha hb hd' c1.1 c1.2 (List.Perm.refl _)
    · exact key _ _ _ hb hd' ha c2.1 c2.2 (List.perm_append_comm (l₁ := [b, d]) (l₂ := [a]))
    · exact key _ _ _ hd' ha hb c3.1 c3.2 (List.perm_append_comm (l₁ := [d]) (l₂ := [a, b]))
    · exact neg_eq_zero.2 (key _ _ _ ha hd' hb c4.1 c4.2 ((List.Perm.swap b d []).cons a))
    · exact neg_eq_zero.2 (key _ _ _ hb ha hd' c5.1 c5.2 (List.Perm.swap a b [d]))
    · exact neg_eq_zero.2 (key _ _ _ hd' hb ha c6.1 c6.2 (List.reverse_perm [a, b, d]))
    · rfl

end Dreimac
