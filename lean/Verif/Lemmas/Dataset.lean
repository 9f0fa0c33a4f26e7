import Verif.Spec.Dataset
import Verif.Lemmas.Construct

/-!
# From landmark numbers to data points
-/

namespace Dreimac

variable {idx : List ℕ}

theorem idxOf_lt {u : ℕ} (hu : u ∈ idx) : idx.idxOf u < idx.length := List.idxOf_lt_length_of_mem hu

theorem getElem_idxOf' {u : ℕ} (hu : u ∈ idx) : idx[idx.idxOf u]'(idxOf_lt hu) = u := List.getElem_idxOf _

theorem idxOf_getElem' (hnd : idx.Nodup) {l : ℕ} (hl : l < idx.length) : idx.idxOf idx[l] = l := hnd.idxOf_getElem l hl

theorem getD_of_lt {l : ℕ} (hl : l < idx.length) : idx.getD l 0 = idx[l] := by simp [List.getElem?_eq_getElem hl]

/-- Sums over landmark numbers are sums over landmarks. -/
theorem sum_landmarks {M : Type} [AddCommMonoid M] (hnd : idx.Nodup) (g : ℕ → M) :
    ∑ v ∈ idx.toFinset, g (idx.idxOf v) = ∑ l ∈ Finset.range idx.length, g l := by
  refine Finset.sum_nbij' (fun v => idx.idxOf v) (fun l => idx.getD l 0) ?_ ?_ ?_ ?_ ?_
  · intro v hv; exact Finset.mem_range.2 (idxOf_lt (List.mem_toFinset.1 hv))
  · intro l hl
    have hl := Finset.mem_range.1 hl
    rw [List.mem_toFinset, getD_of_lt hl]
    exact List.getElem_mem _
  · intro v hv
    have hv := List.mem_toFinset.1 hv
    rw [getD_of_lt (idxOf_lt hv), getElem_idxOf' hv]
  · intro l hl
    have hl := Finset.mem_range.1 hl
    rw [getD_of_lt hl, idxOf_getElem' hnd hl]
  · intro v _; rfl

open Classical in
/-- A dense cochain with prescribed values on pairs of landmark numbers, and equal to `u` outside. -/
theorem exists_dense {R : Type} (k : ℕ) (g : ℕ → ℕ → R) (u : ℕ → R) : ∃ c : ℕ → R, (∀ l m, l < m → m < k → c (edgeIdx l m) = g l m) ∧
    ∀ e, (∃ l m, l < m ∧ m < k ∧ edgeIdx l m = e) ∨ c e = u e := by
  refine ⟨fun e => if h : ∃ q : ℕ × ℕ, q.1 < q.2 ∧ q.2 < k ∧ edgeIdx q.1 q.2 = e then g h.choose.1 h.choose.2 else u e,
    ?_, ?_⟩
  · intro l m hlm hm
    have h : ∃ q : ℕ × ℕ, q.1 < q.2 ∧ q.2 < k ∧ edgeIdx q.1 q.2 = edgeIdx l m := ⟨(l, m), hlm, hm, rfl⟩
    simp only [dif_pos h]
    have := edgeIdx_inj h.choose_spec.1 hlm h.choose_spec.2.2
    rw [this.1, this.2]
  · intro e
    by_cases h : ∃ q : ℕ × ℕ, q.1 < q.2 ∧ q.2 < k ∧ edgeIdx q.1 q.2 = e
    · obtain ⟨⟨l, m⟩, h⟩ := h
      exact Or.inl ⟨l, m, h⟩
    · right; simp only [dif_neg h]

section
variable {N : ℕ} {δ dist dll : ℕ → ℕ → ℝ} {r t : ℝ}

/-- The cochain of pairs of data points that corresponds to a dense cochain. -/
def pushCochain (idx : List ℕ) (c : ℕ → ℤ) (u v : ℕ) : ℤ := edgeVal c (idx.idxOf u) (idx.idxOf v)

theorem ripsRel_of_close (hnd : idx.Nodup) (hsym : ∀ u ∈ idx, ∀ v ∈ idx, δ u v = δ v u)
    (hland : ∀ l (h : l < idx.length), ∀ m (h' : m < idx.length), dll l m = δ idx[l] idx[m])
    {u v : ℕ} (hu : u ∈ idx) (hv : v ∈ idx) (h : δ u v < t) :
    RipsRel idx.length dll t (idx.idxOf u) (idx.idxOf v) := by
  have h1 := idxOf_lt hu
  have h2 := idxOf_lt hv
  rcases lt_trichotomy (idx.idxOf u) (idx.idxOf v) with h3 | h3 | h3
  · right; left
    refine ⟨h3, h2, ?_⟩
    rw [hland _ h1 _ h2, getElem_idxOf', getElem_idxOf']
    · exact h
    · exact hv
    · exact hu
  · left; exact h3
  · right; right
    refine ⟨h3, h1, ?_⟩
    rw [hland _ h2 _ h1, getElem_idxOf' hu, getElem_idxOf' hv, hsym v hv u hu]
    exact h

/-- Dense integral lifts give lifts on data points. -/
theorem isIntegerLift_of_dense (hnd : idx.Nodup) (hsym : ∀ u ∈ idx, ∀ v ∈ idx, δ u v = δ v u)
    (hland : ∀ l (h : l < idx.length), ∀ m (h' : m < idx.length), dll l m = δ idx[l] idx[m])
    {p : ℤ} {ξ : ℕ → ℕ → ℤ} (hξ : ∀ u v, ξ v u = -ξ u v) {u c : ℕ → ℤ}
    (hu : ∀ l m, l < m → m < idx.length → u (edgeIdx l m) = pullCochain idx ξ l m)
    (hc : IntegralLift1 p idx.length dll t u c) : IsIntegerLift p idx.toFinset δ t ξ (pushCochain idx c) := by
  refine ⟨?_, ?_, ?_⟩
  · intro a ha b hb
    have ha := List.mem_toFinset.1 ha
    have hb := List.mem_toFinset.1 hb
    have key : ∀ {a b}, a ∈ idx → b ∈ idx → idx.idxOf a < idx.idxOf b → p ∣ c (edgeIdx (idx.idxOf a) (idx.idxOf b)) - ξ a b := by
      intro a b ha hb h
      have := hc.2 (edgeIdx (idx.idxOf a) (idx.idxOf b))
      rw [hu _ _ h (idxOf_lt hb)] at this
      unfold pullCochain at this
      rw [if_pos ⟨idxOf_lt ha, idxOf_lt hb⟩, getD_of_lt (idxOf_lt ha), getD_of_lt (idxOf_lt hb), getElem_idxOf' ha,
        getElem_idxOf' hb] at this
      exact this
    unfold pushCochain edgeVal
    rcases lt_trichotomy (idx.idxOf a) (idx.idxOf b) with h | h | h
    · rw [if_pos h]; exact key ha hb h
    · have : a = b := by rw [← getElem_idxOf' ha, ← getElem_idxOf' hb]; simp only [h]
      subst this
      simp only [lt_irrefl, if_false]
      have := hξ a a
      rw [show ξ a a = 0 by omega]; simp
    · rw [if_neg (by omega), if_pos h]
      have := key hb ha h
      rw [hξ b a]
      have e : -c (edgeIdx (idx.idxOf b) (idx.idxOf a)) - -ξ b a = -(c (edgeIdx (idx.idxOf b) (idx.idxOf a)) - ξ b a) := by ring
      rw [e]; exact (dvd_neg).2 this
  · intro a _ b _
    exact edgeVal_antisymm c _ _
  · intro a ha b hb d hd h1 h2 h3
    have ha := List.mem_toFinset.1 ha
    have hb := List.mem_toFinset.1 hb
    have hd := List.mem_toFinset.1 hd
    have := edgeVal_cocycle hc.1 (ripsRel_of_close hnd hsym hland ha hb h1) (ripsRel_of_close hnd hsym hland hb hd h2)
      (ripsRel_of_close hnd hsym hland ha hd h3)
    unfold pushCochain
    linarith

/-- Lifts on data points give dense integral lifts. -/
theorem dense_of_isIntegerLift (hnd : idx.Nodup)
    (hland : ∀ l (h : l < idx.length), ∀ m (h' : m < idx.length), dll l m = δ idx[l] idx[m])
    {p : ℤ} {ξ c' : ℕ → ℕ → ℤ} {u : ℕ → ℤ}
    (hu : ∀ l m, l < m → m < idx.length → u (edgeIdx l m) = pullCochain idx ξ l m)
    (hc : IsIntegerLift p idx.toFinset δ t ξ c') : ∃ c, IntegralLift1 p idx.length dll t u c := by
  obtain ⟨c, h1, h2⟩ := exists_dense idx.length (fun l m => c' (idx.getD l 0) (idx.getD m 0)) u
  have hmem : ∀ l, l < idx.length → idx.getD l 0 ∈ idx.toFinset := by
    intro l hl; rw [getD_of_lt hl, List.mem_toFinset]; exact List.getElem_mem _
  refine ⟨c, ?_, ?_⟩
  · rintro i j q ⟨⟨e1, e2, e3⟩, ⟨e4, e5, e6⟩, ⟨e7, e8, e9⟩⟩
    rw [h1 i j e1 e2, h1 j q e4 e5, h1 i q e7 e8]
    have := hc.cocycle _ (hmem i (by omega)) _ (hmem j e2) _ (hmem q e5)
      (by rw [getD_of_lt (by omega), getD_of_lt (by omega), ← hland]; exact e3)
      (by rw [getD_of_lt (by omega), getD_of_lt (by omega), ← hland]; exact e6)
      (by rw [getD_of_lt (by omega), getD_of_lt (by omega), ← hland]; exact e9)
    omega
  · intro e
    rcases h2 e with ⟨l, m, e1, e2, rfl⟩ | h
    · rw [h1 l m e1 e2, hu l m e1 e2]
      unfold pullCochain
      rw [if_pos ⟨by omega, e2⟩]
      exact hc.congr _ (hmem l (by omega)) _ (hmem m e2)
    · rw [h]; simp

theorem parity_unit {l : List ℕ} {s : ℤ} (h : parity l = .ok s) : s = 1 ∨ s = -1 := by
  unfold parity at h
  simp only [bind, Except.bind, pure, Except.pure] at h
  split at h
  · cases h
  · injection h with h
    subst h
    split
    · exact Or.inl rfl
    · exact Or.inr rfl

/-- Entries of dense vectors are at most as large as the listed values. -/
theorem dense_bound {T : Table} {k d : ℕ} {B : ℤ} (hB : 0 ≤ B) {s : SparseCochain} (hs : ∀ r ∈ s, |r.val| ≤ B) {v : List ℤ}
    (h : sparseCocycleToVector d s T k = .ok v) (e : ℕ) : |v.getD e 0| ≤ B := by
  unfold sparseCocycleToVector at h
  have key : ∀ (s : SparseCochain), (∀ r ∈ s, |r.val| ≤ B) → ∀ vec : List ℤ, (∀ e, |vec.getD e 0| ≤ B) →
      ∀ v, s.foldlM (storeRow T) vec = .ok v → ∀ e, |v.getD e 0| ≤ B := by
    intro s
    induction s with
    | nil =>
      intro _ vec hvec v hv
      simp only [List.foldlM_nil, pure, Except.pure, Except.ok.injEq] at hv
      subst hv; exact hvec
    | cons r s ih =>
      intro hs vec hvec v hv
      rw [List.foldlM_cons] at hv
      simp only [bind, Except.bind] at hv
      split at hv
      · cases hv
      · next vec' hstore =>
        refine ih (fun r' hr' => hs r' (List.mem_cons_of_mem _ hr')) vec' ?_ v hv
        unfold storeRow at hstore
        simp only [bind, Except.bind] at hstore
        split at hstore
        · cases hstore
        · next q hos =>
          obtain ⟨t, sign⟩ := q
          simp only at hstore
          have hsign : sign = 1 ∨ sign = -1 := by
            unfold orderSimplex at hos
            simp only [bind, Except.bind, pure, Except.pure] at hos
            split at hos
            · cases hos
            · next q' hpar =>
              simp only [Except.ok.injEq, Prod.mk.injEq] at hos
              rw [← hos.2]
              exact parity_unit hpar
          split at hstore
          · next hlt =>
            injection hstore with hstore
            subst hstore
            intro e
            simp only [List.getD_eq_getElem?_getD, List.getElem?_set]
            by_cases he : cnsForward t T = e
            · rw [if_pos he, if_pos hlt, Option.getD_some, abs_mul]
              have h1 : |sign| = 1 := by rcases hsign with h | h <;> rw [h] <;> simp
              rw [h1, mul_one]
              exact hs r List.mem_cons_self
            · rw [if_neg he]
              simpa only [List.getD_eq_getElem?_getD] using hvec e
          · cases hstore
  refine key s hs _ ?_ v h e
  intro e
  rw [List.getD_eq_getElem?_getD, List.getElem?_replicate]
  split <;> simpa using hB

/-- The check step keeps the unique small integer cocycle. -/
theorem isSmallestLift_of_dense (hnd : idx.Nodup)
    (hland : ∀ l (h : l < idx.length), ∀ m (h' : m < idx.length), dll l m = δ idx[l] idx[m])
    {p : ℤ} {ξ : ℕ → ℕ → ℤ} {u v c : ℕ → ℤ}
    (hu : ∀ l m, l < m → m < idx.length → u (edgeIdx l m) = pullCochain idx ξ l m) (hv : ∀ e, p ∣ v e - u e)
    (hb : ∀ e, |2 * v e| ≤ p) (hcv : IsCocycle1 idx.length dll t v → c = v) :
    IsSmallestLift p idx.toFinset δ t ξ (pushCochain idx c) := by
  intro c' hc' hsm
  have hmem : ∀ l, l < idx.length → idx.getD l 0 ∈ idx.toFinset := by
    intro l hl; rw [getD_of_lt hl, List.mem_toFinset]; exact List.getElem_mem _
  have hval : ∀ l m, l < m → m < idx.length → v (edgeIdx l m) = c' (idx.getD l 0) (idx.getD m 0) := by
    intro l m hlm hm
    have h1 := hv (edgeIdx l m)
    rw [hu l m hlm hm] at h1
    unfold pullCochain at h1
    rw [if_pos ⟨by omega, hm⟩] at h1
    have h2 := hc'.congr _ (hmem l (by omega)) _ (hmem m hm)
    have h3 := dvd_sub h1 h2
    rw [sub_sub_sub_cancel_right] at h3
    have h4 := abs_le.1 (hb (edgeIdx l m))
    have h5 := abs_lt.1 (hsm _ (hmem l (by omega)) _ (hmem m hm))
    have h6 : v (edgeIdx l m) - c' (idx.getD l 0) (idx.getD m 0) = 0 :=
      Int.eq_zero_of_abs_lt_dvd h3 (by rw [abs_lt]; constructor <;> linarith)
    linarith
  have hcv := hcv (by
    rintro i j q ⟨⟨e1, e2, e3⟩, ⟨e4, e5, e6⟩, ⟨e7, e8, e9⟩⟩
    rw [hval i j e1 e2, hval j q e4 e5, hval i q e7 e8]
    have := hc'.cocycle _ (hmem i (by omega)) _ (hmem j e2) _ (hmem q e5)
      (by rw [getD_of_lt (by omega), getD_of_lt (by omega), ← hland]; exact e3)
      (by rw [getD_of_lt (by omega), getD_of_lt (by omega), ← hland]; exact e6)
      (by rw [getD_of_lt (by omega), getD_of_lt (by omega), ← hland]; exact e9)
    omega)
  subst hcv
  intro a ha b hb'
  have ha' := List.mem_toFinset.1 ha
  have hb'' := List.mem_toFinset.1 hb'
  unfold pushCochain edgeVal
  rcases lt_trichotomy (idx.idxOf a) (idx.idxOf b) with h | h | h
  · rw [if_pos h, hval _ _ h (idxOf_lt hb''), getD_of_lt (idxOf_lt ha'), getD_of_lt (idxOf_lt hb''), getElem_idxOf' ha',
      getElem_idxOf' hb'']
  · have : a = b := by rw [← getElem_idxOf' ha', ← getElem_idxOf' hb'']; simp only [h]
    subst this
    simp only [lt_irrefl, if_false]
    have := hc'.antisymm a ha a ha
    omega
  · rw [if_neg (by omega), if_pos h, hval _ _ h (idxOf_lt ha'), getD_of_lt (idxOf_lt ha'), getD_of_lt (idxOf_lt hb''),
      getElem_idxOf' ha', getElem_idxOf' hb'']
    exact (hc'.antisymm b hb' a ha).symm

theorem lifted_bound {p : ℤ} {s : SparseCochain} (hs : ∀ r ∈ s, 0 ≤ r.val ∧ r.val < p) {T : Table} {k : ℕ} {v : List ℤ}
    (hp : 0 < p) (h : sparseCocycleToVector 1 (liftToIntegerCocycle s p) T k = .ok v) (e : ℕ) : |2 * v.getD e 0| ≤ p := by
  have h1 := dense_bound (B := p / 2) (by omega) (s := liftToIntegerCocycle s p) (by
    intro r hr
    unfold liftToIntegerCocycle at hr
    obtain ⟨r0, h0, rfl⟩ := List.mem_map.1 hr
    have := hs r0 h0
    simp only [liftVal]
    rw [abs_le]
    split <;> constructor <;> omega) h e
  have h2 := abs_le.1 h1
  rw [abs_le]
  constructor <;> omega

/-- A cochain that is a cocycle modulo `p` on the landmarks, made dense. -/
theorem isCocycle1Mod_of_data
    (hland : ∀ l (h : l < idx.length), ∀ m (h' : m < idx.length), dll l m = δ idx[l] idx[m])
    {p : ℤ} {ξ : ℕ → ℕ → ℤ} {u : ℕ → ℤ}
    (hu : ∀ l m, l < m → m < idx.length → u (edgeIdx l m) = pullCochain idx ξ l m)
    (hc : CocycleModOn p idx δ t ξ) : IsCocycle1Mod p idx.length dll t u := by
  rintro i j q ⟨⟨e1, e2, e3⟩, ⟨e4, e5, e6⟩, ⟨e7, e8, e9⟩⟩
  rw [hu i j e1 e2, hu j q e4 e5, hu i q e7 e8]
  unfold pullCochain
  rw [if_pos ⟨by omega, by omega⟩, if_pos ⟨by omega, by omega⟩, if_pos ⟨by omega, by omega⟩,
    getD_of_lt (show i < _ by omega), getD_of_lt e2, getD_of_lt e5]
  rw [hland _ (by omega) _ (by omega)] at e3 e6 e9
  exact hc _ (List.getElem_mem _) _ (List.getElem_mem _) _ (List.getElem_mem _) e3 e6 e9

/-- The energy on data points counts every edge twice. -/
theorem dataEnergy_eq (hnd : idx.Nodup) (hsym : ∀ u ∈ idx, ∀ v ∈ idx, δ u v = δ v u)
    (hland : ∀ l (h : l < idx.length), ∀ m (h' : m < idx.length), dll l m = δ idx[l] idx[m]) (c : ℕ → ℤ) (f : ℕ → ℝ) :
    dataEnergy idx.toFinset δ (2 * r) (pushCochain idx c) (fun u => f (idx.idxOf u)) =
      2 * formEnergy idx.length dll r (fun e => (c e : ℝ)) f := by
  classical
  set g : ℕ → ℕ → ℝ := fun l m => if RipsEdge idx.length dll (2 * r) l m then ((c (edgeIdx l m) : ℝ) - (f l - f m)) ^ 2 else 0
    with hg
  have hterm : ∀ u ∈ idx.toFinset, ∀ v ∈ idx.toFinset,
      (if δ u v < 2 * r then ((pushCochain idx c u v : ℝ) - (f (idx.idxOf u) - f (idx.idxOf v))) ^ 2 else 0) =
        g (idx.idxOf u) (idx.idxOf v) + g (idx.idxOf v) (idx.idxOf u) := by
    intro u hu v hv
    have hu := List.mem_toFinset.1 hu
    have hv := List.mem_toFinset.1 hv
    have h1 := idxOf_lt hu
    have h2 := idxOf_lt hv
    have d1 : dll (idx.idxOf u) (idx.idxOf v) = δ u v := by rw [hland _ h1 _ h2, getElem_idxOf' hu, getElem_idxOf' hv]
    have d2 : dll (idx.idxOf v) (idx.idxOf u) = δ u v := by
      rw [hland _ h2 _ h1, getElem_idxOf' hu, getElem_idxOf' hv, hsym v hv u hu]
    simp only [hg, RipsEdge, d1, d2, h1, h2, true_and]
    unfold pushCochain edgeVal
    rcases lt_trichotomy (idx.idxOf u) (idx.idxOf v) with h | h | h
    · simp only [h, true_and, if_true, not_lt_of_gt h, false_and, if_false, add_zero]
    · simp only [h, lt_irrefl, false_and, if_false, add_zero]; simp
    · simp only [h, true_and, if_true, not_lt_of_gt h, false_and, if_false, zero_add]
      congr 1
      push_cast
      ring
  unfold dataEnergy
  rw [Finset.sum_congr rfl fun u hu => Finset.sum_congr rfl fun v hv => by convert hterm u hu v hv using 2]
  simp only [Finset.sum_add_distrib]
  rw [Finset.sum_comm (f := fun u v => g (idx.idxOf v) (idx.idxOf u))]
  have e : ∑ u ∈ idx.toFinset, ∑ v ∈ idx.toFinset, g (idx.idxOf u) (idx.idxOf v) =
      ∑ l ∈ Finset.range idx.length, ∑ m ∈ Finset.range idx.length, g l m := by
    rw [← sum_landmarks hnd (fun l => ∑ m ∈ Finset.range idx.length, g l m)]
    exact Finset.sum_congr rfl fun u _ => sum_landmarks hnd (fun m => g (idx.idxOf u) m)
  rw [e, ← two_mul]
  congr 1

/-- The energy only depends on the values of the potential at the landmarks. -/
theorem dataEnergy_getD (t : ℝ) (c : ℕ → ℕ → ℤ) (g : ℕ → ℝ) :
    dataEnergy idx.toFinset δ t c g =
      dataEnergy idx.toFinset δ t c (fun u => (fun l => g (idx.getD l 0)) (idx.idxOf u)) := by
  unfold dataEnergy
  refine Finset.sum_congr rfl fun a ha => Finset.sum_congr rfl fun b' hb' => ?_
  have ha := List.mem_toFinset.1 ha
  have hb' := List.mem_toFinset.1 hb'
  simp only
  rw [getD_of_lt (idxOf_lt ha), getD_of_lt (idxOf_lt hb'), getElem_idxOf' ha, getElem_idxOf' hb']


/-- The weights of a cover, on data points. -/
theorem isBumpWeights_of_cov (hnd : idx.Nodup) (hL : 0 < idx.length) (hd : ∀ l i, 0 ≤ dist l i)
    (hdata : ∀ l (h : l < idx.length), ∀ i < N, dist l i = δ idx[l] i) {bump : Fl ℝ → Fl ℝ → Fl ℝ} (hb : PositiveBump bump)
    {cov : Covering ℝ} (h : getCoveringPartition .float idx.length N (fun l i => Fl.fin (dist l i)) (.fin r) bump = .ok cov)
    {w : ℕ → ℕ → ℝ} (hw : ∀ i, (∃ m, InBall idx.length dist r m i) → ∀ l, cov.varphi l i = .fin (w l i)) :
    IsBumpWeights idx.toFinset N δ r bump (fun u i => w (idx.idxOf u) i) := by
  obtain ⟨C, phi, hC, hval, -, hv, -, hsum, -⟩ := covering_spec_full hb idx.length N hL dist hd r
  rw [hC] at h
  injection h with h
  subst h
  rintro i hi ⟨u, hu, hui⟩
  have hu := List.mem_toFinset.1 hu
  have hcov : ∃ m, InBall idx.length dist r m i := by
    refine ⟨idx.idxOf u, idxOf_lt hu, ?_⟩
    rw [hdata _ (idxOf_lt hu) i hi, getElem_idxOf' hu]; exact hui
  have hs : ∑ v ∈ idx.toFinset, phi (idx.idxOf v) i = ∑ l ∈ Finset.range idx.length, phi l i :=
    sum_landmarks hnd fun l => phi l i
  refine ⟨fun u => phi (idx.idxOf u) i, ?_, ?_, ?_⟩
  · intro v hv'
    have hv' := List.mem_toFinset.1 hv'
    have e : dist (idx.idxOf v) i = δ v i := by rw [hdata _ (idxOf_lt hv') i hi, getElem_idxOf' hv']
    have := hval (idx.idxOf v) i
    rw [e] at this
    exact ⟨this.1, fun h => this.2 (not_lt.2 h)⟩
  · rw [hs]; exact (hsum i).1 hcov
  · intro v _
    have h1 := hw i hcov (idx.idxOf v)
    rw [hv _ i hcov] at h1
    injection h1 with h1
    rw [hs]
    exact h1.symm

/-- The coordinate on data points. -/
theorem isDataCoordinate_of_glued (hnd : idx.Nodup)
    (hdata : ∀ l (h : l < idx.length), ∀ i < N, dist l i = δ idx[l] i) {w : ℕ → ℕ → ℝ} {c : ℕ → ℤ} {f : ℕ → ℝ}
    {θ : ℕ → Fl ℝ} (h1 : ∀ i, θ i = .nan ↔ ¬ ∃ l < idx.length, dist l i < r)
    (h2 : ∀ i l, InBall idx.length dist r l i → IsAngle (θ i) (gluedLift idx.length w c f l i))
    (h3 : ∀ i l m, InBall idx.length dist r l i → InBall idx.length dist r m i →
      gluedLift idx.length w c f l i - gluedLift idx.length w c f m i = ((edgeVal c l m : ℤ) : ℝ)) :
    IsDataCoordinate idx.toFinset N δ r (fun u i => w (idx.idxOf u) i) (pushCochain idx c) (fun u => f (idx.idxOf u)) θ := by
  have hball : ∀ u ∈ idx, ∀ i < N, (δ u i < r ↔ InBall idx.length dist r (idx.idxOf u) i) := by
    intro u hu i hi
    unfold InBall
    rw [hdata _ (idxOf_lt hu) i hi, getElem_idxOf' hu]
    exact ⟨fun h => ⟨idxOf_lt hu, h⟩, fun h => h.2⟩
  have hsum : ∀ u i, ∑ v ∈ idx.toFinset, (f (idx.idxOf v) + (pushCochain idx c u v : ℤ)) * w (idx.idxOf v) i =
      gluedLift idx.length w c f (idx.idxOf u) i := by
    intro u i
    unfold gluedLift pushCochain
    exact sum_landmarks hnd fun m => (f m + ((edgeVal c (idx.idxOf u) m : ℤ) : ℝ)) * w m i
  refine ⟨?_, ?_, ?_⟩
  · intro i hi
    rw [h1 i]
    constructor
    · intro h u hu
      have hu := List.mem_toFinset.1 hu
      by_contra hlt
      obtain ⟨e1, e2⟩ := (hball u hu i hi).1 (not_le.1 hlt)
      exact h ⟨_, e1, e2⟩
    · rintro h ⟨l, hl, hlt⟩
      rw [hdata l hl i hi] at hlt
      exact absurd hlt (not_lt.2 (h _ (List.mem_toFinset.2 (List.getElem_mem hl))))
  · intro u hu i hi hlt
    have hu := List.mem_toFinset.1 hu
    rw [hsum]
    exact h2 i _ ((hball u hu i hi).1 hlt)
  · intro u hu v hv i hi hlt hlt'
    have hu := List.mem_toFinset.1 hu
    have hv := List.mem_toFinset.1 hv
    rw [hsum, hsum, h3 i _ _ ((hball u hu i hi).1 hlt) ((hball v hv i hi).1 hlt')]
    rfl

end

end Dreimac
