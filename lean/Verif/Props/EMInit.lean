import Mathlib.Data.List.Forall2
import Mathlib.Order.Bounds.Basic
import Verif.Props.EMCoords

/-!
# C26, C32, C59: the constructor's ordering of the classes, the stored coverage, class selection
-/

namespace Dreimac

open Fl

/-! ### C26 -/

section sort
variable {K : Type} [Field K] [LinearOrder K]

/-- What `np.argsort` promises: a permutation of the positions, along which the keys do not decrease. -/
def ArgsortSpec (argsort : List (Fl K) → List ℕ) : Prop :=
  ∀ keys, (argsort keys).Perm (List.range keys.length) ∧
    (argsort keys).Pairwise fun i j => ¬ Fl.lt (keys.getD j nan) (keys.getD i nan) = true

/-- A diagram point: finite birth, finite or infinite death. -/
def IsDiagramPoint (p : Fl K × Fl K) : Prop := (∃ b, p.1 = fin b) ∧ ((∃ d, p.2 = fin d) ∨ p.2 = pinf)

/-- `p` persists strictly longer than `q`. -/
def LongerLived (p q : Fl K × Fl K) : Prop := Fl.lt (q.2 - q.1) (p.2 - p.1) = true

theorem pyGet_nat {α : Type} (l : List α) (i : ℕ) (a : α) : pyGet l (i : ℤ) = .ok a ↔ l[i]? = some a := by
  unfold pyGet
  simp only [show ¬ ((i : ℤ) < 0) by omega, if_false, show (0 : ℤ) ≤ i by omega, if_true, Int.toNat_natCast]
  cases l[i]? <;> simp

theorem mapM_ok {α β : Type} {f : α → Except PyErr β} {l : List α} {out : List β} (h : l.mapM f = .ok out) :
    List.Forall₂ (fun a b => f a = .ok b) l out := by
  induction l generalizing out with
  | nil => simp only [List.mapM_nil, pure, Except.pure, Except.ok.injEq] at h; subst h; exact .nil
  | cons a l ih =>
    rw [List.mapM_cons] at h
    simp only [bind, Except.bind, pure, Except.pure] at h
    rcases ha : f a with e | b
    · rw [ha] at h; exact absurd h (by simp)
    · rw [ha] at h
      rcases hl : l.mapM f with e | out'
      · rw [hl] at h; exact absurd h (by simp)
      · rw [hl] at h
        simp only [Except.ok.injEq] at h
        subst h
        exact .cons ha (ih hl)

variable [IsStrictOrderedRing K]

theorem lt_neg_sub {p q : Fl K × Fl K} (hp : IsDiagramPoint p) (hq : IsDiagramPoint q) :
    Fl.lt (p.1 - p.2) (q.1 - q.2) = Fl.lt (q.2 - q.1) (p.2 - p.1) := by
  obtain ⟨p1, p2⟩ := p
  obtain ⟨q1, q2⟩ := q
  obtain ⟨⟨b, rfl⟩, h⟩ := hp
  obtain ⟨⟨b', rfl⟩, h'⟩ := hq
  simp only at h h'
  rcases h with ⟨d, rfl⟩ | rfl <;> rcases h' with ⟨d', rfl⟩ | rfl
  · simp only [fin_sub, lt_fin, decide_eq_decide]
    constructor <;> intro h <;> linarith
  · rfl
  · rfl
  · rfl

/-- Sorting one dimension. -/
theorem sortDim_spec (argsort : List (Fl K) → List ℕ) (ha : ArgsortSpec argsort) (dgm : List (Fl K × Fl K))
    (coc : List (List ZRow)) (hd : ∀ p ∈ dgm, IsDiagramPoint p) (dgm' : List (Fl K × Fl K)) (coc' : List (List ZRow))
    (h : sortDim argsort dgm coc = .ok (dgm', coc')) :
    ∃ σ : List ℕ, σ.Perm (List.range dgm.length) ∧
      List.Forall₂ (fun i p => dgm[i]? = some p) σ dgm' ∧ List.Forall₂ (fun i c => coc[i]? = some c) σ coc' ∧
      dgm'.Pairwise fun p q => ¬ LongerLived q p := by
  unfold sortDim at h
  simp only [bind, Except.bind, pure, Except.pure] at h
  set keys := dgm.map fun p => p.1 - p.2 with hkeys
  obtain ⟨hperm, hsort⟩ := ha keys
  rcases h1 : (argsort keys).mapM (fun i : ℕ => pyGet dgm (i : ℤ)) with e | d1
  · rw [h1] at h; exact absurd h (by simp)
  · rw [h1] at h
    rcases h2 : (argsort keys).mapM (fun i : ℕ => pyGet coc (i : ℤ)) with e | c1
    · rw [h2] at h; exact absurd h (by simp)
    · rw [h2] at h
      simp only [Except.ok.injEq, Prod.mk.injEq] at h
      obtain ⟨rfl, rfl⟩ := h
      have f1 := (mapM_ok h1).imp fun i p h => (pyGet_nat dgm i p).1 h
      have f2 := (mapM_ok h2).imp fun i p h => (pyGet_nat coc i p).1 h
      refine ⟨argsort keys, by simpa [hkeys] using hperm, f1, f2, ?_⟩
      clear h1 h2 f2 hperm
      revert hsort f1
      generalize argsort keys = σ
      intro hsort f1
      induction f1 with
      | nil => exact List.Pairwise.nil
      | @cons i p l1 l2 hip hF ih =>
        rw [List.pairwise_cons] at hsort ⊢
        refine ⟨?_, ih hsort.2⟩
        intro q hq hlong
        obtain ⟨j, hj, hjq⟩ : ∃ j ∈ l1, dgm[j]? = some q := by
          have := List.forall₂_iff_get.1 hF
          obtain ⟨n, hn, rfl⟩ := List.mem_iff_getElem.1 hq
          exact ⟨l1[n]'(this.1 ▸ hn), List.getElem_mem _, by simpa using this.2 n (this.1 ▸ hn) hn⟩
        apply hsort.1 j hj
        have ki : keys.getD i nan = p.1 - p.2 := by
          rw [hkeys, List.getD_eq_getElem?_getD, List.getElem?_map, hip]; rfl
        have kj : keys.getD j nan = q.1 - q.2 := by
          rw [hkeys, List.getD_eq_getElem?_getD, List.getElem?_map, hjq]; rfl
        rw [ki, kj, lt_neg_sub (hd q (List.mem_of_getElem? hjq)) (hd p (List.mem_of_getElem? hip))]
        exact hlong

/-- One pass of the loop only touches its own dimension. -/
theorem sortLoop_spec (argsort : List (Fl K) → List ℕ) (l : List ℕ) (hnd : l.Nodup)
    (dgms dgms' : List (List (Fl K × Fl K))) (coc coc' : List (List (List ZRow)))
    (h : l.foldlM (init := (dgms, coc)) (fun st (i : ℕ) => do
      let dgm ← pyGet st.1 (i : ℤ)
      let c ← pyGet st.2 (i : ℤ)
      let (dgm', c') ← sortDim argsort dgm c
      (pure (st.1.set i dgm', st.2.set i c') : Except PyErr _)) = .ok (dgms', coc')) :
    dgms'.length = dgms.length ∧ coc'.length = coc.length ∧
    (∀ i ∉ l, dgms'[i]? = dgms[i]? ∧ coc'[i]? = coc[i]?) ∧
    ∀ i ∈ l, ∃ d c d' c', dgms[i]? = some d ∧ coc[i]? = some c ∧ dgms'[i]? = some d' ∧ coc'[i]? = some c' ∧
      sortDim argsort d c = .ok (d', c') := by
  induction l generalizing dgms coc with
  | nil =>
    simp only [List.foldlM_nil, pure, Except.pure, Except.ok.injEq, Prod.mk.injEq] at h
    obtain ⟨rfl, rfl⟩ := h
    simp
  | cons a l ih =>
    rw [List.nodup_cons] at hnd
    rw [List.foldlM_cons] at h
    simp only [bind, Except.bind] at h
    rcases h1 : pyGet dgms (a : ℤ) with e | d
    · rw [h1] at h; exact absurd h (by simp)
    rw [h1] at h; simp only at h
    rcases h2 : pyGet coc (a : ℤ) with e | c
    · rw [h2] at h; exact absurd h (by simp)
    rw [h2] at h; simp only at h
    rcases h3 : sortDim argsort d c with e | ⟨d', c'⟩
    · rw [h3] at h; exact absurd h (by simp)
    rw [h3] at h; simp only [pure, Except.pure] at h
    rw [pyGet_nat] at h1 h2
    obtain ⟨e1, e2, e3, e4⟩ := ih hnd.2 _ _ h
    simp only [List.length_set] at e1 e2
    refine ⟨e1, e2, ?_, ?_⟩
    · intro i hi
      rw [List.mem_cons, not_or] at hi
      have := e3 i hi.2
      rwa [List.getElem?_set_ne (Ne.symm hi.1), List.getElem?_set_ne (Ne.symm hi.1)] at this
    · intro i hi
      rcases List.mem_cons.1 hi with rfl | hi
      · have := e3 i hnd.1
        rw [List.getElem?_set_self (List.getElem?_eq_some_iff.1 h1).1,
          List.getElem?_set_self (List.getElem?_eq_some_iff.1 h2).1] at this
        exact ⟨d, c, d', c', h1, h2, this.1, this.2, h3⟩
      · obtain ⟨d1, c1, d2, c2, f1, f2, f3⟩ := e4 i hi
        have hne : a ≠ i := fun h => hnd.1 (h ▸ hi)
        rw [List.getElem?_set_ne hne] at f1 f2
        exact ⟨d1, c1, d2, c2, f1, f2, f3⟩

theorem forall₂_getElem? {α β : Type} {R : α → β → Prop} {l : List α} {m : List β} (h : List.Forall₂ R l m) {i : ℕ}
    {a : α} (ha : l[i]? = some a) : ∃ b, m[i]? = some b ∧ R a b := by
  rw [List.forall₂_iff_get] at h
  rw [List.getElem?_eq_some_iff] at ha
  obtain ⟨hi, rfl⟩ := ha
  exact ⟨m[i]'(h.1 ▸ hi), by rw [List.getElem?_eq_getElem], by simpa using h.2 i hi (h.1 ▸ hi)⟩

/-- The sorting and relabelling of one dimension, in terms of the functions of the model. -/
theorem persistence_order (argsort : List (Fl K) → List ℕ) (ha : ArgsortSpec argsort) (res : RipserResult K)
    (useDperm : Bool) (X : ℕ → ℕ → Fl K) (nX : ℕ) (prime : ℤ) (maxdim : ℕ)
    (hd : ∀ (q : ℕ) dgm, 1 ≤ q → res.dgms[q]? = some dgm → ∀ p ∈ dgm, IsDiagramPoint p) (obj : EMObject K)
    (h : emInit argsort res useDperm X nX prime maxdim = .ok obj) (i : ℕ) (hi : 1 ≤ i) (hi' : i ≤ maxdim) :
    ∃ dgm coc dgm' coc' m, res.dgms[i]? = some dgm ∧ res.cocycles[i]? = some coc ∧ obj.dgms[i]? = some dgm' ∧
      obj.cocycles[i]? = some coc' ∧ idxMap res.idxPerm nX = .ok m ∧
      ∃ σ : List ℕ, σ.Perm (List.range dgm.length) ∧
        List.Forall₂ (fun j p => dgm[j]? = some p) σ dgm' ∧
        List.Forall₂ (fun j c => ∃ c₀, coc[j]? = some c₀ ∧ List.Forall₂ (fun r r' => reindexRow m r = .ok r') c₀ c)
          σ coc' ∧
        dgm'.Pairwise fun p q => ¬ LongerLived q p := by
  unfold emInit at h
  split at h
  · exact absurd h (by simp)
  simp only [bind, Except.bind, pure, Except.pure] at h
  rcases h1 : sortLoop argsort maxdim res.dgms res.cocycles with e | ⟨dgms, cocs⟩
  · rw [h1] at h; exact absurd h (by simp)
  rw [h1] at h; simp only at h
  rcases h2 : reindexCocycles cocs res.idxPerm nX with e | cocs'
  · rw [h2] at h; exact absurd h (by simp)
  rw [h2] at h; simp only [Except.ok.injEq] at h
  subst h
  have hmem : i ∈ pyRange 1 (maxdim + 1) := by
    unfold pyRange; rw [List.mem_range'_1]; omega
  obtain ⟨-, -, -, hs⟩ := sortLoop_spec argsort _ (List.nodup_range' ..) _ _ _ _ h1
  obtain ⟨d, c, d', c', e1, e2, e3, e4, e5⟩ := hs i hmem
  obtain ⟨σ, s1, s2, s3, s4⟩ := sortDim_spec argsort ha d c (hd i d hi e1) d' c' e5
  unfold reindexCocycles at h2
  simp only [bind, Except.bind] at h2
  rcases hm : idxMap res.idxPerm nX with e | m
  · rw [hm] at h2; exact absurd h2 (by simp)
  rw [hm] at h2; simp only at h2
  obtain ⟨c'', g1, g2⟩ := forall₂_getElem? (mapM_ok h2) e4
  refine ⟨d, c, d', c'', m, e1, e2, e3, g1, rfl, σ, s1, s2, ?_, s4⟩
  have g3 := mapM_ok g2
  rw [List.forall₂_iff_get] at s3 g3 ⊢
  refine ⟨s3.1.trans g3.1, fun n hn hn' => ?_⟩
  have hnc : n < c'.length := by rw [g3.1]; exact hn'
  exact ⟨c'.get ⟨n, hnc⟩, s3.2 n hn hnc, mapM_ok (g3.2 n hnc hn')⟩

/-- The row `r'` is the row `r` with each vertex replaced by its position in the list of landmarks (`-1` for a vertex that
is not a landmark); the value is the same. -/
def RelabelledRow (idxLand : List ℕ) (r r' : ZRow) : Prop :=
  r'.val = r.val ∧ List.Forall₂ (fun v v' : ℤ =>
    (∀ i (h : i < idxLand.length), v = (idxLand[i] : ℤ) → v' = i) ∧ ((∀ u ∈ idxLand, v ≠ (u : ℤ)) → v' = -1))
    r.verts r'.verts

/-- **C26.** Let ripser return pairwise different landmarks and cocycles whose vertices are data points.  After construction,
in every dimension `1 ≤ i ≤ maxdim`: the diagram is a rearrangement (by a permutation `σ` of the positions) of ripser's,
sorted so that no class lives longer than an earlier one, and the cocycle at each position is the cocycle ripser computed
for the same class, with the vertices relabelled by landmark numbers and the values unchanged. -/
theorem C26_persistence_order (argsort : List (Fl K) → List ℕ) (ha : ArgsortSpec argsort) (res : RipserResult K)
    (useDperm : Bool) (X : ℕ → ℕ → Fl K) (nX : ℕ) (prime : ℤ) (maxdim : ℕ)
    (hd : ∀ (q : ℕ) dgm, 1 ≤ q → res.dgms[q]? = some dgm → ∀ p ∈ dgm, IsDiagramPoint p)
    (hnd : res.idxPerm.Nodup) (hlt : ∀ v ∈ res.idxPerm, v < nX)
    (hv : ∀ ck ∈ res.cocycles, ∀ c ∈ ck, ∀ r ∈ c, ∀ v ∈ r.verts, 0 ≤ v ∧ v < nX) (obj : EMObject K)
    (h : emInit argsort res useDperm X nX prime maxdim = .ok obj) (i : ℕ) (hi : 1 ≤ i) (hi' : i ≤ maxdim) :
    ∃ dgm coc dgm' coc', res.dgms[i]? = some dgm ∧ res.cocycles[i]? = some coc ∧ obj.dgms[i]? = some dgm' ∧
      obj.cocycles[i]? = some coc' ∧
      ∃ σ : List ℕ, σ.Perm (List.range dgm.length) ∧
        List.Forall₂ (fun j p => dgm[j]? = some p) σ dgm' ∧
        List.Forall₂ (fun j c => ∃ c₀, coc[j]? = some c₀ ∧ List.Forall₂ (RelabelledRow res.idxPerm) c₀ c) σ coc' ∧
        dgm'.Pairwise fun p q => ¬ LongerLived q p := by
  obtain ⟨dgm, coc, dgm', coc', m, h1, h2, h3, h4, h5, σ, h6, h7, h8, h9⟩ :=
    persistence_order argsort ha res useDperm X nX prime maxdim hd obj h i hi hi'
  refine ⟨dgm, coc, dgm', coc', h1, h2, h3, h4, σ, h6, h7, ?_, h9⟩
  obtain ⟨m', hm', hspec⟩ := idxMap_spec res.idxPerm nX hnd hlt
  rw [h5] at hm'
  injection hm' with hm'
  subst hm'
  refine h8.imp ?_
  rintro j c ⟨c₀, e1, e2⟩
  refine ⟨c₀, e1, ?_⟩
  have hc₀ := hv coc (List.mem_of_getElem? h2) c₀ (List.mem_of_getElem? e1)
  clear h1 h2 h3 h4 h6 h7 h8 e1
  induction e2 with
  | nil => exact .nil
  | @cons r r' l l' hr _ ih =>
    refine .cons ?_ (ih fun r hr => hc₀ r (by simp [hr]))
    obtain ⟨r'', f1, f2⟩ := reindexRow_spec hspec r (hc₀ r (by simp))
    rw [hr] at f1
    injection f1 with f1
    subst f1
    exact f2

end sort

/-- Non-vacuity: two classes given in the wrong order (one of them essential). -/
example : (emInit (K := ℚ) (fun keys => if keys.length = 2 then [1, 0] else List.range keys.length)
      ⟨[[], [(fin 1, fin 2), (fin 1, pinf)]], [1, 0], [[], [[⟨[0, 1], 3⟩], [⟨[1, 0], 5⟩]]], fun _ _ => 0⟩
      true (fun _ _ => 0) 2 7 1).toOption.map (fun o => (o.dgms, o.cocycles)) =
    some ([[], [(fin 1, pinf), (fin 1, fin 2)]], [[], [[⟨[0, 1], 5⟩], [⟨[1, 0], 3⟩]]]) := by decide +kernel

/-! ### C32 -/

section coverage
variable {K : Type} [LinearOrder K]

theorem foldl_min_isLeast (l : List K) (a : K) : IsLeast {x | x ∈ a :: l} (l.foldl min a) := by
  induction l generalizing a with
  | nil => simp
  | cons b l ih =>
    rw [List.foldl_cons]
    obtain ⟨h1, h2⟩ := ih (min a b)
    have h3 := h2 (show min a b ∈ {x | x ∈ min a b :: l} by simp)
    constructor
    · simp only [Set.mem_ofPred_eq, List.mem_cons] at h1 ⊢
      rcases h1 with h1 | h1
      · rcases min_choice a b with h | h
        · left; rw [h1, h]
        · right; left; rw [h1, h]
      · exact Or.inr (Or.inr h1)
    · intro x hx
      simp only [Set.mem_ofPred_eq, List.mem_cons] at hx
      rcases hx with rfl | rfl | hx
      · exact h3.trans (min_le_left _ _)
      · exact h3.trans (min_le_right _ _)
      · exact h2 (by simp [hx])

theorem foldl_max_isGreatest (l : List K) (a : K) : IsGreatest {x | x ∈ a :: l} (l.foldl max a) := by
  induction l generalizing a with
  | nil => simp
  | cons b l ih =>
    rw [List.foldl_cons]
    obtain ⟨h1, h2⟩ := ih (max a b)
    have h3 := h2 (show max a b ∈ {x | x ∈ max a b :: l} by simp)
    constructor
    · simp only [Set.mem_ofPred_eq, List.mem_cons] at h1 ⊢
      rcases h1 with h1 | h1
      · rcases max_choice a b with h | h
        · left; rw [h1, h]
        · right; left; rw [h1, h]
      · exact Or.inr (Or.inr h1)
    · intro x hx
      simp only [Set.mem_ofPred_eq, List.mem_cons] at hx
      rcases hx with rfl | rfl | hx
      · exact (le_max_left _ _).trans h3
      · exact (le_max_right _ _).trans h3
      · exact h2 (by simp [hx])

/-- `npMin`, `npMax` on non-empty arrays given by a function. -/
theorem npMin_range (n : ℕ) (hn : 0 < n) (f : ℕ → K) :
    ∃ m, npMin ((List.range n).map f) = .ok m ∧ IsLeast {x | ∃ i < n, f i = x} m := by
  obtain ⟨k, rfl⟩ := Nat.exists_eq_add_of_lt hn
  rw [List.range_succ_eq_map, List.map_cons]
  refine ⟨_, rfl, ?_⟩
  convert foldl_min_isLeast _ _ using 1
  ext x
  have : f 0 :: ((List.range (0 + k)).map Nat.succ).map f = (List.range (0 + k + 1)).map f := by
    rw [List.range_succ_eq_map]; rfl
  rw [this]
  simp

theorem npMax_range (n : ℕ) (hn : 0 < n) (f : ℕ → K) :
    ∃ m, npMax ((List.range n).map f) = .ok m ∧ IsGreatest {x | ∃ i < n, f i = x} m := by
  obtain ⟨k, rfl⟩ := Nat.exists_eq_add_of_lt hn
  rw [List.range_succ_eq_map, List.map_cons]
  refine ⟨_, rfl, ?_⟩
  convert foldl_max_isGreatest _ _ using 1
  ext x
  have : f 0 :: ((List.range (0 + k)).map Nat.succ).map f = (List.range (0 + k + 1)).map f := by
    rw [List.range_succ_eq_map]; rfl
  rw [this]
  simp

/-- What the stored number is: the largest, over the landmarks, of the distance to the nearest data point. -/
theorem coverage_eq (L N : ℕ) (hL : 0 < L) (hN : 0 < N) (dist : ℕ → ℕ → K) :
    ∃ (m : ℕ → K) (v : K), (∀ l, IsLeast {x | ∃ i < N, dist l i = x} (m l)) ∧ coverage L N dist = .ok v ∧
      IsGreatest {x | ∃ l < L, m l = x} v := by
  choose m hm hl using fun l => npMin_range N hN (dist l)
  obtain ⟨v, hv, hg⟩ := npMax_range L hL m
  refine ⟨m, v, hl, ?_, hg⟩
  unfold coverage
  have : (List.range L).mapM (fun l => npMin ((List.range N).map fun i => dist l i)) =
      .ok ((List.range L).map m) := by
    generalize List.range L = ls
    induction ls with
    | nil => rfl
    | cons a ls ih =>
      rw [List.mapM_cons, hm a]
      simp only [bind, Except.bind, ih, pure, Except.pure, List.map_cons]
  simp only [this, bind, Except.bind]
  exact hv

variable [Zero K]

/-- **C32 is false.** For every table in which the landmarks are data points (at distance 0 from themselves) the stored
coverage is 0; so it differs from the covering radius `ρ` (the largest distance from a data point to its nearest
landmark) whenever `ρ ≠ 0`. -/
theorem C32_coverage_is_always_zero (L N : ℕ) (hL : 0 < L) (dist : ℕ → ℕ → K)
    (hd : ∀ l i, 0 ≤ dist l i) (idxLand : ℕ → ℕ) (hidx : ∀ l < L, idxLand l < N)
    (hself : ∀ l < L, dist l (idxLand l) = 0) : coverage L N dist = .ok 0 := by
  obtain ⟨m, v, hm, hv, hg⟩ := coverage_eq L N hL (by have := hidx 0 hL; omega) dist
  have hz : ∀ l < L, m l = 0 := by
    intro l hl
    apply le_antisymm
    · exact (hm l).2 ⟨idxLand l, hidx l hl, hself l hl⟩
    · obtain ⟨i, -, hi⟩ := (hm l).1
      rw [← hi]; exact hd l i
  obtain ⟨l, hl, hlv⟩ := hg.1
  rw [hv, ← hlv, hz l hl]

/-- **C32 (partial).** The stored coverage is the covering radius iff the latter is 0.  Missing: every other case
(`C32_coverage_is_always_zero`). -/
theorem C32_coverage_partial (L N : ℕ) (hL : 0 < L) (dist : ℕ → ℕ → K)
    (hd : ∀ l i, 0 ≤ dist l i) (idxLand : ℕ → ℕ) (hidx : ∀ l < L, idxLand l < N)
    (hself : ∀ l < L, dist l (idxLand l) = 0) (near : ℕ → K)
    (_hnear : ∀ i < N, IsLeast {x | ∃ l < L, dist l i = x} (near i)) (ρ : K)
    (_hρ : IsGreatest {x | ∃ i < N, near i = x} ρ) : coverage L N dist = .ok ρ ↔ ρ = 0 := by
  rw [C32_coverage_is_always_zero L N hL dist hd idxLand hidx hself]
  simp [eq_comm]

end coverage

/-- Non-vacuity: one landmark, two data points; covering radius 7, stored coverage 0. -/
example : coverage 1 2 (fun _ i => if i = 0 then (0 : ℕ) else 7) = .ok 0 := by decide

/-! ### C59 -/

section select
variable {K R : Type}

theorem pyGet_cases {α : Type} (l : List α) (z : ℤ) :
    (0 ≤ z → ∀ a, pyGet l z = .ok a ↔ l[z.toNat]? = some a) ∧
    (z < 0 → -(l.length : ℤ) ≤ z → ∀ a, pyGet l z = .ok a ↔ l[(z + l.length).toNat]? = some a) ∧
    ((z < -(l.length : ℤ) ∨ (l.length : ℤ) ≤ z) → pyGet l z = .error .indexError) := by
  refine ⟨?_, ?_, ?_⟩
  · intro h a
    unfold pyGet
    simp only [show ¬ z < 0 by omega, if_false, h, if_true]
    cases l[z.toNat]? <;> simp
  · intro h h' a
    unfold pyGet
    simp only [h, if_true, show 0 ≤ z + l.length by omega]
    cases l[(z + l.length).toNat]? <;> simp
  · intro h
    unfold pyGet
    rcases h with h | h
    · simp only [show z < 0 by omega, if_true, show ¬ (0 ≤ z + l.length) by omega, if_false]
    · simp only [show ¬ z < 0 by omega, if_false, show 0 ≤ z by omega, if_true]
      rw [List.getElem?_eq_none (by omega)]

/-- **C59.** On an object with `n` classes in the dimension: a non-integer index raises `AssertionError`, an integer
outside `-n .. n-1` raises `IndexError`, and otherwise the class returned is the one at that position, negative
indices counting from the end (the least persistent class, by C26). -/
theorem C59_class_selection (dgms : List (List (Fl K × Fl K))) (cocycles : List (List (List R))) (dim : ℕ)
    (dgm : List (Fl K × Fl K)) (coc : List (List R)) (hd : dgms[dim]? = some dgm) (hc : cocycles[dim]? = some coc)
    (hlen : dgm.length = coc.length) :
    getRepresentativeCocycle dgms cocycles .nonInt dim = .error .assertionError ∧
    (∀ z : ℤ, (z < -(dgm.length : ℤ) ∨ (dgm.length : ℤ) ≤ z) →
      getRepresentativeCocycle dgms cocycles (.int z) dim = .error .indexError) ∧
    (∀ i (h : i < dgm.length),
      getRepresentativeCocycle dgms cocycles (.int i) dim = .ok (dgm[i].1, dgm[i].2, coc[i]) ∧
      getRepresentativeCocycle dgms cocycles (.int (i - dgm.length)) dim = .ok (dgm[i].1, dgm[i].2, coc[i])) := by
  have e1 := (pyGet_nat dgms dim dgm).2 hd
  have e2 := (pyGet_nat cocycles dim coc).2 hc
  refine ⟨rfl, ?_, ?_⟩
  · intro z hz
    simp only [getRepresentativeCocycle, e1, e2, bind, Except.bind, (pyGet_cases dgm z).2.2 hz]
  · intro i h
    constructor
    · have g1 := (pyGet_nat dgm i dgm[i]).2 (List.getElem?_eq_getElem h)
      have g2 := (pyGet_nat coc i coc[i]).2 (List.getElem?_eq_getElem (hlen ▸ h))
      simp only [getRepresentativeCocycle, e1, e2, bind, Except.bind, g1, g2, pure, Except.pure]
    · have g1 := ((pyGet_cases dgm (i - dgm.length)).2.1 (by omega) (by omega) dgm[i]).2 (by
        rw [show ((i : ℤ) - dgm.length + dgm.length).toNat = i by omega, List.getElem?_eq_getElem h])
      have g2 := ((pyGet_cases coc (i - dgm.length)).2.1 (by omega) (by omega) (coc[i]'(hlen ▸ h))).2 (by
        rw [show ((i : ℤ) - dgm.length + coc.length).toNat = i by omega, List.getElem?_eq_getElem (hlen ▸ h)])
      simp only [getRepresentativeCocycle, e1, e2, bind, Except.bind, g1, g2, pure, Except.pure]

/-- A class index in a dimension that was not computed (e.g. dimension 2 with `maxdim = 1`) raises `IndexError`. -/
theorem C59_missing_dimension (dgms : List (List (Fl K × Fl K))) (cocycles : List (List (List R))) (dim : ℕ)
    (h : dgms.length ≤ dim) (z : ℤ) :
    getRepresentativeCocycle dgms cocycles (.int z) dim = .error .indexError := by
  simp only [getRepresentativeCocycle, (pyGet_cases dgms (dim : ℤ)).2.2 (Or.inr (by exact_mod_cast h)), bind,
    Except.bind]

end select

example : getRepresentativeCocycle (K := ℚ) [[], [(fin 1, fin 4), (fin 1, fin 2)]] [[], [[10], [20]]] (.int (-1)) 1 =
    .ok (fin 1, fin 2, [20]) := by decide +kernel

end Dreimac
