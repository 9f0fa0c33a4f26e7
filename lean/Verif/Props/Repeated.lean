import Verif.Props.ConstructExamples
import Verif.Props.RepairExamples

/-!
# C102: landmarks that are copies of one data point

If there are fewer different data points than landmarks, the greedy permutation of ripser repeats a data point: `idx_perm` has
equal entries.  Ripser computes its cocycles on positions of `idx_perm` and then replaces positions by data points
(`ccl[:, 0:-1] = idx_perm[ccl[:, 0:-1]]` in ripser.py); `reindex_cocycles` is meant to undo this.
-/

namespace Dreimac

open Real

/-- What ripser.py does with a row of a cocycle on positions: positions are replaced by the data points at them. -/
def toDataIndices (idxPerm : List ℕ) (r : ZRow) : ZRow := ⟨r.verts.map fun v => ((idxPerm.getD v.toNat 0 : ℕ) : ℤ), r.val⟩

/-- The vertices of a row are positions of a list of length `k`. -/
def OnPositions (k : ℕ) (r : ZRow) : Prop := ∀ v ∈ r.verts, ∃ i < k, v = (i : ℤ)

theorem forall₂_eq_right {α : Type} {P : α → α → Prop} {l l' : List α} (h : List.Forall₂ P l l')
    (hP : ∀ a ∈ l, ∀ b, P a b → b = a) : l' = l := by
  induction h with
  | nil => rfl
  | cons h1 _ ih =>
    rw [hP _ (by simp) _ h1, ih fun a ha => hP a (by simp [ha])]

/-- **C102, distinct landmarks.** If the landmarks are pairwise different data points, the constructor stores the cocycles that
ripser computed on the positions of the landmarks. -/
theorem C102_distinct_landmarks_partial (idxPerm : List ℕ) (N : ℕ) (hnd : idxPerm.Nodup) (hlt : ∀ v ∈ idxPerm, v < N)
    (raw : List (List (List ZRow))) (hraw : ∀ ck ∈ raw, ∀ c ∈ ck, ∀ r ∈ c, OnPositions idxPerm.length r) :
    reindexCocycles (raw.map fun ck => ck.map fun c => c.map (toDataIndices idxPerm)) idxPerm N = .ok raw := by
  obtain ⟨out, hout, h⟩ := C10_reindex idxPerm N hnd hlt (raw.map fun ck => ck.map fun c => c.map (toDataIndices idxPerm)) (by
    intro ck hck c hc r hr v hv
    obtain ⟨ck0, hck0, rfl⟩ := List.mem_map.1 hck
    obtain ⟨c0, hc0, rfl⟩ := List.mem_map.1 hc
    obtain ⟨r0, hr0, rfl⟩ := List.mem_map.1 hr
    obtain ⟨v0, hv0, rfl⟩ := List.mem_map.1 hv
    obtain ⟨i, hi, rfl⟩ := hraw _ hck0 _ hc0 _ hr0 _ hv0
    have := hlt idxPerm[i] (List.getElem_mem hi)
    simp only [Int.toNat_natCast, List.getD_eq_getElem?_getD, List.getElem?_eq_getElem hi, Option.getD_some]
    omega)
  rw [hout]
  rw [List.forall₂_map_left_iff] at h
  rw [forall₂_eq_right h]
  intro ck hck ck' h
  rw [List.forall₂_map_left_iff] at h
  refine forall₂_eq_right h ?_
  intro c hc c' h
  rw [List.forall₂_map_left_iff] at h
  refine forall₂_eq_right h ?_
  intro r hr r' h
  obtain ⟨h1, h2⟩ := h
  simp only [toDataIndices] at h1 h2
  rw [List.forall₂_map_left_iff] at h2
  have : r'.verts = r.verts := by
    refine forall₂_eq_right h2 ?_
    intro v hv v' hv'
    obtain ⟨i, hi, rfl⟩ := hraw _ hck _ hc _ hr _ hv
    exact hv'.1 i hi (by simp [List.getD_eq_getElem?_getD, List.getElem?_eq_getElem hi])
  cases r; cases r'; simp only at h1 this; subst h1 this; rfl

/-! ### repeated landmarks -/

theorem idxMap_fold_absent (l : List ℕ) (k : ℕ) (m m' : List ℤ) (i : ℤ)
    (h : (l.zipIdx k).foldlM (fun (m : List ℤ) (x : ℕ × ℕ) =>
        (if x.1 < m.length then .ok (m.set x.1 (x.2 : ℤ)) else .error .indexError : Except PyErr (List ℤ))) m = .ok m')
    (hi : i < k) (hm : i ∉ m) : i ∉ m' := by
  induction l generalizing k m with
  | nil =>
    simp only [List.zipIdx_nil, List.foldlM_nil, pure, Except.pure, Except.ok.injEq] at h
    subst h; exact hm
  | cons a l ih =>
    rw [List.zipIdx_cons, List.foldlM_cons] at h
    simp only [bind, Except.bind] at h
    split at h
    · cases h
    · next v hv =>
      split at hv
      · simp only [Except.ok.injEq] at hv
        subst hv
        refine ih (k + 1) _ h (by push_cast; omega) ?_
        intro hmem
        rcases List.mem_or_eq_of_mem_set hmem with h1 | h1
        · exact hm h1
        · omega
      · cases hv

theorem idxMap_fold_overwritten (l : List ℕ) (k a b : ℕ) (m m' : List ℤ)
    (h : (l.zipIdx k).foldlM (fun (m : List ℤ) (x : ℕ × ℕ) =>
        (if x.1 < m.length then .ok (m.set x.1 (x.2 : ℤ)) else .error .indexError : Except PyErr (List ℤ))) m = .ok m')
    (hab : a < b) (hb : b < l.length) (heq : l[a]'(hab.trans hb) = l[b])
    (hm : ((k + a : ℕ) : ℤ) ∉ m) : ((k + a : ℕ) : ℤ) ∉ m' := by
  induction l generalizing k a b m with
  | nil => simp at hb
  | cons x l ih =>
    rw [List.zipIdx_cons, List.foldlM_cons] at h
    simp only [bind, Except.bind] at h
    split at h
    · cases h
    · next v hv =>
      split at hv
      · simp only [Except.ok.injEq] at hv
        subst hv
        cases a with
        | succ a =>
          obtain ⟨b, rfl⟩ : ∃ b', b = b' + 1 := ⟨b - 1, by omega⟩
          have e : k + (a + 1) = (k + 1) + a := by omega
          rw [e] at hm ⊢
          refine ih (k + 1) a b _ h (by omega) (by simpa using hb) (by simpa using heq) ?_
          intro hmem
          rcases List.mem_or_eq_of_mem_set hmem with h1 | h1
          · exact hm h1
          · push_cast at h1; omega
        | zero =>
          -- `k` is stored at `x` only, and the entry at `x` is overwritten later
          obtain ⟨b, rfl⟩ : ∃ b', b = b' + 1 := ⟨b - 1, by omega⟩
          simp only [List.getElem_cons_zero, List.getElem_cons_succ] at heq
          have hb' : b < l.length := by simpa using hb
          have key : ∀ (l : List ℕ) (j : ℕ) (m m' : List ℤ) (y : ℕ) (z : ℤ), z < j →
              (∀ p : ℕ, m[p]? = some z → p = y) → y ∈ l →
              (l.zipIdx j).foldlM (fun (m : List ℤ) (x : ℕ × ℕ) =>
                (if x.1 < m.length then .ok (m.set x.1 (x.2 : ℤ)) else .error .indexError : Except PyErr (List ℤ))) m = .ok m' →
              z ∉ m' := by
            intro l
            induction l with
            | nil => intro j m m' y z _ _ hy _; simp at hy
            | cons w l ihl =>
              intro j m m' y z hz hu hy hf
              rw [List.zipIdx_cons, List.foldlM_cons] at hf
              simp only [bind, Except.bind] at hf
              split at hf
              · cases hf
              · next v hv =>
                split at hv
                · simp only [Except.ok.injEq] at hv
                  subst hv
                  by_cases hwy : w = y
                  · refine idxMap_fold_absent l (j + 1) _ _ z hf (by push_cast; omega) ?_
                    intro hmem
                    obtain ⟨p, hp⟩ := List.mem_iff_getElem?.1 hmem
                    by_cases hpw : w = p
                    · subst hpw
                      rw [List.getElem?_set_self (by assumption)] at hp
                      simp only [Option.some.injEq] at hp
                      omega
                    · rw [List.getElem?_set_ne hpw] at hp
                      exact hpw (hwy.trans (hu p hp).symm)
                  · refine ihl (j + 1) _ _ y z (by push_cast; omega) ?_ ?_ hf
                    · intro p hp
                      by_cases hpw : w = p
                      · subst hpw
                        rw [List.getElem?_set_self (by assumption)] at hp
                        simp only [Option.some.injEq] at hp
                        omega
                      · rw [List.getElem?_set_ne hpw] at hp
                        exact hu p hp
                    · rcases List.mem_cons.1 hy with h1 | h1
                      · exact absurd h1.symm hwy
                      · exact h1
                · cases hv
          refine key l (k + 1) _ m' x _ (by push_cast; omega) ?_ (heq ▸ List.getElem_mem hb') h
          intro p hp
          by_contra hne
          rw [List.getElem?_set_ne (Ne.symm hne)] at hp
          exact hm (List.mem_of_getElem? hp)
      · cases hv

theorem idxMap_copies {idxLand : List ℕ} {N a b : ℕ} {m : List ℤ} (h : idxMap idxLand N = .ok m) (hab : a < b)
    (hb : b < idxLand.length) (heq : idxLand[a]'(hab.trans hb) = idxLand[b]) : (a : ℤ) ∉ m := by
  have := idxMap_fold_overwritten idxLand 0 a b (List.replicate N (-1)) m h hab hb heq (by
    intro hmem
    have := (List.mem_replicate.1 hmem).2
    omega)
  simpa using this

theorem mapM_mem {α β : Type} {f : α → Except PyErr β} {l : List α} {out : List β} (h : l.mapM f = .ok out) {b : β}
    (hb : b ∈ out) : ∃ a ∈ l, f a = .ok b := by
  have h2 := forall₂_mapM h
  obtain ⟨k, hk⟩ := List.mem_iff_getElem?.1 hb
  rcases forall₂_get h2 k with ⟨-, e⟩ | ⟨a, b', e1, e2, e3⟩
  · rw [e] at hk; cases hk
  · rw [e2] at hk; injection hk with hk; subst hk
    exact ⟨a, List.mem_of_getElem? e1, e3⟩

theorem pyGet_mem {α : Type} {l : List α} {z : ℤ} {x : α} (h : pyGet l z = .ok x) : x ∈ l := by
  have := pyGet_getElem? h
  exact List.mem_of_getElem? this

/-- **C102 fails with repeated landmarks.** If the `a`-th and the `b`-th landmark, `a < b`, are the same data point, then no stored
cocycle, of any dimension, has the vertex `a`: whatever ripser computed on the simplices at the landmark `a` is lost. -/
theorem C102_copies_lost (idxPerm : List ℕ) (N a b : ℕ) (hab : a < b) (hb : b < idxPerm.length)
    (heq : idxPerm[a]'(hab.trans hb) = idxPerm[b]) (cocycles out : List (List (List ZRow)))
    (h : reindexCocycles cocycles idxPerm N = .ok out) : ∀ ck ∈ out, ∀ c ∈ ck, ∀ r ∈ c, (a : ℤ) ∉ r.verts := by
  simp only [reindexCocycles, bind, Except.bind] at h
  split at h
  · cases h
  · next m hm =>
    intro ck hck c hc r hr ha
    obtain ⟨ck0, -, h1⟩ := mapM_mem h hck
    obtain ⟨c0, -, h2⟩ := mapM_mem h1 hc
    obtain ⟨r0, -, h3⟩ := mapM_mem h2 hr
    simp only [reindexRow, bind, Except.bind] at h3
    split at h3
    · cases h3
    · next vs hvs =>
      simp only [pure, Except.pure, Except.ok.injEq] at h3
      subst h3
      obtain ⟨v, -, h4⟩ := mapM_mem hvs ha
      exact idxMap_copies hm hab hb heq (pyGet_mem h4)

/-! ### the consequence for circular coordinates -/

theorem fold_avoids {n N D a : ℕ} (hn : n ≤ N) (hD : 1 ≤ D) (c : SparseCochain) (hvalid : ∀ r ∈ c, r.Valid n 1)
    (ha : ∀ r ∈ c, a ∉ r.verts) (vec out : List ℤ) (hvec : vec.length = Nat.choose n 2)
    (h : c.foldlM (storeRow (cnsTable N D)) vec = .ok out) {l m : ℕ} (hlm : l < m) (hm : m < n) (hlma : l = a ∨ m = a) :
    out[cnsForward [l, m] (cnsTable N D)]? = vec[cnsForward [l, m] (cnsTable N D)]? := by
  induction c generalizing vec with
  | nil =>
    simp only [List.foldlM_nil, pure, Except.pure, Except.ok.injEq] at h
    rw [h]
  | cons r c ih =>
    obtain ⟨f, hr, hf, hfn⟩ := (hvalid r (by simp)).exists_ofFn
    obtain ⟨τ, hτ⟩ := exists_sorting f hf
    rw [List.foldlM_cons, storeRow_ofFn hn hD hr hf hfn hτ vec hvec] at h
    rw [ih (fun r hr => hvalid r (by simp [hr])) (fun r hr => ha r (by simp [hr])) _ (by simpa using hvec) h,
      List.getElem?_set_ne]
    intro heq
    have hs : IsSimplex n 1 [l, m] := by
      refine ⟨rfl, by simpa using hlm, ?_⟩
      intro v hv
      simp only [List.mem_cons, List.not_mem_nil, or_false] at hv
      rcases hv with rfl | rfl <;> omega
    have := (C01_simplex_index_bijective N D n 1 hn hD).injOn (isSimplex_of_sorting hfn hτ) hs heq
    have hp : r.verts.Perm [l, m] := by rw [hr, ← this]; exact (ofFn_comp_perm f τ).symm
    refine ha r (by simp) (hp.mem_iff.2 ?_)
    simp only [List.mem_cons, List.not_mem_nil, or_false]
    rcases hlma with h | h <;> simp [h]

theorem dense_avoids {n N D a : ℕ} (hn : n ≤ N) (hD : 2 ≤ D) (c : SparseCochain) (hvalid : ∀ r ∈ c, r.Valid n 1)
    (ha : ∀ r ∈ c, a ∉ r.verts) (v : List ℤ) (h : sparseCocycleToVector 1 c (cnsTable N D) n = .ok v) {m : ℕ}
    (han : a < n) (hm : m < n) : edgeVal (fun e => v.getD e 0) a m = 0 := by
  unfold sparseCocycleToVector at h
  have hT : numberOfSimplices 1 n (cnsTable N D) = Nat.choose n 2 := table_read hn (by omega)
  rw [hT] at h
  have key : ∀ l m, l < m → m < n → l = a ∨ m = a → v.getD (edgeIdx l m) 0 = 0 := by
    intro l m hlm hm hlma
    have := fold_avoids hn (by omega) c hvalid ha _ v (by simp) h hlm hm hlma
    rw [(C02_edge_and_triangle_index N D l m 0 (by omega) (by omega) (by omega) hD).1] at this
    rw [List.getD_eq_getElem?_getD, this, List.getElem?_replicate]
    split <;> rfl
  unfold edgeVal
  split
  · next h => exact key _ _ h hm (Or.inl rfl)
  · split
    · next h => simp only; rw [key _ _ h han (Or.inr rfl)]; rfl
    · rfl

/-- **C102 fails with repeated landmarks.** If the landmarks `a < b` are the same data point, the rows of the stored class (which do
not contain `a`, by `C102_copies_lost`) are edges, and the stored class is a cocycle modulo `p` on the Rips complex at the threshold
`t`, then it vanishes modulo `p` on every edge of that complex at `b`, and vanishes on every edge at `a`: a class that is not trivial
around this data point is not stored. -/
theorem C102_class_lost (p : ℤ) (n N D a b : ℕ) (hn : n ≤ N) (hD : 2 ≤ D) (hab : a < b) (hb : b < n)
    (dll : ℕ → ℕ → ℝ) (t : ℝ) (hsymm : ∀ l < n, ∀ m < n, dll l m = dll m l) (h0 : dll a b < t)
    (hcopy : ∀ m < n, dll a m = dll b m) (c : SparseCochain) (hvalid : ∀ r ∈ c, r.Valid n 1) (ha : ∀ r ∈ c, a ∉ r.verts)
    (v : List ℤ) (h : sparseCocycleToVector 1 c (cnsTable N D) n = .ok v)
    (hc : IsCocycle1Mod p n dll t fun e => v.getD e 0) :
    (∀ m < n, edgeVal (fun e => v.getD e 0) a m = 0) ∧
      ∀ m < n, m ≠ b → dll b m < t → p ∣ edgeVal (fun e => v.getD e 0) b m := by
  have hz : ∀ m < n, edgeVal (fun e => v.getD e 0) a m = 0 := fun m hm => dense_avoids hn hD c hvalid ha v h (by omega) hm
  refine ⟨hz, ?_⟩
  intro m hm hne hbm
  have ham : dll a m < t := by rw [hcopy m hm]; exact hbm
  have hab0 := hz b hb
  have ham0 := hz m hm
  rcases lt_trichotomy m a with h1 | h1 | h1
  · have := hc m a b ⟨⟨h1, by omega, by rw [hsymm m hm a (by omega)]; exact ham⟩, ⟨hab, hb, h0⟩,
      ⟨by omega, hb, by rw [hsymm m hm b hb]; exact hbm⟩⟩
    unfold edgeVal at ham0 hab0 ⊢
    rw [if_neg (by omega), if_pos h1] at ham0
    rw [if_pos hab] at hab0
    rw [if_neg (by omega), if_pos (by omega)]
    simp only at this ham0 hab0 ⊢
    rwa [hab0, neg_eq_zero.1 ham0, zero_add, zero_sub] at this
  · subst h1
    rw [edgeVal_antisymm, hab0, neg_zero]; exact dvd_zero _
  · rcases lt_or_gt_of_ne hne with h2 | h2
    · have := hc a m b ⟨⟨h1, hm, ham⟩, ⟨h2, hb, by rw [hsymm m hm b hb]; exact hbm⟩, ⟨hab, hb, h0⟩⟩
      unfold edgeVal at ham0 hab0 ⊢
      rw [if_pos h1] at ham0
      rw [if_pos hab] at hab0
      rw [if_neg (by omega), if_pos h2]
      simp only at this ham0 hab0 ⊢
      rw [hab0, ham0, zero_add, sub_zero] at this
      exact this.neg_right
    · have := hc a b m ⟨⟨hab, hb, h0⟩, ⟨h2, hm, hbm⟩, ⟨h1, hm, ham⟩⟩
      unfold edgeVal at ham0 hab0 ⊢
      rw [if_pos h1] at ham0
      rw [if_pos hab] at hab0
      rw [if_pos h2]
      simp only at this ham0 hab0 ⊢
      rwa [hab0, ham0, zero_add, sub_zero] at this

end Dreimac
