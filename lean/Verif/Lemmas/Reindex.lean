import Mathlib.Data.List.Forall2
import Verif.Model.Cochain

namespace Dreimac

theorem mapM_forall₂ {α β : Type} {f : α → Except PyErr β} {R : α → β → Prop} {l : List α}
    (h : ∀ a ∈ l, ∃ b, f a = .ok b ∧ R a b) : ∃ out, l.mapM f = .ok out ∧ List.Forall₂ R l out := by
  induction l with
  | nil => exact ⟨[], rfl, List.Forall₂.nil⟩
  | cons a l ih =>
    obtain ⟨b, hb, hR⟩ := h a (by simp)
    obtain ⟨out, ho, hF⟩ := ih fun a ha => h a (by simp [ha])
    refine ⟨b :: out, ?_, List.Forall₂.cons hR hF⟩
    rw [List.mapM_cons, hb]
    simp only [bind, Except.bind, ho, pure, Except.pure]

/-- What the index map contains. -/
structure IdxMapSpec (idxLand : List ℕ) (N : ℕ) (m : List ℤ) : Prop where
  length : m.length = N
  land : ∀ i (h : i < idxLand.length), m[idxLand[i]]? = some (i : ℤ)
  other : ∀ v, v < N → v ∉ idxLand → m[v]? = some (-1)

theorem idxMap_fold (l : List ℕ) (N k : ℕ) (hnd : l.Nodup) (hlt : ∀ v ∈ l, v < N) (m : List ℤ) (hm : m.length = N) :
    ∃ m', (l.zipIdx k).foldlM (fun (m : List ℤ) (x : ℕ × ℕ) =>
        (if x.1 < m.length then .ok (m.set x.1 (x.2 : ℤ)) else .error .indexError : Except PyErr (List ℤ))) m = .ok m' ∧
      m'.length = N ∧ (∀ i (h : i < l.length), m'[l[i]]? = some ((k + i : ℕ) : ℤ)) ∧
      (∀ v, v ∉ l → m'[v]? = m[v]?) := by
  induction l generalizing k m with
  | nil => exact ⟨m, rfl, hm, by simp, by simp⟩
  | cons a l ih =>
    rw [List.nodup_cons] at hnd
    have ha : a < m.length := by rw [hm]; exact hlt a (by simp)
    obtain ⟨m', h1, h2, h3, h4⟩ := ih (k + 1) hnd.2 (fun v hv => hlt v (by simp [hv])) (m.set a (k : ℤ))
      (by simpa using hm)
    refine ⟨m', ?_, h2, ?_, ?_⟩
    · rw [List.zipIdx_cons, List.foldlM_cons]
      simp only [ha, if_true, bind, Except.bind]
      exact h1
    · intro i hi
      cases i with
      | zero =>
        simp only [List.getElem_cons_zero]
        rw [h4 a hnd.1, List.getElem?_set_self ha]; simp
      | succ i =>
        simp only [List.getElem_cons_succ]
        rw [h3 i (by simpa using hi)]
        congr 2; omega
    · intro v hv
      rw [List.mem_cons, not_or] at hv
      rw [h4 v hv.2, List.getElem?_set_ne (Ne.symm hv.1)]

theorem idxMap_spec (l : List ℕ) (N : ℕ) (hnd : l.Nodup) (hlt : ∀ v ∈ l, v < N) :
    ∃ m, idxMap l N = .ok m ∧ IdxMapSpec l N m := by
  obtain ⟨m, h1, h2, h3, h4⟩ := idxMap_fold l N 0 hnd hlt (List.replicate N (-1)) (by simp)
  refine ⟨m, h1, h2, ?_, ?_⟩
  · intro i h; rw [h3 i h]; simp
  · intro v hv hv'; rw [h4 v hv']; simp [hv]

theorem reindexRow_spec {idxLand : List ℕ} {N : ℕ} {m : List ℤ} (hm : IdxMapSpec idxLand N m) (r : ZRow)
    (hv : ∀ v ∈ r.verts, 0 ≤ v ∧ v < N) :
    ∃ r', reindexRow m r = .ok r' ∧ r'.val = r.val ∧ List.Forall₂ (fun v v' : ℤ =>
          (∀ i (h : i < idxLand.length), v = (idxLand[i] : ℤ) → v' = i) ∧
          ((∀ u ∈ idxLand, v ≠ (u : ℤ)) → v' = -1)) r.verts r'.verts := by
  have h : ∀ v ∈ r.verts, ∃ v', pyGet m v = .ok v' ∧
          (∀ i (h : i < idxLand.length), v = (idxLand[i] : ℤ) → v' = i) ∧
          ((∀ u ∈ idxLand, v ≠ (u : ℤ)) → v' = -1) := by
    intro v hvr
    obtain ⟨h0, hN⟩ := hv v hvr
    obtain ⟨u, rfl⟩ := Int.eq_ofNat_of_zero_le h0
    have hu : u < N := by omega
    have hg : pyGet m (u : ℤ) = .ok (m[u]'(by rw [hm.length]; exact hu)) := by
      unfold pyGet
      have h1 : ¬ ((u : ℤ) < 0) := by omega
      simp only [h1, if_false, h0, if_true, Int.toNat_natCast]
      rw [List.getElem?_eq_getElem (by rw [hm.length]; exact hu)]
    refine ⟨_, hg, ?_, ?_⟩
    · intro i hi hui
      have : u = idxLand[i] := by omega
      subst this
      have := hm.land i hi
      rw [List.getElem?_eq_getElem (by rw [hm.length]; exact hu)] at this
      simpa using this
    · intro hne
      have := hm.other u hu (fun h => hne u h rfl)
      rw [List.getElem?_eq_getElem (by rw [hm.length]; exact hu)] at this
      simpa using this
  obtain ⟨out, ho, hF⟩ := mapM_forall₂ h
  exact ⟨{ r with verts := out }, by simp only [reindexRow, ho, bind, Except.bind, pure, Except.pure], rfl, hF⟩

end Dreimac
