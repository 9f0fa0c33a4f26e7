import Mathlib.Data.List.Range
import Mathlib.Data.List.Nodup
import Mathlib.Tactic.Linarith
import Verif.Lemmas.Combinatorial
import Verif.Model.Coboundary
import Verif.Spec.Rips

/-! # Nested loops as folds over lists of simplices -/

namespace Dreimac

theorem mem_pyRange {a b x : ℕ} : x ∈ pyRange a b ↔ a ≤ x ∧ x < b := by
  unfold pyRange; rw [List.mem_range'_1]; omega

theorem nodup_pyRange (a b : ℕ) : (pyRange a b).Nodup := List.nodup_range'

section foldlM
variable {α β γ : Type}

theorem foldlM_flatMap (f : β → γ → Except PyErr β) (g : α → List γ) (l : List α) (b : β) :
    (l.flatMap g).foldlM f b = l.foldlM (fun b a => (g a).foldlM f b) b := by
  induction l generalizing b with
  | nil => rfl
  | cons a l ih =>
    rw [List.flatMap_cons, List.foldlM_append, List.foldlM_cons]
    congr 1
    funext b'; exact ih b'

theorem foldlM_ite (f : β → γ → Except PyErr β) (c : Prop) [Decidable c] (l : List γ) (b : β) :
    (if c then l else []).foldlM f b = if c then l.foldlM f b else pure b := by
  split <;> rfl

theorem foldlM_single (f : β → γ → Except PyErr β) (x : γ) (b : β) : [x].foldlM f b = f b x := by
  rw [List.foldlM_cons]
  show (f b x >>= pure) = _
  rw [bind_pure]

end foldlM

section lists
variable {K : Type} [LT K] [DecidableLT K]

/-- The edges in loop order. -/
def ripsEdges (n : ℕ) (dist : ℕ → ℕ → K) (t : K) : List (ℕ × ℕ) :=
  (pyRange 0 n).flatMap fun i => (pyRange (i + 1) n).flatMap fun j => if dist i j < t then [(i, j)] else []

/-- The triangles in loop order. -/
def ripsTris (n : ℕ) (dist : ℕ → ℕ → K) (t : K) : List (ℕ × ℕ × ℕ) :=
  (pyRange 0 n).flatMap fun i => (pyRange (i + 1) n).flatMap fun j =>
    if dist i j < t then
      (pyRange (j + 1) n).flatMap fun k => if dist i k < t ∧ dist j k < t then [(i, j, k)] else []
    else []

/-- The tetrahedra in loop order. -/
def ripsTets (n : ℕ) (dist : ℕ → ℕ → K) (t : K) : List (ℕ × ℕ × ℕ × ℕ) :=
  (pyRange 0 n).flatMap fun i => (pyRange (i + 1) n).flatMap fun j =>
    if dist i j < t then
      (pyRange (j + 1) n).flatMap fun k =>
        if dist i k < t ∧ dist j k < t then
          (pyRange (k + 1) n).flatMap fun l =>
            if dist i l < t ∧ dist j l < t ∧ dist k l < t then [(i, j, k, l)] else []
        else []
    else []

theorem mem_ripsEdges {n : ℕ} {dist : ℕ → ℕ → K} {t : K} {i j : ℕ} :
    (i, j) ∈ ripsEdges n dist t ↔ RipsEdge n dist t i j := by
  simp only [ripsEdges, List.mem_flatMap, mem_pyRange, RipsEdge]
  constructor
  · rintro ⟨a, ha, b, hb, h⟩
    split at h
    · simp only [List.mem_singleton, Prod.mk.injEq] at h
      obtain ⟨rfl, rfl⟩ := h
      exact ⟨by omega, by omega, by assumption⟩
    · simp at h
  · rintro ⟨h1, h2, h3⟩
    exact ⟨i, by omega, j, by omega, by simp [h3]⟩

theorem mem_ripsTris {n : ℕ} {dist : ℕ → ℕ → K} {t : K} {i j k : ℕ} :
    (i, j, k) ∈ ripsTris n dist t ↔ RipsTriangle n dist t i j k := by
  simp only [ripsTris, List.mem_flatMap, mem_pyRange, RipsTriangle, RipsEdge]
  constructor
  · rintro ⟨a, ha, b, hb, h⟩
    split at h
    · rw [List.mem_flatMap] at h
      obtain ⟨c, hc, h⟩ := h
      rw [mem_pyRange] at hc
      split at h
      · next h1 h2 =>
        simp only [List.mem_singleton, Prod.mk.injEq] at h
        obtain ⟨rfl, rfl, rfl⟩ := h
        exact ⟨⟨by omega, by omega, h1⟩, ⟨by omega, by omega, h2.2⟩, ⟨by omega, by omega, h2.1⟩⟩
      · simp at h
    · simp at h
  · rintro ⟨⟨h1, h2, h3⟩, ⟨h4, h5, h6⟩, ⟨h7, h8, h9⟩⟩
    refine ⟨i, by omega, j, by omega, ?_⟩
    rw [if_pos h3, List.mem_flatMap]
    exact ⟨k, by rw [mem_pyRange]; omega, by simp [h6, h9]⟩

theorem mem_ripsTets {n : ℕ} {dist : ℕ → ℕ → K} {t : K} {i j k l : ℕ} :
    (i, j, k, l) ∈ ripsTets n dist t ↔ RipsTetra n dist t i j k l := by
  simp only [ripsTets, List.mem_flatMap, mem_pyRange, RipsTetra, RipsTriangle, RipsEdge]
  constructor
  · rintro ⟨a, ha, b, hb, h⟩
    split at h
    · rw [List.mem_flatMap] at h
      obtain ⟨c, hc, h⟩ := h
      rw [mem_pyRange] at hc
      split at h
      · rw [List.mem_flatMap] at h
        obtain ⟨d, hd, h⟩ := h
        rw [mem_pyRange] at hd
        split at h
        · next h1 h2 h3 =>
          simp only [List.mem_singleton, Prod.mk.injEq] at h
          obtain ⟨rfl, rfl, rfl, rfl⟩ := h
          refine ⟨⟨⟨?_, ?_, h1⟩, ⟨?_, ?_, h2.2⟩, ⟨?_, ?_, h2.1⟩⟩, ⟨?_, ?_, h3.1⟩, ⟨?_, ?_, h3.2.1⟩,
            ⟨?_, ?_, h3.2.2⟩⟩ <;> omega
        · simp at h
      · simp at h
    · simp at h
  · rintro ⟨⟨⟨h1, h2, h3⟩, ⟨h4, h5, h6⟩, ⟨h7, h8, h9⟩⟩, ⟨_, _, g1⟩, ⟨_, _, g2⟩, ⟨_, _, g3⟩⟩
    refine ⟨i, by omega, j, by omega, ?_⟩
    rw [if_pos h3, List.mem_flatMap]
    refine ⟨k, by rw [mem_pyRange]; omega, ?_⟩
    rw [if_pos ⟨h9, h6⟩, List.mem_flatMap]
    exact ⟨l, by rw [mem_pyRange]; omega, by simp [g1, g2, g3]⟩

theorem nodup_flatMap_of {α β : Type} {l : List α} {f : α → List β} {key : β → α} (hl : l.Nodup)
    (hf : ∀ a ∈ l, (f a).Nodup) (hkey : ∀ a ∈ l, ∀ b ∈ f a, key b = a) : (l.flatMap f).Nodup := by
  rw [List.nodup_flatMap]
  refine ⟨hf, ?_⟩
  refine List.Pairwise.imp_of_mem ?_ hl
  intro a b ha hb hab
  simp only [Function.onFun]
  intro x hx hx'
  exact hab ((hkey a ha x hx).symm.trans (hkey b hb x hx'))

theorem nodup_ripsEdges (n : ℕ) (dist : ℕ → ℕ → K) (t : K) : (ripsEdges n dist t).Nodup := by
  unfold ripsEdges
  apply nodup_flatMap_of (key := fun e => e.1) (nodup_pyRange _ _)
  · intro i _
    apply nodup_flatMap_of (key := fun e => e.2) (nodup_pyRange _ _)
    · intro j _; split <;> simp
    · intro j _ e he; split at he <;> simp at he; rw [he]
  · intro i _ e he
    rw [List.mem_flatMap] at he
    obtain ⟨j, _, he⟩ := he
    split at he <;> simp at he; rw [he]

theorem nodup_ripsTris (n : ℕ) (dist : ℕ → ℕ → K) (t : K) : (ripsTris n dist t).Nodup := by
  unfold ripsTris
  apply nodup_flatMap_of (key := fun e => e.1) (nodup_pyRange _ _)
  · intro i _
    apply nodup_flatMap_of (key := fun e => e.2.1) (nodup_pyRange _ _)
    · intro j _
      split
      · apply nodup_flatMap_of (key := fun e => e.2.2) (nodup_pyRange _ _)
        · intro k _; split <;> simp
        · intro k _ e he; split at he <;> simp at he; rw [he]
      · simp
    · intro j _ e he
      split at he
      · rw [List.mem_flatMap] at he
        obtain ⟨k, _, he⟩ := he
        split at he <;> simp at he; rw [he]
      · simp at he
  · intro i _ e he
    rw [List.mem_flatMap] at he
    obtain ⟨j, _, he⟩ := he
    split at he
    · rw [List.mem_flatMap] at he
      obtain ⟨k, _, he⟩ := he
      split at he <;> simp at he; rw [he]
    · simp at he

theorem nodup_ripsTets (n : ℕ) (dist : ℕ → ℕ → K) (t : K) : (ripsTets n dist t).Nodup := by
  unfold ripsTets
  apply nodup_flatMap_of (key := fun e => e.1) (nodup_pyRange _ _)
  · intro i _
    apply nodup_flatMap_of (key := fun e => e.2.1) (nodup_pyRange _ _)
    · intro j _
      split
      · apply nodup_flatMap_of (key := fun e => e.2.2.1) (nodup_pyRange _ _)
        · intro k _
          split
          · apply nodup_flatMap_of (key := fun e => e.2.2.2) (nodup_pyRange _ _)
            · intro l _; split <;> simp
            · intro l _ e he; split at he <;> simp at he; rw [he]
          · simp
        · intro k _ e he
          split at he
          · rw [List.mem_flatMap] at he
            obtain ⟨l, _, he⟩ := he
            split at he <;> simp at he; rw [he]
          · simp at he
      · simp
    · intro j _ e he
      split at he
      · rw [List.mem_flatMap] at he
        obtain ⟨k, _, he⟩ := he
        split at he
        · rw [List.mem_flatMap] at he
          obtain ⟨l, _, he⟩ := he
          split at he <;> simp at he; rw [he]
        · simp at he
      · simp at he
  · intro i _ e he
    rw [List.mem_flatMap] at he
    obtain ⟨j, _, he⟩ := he
    split at he
    · rw [List.mem_flatMap] at he
      obtain ⟨k, _, he⟩ := he
      split at he
      · rw [List.mem_flatMap] at he
        obtain ⟨l, _, he⟩ := he
        split at he <;> simp at he; rw [he]
      · simp at he
    · simp at he

end lists

/-! ### Index facts -/

theorem edgeIdx_eq (i j : ℕ) : edgeIdx i j = colexSum 0 [i, j] := by simp [edgeIdx, colexSum]

theorem triIdx_eq (i j k : ℕ) : triIdx i j k = colexSum 0 [i, j, k] := by
  simp [triIdx, colexSum]; omega

theorem edgeIdx_lt {n i j : ℕ} (hij : i < j) (hj : j < n) : edgeIdx i j < Nat.choose n 2 := by
  rw [edgeIdx_eq]
  exact colexSum_lt (s := [i, j]) (by simp [hij]) (by simp; omega)

theorem triIdx_lt {n i j k : ℕ} (hij : i < j) (hjk : j < k) (hk : k < n) : triIdx i j k < Nat.choose n 3 := by
  rw [triIdx_eq]
  exact colexSum_lt (s := [i, j, k]) (by simp; omega) (by simp; omega)

theorem edgeIdx_inj {i j i' j' : ℕ} (h : i < j) (h' : i' < j') (he : edgeIdx i j = edgeIdx i' j') :
    i = i' ∧ j = j' := by
  rw [edgeIdx_eq, edgeIdx_eq] at he
  have := colexSum_injective (s := [i, j]) (t := [i', j']) rfl (by simp [h]) (by simp [h']) he
  simpa using this

theorem triIdx_inj {i j k i' j' k' : ℕ} (h : i < j) (h2 : j < k) (h' : i' < j') (h2' : j' < k')
    (he : triIdx i j k = triIdx i' j' k') : i = i' ∧ j = j' ∧ k = k' := by
  rw [triIdx_eq, triIdx_eq] at he
  have := colexSum_injective (s := [i, j, k]) (t := [i', j', k']) rfl (by simp; omega) (by simp; omega) he
  simpa using this

theorem exists_edge_of_lt {n m : ℕ} (hm : m < Nat.choose n 2) : ∃ i j, i < j ∧ j < n ∧ edgeIdx i j = m := by
  obtain ⟨s, h1, h2, h3, h4⟩ := colexSum_surjective 2 n m hm
  match s, h1 with
  | [i, j], _ =>
    refine ⟨i, j, ?_, h3 j (by simp), by rw [edgeIdx_eq, h4]⟩
    simpa using h2

theorem exists_tri_of_lt {n m : ℕ} (hm : m < Nat.choose n 3) :
    ∃ i j k, i < j ∧ j < k ∧ k < n ∧ triIdx i j k = m := by
  obtain ⟨s, h1, h2, h3, h4⟩ := colexSum_surjective 3 n m hm
  match s, h1 with
  | [i, j, k], _ =>
    simp at h2
    exact ⟨i, j, k, h2.1.1, h2.2, h3 k (by simp), by rw [triIdx_eq, h4]⟩

theorem length_le_of_inj {α : Type} {l : List α} (hl : l.Nodup) (f : α → ℕ) {m : ℕ}
    (hf : ∀ a ∈ l, ∀ b ∈ l, f a = f b → a = b) (hlt : ∀ a ∈ l, f a < m) : l.length ≤ m := by
  have hnd : (l.map f).Nodup := List.Nodup.map_on hf hl
  have hsub : l.map f ⊆ List.range m := by
    intro x hx
    obtain ⟨a, ha, rfl⟩ := List.mem_map.1 hx
    exact List.mem_range.2 (hlt a ha)
  have := (List.subperm_of_subset hnd hsub).length_le
  simpa using this

theorem length_ripsEdges_le {K : Type} [LT K] [DecidableLT K] (n : ℕ) (dist : ℕ → ℕ → K) (t : K) :
    (ripsEdges n dist t).length ≤ Nat.choose n 2 := by
  apply length_le_of_inj (nodup_ripsEdges n dist t) (fun e => edgeIdx e.1 e.2)
  · rintro ⟨i, j⟩ ha ⟨i', j'⟩ hb h
    rw [mem_ripsEdges] at ha hb
    obtain ⟨h1, h2⟩ := edgeIdx_inj ha.1 hb.1 h
    rw [h1, h2]
  · rintro ⟨i, j⟩ ha
    rw [mem_ripsEdges] at ha
    exact edgeIdx_lt ha.1 ha.2.1

theorem length_ripsTris_le {K : Type} [LT K] [DecidableLT K] (n : ℕ) (dist : ℕ → ℕ → K) (t : K) :
    (ripsTris n dist t).length ≤ Nat.choose n 3 := by
  apply length_le_of_inj (nodup_ripsTris n dist t) (fun e => triIdx e.1 e.2.1 e.2.2)
  · rintro ⟨i, j, k⟩ ha ⟨i', j', k'⟩ hb h
    rw [mem_ripsTris] at ha hb
    obtain ⟨h1, h2, h3⟩ := triIdx_inj ha.1.1 ha.2.1.1 hb.1.1 hb.2.1.1 h
    rw [h1, h2, h3]
  · rintro ⟨i, j, k⟩ ha
    rw [mem_ripsTris] at ha
    exact triIdx_lt ha.1.1 ha.2.1.1 ha.2.1.2.1

theorem length_ripsTets_le {K : Type} [LT K] [DecidableLT K] (n : ℕ) (dist : ℕ → ℕ → K) (t : K) :
    (ripsTets n dist t).length ≤ Nat.choose n 4 := by
  apply length_le_of_inj (nodup_ripsTets n dist t) (fun e => colexSum 0 [e.1, e.2.1, e.2.2.1, e.2.2.2])
  · rintro ⟨i, j, k, l⟩ ha ⟨i', j', k', l'⟩ hb h
    rw [mem_ripsTets] at ha hb
    have := colexSum_injective (s := [i, j, k, l]) (t := [i', j', k', l']) rfl
      (by simp; have := ha.1.1.1; have := ha.1.2.1.1; have := ha.2.2.2.1; omega)
      (by simp; have := hb.1.1.1; have := hb.1.2.1.1; have := hb.2.2.2.1; omega) h
    simp at this
    obtain ⟨h1, h2, h3, h4⟩ := this
    rw [h1, h2, h3, h4]
  · rintro ⟨i, j, k, l⟩ ha
    rw [mem_ripsTets] at ha
    have h1 := ha.1.1.1
    have h2 := ha.1.2.1.1
    have h3 := ha.2.2.2.1
    have h4 := ha.2.2.2.2.1
    exact colexSum_lt (s := [i, j, k, l]) (by simp; omega) (by simp; omega)

end Dreimac
