import Mathlib.GroupTheory.Perm.Cycle.Factors
import Mathlib.Data.Fintype.Card
import Verif.Model.Cochain

namespace Dreimac

open Equiv

variable {n : ℕ}

/-- The list of booleans recording membership in `S`. -/
def seenOf (S : Finset (Fin n)) : List Bool := List.ofFn fun i => decide (i ∈ S)

/-- The one-line notation of a permutation. -/
def permList (σ : Perm (Fin n)) : List ℕ := List.ofFn fun i => (σ i : ℕ)

theorem seenOf_get (S : Finset (Fin n)) (i : Fin n) : (seenOf S)[(i : ℕ)]? = some (decide (i ∈ S)) := by
  simp [seenOf]

theorem permList_get (σ : Perm (Fin n)) (i : Fin n) : (permList σ)[(i : ℕ)]? = some (σ i : ℕ) := by
  simp [permList]

theorem seenOf_insert (S : Finset (Fin n)) (i : Fin n) :
    (seenOf S).set (i : ℕ) true = seenOf (insert i S) := by
  apply List.ext_getElem
  · simp [seenOf]
  · intro k h1 h2
    simp only [seenOf, List.getElem_set, List.getElem_ofFn, Finset.mem_insert]
    have hk : k < n := by simpa [seenOf] using h1
    by_cases h : (i : ℕ) = k
    · subst h; simp
    · have : (⟨k, hk⟩ : Fin n) ≠ i := by
        intro h'; apply h; rw [← h']
      simp [h, this]

/-- What the walk does: it adds a forward-closed set inside the orbit of the starting point. -/
theorem parityWalk_spec (σ : Perm (Fin n)) (S : Finset (Fin n)) (cur : Fin n) :
    ∃ R : Finset (Fin n), parityWalk (permList σ) (seenOf S) cur = .ok (seenOf R) ∧ S ⊆ R ∧ cur ∈ R ∧
      (∀ x ∈ R, x ∈ S ∨ σ.SameCycle cur x) ∧ (∀ x ∈ R, x ∉ S → σ x ∈ R) := by
  induction hm : (Finset.univ \ S).card using Nat.strong_induction_on generalizing S cur with
  | _ m ih =>
  by_cases h : cur ∈ S
  · refine ⟨S, ?_, Finset.Subset.refl _, h, fun x hx => Or.inl hx, fun x hx hx' => absurd hx hx'⟩
    unfold parityWalk
    split
    · next h1 => rw [seenOf_get] at h1; simp at h1
    · rfl
    · next h1 => rw [seenOf_get] at h1; simp [h] at h1
  · have hlt : (Finset.univ \ insert cur S).card < m := by
      rw [← hm]
      apply Finset.card_lt_card
      rw [Finset.ssubset_iff_of_subset (Finset.sdiff_subset_sdiff (le_refl _) (Finset.subset_insert _ _))]
      exact ⟨cur, by simp [h], by simp⟩
    obtain ⟨R, h1, h2, h3, h4, h5⟩ := ih _ hlt (insert cur S) (σ cur) rfl
    refine ⟨R, ?_, (Finset.subset_insert _ _).trans h2, h2 (Finset.mem_insert_self _ _), ?_, ?_⟩
    · unfold parityWalk
      split
      · next h1 => rw [seenOf_get] at h1; simp at h1
      · next h1 => rw [seenOf_get] at h1; simp [h] at h1
      · rw [permList_get]; simp only; rw [seenOf_insert]; exact h1
    · intro x hx
      rcases h4 x hx with h | h
      · rcases Finset.mem_insert.1 h with rfl | h
        · exact Or.inr (Perm.SameCycle.refl _ _)
        · exact Or.inl h
      · right; exact (Perm.sameCycle_apply_left).1 h
    · intro x hx hxS
      by_cases hxc : x = cur
      · rw [hxc]; exact h3
      · exact h5 x hx (by simp [hxc, hxS])

theorem closed_of_maps {σ : Perm (Fin n)} {R : Finset (Fin n)} (h : ∀ x ∈ R, σ x ∈ R) (x : Fin n) :
    σ x ∈ R ↔ x ∈ R := by
  refine ⟨fun hx => ?_, h x⟩
  have hsub : R.image σ ⊆ R := by
    intro y hy
    obtain ⟨z, hz, rfl⟩ := Finset.mem_image.1 hy
    exact h z hz
  have heq : R.image σ = R :=
    Finset.eq_of_subset_of_card_le hsub (by rw [Finset.card_image_of_injective _ σ.injective])
  rw [← heq] at hx
  obtain ⟨z, hz, hz'⟩ := Finset.mem_image.1 hx
  rwa [← σ.injective hz']

theorem mem_of_sameCycle {σ : Perm (Fin n)} {R : Finset (Fin n)} (h : ∀ x, σ x ∈ R ↔ x ∈ R) {a x : Fin n}
    (ha : a ∈ R) (hx : σ.SameCycle a x) : x ∈ R := by
  obtain ⟨i, hi⟩ := hx.exists_pow_eq'
  obtain ⟨_, rfl⟩ := hi
  have : ∀ k : ℕ, (σ ^ k) a ∈ R := by
    intro k
    induction k with
    | zero => simpa
    | succ k ih => rw [pow_succ', Perm.mul_apply]; exact (h _).2 ih
  exact this i

/-- Loop invariant of the outer loop: `S` is a union of cycles and `c` cycles have been counted. -/
def ParityInv (σ : Perm (Fin n)) (S : Finset (Fin n)) (c : ℕ) : Prop :=
  (∀ x, σ x ∈ S ↔ x ∈ S) ∧ ∃ τ : Perm (Fin n), (∀ x ∈ S, τ x = σ x) ∧ (∀ x ∉ S, τ x = x) ∧
    Perm.sign τ * (-1) ^ c = (-1) ^ S.card

theorem parityInv_step {σ : Perm (Fin n)} {S : Finset (Fin n)} {c : ℕ} (hinv : ParityInv σ S c) {a : Fin n}
    (ha : a ∉ S) : ∃ R, parityWalk (permList σ) (seenOf S) a = .ok (seenOf R) ∧ S ⊆ R ∧ a ∈ R ∧
      ParityInv σ R (c + 1) := by
  obtain ⟨hcl, τ, hτ1, hτ2, hsign⟩ := hinv
  obtain ⟨R, h1, h2, h3, h4, h5⟩ := parityWalk_spec σ S a
  have hclR : ∀ x, σ x ∈ R ↔ x ∈ R := by
    apply closed_of_maps
    intro x hx
    by_cases hxS : x ∈ S
    · exact h2 ((hcl x).2 hxS)
    · exact h5 x hx hxS
  have hR : ∀ x, x ∈ R ↔ x ∈ S ∨ σ.SameCycle a x := fun x =>
    ⟨h4 x, fun h => h.elim (fun h => h2 h) (fun h => mem_of_sameCycle hclR h3 h)⟩
  have hdisj : ∀ x ∈ S, ¬ σ.SameCycle a x := fun x hx h => ha (mem_of_sameCycle hcl hx h.symm)
  refine ⟨R, h1, h2, h3, hclR, τ * σ.cycleOf a, ?_, ?_, ?_⟩
  · intro x hx
    rw [Perm.mul_apply]
    by_cases hsc : σ.SameCycle a x
    · rw [hsc.cycleOf_apply]
      apply hτ2
      intro h
      exact hdisj _ h (Perm.sameCycle_apply_right.2 hsc)
    · rw [Perm.cycleOf_apply_of_not_sameCycle hsc]
      exact hτ1 x (((hR x).1 hx).resolve_right hsc)
  · intro x hx
    rw [hR] at hx
    push Not at hx
    rw [Perm.mul_apply, Perm.cycleOf_apply_of_not_sameCycle hx.2]
    exact hτ2 x hx.1
  · set O : Finset (Fin n) := R \ S with hO
    have hcard : R.card = S.card + O.card := by
      rw [hO, Finset.card_sdiff_of_subset h2]; have := Finset.card_le_card h2; omega
    have hOmem : ∀ x, x ∈ O ↔ σ.SameCycle a x := by
      intro x
      rw [hO, Finset.mem_sdiff, hR]
      constructor
      · rintro ⟨h | h, h'⟩
        · exact absurd h h'
        · exact h
      · intro h; exact ⟨Or.inr h, fun h' => hdisj x h' h⟩
    have hs2 : Perm.sign (σ.cycleOf a) * (-1) = (-1) ^ O.card := by
      by_cases hfix : σ a = a
      · have hO1 : O = {a} := by
          ext x
          rw [hOmem, Finset.mem_singleton]
          constructor
          · intro h
            exact (Perm.SameCycle.eq_of_left h hfix).symm
          · rintro rfl; exact Perm.SameCycle.refl _ _
        rw [hO1, (Perm.cycleOf_eq_one_iff σ).2 hfix]; simp
      · have hO1 : O = (σ.cycleOf a).support := by
          ext x
          rw [hOmem, Perm.mem_support_cycleOf_iff]
          constructor
          · intro h; exact ⟨h, by rw [Perm.mem_support]; exact hfix⟩
          · intro h; exact h.1
        rw [(Perm.isCycle_cycleOf σ hfix).sign, hO1]; simp
    rw [Perm.sign_mul, hcard, pow_succ, pow_add, ← hsign, ← hs2]
    simp only [mul_comm, mul_left_comm, mul_assoc]

theorem parityLoop_spec (σ : Perm (Fin n)) (k : ℕ) (S : Finset (Fin n)) (c : ℕ) (hk : k ≤ n)
    (hinv : ParityInv σ S c) (hdone : ∀ i : Fin n, (i : ℕ) < n - k → i ∈ S) :
    ∃ c', parityLoop (permList σ) (List.range' (n - k) k) (seenOf S) c = .ok c' ∧
      ParityInv σ Finset.univ c' := by
  induction k generalizing S c with
  | zero =>
    refine ⟨c, by simp [parityLoop], ?_⟩
    have : S = Finset.univ := by
      ext i; simp only [Finset.mem_univ, iff_true]; exact hdone i (by simp)
    rwa [← this]
  | succ k ih =>
    have hlt : n - (k + 1) < n := by omega
    rw [List.range'_succ, show n - (k + 1) + 1 = n - k by omega]
    unfold parityLoop
    rw [seenOf_get S ⟨n - (k + 1), hlt⟩]
    by_cases hmem : (⟨n - (k + 1), hlt⟩ : Fin n) ∈ S
    · simp only [hmem, decide_true]
      apply ih S c (by omega) hinv
      intro i hi
      by_cases h : (i : ℕ) = n - (k + 1)
      · have : i = ⟨n - (k + 1), hlt⟩ := Fin.ext h
        rw [this]; exact hmem
      · exact hdone i (by omega)
    · simp only [hmem, decide_false]
      obtain ⟨R, h1, h2, h3, h4⟩ := parityInv_step hinv hmem
      obtain ⟨c', h5, h6⟩ := ih R (c + 1) (by omega) h4 (by
        intro i hi
        by_cases h : (i : ℕ) = n - (k + 1)
        · have : i = ⟨n - (k + 1), hlt⟩ := Fin.ext h
          rw [this]; exact h3
        · exact h2 (hdone i (by omega)))
      refine ⟨c', ?_, h6⟩
      simp only at h1
      rw [h1]
      exact h5

theorem parity_eq_sign (σ : Perm (Fin n)) : parity (permList σ) = .ok (Perm.sign σ : ℤ) := by
  have hinit : ParityInv σ (∅ : Finset (Fin n)) 0 := by
    refine ⟨by simp, 1, by simp, by simp, by simp⟩
  obtain ⟨c, h1, h2⟩ := parityLoop_spec σ n ∅ 0 le_rfl hinit (by intro i hi; omega)
  have hlen : (permList σ).length = n := by simp [permList]
  have hrep : List.replicate n false = seenOf (∅ : Finset (Fin n)) := by
    apply List.ext_getElem <;> simp [seenOf]
  unfold parity
  rw [hlen, hrep, List.range_eq_range']
  rw [Nat.sub_self] at h1
  rw [h1]
  obtain ⟨_, τ, hτ1, _, hsign⟩ := h2
  have hτ : τ = σ := by ext x; rw [hτ1 x (Finset.mem_univ _)]
  subst hτ
  have hs : Perm.sign τ = (-1) ^ (n + c) := by
    rw [Finset.card_univ, Fintype.card_fin] at hsign
    rw [pow_add, ← hsign, mul_assoc, ← pow_add, ← two_mul, pow_mul]; simp
  rw [hs]
  simp only [bind, Except.bind, pure, Except.pure]
  congr 1
  rcases Nat.even_or_odd (n + c) with he | ho
  · rw [he.neg_one_pow]
    obtain ⟨m, hm⟩ := he
    rw [if_pos (by omega)]; simp
  · rw [ho.neg_one_pow]
    obtain ⟨m, hm⟩ := ho
    rw [if_neg (by omega)]; simp

end Dreimac
