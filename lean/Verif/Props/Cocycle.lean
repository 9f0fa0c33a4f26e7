import Mathlib.Algebra.Order.Round
import Mathlib.Data.Rat.Floor
import Mathlib.Tactic.Linarith
import Mathlib.Tactic.FieldSimp
import Verif.Props.Coboundary
import Verif.Lemmas.Cocycle
import Verif.Lemmas.Repair

/-!
# C17–C23: cocycle checks and the repair of lifted cocycles
-/

namespace Dreimac

/-- The dense 1-cochain `c` (indexed by `edgeIdx`) has vanishing coboundary on every triangle of the Rips complex. -/
def IsCocycle1 {K : Type} [LT K] (n : ℕ) (dist : ℕ → ℕ → K) (t : K) (c : ℕ → ℤ) : Prop :=
  ∀ i j k, RipsTriangle n dist t i j k → c (edgeIdx i j) + c (edgeIdx j k) - c (edgeIdx i k) = 0

/-- The same modulo `p`. -/
def IsCocycle1Mod {K : Type} [LT K] (p : ℤ) (n : ℕ) (dist : ℕ → ℕ → K) (t : K) (c : ℕ → ℤ) : Prop :=
  ∀ i j k, RipsTriangle n dist t i j k → p ∣ c (edgeIdx i j) + c (edgeIdx j k) - c (edgeIdx i k)

/-- The dense 2-cochain `c` (indexed by `triIdx`) has vanishing coboundary on every tetrahedron. -/
def IsCocycle2 {K : Type} [LT K] (n : ℕ) (dist : ℕ → ℕ → K) (t : K) (c : ℕ → ℤ) : Prop :=
  ∀ i j k l, RipsTetra n dist t i j k l →
    c (triIdx i j k) - c (triIdx i j l) + c (triIdx i k l) - c (triIdx j k l) = 0

/-- The same modulo `p`. -/
def IsCocycle2Mod {K : Type} [LT K] (p : ℤ) (n : ℕ) (dist : ℕ → ℕ → K) (t : K) (c : ℕ → ℤ) : Prop :=
  ∀ i j k l, RipsTetra n dist t i j k l →
    p ∣ c (triIdx i j k) - c (triIdx i j l) + c (triIdx i k l) - c (triIdx j k l)

section
variable {K : Type} [LinearOrder K]

theorem viol1_iff {n N D : ℕ} (hn : n ≤ N) (hD : 1 ≤ D) {dist : ℕ → ℕ → K} {t : K} (c : ℕ → ℤ) {i j k : ℕ}
    (h : RipsTriangle n dist t i j k) : viol1 c (cnsTable N D) (i, j, k) ↔
      c (edgeIdx i j) + c (edgeIdx j k) - c (edgeIdx i k) ≠ 0 := by
  obtain ⟨⟨h1, h2, _⟩, ⟨h3, h4, _⟩, ⟨h5, h6, _⟩⟩ := h
  unfold viol1
  simp only
  rw [cnsD1_edgeIdx (by omega) (by omega) hD, cnsD1_edgeIdx (by omega) (by omega) hD,
    cnsD1_edgeIdx (by omega) (by omega) hD]

/-- **C17.** `_is_one_cocycle` answers `True` iff the cocycle condition holds on every Rips triangle. -/
theorem C17_one_cocycle_check (n N D : ℕ) (hn : n ≤ N) (hD : 1 ≤ D) (dist : ℕ → ℕ → K) (t : K) (c : ℕ → ℤ) :
    (isOneCocycle c n dist t (cnsTable N D)).1 = true ↔ IsCocycle1 n dist t c := by
  rw [isOneCocycle_eq, foldl_check]
  simp only [Bool.true_and, decide_eq_true_eq]
  constructor
  · intro h i j k hijk
    have := h (i, j, k) (mem_ripsTris.2 hijk)
    rw [viol1_iff hn hD c hijk] at this
    simpa using this
  · rintro h ⟨i, j, k⟩ he
    rw [mem_ripsTris] at he
    rw [viol1_iff hn hD c he]
    simpa using h i j k he

/-- **C17.** The second value is the shortest side occurring in a violating triangle (`inf` if there is none). -/
theorem C17_first_failure (n N D : ℕ) (hn : n ≤ N) (hD : 1 ≤ D) (dist : ℕ → ℕ → K) (t : K) (c : ℕ → ℤ) :
    (IsCocycle1 n dist t c → (isOneCocycle c n dist t (cnsTable N D)).2 = ⊤) ∧
    (¬ IsCocycle1 n dist t c → ∃ m : K, (isOneCocycle c n dist t (cnsTable N D)).2 = (m : WithTop K) ∧
      IsLeast {x | ∃ i j k, RipsTriangle n dist t i j k ∧
        c (edgeIdx i j) + c (edgeIdx j k) - c (edgeIdx i k) ≠ 0 ∧ (x = dist i j ∨ x = dist j k ∨ x = dist i k)} m) := by
  have hl := foldl_min dist (viol1 c (cnsTable N D)) (ripsTris n dist t) ⊤
  have hmem : ∀ x : WithTop K, (∃ e ∈ ripsTris n dist t, viol1 c (cnsTable N D) e ∧
      (x = (dist e.1 e.2.1 : WithTop K) ∨ x = (dist e.2.1 e.2.2 : WithTop K) ∨
        x = (dist e.1 e.2.2 : WithTop K))) ↔ ∃ y : K, x = y ∧ ∃ i j k, RipsTriangle n dist t i j k ∧
        c (edgeIdx i j) + c (edgeIdx j k) - c (edgeIdx i k) ≠ 0 ∧ (y = dist i j ∨ y = dist j k ∨ y = dist i k) := by
    intro x
    constructor
    · rintro ⟨⟨i, j, k⟩, he, hv, hx⟩
      rw [mem_ripsTris] at he
      rw [viol1_iff hn hD c he] at hv
      rcases hx with hx | hx | hx
      · exact ⟨_, hx, i, j, k, he, hv, Or.inl rfl⟩
      · exact ⟨_, hx, i, j, k, he, hv, Or.inr (Or.inl rfl)⟩
      · exact ⟨_, hx, i, j, k, he, hv, Or.inr (Or.inr rfl)⟩
    · rintro ⟨y, rfl, i, j, k, he, hv, hx⟩
      refine ⟨(i, j, k), mem_ripsTris.2 he, (viol1_iff hn hD c he).2 hv, ?_⟩
      rcases hx with rfl | rfl | rfl
      · exact Or.inl rfl
      · exact Or.inr (Or.inl rfl)
      · exact Or.inr (Or.inr rfl)
  rw [isOneCocycle_eq, foldl_check]
  set r := (ripsTris n dist t).foldl _ _ with hr
  obtain ⟨h1, h2⟩ := hl
  constructor
  · intro hc
    rcases h1 with h1 | h1
    · exact h1
    · obtain ⟨y, _, i, j, k, he, hv, _⟩ := (hmem _).1 h1
      exact absurd (hc i j k he) hv
  · intro hc
    unfold IsCocycle1 at hc
    push Not at hc
    obtain ⟨i, j, k, he, hv⟩ := hc
    have hle : r ≤ (dist i j : WithTop K) := h2 (Or.inr ((hmem _).2 ⟨_, rfl, i, j, k, he, hv, Or.inl rfl⟩))
    have hne : r ≠ ⊤ := fun h => by rw [h, top_le_iff] at hle; exact WithTop.coe_ne_top hle
    rcases h1 with h1 | h1
    · exact absurd h1 hne
    · obtain ⟨y, hy, hset⟩ := (hmem _).1 h1
      refine ⟨y, hy, hset, ?_⟩
      intro z hz
      have := h2 (Or.inr ((hmem z).2 ⟨z, rfl, hz⟩))
      rw [hy] at this
      exact WithTop.coe_le_coe.1 this

/-- **C18.** `_is_two_cocycle` answers `True` iff the alternating sum over the faces of every Rips tetrahedron
vanishes. -/
theorem C18_two_cocycle_check (n N D : ℕ) (hn : n ≤ N) (hD : 2 ≤ D) (dist : ℕ → ℕ → K) (t : K) (c : ℕ → ℤ) :
    isTwoCocycle c n dist t (cnsTable N D) = true ↔ IsCocycle2 n dist t c := by
  rw [isTwoCocycle_eq, foldl_flag]
  simp only [Bool.true_and, decide_eq_true_eq]
  have key : ∀ i j k l, RipsTetra n dist t i j k l →
      (c (cnsD2 i j k (cnsTable N D)) - c (cnsD2 i j l (cnsTable N D)) + c (cnsD2 i k l (cnsTable N D))
        - c (cnsD2 j k l (cnsTable N D)) =
      c (triIdx i j k) - c (triIdx i j l) + c (triIdx i k l) - c (triIdx j k l)) := by
    intro i j k l h
    obtain ⟨⟨⟨h1, h2, _⟩, ⟨h3, h4, _⟩, ⟨h5, h6, _⟩⟩, _, _, ⟨h7, h8, _⟩⟩ := h
    rw [cnsD2_triIdx (by omega) (by omega) (by omega) hD, cnsD2_triIdx (by omega) (by omega) (by omega) hD,
      cnsD2_triIdx (by omega) (by omega) (by omega) hD, cnsD2_triIdx (by omega) (by omega) (by omega) hD]
  constructor
  · intro h i j k l hijkl
    have := h (i, j, k, l) (mem_ripsTets.2 hijkl)
    simp only at this
    rw [key i j k l hijkl] at this
    simpa using this
  · rintro h ⟨i, j, k, l⟩ he
    rw [mem_ripsTets] at he
    simp only
    rw [key i j k l he]
    simpa using h i j k l he

/-- Non-vacuity: a triangle with a failing cochain. -/
example : ¬ IsCocycle1 3 (fun _ _ => (1 : ℕ)) 2 (fun e => if e = 0 then 1 else 0) := by
  intro h
  have := h 0 1 2 ⟨⟨by decide, by decide, by decide⟩, ⟨by decide, by decide, by decide⟩,
    ⟨by decide, by decide, by decide⟩⟩
  revert this; decide

end

end Dreimac
