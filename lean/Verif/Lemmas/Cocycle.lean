import Mathlib.Order.Bounds.Basic
import Mathlib.Order.WithBot
import Verif.Lemmas.CoboundaryMat
import Verif.Model.Cocycle

namespace Dreimac

section foldl
variable {α β γ : Type}

theorem foldl_flatMap (f : β → γ → β) (g : α → List γ) (l : List α) (b : β) :
    (l.flatMap g).foldl f b = l.foldl (fun b a => (g a).foldl f b) b := by
  induction l generalizing b with
  | nil => rfl
  | cons a l ih => rw [List.flatMap_cons, List.foldl_append, List.foldl_cons, ih]

theorem foldl_ite' (f : β → γ → β) (c : Prop) [Decidable c] (l : List γ) (b : β) :
    (if c then l else []).foldl f b = if c then l.foldl f b else b := by
  split <;> rfl

end foldl

section
variable {K : Type} [LinearOrder K] (cochain : ℕ → ℤ) (n : ℕ) (dist : ℕ → ℕ → K) (t : K) (T : Table)

/-- The coboundary of a dense 1-cochain on a triangle, through the table. -/
def viol1 (e : ℕ × ℕ × ℕ) : Prop :=
  cochain (cnsD1 e.1 e.2.1 T) + cochain (cnsD1 e.2.1 e.2.2 T) - cochain (cnsD1 e.1 e.2.2 T) ≠ 0

instance (e : ℕ × ℕ × ℕ) : Decidable (viol1 cochain T e) := by unfold viol1; infer_instance

theorem isOneCocycle_eq :
    isOneCocycle cochain n dist t T = (ripsTris n dist t).foldl (fun (st : Bool × WithTop K) e =>
      if viol1 cochain T e then
        (false, min (min (min st.2 (dist e.1 e.2.1)) (dist e.2.1 e.2.2)) (dist e.1 e.2.2)) else st) (true, ⊤) := by
  unfold isOneCocycle ripsTris
  simp only [foldl_flatMap, foldl_ite', List.foldl_cons, List.foldl_nil, viol1]

theorem isTwoCocycle_eq :
    isTwoCocycle cochain n dist t T = (ripsTets n dist t).foldl (fun st e =>
      if cochain (cnsD2 e.1 e.2.1 e.2.2.1 T) - cochain (cnsD2 e.1 e.2.1 e.2.2.2 T)
        + cochain (cnsD2 e.1 e.2.2.1 e.2.2.2 T) - cochain (cnsD2 e.2.1 e.2.2.1 e.2.2.2 T) ≠ 0 then false
      else st) true := by
  unfold isTwoCocycle ripsTets
  simp only [foldl_flatMap, foldl_ite', List.foldl_cons, List.foldl_nil]

theorem foldl_flag {γ : Type} (P : γ → Prop) [DecidablePred P] (l : List γ) (b : Bool) :
    l.foldl (fun st e => if P e then false else st) b = (b && decide (∀ e ∈ l, ¬ P e)) := by
  induction l generalizing b with
  | nil => simp
  | cons a l ih =>
    rw [List.foldl_cons, ih]
    by_cases h : P a <;> simp [h]

theorem foldl_check (P : ℕ × ℕ × ℕ → Prop) [DecidablePred P] (l : List (ℕ × ℕ × ℕ)) (b : Bool) (m : WithTop K) :
    l.foldl (fun (st : Bool × WithTop K) e => if P e then
        (false, min (min (min st.2 (dist e.1 e.2.1)) (dist e.2.1 e.2.2)) (dist e.1 e.2.2)) else st) (b, m) =
      ((b && decide (∀ e ∈ l, ¬ P e)),
        l.foldl (fun (m : WithTop K) e => if P e then
          (min (min (min m (dist e.1 e.2.1)) (dist e.2.1 e.2.2)) (dist e.1 e.2.2)) else m) m) := by
  induction l generalizing b m with
  | nil => simp
  | cons a l ih =>
    rw [List.foldl_cons, List.foldl_cons]
    by_cases h : P a
    · rw [if_pos h, if_pos h, ih]; simp [h]
    · have hc : (∀ e ∈ a :: l, ¬ P e) ↔ ∀ e ∈ l, ¬ P e := by simp [h]
      rw [if_neg h, if_neg h, ih, decide_eq_decide.2 hc]

theorem foldl_min (P : ℕ × ℕ × ℕ → Prop) [DecidablePred P] (l : List (ℕ × ℕ × ℕ)) (m : WithTop K) :
    IsLeast ({m} ∪ {x | ∃ e ∈ l, P e ∧ (x = (dist e.1 e.2.1 : WithTop K) ∨ x = (dist e.2.1 e.2.2 : WithTop K) ∨
        x = (dist e.1 e.2.2 : WithTop K))})
      (l.foldl (fun (m : WithTop K) e => if P e then
          (min (min (min m (dist e.1 e.2.1)) (dist e.2.1 e.2.2)) (dist e.1 e.2.2)) else m) m) := by
  induction l generalizing m with
  | nil => simp
  | cons a l ih =>
    rw [List.foldl_cons]
    by_cases h : P a
    · rw [if_pos h]
      have := ih (min (min (min m (dist a.1 a.2.1)) (dist a.2.1 a.2.2)) (dist a.1 a.2.2))
      obtain ⟨h1, h2⟩ := this
      set r := l.foldl _ _ with hr
      constructor
      · rcases h1 with h1 | ⟨e, he, h1⟩
        · rw [Set.mem_singleton_iff] at h1
          rcases min_choice (min (min m (dist a.1 a.2.1 : WithTop K)) (dist a.2.1 a.2.2)) (dist a.1 a.2.2) with c | c
          · rw [c] at h1
            rcases min_choice (min m (dist a.1 a.2.1 : WithTop K)) (dist a.2.1 a.2.2) with c | c
            · rw [c] at h1
              rcases min_choice m (dist a.1 a.2.1 : WithTop K) with c | c
              · left; rw [c] at h1; exact h1
              · right; exact ⟨a, by simp, h, Or.inl (by rw [h1, c])⟩
            · right; exact ⟨a, by simp, h, Or.inr (Or.inl (by rw [h1, c]))⟩
          · right; exact ⟨a, by simp, h, Or.inr (Or.inr (by rw [h1, c]))⟩
        · right; exact ⟨e, by simp [he], h1⟩
      · have hle := h2 (Or.inl rfl)
        rw [le_min_iff, le_min_iff, le_min_iff] at hle
        rintro x (hx | ⟨e, he, hx⟩)
        · rw [hx]; exact hle.1.1.1
        · rcases List.mem_cons.1 he with rfl | he
          · rcases hx.2 with rfl | rfl | rfl
            · exact hle.1.1.2
            · exact hle.1.2
            · exact hle.2
          · exact h2 (Or.inr ⟨e, he, hx⟩)
    · rw [if_neg h]
      convert ih m using 1
      ext x
      simp only [Set.singleton_union, Set.mem_insert_iff, Set.mem_ofPred_eq, List.mem_cons]
      constructor
      · rintro (hx | ⟨e, rfl | he, hx⟩)
        · exact Or.inl hx
        · exact absurd hx.1 h
        · exact Or.inr ⟨e, he, hx⟩
      · rintro (hx | ⟨e, he, hx⟩)
        · exact Or.inl hx
        · exact Or.inr ⟨e, Or.inr he, hx⟩

end

end Dreimac
