import Mathlib.Algebra.BigOperators.Intervals
import Mathlib.Algebra.Order.BigOperators.Group.Finset
import Mathlib.Analysis.SpecialFunctions.Exp
import Verif.Model.EMCoords

namespace Dreimac

section
variable {K : Type} [Field K] [LinearOrder K]

theorem foldl_fin_add (l : List K) (a : K) : (l.map Fl.fin).foldl (· + ·) (Fl.fin a) = Fl.fin (a + l.sum) := by
  induction l generalizing a with
  | nil => simp
  | cons x l ih => rw [List.map_cons, List.foldl_cons, Fl.fin_add, ih, List.sum_cons, add_assoc]

theorem flSum_fin (n : ℕ) (f : ℕ → K) :
    flSum ((List.range n).map fun l => Fl.fin (f l)) = Fl.fin (∑ l ∈ Finset.range n, f l) := by
  unfold flSum
  rw [show (fun l => Fl.fin (f l)) = Fl.fin ∘ f from rfl, ← List.map_map, Fl.zero_def, foldl_fin_add, zero_add]
  rfl

theorem foldl_nan (l : List (Fl K)) : l.foldl (· + ·) (Fl.nan : Fl K) = Fl.nan := by
  induction l with
  | nil => rfl
  | cons a l ih => rw [List.foldl_cons, Fl.nan_add, ih]

theorem foldl_mem_nan (l : List (Fl K)) (a : Fl K) (h : Fl.nan ∈ l) : l.foldl (· + ·) a = Fl.nan := by
  induction l generalizing a with
  | nil => simp at h
  | cons x l ih =>
    rw [List.foldl_cons]
    rcases List.mem_cons.1 h with rfl | h
    · rw [Fl.add_nan, foldl_nan]
    · exact ih _ h

theorem flSum_nan {l : List (Fl K)} (h : Fl.nan ∈ l) : flSum l = Fl.nan := foldl_mem_nan l _ h

end

theorem find?_range_getD (L : ℕ) (p : ℕ → Bool) :
    ((∃ l < L, p l = true) → ((List.range L).find? p).getD 0 < L ∧ p (((List.range L).find? p).getD 0) = true ∧
      ∀ m < ((List.range L).find? p).getD 0, p m = false) ∧
    ((¬ ∃ l < L, p l = true) → ((List.range L).find? p).getD 0 = 0) := by
  constructor
  · rintro ⟨l, hl, hp⟩
    rcases hf : (List.range L).find? p with _ | x
    · rw [List.find?_eq_none] at hf
      exact absurd hp (hf l (List.mem_range.2 hl))
    · rw [List.find?_range_eq_some] at hf
      obtain ⟨h1, h2, h3⟩ := hf
      refine ⟨List.mem_range.1 h2, h1, fun m hm => ?_⟩
      simpa using h3 m hm
  · intro h
    have : (List.range L).find? p = none := by
      rw [List.find?_eq_none]
      intro x hx hpx
      exact h ⟨x, List.mem_range.1 hx, hpx⟩
    rw [this]; rfl

end Dreimac
