import Verif.Spec.ProjOutcomes
import Verif.Model.Toroidal

/-! # Specification vocabulary: which stored cocycles are rewritten -/

namespace Dreimac

/-- The class index `idx` refers to the class number `j` of `n` classes (negative indices count from the end). -/
def NamesClass (n : ℕ) (idx : ClassArg) (j : ℕ) : Prop := idx = .int j ∨ idx = .int (j - n : ℤ)

/-- The classes exist and have a common part of their lifetimes. -/
structure Overlapping (dgm : List (Fl ℝ × Fl ℝ)) (σ : List ℕ) (idxs : List ClassArg) : Prop extends SelectsAll dgm σ idxs where
  overlap : ∀ b d, SelectedEnds dgm σ idxs b d → b < d

/-- `c'` has the simplices of `c`, in the same order, and the representatives of its values modulo `p` between `-p/2` and `p/2`. -/
def SymmetricValues (p : ℤ) (c c' : SparseCochain) : Prop :=
  List.Forall₂ (fun r r' => r'.verts = r.verts ∧ p ∣ r'.val - r.val ∧ -p ≤ 2 * r'.val ∧ 2 * r'.val < p) c c'

/-- The lists of stored cocycles `new` come from `orig` (the first index is the dimension, the second one the class) by rewriting
the classes `touched` of dimension `q`, and no others. -/
structure Rewrites (p : ℤ) (q : ℕ) (orig new : List (List SparseCochain)) (touched : ℕ → Prop) : Prop where
  dims : new.length = orig.length
  other : ∀ k, k ≠ q → new[k]? = orig[k]?
  classes : ∀ (coc coc' : List SparseCochain), orig[q]? = some coc → new[q]? = some coc' → coc'.length = coc.length ∧
    ∀ (j : ℕ) (c : SparseCochain), coc[j]? = some c →
      (touched j → ∃ c', coc'[j]? = some c' ∧ SymmetricValues p c c') ∧ (¬ touched j → coc'[j]? = some c)

end Dreimac
