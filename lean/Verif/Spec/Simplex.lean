import Mathlib.Data.Nat.Choose.Basic
import Mathlib.Data.Set.Operations
import Mathlib.Data.List.Lex

/-!
# Specification vocabulary: simplices and the colexicographic order (independent of the model)
-/

namespace Dreimac

/-- `s` is the increasing vertex list of a `d`-dimensional simplex on the vertices `0, …, n-1`. -/
structure IsSimplex (n d : ℕ) (s : List ℕ) : Prop where
  card : s.length = d + 1
  increasing : s.Pairwise (· < ·)
  vertices : ∀ v ∈ s, v < n

/-- Colexicographic order on vertex lists: compare the largest vertices first. -/
def ColexLt (s t : List ℕ) : Prop := List.Lex (· < ·) s.reverse t.reverse

end Dreimac
