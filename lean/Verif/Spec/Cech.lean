import Mathlib.Algebra.Ring.Defs
import Mathlib.Algebra.BigOperators.Intervals
import Mathlib.Data.Real.Basic
import Verif.Spec.Rips

/-!
# Specification vocabulary: cochains as functions of ordered pairs, and circle-valued maps glued from a cover
(independent of the model)
-/

namespace Dreimac

/-- The value of a dense 1-cochain on the oriented edge from `l` to `m`: the stored value for `l < m`, its negative
for `m < l`, zero for `l = m`. -/
def edgeVal {R : Type} [Ring R] (c : ℕ → R) (l m : ℕ) : R :=
  if l < m then c (edgeIdx l m) else if m < l then -c (edgeIdx m l) else 0

/-- Two landmarks are equal or joined by an edge of the Rips complex (in either order). -/
def RipsRel {K : Type} [LT K] (n : ℕ) (dist : ℕ → ℕ → K) (t : K) (l m : ℕ) : Prop :=
  l = m ∨ RipsEdge n dist t l m ∨ RipsEdge n dist t m l

/-- The real-valued lift of a circle-valued coordinate over the ball of landmark `l`: a value `f l` at the landmark,
plus the average of the cochain `η` over the edges from `l`, weighted by `w`. -/
noncomputable def ballLift (L : ℕ) (η f : ℕ → ℝ) (w : ℕ → ℝ) (l : ℕ) : ℝ :=
  f l + ∑ t ∈ Finset.range L, edgeVal η l t * w t

/-- `η` is cohomologous to `c` on the Rips complex through the potential `f`. -/
def CohomologousVia {K : Type} [LT K] (n : ℕ) (dist : ℕ → ℕ → K) (t : K) (c η f : ℕ → ℝ) : Prop :=
  ∀ l m, RipsEdge n dist t l m → η (edgeIdx l m) = c (edgeIdx l m) - (f l - f m)

/-- The energy of a cochain: the sum of its squares over the edges of the Rips complex. -/
noncomputable def ripsEnergy (n : ℕ) (dist : ℕ → ℕ → ℝ) (t : ℝ) (x : ℕ → ℝ) : ℝ :=
  ∑ l ∈ Finset.range n, ∑ m ∈ Finset.range n,
    open Classical in if RipsEdge n dist t l m then x (edgeIdx l m) ^ 2 else 0

end Dreimac
