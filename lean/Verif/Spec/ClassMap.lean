import Mathlib.Analysis.Complex.Basic
import Mathlib.Analysis.SpecialFunctions.Complex.Log
import Verif.Spec.Circular

/-!
# Specification vocabulary: vectors assigned to data points by a class (independent of the model)

`L` landmarks, `dist l i` the distance from landmark `l` to data point `i`, `dll` the distances between landmarks, `r` the
radius of the cover, `w l i` the weight of landmark `l` at data point `i`; a 1-cochain is an antisymmetric function `x` of
pairs of landmarks.
-/

namespace Dreimac

open Real

/-- The 1-cochain `x` is a cocycle modulo `p` on the Rips complex. -/
def PairCocycleMod (p : ℤ) (L : ℕ) (dll : ℕ → ℕ → ℝ) (t : ℝ) (x : ℕ → ℕ → ℤ) : Prop :=
  ∀ i j k, RipsTriangle L dll t i j k → p ∣ x i j + x j k - x i k

/-- The complex vector of data point `i` computed with the ball of landmark `l`:
entry `m` is `√(w m i) * exp(2πi x(l, m) / p)`. -/
noncomputable def lensVector (p : ℤ) (x : ℕ → ℕ → ℤ) (w : ℕ → ℕ → ℝ) (l i m : ℕ) : ℂ :=
  (√(w m i) : ℝ) * Complex.exp (2 * π * Complex.I * (x l m) / p)

/-- The real vector of data point `i` computed with the ball of landmark `l`: entry `m` is `√(w m i) * (-1)^x(l, m)`. -/
noncomputable def signVector (x : ℕ → ℕ → ℤ) (w : ℕ → ℕ → ℝ) (l i m : ℕ) : ℝ := √(w m i) * (-1 : ℝ) ^ (x l m)

/-- The value of a dense 2-cochain on the oriented triangle `(a, b, d)`: the stored value for `a < b < d`, with the sign
of the permutation for the other orders, zero if two vertices agree. -/
def triVal {R : Type} [Ring R] (c : ℕ → R) (a b d : ℕ) : R :=
  if a < b ∧ b < d then c (triIdx a b d)
  else if b < d ∧ d < a then c (triIdx b d a)
  else if d < a ∧ a < b then c (triIdx d a b)
  else if a < d ∧ d < b then -c (triIdx a d b)
  else if b < a ∧ a < d then -c (triIdx b a d)
  else if d < b ∧ b < a then -c (triIdx d b a)
  else 0

/-- Three landmarks are pairwise equal or joined by an edge of the Rips complex. -/
def RipsRel3 {K : Type} [LT K] (n : ℕ) (dist : ℕ → ℕ → K) (t : K) (a b d : ℕ) : Prop :=
  RipsRel n dist t a b ∧ RipsRel n dist t b d ∧ RipsRel n dist t a d

open Classical in
/-- The real 1-cochain `ν`, as an antisymmetric function supported on the Rips complex at threshold `2 * r`. -/
noncomputable def nuForm (L : ℕ) (dll : ℕ → ℕ → ℝ) (r : ℝ) (ν : ℕ → ℝ) (a b : ℕ) : ℝ :=
  if RipsRel L dll (2 * r) a b then edgeVal ν a b else 0

open Classical in
/-- The real 2-form `c - δν`, as an antisymmetric function supported on the Rips complex at threshold `2 * r`. -/
noncomputable def etaForm (L : ℕ) (dll : ℕ → ℕ → ℝ) (r : ℝ) (c : ℕ → ℤ) (ν : ℕ → ℝ) (a b d : ℕ) : ℝ :=
  if RipsRel3 L dll (2 * r) a b d then triVal c a b d - (edgeVal ν a b + edgeVal ν b d - edgeVal ν a d) else 0

/-- The phase (in turns) of entry `m` of the vector of data point `i`, computed with the ball of landmark `l`. -/
noncomputable def cpPhase (L : ℕ) (dll : ℕ → ℕ → ℝ) (r : ℝ) (w : ℕ → ℕ → ℝ) (c : ℕ → ℤ) (ν : ℕ → ℝ) (l i m : ℕ) : ℝ :=
  nuForm L dll r ν m l + ∑ t ∈ Finset.range L, w t i * etaForm L dll r c ν m l t

/-- The complex vector of data point `i` computed with the ball of landmark `l`. -/
noncomputable def cpVector (L : ℕ) (dll : ℕ → ℕ → ℝ) (r : ℝ) (w : ℕ → ℕ → ℝ) (c : ℕ → ℤ) (ν : ℕ → ℝ) (l i m : ℕ) : ℂ :=
  Complex.exp (2 * π * Complex.I * (cpPhase L dll r w c ν l i m : ℝ)) * (√(w m i) : ℝ)

open Classical in
/-- The energy of the 2-form `c - δν`: the sum of squares over the triangles of the Rips complex at threshold `2 * r`. -/
noncomputable def formEnergy2 (L : ℕ) (dll : ℕ → ℕ → ℝ) (r : ℝ) (c : ℕ → ℤ) (ν : ℕ → ℝ) : ℝ :=
  ∑ i ∈ Finset.range L, ∑ j ∈ Finset.range L, ∑ k ∈ Finset.range L,
    if RipsTriangle L dll (2 * r) i j k then
      ((c (triIdx i j k) : ℝ) - (ν (edgeIdx i j) + ν (edgeIdx j k) - ν (edgeIdx i k))) ^ 2
    else 0

end Dreimac
