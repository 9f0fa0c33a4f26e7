import Mathlib.Analysis.SpecialFunctions.Trigonometric.Basic
import Verif.Spec.Cech
import Verif.Lemmas.Fmod
import Verif.Model.Fl

/-!
# Specification vocabulary: circle-valued coordinates glued from an integer cocycle and a potential

`L` landmarks, `dist l i` the distance from landmark `l` to data point `i`, `dll` the distances between landmarks,
`r` the radius of the cover (the Rips threshold is `2 * r`), `w l i` the weight of landmark `l` at data point `i`, `c` an
integer 1-cochain, `f` a real function on landmarks, `θ` a coordinate (one extended real per data point).
-/

namespace Dreimac

open Real

/-- Data point `i` is in the ball of landmark `l`. -/
def InBall (L : ℕ) (dist : ℕ → ℕ → ℝ) (r : ℝ) (l i : ℕ) : Prop := l < L ∧ dist l i < r

/-- `b` is the first landmark whose ball contains data point `i`. -/
def FirstBall (L : ℕ) (dist : ℕ → ℕ → ℝ) (r : ℝ) (i b : ℕ) : Prop :=
  InBall L dist r b i ∧ ∀ l < b, ¬ InBall L dist r l i

/-- The weights form a partition of unity subordinate to the cover by balls. -/
structure IsPartitionOfUnity (L : ℕ) (dist : ℕ → ℕ → ℝ) (r : ℝ) (w : ℕ → ℕ → ℝ) : Prop where
  nonneg : ∀ l i, (∃ m, InBall L dist r m i) → 0 ≤ w l i
  sum_one : ∀ i, (∃ m, InBall L dist r m i) → ∑ l ∈ Finset.range L, w l i = 1
  support : ∀ l i, (∃ m, InBall L dist r m i) → (0 < w l i ↔ dist l i < r)

open Classical in
/-- The value of the (real) 1-form `c - δf` on the pair `(l, m)`, as an antisymmetric function supported on the Rips
complex at threshold `2 * r`. -/
noncomputable def ripsForm (L : ℕ) (dll : ℕ → ℕ → ℝ) (r : ℝ) (c : ℕ → ℤ) (f : ℕ → ℝ) (l m : ℕ) : ℝ :=
  if RipsRel L dll (2 * r) l m then edgeVal c l m - (f l - f m) else 0

/-- The coordinate formula, evaluated at data point `i` with the ball of landmark `l`. -/
noncomputable def coordFormula (L : ℕ) (dll : ℕ → ℕ → ℝ) (r : ℝ) (w : ℕ → ℕ → ℝ) (c : ℕ → ℤ) (f : ℕ → ℝ)
    (l i : ℕ) : ℝ := f l + ∑ m ∈ Finset.range L, ripsForm L dll r c f l m * w m i

/-- The coordinate value `v` is the angle `2π x`, normalised to `[0, 2π)`. -/
def IsAngle (v : Fl ℝ) (x : ℝ) : Prop := ∃ y : ℝ, v = Fl.fin y ∧ 0 ≤ y ∧ y < 2 * π ∧ SameAngle y (2 * π * x)

/-- `θ` is the coordinate given by the formula, evaluated in the first ball containing each point, and `nan` for points
that are in no ball. -/
structure IsCircleCoordinate (L : ℕ) (dist dll : ℕ → ℕ → ℝ) (r : ℝ) (w : ℕ → ℕ → ℝ) (c : ℕ → ℤ) (f : ℕ → ℝ)
    (θ : ℕ → Fl ℝ) : Prop where
  uncovered : ∀ i, (¬ ∃ m, InBall L dist r m i) → θ i = .nan
  covered : ∀ i b, FirstBall L dist r i b → IsAngle (θ i) (coordFormula L dll r w c f b i)

/-- The triangle inequality between landmarks and data points. -/
def LandmarkTriangle (L : ℕ) (dist dll : ℕ → ℕ → ℝ) : Prop :=
  ∀ l m i, l < L → m < L → dll l m ≤ dist l i + dist m i

/-- The real-valued lift of the coordinate over the ball of landmark `l`: the weighted mean of `f m + c(l, m)`. -/
noncomputable def gluedLift (L : ℕ) (w : ℕ → ℕ → ℝ) (c : ℕ → ℤ) (f : ℕ → ℝ) (l i : ℕ) : ℝ :=
  ∑ m ∈ Finset.range L, (f m + edgeVal c l m) * w m i

open Classical in
/-- The energy of `c - δf`: the sum of squares over the edges of the Rips complex at threshold `2 * r`. -/
noncomputable def formEnergy (L : ℕ) (dll : ℕ → ℕ → ℝ) (r : ℝ) (c f : ℕ → ℝ) : ℝ :=
  ∑ l ∈ Finset.range L, ∑ m ∈ Finset.range L,
    if RipsEdge L dll (2 * r) l m then (c (edgeIdx l m) - (f l - f m)) ^ 2 else 0

end Dreimac
