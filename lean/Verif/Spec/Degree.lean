import Verif.Spec.Surface
import Verif.Spec.DataLoop

/-!
# Specification vocabulary: the degree of a pair of circular coordinates (independent of the model of the code)
-/

namespace Dreimac

open Finset

variable {D F : Type}

/-- Twice the value of the cup product of the 1-cochains `c` and `c'` on the triangle `(u, v, w)`, antisymmetrised: twice the signed
area of the triangle with the edge vectors `(c u v, c' u v)` and `(c v w, c' v w)`. -/
def wedge (c c' : ℕ → ℕ → ℤ) (u v w : ℕ) : ℤ := c u v * c' v w - c' u v * c v w

/-- Twice the value of the cup product of `c` and `c'` on the surface of landmarks: the sum over the triangles with the vertices
`b i`, `ℓ g`, `ℓ f`, for all corners `i` and edges from `i`, with the polygons `f` and `g` on the left and on the right of the edge;
`b i` is a landmark chosen for the data point `i`. -/
def DataSurface.cup [Fintype D] (s : DataSurface D F) (c c' : ℕ → ℕ → ℤ) (ℓ : F → ℕ) (b : ℕ → ℕ) : ℤ :=
  ∑ d, wedge c c' (b (s.start d)) (ℓ (s.face (s.opp d))) (ℓ (s.face d))

/-- Real numbers `X d` lift the angles `θ` at the corners of each polygon: they are the angles of the corners up to multiples of
`2 π`, and differ by less than `π` along each edge. -/
structure DataSurface.Unrolls (s : DataSurface D F) (θ : ℕ → Fl ℝ) (X : D → ℝ) : Prop where
  angle : ∀ d, ∃ y : ℝ, θ (s.start d) = .fin y ∧ SameAngle y (X d)
  step : ∀ d, |X (s.next d) - X d| < Real.pi

/-- The total signed area of the polygons in the plane whose corners have the coordinates `X d`, `Y d`. -/
noncomputable def DataSurface.signedArea [Fintype D] (s : DataSurface D F) (X Y : D → ℝ) : ℝ :=
  ∑ d, (X d * Y (s.next d) - X (s.next d) * Y d) / 2

/-- The edges are short, compared with the bound `M` of the form: `M ≤ 1/4`, or the weights change by less than `1 / (2 M)` in
total along each edge. -/
def DataSurface.ShortEdges (s : DataSurface D F) (S : Finset ℕ) (w : ℕ → ℕ → ℝ) (M : ℝ) : Prop :=
  M ≤ 1 / 4 ∨ ∀ d, M * s.step S w d < 1 / 2

/-- Every data point is in the ball of the landmark chosen for it. -/
def ChosenLandmarks (S : Finset ℕ) (N : ℕ) (δ : ℕ → ℕ → ℝ) (r : ℝ) (b : ℕ → ℕ) : Prop := ∀ i < N, b i ∈ S ∧ δ (b i) i < r

end Dreimac
