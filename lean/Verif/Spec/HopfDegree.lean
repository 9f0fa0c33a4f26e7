import Verif.Spec.Surface

/-! # Specification vocabulary: triangles on the unit sphere (independent of the model of the code) -/

namespace Dreimac

open Finset

/-- The scalar product in `ℝ³`. -/
def dot3 (x y : ℝ × ℝ × ℝ) : ℝ := x.1 * y.1 + x.2.1 * y.2.1 + x.2.2 * y.2.2

/-- The determinant of three vectors of `ℝ³`. -/
def det3 (x y z : ℝ × ℝ × ℝ) : ℝ :=
  x.1 * (y.2.1 * z.2.2 - y.2.2 * z.2.1) - x.2.1 * (y.1 * z.2.2 - y.2.2 * z.1) + x.2.2 * (y.1 * z.2.1 - y.2.1 * z.1)

/-- The signed area of the triangle on the unit sphere with the corners `x`, `y`, `z`: half of it is the angle of the point of
the plane with the coordinates `1 + x · y + y · z + z · x` and `det (x, y, z)` (van Oosterom and Strackee). -/
noncomputable def sphericalArea (x y z : ℝ × ℝ × ℝ) : ℝ :=
  2 * Complex.arg ⟨1 + dot3 x y + dot3 y z + dot3 z x, det3 x y z⟩

variable {D F : Type}

/-- Every polygon is a triangle; `corner f` is one of the half-edges of the polygon `f`. -/
structure DataSurface.Triangles (s : DataSurface D F) (corner : F → D) : Prop where
  face : ∀ d f, s.face d = f ↔ d = corner f ∨ d = s.next (corner f) ∨ d = s.next (s.next (corner f))
  three : ∀ d, s.next (s.next (s.next d)) = d
  ne : ∀ d, s.next d ≠ d

/-- The points `h i` of the unit sphere as the corners of the triangles of the surface: the total signed area of these
triangles, with the corners in the opposite order (the order for which the Hopf map of the code keeps the sign). -/
noncomputable def DataSurface.sphereArea [Fintype F] (s : DataSurface D F) (corner : F → D) (h : ℕ → ℝ × ℝ × ℝ) : ℝ :=
  ∑ f, sphericalArea (h (s.start (s.next (s.next (corner f))))) (h (s.start (s.next (corner f)))) (h (s.start (corner f)))

end Dreimac
