import Verif.Spec.Dataset
import Mathlib.Algebra.BigOperators.Group.Finset.Basic

/-!
# Specification vocabulary: closed surfaces of data points (independent of the model of the code)
-/

namespace Dreimac

open Finset

/-- A closed oriented surface, cut into polygons, with a data point at each corner.  `D` is the set of directed edges of the
polygons ("half-edges"), `F` the set of polygons.  The half-edge `d` runs from the data point `start d` to the data point
`start (next d)`, where `next d` is the following half-edge of the same polygon; it is glued to the half-edge `opp d`, which
runs between the same data points in the other direction. -/
structure DataSurface (D F : Type) where
  opp : D → D
  next : Equiv.Perm D
  face : D → F
  start : D → ℕ
  opp_opp : ∀ d, opp (opp d) = d
  next_face : ∀ d, face (next d) = face d
  next_start : ∀ d, start (next d) = start (opp d)

/-- All corners are among the `N` data points, and each polygon `f` lies in the ball of radius `r` around the landmark `ℓ f`. -/
structure DataSurface.InBalls {D F : Type} (s : DataSurface D F) (S : Finset ℕ) (N : ℕ) (δ : ℕ → ℕ → ℝ) (r : ℝ) (ℓ : F → ℕ) : Prop where
  data : ∀ d, s.start d < N
  land : ∀ f, ℓ f ∈ S
  ball : ∀ d, δ (ℓ (s.face d)) (s.start d) < r

/-- The value of the 2-cochain `c` on the surface of landmarks: the sum over the triangles with the vertices `b i`, `ℓ f`,
`ℓ g`, for all corners `i` and edges from `i`, with the polygons `f` and `g` on the two sides of the edge; `b i` is a landmark
chosen for the data point `i`.  (These triangles form a closed surface: around each corner `i` a fan with the apex `b i`.) -/
def DataSurface.value {D F : Type} [Fintype D] (s : DataSurface D F) (c : ℕ → ℕ → ℕ → ℤ) (ℓ : F → ℕ) (b : ℕ → ℕ) : ℤ :=
  ∑ d, c (b (s.start d)) (ℓ (s.face d)) (ℓ (s.face (s.opp d)))

/-- `M` bounds the values of the form `c - dν` on triples of landmarks with pairwise distances below `t`. -/
def FormBound2 (S : Finset ℕ) (δ : ℕ → ℕ → ℝ) (t : ℝ) (c : ℕ → ℕ → ℕ → ℤ) (ν : ℕ → ℕ → ℝ) (M : ℝ) : Prop :=
  ∀ u ∈ S, ∀ v ∈ S, ∀ z ∈ S, δ u v < t → δ v z < t → δ u z < t → |(c u v z : ℝ) - (ν u v + ν v z - ν u z)| ≤ M

/-- How much the weights change along the half-edge `d`. -/
def DataSurface.step {D F : Type} (s : DataSurface D F) (S : Finset ℕ) (w : ℕ → ℕ → ℝ) (d : D) : ℝ :=
  ∑ v ∈ S, |w v (s.start (s.next d)) - w v (s.start d)|

/-- The polygons are small, compared with the bound `M` of the form: the weights change by less than `1 / (4 M)` along each
half-edge, and by less than `1 / (2 M)` in total around each polygon. -/
structure DataSurface.Small {D F : Type} [Fintype D] [DecidableEq F] (s : DataSurface D F) (S : Finset ℕ) (w : ℕ → ℕ → ℝ) (M : ℝ) :
    Prop where
  edge : ∀ d, M * s.step S w d < 1 / 4
  polygon : ∀ f, M * ∑ d with s.face d = f, s.step S w d < 1 / 2

/-- The product of the inner products of consecutive rows of `y` around the polygon `f` (with `m` columns): it does not change
if rows are multiplied by complex numbers of modulus 1. -/
noncomputable def DataSurface.around {D F : Type} [Fintype D] [DecidableEq F] (s : DataSurface D F) (m : ℕ) (y : ℕ → ℕ → ℂ) (f : F) : ℂ :=
  ∏ d with s.face d = f, ∑ k ∈ range m, star (y (s.start d) k) * y (s.start (s.next d)) k

end Dreimac
