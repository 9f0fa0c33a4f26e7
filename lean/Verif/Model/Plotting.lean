import Mathlib.Data.Real.Sqrt
import Mathlib.Algebra.Order.Floor.Semiring
import Mathlib.Algebra.Order.Round
import Verif.Model.Py
import Verif.Model.Examples

/-!
# Model of `PlotUtils` (plotting_utils.py)

Only what is passed to matplotlib: positions, patches, axis limits, colour indices.  Exact real numbers in place of floats.
-/

namespace Dreimac

noncomputable section

/-- What `imscatter` adds to the axes for one patch: the position, the image and the colour limits. (plotting_utils.py 14-75.) -/
structure PatchArtist where
  pos : ℝ × ℝ
  patch : ℕ → ℕ → ℝ
  vmin : ℝ
  vmax : ℝ

/-- `np.min(P)` and `np.max(P)` of an `N × m` array (`ValueError` if it is empty). (plotting_utils.py 34.) -/
def arrMin (N m : ℕ) (P : ℕ → ℕ → ℝ) : Except PyErr ℝ :=
  if N = 0 ∨ m = 0 then .error .valueError
  else .ok ((List.range (N * m)).foldl (fun a k => min a (P (k / m) (k % m))) (P 0 0))

/-- `np.max(P)` (plotting_utils.py 35). -/
def arrMax (N m : ℕ) (P : ℕ → ℕ → ℝ) : Except PyErr ℝ :=
  if N = 0 ∨ m = 0 then .error .valueError
  else .ok ((List.range (N * m)).foldl (fun a k => max a (P (k / m) (k % m))) (P 0 0))

/-- plotting_utils.py 14-47, `imscatter` for an `N × m` array `P` of patches, at the positions `X`: the artists added, in
order.  `np.reshape(P[i, :], (dim, dim))` raises `ValueError` unless `m = dim * dim`. -/
def imscatter (N m : ℕ) (X : ℕ → ℝ × ℝ) (P : ℕ → ℕ → ℝ) (dim : ℕ) : Except PyErr (List PatchArtist) := do
  let minColor ← arrMin N m P
  let maxColor ← arrMax N m P
  (List.range N).mapM fun i =>
    if m = dim * dim then
      .ok { pos := X i, patch := fun a b => P i (a * dim + b), vmin := minColor, vmax := maxColor }
    else .error .valueError

/-- plotting_utils.py 50-69, `plot_patches` for an `N × m` array.  `x, y = np.meshgrid(ex, ex)` are `x[a, b] = ex[b]`,
`y[a, b] = ex[a]`; the assignment of `x.flatten()[0:N]` raises `ValueError` if there are fewer than `N` grid points. -/
def plotPatches (N m : ℕ) (P : ℕ → ℕ → ℝ) : Except PyErr (List PatchArtist) :=
  let d := ⌊√(m : ℝ)⌋₊
  let dgrid := ⌈√(N : ℝ)⌉₊
  let x := fun (_a b : ℕ) => (b : ℝ)
  let y := fun (a _b : ℕ) => (a : ℝ)
  if dgrid * dgrid < N then .error .valueError
  else
    let X := fun k => (x (k / dgrid) (k % dgrid), y (k / dgrid) (k % dgrid))
    imscatter N m X P d

/-- plotting_utils.py 236-267, `set_axes_equal`: the new limits from the old ones. -/
def setAxesEqual (lim : (ℝ × ℝ) × (ℝ × ℝ) × (ℝ × ℝ)) : (ℝ × ℝ) × (ℝ × ℝ) × (ℝ × ℝ) :=
  let xl := lim.1
  let yl := lim.2.1
  let zl := lim.2.2
  let xRange := |xl.2 - xl.1|
  let xMiddle := (xl.1 + xl.2) / 2
  let yRange := |yl.2 - yl.1|
  let yMiddle := (yl.1 + yl.2) / 2
  let zRange := |zl.2 - zl.1|
  let zMiddle := (zl.1 + zl.2) / 2
  let plotRadius := 0.5 * max (max xRange yRange) zRange
  ((xMiddle - plotRadius, xMiddle + plotRadius), (yMiddle - plotRadius, yMiddle + plotRadius),
    (zMiddle - plotRadius, zMiddle + plotRadius))

/-- `np.min(f)` of a vector of length `n` (`ValueError` if it is empty). (plotting_utils.py 373.) -/
def vecMin (n : ℕ) (f : ℕ → ℝ) : Except PyErr ℝ :=
  if n = 0 then .error .valueError else .ok ((List.range n).foldl (fun a k => min a (f k)) (f 0))

/-- `np.max(f)` (plotting_utils.py 374). -/
def vecMax (n : ℕ) (f : ℕ → ℝ) : Except PyErr ℝ :=
  if n = 0 then .error .valueError else .ok ((List.range n).foldl (fun a k => max a (f k)) (f 0))

/-- plotting_utils.py 349-378, `plot_rp3_stereo` for a function `f` with one value per point: the indices into the colour map.
`np.round` rounds to a nearest integer; here `round` (they differ only in the choice at ties).  If all values of `f` are equal
the code divides by zero and gets `nan`; the theorems exclude this. -/
def rp3ColorIdx (n : ℕ) (f : ℕ → ℝ) : Except PyErr (ℕ → ℤ) := do
  let mn ← vecMin n f
  let C := fun k => f k - mn
  let mx ← vecMax n C
  let C := fun k => C k / mx
  pure fun k => round (C k * 255)

/-- plotting_utils.py 106-125, `plot_2sphere_boundary`: the points of the two curves, `k < 200`
(`t = np.linspace(0, 2 * np.pi, 200)`). -/
def sphereBoundary (k : ℕ) : (ℝ × ℝ) × (ℝ × ℝ) :=
  let secondCircleOffset : ℝ := 2.5
  let t := 0 + (k : ℝ) * ((2 * Real.pi - 0) / (200 - 1))
  ((Real.cos t, Real.sin t), (Real.cos t + secondCircleOffset, Real.sin t))

/-- An arrow as given to `ax.arrow`: the position of its tail and its direction `(dx, dy)`. (plotting_utils.py 300-330.) -/
structure Arrow where
  x : ℝ
  y : ℝ
  dx : ℝ
  dy : ℝ

/-- plotting_utils.py 88-101, `plot_proj_boundary` (and 310-331, `plot_rp2_stereo`): the arrows. -/
def projArrows : List Arrow := [⟨-0.1, 1, 0.001, 0⟩, ⟨0.1, -1, -0.001, 0⟩]

/-- plotting_utils.py 85-86, `plot_proj_boundary` (and 305-306, `plot_rp2_stereo`): the points of the curve, `k < 200`. -/
def projBoundary (k : ℕ) : ℝ × ℝ :=
  let t := 0 + (k : ℝ) * ((2 * Real.pi - 0) / (200 - 1))
  (Real.cos t, Real.sin t)

/-- plotting_utils.py 125-199, `plot_2sphere_boundary`: the arrows, in the order in which they are drawn. -/
def sphereArrows : List Arrow :=
  let secondCircleOffset : ℝ := 2.5
  [⟨0, 0.9, 0, 0.001⟩, ⟨secondCircleOffset, 1.1, 0, -0.001⟩, ⟨0, -0.9, 0, -0.001⟩, ⟨secondCircleOffset, -1.1, 0, 0.001⟩,
    ⟨0.9, 0, 0.001, 0⟩, ⟨secondCircleOffset + 1.1, 0, -0.001, 0⟩, ⟨-0.9, 0, -0.001, 0⟩, ⟨secondCircleOffset - 1.1, 0, 0.001, 0⟩]

/-- plotting_utils.py 206-232, `plot_3sphere_mesh`: the point of the wireframe with indices `i < n_meridians`,
`j < n_parallels` (`np.mgrid[a:b:n*1j]` is `linspace(a, b, n)`). -/
def sphereMesh (nParallels nMeridians : ℕ) (i j : ℕ) : ℝ × ℝ × ℝ :=
  let u := linspace 0 (2 * Real.pi) nMeridians i
  let v := linspace 0 Real.pi nParallels j
  (Real.cos u * Real.sin v, Real.sin u * Real.sin v, Real.cos v)

end

end Dreimac
