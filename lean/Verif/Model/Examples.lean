import Mathlib.Analysis.SpecialFunctions.Trigonometric.Basic
import Mathlib.Analysis.SpecialFunctions.Exp
import Mathlib.LinearAlgebra.Matrix.Notation
import Verif.Model.Geometry

/-!
# Model of `GeometryExamples` (utils.py 800-1230)

Exact real numbers in place of floats.  The results of the random number generator are parameters (`np.random.rand`,
`random`, `random_sample`: numbers in `[0, 1)`; `randn`: any numbers), so the seeds do not appear.
-/

namespace Dreimac

open Real

noncomputable section

/-- `np.linspace(a, b, n)[k]`. (utils.py 832-836, 871, 880, 1055.) -/
def linspace (a b : ℝ) (n k : ℕ) : ℝ := if n = 1 then a else a + k * ((b - a) / (n - 1))

/-- `np.linspace(a, b, n, endpoint=False)[k]`. (utils.py 1005-1006, 1055, 1080, 1104, 1108.) -/
def linspaceOpen (a b : ℝ) (n k : ℕ) : ℝ := a + k * ((b - a) / n)

/-- Two nested loops `for i in range(n): for j in range(m): P[idx] = f(i, j); idx += 1` with `idx` starting at 0.
Returns `P` and the final `idx`. (utils.py 836-846, 880-900.) -/
def fillLoop {α : Type} (n m : ℕ) (f : ℕ → ℕ → α) (init : ℕ → α) : (ℕ → α) × ℕ :=
  (List.range n).foldl (init := (init, 0)) fun st i =>
    (List.range m).foldl (init := st) fun st j => (Function.update st.1 st.2 (f i j), st.2 + 1)

/-- A two-dimensional array: numbers of rows and columns, entries. (utils.py 800-1230.) -/
structure Arr2 where
  rows : ℕ
  cols : ℕ
  val : ℕ → ℕ → ℝ

/-- utils.py 809-846, `line_patches`.  `patch.flatten()` of a `dim × dim` array has entry `patch[m // dim, m % dim]` at
position `m`; `[Y, X] = np.meshgrid(l, l)` are `Y[a, b] = l[b]`, `X[a, b] = l[a]`. -/
def linePatches (dim nAngles nOffsets : ℕ) (sigma : ℝ) : Arr2 :=
  let thetas := linspace 0 π (nAngles + 1)
  let ps := linspace (-1) 1 nOffsets
  let X := fun (a _b : ℕ) => linspace (-0.5) 0.5 dim a
  let Y := fun (_a b : ℕ) => linspace (-0.5) 0.5 dim b
  let P := (fillLoop nAngles nOffsets (fun i j =>
    let c := cos (thetas i)
    let s := sin (thetas i)
    let patch := fun a b => X a b * c + Y a b * s + ps j
    let patch := fun a b => exp (-(patch a b ^ 2) / sigma ^ 2)
    fun m => patch (m / dim) (m % dim)) fun _ _ => 0).1
  { rows := nAngles * nOffsets, cols := dim * dim, val := P }

/-- utils.py 848-888, `moving_dot`; `dim` is overwritten in line 877. -/
def movingDot (sqrtNumImages : ℕ) (sigma : ℝ) (_dim : ℕ) : Arr2 :=
  let gkern := fun (l : ℕ) (mu : ℝ × ℝ) (sig : ℝ) (a b : ℕ) =>
    let ax := linspace (-(l - 1 : ℝ) / 2) ((l - 1 : ℝ) / 2) l
    exp (-0.5 * (ax a - mu.1) ^ 2 / sig ^ 2) * exp (-0.5 * (ax b - mu.2) ^ 2 / sig ^ 2)
  let dim := 10
  let bound := 15
  let xs := fun k => bound * linspace (-1) 1 sqrtNumImages k ^ 3
  let ys := fun k => - xs k
  let P := (fillLoop sqrtNumImages sqrtNumImages (fun i j m =>
    gkern dim (xs i, ys j) sigma (m / dim) (m % dim)) fun _ _ => 0).1
  { rows := sqrtNumImages ^ 2, cols := dim * dim, val := P }

/-- utils.py 891-917, `rp2_metric`, from the array `G` of `randn(n, 3)`; rows of `G` that are zero (`nan`) are excluded in the
theorems. -/
def rp2Metric (n : ℕ) (G : ℕ → ℕ → ℝ) : (ℕ → ℕ → ℝ) × (ℕ → ℕ → ℝ) :=
  let X := fun i k => G i k / √(∑ l ∈ Finset.range 3, G i l ^ 2)
  (X, getCsmProjarc 3 n X n X)

/-- utils.py 920-950, `torus_3d`: the row for the draws `s`, `t` of `rand`. -/
def torus3d (R r : ℝ) (s t : ℝ) : ℝ × ℝ × ℝ :=
  let s := s * 2 * π
  let t := t * 2 * π
  ((R + r * cos s) * cos t, (R + r * cos s) * sin t, r * sin s)

/-- utils.py 953-984, `klein_bottle_4d`: the row for the draws of `rand`. -/
def kleinBottle4d (R r : ℝ) (theta phi : ℝ) : ℝ × ℝ × ℝ × ℝ :=
  let theta := theta * 2 * π
  let phi := phi * 2 * π
  ((R + r * cos theta) * cos phi, (R + r * cos theta) * sin phi, r * sin theta * cos (phi / 2),
    r * sin theta * sin (phi / 2))

open Classical in
/-- utils.py 987-1022, `genus_two_surface`: the list of rows. -/
def genusTwoSurface : List (ℝ × ℝ × ℝ) :=
  let R2 : ℝ := 9
  let R : ℝ := 5
  let r : ℝ := 2
  let Ns := 80
  let Nt := 120
  let st := (List.range Ns).flatMap fun a => (List.range Nt).map fun b =>
    (linspaceOpen 0 (2 * π) Ns a, linspaceOpen 0 (2 * π) Nt b)
  let Y := st.map fun p => ((R + r * cos p.1) * cos p.2, (R + r * cos p.1) * sin p.2, r * sin p.1)
  let Z := st.map fun p => (R2 + (R + r * cos p.1) * cos p.2, (R + r * cos p.1) * sin p.2, r * sin p.1)
  (Y.filter fun y => y.1 ≤ 4.5) ++ Z.filter fun z => 4.5 ≤ z.1

/-- utils.py 1025-1065, `trefoil(noisy=True)`: the row for the draws of `rand`. -/
def trefoilNoisy (h : ℝ) (u v : ℝ) : ℝ × ℝ × ℝ :=
  let u := 4 * π * u
  let v := 2 * π * v
  (cos u * cos v + h * cos u * (1.5 + sin (1.5 * u) / 2), sin u * cos v + h * sin u * (1.5 + sin (1.5 * u) / 2),
    sin v + 4 * cos (1.5 * u))

/-- utils.py 1025-1065, `trefoil(noisy=False)`: row `k` of `n`. -/
def trefoilExact (h : ℝ) (n k : ℕ) : ℝ × ℝ × ℝ :=
  let u := 4 * π * linspaceOpen 0 1 n k
  (cos u + h * cos u * (1.5 + sin (1.5 * u) / 2), sin u + h * sin u * (1.5 + sin (1.5 * u) / 2), 4 * cos (1.5 * u))

/-- utils.py 1068-1090, `bullseye`: row `k` of 600, with the draws `e` of `random`. -/
def bullseye (e : ℕ → ℝ × ℝ) (k : ℕ) : ℝ × ℝ :=
  let N := 200
  let c := fun (rad : ℝ) (k : ℕ) => (rad * sin (linspaceOpen 0 (2 * π) N k), rad * cos (linspaceOpen 0 (2 * π) N k))
  let x := if k < N then c 1 k else if k < 2 * N then c 2 (k - N) else c 3 (k - 2 * N)
  let eps : ℝ := 0.1
  (x.1 + ((e k).1 - 0.5) * eps, x.2 + ((e k).2 - 0.5) * eps)

/-- utils.py 1093-1127, `three_circles`: row `k` of 1050, with the draws `e` of `random`. -/
def threeCircles (e : ℕ → ℝ × ℝ) (k : ℕ) : ℝ × ℝ :=
  let c := fun (rad : ℝ) (N k : ℕ) => (rad * sin (linspaceOpen 0 (2 * π) N k), rad * cos (linspaceOpen 0 (2 * π) N k))
  let x := if k < 50 then c 1 50 k
    else if k < 550 then ((c 2 500 (k - 50)).1 + 4, (c 2 500 (k - 50)).2 + 0)
    else ((c 2.5 500 (k - 550)).1 + -4, (c 2.5 500 (k - 550)).2 + 0)
  let eps : ℝ := 0.3
  (x.1 + ((e k).1 - 0.5) * eps, x.2 + ((e k).2 - 0.5) * eps)

/-- utils.py 1130-1142, `sphere`: the row for the draws `e` of `random_sample`. -/
def sphereSample (e : ℝ × ℝ × ℝ) : ℝ × ℝ × ℝ :=
  let d := (2 * e.1 - 1, 2 * e.2.1 - 1, 2 * e.2.2 - 1)
  let n := √(d.1 ^ 2 + d.2.1 ^ 2 + d.2.2 ^ 2)
  (d.1 / n, d.2.1 / n, d.2.2 / n)

/-- utils.py 1145-1171, `noisy_circle`: the row for the draws `e`, `e'` of `random`. -/
def noisyCircle (noise : ℝ) (e e' : ℝ × ℝ) : ℝ × ℝ :=
  let x := (e.1 - 0.5, e.2 - 0.5)
  let n := √(x.1 ^ 2 + x.2 ^ 2)
  (x.1 / n + (e'.1 - 0.5) * noise, x.2 / n + (e'.2 - 0.5) * noise)

/-- `np.linalg.norm` of a vector of length 2. (utils.py 1194, 1210-1219.) -/
def norm2 (x : Fin 2 → ℝ) : ℝ := √(x 0 ^ 2 + x 1 ^ 2)

/-- `min` of the non-empty list `[f(0), ..., f(n-1)]`. (utils.py 1212-1224.) -/
def minOver (n : ℕ) (f : ℕ → ℝ) : ℝ := (List.range (n - 1)).foldl (fun m i => min m (f (i + 1))) (f 0)

/-- utils.py 1197-1199, `_rot_mat`. -/
def rotMat2 (theta : ℝ) : Matrix (Fin 2) (Fin 2) ℝ := !![cos theta, -sin theta; sin theta, cos theta]

/-- utils.py 1206-1227, `_fill_dist_mat`: the entry for the points `x`, `y` (`x = 0` is excluded in the theorems). -/
def mooreDist (prime : ℕ) (x y : Fin 2 → ℝ) : ℝ :=
  let proj := fun k => x k / norm2 x
  min (norm2 fun k => x k - y k)
    (norm2 (fun k => x k - proj k)
      + minOver prime fun i => norm2 fun k => ((rotMat2 (2 * π / prime)) ^ i).mulVec proj k - y k)

open Classical in
/-- utils.py 1174-1230, `moore_space_distance_matrix`, from the draws `U` of `random`: returns the pair of the matrix and the
points. -/
def mooreSpace (U : List (Fin 2 → ℝ)) (prime : ℕ) : (ℕ → ℕ → ℝ) × List (Fin 2 → ℝ) :=
  let X := (U.map fun u k => (u k - 0.5) * 2).filter fun x => norm2 x ≤ 1
  (fun i j => mooreDist prime (X.getD i 0) (X.getD j 0), X)

end

end Dreimac
