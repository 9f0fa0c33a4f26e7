import Mathlib.Analysis.SpecialFunctions.Trigonometric.Basic
import Verif.Model.EMCoords

/-!
# Model of `CircleMapUtils` (utils.py 1233-1394)

Real numbers in place of floats.  `fmod` is Python's / NumPy's `%` for a positive modulus.
-/

namespace Dreimac

open Real

/-- `x % m` for floats: `x - m * floor(x / m)`. (utils.py 1258, 1282, 1306, 1344, 1348, 1383.) -/
noncomputable def fmod (x m : ℝ) : ℝ := x - m * ⌊x / m⌋

/-- `np.mod` on extended values, finite modulus: `nan` and infinities give `nan`. (utils.py 1258, 1282, 1306, 1344, 1348, 1383.) -/
noncomputable def flmod : Fl ℝ → ℝ → Fl ℝ
  | .fin x, m => .fin (fmod x m)
  | _, _ => .nan

/-- utils.py 1286-1306, `offset`, on one angle. -/
noncomputable def offset (x t : ℝ) : ℝ := fmod (x + t * (2 * π)) (2 * π)

/-- utils.py 1241-1260, `to_sinebow`, on one angle: the three colour channels. -/
noncomputable def toSinebow (x : ℝ) : ℝ × ℝ × ℝ :=
  let h := fmod (x / (2 * π) + 0.5) 1
  let f := fun y => sin (π * y) ^ 2
  (f (3 / 6 - h), f (5 / 6 - h), f (7 / 6 - h))

/-- The range used by `np.histogram(a, bins)` without a `range` argument: `(0, 1)` for an empty array,
`(min, max)` otherwise, widened by one half on each side if `min = max`. (utils.py 1281.) -/
noncomputable def histRange (xs : List ℝ) : ℝ × ℝ :=
  match xs with
  | [] => (0, 1)
  | x :: l =>
    let lo := l.foldl min x
    let hi := l.foldl max x
    if lo = hi then (lo - 0.5, hi + 0.5) else (lo, hi)

/-- `ticks[k]` of `np.histogram(a, bins)`: equally spaced edges. (utils.py 1281.) -/
noncomputable def histTick (xs : List ℝ) (bins k : ℕ) : ℝ :=
  (histRange xs).1 + k * (((histRange xs).2 - (histRange xs).1) / bins)

open Classical in
/-- `vals[k]`: bins are closed on the left, open on the right, except the last one, which is closed. (utils.py 1281.) -/
noncomputable def histCount (xs : List ℝ) (bins k : ℕ) : ℕ :=
  xs.countP fun x => decide (histTick xs bins k ≤ x ∧
    (x < histTick xs bins (k + 1) ∨ (k + 1 = bins ∧ x ≤ histTick xs bins (k + 1))))

/-- `np.argmax` of `f 0, ..., f (n-1)`: the first maximum. (utils.py 1282.) -/
def argmaxFirst (n : ℕ) (f : ℕ → ℕ) : ℕ :=
  (List.range n).foldl (fun best k => if f best < f k then k else best) 0

/-- utils.py 1263-1283, `center`, on the list of all angles (finite angles; `nan` makes `np.histogram` raise). -/
noncomputable def center (xs : List ℝ) : List ℝ :=
  let bins := 50
  let tick := histTick xs bins (argmaxFirst bins (histCount xs bins))
  xs.map fun x => fmod ((x - tick) + π) (2 * π)

/-- A NumPy array of dimension 0, 1, 2 or more, with its shape. (utils.py 1335-1349.) -/
inductive NdArr (α : Type) where
  | d0
  | d1 (n : ℕ) (f : ℕ → α)
  | d2 (n m : ℕ) (f : ℕ → ℕ → α)
  | higher

/-- `(M @ maps) % (2π)`, entry `(i, p)`; `k` is the inner dimension. (utils.py 1344, 1348.) -/
noncomputable def combineAt (k : ℕ) (M : ℕ → ℕ → ℝ) (maps : ℕ → ℕ → Fl ℝ) (i p : ℕ) : Fl ℝ :=
  flmod (flSum ((List.range k).map fun j => Fl.fin (M i j) * maps j p)) (2 * π)

/-- utils.py 1309-1349, `linear_combination` (lists are converted to arrays first). -/
noncomputable def linearCombination (maps : NdArr (Fl ℝ)) (M : NdArr ℝ) : Except PyErr (NdArr (Fl ℝ)) :=
  match maps with
  | .d2 k n f =>
    match M with
    | .d2 l k' A => if k = k' then .ok (.d2 l n (combineAt k A f)) else .error .assertionError
    | .d1 k' a => if k = k' then .ok (.d1 n (combineAt k (fun _ => a) f 0)) else .error .assertionError
    | _ => .error .assertionError
  | _ => .error .assertionError

/-- utils.py 1386-1389 -/
noncomputable def sigmoid (k x : ℝ) : ℝ := 1 / (1 + Real.exp (-((x - 0.5) * 2) / k))

open Classical in
/-- utils.py 1391-1392 -/
noncomputable def triangle (y : ℝ) : ℝ := if y < 1 then y else 2 - y

open Classical in
/-- utils.py 1352-1394, `levelset_coloring`, on one angle; `n` is the argument `n_levelsets` (`nonInt` if it is not an
integer). -/
noncomputable def levelsetColoring (n : ClassArg) (smoothing x : ℝ) : Except PyErr ℝ :=
  match n with
  | .nonInt => .error .assertionError
  | .int n =>
    if 0 < n then
      let n2 : ℝ := ((n * 2 : ℤ) : ℝ)
      let c := x / (2 * π)
      if smoothing = 0 then .ok (fmod (⌊c * n2⌋ : ℝ) 2)
      else .ok (sigmoid smoothing (triangle (fmod (c * n2) 2)))
    else .error .assertionError

end Dreimac
