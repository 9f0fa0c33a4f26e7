import Verif.Spec.ProjOutcomes

/-! # Specification vocabulary: what a call leaves on the object -/

namespace Dreimac

/-- The call with arguments `a` asks for the class with the interval from `b` to `d`, which is long enough, and the percentage `c`;
`r` is the cover radius for these arguments. -/
def CallRadius (dgm : List (Fl ℝ × Fl ℝ)) (σ : List ℕ) (a : ProjArgs) (r : ℝ) : Prop :=
  ∃ b d c : ℝ, SelectsInterval dgm σ a.cocycleIdx (.fin b, .fin d) ∧ a.perc = .fin c ∧
    (if a.standardRange then 2 * b else b) ≤ d ∧ 2 * r = (1 - c) * (if a.standardRange then 2 * b else b) + c * d

/-- The arguments `a` do not name a class, or one that is too short. -/
def FailsEarly (dgm : List (Fl ℝ × Fl ℝ)) (σ : List ℕ) (a : ProjArgs) : Prop :=
  a.cocycleIdx = .nonInt ∨ (∃ z : ℤ, a.cocycleIdx = .int z ∧ (z < -dgm.length ∨ dgm.length ≤ z)) ∨
    ∃ pt, SelectsInterval dgm σ a.cocycleIdx pt ∧ TooShort a.standardRange pt

/-- What the calls `call` leave on an object `o` (with the intervals `dgm` ranked by `σ`), whatever calls were made before:
the radius of the last call that asked for a class that is long enough, whether or not that call then failed; a call that fails does
not change the variances, a call that names no class (or one that is too short) fails and changes nothing at all, and a call that
returns stores variances, the same as if it had been the first call. -/
structure KeepsState {𝕜 : Type} (dgm : List (Fl ℝ × Fl ℝ)) (σ : List ℕ) (o : ProjObj)
    (call : ProjObj → ProjArgs → ProjObj × Except PyErr (Arr 𝕜)) : Prop where
  start : o.radius = none ∧ o.variance = none
  radius : ∀ (before after : List ProjArgs) (a : ProjArgs) (r : ℝ), CallRadius dgm σ a r → (∀ a' ∈ after, FailsEarly dgm σ a') →
    ((before ++ a :: after).foldl (fun o a => (call o a).1) o).radius = some (.fin r, .fin (2 * r))
  early : ∀ (before : List ProjArgs) (a : ProjArgs), FailsEarly dgm σ a →
    (call (before.foldl (fun o a => (call o a).1) o) a).1 = before.foldl (fun o a => (call o a).1) o ∧
      ∃ e, (call (before.foldl (fun o a => (call o a).1) o) a).2 = .error e
  variance_error : ∀ (before : List ProjArgs) (a : ProjArgs) (e : PyErr),
    (call (before.foldl (fun o a => (call o a).1) o) a).2 = .error e →
    (call (before.foldl (fun o a => (call o a).1) o) a).1.variance = (before.foldl (fun o a => (call o a).1) o).variance
  variance_ok : ∀ (before : List ProjArgs) (a : ProjArgs) (X : Arr 𝕜),
    (call (before.foldl (fun o a => (call o a).1) o) a).2 = .ok X →
    ((call (before.foldl (fun o a => (call o a).1) o) a).1.variance).isSome ∧
      (call (before.foldl (fun o a => (call o a).1) o) a).1.variance = (call o a).1.variance
  /-- The data set is never changed, nor are the intervals. -/
  data : ∀ calls : List ProjArgs, (calls.foldl (fun o a => (call o a).1) o).dgms = o.dgms ∧
    (calls.foldl (fun o a => (call o a).1) o).prime = o.prime ∧ (calls.foldl (fun o a => (call o a).1) o).nLand = o.nLand ∧
    (calls.foldl (fun o a => (call o a).1) o).nData = o.nData ∧ (calls.foldl (fun o a => (call o a).1) o).dist = o.dist ∧
    (calls.foldl (fun o a => (call o a).1) o).dtype = o.dtype ∧ (calls.foldl (fun o a => (call o a).1) o).idxLand = o.idxLand ∧
    (calls.foldl (fun o a => (call o a).1) o).table = o.table

/-- The same for `ToroidalCoords`: `after calls` is the object after the calls, `call a o` one call.  The stored radius is that of the last
call with classes that exist, are alive together and long enough, whether or not that call then failed; other calls fail and do not
change the radius.  The stored Gram matrices and change of basis are never changed by a call that fails or that returns one
coordinate, and a call that returns several coordinates stores them. -/
structure KeepsToroState (dgm : List (Fl ℝ × Fl ℝ)) (σ : List ℕ) (call : ToroObj → ℕ × Args → ToroObj × Except PyErr (List (ℕ → Fl ℝ)))
    (o : ToroObj) : Prop where
  start : o.radius = none ∧ o.gramInfo = none
  radius : ∀ (before after : List (ℕ × Args)) (fuel : ℕ) (a : Args) (B D c r : ℝ),
    JointlyAlive dgm σ a.cocycleIdxs a.standardRange → SelectedEnds dgm σ a.cocycleIdxs B D →
    (∀ b d, SelectedEnds dgm σ a.cocycleIdxs b d → b ≤ B ∧ D ≤ d) → a.perc = .fin c →
    2 * r = (1 - c) * (if a.standardRange then 2 * B else B) + c * D →
    (∀ a' ∈ after, ¬ JointlyAlive dgm σ a'.2.cocycleIdxs a'.2.standardRange) →
    ((before ++ (fuel, a) :: after).foldl (fun o a => (call o a).1) o).radius = some (.fin r, .fin (2 * r))
  early : ∀ (before : List (ℕ × Args)) (a : ℕ × Args), ¬ JointlyAlive dgm σ a.2.cocycleIdxs a.2.standardRange →
    (∃ e, (call (before.foldl (fun o a => (call o a).1) o) a).2 = .error e) ∧
    (call (before.foldl (fun o a => (call o a).1) o) a).1.radius = (before.foldl (fun o a => (call o a).1) o).radius
  gram_error : ∀ (before : List (ℕ × Args)) (a : ℕ × Args) (e : PyErr),
    (call (before.foldl (fun o a => (call o a).1) o) a).2 = .error e →
    (call (before.foldl (fun o a => (call o a).1) o) a).1.gramInfo = (before.foldl (fun o a => (call o a).1) o).gramInfo
  gram_one : ∀ (before : List (ℕ × Args)) (a : ℕ × Args) (coords : List (ℕ → Fl ℝ)),
    (call (before.foldl (fun o a => (call o a).1) o) a).2 = .ok coords → coords.length ≤ 1 →
    (call (before.foldl (fun o a => (call o a).1) o) a).1.gramInfo = (before.foldl (fun o a => (call o a).1) o).gramInfo
  gram_more : ∀ (before : List (ℕ × Args)) (a : ℕ × Args) (coords : List (ℕ → Fl ℝ)),
    (call (before.foldl (fun o a => (call o a).1) o) a).2 = .ok coords → 2 ≤ coords.length →
    (call (before.foldl (fun o a => (call o a).1) o) a).1.gramInfo.isSome

end Dreimac
