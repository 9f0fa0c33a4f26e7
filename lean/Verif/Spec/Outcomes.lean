import Verif.Model.Toroidal

/-!
# How a call of `ToroidalCoords.get_coordinates` can end
-/

namespace Dreimac

/-- The class argument selects the interval `pt` of `dgm`: non-negative numbers count from the most persistent class (`σ` is
the ranking), negative ones from the least persistent class. -/
def SelectsInterval (dgm : List (Fl ℝ × Fl ℝ)) (σ : List ℕ) (idx : ClassArg) (pt : Fl ℝ × Fl ℝ) : Prop :=
  ∃ r j : ℕ, r < dgm.length ∧ (idx = .int r ∨ idx = .int (r - dgm.length : ℤ)) ∧ σ[r]? = some j ∧ dgm[j]? = some pt

/-- `b` is the birth of one of the selected classes and `d` the (finite) death of one of them. -/
def SelectedEnds (dgm : List (Fl ℝ × Fl ℝ)) (σ : List ℕ) (idxs : List ClassArg) (b d : ℝ) : Prop :=
  ∃ i ∈ idxs, ∃ j ∈ idxs, ∃ pt qt, SelectsInterval dgm σ i pt ∧ SelectsInterval dgm σ j qt ∧ pt.1 = .fin b ∧ qt.2 = .fin d

/-- Classes are selected, and all of them exist. -/
structure SelectsAll (dgm : List (Fl ℝ × Fl ℝ)) (σ : List ℕ) (idxs : List ClassArg) : Prop where
  nonempty : idxs ≠ []
  exist : ∀ idx ∈ idxs, ∃ pt, SelectsInterval dgm σ idx pt

/-- The selected classes exist, are alive together, and long enough. -/
structure JointlyAlive (dgm : List (Fl ℝ × Fl ℝ)) (σ : List ℕ) (idxs : List ClassArg) (std : Bool) : Prop extends
    SelectsAll dgm σ idxs where
  overlap : ∀ b d, SelectedEnds dgm σ idxs b d → b < d
  long : ∀ b d, SelectedEnds dgm σ idxs b d → (if std then 2 * b else b) ≤ d

/-- The complete list of outcomes of a call with arguments `a` on an object with the intervals `dgm`, ranked by `σ`. -/
inductive CallOutcome (dgm : List (Fl ℝ × Fl ℝ)) (σ : List ℕ) (a : Args) : Except PyErr (List (ℕ → Fl ℝ)) → Prop
  /-- One coordinate per selected class. -/
  | returns (h : JointlyAlive dgm σ a.cocycleIdxs a.standardRange) (coords : List (ℕ → Fl ℝ))
      (h' : coords.length = a.cocycleIdxs.length) : CallOutcome dgm σ a (.ok coords)
  /-- The first wrong class index is not an integer. -/
  | notAnInteger (l l' : List ClassArg) (h : a.cocycleIdxs = l ++ .nonInt :: l')
      (h' : ∀ idx ∈ l, ∃ pt, SelectsInterval dgm σ idx pt) : CallOutcome dgm σ a (.error .assertionError)
  /-- The first wrong class index does not exist (negative indices count from the end). -/
  | outOfRange (l l' : List ClassArg) (z : ℤ) (h : a.cocycleIdxs = l ++ .int z :: l')
      (h' : ∀ idx ∈ l, ∃ pt, SelectsInterval dgm σ idx pt) (hz : z < -dgm.length ∨ dgm.length ≤ z) :
      CallOutcome dgm σ a (.error .indexError)
  /-- No class selected. -/
  | noClass (h : a.cocycleIdxs = []) : CallOutcome dgm σ a (.error .valueError)
  /-- A selected class dies before (or when) another one is born. -/
  | disjoint (h : SelectsAll dgm σ a.cocycleIdxs) (b d : ℝ) (hbd : SelectedEnds dgm σ a.cocycleIdxs b d) (h' : d ≤ b) :
      CallOutcome dgm σ a (.error .supportsDisjoint)
  /-- A selected class dies before the allowed range of another one begins. -/
  | tooShort (h : SelectsAll dgm σ a.cocycleIdxs) (ho : ∀ b d, SelectedEnds dgm σ a.cocycleIdxs b d → b < d) (b d : ℝ)
      (hbd : SelectedEnds dgm σ a.cocycleIdxs b d) (h' : d < (if a.standardRange then 2 * b else b)) :
      CallOutcome dgm σ a (.error .tooShort)
  /-- The second repair of a call. -/
  | twoRepairs (h : JointlyAlive dgm σ a.cocycleIdxs a.standardRange) (hc : a.check = true)
      (h' : 2 ≤ a.cocycleIdxs.length) : CallOutcome dgm σ a (.error .valueError)
  | noLift (h : JointlyAlive dgm σ a.cocycleIdxs a.standardRange) (i : ℕ) (hi : i < a.cocycleIdxs.length)
      (hc : a.check = true) : CallOutcome dgm σ a (.error (.noIntegralLift i))
  /-- Linearly dependent classes. -/
  | dependent (h : JointlyAlive dgm σ a.cocycleIdxs a.standardRange) (h' : 2 ≤ a.cocycleIdxs.length) :
      CallOutcome dgm σ a (.error .linAlgError)

end Dreimac
