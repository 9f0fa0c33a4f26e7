import Verif.Model.ClassMap
import Verif.Spec.Outcomes

/-!
# How a call of `LensCoords`, `ProjectiveCoords` or `ComplexProjectiveCoords` can end
-/

namespace Dreimac

/-- The interval ends before the allowed range begins. -/
def TooShort (std : Bool) (pt : Fl ℝ × Fl ℝ) : Prop :=
  ∃ b d : ℝ, pt = (.fin b, .fin d) ∧ d < (if std then 2 * b else b)

/-- The complete table of the outcomes of a call with arguments `a` on an object with the intervals `dgm`, ranked by `σ`,
`k` landmarks and `N` data points, when the target of the dimension reduction is projective space of dimension `q`.  The
conditions of different rows exclude each other. -/
inductive ReductionOutcome {𝕜 : Type} (dgm : List (Fl ℝ × Fl ℝ)) (σ : List ℕ) (k N : ℕ) (q : ℤ) (a : ProjArgs) :
    Except PyErr (Arr 𝕜) → Prop
  /-- A class index that is not an integer. -/
  | notAnInteger (h : a.cocycleIdx = .nonInt) : ReductionOutcome dgm σ k N q a (.error .assertionError)
  /-- A class index that does not exist. -/
  | outOfRange (z : ℤ) (h : a.cocycleIdx = .int z) (h' : z < -dgm.length ∨ dgm.length ≤ z) :
      ReductionOutcome dgm σ k N q a (.error .indexError)
  | tooShort (pt : Fl ℝ × Fl ℝ) (h : SelectsInterval dgm σ a.cocycleIdx pt) (h' : TooShort a.standardRange pt) :
      ReductionOutcome dgm σ k N q a (.error .tooShort)
  /-- An unknown reduction mode. -/
  | unknownMode (pt : Fl ℝ × Fl ℝ) (h : SelectsInterval dgm σ a.cocycleIdx pt) (h' : ¬ TooShort a.standardRange pt)
      (hm : a.mode = .other) : ReductionOutcome dgm σ k N q a (.error .assertionError)
  /-- The mode "one-by-one" only reaches dimensions from `1` to `k - 1`. -/
  | notReached (pt : Fl ℝ × Fl ℝ) (h : SelectsInterval dgm σ a.cocycleIdx pt) (h' : ¬ TooShort a.standardRange pt)
      (hm : a.mode = .oneByOne) (hq : q < 1 ∨ k ≤ q) : ReductionOutcome dgm σ k N q a (.error .attributeError)
  /-- One row per data point, and the wanted number of columns if there are enough landmarks. -/
  | returns (pt : Fl ℝ × Fl ℝ) (h : SelectsInterval dgm σ a.cocycleIdx pt) (h' : ¬ TooShort a.standardRange pt)
      (hm : a.mode ≠ .other) (hq : a.mode = .oneByOne → 1 ≤ q ∧ q < k) (X : Arr 𝕜) (hrows : X.rows = N)
      (hcols : ∀ c : ℕ, q + 1 = c → X.cols = min k c) : ReductionOutcome dgm σ k N q a (.ok X)

end Dreimac
