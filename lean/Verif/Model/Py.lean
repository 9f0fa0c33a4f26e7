/-!
# Python-level conventions shared by the model

Exceptions as values, `range`, and Python/NumPy indexing.
-/

namespace Dreimac

/-- The Python exceptions the modelled functions can raise.  The constructors carry the payload that a
user can observe (only for the error messages that contain data).
`outOfBoundsWrite` is not a Python exception: it marks an unchecked store beyond the end of a buffer in
numba-compiled code (undefined behaviour).  Theorems show it never happens. (raised throughout, e.g. emcoords.py 88-118, toroidalcoords.py 91-96.) -/
inductive PyErr where
  | assertionError
  | indexError
  | valueError
  | typeError
  | nameError
  | attributeError
  | linAlgError
  | overflowError
  /-- emcoords.py 145-148: "The cohomology class selected is too short, ..." -/
  | tooShort
  /-- toroidalcoords.py 91-95: "The supports of the chosen persistent cohomology classes do not intersect" -/
  | supportsDisjoint
  /-- toroidalcoords.py 160-165, complexprojectivecoords.py 144-149:
  "The cohomology class at index <i> does not have an integral lift." -/
  | noIntegralLift (i : Int)
  | outOfBoundsWrite
  /-- Not a Python exception: the model stopped a `while` loop after the number of iterations given as `fuel`
  (the Python call does not return if this happens for every `fuel`). -/
  | outOfFuel
  deriving DecidableEq, Repr

/-- Python's `range(a, b)` for natural numbers. (utils.py 325-616, combinatorial.py 11-27.) -/
def pyRange (a b : Nat) : List Nat := List.range' a (b - a)

/-- Python indexing of a sequence: non-negative indices count from the front, negative ones from the
back, anything else raises `IndexError`. (emcoords.py 100-117.) -/
def pyGet {α : Type} (l : List α) (i : Int) : Except PyErr α :=
  let j : Int := if i < 0 then i + l.length else i
  if 0 ≤ j then
    match l[j.toNat]? with
    | some a => .ok a
    | none => .error .indexError
  else .error .indexError

end Dreimac
