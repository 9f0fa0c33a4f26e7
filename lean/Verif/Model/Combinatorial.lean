import Mathlib.Data.Nat.Choose.Basic
import Verif.Model.Py

/-!
# Model of `dreimac/combinatorial.py`
-/

namespace Dreimac

/-- A two-dimensional integer lookup table (an `ndarray` of dtype int; entries are exact here). (combinatorial.py 8-14.) -/
abbrev Table := List (List Nat)

/-- combinatorial.py 8-15, `combinatorial_number_system_table`: rows `0..maximum_number_vertices`, columns
`0..maximum_dimension + 1`, entry `comb(i, l, exact=True)`.  Simplification: entries are unbounded naturals; `cnsTable64` has the
64-bit entries of the code, and C93 shows that both agree unless the constructor raises. -/
def cnsTable (maxVertices maxDimension : Nat) : Table :=
  (List.range (maxVertices + 1)).map fun i =>
    (List.range (maxDimension + 2)).map fun l => Nat.choose i l

/-- Storing a Python integer into an `int64` array (`dtype=int`): `OverflowError` unless it fits. (combinatorial.py 13.) -/
def storeInt64 (z : Nat) : Except PyErr Nat := if z < 2 ^ 63 then .ok z else .error .overflowError

/-- combinatorial.py 8-15, `combinatorial_number_system_table` with its `int64` entries: the loop over the rows and
columns raises at the first entry that does not fit. -/
def cnsTable64 (maxVertices maxDimension : Nat) : Except PyErr Table :=
  (List.range (maxVertices + 1)).mapM fun i =>
    (List.range (maxDimension + 2)).mapM fun l => storeInt64 (Nat.choose i l)

/-- An unchecked read `lookup_table[i, l]`.  Reads outside the table are undefined in numba; the model returns `0`
for them, and `Verif.Props.Combinatorial` shows that the reads performed on vertices below the number of
landmarks are inside the table. (combinatorial.py 18, 27, 33, 40.) -/
def Table.read (T : Table) (i l : Nat) : Nat := ((T[i]?).getD [])[l]?.getD 0

/-- The read `lookup_table[i, l]` is inside the table. (combinatorial.py 18, 27, 33, 40.) -/
def Table.InBounds (T : Table) (i l : Nat) : Prop := ∃ row, T[i]? = some row ∧ l < row.length

/-- combinatorial.py 17-18, `number_of_simplices_of_dimension`. -/
def numberOfSimplices (dimension nVertices : Nat) (T : Table) : Nat := T.read nVertices (dimension + 1)

/-- combinatorial.py 20-28, `combinatorial_number_system_forward`:
`res = 0; for l in range(dimension + 1): res += lookup_table[oriented_simplex[l], l + 1]`. -/
def cnsForward (simplex : List Nat) (T : Table) : Nat :=
  (List.range simplex.length).foldl (fun res l => res + T.read (simplex.getD l 0) (l + 1)) 0

/-- `int64` addition in numba-compiled code: the sum modulo `2^64` (two's complement, no check). (combinatorial.py 27, 33, 40.) -/
def add64 (x y : Int) : Int := Int.bmod (x + y) (2 ^ 64)

/-- combinatorial.py 20-28, `combinatorial_number_system_forward` with the `int64` arithmetic of the compiled code. -/
def cnsForward64 (simplex : List Nat) (T : Table) : Int :=
  (List.range simplex.length).foldl (fun res l => add64 res (T.read (simplex.getD l 0) (l + 1))) 0

/-- combinatorial.py 31-33, `combinatorial_number_system_d1_forward`. -/
def cnsD1 (v0 v1 : Nat) (T : Table) : Nat := T.read v0 1 + T.read v1 2

/-- combinatorial.py 36-40, `combinatorial_number_system_d2_forward`. -/
def cnsD2 (v0 v1 v2 : Nat) (T : Table) : Nat := T.read v0 1 + T.read v1 2 + T.read v2 3

end Dreimac
