import Mathlib.Algebra.Order.Floor.Ring
import Mathlib.Data.Int.Log
import Verif.Model.Fl

/-!
# Specification vocabulary: floating point rounding (independent of the code)

A number format is described by its rounding function `rnd : K → Fl K`, which sends every real number to the machine
number the hardware delivers for it (possibly an infinity).  `binary p emin emax` is the IEEE 754 format with `p` bits of
precision and exponents from `emin` to `emax`, with subnormal numbers, overflow, and rounding to nearest, ties to even.
-/

namespace Dreimac

section
variable {K : Type} [Field K] [LinearOrder K]

/-- `a ≤ b` for values of a float; false if one of them is `nan`. -/
def Fl.Le : Fl K → Fl K → Prop
  | .nan, _ => False
  | _, .nan => False
  | .ninf, _ => True
  | _, .pinf => True
  | .fin x, .fin y => x ≤ y
  | _, _ => False

/-- Round a finite value, leave the others. -/
def Fl.round (rnd : K → Fl K) : Fl K → Fl K
  | .fin x => rnd x
  | v => v

/-- `x` is a machine number. -/
def Machine (rnd : K → Fl K) (x : K) : Prop := rnd x = .fin x

/-- What every reasonable rounding function satisfies. -/
structure Rounding (rnd : K → Fl K) : Prop where
  notNan : ∀ x, rnd x ≠ .nan
  mono : ∀ x y, x ≤ y → Fl.Le (rnd x) (rnd y)
  zero : Machine rnd 0
  one : Machine rnd 1
  neg : ∀ x, rnd (-x) = -(rnd x)
  /-- the result is a machine number -/
  idem : ∀ x y, rnd x = .fin y → Machine rnd y
  /-- gradual underflow: the difference of different machine numbers is not rounded to zero -/
  gradual : ∀ x y, Machine rnd x → Machine rnd y → rnd (x - y) = .fin 0 → x = y

/-- The error of a rounding function: relative error `u` plus an absolute error `eta` (underflow); sums of machine numbers
have no underflow error. -/
structure ErrorBound (rnd : K → Fl K) (u eta : K) : Prop where
  all : ∀ x y, rnd x = .fin y → |y - x| ≤ u * |x| + eta
  sum : ∀ x y s, Machine rnd x → Machine rnd y → rnd (x + y) = .fin s → |s - (x + y)| ≤ u * |x + y|

end

/-- Round to the nearest integer, ties to even. -/
def nearestEven {K : Type} [Field K] [LinearOrder K] [IsStrictOrderedRing K] [FloorRing K] (x : K) : ℤ :=
  if Int.fract x < 1 / 2 ∨ (Int.fract x = 1 / 2 ∧ ⌊x⌋ % 2 = 0) then ⌊x⌋ else ⌊x⌋ + 1

section
variable {K : Type} [Field K] [LinearOrder K] [IsStrictOrderedRing K] [FloorRing K]

/-- The distance between neighbouring numbers of the format near `x`. -/
def spacing (p : ℕ) (emin : ℤ) (x : K) : K := 2 ^ (max emin (Int.log 2 |x|) - p + 1)

/-- Rounding without overflow. -/
def roundUnbounded (p : ℕ) (emin : ℤ) (x : K) : K := nearestEven (x / spacing p emin x) * spacing p emin x

/-- IEEE 754 rounding to `p` bits with exponents from `emin` to `emax`. -/
def binary (p : ℕ) (emin emax : ℤ) (x : K) : Fl K :=
  let y := roundUnbounded p emin x
  if 2 ^ (emax + 1) ≤ y then .pinf else if y ≤ -2 ^ (emax + 1) then .ninf else .fin y

/-- The format of NumPy's `float64`. -/
def float64 (x : K) : Fl K := binary 53 (-1022) 1023 x

end

end Dreimac
