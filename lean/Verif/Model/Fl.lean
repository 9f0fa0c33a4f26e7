import Mathlib.Algebra.Order.Field.Basic

/-!
# Floating point values with IEEE special values

`Fl K` is the set of values of a float: not-a-number, the two infinities, and finite values.  Finite arithmetic is
exact arithmetic in the ordered field `K`: rounding, overflow and signed zeros are not modelled.  The propagation
of `nan` and `inf` follows IEEE 754 (as in NumPy).
-/

namespace Dreimac

/-- the entries of float64 arrays, e.g. emcoords.py 176-187, utils.py 632-700. -/
inductive Fl (K : Type) where
  | nan
  | ninf
  | pinf
  | fin (x : K)
  deriving DecidableEq, Repr

namespace Fl
variable {K : Type} [Field K] [LinearOrder K]

instance : Zero (Fl K) := ⟨fin 0⟩
instance : Coe K (Fl K) := ⟨fin⟩

/-- IEEE addition. (emcoords.py 178, utils.py 632-700.) -/
def add : Fl K → Fl K → Fl K
  | nan, _ => nan
  | _, nan => nan
  | fin x, fin y => fin (x + y)
  | fin _, b => b
  | a, fin _ => a
  | pinf, pinf => pinf
  | ninf, ninf => ninf
  | pinf, ninf => nan
  | ninf, pinf => nan

/-- emcoords.py 80, utils.py 632-700. -/
def neg : Fl K → Fl K
  | nan => nan
  | pinf => ninf
  | ninf => pinf
  | fin x => fin (-x)

/-- The infinity with the sign of `x`, `nan` for `x = 0` (`0 * inf`). (See `mul`.) -/
def infSign (x : K) : Fl K := if 0 < x then pinf else if x < 0 then ninf else nan

/-- IEEE multiplication. (emcoords.py 139-150, utils.py 632-700.) -/
def mul : Fl K → Fl K → Fl K
  | nan, _ => nan
  | _, nan => nan
  | fin x, fin y => fin (x * y)
  | fin x, pinf => infSign x
  | fin x, ninf => neg (infSign x)
  | pinf, fin y => infSign y
  | ninf, fin y => neg (infSign y)
  | pinf, pinf => pinf
  | ninf, ninf => pinf
  | pinf, ninf => ninf
  | ninf, pinf => ninf

/-- IEEE division (every zero is a positive zero). (emcoords.py 181, utils.py 700.) -/
def div : Fl K → Fl K → Fl K
  | nan, _ => nan
  | _, nan => nan
  | fin x, fin y => if y = 0 then infSign x else fin (x / y)
  | fin _, _ => fin 0
  | pinf, fin y => if y < 0 then ninf else pinf
  | ninf, fin y => if y < 0 then pinf else ninf
  | _, _ => nan

instance : Add (Fl K) := ⟨add⟩
instance : Neg (Fl K) := ⟨neg⟩
instance : Sub (Fl K) := ⟨fun a b => add a (neg b)⟩
instance : Mul (Fl K) := ⟨mul⟩
instance : Div (Fl K) := ⟨div⟩

/-- IEEE `<`: every comparison with `nan` is false. (emcoords.py 177, toroidalcoords.py 91.) -/
def lt : Fl K → Fl K → Bool
  | nan, _ => false
  | _, nan => false
  | fin x, fin y => decide (x < y)
  | ninf, ninf => false
  | ninf, _ => true
  | _, ninf => false
  | pinf, _ => false
  | _, pinf => true

/-- IEEE `==` with zero. (emcoords.py 179-180.) -/
def isZero : Fl K → Bool
  | fin x => decide (x = 0)
  | _ => false

/-- emcoords.py 181. -/
def isNan : Fl K → Bool
  | nan => true
  | _ => false

@[simp] theorem fin_add (x y : K) : (fin x + fin y : Fl K) = fin (x + y) := rfl
@[simp] theorem fin_sub (x y : K) : (fin x - fin y : Fl K) = fin (x - y) := by
  show fin (x + -y) = _; rw [sub_eq_add_neg]
@[simp] theorem fin_mul (x y : K) : (fin x * fin y : Fl K) = fin (x * y) := rfl
theorem fin_div (x y : K) (h : y ≠ 0) : (fin x / fin y : Fl K) = fin (x / y) := if_neg h
@[simp] theorem lt_fin (x y : K) : lt (fin x) (fin y) = decide (x < y) := rfl
@[simp] theorem nan_add (a : Fl K) : (nan + a : Fl K) = nan := by cases a <;> rfl
@[simp] theorem add_nan (a : Fl K) : (a + nan : Fl K) = nan := by cases a <;> rfl
@[simp] theorem nan_mul (a : Fl K) : (nan * a : Fl K) = nan := by cases a <;> rfl
@[simp] theorem mul_nan (a : Fl K) : (a * nan : Fl K) = nan := by cases a <;> rfl
@[simp] theorem nan_div (a : Fl K) : (nan / a : Fl K) = nan := by cases a <;> rfl
@[simp] theorem div_nan (a : Fl K) : (a / nan : Fl K) = nan := by cases a <;> rfl
theorem zero_def : (0 : Fl K) = fin 0 := rfl

end Fl
end Dreimac
