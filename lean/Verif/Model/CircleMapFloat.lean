import Verif.Model.Float
import Verif.Model.CircleMap

/-!
# `CircleMapUtils` in rounded arithmetic (utils.py 1241-1394)

The machine numbers `np.pi` and `2 * np.pi` are parameters `pi` and `tau`.  Library functions (`np.sin`, `np.exp`) are assumed to
be correctly rounded.
-/

namespace Dreimac

section
variable {K : Type} [Field K] [LinearOrder K] [IsStrictOrderedRing K] [FloorRing K]

/-- utils.py 1306, `offset`, on one angle, in rounded arithmetic. -/
def offsetF (rnd : K → Fl K) (tau : K) (x t : Fl K) : Fl K :=
  let rd := Fl.round rnd
  npModF rnd (rd (x + rd (t * Fl.fin tau))) tau

/-- utils.py 1282, `center`, on one angle, in rounded arithmetic; `tick` is `ticks[np.argmax(vals)]`. -/
def centerF (rnd : K → Fl K) (pi tau : K) (tick x : Fl K) : Fl K :=
  let rd := Fl.round rnd
  npModF rnd (rd (rd (x - tick) + Fl.fin pi)) tau

/-- utils.py 1344, 1347-1349, `linear_combination`, one entry, in rounded arithmetic: `a` is a row of the matrix of integers
(converted to floats), `c` a column of angles, `order` the order of summation of the matrix product.  (Fused multiply-add is not
modelled.) -/
def combineF (rnd : K → Fl K) (tau : K) (order : SumTree) (a : ℕ → K) (c : ℕ → Fl K) : Fl K :=
  npModF rnd (order.eval rnd fun j => Fl.round rnd (Fl.fin (a j) * c j)) tau

/-- `np.floor`. (utils.py 1383.) -/
def Fl.floorF : Fl K → Fl K
  | .fin x => .fin (⌊x⌋ : K)
  | v => v

/-- utils.py 1380-1383, `levelset_coloring` with `smoothing=0`, on one angle; `n2` is twice the number of level sets. -/
def levelsetHardF (rnd : K → Fl K) (tau : K) (n2 : K) (x : Fl K) : Fl K :=
  let rd := Fl.round rnd
  npModF rnd (Fl.floorF (rd (rd (x / Fl.fin tau) * Fl.fin n2))) 2

/-- utils.py 1391-1392, `triangle`. -/
def triangleF (rnd : K → Fl K) (y : Fl K) : Fl K :=
  if Fl.lt y (Fl.fin 1) then y else Fl.round rnd (Fl.fin 2 - y)

end

/-- utils.py 1386-1389, `sigmoid`. -/
noncomputable def sigmoidF (rnd : ℝ → Fl ℝ) (k x : Fl ℝ) : Fl ℝ :=
  let rd := Fl.round rnd
  let x := rd (rd (x - Fl.fin (1 / 2)) * Fl.fin 2)
  rd (Fl.fin 1 / rd (Fl.fin 1 + rd (Fl.exp (rd (-x / k)))))

/-- utils.py 1394, `levelset_coloring` with `smoothing ≠ 0`, on one angle. -/
noncomputable def levelsetSmoothF (rnd : ℝ → Fl ℝ) (tau : ℝ) (n2 : ℝ) (k x : Fl ℝ) : Fl ℝ :=
  let rd := Fl.round rnd
  sigmoidF rnd k (triangleF rnd (npModF rnd (rd (rd (x / Fl.fin tau) * Fl.fin n2)) 2))

/-- `np.sin` on extended values. (utils.py 1259.) -/
noncomputable def Fl.sin : Fl ℝ → Fl ℝ
  | .fin x => .fin (Real.sin x)
  | _ => .nan

/-- utils.py 1258-1260, `to_sinebow`, one channel (`a` is the machine number `3/6`, `5/6` or `7/6`). -/
noncomputable def sinebowF (rnd : ℝ → Fl ℝ) (pi tau a : ℝ) (x : Fl ℝ) : Fl ℝ :=
  let rd := Fl.round rnd
  let h := npModF rnd (rd (rd (x / Fl.fin tau) + Fl.fin (1 / 2))) 1
  let y := rd (Fl.fin a - h)
  let s := rd (Fl.sin (rd (Fl.fin pi * y)))
  rd (s * s)

end Dreimac
