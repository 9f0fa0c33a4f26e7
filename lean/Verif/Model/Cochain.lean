import Mathlib.Data.List.Sort
import Verif.Model.Combinatorial

/-!
# Model of `CohomologyUtils` (utils.py 228-313): lifting, reindexing, parity, sparse to dense
-/

namespace Dreimac

/-- One row of a ripser cocycle: the vertices of a simplex (all columns but the last) and the value (the last
column).  A cocycle `ndarray(K, d+2)` is a list of rows. (utils.py 229-313.) -/
structure Row where
  verts : List ℕ
  val : ℤ
  deriving DecidableEq, Repr

/-- A sparse cochain, `ndarray(K, d+2, dtype=int)`. (utils.py 229-313.) -/
abbrev SparseCochain := List Row

/-- utils.py 249: the entry is shifted iff `cocycle[k, -1] > (prime - 1) / 2`; the division is Python's true
division, so the test is `2 * v > prime - 1`. -/
def liftVal (prime : ℤ) (v : ℤ) : ℤ := if 2 * v > prime - 1 then v - prime else v

/-- utils.py 229-250, `lift_to_integer_cocycle`.  The function overwrites its argument; the model returns the
new content of the array. -/
def liftToIntegerCocycle (c : SparseCochain) (prime : ℤ) : SparseCochain :=
  c.map fun r => { r with val := liftVal prime r.val }

/-- A cocycle row whose vertices are the integers stored in the array (`-1` can occur after reindexing). (utils.py 253-273.) -/
structure ZRow where
  verts : List ℤ
  val : ℤ
  deriving DecidableEq, Repr

/-- utils.py 269-270: `idx_map = -1 * np.ones(N); idx_map[idx_land] = np.arange(idx_land.size)`.
NumPy assigns in order, so a later duplicate wins; an index outside `0..N-1` raises `IndexError`.
Simplification: landmark indices are natural numbers. -/
def idxMap (idxLand : List ℕ) (N : ℕ) : Except PyErr (List ℤ) :=
  idxLand.zipIdx.foldlM (fun m (v, pos) =>
    if v < m.length then .ok (m.set v (pos : ℤ)) else .error .indexError) (List.replicate N (-1))

/-- utils.py 271-273: `c[:, 0:-1] = idx_map[c[:, 0:-1]]`, with NumPy's (negative) indexing. -/
def reindexRow (m : List ℤ) (r : ZRow) : Except PyErr ZRow := do
  let vs ← r.verts.mapM fun v => pyGet m v
  pure { r with verts := vs }

/-- utils.py 253-273, `reindex_cocycles` (returns the new contents). -/
def reindexCocycles (cocycles : List (List (List ZRow))) (idxLand : List ℕ) (N : ℕ) :
    Except PyErr (List (List (List ZRow))) := do
  let m ← idxMap idxLand N
  cocycles.mapM fun ck => ck.mapM fun c => c.mapM fun r => reindexRow m r

theorem count_set_lt {seen : List Bool} {current : ℕ} (h : seen[current]? = some false) :
    (seen.set current true).count false < seen.count false := by
  induction seen generalizing current with
  | nil => simp at h
  | cons b seen ih =>
    cases current with
    | zero =>
      simp only [List.getElem?_cons_zero, Option.some.injEq] at h
      subst h; simp
    | succ c =>
      simp only [List.getElem?_cons_succ] at h
      have := ih h
      simp only [List.set_cons_succ, List.count_cons]
      omega

/-- utils.py 286-288, the inner `while` loop of `parity`:
`while not elements_seen[current]: elements_seen[current] = True; current = permutation[current]`. -/
def parityWalk (perm : List ℕ) (seen : List Bool) (current : ℕ) : Except PyErr (List Bool) :=
  match _h : seen[current]? with
  | none => .error .indexError
  | some true => .ok seen
  | some false =>
    match perm[current]? with
    | none => .error .indexError
    | some next => parityWalk perm (seen.set current true) next
termination_by seen.count false
decreasing_by exact count_set_lt _h

/-- utils.py 281-288, the outer loop: one pass over `enumerate(elements_seen)` (which sees the mutated list). -/
def parityLoop (perm : List ℕ) : List ℕ → List Bool → ℕ → Except PyErr ℕ
  | [], _, cycles => .ok cycles
  | index :: rest, seen, cycles =>
    match seen[index]? with
    | none => .error .indexError
    | some true => parityLoop perm rest seen cycles
    | some false => do
      let seen' ← parityWalk perm seen index
      parityLoop perm rest seen' (cycles + 1)

/-- utils.py 275-289, `parity`. -/
def parity (perm : List ℕ) : Except PyErr ℤ := do
  let cycles ← parityLoop perm (List.range perm.length) (List.replicate perm.length false) 0
  pure (if ((perm.length : ℤ) - cycles) % 2 = 0 then 1 else -1)

/-- `np.argsort` on an integer array.  NumPy's default sort is not stable, but for pairwise different keys the
result is unique; the model uses a stable sort. (utils.py 293.) -/
def argsort (s : List ℕ) : List ℕ :=
  (List.range s.length).mergeSort fun i j => decide (s.getD i 0 ≤ s.getD j 0)

/-- utils.py 291-296, `order_simplex`. -/
def orderSimplex (s : List ℕ) : Except PyErr (List ℕ × ℤ) := do
  let p := argsort s
  let sign ← parity p
  pure (p.map fun i => s.getD i 0, sign)

/-- utils.py 305-312, the loop body of `sparse_cocycle_to_vector`.  (NumPy checks the bounds of the store.) -/
def storeRow (T : Table) (vec : List ℤ) (r : Row) : Except PyErr (List ℤ) := do
  let (s, sign) ← orderSimplex r.verts
  let idx := cnsForward s T
  if idx < vec.length then .ok (vec.set idx (r.val * sign)) else .error .indexError

/-- utils.py 298-313, `sparse_cocycle_to_vector`; `dim` is `sparse_cocycle.shape[1] - 2`. -/
def sparseCocycleToVector (dim : ℕ) (c : SparseCochain) (T : Table) (nVertices : ℕ) : Except PyErr (List ℤ) :=
  c.foldlM (storeRow T) (List.replicate (numberOfSimplices dim nVertices T) 0)

end Dreimac
