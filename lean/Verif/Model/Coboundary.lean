import Mathlib.Algebra.Ring.Int.Defs
import Mathlib.Data.Int.Cast.Basic
import Verif.Model.Combinatorial

/-!
# Model of the coboundary matrix builders (utils.py 315-629) and the sparse matrices they return
-/

namespace Dreimac

/-- One position of the preallocated buffers `rows`, `columns`, `values`. (utils.py 329-331, 379-381, 467-469, 552-554.) -/
structure Entry where
  row : ℤ
  col : ℤ
  val : ℤ
  deriving DecidableEq, Repr

/-- The stores `rows[n_entries] = e.row; columns[n_entries] = e.col; values[n_entries] = e.val; n_entries += 1`
into buffers of length `cap`, as compiled by numba (no bounds check: a store beyond the end is undefined
behaviour, marked by an error).  The model keeps the used prefix `[:n_entries]` of the buffers. (utils.py 337-347, 390-415, 475-508, 560-612.) -/
def push (cap : ℕ) (buf : List Entry) (e : Entry) : Except PyErr (List Entry) :=
  if buf.length < cap then .ok (buf ++ [e]) else .error .outOfBoundsWrite

/-- Storing a 64-bit integer into an `np.int32` array keeps it modulo `2^32` (two's complement). (utils.py 329-331, 379-381, 467-469, 552-554.) -/
@[irreducible] def store32 (z : ℕ) : ℤ := Int.bmod (z : ℤ) (2 ^ 32)

/-- A sparse matrix in coordinate form; duplicates are summed. (utils.py 357, 435, 525, 626.) -/
structure SparseMat where
  nRows : ℕ
  nCols : ℕ
  entries : List (ℕ × ℕ × ℤ)
  deriving DecidableEq, Repr

/-- `sparse.csr_array((values, (rows, columns)), shape=(nRows, nCols))`: scipy raises `ValueError` if an index is
negative or exceeds the shape. (utils.py 357, 435, 525, 626.) -/
def csrArray (nRows nCols : ℕ) (es : List Entry) : Except PyErr SparseMat :=
  if es.all fun e => decide (0 ≤ e.row ∧ e.row < nRows ∧ 0 ≤ e.col ∧ e.col < nCols) then
    .ok ⟨nRows, nCols, es.map fun e => (e.row.toNat, e.col.toNat, e.val)⟩
  else .error .valueError

/-- `(A @ x)[r]` (toroidalcoords.py 143, 225, 227, complexprojectivecoords.py 127, 160.) -/
def SparseMat.mulVec {R : Type} [Ring R] (A : SparseMat) (x : ℕ → R) (r : ℕ) : R :=
  (A.entries.map fun e => if e.1 = r then (e.2.2 : R) * x e.2.1 else 0).sum

section builders

variable {K : Type} [LT K] [DecidableLT K]

/-- utils.py 325-351, `_delta0_get_row_columns_values`. -/
def delta0Loop (dist : ℕ → ℕ → K) (threshold : K) (T : Table) (n cap : ℕ) : Except PyErr (List Entry) :=
  (pyRange 0 n).foldlM (init := ([] : List Entry)) fun buf i =>
    (pyRange (i + 1) n).foldlM (init := buf) fun buf j =>
      if dist i j < threshold then do
        let rowIndex := cnsD1 i j T
        let buf ← push cap buf ⟨store32 rowIndex, store32 i, 1⟩
        let buf ← push cap buf ⟨store32 rowIndex, store32 j, -1⟩
        pure buf
      else pure buf

/-- utils.py 315-360, `make_delta0`; `n` is `dist_mat.shape[0]`. -/
def makeDelta0 (n : ℕ) (dist : ℕ → ℕ → K) (threshold : K) (T : Table) : Except PyErr SparseMat := do
  let nEdges := (n * (n - 1)) / 2
  let entries ← delta0Loop dist threshold T n (2 * nEdges)
  csrArray nEdges n entries

/-- utils.py 373-425, `_delta1_get_row_columns_values`. -/
def delta1Loop (dist : ℕ → ℕ → K) (threshold : K) (T : Table) (n cap : ℕ) : Except PyErr (List Entry) :=
  (pyRange 0 n).foldlM (init := ([] : List Entry)) fun buf i =>
    (pyRange (i + 1) n).foldlM (init := buf) fun buf j =>
      if dist i j < threshold then
        (pyRange (j + 1) n).foldlM (init := buf) fun buf k =>
          if dist i k < threshold ∧ dist j k < threshold then do
            let rowIndex := cnsD2 i j k T
            let cij := cnsD1 i j T
            let cjk := cnsD1 j k T
            let cik := cnsD1 i k T
            let buf ← push cap buf ⟨store32 rowIndex, store32 cij, 1⟩
            let buf ← push cap buf ⟨store32 rowIndex, store32 cjk, 1⟩
            let buf ← push cap buf ⟨store32 rowIndex, store32 cik, -1⟩
            pure buf
          else pure buf
      else pure buf

/-- utils.py 362-438, `make_delta1`. -/
def makeDelta1 (n : ℕ) (dist : ℕ → ℕ → K) (threshold : K) (T : Table) : Except PyErr SparseMat := do
  let nEdges := (n * (n - 1)) / 2
  let nFaces := numberOfSimplices 2 n T
  let entries ← delta1Loop dist threshold T n (3 * nFaces)
  csrArray nFaces nEdges entries

/-- utils.py 460-515, `_delta1_get_row_columns_values` of the compact version; the state is the used buffer
prefix and `n_actual_faces`. -/
def delta1CompactLoop (dist : ℕ → ℕ → K) (threshold : K) (T : Table) (n cap : ℕ) :
    Except PyErr (List Entry × ℕ) :=
  (pyRange 0 n).foldlM (init := (([], 0) : List Entry × ℕ)) fun st i =>
    (pyRange (i + 1) n).foldlM (init := st) fun st j =>
      if dist i j < threshold then
        (pyRange (j + 1) n).foldlM (init := st) fun st k =>
          if dist i k < threshold ∧ dist j k < threshold then do
            let rowIndex := st.2
            let cij := cnsD1 i j T
            let cjk := cnsD1 j k T
            let cik := cnsD1 i k T
            let buf ← push cap st.1 ⟨store32 rowIndex, store32 cij, 1⟩
            let buf ← push cap buf ⟨store32 rowIndex, store32 cjk, 1⟩
            let buf ← push cap buf ⟨store32 rowIndex, store32 cik, -1⟩
            pure (buf, st.2 + 1)
          else pure st
      else pure st

/-- utils.py 440-528, `make_delta1_compact`. -/
def makeDelta1Compact (n : ℕ) (dist : ℕ → ℕ → K) (threshold : K) (T : Table) : Except PyErr SparseMat := do
  let nEdges := (n * (n - 1)) / 2
  let nFaces := numberOfSimplices 2 n T
  let (entries, nActualFaces) ← delta1CompactLoop dist threshold T n (3 * nFaces)
  csrArray nActualFaces nEdges entries

/-- utils.py 546-616, `_delta2_get_row_columns_values`. -/
def delta2CompactLoop (dist : ℕ → ℕ → K) (threshold : K) (T : Table) (n cap : ℕ) :
    Except PyErr (List Entry × ℕ) :=
  (pyRange 0 n).foldlM (init := (([], 0) : List Entry × ℕ)) fun st i =>
    (pyRange (i + 1) n).foldlM (init := st) fun st j =>
      if dist i j < threshold then
        (pyRange (j + 1) n).foldlM (init := st) fun st k =>
          if dist i k < threshold ∧ dist j k < threshold then
            (pyRange (k + 1) n).foldlM (init := st) fun st l =>
              if dist i l < threshold ∧ dist j l < threshold ∧ dist k l < threshold then do
                let rowIndex := st.2
                let cijk := cnsD2 i j k T
                let cijl := cnsD2 i j l T
                let cikl := cnsD2 i k l T
                let cjkl := cnsD2 j k l T
                let buf ← push cap st.1 ⟨store32 rowIndex, store32 cijk, 1⟩
                let buf ← push cap buf ⟨store32 rowIndex, store32 cijl, -1⟩
                let buf ← push cap buf ⟨store32 rowIndex, store32 cikl, 1⟩
                let buf ← push cap buf ⟨store32 rowIndex, store32 cjkl, -1⟩
                pure (buf, st.2 + 1)
              else pure st
          else pure st
      else pure st

/-- utils.py 530-629, `make_delta2_compact`. -/
def makeDelta2Compact (n : ℕ) (dist : ℕ → ℕ → K) (threshold : K) (T : Table) : Except PyErr SparseMat := do
  let nFaces := numberOfSimplices 2 n T
  let nThree := numberOfSimplices 3 n T
  let (entries, nActualThree) ← delta2CompactLoop dist threshold T n (4 * nThree)
  csrArray nActualThree nFaces entries

end builders

end Dreimac
