# Formal model of DREiMac in Lean 4 — design

## Layout

* `lean/Verif/Model/*.lean` — the model, function by function; each definition cites the `/repo/dreimac` file and lines it models.
* `lean/Verif/Spec/*.lean` — small, model-independent definitions used to state properties (Rips simplices, coboundaries,
  greedy samples, rotations, …).  Some very small specifications stand directly before the theorem that uses them.
* `lean/Verif/Lemmas/*.lean` — helper lemmas.
* `lean/Verif/Props/*.lean` — one theorem (or a few) per property `Cxx`, with a concrete, non-trivial `example` beside it that
  meets the hypotheses.
* `Props/Instances.lean`, `Props/CircularExamples.lean`, `Props/RepairExamples.lean`, `Props/ConstructExamples.lean` — longer worked instances: the theorems are
  applied by name to concrete objects, at the level of complete `get_coordinates` calls.
* `properties.jsonl` (written by `tools/props.py`), `MANIFEST.json` (written by `tools/manifest.py` from the theorem names),
  `seeded/LOG.jsonl` (mutation log, written by `tools/mutate.py` and `tools/log.py`).

## Trusted base

* Lean 4.33.0's kernel, and the statements of the theorems together with `Model/` and `Spec/` as a description of the code and
  of the English properties.
* Axioms: every theorem depends only on `propext`, `Classical.choice`, `Quot.sound` (many on fewer).  No axioms are added;
  there are no incomplete proofs, and no `native_decide` or `bv_decide`.  Computations on literals (counterexamples and
  `example`s) are done by the kernel (`decide +kernel`, `norm_num`, `simp`).
* The correspondence between `Model/` and the Python code was made by reading; it is tested only by the mutation log (does a
  realistic edit of the model break the theorems?) and by the worked examples.

## Modelling decisions

* **Numbers.**  Integer arrays are `ℤ`/`ℕ`; 32-bit stores are explicit wrap-arounds (`store32`).  Floating point is
  replaced by an arbitrary ordered field `K` (usable at `ℚ`, so the model computes) or by `ℝ`/`ℂ` where `π`, `sqrt`, `exp`,
  `arccos`, angles are needed.  **Rounding error is modelled only in C96–C101, C114–C116, C119 and C120** (and `C82_float64_never_terminates`): there every
  operation of `get_cover_radius`, `get_covering_partition`, the final `% (2 pi)`, `get_csm` and `_lll` is followed by a rounding
  function `rnd : K → Fl K`, which is arbitrary up to the laws `Rounding`/`ErrorBound` of `Spec/Rounding`; `float64` is defined
  there as IEEE 754 binary64 (nearest, ties to even, subnormals, overflow) and proved to satisfy them.  The order of summation
  is an arbitrary binary tree, `np.dot` an arbitrary function.  `exp` and `sqrt` are taken as correctly rounded.  Where the behaviour of the code hinges on `nan`/`inf`
  (`get_cover_radius`, `get_covering_partition`, `_sparse_integrate`, `ppca`) values live in
  `Fl K = nan | ±inf | fin x` with IEEE propagation.
* **Exceptions** are values: `Except PyErr α`, with one constructor per exception (and per message where the message matters).
* **Unbounded loops** (`while` in `_lll`, `ppca`) have a fuel parameter; termination theorems say that all sufficiently large
  fuels give the same result, divergence theorems that no fuel suffices.
* **Arrays** are lists or index functions with explicit sizes; numba's unchecked accesses are covered by in-bounds theorems (C15).
* **External routines are parameters**: the result of ripser, `scipy.sparse.linalg.lsqr`, `scipy.optimize.milp`,
  `numpy.linalg.eigh`, `cholesky`, `shortest_path`, `KDTree`, random draws, the histogram of `center`.
  A theorem states as a hypothesis what it needs of them (usually nothing; e.g. C34 holds for any least squares output, C39
  needs an exact minimiser, C20 a correct and complete solver).  What C88–C92 need of ripser is `RipserSpec`: different
  landmarks, their distances, intervals with finite births, arrays of different simplices of landmarks with values modulo `p`,
  and (dimension 1) the cocycle condition below the death.  ripser repeats a landmark if the data has too many duplicate
  points; then `RipserSpec` does not hold.
* **State.**  The object is a state machine; calls of `get_coordinates` mutate the stored cocycles (the lift is in place), the
  stored radius and, for several classes, the stored Gram matrices.  C08, C09, C85 quantify over all histories of calls.
* **numba closures.**  For C51 the model uses numba's rule that an array captured by a jitted closure is frozen as a compile-time
  constant when it is contiguous and has at most 10^6 bytes; this is an assumption about numba, not something in `/repo`.

## What is modelled

| file | model | not modelled |
|---|---|---|
| `combinatorial.py` | all | — |
| `utils.py` `GeometryUtils` | all (`Model/Geometry`, `Model/Geodesic`) | `KDTree.query` and `shortest_path` (parameters with specifications) |
| `utils.py` `CohomologyUtils` | all (`Model/Cochain`, `Model/Coboundary`) | conversion between scipy sparse formats (duplicates are summed) |
| `utils.py` `PartUnity`, `EquivariantPCA` | all (`Model/EMCoords`, `Model/Ppca`) | printed output of `verbose` |
| `utils.py` `GeometryExamples` | all (`Model/Examples`) | the random generator (draws are parameters) |
| `utils.py` `CircleMapUtils`, `ProjectiveMapUtils`, `LensMapUtils` | all (`Model/CircleMap`, `Model/ProjUtils`) | — |
| `emcoords.py` | all (`Model/EMCoords`, `Model/Construct`) | ripser itself (its result is a parameter); printed output |
| `toroidalcoords.py`, `circularcoords.py` | all (`Model/Toroidal`, `Model/LLL`, `Model/Cocycle`) | sparse `lsqr`, `milp`, `cholesky` (parameters) |
| `lenscoords.py`, `projectivecoords.py`, `complexprojectivecoords.py` | all (`Model/ClassMap`, `Model/Cocycle`) | as above |
| `plotting_utils.py` | positions, patches, limits, colour indices, curves, arrows (`Model/Plotting`) | colours, opacity, warnings about the number of columns, matplotlib itself |

## Plan per property

Status as in `MANIFEST.json`.  "False" means that the property, stated as a user would expect it, fails for the code; then the
true part is a theorem with the suffix `_partial`, and the failure is a theorem of its own.

| id | model | proof |
|---|---|---|
| C01–C03 | table, forward indexers | hockey-stick induction on dimension |
| C04–C06 | parity loop, argsort, dense vector | loop invariant: processed set is a union of cycles; `Equiv.Perm.sign` |
| C07–C10 | lift, reindex, object state machine | arithmetic; idempotence; induction over call histories.  C09 false |
| C11–C16 | COO buffers with capacity, int32 stores, csr constructor | foldlM-to-flatMap lemma, nodup + injectivity of C01.  C16 false beyond 65536 / 2345 landmarks |
| C17–C18 | nested loops with early data | fold invariants |
| C19–C23 | repair branch with `milp` oracle, Python truthiness of sparse arrays, unbound name | integrality argument.  C21, C22, C23 false |
| C24–C27 | `get_cover_radius`, constructor sort, class selection | ordered-field arithmetic over `Fl K`.  C25 false |
| C28–C32 | `get_covering_partition` over `Fl K`; dtype cast | finite sums.  C31, C32 false |
| C33–C41, C46, C47 | toroidal pipeline | Čech-cocycle computation; unimodularity invariant over any number of LLL iterations |
| C42–C45, C82 | `_lll`, `_gram_schmidt` | n = 2: Gauss reduction potential; n = 3, 4: termination although Gram–Schmidt is wrong (n = 4: while `b₀, b₁` stay, every swap of `b₂, b₃` shrinks `|q₂|²` by 999/1000, a polynomial inequality proved in `Lemmas/LLL4Poly`); n ≥ 5: a cycle on the first five vectors.  So C82 is settled for every number of classes.  C43 (n ≥ 3), C44 (n ≥ 3), C45, C82 false |
| C48–C58 | class maps, tensors, ppca with eigensolver oracle | algebra over ℂ.  C51, C55 (edge cases), C57, C58 false |
| C59 | class lookup | case analysis |
| C60–C69 | circle/projective/lens utilities | real analysis in Mathlib.  C65 false for antipodal vectors, C68 at the core circle |
| C70–C76 | distances, greedy permutation | loop invariants, pigeonhole.  C74, C76 false with duplicates |
| C77–C81, C86, C87 | example generators, plotting arithmetic | algebra, uniqueness of angles.  C78, C79 false |
| C83–C85 | complete calls | composition of the above: which calls return, with which shape; independence of the history |
| C88 | constructors (`Model/Construct`), ripser's promise (`Spec/Ripser`) | success of every stage of the constructor, C26, relabelling of landmarks |
| C89–C92 | constructor, any history of calls, one call | C88 + C83/C35/C48/C49/C50/C84, translated to statements about data points (`Spec/Dataset`) |
| C93 | table with `int64` entries, wrapping addition (`Model/Combinatorial`) | monotonicity of binomial coefficients; bound of C01 on the indices |
| C94, C95 | two runs of the complete calls and constructors | congruence of every loop in the Rips edges; homogeneity of `Fl` arithmetic; invariance of sums under permutations (`Lemmas/Invariance*`) |
| C96–C100 | `Model/Float`: rounded `get_cover_radius`, `get_covering_partition`, `%`, `get_csm` | laws of rounding functions (monotone, odd, gradual underflow, error bound), proved for every `binary p emin emax` in `Lemmas/Rounding`; induction over the tree of the summation.  C97–C100 partly false |
| C101 | `Model/LLLFloat`: rounded `_lll`, with a ghost list of the column operations | loop invariant; integers up to `2 ^ 53` are machine numbers |
| C102 | `reindexCocycles` after ripser's own renaming of positions to data indices (`toDataIndices`, ripser.py is not in the repository); `toroInit` and `circularGetCoordinates` for the failing call | C10 for different landmarks; invariant of the loop filling `idx_map` for copies; exact minimiser of the energy for the call |
| C103, C104 | `ppca` with an eigenvector routine that keeps NumPy's promise (`Spec/Eigh`: orthonormal eigenvectors, ascending) | rank of `X Xᴴ`; Ky Fan's inequality (`Lemmas/Spectral`); induction over the loops; the spectral theorem shows that such routines exist |
| C105, C106 | the calls of C35; `offset`, `center`, `linear_combination` | numbers of turns (`Spec/Winding`, over Mathlib's `Real.Angle`): within one ball the angle moves by less than half a turn, so the short way is the difference of the lifts of C35; telescoping along the path leaves the values of the cocycle. The bound on the steps is a hypothesis; weights of two points of a common ball always differ by less than 2 in total, so `M ≤ 1/4` suffices |
| C107 | lens and projective calls of C38/C40, with `ppca` in the loop | the reduction is lossless by C103, so inner products of returned rows are those of the class map; in a common ball two class map vectors differ by a character value and positive weights; the character values multiply along the path to the value of the class (`Lemmas/Holonomy`) |
| C108 | the whole calls | the call uses the flag only in `checkAndRepair`; cocycles pass the check (C17, C18), so the loop returns its input |
| C109 | `circle_to_3dnorthpole` as a procedure on the caller's array | case analysis.  False outside the unit disk |
| C110 | arrows and curves of the boundary plots; `stereographic_projection_hemispheres` | limits from both sides of the equator (Mathlib's `Filter.Tendsto`); enumeration of the arrows |
| C111 | constructors and `get_coordinates` of the circular and toroidal coordinates, in the vocabulary of the data set | C89/C90 give a lift on every ball and its transitions; the steps telescope along the path |
| C112 | constructors and `get_coordinates` of the lens and projective coordinates | C88, C84 and C107, translated to data points |
| C113 | `landmark_geodesic_distance` with the neighbour graph | the CSR array is decoded into the rows of the query; `KDTree.query` and `shortest_path` are parameters with the specifications `QuerySpec`, `ShortestPathSpec` (Spec/GeodesicEnv.lean), shown to be satisfiable; chains of neighbours in Spec/Graph.lean |
| C114 | `CircleMapUtils` in rounded arithmetic (`Model/CircleMapFloat`) | the rounding is a parameter with the laws of Spec/Rounding.lean; `sin`, `exp` correctly rounded; instances in `float64` |
| C115 | `_integrate_harmonic_representative` and `_sparse_integrate` in rounded arithmetic (`Model/SparseIntegrateFloat`) on the weights of `getCoveringPartitionF` | error analysis in `float64`; the gluing argument of C08 with the rounding error of the weights; without rounding the model is `sparseIntegrate` (`sparseIntegrateF_exact`); fused multiply-add not modelled; that balls with a common point have joined landmarks is a hypothesis (it is the triangle inequality, which rounded distances need not satisfy) |
| C116 | the model of C115; number of turns by shortest steps (`Spec/FloatTurns`), value of the cocycle on a path `loopVal` (`Spec/Winding`) | C115 with its integer transition numbers; the errors of the two ends of a step do not accumulate, since the total is an integer |
| C117 | the models of `get_coordinates` of C01/C08/C35: a call and a second one, after any history, with a permuted list of classes | the selected classes, the common support, the lifted and repaired cocycles are permutations of each other (`Lemmas/ClassOrder`); the basis changes of the two calls are unimodular (`callWitness`), compose them with the permutation. NaN birth or death times of the classes are excluded: Python's `max` depends on the order with NaN |
| C118 | constructor and calls as in C88/C89; farthest point sampling of the landmarks and groups of small diameter (`Spec/Landmarks`) | C29 for the stored distances; pigeonhole principle on the landmarks and an uncovered row; monotonicity of the radius (C24) |
| C119 | the specification of ripser takes the conversion `ρ` of distances to its own precision as a parameter (`RipserSpec ρ`, `Converts ρ u η`, `single`: 32-bit floats); C88–C92, C111, C112 hold for every `ρ` if the threshold stays below the death in ripser's precision | error of the conversion at the threshold against the lifetime left by `perc`; a square with a distance `4 - 2^-24` for the failure at `perc = 1` (**partial**: false at `perc = 1`) |
| C120 | `get_cover_radius` in float64 (C99), distances `float64 (δ u i)` of a metric `δ`; coordinates as in C116 | rounding commutes with doubling above the subnormal range (`roundUnbounded_double`), monotonicity of rounding; C116 |
| C121 | constructor, any history, one call (`Spec/Outcomes`: the list of outcomes) | every stage's errors listed (`coordData_error`, `repairLoop_errors`, `finishCoords_ends`), termination of `_lll` for n ≤ 4 (C42, C82); `call_by_gram`: a call is determined by the Gram matrix; five classes: five squares (`Props/FiveSquares`) |
| C122 | constructors, any history, one call of the three projective classes (`Spec/ProjOutcomes`: the table) | stage by stage (`select_outcome`, `radius_outcome`, `covering_ok`, `ppca_outcome`); `C122_rows_exclude`: the rows of the table exclude each other; history by C85 |
| C123 | constructors, any history, one call of `LensCoords` with prime 2 and of `ProjectiveCoords` | the whole call commutes with the inclusion of ℝ in ℂ, stage by stage (`lensMatrix_two`, `flatClassMap_toComplex`, `ppca_toComplex`), histories by induction; the second part by `C103_lossless` and the uniqueness of weights and first balls; `exists_sameEigenvectors`: the assumption on the routines can be met |
| C124 | constructor, any history, one call with `proj_dim = n_landmarks - 1`; closed surfaces as half-edge structures (`Spec/Surface.lean`) | C92 and `C103_lossless` give the inner products of the returned rows; in the ball of one landmark these have a small phase (`PhaseData.inner_cone`: a sum of vectors in a cone), the phases of the two sides of an edge differ by the transition phases (`PhaseData.chern`), whose sum telescopes around each corner to values of the cocycle. Partial because the claim is false for class maps of at most 10^6 bytes (`C124_small_data`: all phases are zero, finding 6); the example shows a surface on which the class has the value 1 |
| C125 | constructors, any history, one call of each class; the three bump functions | the normalised weights of two nearby points differ by at most `2 k Λ ε / m` in total (`NearbyPoints.weights`); angles: both lifts in the common ball, whose difference is a sum of values of the form times changes of weights; rows: the inner product of the vectors of the common ball is `∑ √(w w')`, at least one minus half the change of weights (`overlap`), the change of ball is a phase and the reduction keeps inner products (`C103_lossless`); for complex projective coordinates the phases differ little (`PhaseData.phase_step`) |
| C126 | constructors, any history, two calls of `CircularCoords.get_coordinates` or one toroidal call; closed surfaces as in C113 / C124 | lift both coordinates in the ball of each polygon: across an edge the two lifts differ by the integers `c (ℓ g) (ℓ f)`; summing the signed areas over the edges, the products of weights cancel in pairs and the cup product remains (`Transitions.area`, `degree_of_coordinates`); it is even (`Transitions.even`), and two unrollings differ by a translation of each polygon, which does not change its area (`area_shift`, `unrolls_shift`) |
| C127 | two constructors with different primes, any histories, one call each | the lifted arrays have the same dense vectors (the lift is the unique small representative, the dense vector is determined by its values on the edges or triangles), so the check passes for both or is off, and the rest of the call reads neither the prime nor the arrays (`call_eq_of_cocycles`) |
| C128 | two constructors on two formats of the same data; any histories and calls | the stored distances are those of the landmarks in all formats (`realDist_format`), everything else comes from ripser's result; added columns do not matter by C94 |
| C129 | one constructor, two calls with any histories and options | C111 for both calls; the small integer lift is unique (`IsSmallestLift`) and a lift at the larger threshold is one at the smaller; the unimodular matrix is the quotient of the two basis changes |
| C130 | `ppca` in every mode as one normalised orthogonal projection; `LensCoords`, `ProjectiveCoords` with any dimension | the compositions of the stages are projections by induction over the stages (`stage_projection`); Cauchy-Schwarz for the residuals; the unreduced inner products are `overlap * χ(k)` with `∑ k` = minus the class (`loop_values`); sectors of angle `π/p` are disjoint |
| C131 | `ComplexProjectiveCoords` with any dimension | C130 for the projection; the phases of C124 plus an error per edge that changes sign with the direction of the edge, so that the errors cancel over a closed surface (`PhaseData.chern_reduced`) |
| C132 | nonzero classes give essential coordinates | ripser's promise about births is a hypothesis (`BornAt`, `IndependentAt`: the cocycle is not a difference mod p on the Rips complex at the birth). Circular/toroidal: if the coordinate were the reduction of g, the integers L − g would be constant on each ball, hence make the cocycle a difference; lens/projective: a cocycle that is no difference has a closed path with nonzero value (`exists_closed_path`), followed by data points (`exists_dataLoop`), then C112; with fewer dimensions C130 |
| C133 | geodesic distances through to the coordinates | C113 (chain distances in the neighbour graph, `DescribesData` of the array) + triangle inequality along one edge (a chain to one end, extended by the edge, bounds the distance of the other end): a closed path of neighbours is a `DataLoop`; then C111 and C112. Same oracles as C113 (KDTree, shortest_path) and C111 |
| C134 | complex projective coordinates of a nonzero class are not a choice of vectors | `BornAt2` (not a coboundary mod p at the birth) is a hypothesis. If phases made all inner products on common balls nearly positive, the phases of the vectors computed with the ball of u, times the chosen phases, would lift to real functions that change by less than 1/3 turn on the ball of u; their differences minus the transition phases are integers that are constant on common balls, and their coboundary is c (`PhaseData.unrolled_core`); with fewer dimensions the projection of C131 changes the phases by less than η. False for small data sets (negative theorem `C134_small_data`), hence partial |
| C135 | Hopf map of `proj_dim = 1` coordinates covers the sphere as often as the class says | `sphericalArea` is the van Oosterom–Strackee formula for the signed area of a spherical triangle; the Bargmann identity (4 times the product of the three inner products = 1 + x·y + y·z + z·x − i det(x, y, z) for the Hopf images) turns the phase around a triangle into half of its signed area; summed with C131. That the total signed area of the triangles is 4π times the degree is not proved |
| C136 | radius and variances stored by a sequence of calls | one call on an arbitrary object (`StoresAs`), by going through the statements; then all histories by induction, with the selected interval unchanged by earlier calls (as in C85); for circular and toroidal coordinates the same with the common support of the selected classes (`ToroStoresAs`, `KeepsToroState`), radius and Gram matrices |
| C137 | the stored cocycle arrays after a sequence of calls: which are lifted, which are not | induction over the calls (`rewrites_of`): a call lifts the arrays at the named positions exactly if its selection succeeds (C136, `overlapping_iff`); the lift is idempotent; negative indices name the same position |
| C138 | `get_stereo_proj_codim1` after `ProjectiveCoords` | the rotation is an isometry (C65), so the pairing of two plotted points is the inner product of the rows times the two signs of the hemispheres and a positive factor; along a closed path every sign occurs twice; then C130 |

C34–C45 share one specification of what a complete call has to do with (`CoordinateData`: the selected classes in the stored
state, the radius, the partition of unity, the integer lift, the potentials); C20, C21 and C23 are stated both for the repair of one
class and for a complete call with any number of classes.

All properties can be expressed in the model; none is marked not_applicable.

## Disagreements between the code and its documentation found on the way

1. `get_coordinates` lifts the stored cocycles in place, so `get_representative_cocycle` later reports negative values (C09);
   results are nevertheless repeatable (C08).
2. Row and column indices are 32-bit: silent corruption of `delta0` from 92683 landmarks on (C16).
3. Two selected classes that both need repair: `ValueError` from the truth value of a sparse array (C21).
   `ComplexProjectiveCoords` repairs with an unbound name (C22).  The error message names the position, not the class (C23).
4. Essential classes have no finite radius (C25).  Integer distance matrices are truncated (C31).  The reported coverage is
   always 0 (C32).
5. `_gram_schmidt` projects the current column on *original* columns, so it is not orthogonal from three columns on (C44);
   the energy can grow (C43) and `_lll` can cycle forever with five or more classes (C82; with at most four it always ends); a whole
   call on a data set made of five squares then never returns (C121).  The stored Gram matrix is not that of the
   returned coordinates (C45).
6. numba freezes the class map array in `ComplexProjectiveCoords._sparse_integrate` for small data (C51); so the coordinates of small data sets do not detect the class (C124).
7. `ppca`: too large dimensions (C55), variances zero or not conjugated (C57), one `nan` row spoils all rows (C58).
8. `rotmat(-b, b)` is the identity (C65); `lens_3D_to_disk_3D` is not invariant where the first coordinate is 0 (C68).
9. Greedy sampling of duplicates repeats index 0 (C74), and `landmark_geodesic_distance` then returns no permutation (C76).
10. `moving_dot` ignores `dim` (C78); `moore_space_distance_matrix` is not symmetric and returns a pair (C79).
11. Floating point: the exponential and the quadratic bump functions underflow, so covered points near the boundary of their balls
    are reported as uncovered (C97); a coordinate may be exactly `2 pi` (C98); the threshold may leave the lifetime by a unit in
    the last place (C99); `get_csm` loses the distances of points far from the origin (C100); `_lll` does not terminate on
    orthogonal vectors of subnormal squared length (C82).
12. Repeated landmarks (data with fewer different points than landmarks): all copies are stored as the last one, the stored class is no
    longer a cocycle, the repair step rounds the violation away and the call returns coordinates that do not represent the class
    (C102).
13. Not about a property: `LensCoords` documents `complex_dim - 1` columns and returns `complex_dim`; `torus_3d` documents 4
    columns and returns 3; `np.complex_` was removed in NumPy 2; `n_landmarks=0` makes ripser use all points; an empty list of
    classes raises `ValueError`; `ComplexProjectiveCoords(maxdim=1)` raises `IndexError`.
